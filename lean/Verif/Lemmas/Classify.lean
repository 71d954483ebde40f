import Verif.Model.Classify
import Verif.Lemmas.Path

/-! # Helper lemmas for the classifier -/

namespace Verif.Classify

open Verif.Path

/-- The first answer that is not `None`. -/
def orR (a b : Res) : Res :=
  match a with
  | .pass => b
  | r => r

theorem first_append (f : Str) (a b : List (Str → Res)) :
    first f (a ++ b) = orR (first f a) (first f b) := by
  induction a with
  | nil => rfl
  | cons g a ih =>
    rw [List.cons_append]
    cases hg : g f <;> simp only [first, hg, orR]
    · exact ih

theorem orR_assoc (a b c : Res) : orR (orR a b) c = orR a (orR b c) := by
  cases a <;> rfl

theorem first_on (f : Str) (dir : Option Str) (fn : Str → Str → Res) (c : Str → Prop)
    (res : Str → Res) (h1 : ∀ x, c x → fn x f = res x) (h2 : ∀ x, ¬ c x → fn x f = .pass) :
    ((¬ ∃ x, dir = some x ∧ x ≠ [] ∧ c x) ∧ first f (on dir fn) = .pass) ∨
    ∃ x, dir = some x ∧ x ≠ [] ∧ c x ∧ first f (on dir fn) = res x := by
  cases dir with
  | none => left; exact ⟨fun ⟨x, h, _⟩ => by simp at h, rfl⟩
  | some x =>
    cases x with
    | nil => left; exact ⟨fun ⟨x, h, hx, _⟩ => hx (Option.some.inj h).symm, rfl⟩
    | cons a l =>
      have e : first f (on (some (a :: l)) fn) = fn (a :: l) f := by
        show (match fn (a :: l) f with | .pass => Res.pass | r => r) = _
        cases fn (a :: l) f <;> rfl
      by_cases hc : c (a :: l)
      · right; exact ⟨a :: l, rfl, by simp, hc, by rw [e, h1 _ hc]⟩
      · left
        refine ⟨?_, by rw [e, h2 _ hc]⟩
        rintro ⟨x, h, _, hx⟩
        cases h
        exact hc hx

/-- The extensions of unit files in the directory of jobs. -/
def JobsExt (f : Str) : Prop := HasExt f ".txt".toList ∨ HasExt f ".in".toList ∨ HasExt f ".pxu".toList

/-- The extensions of unit files in the directory of units. -/
def UnitsExt (f : Str) : Prop := HasExt f ".txt".toList ∨ HasExt f ".pxu".toList

theorem not_hasExt_txtIn (f : Str) : ¬ HasExt f ".txt.in".toList := by
  rintro ⟨pre, stem, r, _, _, _, he, _, hd, _⟩
  have : r = "txt.in".toList := by
    have h : ".txt.in".toList = '.' :: "txt.in".toList := by decide +kernel
    rw [h] at he
    exact (List.cons.inj he).2.symm
  subst this
  exact hd (by decide +kernel)

theorem jobsExt_iff (f : Str) : ext f ∈ [".txt".toList, ".in".toList, ".pxu".toList] ↔ JobsExt f := by
  unfold JobsExt
  rw [List.mem_cons, List.mem_cons, List.mem_singleton, ext_iff (by decide), ext_iff (by decide),
    ext_iff (by decide)]

theorem unitsExt_iff (f : Str) : ext f ∈ [".txt".toList, ".txt.in".toList, ".pxu".toList] ↔
    UnitsExt f := by
  unfold UnitsExt
  rw [List.mem_cons, List.mem_cons, List.mem_singleton, ext_iff (by decide), ext_iff (by decide),
    ext_iff (by decide)]
  constructor
  · rintro (h | h | h)
    · exact .inl h
    · exact absurd h (not_hasExt_txtIn f)
    · exact .inr h
  · rintro (h | h)
    · exact .inl h
    · exact .inr (.inr h)

variable (d : Dirs) (fs : Fs) (f : Str)

/-- The file name starts with a directory name that is set. -/
def Starts (dir : Option Str) (f x : Str) : Prop := dir = some x ∧ x ≠ [] ∧ x <+: f

def JobsSrc : Prop := ∃ x, Starts d.jobs f x ∧ JobsExt f
def UnitsSrc : Prop := ∃ x, Starts d.units f x ∧ UnitsExt f
def InData : Prop := ∃ x, Starts d.data f x
def InBin : Prop := ∃ x, Starts d.bin f x ∧ fs.access f = true
def InBuilt : Prop := ∃ x, Starts d.buildBin f x ∧ fs.access f = true ∧ fs.executables (basename f) = true
def InMo : Prop := ∃ x, Starts d.buildMo f x ∧ HasExt f ".mo".toList
def InBuild : Prop := ∃ x, Starts d.build f x
def InPo : Prop := ∃ x, d.po = some x ∧ x ≠ [] ∧ dirname f = x ∧
  (HasExt f ".po".toList ∨ HasExt f ".pot".toList ∨ basename f = "POTFILES.in".toList)
def InSrc : Prop := ∃ x, Starts d.src f x

/-- No directory claims the file. -/
def Loose : Prop := ¬ JobsSrc d f ∧ ¬ UnitsSrc d f ∧ ¬ InData d f ∧ ¬ InBin d fs f ∧ ¬ InBuilt d fs f ∧
  ¬ InMo d f ∧ ¬ InBuild d f ∧ ¬ InPo d f ∧ ¬ InSrc d f

/-- What the classifier answers, and why. -/
inductive Why : Res → Prop
  | jobs {x} : Starts d.jobs f x → JobsExt f → Why (.found .unitSource (some x) .units)
  | units {x} : ¬ JobsSrc d f → Starts d.units f x → UnitsExt f →
      Why (.found .unitSource (some x) .units)
  | data {x} : ¬ JobsSrc d f → ¬ UnitsSrc d f → Starts d.data f x → Why (.found .data (some x) .content)
  | exec {x} : ¬ JobsSrc d f → ¬ UnitsSrc d f → ¬ InData d f → Starts d.bin f x → fs.access f = true →
      Why (execRole (fs.hashBang f) x)
  | built {x} : ¬ JobsSrc d f → ¬ UnitsSrc d f → ¬ InData d f → ¬ InBin d fs f → Starts d.buildBin f x →
      fs.access f = true → fs.executables (basename f) = true → Why (execRole (fs.hashBang f) x)
  | i18n {x} : ¬ JobsSrc d f → ¬ UnitsSrc d f → ¬ InData d f → ¬ InBin d fs f → ¬ InBuilt d fs f →
      Starts d.buildMo f x → HasExt f ".mo".toList → Why (.found .i18n d.buildBin .content)
  | build {x} : ¬ JobsSrc d f → ¬ UnitsSrc d f → ¬ InData d f → ¬ InBin d fs f → ¬ InBuilt d fs f →
      ¬ InMo d f → Starts d.build f x → Why (.found .build (some x) .none)
  | po : ¬ JobsSrc d f → ¬ UnitsSrc d f → ¬ InData d f → ¬ InBin d fs f → ¬ InBuilt d fs f →
      ¬ InMo d f → ¬ InBuild d f → InPo d f → Why (.found .src d.base .none)
  | src {x} : ¬ JobsSrc d f → ¬ UnitsSrc d f → ¬ InData d f → ¬ InBin d fs f → ¬ InBuilt d fs f →
      ¬ InMo d f → ¬ InBuild d f → ¬ InPo d f → Starts d.src f x → Why (.found .src d.base .none)
  | legal {b} : Loose d fs f → d.base = some b → b ≠ [] → basename f ∈ legalSet →
      Why (.found .legal (some b) .content)
  | docs {b} : Loose d fs f → d.base = some b → b ≠ [] → basename f ∉ legalSet → basename f ∈ docSet →
      Why (.found .docs (some b) .content)
  | managePy {b} : Loose d fs f → d.base = some b → b ≠ [] → basename f ∉ legalSet →
      basename f ∉ docSet → join b "manage.py".toList = f → Why (.found .managePy (some b) .none)
  | vcs {b r} : Loose d fs f → d.base = some b → b ≠ [] → basename f ∉ legalSet → basename f ∉ docSet →
      join b "manage.py".toList ≠ f → vcsFn b f = r → r ≠ .pass → Why r
  | unknown : Loose d fs f → (∀ b, d.base = some b → b ≠ [] → basename f ∉ legalSet ∧
      basename f ∉ docSet ∧ join b "manage.py".toList ≠ f ∧ vcsFn b f = .pass) →
      Why (.found .unknown d.base .none)

theorem startsWith_iff (x : Str) : startsWith f x = true ↔ x <+: f := by
  unfold startsWith; exact List.isPrefixOf_iff_prefix

theorem why : Why d fs f (classify d fs f) := by
  have e : classify d fs f = orR (first f (on d.jobs pxuJobs)) (orR (first f (on d.units pxuUnits))
      (orR (first f (on d.data dataFn)) (orR (first f (on d.bin (execFn fs)))
      (orR (first f (on d.buildBin (builtExec fs))) (orR (first f (on d.buildMo (builtI18n d)))
      (orR (first f (on d.build buildFn)) (orR (first f (on d.po (poFn d)))
      (orR (first f (on d.src (srcFn d))) (orR (first f (on d.base legalFn))
      (orR (first f (on d.base docsFn)) (orR (first f (on d.base managePy))
      (orR (first f (on d.base vcsFn)) (first f [unknownFn d]))))))))))))) := by
    simp only [classify, fnList, first_append, orR_assoc]
  rw [e]
  rcases first_on f d.jobs pxuJobs (fun x => x <+: f ∧ JobsExt f)
      (fun x => .found .unitSource (some x) .units)
      (by intro x hx; rw [pxuJobs, if_pos ((startsWith_iff f x).mpr hx.1),
            if_pos ((jobsExt_iff f).mpr hx.2)])
      (by
        intro x hx
        rw [pxuJobs]
        split
        · next h => rw [if_neg (fun h2 => hx ⟨(startsWith_iff f x).mp h, (jobsExt_iff f).mp h2⟩)]
        · rfl) with ⟨n1, r1⟩ | ⟨x, hx, hne, hc, r1⟩
  case inr => rw [r1]; exact .jobs ⟨hx, hne, hc.1⟩ hc.2
  replace n1 : ¬ JobsSrc d f := fun ⟨x, ⟨h1, h2, h3⟩, h4⟩ => n1 ⟨x, h1, h2, h3, h4⟩
  rw [r1, orR]
  rcases first_on f d.units pxuUnits (fun x => x <+: f ∧ UnitsExt f)
      (fun x => .found .unitSource (some x) .units)
      (by intro x hx; rw [pxuUnits, if_pos ((startsWith_iff f x).mpr hx.1),
            if_pos ((unitsExt_iff f).mpr hx.2)])
      (by
        intro x hx
        rw [pxuUnits]
        split
        · next h => rw [if_neg (fun h2 => hx ⟨(startsWith_iff f x).mp h, (unitsExt_iff f).mp h2⟩)]
        · rfl) with ⟨n2, r2⟩ | ⟨x, hx, hne, hc, r2⟩
  case inr => rw [r2]; exact .units n1 ⟨hx, hne, hc.1⟩ hc.2
  replace n2 : ¬ UnitsSrc d f := fun ⟨x, ⟨h1, h2, h3⟩, h4⟩ => n2 ⟨x, h1, h2, h3, h4⟩
  rw [r2, orR]
  rcases first_on f d.data dataFn (fun x => x <+: f) (fun x => .found .data (some x) .content)
      (by intro x hx; rw [dataFn, if_pos ((startsWith_iff f x).mpr hx)])
      (by intro x hx; rw [dataFn, if_neg (fun h => hx ((startsWith_iff f x).mp h))]) with
    ⟨n3, r3⟩ | ⟨x, hx, hne, hc, r3⟩
  case inr => rw [r3]; exact .data n1 n2 ⟨hx, hne, hc⟩
  replace n3 : ¬ InData d f := fun ⟨x, h1, h2, h3⟩ => n3 ⟨x, h1, h2, h3⟩
  rw [r3, orR]
  rcases first_on f d.bin (execFn fs) (fun x => x <+: f ∧ fs.access f = true)
      (fun x => execRole (fs.hashBang f) x)
      (by intro x hx
          rw [execFn, if_pos (Bool.and_eq_true_iff.mpr ⟨(startsWith_iff f x).mpr hx.1, hx.2⟩)])
      (by intro x hx
          rw [execFn, if_neg (fun h => hx ⟨(startsWith_iff f x).mp (Bool.and_eq_true_iff.mp h).1,
            (Bool.and_eq_true_iff.mp h).2⟩)]) with ⟨n4, r4⟩ | ⟨x, hx, hne, hc, r4⟩
  case inr =>
    rw [r4]
    have : ∀ c, orR (execRole (fs.hashBang f) x) c = execRole (fs.hashBang f) x := by
      intro c; unfold execRole; cases fs.hashBang f with
      | none => rfl
      | some b => cases b <;> rfl
    rw [this]
    exact .exec n1 n2 n3 ⟨hx, hne, hc.1⟩ hc.2
  replace n4 : ¬ InBin d fs f := fun ⟨x, ⟨h1, h2, h3⟩, h4⟩ => n4 ⟨x, h1, h2, h3, h4⟩
  rw [r4, orR]
  rcases first_on f d.buildBin (builtExec fs)
      (fun x => x <+: f ∧ fs.access f = true ∧ fs.executables (basename f) = true)
      (fun x => execRole (fs.hashBang f) x)
      (by intro x hx
          rw [builtExec, if_pos (Bool.and_eq_true_iff.mpr ⟨Bool.and_eq_true_iff.mpr
            ⟨(startsWith_iff f x).mpr hx.1, hx.2.1⟩, hx.2.2⟩)])
      (by intro x hx
          rw [builtExec, if_neg (fun h => hx
            ⟨(startsWith_iff f x).mp (Bool.and_eq_true_iff.mp (Bool.and_eq_true_iff.mp h).1).1,
            (Bool.and_eq_true_iff.mp (Bool.and_eq_true_iff.mp h).1).2,
            (Bool.and_eq_true_iff.mp h).2⟩)]) with ⟨n5, r5⟩ | ⟨x, hx, hne, hc, r5⟩
  case inr =>
    rw [r5]
    have : ∀ c, orR (execRole (fs.hashBang f) x) c = execRole (fs.hashBang f) x := by
      intro c; unfold execRole; cases fs.hashBang f with
      | none => rfl
      | some b => cases b <;> rfl
    rw [this]
    exact .built n1 n2 n3 n4 ⟨hx, hne, hc.1⟩ hc.2.1 hc.2.2
  replace n5 : ¬ InBuilt d fs f := fun ⟨x, ⟨h1, h2, h3⟩, h4, h5⟩ => n5 ⟨x, h1, h2, h3, h4, h5⟩
  rw [r5, orR]
  rcases first_on f d.buildMo (builtI18n d) (fun x => x <+: f ∧ HasExt f ".mo".toList)
      (fun _ => .found .i18n d.buildBin .content)
      (by intro x hx
          rw [builtI18n, if_pos (Bool.and_eq_true_iff.mpr ⟨(startsWith_iff f x).mpr hx.1,
            decide_eq_true ((ext_iff (by decide)).mpr hx.2)⟩)])
      (by intro x hx
          rw [builtI18n, if_neg (fun h => hx ⟨(startsWith_iff f x).mp (Bool.and_eq_true_iff.mp h).1,
            (ext_iff (by decide)).mp (of_decide_eq_true (Bool.and_eq_true_iff.mp h).2)⟩)]) with
    ⟨n6, r6⟩ | ⟨x, hx, hne, hc, r6⟩
  case inr => rw [r6]; exact .i18n n1 n2 n3 n4 n5 ⟨hx, hne, hc.1⟩ hc.2
  replace n6 : ¬ InMo d f := fun ⟨x, ⟨h1, h2, h3⟩, h4⟩ => n6 ⟨x, h1, h2, h3, h4⟩
  rw [r6, orR]
  rcases first_on f d.build buildFn (fun x => x <+: f) (fun x => .found .build (some x) .none)
      (by intro x hx; rw [buildFn, if_pos ((startsWith_iff f x).mpr hx)])
      (by intro x hx; rw [buildFn, if_neg (fun h => hx ((startsWith_iff f x).mp h))]) with
    ⟨n7, r7⟩ | ⟨x, hx, hne, hc, r7⟩
  case inr => rw [r7]; exact .build n1 n2 n3 n4 n5 n6 ⟨hx, hne, hc⟩
  replace n7 : ¬ InBuild d f := fun ⟨x, h1, h2, h3⟩ => n7 ⟨x, h1, h2, h3⟩
  rw [r7, orR]
  have hpo : (ext f ∈ [".po".toList, ".pot".toList] ∨ basename f = "POTFILES.in".toList) ↔
      (HasExt f ".po".toList ∨ HasExt f ".pot".toList ∨ basename f = "POTFILES.in".toList) := by
    rw [List.mem_cons, List.mem_singleton, ext_iff (by decide), ext_iff (by decide), or_assoc]
  rcases first_on f d.po (poFn d) (fun x => dirname f = x ∧ (HasExt f ".po".toList ∨
        HasExt f ".pot".toList ∨ basename f = "POTFILES.in".toList))
      (fun _ => .found .src d.base .none)
      (by intro x hx; rw [poFn, if_pos ⟨hx.1, hpo.mpr hx.2⟩])
      (by intro x hx; rw [poFn, if_neg (fun h => hx ⟨h.1, hpo.mp h.2⟩)]) with
    ⟨n8, r8⟩ | ⟨x, hx, hne, hc, r8⟩
  case inr => rw [r8]; exact .po n1 n2 n3 n4 n5 n6 n7 ⟨x, hx, hne, hc⟩
  replace n8 : ¬ InPo d f := n8
  rw [r8, orR]
  rcases first_on f d.src (srcFn d) (fun x => x <+: f) (fun _ => .found .src d.base .none)
      (by intro x hx; rw [srcFn, if_pos ((startsWith_iff f x).mpr hx)])
      (by intro x hx; rw [srcFn, if_neg (fun h => hx ((startsWith_iff f x).mp h))]) with
    ⟨n9, r9⟩ | ⟨x, hx, hne, hc, r9⟩
  case inr => rw [r9]; exact .src n1 n2 n3 n4 n5 n6 n7 n8 ⟨hx, hne, hc⟩
  replace n9 : ¬ InSrc d f := fun ⟨x, h1, h2, h3⟩ => n9 ⟨x, h1, h2, h3⟩
  rw [r9, orR]
  have L : Loose d fs f := ⟨n1, n2, n3, n4, n5, n6, n7, n8, n9⟩
  rcases first_on f d.base legalFn (fun _ => basename f ∈ legalSet)
      (fun b => .found .legal (some b) .content)
      (by intro x hx; rw [legalFn, if_pos hx]) (by intro x hx; rw [legalFn, if_neg hx]) with
    ⟨n10, r10⟩ | ⟨x, hx, hne, hc, r10⟩
  case inr => rw [r10]; exact .legal L hx hne hc
  rw [r10, orR]
  rcases first_on f d.base docsFn (fun _ => basename f ∈ docSet)
      (fun b => .found .docs (some b) .content)
      (by intro x hx; rw [docsFn, if_pos hx]) (by intro x hx; rw [docsFn, if_neg hx]) with
    ⟨n11, r11⟩ | ⟨x, hx, hne, hc, r11⟩
  case inr => rw [r11]; exact .docs L hx hne (fun h => n10 ⟨x, hx, hne, h⟩) hc
  rw [r11, orR]
  rcases first_on f d.base managePy (fun b => join b "manage.py".toList = f)
      (fun b => .found .managePy (some b) .none)
      (by intro x hx; rw [managePy, if_pos hx]) (by intro x hx; rw [managePy, if_neg hx]) with
    ⟨n12, r12⟩ | ⟨x, hx, hne, hc, r12⟩
  case inr =>
    rw [r12]
    exact .managePy L hx hne (fun h => n10 ⟨x, hx, hne, h⟩) (fun h => n11 ⟨x, hx, hne, h⟩) hc
  rw [r12, orR]
  rcases first_on f d.base vcsFn (fun b => vcsFn b f ≠ .pass) (fun b => vcsFn b f)
      (by intro x hx; rfl) (by intro x hx; exact Classical.not_not.mp hx) with
    ⟨n13, r13⟩ | ⟨x, hx, hne, hc, r13⟩
  case inr =>
    rw [r13]
    have : ∀ c, orR (vcsFn x f) c = vcsFn x f := by
      intro c; unfold orR; split
      · next h => exact absurd h hc
      · rfl
    rw [this]
    exact .vcs L hx hne (fun h => n10 ⟨x, hx, hne, h⟩) (fun h => n11 ⟨x, hx, hne, h⟩)
      (fun h => n12 ⟨x, hx, hne, h⟩) rfl hc
  rw [r13, orR]
  refine .unknown L ?_
  intro b hb hne
  exact ⟨fun h => n10 ⟨b, hb, hne, h⟩, fun h => n11 ⟨b, hb, hne, h⟩, fun h => n12 ⟨b, hb, hne, h⟩,
    Classical.not_not.mp fun h => n13 ⟨b, hb, hne, h⟩⟩

/-! ## The loop over the heads of a path -/

theorem vcsLoop_slashes {b p : Str} (hp : ∀ c ∈ p, c = '/') (h : ¬ (p = b ∨ p = [] ∨ p = ['/'])) :
    ∀ n, vcsLoop b n p = .hangs := by
  intro n
  induction n with
  | zero => rfl
  | succ n ih =>
    rw [vcsLoop, if_neg h, (dirname_slashes hp).1, (dirname_slashes hp).2, if_neg (by decide +kernel)]
    exact ih

/-- The bound on the number of rounds is never the reason for hanging. -/
theorem vcsLoop_hangs {b : Str} : ∀ (n : Nat) (p : Str), p.length < n → vcsLoop b n p = .hangs →
    ∀ m, vcsLoop b m p = .hangs := by
  intro n
  induction n with
  | zero => intro p h; omega
  | succ n ih =>
    intro p hl h m
    cases m with
    | zero => rfl
    | succ m =>
      rw [vcsLoop] at h ⊢
      split at h
      · cases h
      · next h1 =>
        rw [if_neg h1]
        split at h
        · cases h
        · next h2 =>
          rw [if_neg h2]
          by_cases hs : ∃ c ∈ p, c ≠ '/'
          · refine ih _ ?_ h m
            have := dirname_shorter hs
            omega
          · have hs' : ∀ c ∈ p, c = '/' := fun c hc => Classical.not_not.mp fun h => hs ⟨c, hc, h⟩
            rw [(dirname_slashes hs').1]
            exact vcsLoop_slashes hs' h1 m

/-- Paths that do not start with two slashes are dealt with in finitely many rounds. -/
theorem vcsLoop_stops {b : Str} : ∀ (n : Nat) (p : Str), p.length < n → ¬ ['/', '/'] <+: p →
    vcsLoop b n p ≠ .hangs := by
  intro n
  induction n with
  | zero => intro p h; omega
  | succ n ih =>
    intro p hl hp
    rw [vcsLoop]
    split
    · intro h; cases h
    · next h1 =>
      split
      · intro h; cases h
      · by_cases hs : ∃ c ∈ p, c ≠ '/'
        · refine ih _ ?_ (fun h => hp (h.trans (dirname_prefix p)))
          have := dirname_shorter hs
          omega
        · exfalso
          have hs' : ∀ c ∈ p, c = '/' := fun c hc => Classical.not_not.mp fun h => hs ⟨c, hc, h⟩
          cases p with
          | nil => exact h1 (.inr (.inl rfl))
          | cons a l =>
            cases l with
            | nil => exact h1 (.inr (.inr (by rw [hs' a List.mem_cons_self])))
            | cons a' l =>
              apply hp
              rw [hs' a (by simp), hs' a' (by simp)]
              exact ⟨l, rfl⟩

/-- The file below `b` with these components. -/
def below (b : Str) (comps : List Str) : Str := b ++ comps.flatMap ('/' :: ·)

theorem below_snoc (b : Str) (cs : List Str) (c : Str) : below b (cs ++ [c]) = below b cs ++ '/' :: c := by
  simp [below]

theorem below_end {b : Str} (hb : b ≠ []) (hbe : b.getLast? ≠ some '/') : ∀ (cs : List Str),
    (∀ c ∈ cs, c ≠ [] ∧ '/' ∉ c) → below b cs ≠ [] ∧ (below b cs).getLast? ≠ some '/' := by
  intro cs hcs
  refine ⟨by simp [below, hb], ?_⟩
  rcases List.eq_nil_or_concat cs with rfl | ⟨l, c, rfl⟩
  · simpa [below] using hbe
  · rw [List.concat_eq_append, below_snoc]
    have hc := hcs c (by simp)
    obtain ⟨h1, h2⟩ := hc
    rw [List.getLast?_append, List.getLast?_cons]
    intro h
    cases hl : c.getLast? with
    | none => exact h1 (List.getLast?_eq_none_iff.mp hl)
    | some z =>
      rw [hl] at h
      have hz : z = '/' := by simpa using h
      subst hz
      exact h2 (List.mem_of_getLast? hl)

theorem vcsLoop_below {b : Str} (hb : b ≠ []) (hbe : b.getLast? ≠ some '/') : ∀ (n : Nat) (cs : List Str),
    cs.length < n → (∀ c ∈ cs, c ≠ [] ∧ '/' ∉ c) →
    vcsLoop b n (below b cs) =
      if ∃ c ∈ cs, c = ".git".toList ∨ c = ".bzr".toList then .found .vcs (some b) .none else .pass := by
  intro n
  induction n with
  | zero => intro cs h; omega
  | succ n ih =>
    intro cs hl hcs
    rcases List.eq_nil_or_concat cs with rfl | ⟨l, c, rfl⟩
    · rw [vcsLoop, if_pos (.inl (by simp [below])), if_neg]
      rintro ⟨c, hc, _⟩
      cases hc
    · rw [List.concat_eq_append] at hl hcs ⊢
      have hE := below_end hb hbe _ hcs
      have hl' := below_end hb hbe l (fun c hc => hcs c (by simp [hc]))
      have hc := hcs c (by simp)
      rw [vcsLoop, if_neg, below_snoc, basename_slash hc.2, dirname_slash hc.2 hl'.1 hl'.2]
      · by_cases hv : c = ".git".toList ∨ c = ".bzr".toList
        · rw [if_pos, if_pos ⟨c, by simp, hv⟩]
          rw [List.mem_cons, List.mem_singleton]; exact hv
        · rw [if_neg, ih l (by simp at hl; omega) (fun c hc => hcs c (by simp [hc]))]
          · by_cases h2 : ∃ c ∈ l, c = ".git".toList ∨ c = ".bzr".toList
            · obtain ⟨x, hx, hx2⟩ := h2
              rw [if_pos ⟨x, hx, hx2⟩, if_pos ⟨x, by simp [hx], hx2⟩]
            · rw [if_neg h2, if_neg]
              rintro ⟨x, hx, hx2⟩
              rcases List.mem_append.mp hx with hx | hx
              · exact h2 ⟨x, hx, hx2⟩
              · rw [List.mem_singleton] at hx; subst hx; exact hv hx2
          · rw [List.mem_cons, List.mem_singleton]; exact hv
      · rintro (h | h | h)
        · have := congrArg List.length h
          rw [below_snoc] at this
          simp [below] at this
        · exact hE.1 h
        · rw [h] at hE; exact hE.2 rfl

end Verif.Classify
