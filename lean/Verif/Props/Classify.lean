import Verif.Lemmas.Classify

/-!
# C66: a classified file lies below its base directory

The conditions `JobsSrc`, `UnitsSrc`, `InData`, … of `Lemmas/Classify.lean` are the specification: the file
name starts with the name of the directory and has one of the extensions.  `Below` is what a user means
by a file lying in a directory.
-/

namespace Verif.Classify

open Verif.Path

/-- The file lies in the directory. -/
def Below (dir f : Str) : Prop := ∃ r, r ≠ [] ∧ f = dir ++ '/' :: r

/-- No directory has a sibling whose name it begins, as far as this file is concerned, and the file lies
in the base directory if there is one. -/
def Apart (d : Dirs) (f : Str) : Prop :=
  (∀ x, d.jobs = some x ∨ d.units = some x ∨ d.data = some x ∨ d.bin = some x ∨ d.buildBin = some x ∨
    d.build = some x → x <+: f → Below x f) ∧
  ∀ b, d.base = some b → Below b f

theorem execRole_cases (hb : Option Bool) (x : Str) :
    (execRole hb x = .raises ∧ hb = none) ∨
    (execRole hb x = .found .script (some x) .content ∧ hb = some true) ∨
    (execRole hb x = .found .binary (some x) .content ∧ hb = some false) := by
  cases hb with
  | none => exact .inl ⟨rfl, rfl⟩
  | some b => cases b <;> simp [execRole]

/-- What the search for version control data can answer. -/
theorem vcsLoop_cases (b : Str) : ∀ (n : Nat) (f : Str), vcsLoop b n f = .pass ∨
    vcsLoop b n f = .found .vcs (some b) .none ∨ vcsLoop b n f = .hangs := by
  intro n
  induction n with
  | zero => intro f; exact .inr (.inr rfl)
  | succ n ih =>
    intro f
    rw [vcsLoop]
    split
    · exact .inl rfl
    · split
      · exact .inr (.inl rfl)
      · exact ih _

theorem vcsFn_cases (b f : Str) : vcsFn b f = .pass ∨ vcsFn b f = .found .vcs (some b) .none ∨
    vcsFn b f = .hangs := by
  rw [vcsFn]
  split
  · exact .inr (.inl rfl)
  · exact vcsLoop_cases b _ f

variable (d : Dirs) (fs : Fs) (f : Str)

/-- **C66**, for files apart from siblings and other than translations: the file lies below the base
directory it is given; only files nobody claims in a provider without base directory have none. -/
theorem C66_base_partial (ha : Apart d f) (r : Role) (base : Option Str) (p : Plug)
    (h : classify d fs f = .found r base p) (hr : r ≠ .i18n) :
    (∃ b, base = some b ∧ Below b f) ∨ (base = none ∧ d.base = none ∧ r = .unknown) := by
  have w := why d fs f
  obtain ⟨a1, a2⟩ := ha
  generalize classify d fs f = q at w h
  have fromBase : ∀ {o : Option Str}, (∃ y, o = some y) → o = d.base → ∃ b, d.base = some b ∧ Below b f := by
    rintro o ⟨y, rfl⟩ e
    exact ⟨y, e.symm, a2 y e.symm⟩
  have hasBase : ∀ {g : Str → Str} {y : Str}, d.base.map g = some y → ∃ b, d.base = some b ∧ Below b f := by
    intro g y e
    cases hb : d.base with
    | none => rw [hb] at e; cases e
    | some b => exact ⟨b, rfl, a2 b hb⟩
  cases w with
  | jobs s _ => cases h; exact .inl ⟨_, rfl, a1 _ (.inl s.1) s.2.2⟩
  | units _ s _ => cases h; exact .inl ⟨_, rfl, a1 _ (.inr (.inl s.1)) s.2.2⟩
  | data _ _ s => cases h; exact .inl ⟨_, rfl, a1 _ (.inr (.inr (.inl s.1))) s.2.2⟩
  | @exec x _ _ _ s _ =>
    have hx := a1 _ (.inr (.inr (.inr (.inl s.1)))) s.2.2
    rcases execRole_cases (fs.hashBang f) x with e | e | e <;> rw [e.1] at h <;> cases h
    · exact .inl ⟨_, rfl, hx⟩
    · exact .inl ⟨_, rfl, hx⟩
  | @built x _ _ _ _ s _ _ =>
    have hx := a1 _ (.inr (.inr (.inr (.inr (.inl s.1))))) s.2.2
    rcases execRole_cases (fs.hashBang f) x with e | e | e <;> rw [e.1] at h <;> cases h
    · exact .inl ⟨_, rfl, hx⟩
    · exact .inl ⟨_, rfl, hx⟩
  | i18n => cases h; exact absurd rfl hr
  | build _ _ _ _ _ _ s =>
    cases h; exact .inl ⟨_, rfl, a1 _ (.inr (.inr (.inr (.inr (.inr s.1))))) s.2.2⟩
  | po _ _ _ _ _ _ _ s =>
    cases h
    obtain ⟨y, hy, _⟩ := s
    exact .inl (hasBase hy)
  | src _ _ _ _ _ _ _ _ s => cases h; exact .inl (hasBase s.1)
  | legal _ hb _ _ => cases h; exact .inl ⟨_, rfl, a2 _ hb⟩
  | docs _ hb _ _ _ => cases h; exact .inl ⟨_, rfl, a2 _ hb⟩
  | managePy _ hb _ _ _ _ => cases h; exact .inl ⟨_, rfl, a2 _ hb⟩
  | @vcs b _ _ hb _ _ _ _ hv _ =>
    rcases vcsFn_cases b f with e | e | e <;> rw [← hv, e] at h <;> cases h
    exact .inl ⟨_, rfl, a2 _ hb⟩
  | unknown _ _ =>
    cases h
    cases hb : d.base with
    | none => exact .inr ⟨rfl, rfl, rfl⟩
    | some b => exact .inl ⟨b, rfl, a2 b hb⟩

/-- **C66**: which files are unit sources: those with the right extension in the directories of jobs and
units. -/
theorem C66_source (base : Option Str) (p : Plug) :
    classify d fs f = .found .unitSource base p ↔
      p = .units ∧ ((∃ x, base = some x ∧ Starts d.jobs f x ∧ JobsExt f) ∨
        (¬ JobsSrc d f ∧ ∃ x, base = some x ∧ Starts d.units f x ∧ UnitsExt f)) := by
  have w := why d fs f
  generalize classify d fs f = q at w ⊢
  constructor
  · intro h
    cases w with
    | jobs s e => cases h; exact ⟨rfl, .inl ⟨_, rfl, s, e⟩⟩
    | units n s e => cases h; exact ⟨rfl, .inr ⟨n, _, rfl, s, e⟩⟩
    | @exec x => rcases execRole_cases (fs.hashBang f) x with e | e | e <;> rw [e.1] at h <;> cases h
    | @built x => rcases execRole_cases (fs.hashBang f) x with e | e | e <;> rw [e.1] at h <;> cases h
    | @vcs b _ _ _ _ _ _ _ hv _ =>
      rcases vcsFn_cases b f with e | e | e <;> rw [← hv, e] at h <;> cases h
    | _ => cases h
  · rintro ⟨rfl, ⟨x, rfl, s, e⟩ | ⟨n, x, rfl, s, e⟩⟩
    · have hj : JobsSrc d f := ⟨x, s, e⟩
      cases w with
      | jobs s' _ => have := s.1.symm.trans s'.1; cases this; rfl
      | legal l => exact absurd hj l.1
      | docs l => exact absurd hj l.1
      | managePy l => exact absurd hj l.1
      | vcs l => exact absurd hj l.1
      | unknown l => exact absurd hj l.1
      | _ => exact absurd hj (by assumption)
    · have hu : UnitsSrc d f := ⟨x, s, e⟩
      cases w with
      | jobs s' e' => exact absurd ⟨_, s', e'⟩ n
      | units _ s' _ => have := s.1.symm.trans s'.1; cases this; rfl
      | legal l => exact absurd hu l.2.1
      | docs l => exact absurd hu l.2.1
      | managePy l => exact absurd hu l.2.1
      | vcs l => exact absurd hu l.2.1
      | unknown l => exact absurd hu l.2.1
      | _ => exact absurd hu (by assumption)

/-- **C66**: which files are data: those in the data directory that are no unit sources. -/
theorem C66_data (base : Option Str) (p : Plug) :
    classify d fs f = .found .data base p ↔
      p = .content ∧ ¬ JobsSrc d f ∧ ¬ UnitsSrc d f ∧ ∃ x, base = some x ∧ Starts d.data f x := by
  have w := why d fs f
  generalize classify d fs f = q at w ⊢
  constructor
  · intro h
    cases w with
    | data n m s => cases h; exact ⟨rfl, n, m, _, rfl, s⟩
    | @exec x => rcases execRole_cases (fs.hashBang f) x with e | e | e <;> rw [e.1] at h <;> cases h
    | @built x => rcases execRole_cases (fs.hashBang f) x with e | e | e <;> rw [e.1] at h <;> cases h
    | @vcs b _ _ _ _ _ _ _ hv _ =>
      rcases vcsFn_cases b f with e | e | e <;> rw [← hv, e] at h <;> cases h
    | _ => cases h
  · rintro ⟨rfl, n, m, x, rfl, s⟩
    have hd : InData d f := ⟨x, s⟩
    cases w with
    | jobs s' e' => exact absurd ⟨_, s', e'⟩ n
    | units _ s' e' => exact absurd ⟨_, s', e'⟩ m
    | data _ _ s' => have := s.1.symm.trans s'.1; cases this; rfl
    | legal l => exact absurd hd l.2.2.1
    | docs l => exact absurd hd l.2.2.1
    | managePy l => exact absurd hd l.2.2.1
    | vcs l => exact absurd hd l.2.2.1
    | unknown l => exact absurd hd l.2.2.1
    | _ => exact absurd hd (by assumption)

/-- The executables of the provider: files in `bin` that may be executed, and built files that are
announced, unless they are unit sources or data. -/
def Exec (x : Str) : Prop :=
  ¬ JobsSrc d f ∧ ¬ UnitsSrc d f ∧ ¬ InData d f ∧ fs.access f = true ∧
  (Starts d.bin f x ∨ (¬ (∃ y, Starts d.bin f y) ∧ Starts d.buildBin f x ∧
    fs.executables (basename f) = true))

theorem exec_iff (x : Str) (q : Res) (w : Why d fs f q) :
    Exec d fs f x → q = execRole (fs.hashBang f) x := by
  rintro ⟨n1, n2, n3, ha, hx⟩
  rcases hx with s | ⟨n4, s, e⟩
  · have hb : InBin d fs f := ⟨x, s, ha⟩
    cases w with
    | jobs s' e' => exact absurd ⟨_, s', e'⟩ n1
    | units _ s' e' => exact absurd ⟨_, s', e'⟩ n2
    | data _ _ s' => exact absurd ⟨_, s'⟩ n3
    | exec _ _ _ s' _ => have := s.1.symm.trans s'.1; cases this; rfl
    | legal l => exact absurd hb l.2.2.2.1
    | docs l => exact absurd hb l.2.2.2.1
    | managePy l => exact absurd hb l.2.2.2.1
    | vcs l => exact absurd hb l.2.2.2.1
    | unknown l => exact absurd hb l.2.2.2.1
    | _ => exact absurd hb (by assumption)
  · have hb : InBuilt d fs f := ⟨x, s, ha, e⟩
    cases w with
    | jobs s' e' => exact absurd ⟨_, s', e'⟩ n1
    | units _ s' e' => exact absurd ⟨_, s', e'⟩ n2
    | data _ _ s' => exact absurd ⟨_, s'⟩ n3
    | exec _ _ _ s' _ => exact absurd ⟨_, s'⟩ n4
    | built _ _ _ _ s' _ _ => have := s.1.symm.trans s'.1; cases this; rfl
    | legal l => exact absurd hb l.2.2.2.2.1
    | docs l => exact absurd hb l.2.2.2.2.1
    | managePy l => exact absurd hb l.2.2.2.2.1
    | vcs l => exact absurd hb l.2.2.2.2.1
    | unknown l => exact absurd hb l.2.2.2.2.1
    | _ => exact absurd hb (by assumption)

theorem exec_why (q : Res) (w : Why d fs f q)
    (h : q = .raises ∨ ∃ base p, q = .found .script base p ∨ q = .found .binary base p) :
    ∃ x, Exec d fs f x := by
  cases w with
  | exec n1 n2 n3 s ha => exact ⟨_, n1, n2, n3, ha, .inl s⟩
  | built n1 n2 n3 n4 s ha e =>
    exact ⟨_, n1, n2, n3, ha, .inr ⟨fun ⟨y, hy⟩ => n4 ⟨y, hy, ha⟩, s, e⟩⟩
  | @vcs b _ _ _ _ _ _ _ hv _ =>
    rcases vcsFn_cases b f with e | e | e <;> rw [← hv, e] at h <;>
      rcases h with h | ⟨_, _, h | h⟩ <;> cases h
  | _ => rcases h with h | ⟨_, _, h | h⟩ <;> cases h

/-- **C66**: which files are scripts, which are binaries, and when classifying raises an exception. -/
theorem C66_exec (base : Option Str) (p : Plug) :
    (classify d fs f = .found .script base p ↔
      p = .content ∧ fs.hashBang f = some true ∧ ∃ x, base = some x ∧ Exec d fs f x) ∧
    (classify d fs f = .found .binary base p ↔
      p = .content ∧ fs.hashBang f = some false ∧ ∃ x, base = some x ∧ Exec d fs f x) ∧
    (classify d fs f = .raises ↔ fs.hashBang f = none ∧ ∃ x, Exec d fs f x) := by
  have w := why d fs f
  generalize classify d fs f = q at w ⊢
  refine ⟨⟨?_, ?_⟩, ⟨?_, ?_⟩, ⟨?_, ?_⟩⟩
  · intro h
    obtain ⟨x, hx⟩ := exec_why d fs f q w (.inr ⟨base, p, .inl h⟩)
    have e := exec_iff d fs f x q w hx
    rcases execRole_cases (fs.hashBang f) x with e' | e' | e' <;> rw [h, e'.1] at e <;> cases e
    exact ⟨rfl, e'.2, x, rfl, hx⟩
  · rintro ⟨rfl, hb, x, rfl, hx⟩
    rw [exec_iff d fs f x q w hx, hb]
    rfl
  · intro h
    obtain ⟨x, hx⟩ := exec_why d fs f q w (.inr ⟨base, p, .inr h⟩)
    have e := exec_iff d fs f x q w hx
    rcases execRole_cases (fs.hashBang f) x with e' | e' | e' <;> rw [h, e'.1] at e <;> cases e
    exact ⟨rfl, e'.2, x, rfl, hx⟩
  · rintro ⟨rfl, hb, x, rfl, hx⟩
    rw [exec_iff d fs f x q w hx, hb]
    rfl
  · intro h
    obtain ⟨x, hx⟩ := exec_why d fs f q w (.inl h)
    have e := exec_iff d fs f x q w hx
    rcases execRole_cases (fs.hashBang f) x with e' | e' | e' <;> rw [h, e'.1] at e <;> cases e
    exact ⟨e'.2, x, hx⟩
  · rintro ⟨hb, x, hx⟩
    rw [exec_iff d fs f x q w hx, hb]
    rfl

/-- **C66**: every file gets a role, unless it is an executable that cannot be opened or its name starts
with two slashes; `ValueError` is never raised. -/
theorem C66_total :
    classify d fs f ≠ .pass ∧
    (¬ ['/', '/'] <+: f → fs.hashBang f ≠ none → ∃ r base p, classify d fs f = .found r base p) := by
  have w := why d fs f
  have ex := (C66_exec d fs f none .none).2.2
  generalize classify d fs f = q at w ex ⊢
  constructor
  · intro h
    cases w with
    | @exec x => rcases execRole_cases (fs.hashBang f) x with e | e | e <;> rw [e.1] at h <;> cases h
    | @built x => rcases execRole_cases (fs.hashBang f) x with e | e | e <;> rw [e.1] at h <;> cases h
    | vcs _ _ _ _ _ _ _ hn => exact hn h
    | _ => cases h
  · intro h1 h2
    cases q with
    | found r base p => exact ⟨r, base, p, rfl⟩
    | raises => exact absurd (ex.mp rfl).1 h2
    | pass =>
      exfalso
      generalize hq : Res.pass = q at w
      cases w with
      | @exec x => rcases execRole_cases (fs.hashBang f) x with e | e | e <;> rw [e.1] at hq <;> cases hq
      | @built x => rcases execRole_cases (fs.hashBang f) x with e | e | e <;> rw [e.1] at hq <;> cases hq
      | vcs _ _ _ _ _ _ _ hn => exact hn hq.symm
      | _ => cases hq
    | hangs =>
      exfalso
      generalize hq : Res.hangs = q at w
      cases w with
      | @exec x => rcases execRole_cases (fs.hashBang f) x with e | e | e <;> rw [e.1] at hq <;> cases hq
      | @built x => rcases execRole_cases (fs.hashBang f) x with e | e | e <;> rw [e.1] at hq <;> cases hq
      | vcs _ _ _ _ _ _ hv _ =>
        rw [← hq, vcsFn] at hv
        split at hv
        · cases hv
        · exact vcsLoop_stops _ f (by omega) h1 hv
      | _ => cases hq

/-- A file below `b`, whose components are these, belongs to a version control system. -/
def IsVcs (cs : List Str) : Prop :=
  cs.getLast? = some ".gitignore".toList ∨ cs.getLast? = some ".bzrignore".toList ∨
  ∃ c ∈ cs, c = ".git".toList ∨ c = ".bzr".toList

/-- **C66**: in the base directory, a file that no directory claims and that is no well-known document
belongs to version control exactly when it is an ignore list or lies in the directory of the version
control system; the others are unknown. -/
theorem C66_vcs (b : Str) (cs : List Str) (hb : d.base = some b) (hne : b ≠ [])
    (he : b.getLast? ≠ some '/') (hcs : ∀ c ∈ cs, c ≠ [] ∧ '/' ∉ c) (hc0 : cs ≠ [])
    (hl : Loose d fs (below b cs))
    (hn : ∀ c, cs.getLast? = some c → c ∉ legalSet ∧ c ∉ docSet) (hm : cs ≠ ["manage.py".toList]) :
    (IsVcs cs → classify d fs (below b cs) = .found .vcs (some b) .none) ∧
    (¬ IsVcs cs → classify d fs (below b cs) = .found .unknown (some b) .none) := by
  obtain ⟨l, c, rfl⟩ : ∃ l c, cs = l ++ [c] := by
    rcases List.eq_nil_or_concat cs with h | ⟨l, c, h⟩
    · exact absurd h hc0
    · exact ⟨l, c, by rw [h, List.concat_eq_append]⟩
  have hlast : (l ++ [c]).getLast? = some c := by simp
  have hcc := hcs c (by simp)
  have hbn : basename (below b (l ++ [c])) = c := by rw [below_snoc]; exact basename_slash hcc.2
  have hnn := hn c hlast
  have hmp : join b "manage.py".toList ≠ below b (l ++ [c]) := by
    intro h
    have hj : join b "manage.py".toList = below b ["manage.py".toList] := by
      unfold join below
      rw [if_neg (by decide), if_neg (fun h => h.elim hne he)]
      simp
    have h1 : basename (below b ["manage.py".toList]) = "manage.py".toList := by
      have := basename_slash (a := below b []) (t := "manage.py".toList) (by decide)
      rw [← below_snoc] at this
      exact this
    rw [hj] at h
    have ec : c = "manage.py".toList := by rw [← hbn, ← h, h1]
    apply hm
    have h2 := congrArg List.length h
    rw [below_snoc, ec] at h2
    have h3 : (below b ["manage.py".toList]).length = b.length + 1 + "manage.py".toList.length := by
      simp [below]
    rw [h3, List.length_append, List.length_cons] at h2
    have h4 : (below b l).length = b.length := by omega
    have h5 : l = [] := by
      cases l with
      | nil => rfl
      | cons x l => simp [below] at h4
    rw [h5, ec]; rfl
  classical
  have hv : vcsFn b (below b (l ++ [c])) = if IsVcs (l ++ [c]) then .found .vcs (some b) .none else .pass := by
    have hlen : (l ++ [c]).length < (below b (l ++ [c])).length + 1 := by
      have : ∀ (l : List Str), l.length ≤ (l.flatMap ('/' :: ·)).length := by
        intro l
        induction l with
        | nil => exact Nat.le_refl _
        | cons x l ih => simp only [List.flatMap_cons, List.length_append, List.length_cons]; omega
      have h := this (l ++ [c])
      have h2 : (below b (l ++ [c])).length = b.length + ((l ++ [c]).flatMap ('/' :: ·)).length :=
        List.length_append
      omega
    rw [vcsFn, hbn, vcsLoop_below hne he _ _ hlen hcs]
    by_cases h1 : c ∈ [".gitignore".toList, ".bzrignore".toList]
    · rw [if_pos h1, if_pos]
      rw [List.mem_cons, List.mem_singleton] at h1
      rcases h1 with h1 | h1
      · exact .inl (by rw [hlast, h1])
      · exact .inr (.inl (by rw [hlast, h1]))
    · rw [if_neg h1]
      rw [List.mem_cons, List.mem_singleton, not_or] at h1
      by_cases h2 : ∃ x ∈ l ++ [c], x = ".git".toList ∨ x = ".bzr".toList
      · rw [if_pos h2, if_pos (.inr (.inr h2))]
      · rw [if_neg h2, if_neg]
        rintro (h | h | h)
        · rw [hlast] at h; exact h1.1 (Option.some.inj h)
        · rw [hlast] at h; exact h1.2 (Option.some.inj h)
        · exact h2 h
  have w := why d fs (below b (l ++ [c]))
  generalize classify d fs (below b (l ++ [c])) = q at w
  have key : q = if IsVcs (l ++ [c]) then .found .vcs (some b) .none
      else .found .unknown (some b) .none := by
    cases w with
    | jobs s e => exact absurd ⟨_, s, e⟩ hl.1
    | units _ s e => exact absurd ⟨_, s, e⟩ hl.2.1
    | data _ _ s => exact absurd ⟨_, s⟩ hl.2.2.1
    | exec _ _ _ s a => exact absurd ⟨_, s, a⟩ hl.2.2.2.1
    | built _ _ _ _ s a e => exact absurd ⟨_, s, a, e⟩ hl.2.2.2.2.1
    | i18n _ _ _ _ _ s e => exact absurd ⟨_, s, e⟩ hl.2.2.2.2.2.1
    | build _ _ _ _ _ _ s => exact absurd ⟨_, s⟩ hl.2.2.2.2.2.2.1
    | po _ _ _ _ _ _ _ s => exact absurd s hl.2.2.2.2.2.2.2.1
    | src _ _ _ _ _ _ _ _ s => exact absurd ⟨_, s⟩ hl.2.2.2.2.2.2.2.2
    | legal _ _ _ e => rw [hbn] at e; exact absurd e hnn.1
    | docs _ _ _ _ e => rw [hbn] at e; exact absurd e hnn.2
    | managePy _ hb' _ _ _ e =>
      have := hb.symm.trans hb'
      cases this
      exact absurd e hmp
    | vcs _ hb' _ _ _ _ e n =>
      have := hb.symm.trans hb'
      cases this
      rw [← e, hv] at n ⊢
      by_cases hi : IsVcs (l ++ [c])
      · rw [if_pos hi, if_pos hi]
      · rw [if_neg hi] at n; exact absurd rfl n
    | unknown _ h =>
      have h4 := (h b hb hne).2.2.2
      rw [hv] at h4
      by_cases hi : IsVcs (l ++ [c])
      · rw [if_pos hi] at h4; cases h4
      · rw [if_neg hi, hb]
  exact ⟨fun h => by rw [key, if_pos h], fun h => by rw [key, if_neg h]⟩

/-! ## Examples -/

def exFs : Fs := ⟨fun _ => true, fun f => some (f = "/p/bin/run".toList), fun n => n = "prog".toList⟩

/-- A provider in a source tree. -/
def exDirs : Dirs := ⟨some "/p/jobs".toList, some "/p/units".toList, some "/p/data".toList,
  some "/p/bin".toList, some "/p".toList⟩

example : ["jobs/a.pxu", "units/a.txt", "units/a.txt.in", "data/a", "bin/run", "bin/x", "build/bin/prog",
    "build/bin/prog.o", "build/mo/pl/a.mo", "po/pl.po", "src/x.c", "README.md", "LICENSE", "manage.py",
    ".git/config", ".bzrignore", "junk"].map
    (fun n => classify exDirs exFs ("/p/".toList ++ n.toList)) =
  [.found .unitSource (some "/p/jobs".toList) .units, .found .unitSource (some "/p/units".toList) .units,
   .found .unknown (some "/p".toList) .none, .found .data (some "/p/data".toList) .content,
   .found .script (some "/p/bin".toList) .content, .found .binary (some "/p/bin".toList) .content,
   .found .binary (some "/p/build/bin".toList) .content, .found .build (some "/p/build".toList) .none,
   .found .i18n (some "/p/build/bin".toList) .content, .found .src (some "/p".toList) .none,
   .found .src (some "/p".toList) .none, .found .docs (some "/p".toList) .content,
   .found .legal (some "/p".toList) .content, .found .managePy (some "/p".toList) .none,
   .found .vcs (some "/p".toList) .none, .found .vcs (some "/p".toList) .none,
   .found .unknown (some "/p".toList) .none] := by decide +kernel

/-- The hypotheses of `C66_base_partial` are met by an ordinary file. -/
example : Apart exDirs "/p/jobs/sub/a.pxu".toList ∧
    classify exDirs exFs "/p/jobs/sub/a.pxu".toList =
      .found .unitSource (some "/p/jobs".toList) .units := by
  refine ⟨⟨?_, ?_⟩, by decide +kernel⟩
  · intro x hx hp
    rcases hx with h | h | h | h | h | h
    · cases h; exact ⟨"sub/a.pxu".toList, by decide, by decide +kernel⟩
    all_goals
      have hx := Option.some.inj h
      subst hx
      rw [← List.isPrefixOf_iff_prefix] at hp
      exact absurd hp (by decide +kernel)
  · intro b h; cases h; exact ⟨"jobs/sub/a.pxu".toList, by decide, by decide +kernel⟩

/-- The hypotheses of `C66_vcs` are met by a file of git. -/
example : Loose exDirs exFs (below "/p".toList [".git".toList, "config".toList]) := by
  refine ⟨?_, ?_, ?_, ?_, ?_, ?_, ?_, ?_, ?_⟩
  case refine_8 =>
    rintro ⟨x, h, _, h2, _⟩
    have hx := Option.some.inj h
    subst hx
    exact absurd h2 (by decide +kernel)
  all_goals
    first
    | rintro ⟨x, ⟨h, _, hp⟩, _⟩
      have hx := Option.some.inj h
      subst hx
      rw [← List.isPrefixOf_iff_prefix] at hp
      exact absurd hp (by decide +kernel)
    | rintro ⟨x, ⟨h, _, hp⟩⟩
      have hx := Option.some.inj h
      subst hx
      rw [← List.isPrefixOf_iff_prefix] at hp
      exact absurd hp (by decide +kernel)

/-! ## Where the code disagrees -/

theorem not_below_of {dir f : Str} (h : ¬ (dir ++ ['/']).isPrefixOf f = true) : ¬ Below dir f := by
  rintro ⟨r, _, rfl⟩
  apply h
  rw [List.isPrefixOf_iff_prefix]
  exact ⟨r, by simp⟩

/-- **C66** is violated by directories whose name begins with the name of another: files in `jobs-old` are
unit sources with the base `jobs`, files in `database` are data. -/
theorem C66_sibling_violated :
    classify exDirs exFs "/p/jobs-old/a.pxu".toList = .found .unitSource (some "/p/jobs".toList) .units ∧
    ¬ Below "/p/jobs".toList "/p/jobs-old/a.pxu".toList ∧
    classify exDirs exFs "/p/database".toList = .found .data (some "/p/data".toList) .content ∧
    ¬ Below "/p/data".toList "/p/database".toList :=
  ⟨by decide +kernel, not_below_of (by decide +kernel), by decide +kernel,
    not_below_of (by decide +kernel)⟩

/-- **C66** is violated by translations: every catalogue in `build/mo` that is classified as such has
the base `build/bin`, where it is not. -/
theorem C66_i18n_violated (b r : Str) (base : Option Str) (p : Plug) (hb : d.base = some b)
    (hne : b ≠ []) (he : b.getLast? ≠ some '/') (hf : f = b ++ "/build/mo/".toList ++ r)
    (h : classify d fs f = .found .i18n base p) :
    base = some (b ++ "/build/bin".toList) ∧ ¬ Below (b ++ "/build/bin".toList) f := by
  have w := why d fs f
  have hbb : d.buildBin = some (b ++ "/build/bin".toList) := by
    have h1 : join b "build".toList = b ++ "/build".toList := by
      unfold join
      rw [if_neg (by decide), if_neg (fun h => h.elim hne he)]
      rfl
    have h2 : join (b ++ "/build".toList) "bin".toList = b ++ "/build/bin".toList := by
      unfold join
      rw [if_neg (by decide), if_neg, List.append_assoc]
      · rfl
      · rintro (h | h)
        · exact hne (List.append_eq_nil_iff.mp h).1
        · rw [List.getLast?_append, show "/build".toList.getLast? = some 'd' by decide +kernel] at h
          exact absurd h (by simp)
    rw [Dirs.buildBin, hb, Option.map_some, h1, h2]
  generalize classify d fs f = q at w h
  have hbase : base = d.buildBin := by
    cases w with
    | i18n => cases h; rfl
    | @exec x => rcases execRole_cases (fs.hashBang f) x with e | e | e <;> rw [e.1] at h <;> cases h
    | @built x => rcases execRole_cases (fs.hashBang f) x with e | e | e <;> rw [e.1] at h <;> cases h
    | @vcs b _ _ _ _ _ _ _ hv _ =>
      rcases vcsFn_cases b f with e | e | e <;> rw [← hv, e] at h <;> cases h
    | _ => cases h
  refine ⟨by rw [hbase, hbb], ?_⟩
  rintro ⟨t, _, ht⟩
  rw [hf, List.append_assoc, List.append_assoc] at ht
  have := List.append_cancel_left ht
  have e1 : "/build/mo/".toList = "/build/".toList ++ "mo/".toList := by decide +kernel
  have e2 : "/build/bin".toList = "/build/".toList ++ "bin".toList := by decide +kernel
  rw [e1, e2, List.append_assoc, List.append_assoc] at this
  have h3 := List.append_cancel_left this
  rw [show "mo/".toList = 'm' :: "o/".toList by decide +kernel,
    show "bin".toList = 'b' :: "in".toList by decide +kernel] at h3
  exact absurd (List.cons.inj h3).1 (by decide)

/-- There are such files. -/
example : classify exDirs exFs ("/p".toList ++ "/build/mo/".toList ++ "pl/a.mo".toList) =
    .found .i18n (some "/p/build/bin".toList) .content := by decide +kernel

/-- **C66** is violated by the extension `.txt.in`, which is meant for unit sources in the directory of
units: no file has it, so that `a.txt.in` is not a unit source there, though it is in the directory of
jobs. -/
theorem C66_txt_in_violated :
    (∀ f, ext f ≠ ".txt.in".toList) ∧
    classify exDirs exFs "/p/units/a.txt.in".toList = .found .unknown (some "/p".toList) .none ∧
    classify exDirs exFs "/p/jobs/a.txt.in".toList =
      .found .unitSource (some "/p/jobs".toList) .units :=
  ⟨fun f h => not_hasExt_txtIn f ((ext_iff (by decide)).mp h), by decide +kernel, by decide +kernel⟩

/-- **C66** is violated by names outside the base directory that start with two slashes: the search for
version control data never ends, however many rounds it is given. -/
theorem C66_loop_violated : ∀ n, vcsLoop "/p".toList n "//x/y".toList = .hangs :=
  vcsLoop_hangs ("//x/y".toList.length + 1) _ (by omega) (by decide +kernel)

end Verif.Classify
