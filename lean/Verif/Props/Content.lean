import Mathlib.Data.List.Forall2
import Verif.Model.Content
import Verif.Props.Plugins
import Verif.Props.Classify

/-!
# C65: one broken file does not hide the units of other files
-/

namespace Verif.Content

open Verif.Classify (Role Plug Res)

variable {R U : Type} (w : World R U)

/-! ## Specification -/

/-- The record defines the unit: its type is known, the unit can be made, and it passes the checks asked
for. -/
def Defines (check validate : Bool) (r : R) (u : U) : Prop :=
  w.known (w.unitName r) = true ∧ w.make r = .ok u ∧ (check = true → w.check u = .fine) ∧
    (validate = true → w.validate u = .fine)

/-- The file is well formed and defines these units. -/
def Good (check validate : Bool) (f : Str) (us : List U) : Prop :=
  ∃ rs, w.parse f = .records rs ∧ List.Forall₂ (Defines w check validate) rs us

/-- What a file contributes to the units of the provider. -/
inductive Part (check validate : Bool) : Str → List (Obj U) → Prop
  | skipped {f r b} : w.classify f = .found r b .none → Part check validate f []
  | plain {f r b} : w.classify f = .found r b .content → Part check validate f [.file f r b]
  | source {f r b us} : w.classify f = .found r b .units → Good w check validate f us →
      Part check validate f (us.map .decl ++ [.file f r b])
  | broken {f r b} : w.classify f = .found r b .units → (¬ ∃ us, Good w check validate f us) →
      Part check validate f []

/-- A file that is a unit source and not well formed. -/
def Broken (check validate : Bool) (f : Str) : Prop :=
  (∃ r b, w.classify f = .found r b .units) ∧ ¬ ∃ us, Good w check validate f us

/-! ## Inspection -/

theorem inspectOne_ok (check validate : Bool) (r : R) (u : U) :
    inspectOne w check validate r = .ok u ↔ Defines w check validate r u := by
  unfold inspectOne Defines
  cases hk : w.known (w.unitName r) with
  | false => simp
  | true =>
    rw [if_neg (by simp)]
    cases hm : w.make r with
    | valueError => simp
    | raises => simp
    | ok v =>
      by_cases e : v = u
      · subst e
        cases hc : check <;> cases hv : validate <;> cases hcv : w.check v <;> cases hvv : w.validate v <;>
          simp [hcv, hvv]
      · cases hc : check <;> cases hv : validate <;> cases hcv : w.check v <;> cases hvv : w.validate v <;>
          simp [hcv, hvv, e]

theorem inspectAll_ok (check validate : Bool) : ∀ (rs : List R) (us : List U),
    inspectAll w check validate rs = .ok us ↔ List.Forall₂ (Defines w check validate) rs us := by
  intro rs
  induction rs with
  | nil =>
    intro us
    constructor
    · intro h; cases h; exact .nil
    · intro h; cases h; rfl
  | cons r rs ih =>
    intro us
    rw [inspectAll]
    constructor
    · intro h
      cases h1 : inspectOne w check validate r with
      | error p => rw [h1] at h; cases h
      | ok u =>
        rw [h1] at h
        cases h2 : inspectAll w check validate rs with
        | error p => rw [h2] at h; cases h
        | ok us' =>
          rw [h2] at h
          cases h
          exact .cons ((inspectOne_ok w check validate r u).mp h1) ((ih us').mp h2)
    · intro h
      cases h with
      | cons h1 h2 => rw [(inspectOne_ok w check validate _ _).mpr h1, (ih _).mpr h2]

theorem inspect_ok (check validate : Bool) (f : Str) (us : List U) :
    inspect w check validate f = .ok us ↔ Good w check validate f us := by
  unfold inspect Good
  cases hp : w.parse f with
  | syntaxError => simp
  | raises => simp
  | records rs =>
    dsimp only
    rw [inspectAll_ok]
    constructor
    · intro h; exact ⟨rs, rfl, h⟩
    · rintro ⟨rs', e, h⟩; cases e; exact h

/-! ## Maps -/

theorem look_push (k k' : Option Str) (u : Obj U) (m : List (Option Str × List (Obj U))) :
    look k' (push k u m) = look k' m ++ (if k = k' then [u] else []) := by
  induction m with
  | nil => by_cases h : k = k' <;> simp [push, look, h]
  | cons e m ih =>
    obtain ⟨j, us⟩ := e
    rw [push]
    by_cases h : j = k
    · rw [if_pos h]
      by_cases h2 : j = k'
      · subst h; subst h2; simp [look]
      · have h3 : ¬ k = k' := fun h3 => h2 (h.trans h3)
        simp [look, h2, h3]
    · rw [if_neg h]
      by_cases h2 : j = k'
      · have h3 : ¬ k = k' := fun h3 => h (h2.trans h3.symm)
        simp [look, h2, h3]
      · simp only [look, if_neg h2]
        exact ih

/-- The units with this id, or path, in order. -/
def having (key : Obj U → Option (Option Str)) (k : Option Str) (us : List (Obj U)) : List (Obj U) :=
  us.filter fun u => decide (key u = some k)

theorem look_enter (key : Obj U → Option (Option Str)) (k : Option Str) (u : Obj U)
    (m : List (Option Str × List (Obj U))) :
    look k (enter (key u) u m) = look k m ++ having key k [u] := by
  cases h : key u with
  | none => simp [enter, having, h]
  | some j =>
    simp only [enter, look_push, having, List.filter_cons, List.filter_nil, h, Option.some.injEq,
      decide_eq_true_eq]

theorem index_fold (us : List (Obj U)) : ∀ (l : Loader U),
    (us.foldl (index w) l).units = l.units ∧ (us.foldl (index w) l).problems = l.problems ∧
    (us.foldl (index w) l).loaded = l.loaded ∧
    (∀ k, look k (us.foldl (index w) l).idMap = look k l.idMap ++ having (Obj.id w) k us) ∧
    (∀ k, look k (us.foldl (index w) l).pathMap = look k l.pathMap ++ having (Obj.path w) k us) := by
  induction us with
  | nil => intro l; exact ⟨rfl, rfl, rfl, fun k => (List.append_nil _).symm, fun k => (List.append_nil _).symm⟩
  | cons u us ih =>
    intro l
    obtain ⟨h1, h2, h3, h4, h5⟩ := ih (index w l u)
    refine ⟨h1, h2, h3, ?_, ?_⟩
    · intro k
      show look k (us.foldl (index w) (index w l u)).idMap = _
      rw [h4, show (index w l u).idMap = enter (u.id w) u l.idMap from rfl,
        look_enter (Obj.id w), List.append_assoc]
      congr 1
      exact (List.filter_append (p := fun u => decide (Obj.id w u = some k)) [u] us).symm
    · intro k
      show look k (us.foldl (index w) (index w l u)).pathMap = _
      rw [h5, show (index w l u).pathMap = enter (u.path w) u l.pathMap from rfl,
        look_enter (Obj.path w), List.append_assoc]
      congr 1
      exact (List.filter_append (p := fun u => decide (Obj.path w u = some k)) [u] us).symm

/-! ## Loading -/

/-- What loading a file adds. -/
theorem loadFile_part (check validate : Bool) (f : Str)
    (hc : ∃ r b p, w.classify f = .found r b p) :
    ∃ us, Part w check validate f us ∧ ∀ l,
      (loadFile w check validate l f).2 = false ∧
      (loadFile w check validate l f).1.units = l.units ++ us ∧
      (loadFile w check validate l f).1.loaded = l.loaded ∧
      (∃ ps, (loadFile w check validate l f).1.problems = l.problems ++ ps ∧
        ((Broken w check validate f ∧ ps.map (·.1) = [f]) ∨ (¬ Broken w check validate f ∧ ps = []))) ∧
      (∀ k, look k (loadFile w check validate l f).1.idMap = look k l.idMap ++ having (Obj.id w) k us) ∧
      (∀ k, look k (loadFile w check validate l f).1.pathMap =
        look k l.pathMap ++ having (Obj.path w) k us) := by
  obtain ⟨r, b, p, hc⟩ := hc
  cases p with
  | none =>
    refine ⟨[], .skipped hc, fun l => ?_⟩
    have e : loadFile w check validate l f = (l, false) := by rw [loadFile, hc]
    rw [e]
    refine ⟨rfl, (List.append_nil _).symm, rfl, ⟨[], (List.append_nil _).symm, .inr ⟨?_, rfl⟩⟩,
      fun k => (List.append_nil _).symm, fun k => (List.append_nil _).symm⟩
    rintro ⟨⟨r', b', h⟩, _⟩
    rw [hc] at h
    cases h
  | content =>
    refine ⟨[.file f r b], .plain hc, fun l => ?_⟩
    have e : loadFile w check validate l f = (adopt w l [.file f r b], false) := by rw [loadFile, hc]
    rw [e]
    obtain ⟨h1, h2, h3, h4, h5⟩ := index_fold w [.file f r b]
      { l with units := l.units ++ [.file f r b] }
    refine ⟨rfl, h1, h3, ⟨[], h2.trans (List.append_nil _).symm, .inr ⟨?_, rfl⟩⟩, h4, h5⟩
    rintro ⟨⟨r', b', h⟩, _⟩
    rw [hc] at h
    cases h
  | units =>
    cases hi : inspect w check validate f with
    | error q =>
      have hb : ¬ ∃ us, Good w check validate f us := by
        rintro ⟨us, hg⟩
        rw [(inspect_ok w check validate f us).mpr hg] at hi
        cases hi
      refine ⟨[], .broken hc hb, fun l => ?_⟩
      have e : loadFile w check validate l f = ({ l with problems := l.problems ++ [(f, q)] }, false) := by
        rw [loadFile, hc]; dsimp only; rw [hi]
      rw [e]
      exact ⟨rfl, (List.append_nil _).symm, rfl, ⟨[(f, q)], rfl, .inl ⟨⟨⟨r, b, hc⟩, hb⟩, rfl⟩⟩,
        fun k => (List.append_nil _).symm, fun k => (List.append_nil _).symm⟩
    | ok us =>
      have hg := (inspect_ok w check validate f us).mp hi
      refine ⟨us.map .decl ++ [.file f r b], .source hc hg, fun l => ?_⟩
      have e : loadFile w check validate l f = (adopt w l (us.map .decl ++ [.file f r b]), false) := by
        rw [loadFile, hc]; dsimp only; rw [hi]
      rw [e]
      obtain ⟨h1, h2, h3, h4, h5⟩ := index_fold w (us.map .decl ++ [.file f r b])
        { l with units := l.units ++ (us.map .decl ++ [.file f r b]) }
      exact ⟨rfl, h1, h3, ⟨[], h2.trans (List.append_nil _).symm, .inr ⟨fun h => h.2 ⟨us, hg⟩, rfl⟩⟩, h4, h5⟩

theorem having_append (key : Obj U → Option (Option Str)) (k : Option Str) (a b : List (Obj U)) :
    having key k (a ++ b) = having key k a ++ having key k b := List.filter_append ..

open Classical in
theorem loadFiles_parts (check validate : Bool) : ∀ (fs : List Str),
    (∀ f ∈ fs, ∃ r b p, w.classify f = .found r b p) →
    ∃ parts, List.Forall₂ (Part w check validate) fs parts ∧ ∀ l,
      (loadFiles w check validate fs l).2 = false ∧
      (loadFiles w check validate fs l).1.units = l.units ++ parts.flatten ∧
      (loadFiles w check validate fs l).1.loaded = l.loaded ∧
      ((loadFiles w check validate fs l).1.problems.map (·.1) =
        l.problems.map (·.1) ++ fs.filter fun f => decide (Broken w check validate f)) ∧
      (∀ k, look k (loadFiles w check validate fs l).1.idMap =
        look k l.idMap ++ having (Obj.id w) k parts.flatten) ∧
      (∀ k, look k (loadFiles w check validate fs l).1.pathMap =
        look k l.pathMap ++ having (Obj.path w) k parts.flatten) := by
  intro fs
  induction fs with
  | nil =>
    intro _
    exact ⟨[], .nil, fun l => ⟨rfl, (List.append_nil _).symm, rfl, (List.append_nil _).symm,
      fun k => (List.append_nil _).symm, fun k => (List.append_nil _).symm⟩⟩
  | cons f fs ih =>
    intro hc
    obtain ⟨us, hp, h⟩ := loadFile_part w check validate f (hc f List.mem_cons_self)
    obtain ⟨parts, hps, h'⟩ := ih fun g hg => hc g (List.mem_cons_of_mem _ hg)
    refine ⟨us :: parts, .cons hp hps, fun l => ?_⟩
    obtain ⟨a1, a2, a3, ⟨ps, a4, a5⟩, a6, a7⟩ := h l
    have e : loadFiles w check validate (f :: fs) l =
        loadFiles w check validate fs (loadFile w check validate l f).1 := by
      rw [loadFiles]
      cases hl : loadFile w check validate l f with
      | mk l' flag => rw [hl] at a1; dsimp only at a1; rw [a1]
    obtain ⟨b1, b2, b3, b4, b6, b7⟩ := h' (loadFile w check validate l f).1
    rw [e]
    refine ⟨b1, ?_, b3.trans a3, ?_, ?_, ?_⟩
    · rw [b2, a2, List.flatten_cons, List.append_assoc]
    · rw [b4, a4, List.map_append, List.append_assoc, List.filter_cons]
      congr 1
      rcases a5 with ⟨hb, hm⟩ | ⟨hb, hm⟩
      · rw [hm, if_pos (by simpa using hb)]; rfl
      · rw [hm, if_neg (by simpa using hb)]; rfl
    · intro k; rw [b6, a6, List.flatten_cons, having_append, List.append_assoc]
    · intro k; rw [b7, a7, List.flatten_cons, having_append, List.append_assoc]

/-! ## The property -/

/-- The files of the provider are considered once each, in the order of their names. -/
theorem C65_order (found : List Str) :
    (∀ f, f ∈ content found ↔ f ∈ found) ∧ (content found).Nodup ∧
    (content found).Pairwise (fun a b => Sort.strLe a b = true) := by
  have h := Plugins.C64_complete_partial (T := Unit) (P := Unit) (Q := Unit) (fun _ => .value ())
    (fun _ _ => .value ()) found
    (by
      intro n _ hy
      rw [Plugins.yields_iff] at hy
      cases hy)
  obtain ⟨_, _, h3, h4, h5, _⟩ := h
  refine ⟨?_, h4, h5⟩
  intro f
  unfold content
  rw [← Plugins.find_isSome_iff]
  constructor
  · intro hs
    refine ((h3 f ()).mp ?_).1
    unfold Plugins.baseGet
    cases hf : Plugins.find f _ with
    | none => rw [hf] at hs; cases hs
    | some p => rfl
  · intro hf
    have := (h3 f ()).mpr ⟨hf, by rw [Plugins.yields_iff]; rfl⟩
    unfold Plugins.baseGet at this
    cases hf : Plugins.find f _ with
    | none => rw [hf] at this; cases this
    | some p => rfl

open Classical in
/-- **C65**, when every file can be classified: loading yields, file by file in the order of the names,
the units of the well-formed unit files, each followed by a unit for the file; the problems are the broken
files, in order; units are found by id and by path.  (`Part` says which files get no unit at all.) -/
theorem C65_load_partial (check validate : Bool) (found : List Str)
    (hc : ∀ f ∈ found, ∃ r b p, w.classify f = .found r b p) :
    let r := ensure w check validate found new
    r.2 = false ∧ r.1.loaded = true ∧
    (∃ parts, List.Forall₂ (Part w check validate) (content found) parts ∧ r.1.units = parts.flatten) ∧
    r.1.problems.map (·.1) = (content found).filter (fun f => decide (Broken w check validate f)) ∧
    (∀ k, look k r.1.idMap = r.1.units.filter fun u => decide (u.id w = some k)) ∧
    (∀ k, look k r.1.pathMap = r.1.units.filter fun u => decide (u.path w = some k)) := by
  obtain ⟨parts, hp, h⟩ := loadFiles_parts w check validate (content found)
    (fun f hf => hc f (((C65_order found).1 f).mp hf))
  obtain ⟨h1, h2, _, h4, h5, h6⟩ := h new
  have e : ensure w check validate found new =
      ({ (loadFiles w check validate (content found) new).1 with loaded := true }, false) := by
    show (if false = true then _ else load w check validate found new) = _
    rw [if_neg (by decide), load]
    cases hl : loadFiles w check validate (content found) new with
    | mk l' flag => rw [hl] at h1; dsimp only at h1; rw [h1]
  intro r
  have er : r = ({ (loadFiles w check validate (content found) new).1 with loaded := true }, false) := e
  have hu : r.1.units = parts.flatten := by rw [er]; exact h2
  refine ⟨by rw [er], by rw [er], ⟨parts, hp, hu⟩, by rw [er]; exact h4, ?_, ?_⟩
  · intro k; rw [hu, er]; exact h5 k
  · intro k; rw [hu, er]; exact h6 k

/-- **C65**: a unit of a well-formed unit file is there, whatever the other files are like, as long as
they can be classified. -/
theorem C65_isolation_partial (check validate : Bool) (found : List Str)
    (hc : ∀ f ∈ found, ∃ r b p, w.classify f = .found r b p) (f : Str) (hf : f ∈ found) (r : Role)
    (b : Option Str) (hs : w.classify f = .found r b .units) (us : List U)
    (hg : Good w check validate f us) :
    (∀ u ∈ us, .decl u ∈ (ensure w check validate found new).1.units) ∧
    .file f r b ∈ (ensure w check validate found new).1.units ∧
    (∀ u, .decl u ∈ (ensure w check validate found new).1.units → ∃ g ∈ found, ∃ us', u ∈ us' ∧
      Good w check validate g us') := by
  obtain ⟨_, _, ⟨parts, hp, hu⟩, _⟩ := C65_load_partial w check validate found hc
  have mem : ∀ (fs : List Str) (parts : List (List (Obj U))), List.Forall₂ (Part w check validate) fs parts →
      ∀ f ∈ fs, ∃ l ∈ parts, Part w check validate f l := by
    intro fs parts h
    induction h with
    | nil => intro f hf; cases hf
    | cons h1 _ ih =>
      intro f hf
      rcases List.mem_cons.mp hf with rfl | hf
      · exact ⟨_, List.mem_cons_self, h1⟩
      · obtain ⟨l, hl, hP⟩ := ih f hf
        exact ⟨l, List.mem_cons_of_mem _ hl, hP⟩
  have mem' : ∀ (fs : List Str) (parts : List (List (Obj U))), List.Forall₂ (Part w check validate) fs parts →
      ∀ l ∈ parts, ∃ f ∈ fs, Part w check validate f l := by
    intro fs parts h
    induction h with
    | nil => intro l hl; cases hl
    | cons h1 _ ih =>
      intro l hl
      rcases List.mem_cons.mp hl with rfl | hl
      · exact ⟨_, List.mem_cons_self, h1⟩
      · obtain ⟨f, hf, hP⟩ := ih l hl
        exact ⟨f, List.mem_cons_of_mem _ hf, hP⟩
  obtain ⟨l, hl, hP⟩ := mem _ _ hp f (((C65_order found).1 f).mpr hf)
  have el : l = us.map .decl ++ [.file f r b] := by
    cases hP with
    | skipped h => rw [hs] at h; cases h
    | plain h => rw [hs] at h; cases h
    | source h hg' =>
      rw [hs] at h
      cases h
      have e1 := (inspect_ok w check validate f us).mpr hg
      have e2 := (inspect_ok w check validate f _).mpr hg'
      rw [e1] at e2
      cases e2
      rfl
    | broken _ hb => exact absurd ⟨us, hg⟩ hb
  rw [hu]
  refine ⟨?_, ?_, ?_⟩
  · intro u hu
    exact List.mem_flatten.mpr ⟨l, hl, by rw [el]; simp [hu]⟩
  · exact List.mem_flatten.mpr ⟨l, hl, by rw [el]; simp⟩
  · intro u hu
    obtain ⟨l', hl', hm⟩ := List.mem_flatten.mp hu
    obtain ⟨g, hg, hP'⟩ := mem' _ _ hp l' hl'
    cases hP' with
    | skipped _ => cases hm
    | plain _ => simp at hm
    | broken _ _ => cases hm
    | @source _ _ us' _ hg' =>
      refine ⟨g, ((C65_order found).1 g).mp hg, us', ?_, hg'⟩
      simpa using hm

/-- **C65**: asking again gives the same answer, however often, when every file can be classified. -/
theorem C65_again_partial (check validate : Bool) (found found' : List Str)
    (hc : ∀ f ∈ found, ∃ r b p, w.classify f = .found r b p) (n : Nat) :
    accesses w check validate found' n (ensure w check validate found new).1 =
      (ensure w check validate found new).1 := by
  have hl := (C65_load_partial w check validate found hc).2.1
  induction n with
  | zero => rfl
  | succ n ih =>
    rw [accesses]
    have : (ensure w check validate found' (ensure w check validate found new).1).1 =
        (ensure w check validate found new).1 := by
      rw [ensure, if_pos hl]
    rw [this]
    exact ih

/-- **C65**: the classifier of the providers meets the hypothesis of the theorems above for readable files
with ordinary names. -/
theorem C65_classifiable (d : Classify.Dirs) (fs : Classify.Fs) (found : List Str)
    (hw : w.classify = Classify.classify d fs)
    (h : ∀ f ∈ found, ¬ ['/', '/'] <+: f ∧ fs.hashBang f ≠ none) :
    ∀ f ∈ found, ∃ r b p, w.classify f = .found r b p := by
  intro f hf
  rw [hw]
  exact (Classify.C66_total d fs f).2 (h f hf).1 (h f hf).2

/-! ## Examples and disagreements -/

/-- Records are numbers; odd ones define units, which have their number as id. -/
def exWorld : World Nat Nat where
  classify f :=
    if f = "a.pxu".toList ∨ f = "b.pxu".toList ∨ f = "c.pxu".toList then
      .found .unitSource (some "/p".toList) .units
    else if f = "x".toList then .raises
    else if f = "d".toList then .found .data (some "/p".toList) .content
    else .found .unknown (some "/p".toList) .none
  parse f := if f = "a.pxu".toList then .records [1, 3] else if f = "b.pxu".toList then .records [5, 2]
    else .records [3]
  unitName _ := "job".toList
  known _ := true
  make n := if n % 2 = 1 then .ok n else .valueError
  check _ := .fine
  validate _ := .wrong
  idOf n := some (some (List.replicate n 'i'))
  pathOf _ := none

/-- `b.pxu` is broken; its first unit is not loaded either; `z` gets no unit. -/
example : (ensure exWorld true false ["c.pxu".toList, "b.pxu".toList, "a.pxu".toList, "d".toList,
      "z".toList] new).1.units =
    [.decl 1, .decl 3, .file "a.pxu".toList .unitSource (some "/p".toList),
     .decl 3, .file "c.pxu".toList .unitSource (some "/p".toList),
     .file "d".toList .data (some "/p".toList)] ∧
    (ensure exWorld true false ["c.pxu".toList, "b.pxu".toList, "a.pxu".toList, "d".toList,
      "z".toList] new).1.problems = [("b.pxu".toList, .cannotDefine)] ∧
    look (some "iii".toList) (ensure exWorld true false ["c.pxu".toList, "b.pxu".toList, "a.pxu".toList,
      "d".toList, "z".toList] new).1.idMap = [.decl 3, .decl 3] := by decide +kernel

/-- The hypotheses of `C65_isolation_partial` are met. -/
example : (∀ f ∈ ["a.pxu".toList, "b.pxu".toList, "z".toList], ∃ r b p,
      exWorld.classify f = .found r b p) ∧ Good exWorld true false "a.pxu".toList [1, 3] := by
  refine ⟨?_, [1, 3], by rfl, ?_⟩
  · intro f hf
    rw [List.mem_cons, List.mem_cons, List.mem_singleton] at hf
    rcases hf with rfl | rfl | rfl
    · exact ⟨.unitSource, some "/p".toList, .units, by decide +kernel⟩
    · exact ⟨.unitSource, some "/p".toList, .units, by decide +kernel⟩
    · exact ⟨.unknown, some "/p".toList, .none, by decide +kernel⟩
  · refine .cons ⟨rfl, rfl, fun _ => rfl, fun h => ?_⟩ (.cons ⟨rfl, rfl, fun _ => rfl, fun h => ?_⟩ .nil)
    · cases h
    · cases h

/-- **C65** is violated by the map of paths: of a unit file it lists the unit of the file only, not those
stored in it (unless they say themselves that they are files). -/
theorem C65_path_violated (check validate : Bool) (found : List Str)
    (hc : ∀ f ∈ found, ∃ r b p, w.classify f = .found r b p) (hn : ∀ u, w.pathOf u = none) (f : Str) :
    ∀ u ∈ look (some f) (ensure w check validate found new).1.pathMap, ∃ r b, u = .file f r b := by
  intro u hu
  rw [(C65_load_partial w check validate found hc).2.2.2.2.2 (some f)] at hu
  have h := of_decide_eq_true (List.mem_filter.mp hu).2
  cases u with
  | decl v => rw [Obj.path, hn v] at h; cases h
  | file p r b =>
    rw [Obj.path] at h
    cases h
    exact ⟨r, b, rfl⟩

example : look (some "a.pxu".toList) (ensure exWorld true false ["a.pxu".toList] new).1.pathMap =
    [.file "a.pxu".toList .unitSource (some "/p".toList)] := by decide +kernel

/-- **C65** is violated by files that cannot be classified: every access raises, and adds the units of the
files before it once more; those of the files after it are never loaded. -/
theorem C65_raises_violated :
    let files := ["a.pxu".toList, "x".toList, "y.pxu".toList]
    (ensure exWorld true false files new).2 = true ∧
    (accesses exWorld true false files 2 new).units =
      [.decl 1, .decl 3, .file "a.pxu".toList .unitSource (some "/p".toList),
       .decl 1, .decl 3, .file "a.pxu".toList .unitSource (some "/p".toList)] ∧
    (accesses exWorld true false files 2 new).problems = [] ∧
    (accesses exWorld true false files 2 new).loaded = false := by decide +kernel

/-- **C65** is violated by files that no plug-in is responsible for: there is no unit for them. -/
theorem C65_unclaimed_violated : (ensure exWorld true false ["z".toList] new).1.units = [] ∧
    (ensure exWorld true false ["z".toList] new).1.problems = [] := by decide +kernel

end Verif.Content
