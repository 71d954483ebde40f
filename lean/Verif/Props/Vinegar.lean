import Verif.Model.Vinegar
import Verif.Lemmas.Registry
import Verif.Props.Brine
import Mathlib.Data.List.Forall2

/-! # C127: exceptions of the other side arrive as what they are -/

namespace Verif.Vinegar

open Verif.Brine (Val)
open Verif.Registry (Text get put get_put)

/-! ## Specification -/

/-- How a value arrives: as it is, or, if it is not made of plain values, as the text of its `repr`. -/
inductive Sent : Obj → Val → Prop
  | same (o : Obj) : Brine.dumpable o.val = true → Sent o o.val
  | repr (o : Obj) : Brine.dumpable o.val = false → Sent o (.str o.repr)

/-- Attributes that are part of an exception: not `args`, which is sent otherwise, no method of every exception, and
nothing that begins with an underscore. -/
def Public (n : Text) : Prop := n ≠ txt "args" ∧ n ≠ txt "with_traceback" ∧ n.head? ≠ some 95

/-- The exception class can be had here: it is built-in, or one of a module that is loaded or may be imported, as far as
the settings allow. -/
def Available (w : World) (c : Config) (m n : Text) : Prop :=
  (∃ f, w.loaded m = some f ∧ f n = some .exception ∧ (c.custom = true ∨ m = txt "builtins")) ∨
  (c.custom = true ∧ c.import_ = true ∧ w.loaded m = none ∧ ∃ f, w.importable m = some f ∧ f n = some .exception)

/-- What `dir` gives: every name once, `args` among them, and no attribute raises anything but `AttributeError`. -/
structure Regular (e : Exc) : Prop where
  nodup : (e.dir.map (·.1)).Nodup
  args : txt "args" ∈ e.dir.map (·.1)
  raises : ∀ n, (n, Attr.raises) ∈ e.dir → ¬ Public n

/-! ## Lemmas -/

theorem sent_show (o : Obj) : Sent o (show' o) := by
  unfold show'
  cases h : Brine.dumpable o.val with
  | true => rw [if_pos rfl]; exact .same o h
  | false => rw [if_neg (by simp)]; exact .repr o h

theorem sent_eq {o : Obj} {v : Val} (h : Sent o v) : v = show' o := by
  cases h with
  | same h => simp [show', h]
  | repr h => simp [show', h]

theorem dumpable_show (o : Obj) : Brine.dumpable (show' o) = true := by
  unfold show'
  cases h : Brine.dumpable o.val with
  | true => rw [if_pos rfl]; exact h
  | false => rw [if_neg (by simp)]; rfl

theorem dumpableAll_iff (l : List Val) : Brine.dumpableAll l = true ↔ ∀ v ∈ l, Brine.dumpable v = true := by
  induction l with
  | nil => simp [Brine.dumpableAll]
  | cons v l ih => simp [Brine.dumpableAll, ih]

/-- The attributes that are sent. -/
def pubs : List (Text × Attr) → List (Text × Val)
  | [] => []
  | (n, x) :: rest =>
    if n = txt "args" ∨ n = txt "with_traceback" ∨ n.head? = some 95 then pubs rest
    else
      match x with
      | .value o => (n, show' o) :: pubs rest
      | _ => pubs rest

theorem mem_pubs (l : List (Text × Attr)) (n : Text) (v : Val) :
    (n, v) ∈ pubs l ↔ Public n ∧ ∃ o, (n, .value o) ∈ l ∧ v = show' o := by
  induction l with
  | nil => simp [pubs]
  | cons x l ih =>
    obtain ⟨k, x⟩ := x
    simp only [pubs]
    by_cases h : k = txt "args" ∨ k = txt "with_traceback" ∨ k.head? = some 95
    · rw [if_pos h, ih]
      constructor
      · rintro ⟨h1, o, h2, h3⟩
        exact ⟨h1, o, List.mem_cons_of_mem _ h2, h3⟩
      · rintro ⟨h1, o, h2, h3⟩
        rcases List.mem_cons.1 h2 with h2 | h2
        · cases h2
          obtain ⟨a, b, c⟩ := h1
          rcases h with h | h | h
          · exact absurd h a
          · exact absurd h b
          · exact absurd h c
        · exact ⟨h1, o, h2, h3⟩
    · rw [if_neg h]
      have hp : Public k := ⟨fun e => h (.inl e), fun e => h (.inr (.inl e)), fun e => h (.inr (.inr e))⟩
      cases x with
      | value o =>
        rw [List.mem_cons, ih]
        constructor
        · rintro (e | ⟨h1, o', h2, h3⟩)
          · cases e
            exact ⟨hp, o, List.mem_cons_self .., rfl⟩
          · exact ⟨h1, o', List.mem_cons_of_mem _ h2, h3⟩
        · rintro ⟨h1, o', h2, h3⟩
          rcases List.mem_cons.1 h2 with h2 | h2
          · cases h2
            exact .inl (by rw [h3])
          · exact .inr ⟨h1, o', h2, h3⟩
      | missing => simp [ih]
      | raises => simp [ih]

theorem pubs_sublist (l : List (Text × Attr)) : ((pubs l).map (·.1)).Sublist (l.map (·.1)) := by
  induction l with
  | nil => exact .refl _
  | cons x l ih =>
    obtain ⟨k, x⟩ := x
    simp only [pubs]
    split
    · exact ih.cons _
    · cases x with
      | value o => exact ih.cons_cons _
      | missing => exact ih.cons _
      | raises => exact ih.cons _

/-- The pairs as they are written. -/
def pairs (l : List (Text × Val)) : List Val := l.map fun p => .tup [.str p.1, p.2]

theorem collect_none (args : List Obj) (l : List (Text × Attr)) (h : ∀ n, (n, Attr.raises) ∈ l → ¬ Public n)
    (ha : txt "args" ∉ l.map (·.1)) : collect args l = some ([], pairs (pubs l)) := by
  induction l with
  | nil => rfl
  | cons x l ih =>
    obtain ⟨k, x⟩ := x
    rw [List.map_cons, List.mem_cons, not_or] at ha
    have hi := ih (fun n hn => h n (List.mem_cons_of_mem _ hn)) ha.2
    simp only [collect, pubs]
    rw [if_neg (Ne.symm ha.1)]
    by_cases hk : k.head? = some 95 ∨ k = txt "_remote_tb" ∨ k = txt "with_traceback"
    · rw [if_pos hk, if_pos, hi]
      rcases hk with e | e | e
      · exact .inr (.inr e)
      · exact .inr (.inr (e ▸ by decide))
      · exact .inr (.inl e)
    · rw [if_neg hk, if_neg (by
        rintro (e | e | e)
        · exact ha.1 e.symm
        · exact hk (.inr (.inr e))
        · exact hk (.inl e))]
      cases x with
      | value o => simp only [hi]; rfl
      | missing => exact hi
      | raises => exact absurd ⟨Ne.symm ha.1, fun e => hk (.inr (.inr e)), fun e => hk (.inl e)⟩ (h k (List.mem_cons_self ..))

theorem collect_spec (args : List Obj) (l : List (Text × Attr)) (h : ∀ n, (n, Attr.raises) ∈ l → ¬ Public n)
    (hn : (l.map (·.1)).Nodup) (ha : txt "args" ∈ l.map (·.1)) :
    collect args l = some (args.map show', pairs (pubs l)) := by
  induction l with
  | nil => cases ha
  | cons x l ih =>
    obtain ⟨k, x⟩ := x
    have h' : ∀ n, (n, Attr.raises) ∈ l → ¬ Public n := fun n hn => h n (List.mem_cons_of_mem _ hn)
    rw [List.map_cons, List.nodup_cons] at hn
    simp only [collect, pubs]
    by_cases hk : k = txt "args"
    · rw [if_pos hk, if_pos (.inl hk), collect_none args l h' (hk ▸ hn.1)]
      simp
    · rw [if_neg hk]
      have hi := ih h' hn.2 ((List.mem_cons.1 ha).resolve_left (Ne.symm hk))
      by_cases hk' : k.head? = some 95 ∨ k = txt "_remote_tb" ∨ k = txt "with_traceback"
      · rw [if_pos hk', if_pos, hi]
        rcases hk' with e | e | e
        · exact .inr (.inr e)
        · exact .inr (.inr (e ▸ by decide))
        · exact .inr (.inl e)
      · rw [if_neg hk', if_neg (by
          rintro (e | e | e)
          · exact hk e
          · exact hk' (.inr (.inr e))
          · exact hk' (.inl e))]
        cases x with
        | value o => simp only [hi]; rfl
        | missing => exact hi
        | raises => exact absurd ⟨hk, fun e => hk' (.inr (.inr e)), fun e => hk' (.inl e)⟩ (h k (List.mem_cons_self ..))

/-- Can the attribute be set? -/
def Sets (w : World) (cls : Cls) (n : Text) (v : Val) : Prop :=
  match cls with
  | .generic _ _ => True
  | .known a b => w.sets (a, b) n v = true

theorem put_new (k : Text) (v : Val) (l : List (Text × Val)) (h : k ∉ l.map (·.1)) : put k v l = l ++ [(k, v)] := by
  induction l with
  | nil => rfl
  | cons x l ih =>
    obtain ⟨a, b⟩ := x
    rw [List.map_cons, List.mem_cons, not_or] at h
    simp only [put]
    rw [if_neg (Ne.symm h.1), ih h.2]
    rfl

theorem setAll_spec (w : World) (cls : Cls) (l : List (Text × Val)) (a : List Val) (acc : List (Text × Val))
    (hn : ((acc ++ l).map (·.1)).Nodup) (hp : ∀ p ∈ l, Public p.1) (hs : ∀ p ∈ l, Sets w cls p.1 p.2) :
    setAll w cls (pairs l) (a, acc) = some (a, acc ++ l) := by
  induction l generalizing acc with
  | nil => simp [pairs, setAll]
  | cons p l ih =>
    obtain ⟨k, v⟩ := p
    have hk : k ∉ acc.map (·.1) := by
      rw [List.map_append, List.map_cons] at hn
      intro hm
      exact (List.nodup_append.1 hn).2.2 k hm k (List.mem_cons_self ..) rfl
    have h1 : Public k := hp (k, v) (List.mem_cons_self ..)
    have h2 : Sets w cls k v := hs (k, v) (List.mem_cons_self ..)
    have hset : setAttr w cls (a, acc) k v = some (a, acc ++ [(k, v)]) := by
      unfold setAttr
      rw [if_neg h1.1]
      cases cls with
      | generic x y =>
        simp only
        rw [if_neg (fun e => h1.2.2 e.1), put_new _ _ _ hk]
      | known x y =>
        simp only
        rw [if_pos (show _ = true from h2), put_new _ _ _ hk]
    simp only [pairs, List.map_cons, setAll, Brine.items]
    rw [hset, Option.bind_some]
    have := ih (acc ++ [(k, v)]) (by simpa using hn) (fun p h => hp p (List.mem_cons_of_mem _ h))
      (fun p h => hs p (List.mem_cons_of_mem _ h))
    simp only [pairs] at this
    rw [this]
    simp

theorem find_iff (w : World) (c : Config) (m n : Text) :
    findClass w c (importModule w c m).2 m n = true ↔ Available w c m n := by
  unfold findClass importModule Available
  rw [decide_eq_true_iff]
  obtain ⟨i, cu⟩ := c
  cases cu with
  | true =>
    simp only [if_true]
    cases hl : w.loaded m with
    | some f => simp
    | none =>
      cases i with
      | true => cases w.importable m <;> simp
      | false => simp
  | false =>
    simp only [Bool.false_eq_true, if_false, false_or, false_and, or_false]
    by_cases hm : m = txt "builtins"
    · subst hm
      rw [if_pos rfl]
      cases w.loaded (txt "builtins") <;> simp
    · rw [if_neg hm]
      simp [hm]

theorem generic_name (cache : Cache) (m n : Text) :
    ∃ mod, (genericClass cache m n).1 = .generic (m ++ 46 :: n) mod ∧ get (m ++ 46 :: n) (genericClass cache m n).2 = some mod := by
  unfold genericClass
  cases h : get (fullname m n) cache with
  | some mod => exact ⟨mod, rfl, h⟩
  | none =>
    refine ⟨_, rfl, ?_⟩
    simp only
    rw [show m ++ 46 :: n = fullname m n from rfl, get_put, if_pos rfl]

/-! ## The property -/

/-- **C127, full statement.** Every exception arrives as an exception with the same arguments. -/
def Statement : Prop :=
  ∀ (w : World) (c : Config) (cache : Cache) (localTb : Bool) (e : Exc), Regular e →
    (∀ n v, w.sets (e.modname, e.clsname) n v = true) →
    ∃ v l, dump localTb e = some v ∧ (load w c cache v).2.1 = .exc l ∧ List.Forall₂ Sent e.args l.args

/-- **C127 (round trip), partial.** An exception arrives as an exception of the same class if this class can be had on the
other side, and otherwise as a generic one whose name tells module and class; with the same arguments and with all its
public attributes, each as it is or as its `repr`; and with the traceback, unless this is denied.
Missing: `StopIteration`. -/
theorem C127_roundtrip_partial (w : World) (c : Config) (cache : Cache) (localTb : Bool) (e : Exc) (hr : Regular e)
    (hstop : e.stop = false)
    (hs : Available w c e.modname e.clsname → ∀ n o v, (n, Attr.value o) ∈ e.dir → Sent o v →
      w.sets (e.modname, e.clsname) n v = true) :
    ∃ v l, dump localTb e = some v ∧ (load w c cache v).2.1 = .exc l ∧
      (Available w c e.modname e.clsname → l.cls = .known e.modname e.clsname) ∧
      (¬ Available w c e.modname e.clsname → ∃ mod, l.cls = .generic (e.modname ++ 46 :: e.clsname) mod) ∧
      List.Forall₂ Sent e.args l.args ∧
      (∀ n v, (n, v) ∈ l.attrs ↔ Public n ∧ ∃ o, (n, Attr.value o) ∈ e.dir ∧ Sent o v) ∧
      (l.attrs.map (·.1)).Nodup ∧
      l.tb = .str (if localTb then e.tb else txt "<traceback denied>") := by
  have hc := collect_spec e.args e.dir hr.raises hr.nodup hr.args
  have hbuild : ∀ cls tb, (∀ p ∈ pubs e.dir, Sets w cls p.1 p.2) →
      build w cls (.tup (e.args.map show')) (.tup (pairs (pubs e.dir))) tb = .exc ⟨cls, e.args.map show', pubs e.dir, tb⟩ := by
    intro cls tb hsets
    unfold build
    simp only [Brine.items]
    rw [setAll_spec w cls (pubs e.dir) (e.args.map show') [] (by simpa using hr.nodup.sublist (pubs_sublist _))
      (fun p hp => ((mem_pubs _ p.1 p.2).1 hp).1) hsets]
    rfl
  have hargs : List.Forall₂ Sent e.args (e.args.map show') := by
    generalize e.args = l
    induction l with
    | nil => exact .nil
    | cons o l ih => exact .cons (sent_show o) ih
  have hattrs : ∀ n v, (n, v) ∈ pubs e.dir ↔ Public n ∧ ∃ o, (n, Attr.value o) ∈ e.dir ∧ Sent o v := by
    intro n v
    rw [mem_pubs]
    constructor
    · rintro ⟨h1, o, h2, rfl⟩
      exact ⟨h1, o, h2, sent_show o⟩
    · rintro ⟨h1, o, h2, h3⟩
      exact ⟨h1, o, h2, sent_eq h3⟩
  have hdump : dump localTb e = some (.tup [.tup [.str e.modname, .str e.clsname], .tup (e.args.map show'),
      .tup (pairs (pubs e.dir)), .str (if localTb then e.tb else txt "<traceback denied>")]) := by
    unfold dump
    rw [if_neg (by simp [hstop]), hc]
    rfl
  by_cases ha : Available w c e.modname e.clsname
  · refine ⟨_, ⟨.known e.modname e.clsname, e.args.map show', pubs e.dir, _⟩, hdump, ?_, fun _ => rfl, fun h => absurd ha h,
      hargs, hattrs, hr.nodup.sublist (pubs_sublist _), rfl⟩
    simp only [load, Brine.items]
    rw [if_pos ((find_iff w c _ _).2 ha)]
    exact hbuild _ _ (fun p hp => by
      obtain ⟨h1, o, h2, h3⟩ := (hattrs p.1 p.2).1 hp
      exact hs ha p.1 o p.2 h2 h3)
  · obtain ⟨mod, hg, _⟩ := generic_name cache e.modname e.clsname
    refine ⟨_, ⟨.generic (e.modname ++ 46 :: e.clsname) mod, e.args.map show', pubs e.dir, _⟩, hdump, ?_, fun h => absurd h ha,
      fun _ => ⟨mod, rfl⟩, hargs, hattrs, hr.nodup.sublist (pubs_sublist _), rfl⟩
    simp only [load, Brine.items]
    rw [if_neg (fun h => ha ((find_iff w c _ _).1 h)), hg]
    exact hbuild _ _ (fun p _ => trivial)

/-- A machine with the built-in classes `E` and `F`, where `F` is no exception, and a module `m` that has `X`. -/
def exWorld : World where
  loaded m :=
    if m = txt "builtins" then some fun n => if n = txt "E" then some .exception else if n = txt "F" then some .other else none
    else none
  importable m := if m = txt "m" then some fun n => if n = txt "X" then some .exception else none else none
  sets _ _ _ := true

/-- An exception with two arguments, one of them an object of some class, two attributes, a method, and one attribute that
cannot be read. -/
def exExc (m n : Text) : Exc where
  modname := m
  clsname := n
  stop := false
  args := [⟨.int 2, txt "2"⟩, ⟨.other, txt "<x>"⟩]
  dir := [(txt "__str__", .value ⟨.other, txt "<m>"⟩), (txt "_remote_tb", .value ⟨.str [97], txt "'a'"⟩), (txt "args", .value ⟨.other, []⟩),
    (txt "characters_written", .missing), (txt "errno", .value ⟨.int 2, txt "2"⟩), (txt "handle", .value ⟨.tup [.int 1, .other], txt "(1, <y>)"⟩),
    (txt "with_traceback", .value ⟨.other, txt "<m>"⟩)]
  tb := txt "File x"

theorem exRegular (m n : Text) : Regular (exExc m n) where
  nodup := by show (List.map _ _).Nodup; simp only [exExc]; decide
  args := by simp [exExc]
  raises := by intro k h; simp [exExc] at h

example : Available exWorld defaults (txt "builtins") (txt "E") ∧ ¬ Available exWorld defaults (txt "builtins") (txt "F") ∧
    ¬ Available exWorld defaults (txt "m") (txt "X") ∧ Available exWorld ⟨true, true⟩ (txt "m") (txt "X") := by
  simp only [← find_iff]
  decide

/-- What arrives in these cases. -/
example : ((dump false (exExc (txt "m") (txt "X"))).map fun v => match (load exWorld defaults [] v).2.1 with
      | .exc l => some (l.cls, l.attrs.map (·.1))
      | _ => none) =
    some (some (.generic (txt "m.X") (txt "plainbox.vendor.rpyc.core.vinegar/m"), [txt "errno", txt "handle"])) := by decide +kernel

/-- **C127 (safe to write).** What `dump` gives consists of plain values only. -/
theorem C127_dumpable (localTb : Bool) (e : Exc) (v : Val) (h : dump localTb e = some v) : Brine.dumpable v = true := by
  have hcol : ∀ (l : List (Text × Attr)) r, collect e.args l = some r →
      Brine.dumpableAll r.1 = true ∧ Brine.dumpableAll r.2 = true := by
    intro l
    induction l with
    | nil => intro r hr; cases hr; exact ⟨rfl, rfl⟩
    | cons x l ih =>
      intro r hr
      obtain ⟨k, x⟩ := x
      simp only [collect] at hr
      by_cases h1 : k = txt "args"
      · rw [if_pos h1, Option.map_eq_some_iff] at hr
        obtain ⟨q, hq, rfl⟩ := hr
        obtain ⟨i1, i2⟩ := ih q hq
        refine ⟨?_, i2⟩
        rw [dumpableAll_iff] at i1 ⊢
        intro v hv
        rcases List.mem_append.1 hv with hv | hv
        · obtain ⟨o, _, rfl⟩ := List.mem_map.1 hv
          exact dumpable_show o
        · exact i1 v hv
      · rw [if_neg h1] at hr
        split at hr
        · exact ih r hr
        · cases x with
          | value o =>
            rw [Option.map_eq_some_iff] at hr
            obtain ⟨q, hq, rfl⟩ := hr
            obtain ⟨i1, i2⟩ := ih q hq
            refine ⟨i1, ?_⟩
            simp [Brine.dumpableAll, Brine.dumpable, dumpable_show, i2]
          | missing => exact ih r hr
          | raises => cases hr
  unfold dump at h
  split at h
  · cases h; rfl
  · rw [Option.map_eq_some_iff] at h
    obtain ⟨r, hr, rfl⟩ := h
    obtain ⟨h1, h2⟩ := hcol _ _ hr
    simp [Brine.dumpable, Brine.dumpableAll, h1, h2]

/-- **C127 (security).** Whatever the peer sends, with the default settings nothing is imported, and the exception that is
made is one of a built-in exception class or a generic one; with other settings at most the module that is named is
imported, and only if it is allowed. -/
theorem C127_safe (w : World) (cache : Cache) (v : Val) :
    (load w defaults cache v).1 = [] ∧
    (∀ l m n, (load w defaults cache v).2.1 = .exc l → l.cls = .known m n →
      m = txt "builtins" ∧ ∃ f, w.loaded (txt "builtins") = some f ∧ f n = some .exception) ∧
    (∀ c, c.import_ = false → (load w c cache v).1 = []) ∧
    (∀ c, (load w c cache v).1.length ≤ 1) := by
  have hi : ∀ c m, c.import_ = false → (importModule w c m).1 = [] := by
    intro c m h
    unfold importModule
    rw [if_neg (by simp [h])]
  have hi' : ∀ c m, (importModule w c m).1.length ≤ 1 := by
    intro c m
    unfold importModule
    split <;> simp
  have himp : ∀ c, (load w c cache v).1 = [] ∨ ∃ m, (load w c cache v).1 = (importModule w c m).1 := by
    intro c
    unfold load
    split
    · exact .inl rfl
    · exact .inl rfl
    · exact .inl rfl
    · split
      · split
        · simp only
          split
          · exact .inr ⟨_, rfl⟩
          · exact .inr ⟨_, rfl⟩
        · exact .inl rfl
        · exact .inl rfl
      · exact .inl rfl
  have hno : ∀ c, c.import_ = false → (load w c cache v).1 = [] := fun c hc => by
    rcases himp c with h | ⟨m, h⟩
    · exact h
    · rw [h, hi c m hc]
  have hcls : ∀ cls a b t l, build w cls a b t = .exc l → l.cls = cls := by
    intro cls a b t l h
    unfold build at h
    split at h
    · split at h
      · cases h; rfl
      · cases h
    · cases h
  refine ⟨hno _ rfl, fun l m n hl hc => ?_, hno, fun c => ?_⟩
  · unfold load at hl
    split at hl
    · cases hl
    · cases hl
    · cases hl
    · split at hl
      · split at hl
        · next m' n' _ =>
          simp only at hl
          split at hl
          · next hf =>
            have := hcls _ _ _ _ _ hl
            rw [hc] at this
            cases this
            rw [find_iff] at hf
            rcases hf with ⟨f, h1, h2, h3⟩ | ⟨h, _⟩
            · rcases h3 with h3 | rfl
              · cases h3
              · exact ⟨rfl, f, h1, h2⟩
            · cases h
          · have := hcls _ _ _ _ _ hl
            obtain ⟨mod, hg, _⟩ := generic_name cache m' n'
            rw [hg, hc] at this
            cases this
        · cases hl
        · cases hl
      · cases hl
  · rcases himp c with h | ⟨m, h⟩
    · rw [h]; simp
    · rw [h]; exact hi' c m

/-- The other side asks for a module to be imported, and for a class that is no exception. -/
example : ((dump true (exExc (txt "m") (txt "X"))).map fun v => ((load exWorld defaults [] v).1, (load exWorld ⟨true, false⟩ [] v).1)) =
    some ([], [txt "m"]) := by decide +kernel

/-- Whenever a full name has a class, it keeps it. -/
theorem cache_grows (w : World) (c : Config) (cache : Cache) (v : Val) (k mod : Text) (h : get k cache = some mod) :
    get k (load w c cache v).2.2 = some mod := by
  have hg : ∀ m n, get k (genericClass cache m n).2 = some mod := by
    intro m n
    unfold genericClass
    cases hf : get (fullname m n) cache with
    | some x => exact h
    | none =>
      simp only
      rw [get_put, if_neg]
      · exact h
      · rintro rfl
        rw [h] at hf
        cases hf
  unfold load
  split
  · exact h
  · exact h
  · exact h
  · split
    · split
      · simp only
        split
        · exact h
        · exact hg _ _
      · exact h
      · exact h
    · exact h

/-- The cache after some exceptions have arrived. -/
def after (w : World) (c : Config) : Cache → List Val → Cache
  | cache, [] => cache
  | cache, v :: l => after w c (load w c cache v).2.2 l

theorem after_grows (w : World) (c : Config) (l : List Val) (cache : Cache) (k mod : Text) (h : get k cache = some mod) :
    get k (after w c cache l) = some mod := by
  induction l generalizing cache with
  | nil => exact h
  | cons v l ih => exact ih _ (cache_grows w c cache v k mod h)

theorem dot_inj (m n m' n' : Text) (h : 46 ∉ n) (h' : 46 ∉ n') (e : m ++ 46 :: n = m' ++ 46 :: n') : m = m' ∧ n = n' := by
  induction m generalizing m' with
  | nil =>
    cases m' with
    | nil => simpa using e
    | cons x m' =>
      simp only [List.nil_append, List.cons_append, List.cons.injEq] at e
      exact absurd (e.2 ▸ List.mem_append_right _ (List.mem_cons_self ..)) h
  | cons x m ih =>
    cases m' with
    | nil =>
      simp only [List.nil_append, List.cons_append, List.cons.injEq] at e
      exact absurd (e.2 ▸ List.mem_append_right _ (List.mem_cons_self ..)) h'
    | cons y m' =>
      simp only [List.cons_append, List.cons.injEq] at e
      obtain ⟨h1, h2⟩ := ih m' e.2
      exact ⟨by rw [e.1, h1], h2⟩

/-- What distinguishes generic classes, full statement: two exceptions have the same class if and only if theirs are the
same. -/
def ClassStatement : Prop :=
  ∀ (w : World) (c : Config) (cache : Cache) (l : List Val) (m n m' n' : Text),
    (genericClass cache m n).1 = (genericClass (after w c (genericClass cache m n).2 l) m' n').1 ↔ m = m' ∧ n = n'

/-- **C127 (generic classes), partial.** Two exceptions, with any others between them, get the same generic class if and
only if they are of the same module and the same class.  Missing: names of classes with dots. -/
theorem C127_class_partial (w : World) (c : Config) (cache : Cache) (l : List Val) (m n m' n' : Text) (h : 46 ∉ n)
    (h' : 46 ∉ n') :
    (genericClass cache m n).1 = (genericClass (after w c (genericClass cache m n).2 l) m' n').1 ↔ m = m' ∧ n = n' := by
  obtain ⟨mod, h1, h2⟩ := generic_name cache m n
  constructor
  · intro e
    obtain ⟨mod', h3, _⟩ := generic_name (after w c (genericClass cache m n).2 l) m' n'
    rw [h1, h3] at e
    injection e with e _
    exact dot_inj m n m' n' h h' e
  · rintro ⟨rfl, rfl⟩
    rw [h1]
    have := after_grows w c l _ _ _ h2
    generalize after w c (genericClass cache m n).2 l = cache' at this ⊢
    unfold genericClass
    rw [show get (fullname m n) cache' = some mod from this]
    rfl

example : (genericClass [] (txt "m") (txt "X")).1 = .generic (txt "m.X") (txt "plainbox.vendor.rpyc.core.vinegar/m") ∧
    46 ∉ txt "X" := by decide

/-- **C127 is violated**: the class `b.c` of module `a`, which `type` can make, and the class `c` of the module `a.b` are one. -/
theorem C127_class_violated : ¬ ClassStatement := by
  intro h
  have := (h exWorld defaults [] [] (txt "a") (txt "b.c") (txt "a.b") (txt "c")).1 (by decide)
  revert this
  decide

/-- **C127 is violated**: `StopIteration` arrives without its value, as the class. -/
theorem C127_stop_violated : ¬ Statement := by
  intro h
  have hr := exRegular (txt "builtins") (txt "StopIteration")
  obtain ⟨v, l, h1, h2, _⟩ := h exWorld defaults [] true { exExc (txt "builtins") (txt "StopIteration") with stop := true }
    ⟨hr.nodup, hr.args, hr.raises⟩ (fun _ _ => rfl)
  cases h1
  cases h2

/-- "This tuple can be safely passed to `brine.dump`." -/
def WriteStatement : Prop := ∀ localTb e v, Regular e → dump localTb e = some v → ∃ b, Brine.dump v = .ok b

/-- **C127 is violated**: an exception about a file whose name is not valid UTF-8 cannot be written, and the other side never
gets an answer. -/
theorem C127_write_violated : ¬ WriteStatement := by
  intro h
  obtain ⟨b, hb⟩ := h false ⟨txt "builtins", txt "OSError", false, [⟨.str [0xdce9], []⟩], [(txt "args", .missing)], []⟩ _
    ⟨by simp, by simp, by intro n hn; simp at hn⟩ rfl
  have : (Brine.dump (.tup [.tup [.str (txt "builtins"), .str (txt "OSError")], .tup [.str [0xdce9]], .tup [],
      .str (txt "<traceback denied>")])).toOption = none := by decide +kernel
  have hb' : Brine.dump (.tup [.tup [.str (txt "builtins"), .str (txt "OSError")], .tup [.str [0xdce9]], .tup [],
      .str (txt "<traceback denied>")]) = .ok b := hb
  rw [hb'] at this
  cases this

end Verif.Vinegar
