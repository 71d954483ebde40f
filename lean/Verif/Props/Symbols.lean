import Verif.Model.Symbols
import Verif.Lemmas.Assoc
import Verif.Lemmas.Sort

/-!
# C114: Symbols are their names, and types of units keep the fields and checks of their base types
-/

namespace Verif.Symbols

open Verif.Checksum (dictSet)
open Verif.Sort (strLe sortBy)

/-! ## Specification -/

/-- The text a symbol or a text stands for. -/
def said : Obj → Option Str
  | .sym s => some s.name
  | .text s => some s
  | .other _ => none

/-- The order of texts: a text comes before those that it starts, and otherwise the first different characters decide. -/
def Before (a b : Str) : Prop :=
  (∃ c x, b = a ++ c :: x) ∨ ∃ p c d x y, a = p ++ c :: x ∧ b = p ++ d :: y ∧ c.toNat < d.toNat

/-- An object that is a text, or a symbol that the program has made with the calls for `names`. -/
def Made (names : List Str) (o : Obj) : Prop := (∃ s ∈ mkSymbols [] names, o = .sym s) ∨ ∃ t, o = .text t

/-- The body of a definition gives a name a symbol: the last assignment to the name counts, and a name that is only mentioned is its own
symbol. -/
def Gives (outer : List Str) (b : List Stmt) (n s : Str) : Prop :=
  (∃ pre r post, b = pre ++ .assign n r :: post ∧ (r = .text s ∨ r = .sym s) ∧ ∀ r', .assign n r' ∉ post) ∨
    (∀ r, .assign n r ∉ b) ∧ .name n ∈ b ∧ n ∉ outer ∧ n ≠ "Symbol".toList ∧ s = n

/-- The nearest namespace that has the name has this for it. -/
def Nearest (ds : List (List (Str × Val))) (n : Str) (v : Val) : Prop :=
  ∃ pre d post, ds = pre ++ d :: post ∧ (n, v) ∈ d ∧ ∀ d' ∈ pre, ∀ v', (n, v') ∉ d'

/-- Names that every class has. -/
def Special (n : Str) : Prop := n = "__doc__".toList ∨ n = "get_all_symbols".toList

/-- The last of some definitions of types that has its own field with this name has this symbol for it. -/
def Field {V : Type} (ms : List (Meta V)) (n s : Str) : Prop :=
  ∃ pre m post, ms = pre ++ m :: post ∧ (∃ d, m.fields = some d ∧ (n, .sym s) ∈ d) ∧
    ∀ m' ∈ post, ∀ d, m'.fields = some d → ∀ s', (n, .sym s') ∉ d

/-- The last of some definitions of types that has its own validators for this field has these. -/
def Validator {V : Type} (ms : List (Meta V)) (f : Str) (v : V) : Prop :=
  ∃ pre m post, ms = pre ++ m :: post ∧ (∃ d, m.validators = some d ∧ (f, v) ∈ d) ∧
    ∀ m' ∈ post, ∀ d, m'.validators = some d → ∀ v', (f, v') ∉ d

/-! ## Symbols -/

theorem idxOf_some {t : List Str} {n : Str} {i : Nat} (h : t.idxOf? n = some i) : t[i]? = some n := by
  unfold List.idxOf? at h
  rw [List.findIdx?_eq_some_iff_getElem] at h
  obtain ⟨hi, hb, -⟩ := h
  rw [List.getElem?_eq_getElem hi]
  simpa using hb

theorem idxOf_none {t : List Str} {n : Str} (h : t.idxOf? n = none) : n ∉ t := by
  unfold List.idxOf? at h
  rw [List.findIdx?_eq_none_iff] at h
  intro hm
  simpa using h n hm

theorem mkSymbols_table (ns : List Str) : ∀ t : List Str, t.Nodup →
    ∃ t' : List Str, t'.Nodup ∧ (∃ x, t' = t ++ x) ∧ ∀ s ∈ mkSymbols t ns, t'[s.id]? = some s.name := by
  induction ns with
  | nil => exact fun t h => ⟨t, h, ⟨[], by simp⟩, by simp [mkSymbols]⟩
  | cons n ns ih =>
    intro t h
    cases hi : t.idxOf? n with
    | some i =>
      obtain ⟨t', h1, ⟨x, e⟩, h2⟩ := ih t h
      refine ⟨t', h1, ⟨x, e⟩, ?_⟩
      intro s hs
      simp only [mkSymbols, mkSymbol, hi, List.mem_cons] at hs
      rcases hs with rfl | hs
      · have := idxOf_some hi
        rw [e, List.getElem?_append_left (List.getElem?_eq_some_iff.1 this).1]
        exact this
      · exact h2 s hs
    | none =>
      have hn := idxOf_none hi
      have hnd : (t ++ [n]).Nodup := by
        rw [List.nodup_append]
        refine ⟨h, by simp, ?_⟩
        intro a ha b hb e
        rw [List.mem_singleton] at hb
        exact hn (hb ▸ e ▸ ha)
      obtain ⟨t', h1, ⟨x, e⟩, h2⟩ := ih (t ++ [n]) hnd
      refine ⟨t', h1, ⟨n :: x, by rw [e]; simp⟩, ?_⟩
      intro s hs
      simp only [mkSymbols, mkSymbol, hi, List.mem_cons] at hs
      rcases hs with rfl | hs
      · rw [e]
        simp
      · exact h2 s hs

theorem mkSymbols_names (ns : List Str) : ∀ t : List Str, (mkSymbols t ns).map (·.name) = ns := by
  induction ns with
  | nil => exact fun _ => rfl
  | cons n ns ih =>
    intro t
    simp only [mkSymbols, List.map_cons, ih]
    congr 1
    unfold mkSymbol
    split <;> rfl

theorem same_iff {names : List Str} {s t : Sym} (hs : s ∈ mkSymbols [] names) (ht : t ∈ mkSymbols [] names) :
    s.id = t.id ↔ s.name = t.name := by
  obtain ⟨t', h1, -, h2⟩ := mkSymbols_table names [] (by simp)
  have a := h2 s hs
  have b := h2 t ht
  constructor
  · intro e
    rw [e] at a
    exact Option.some.inj (a.symm.trans b)
  · intro e
    rw [← e] at b
    exact (List.getElem?_inj (List.getElem?_eq_some_iff.1 a).1 h1).1 (a.trans b.symm)

/-- **C114, part 1.** However often symbols are asked for, there is one object for every name: the calls give symbols with the names
asked for, and two calls give the same object exactly if the names are the same. -/
theorem C114_same (names : List Str) : (mkSymbols [] names).map (·.name) = names ∧
    ∀ s ∈ mkSymbols [] names, ∀ t ∈ mkSymbols [] names, s.id = t.id ↔ s.name = t.name :=
  ⟨mkSymbols_names names [], fun _ hs _ ht => same_iff hs ht⟩

theorem strLe_iff (a b : Str) : strLe a b = true ↔ a = b ∨ Before a b := by
  induction a generalizing b with
  | nil =>
    cases b with
    | nil => simp [strLe]
    | cons c b => exact ⟨fun _ => .inr (.inl ⟨c, b, rfl⟩), fun _ => rfl⟩
  | cons c a ih =>
    cases b with
    | nil =>
      simp only [strLe, Bool.false_eq_true, reduceCtorEq, false_or, false_iff]
      rintro (⟨d, x, e⟩ | ⟨p, d, e, x, y, _, e2, _⟩)
      · simp at e
      · simp at e2
    | cons d b =>
      simp only [strLe]
      by_cases h : c.toNat < d.toNat
      · rw [if_pos h]
        exact ⟨fun _ => .inr (.inr ⟨[], c, d, a, b, rfl, rfl, h⟩), fun _ => rfl⟩
      · rw [if_neg h]
        by_cases e : c = d
        · subst e
          rw [if_pos rfl, ih]
          constructor
          · rintro (rfl | ⟨d, x, rfl⟩ | ⟨p, d, e, x, y, rfl, rfl, hl⟩)
            · exact .inl rfl
            · exact .inr (.inl ⟨d, x, rfl⟩)
            · exact .inr (.inr ⟨c :: p, d, e, x, y, rfl, rfl, hl⟩)
          · rintro (h | ⟨d, x, h⟩ | ⟨p, d, e, x, y, h1, h2, hl⟩)
            · exact .inl (List.cons.inj h).2
            · exact .inr (.inl ⟨d, x, (List.cons.inj h).2⟩)
            · cases p with
              | nil =>
                have a := (List.cons.inj h1).1
                have b := (List.cons.inj h2).1
                subst a b
                omega
              | cons q p => exact .inr (.inr ⟨p, d, e, x, y, (List.cons.inj h1).2, (List.cons.inj h2).2, hl⟩)
        · rw [if_neg e]
          simp only [Bool.false_eq_true, false_iff]
          rintro (h' | ⟨f, x, h'⟩ | ⟨p, f, g, x, y, h1, h2, hl⟩)
          · exact e (List.cons.inj h').1
          · exact e (List.cons.inj h').1.symm
          · cases p with
            | nil =>
              have a := (List.cons.inj h1).1
              have b := (List.cons.inj h2).1
              subst a b
              exact h hl
            | cons q p => exact e ((List.cons.inj h1).1.trans (List.cons.inj h2).1.symm)

theorem before_irrefl (a : Str) : ¬ Before a a := by
  rintro (⟨c, x, h⟩ | ⟨p, c, d, x, y, h1, h2, hl⟩)
  · have := congrArg List.length h
    simp at this
  · rw [h1] at h2
    have := List.append_cancel_left h2
    have := (List.cons.inj this).1
    subst this
    omega

theorem strLt_iff (a b : Str) : strLt a b = true ↔ Before a b := by
  unfold strLt
  rw [Bool.not_eq_true', ← Bool.not_eq_true, strLe_iff]
  constructor
  · intro h
    have := (Sort.strLe_total a b).resolve_right (fun h' => h ((strLe_iff b a).1 h'))
    rcases (strLe_iff a b).1 this with e | h'
    · exact absurd (.inl e.symm) h
    · exact h'
  · rintro h (e | h')
    · subst e
      exact before_irrefl _ h
    · have e := Sort.strLe_antisymm a b ((strLe_iff a b).2 (.inr h)) ((strLe_iff b a).2 (.inr h'))
      subst e
      exact before_irrefl _ h

theorem equal_iff {names : List Str} {a b : Obj} (ha : Made names a) (hb : Made names b) : equal a b = true ↔ said a = said b := by
  rcases ha with ⟨s, hs, rfl⟩ | ⟨s, rfl⟩
  · rcases hb with ⟨t, ht, rfl⟩ | ⟨t, rfl⟩
    · simp only [equal, eqMethod, Option.getD_some, beq_iff_eq, said, Option.some.injEq]
      exact same_iff hs ht
    · simp [equal, eqMethod, said]
  · rcases hb with ⟨t, ht, rfl⟩ | ⟨t, rfl⟩
    · simp only [equal, eqMethod, Option.getD_some, beq_iff_eq, said, Option.some.injEq]
      exact ⟨Eq.symm, Eq.symm⟩
    · simp [equal, said]

/-- **C114, part 2.** Symbols compare with symbols and texts, on either side, as their names do; equal ones have equal hashes. -/
theorem C114_compare (names : List Str) (a b : Obj) (x y : Str) (ha : Made names a) (hb : Made names b) (hx : said a = some x)
    (hy : said b = some y) (h : Str → Nat) (h' : Nat → Nat) :
    (equal a b = true ↔ x = y) ∧ (x = y → hash h h' a = hash h h' b) ∧
    ∃ r, less a b = some r ∧ (r = true ↔ Before x y) := by
  refine ⟨?_, ?_, ?_⟩
  · rw [equal_iff ha hb, hx, hy, Option.some.injEq]
  · rintro rfl
    rcases ha with ⟨s, -, rfl⟩ | ⟨s, rfl⟩ <;> rcases hb with ⟨t, -, rfl⟩ | ⟨t, rfl⟩ <;>
      · injection hx with hx
        injection hy with hy
        simp only [hash, hx, hy]
  · rcases ha with ⟨s, hs, rfl⟩ | ⟨s, rfl⟩ <;> rcases hb with ⟨t, ht, rfl⟩ | ⟨t, rfl⟩
    · injection hx with hx; injection hy with hy
      exact ⟨_, rfl, by rw [strLt_iff, hx, hy]⟩
    · injection hx with hx; injection hy with hy
      exact ⟨_, rfl, by rw [strLt_iff, hx, hy]⟩
    · injection hx with hx; injection hy with hy
      refine ⟨_, rfl, ?_⟩
      rw [Bool.and_eq_true, Bool.not_eq_true', Bool.not_eq_true', ← Bool.not_eq_true, ← Bool.not_eq_true, strLt_iff]
      simp only [equal, eqMethod, Option.getD_some, beq_iff_eq]
      rw [hx, hy]
      constructor
      · rintro ⟨h1, h2⟩
        have h4 : strLe x y = true := by
          refine (Sort.strLe_total x y).resolve_right fun h3 => ?_
          rcases (strLe_iff y x).1 h3 with e | h3
          · exact h2 e
          · exact h1 h3
        rcases (strLe_iff x y).1 h4 with e | h3
        · exact absurd e.symm h2
        · exact h3
      · intro h3
        refine ⟨fun h4 => ?_, fun e => before_irrefl x (e ▸ h3)⟩
        have e := Sort.strLe_antisymm x y ((strLe_iff x y).2 (.inr h3)) ((strLe_iff y x).2 (.inr h4))
        exact before_irrefl x (e ▸ h3)
    · injection hx with hx; injection hy with hy
      exact ⟨_, rfl, by rw [strLt_iff, hx, hy]⟩

/-- **C114, part 3.** A symbol is not equal to any other object, and comparing them otherwise is an error. -/
theorem C114_other (s : Sym) (i : Nat) : equal (.sym s) (.other i) = false ∧ equal (.other i) (.sym s) = false ∧
    less (.sym s) (.other i) = none ∧ less (.other i) (.sym s) = none := ⟨rfl, rfl, rfl, rfl⟩

/-! ## Definitions of symbols -/

theorem lookup_none {V : Type} {d : List (Str × V)} {n : Str} : d.lookup n = none ↔ n ∉ d.map (·.1) := by
  induction d with
  | nil => simp
  | cons p d ih =>
    rw [Assoc.lk_cons, List.map_cons, List.mem_cons]
    by_cases e : n = p.1
    · simp [e]
    · rw [if_neg e, ih]
      simp [e]

theorem lookup_mem {V : Type} {d : List (Str × V)} (h : (d.map (·.1)).Nodup) (n : Str) (w : V) :
    d.lookup n = some w ↔ (n, w) ∈ d := by
  induction d with
  | nil => simp
  | cons p d ih =>
    rw [List.map_cons, List.nodup_cons] at h
    rw [Assoc.lk_cons, List.mem_cons]
    refine Iff.trans ?_ (or_congr Iff.rfl (ih h.2))
    obtain ⟨a, b⟩ := p
    by_cases e : n = a
    · subst e
      rw [lookup_none.2 h.1]
      simp only [if_true, Option.some.injEq, Prod.mk.injEq, true_and, reduceCtorEq, or_false]
      exact ⟨Eq.symm, Eq.symm⟩
    · simp [e]

/-- The last assignment to a name. -/
def Last (b : List Stmt) (n s : Str) : Prop :=
  ∃ pre r post, b = pre ++ .assign n r :: post ∧ (r = .text s ∨ r = .sym s) ∧ ∀ r', .assign n r' ∉ post

theorem last_cons (st : Stmt) (b : List Stmt) (n s : Str) :
    Last (st :: b) n s ↔ Last b n s ∨ (st = .assign n (.text s) ∨ st = .assign n (.sym s)) ∧ ∀ r', .assign n r' ∉ b := by
  constructor
  · rintro ⟨pre, r, post, e, h1, h2⟩
    cases pre with
    | nil =>
      injection e with e1 e2
      subst e1 e2
      refine .inr ⟨?_, h2⟩
      rcases h1 with rfl | rfl
      · exact .inl rfl
      · exact .inr rfl
    | cons x pre =>
      injection e with e1 e2
      exact .inl ⟨pre, r, post, e2, h1, h2⟩
  · rintro (⟨pre, r, post, e, h1, h2⟩ | ⟨h1 | h1, h2⟩)
    · exact ⟨st :: pre, r, post, by rw [e]; rfl, h1, h2⟩
    · exact ⟨[], _, b, by rw [h1]; rfl, .inl rfl, h2⟩
    · exact ⟨[], _, b, by rw [h1]; rfl, .inr rfl, h2⟩

theorem getItem_lookup (outer : List Str) (m n : Str) (d : List (Str × Val)) (hn : n ∉ passThru) :
    (getItem outer m d).lookup n =
      if m = n ∧ d.lookup n = none ∧ n ∉ outer ∧ n ≠ "Symbol".toList then some (.sym n) else d.lookup n := by
  unfold getItem
  by_cases e : m = n
  · subst e
    rw [if_neg hn]
    by_cases h1 : m ∈ outer
    · rw [if_pos h1, if_neg (fun h => h.2.2.1 h1)]
    · rw [if_neg h1]
      cases hl : d.lookup m with
      | some v => simp [hl]
      | none =>
        rw [if_neg (by simp)]
        by_cases h2 : m = "Symbol".toList
        · rw [if_pos h2, if_neg (fun h => h.2.2.2 h2), hl]
        · rw [if_neg h2, if_pos ⟨rfl, rfl, h1, h2⟩, Assoc.lookup_dictSet, if_pos rfl]
  · refine Eq.trans ?_ (if_neg (fun h => e h.1)).symm
    have e' : ¬ n = m := fun h => e h.symm
    split
    · rfl
    · split
      · rfl
      · split
        · rfl
        · split
          · rfl
          · rw [Assoc.lookup_dictSet, if_neg e']

theorem getItem_nodup (outer : List Str) (m : Str) (d : List (Str × Val)) (h : (d.map (·.1)).Nodup) :
    ((getItem outer m d).map (·.1)).Nodup := by
  unfold getItem
  split
  · exact h
  · split
    · exact h
    · split
      · exact h
      · split
        · exact h
        · exact Assoc.nodup_dictSet _ _ _ h

theorem setItem_ok {n : Str} {r : Rhs} {d d' : List (Str × Val)} (h : setItem n r d = .ok d') :
    ((d.map (·.1)).Nodup → (d'.map (·.1)).Nodup) ∧ ∀ m, m ∉ passThru →
      (m ≠ n → d'.lookup m = d.lookup m) ∧ (m = n → ∀ v, d'.lookup m = some v ↔ ∃ s, v = .sym s ∧ (r = .text s ∨ r = .sym s)) := by
  unfold setItem at h
  split at h
  · rename_i hp
    injection h with h
    subst h
    refine ⟨Assoc.nodup_dictSet _ _ _, fun m hm => ⟨fun e => ?_, fun e => absurd (e ▸ hp) hm⟩⟩
    rw [Assoc.lookup_dictSet, if_neg e]
  · cases r with
    | other => cases h
    | text s =>
      injection h with h
      subst h
      refine ⟨Assoc.nodup_dictSet _ _ _, fun m _ => ⟨fun e => ?_, fun e v => ?_⟩⟩
      · rw [Assoc.lookup_dictSet, if_neg e]
      · rw [Assoc.lookup_dictSet, if_pos e]
        simp [eq_comm]
    | sym s =>
      injection h with h
      subst h
      refine ⟨Assoc.nodup_dictSet _ _ _, fun m _ => ⟨fun e => ?_, fun e v => ?_⟩⟩
      · rw [Assoc.lookup_dictSet, if_neg e]
      · rw [Assoc.lookup_dictSet, if_pos e]
        simp [eq_comm]

theorem body_nodup {outer : List Str} {b : List Stmt} : ∀ {d d' : List (Str × Val)}, body outer b d = .ok d' →
    (d.map (·.1)).Nodup → (d'.map (·.1)).Nodup := by
  induction b with
  | nil =>
    intro d d' h hd
    injection h with h
    exact h ▸ hd
  | cons st b ih =>
    intro d d' h hd
    cases st with
    | name m => exact ih h (getItem_nodup _ _ _ hd)
    | assign m r =>
      simp only [body] at h
      cases hs : setItem m r d with
      | error e => rw [hs] at h; cases h
      | ok d1 =>
        rw [hs] at h
        exact ih h ((setItem_ok hs).1 hd)

theorem body_lookup {outer : List Str} {n : Str} (hn : n ∉ passThru) (v : Val) {b : List Stmt} : ∀ {d d' : List (Str × Val)},
    body outer b d = .ok d' → (d'.lookup n = some v ↔ (∃ s, v = .sym s ∧ Last b n s) ∨ (∀ r, .assign n r ∉ b) ∧
      (d.lookup n = some v ∨ d.lookup n = none ∧ v = .sym n ∧ .name n ∈ b ∧ n ∉ outer ∧ n ≠ "Symbol".toList)) := by
  induction b with
  | nil =>
    intro d d' h
    injection h with h
    subst h
    simp [Last]
  | cons st b ih =>
    intro d d' h
    cases st with
    | name m =>
      rw [ih (show body outer b (getItem outer m d) = .ok d' from h), getItem_lookup outer m n d hn]
      simp only [last_cons, reduceCtorEq, false_or, or_false, false_and, List.mem_cons]
      refine or_congr Iff.rfl (and_congr Iff.rfl ?_)
      by_cases hc : m = n ∧ d.lookup n = none ∧ n ∉ outer ∧ n ≠ "Symbol".toList
      · obtain ⟨h1, h2, h3, h4⟩ := hc
        rw [if_pos ⟨h1, h2, h3, h4⟩]
        simp only [Option.some.injEq, reduceCtorEq, false_and, or_false, h2, h1, true_or, true_and, h3, h4, not_false_eq_true,
          ne_eq, and_true, false_or]
        exact ⟨Eq.symm, Eq.symm⟩
      · rw [if_neg hc]
        refine or_congr Iff.rfl ⟨fun ⟨h1, h2, h3, h4, h5⟩ => ⟨h1, h2, .inr h3, h4, h5⟩, fun ⟨h1, h2, h3, h4, h5⟩ => ⟨h1, h2, ?_, h4, h5⟩⟩
        rcases h3 with h3 | h3
        · injection h3 with h3
          exact absurd ⟨h3.symm, h1, h4, h5⟩ hc
        · exact h3
    | assign m r =>
      simp only [body] at h
      cases hs : setItem m r d with
      | error e => rw [hs] at h; cases h
      | ok d1 =>
        rw [hs] at h
        obtain ⟨-, hl⟩ := setItem_ok hs
        rw [ih (show body outer b d1 = .ok d' from h)]
        simp only [last_cons, List.mem_cons, reduceCtorEq, false_or]
        by_cases e : n = m
        · subst e
          have h1 := (hl n hn).2 rfl
          have h2 : ∀ x, (∃ s, x = Val.sym s ∧ (r = .text s ∨ r = .sym s)) → d1.lookup n ≠ none := by
            intro x hx
            rw [(h1 x).2 hx]
            simp
          have hsome : d1.lookup n ≠ none := by
            unfold setItem at hs
            rw [if_neg hn] at hs
            cases r with
            | other => cases hs
            | text s => exact h2 (.sym s) ⟨s, rfl, .inl rfl⟩
            | sym s => exact h2 (.sym s) ⟨s, rfl, .inr rfl⟩
          rw [h1]
          constructor
          · rintro (⟨s, rfl, hL⟩ | ⟨hno, ⟨s, rfl, hr⟩ | ⟨hx, _⟩⟩)
            · exact .inl ⟨s, rfl, .inl hL⟩
            · refine .inl ⟨s, rfl, .inr ⟨?_, hno⟩⟩
              rcases hr with rfl | rfl
              · exact .inl rfl
              · exact .inr rfl
            · exact absurd hx hsome
          · rintro (⟨s, rfl, hL | ⟨hr, hno⟩⟩ | ⟨hno, _⟩)
            · exact .inl ⟨s, rfl, hL⟩
            · refine .inr ⟨hno, .inl ⟨s, rfl, ?_⟩⟩
              rcases hr with hr | hr
              · injection hr with _ hr
                exact .inl hr
              · injection hr with _ hr
                exact .inr hr
            · exact absurd (.inl rfl) (hno r)
        · rw [(hl n hn).1 e]
          have hne : ∀ r', Stmt.assign n r' ≠ .assign m r := fun r' h => e (Stmt.assign.inj h).1
          have hne' : ∀ r', Stmt.assign m r ≠ .assign n r' := fun r' h => e (Stmt.assign.inj h).1.symm
          simp only [hne, hne', false_or, or_self, false_and, or_false]

/-- **C114, part 4.** A definition of symbols gives every name the symbol that was assigned to it last, and a name that is only
mentioned its own; it gives no other symbols. -/
theorem C114_define (outer : List Str) (b : List Stmt) (d : List (Str × Val)) (h : define outer b = .ok d) (n s : Str)
    (hn : n ∉ ["__name__".toList, "__qualname__".toList, "__doc__".toList, "__module__".toList, "get_all_symbols".toList]) :
    ((n, .sym s) ∈ d ↔ Gives outer b n s) ∧ (d.map (·.1)).Nodup := by
  unfold define at h
  cases hb : body outer b [] with
  | error e => rw [hb] at h; cases h
  | ok d1 =>
    rw [hb] at h
    injection h with h
    replace h : dictSet "get_all_symbols".toList Val.plain d1 = d := h
    have hd1 := body_nodup hb (by simp)
    have hd := Assoc.nodup_dictSet "get_all_symbols".toList Val.plain d1 hd1
    rw [h] at hd
    refine ⟨?_, hd⟩
    have hp : n ∉ passThru := fun hp => hn (List.mem_append.2 (.inl hp : n ∈ passThru ∨ n ∈ ["get_all_symbols".toList]))
    have hg : n ≠ "get_all_symbols".toList := fun e => hn (by rw [e]; simp)
    rw [← lookup_mem hd, ← h, Assoc.lookup_dictSet, if_neg hg, body_lookup hp _ hb]
    unfold Gives
    simp only [Val.sym.injEq, List.lookup_nil, reduceCtorEq, false_or, true_and]
    constructor
    · rintro (⟨x, rfl, hL⟩ | ⟨h1, rfl, h2⟩)
      · exact .inl hL
      · exact .inr ⟨h1, h2.1, h2.2.1, h2.2.2, rfl⟩
    · rintro (hL | ⟨h1, h2, h3, h4, rfl⟩)
      · exact .inl ⟨s, rfl, hL⟩
      · exact .inr ⟨h1, rfl, h2, h3, h4⟩

/-- **C114, part 5.** It is refused exactly if something that is no symbol and no text is assigned to a name that is not special. -/
theorem C114_refused (outer : List Str) (b : List Stmt) (e : Err) : define outer b = .error e ↔
    e = .value ∧ ∃ n, n ∉ ["__name__".toList, "__qualname__".toList, "__doc__".toList, "__module__".toList] ∧ .assign n .other ∈ b := by
  have key : ∀ (b : List Stmt) (d : List (Str × Val)), body outer b d = .error e ↔
      e = .value ∧ ∃ n, n ∉ passThru ∧ .assign n .other ∈ b := by
    intro b
    induction b with
    | nil => simp [body]
    | cons st b ih =>
      intro d
      cases st with
      | name m =>
        simp only [body, ih, List.mem_cons, reduceCtorEq, false_or]
      | assign m r =>
        by_cases hp : m ∈ passThru
        · simp only [body, setItem, if_pos hp]
          refine (ih _).trans (and_congr Iff.rfl ⟨fun ⟨n, h1, h2⟩ => ⟨n, h1, by simp [h2]⟩, fun ⟨n, h1, h2⟩ => ⟨n, h1, ?_⟩⟩)
          rcases List.mem_cons.1 h2 with h2 | h2
          · injection h2 with h2 _
            exact absurd (h2 ▸ hp) h1
          · exact h2
        · simp only [body, setItem, if_neg hp]
          cases r with
          | other =>
            constructor
            · intro h
              injection h with h
              exact ⟨h.symm, m, hp, by simp⟩
            · rintro ⟨rfl, -⟩
              rfl
          | text s =>
            refine (ih _).trans ?_
            simp
          | sym s =>
            refine (ih _).trans ?_
            simp
  unfold define
  cases hb : body outer b [] with
  | error x =>
    have := key b []
    rw [hb] at this
    exact (show Except.error x = Except.error e ↔ _ from this)
  | ok d =>
    have := key b []
    rw [hb] at this
    constructor
    · intro h
      cases h
    · intro h
      cases this.2 h

/-! ## Listing symbols -/

theorem update_nodup {V : Type} (l : List (Str × V)) : ∀ m : List (Str × V), (m.map (·.1)).Nodup →
    ((l.foldl (fun m p => dictSet p.1 p.2 m) m).map (·.1)).Nodup := by
  induction l with
  | nil => exact fun m h => h
  | cons p l ih => exact fun m h => ih _ (Assoc.nodup_dictSet _ _ _ h)

theorem update_lookup {V : Type} (l : List (Str × V)) (n : Str) : ∀ m : List (Str × V), (l.map (·.1)).Nodup →
    (l.foldl (fun m p => dictSet p.1 p.2 m) m).lookup n = (l.lookup n).or (m.lookup n) := by
  induction l with
  | nil => exact fun m _ => by simp
  | cons p l ih =>
    intro m h
    rw [List.map_cons, List.nodup_cons] at h
    rw [List.foldl_cons, ih _ h.2, Assoc.lookup_dictSet, Assoc.lk_cons]
    by_cases e : n = p.1
    · rw [if_pos e, if_pos e, lookup_none.2 (e ▸ h.1), Option.none_or, Option.some_or]
    · rw [if_neg e, if_neg e]

theorem nearest_cons (d : List (Str × Val)) (ds : List (List (Str × Val))) (n : Str) (v : Val) :
    Nearest (d :: ds) n v ↔ (n, v) ∈ d ∨ (∀ v', (n, v') ∉ d) ∧ Nearest ds n v := by
  constructor
  · rintro ⟨pre, x, post, e, h1, h2⟩
    cases pre with
    | nil =>
      injection e with e1 e2
      exact .inl (e1 ▸ h1)
    | cons y pre =>
      injection e with e1 e2
      subst e1
      exact .inr ⟨h2 d (by simp), pre, x, post, e2, h1, fun d' hd' => h2 d' (by simp [hd'])⟩
  · rintro (h | ⟨h, pre, x, post, e, h1, h2⟩)
    · exact ⟨[], d, ds, rfl, h, by simp⟩
    · refine ⟨d :: pre, x, post, by rw [e]; rfl, h1, fun d' hd' => ?_⟩
      rcases List.mem_cons.1 hd' with rfl | hd'
      · exact h
      · exact h2 d' hd'

theorem attributes_spec (ds : List (List (Str × Val))) (h : ∀ d ∈ ds, (d.map (·.1)).Nodup) :
    ((attributes ds).map (·.1)).Nodup ∧ ∀ n v, (attributes ds).lookup n = some v ↔ Nearest ds n v := by
  induction ds with
  | nil =>
    refine ⟨by simp [attributes], fun n v => ?_⟩
    simp [attributes, Nearest]
  | cons d ds ih =>
    obtain ⟨h1, h2⟩ := ih fun d' hd' => h d' (by simp [hd'])
    refine ⟨update_nodup _ _ h1, fun n v => ?_⟩
    rw [attributes, update_lookup _ _ _ (h d (by simp)), nearest_cons, Option.or_eq_some_iff, h2, lookup_mem (h d (by simp)),
      lookup_none]
    refine or_congr Iff.rfl (and_congr ⟨fun hn v' hv => hn (List.mem_map.2 ⟨_, hv, rfl⟩), fun hn hm => ?_⟩ Iff.rfl)
    obtain ⟨⟨a, b⟩, hp, rfl⟩ := List.mem_map.1 hm
    exact hn b hp

theorem sorted_strict {V : Type} (l : List (Str × V)) (h : (l.map (·.1)).Nodup) :
    (sortBy (fun a b => strLe a.1 b.1) l).Pairwise (fun a b => Before a.1 b.1) := by
  have h1 := Sort.sortBy_sorted (le := fun a b : Str × V => strLe a.1 b.1) (fun a b => Sort.strLe_total a.1 b.1)
    (fun a b c => Sort.strLe_trans a.1 b.1 c.1) l
  have h2 : ((sortBy (fun a b : Str × V => strLe a.1 b.1) l).map (·.1)).Nodup :=
    ((Sort.sortBy_perm (le := fun a b : Str × V => strLe a.1 b.1) l).map _).nodup_iff.2 h
  have h3 := List.pairwise_map.1 h2
  exact (h1.and h3).imp fun ⟨ha, hb⟩ => ((strLe_iff _ _).1 ha).resolve_left hb

/-- **C114, part 6.** All symbols of a definition are those that the nearest namespace has for a name, every name once, in the order
of the names. Partial: a symbol with two names is listed twice (`C114_twice_violated`). -/
theorem C114_listed_partial (ds : List (List (Str × Val))) (h : ∀ d ∈ ds, (d.map (·.1)).Nodup) :
    ∃ l : List (Str × Str), allSymbols ds = l.map (·.2) ∧ (l.map (·.1)).Pairwise Before ∧
      ∀ n s, (n, s) ∈ l ↔ n ≠ "__locals__".toList ∧ Nearest ds n (.sym s) := by
  obtain ⟨h1, h2⟩ := attributes_spec ds h
  unfold allSymbols
  generalize "__locals__".toList = q
  let g : Str × Val → Option (Str × Str) := fun p => match p.2 with
    | .sym s => if p.1 = q then none else some (p.1, s)
    | .plain => none
  have hg : ∀ p r, g p = some r ↔ r.1 = p.1 ∧ p.2 = .sym r.2 ∧ p.1 ≠ q := by
    rintro ⟨a, v⟩ ⟨b, s⟩
    cases v with
    | plain => simp [g]
    | sym t =>
      by_cases e : a = q
      · simp [g, e]
      · simp only [g, if_neg e, Option.some.injEq, Prod.mk.injEq, Val.sym.injEq]
        exact ⟨fun h => ⟨h.1.symm, h.2, e⟩, fun h => ⟨h.1.symm, h.2.1⟩⟩
  refine ⟨(sortBy (fun a b => strLe a.1 b.1) (attributes ds)).filterMap g, ?_, ?_, fun n s => ?_⟩
  · rw [List.map_filterMap]
    congr 1
    funext p
    obtain ⟨a, v⟩ := p
    cases v with
    | plain => rfl
    | sym s =>
      by_cases e : a = q
      · simp [g, e]
      · simp only [g, if_neg e, Option.map_some]
  · rw [List.pairwise_map]
    refine List.Pairwise.filterMap g (R := fun a b => Before a.1 b.1) ?_ (sorted_strict _ h1)
    intro a a' hb b hb1 b' hb2
    rw [((hg _ _).1 hb1).1, ((hg _ _).1 hb2).1]
    exact hb
  · rw [List.mem_filterMap]
    constructor
    · rintro ⟨⟨a, v⟩, hm, hp⟩
      obtain ⟨rfl, rfl, hn⟩ := (hg _ _).1 hp
      refine ⟨hn, (h2 _ _).1 ((lookup_mem h1 _ _).2 ?_)⟩
      exact (Sort.sortBy_perm _).mem_iff.1 hm
    · rintro ⟨hn, hs⟩
      exact ⟨(n, .sym s), (Sort.sortBy_perm _).mem_iff.2 ((lookup_mem h1 _ _).1 ((h2 _ _).2 hs)), (hg (n, .sym s) (n, s)).2 ⟨rfl, rfl, hn⟩⟩

/-! ## Types of units -/

theorem derive_ok {V : Type} {b k : Kind V} {m : Option (Meta V)} (h : derive b m = .ok k) : ∃ m', m = some m' ∧
    k.validators = mergeValidators b.validators m'.validators ∧
    ((m'.fields = none ∧ k.fields = b.fields) ∨ ∃ d, m'.fields = some d ∧
      k.fields = dictSet "__doc__".toList .plain (dictSet "get_all_symbols".toList .plain (copySymbols d)) :: b.fields) := by
  cases m with
  | none => cases h
  | some m =>
    refine ⟨m, rfl, ?_⟩
    unfold derive at h
    dsimp only at h
    split at h
    · cases h
    · split at h
      · cases h
      · split at h
        · rename_i hf
          injection h with h
          subst h
          exact ⟨rfl, .inl ⟨hf, rfl⟩⟩
        · rename_i d hf
          injection h with h
          subst h
          exact ⟨rfl, .inr ⟨d, hf, rfl⟩⟩

theorem copy_mem {d : List (Str × Val)} (hd : (d.map (·.1)).Nodup) {n : Str} (hn : ¬ Special n) :
    ((dictSet "__doc__".toList Val.plain (dictSet "get_all_symbols".toList .plain (copySymbols d))).map (·.1)).Nodup ∧
    ∀ v, (n, v) ∈ dictSet "__doc__".toList Val.plain (dictSet "get_all_symbols".toList .plain (copySymbols d)) ↔
      (n, v) ∈ d ∧ ∃ s, v = .sym s := by
  have h0 : ((copySymbols d).map (·.1)).Nodup := (List.filter_sublist.map _).nodup hd
  have h1 := Assoc.nodup_dictSet "__doc__".toList Val.plain _ (Assoc.nodup_dictSet "get_all_symbols".toList Val.plain _ h0)
  refine ⟨h1, fun v => ?_⟩
  rw [← lookup_mem h1, Assoc.lookup_dictSet, if_neg (fun e => hn (.inl e)), Assoc.lookup_dictSet, if_neg (fun e => hn (.inr e)),
    lookup_mem h0, copySymbols, List.mem_filter]
  refine and_congr Iff.rfl ?_
  cases v <;> simp

theorem field_snoc {V : Type} (ms : List (Meta V)) (m : Meta V) (n s : Str) : Field (ms ++ [m]) n s ↔
    (∃ d, m.fields = some d ∧ (n, .sym s) ∈ d) ∨ (∀ d, m.fields = some d → ∀ s', (n, .sym s') ∉ d) ∧ Field ms n s := by
  constructor
  · rintro ⟨pre, x, post, e, h1, h2⟩
    rcases List.eq_nil_or_concat post with rfl | ⟨post, y, rfl⟩
    · have := List.append_inj' e (by simp)
      have hx : m = x := by simpa using this.2
      exact .inl (hx ▸ h1)
    · rw [List.concat_eq_append, ← List.cons_append, ← List.append_assoc] at e
      have := List.append_inj' e (by simp)
      have hy : m = y := by simpa using this.2
      subst hy
      exact .inr ⟨h2 m (by simp), pre, x, post, this.1, h1, fun m' hm' => h2 m' (by simp [hm'])⟩
  · rintro (h | ⟨h, pre, x, post, e, h1, h2⟩)
    · exact ⟨ms, m, [], rfl, h, by simp⟩
    · refine ⟨pre, x, post ++ [m], by rw [e]; simp, h1, fun m' hm' => ?_⟩
      rcases List.mem_append.1 hm' with hm' | hm'
      · exact h2 m' hm'
      · rw [List.mem_singleton.1 hm']
        exact h

theorem validator_snoc {V : Type} (ms : List (Meta V)) (m : Meta V) (n : Str) (v : V) : Validator (ms ++ [m]) n v ↔
    (∃ d, m.validators = some d ∧ (n, v) ∈ d) ∨ (∀ d, m.validators = some d → ∀ v', (n, v') ∉ d) ∧ Validator ms n v := by
  constructor
  · rintro ⟨pre, x, post, e, h1, h2⟩
    rcases List.eq_nil_or_concat post with rfl | ⟨post, y, rfl⟩
    · have := List.append_inj' e (by simp)
      have hx : m = x := by simpa using this.2
      exact .inl (hx ▸ h1)
    · rw [List.concat_eq_append, ← List.cons_append, ← List.append_assoc] at e
      have := List.append_inj' e (by simp)
      have hy : m = y := by simpa using this.2
      subst hy
      exact .inr ⟨h2 m (by simp), pre, x, post, this.1, h1, fun m' hm' => h2 m' (by simp [hm'])⟩
  · rintro (h | ⟨h, pre, x, post, e, h1, h2⟩)
    · exact ⟨ms, m, [], rfl, h, by simp⟩
    · refine ⟨pre, x, post ++ [m], by rw [e]; simp, h1, fun m' hm' => ?_⟩
      rcases List.mem_append.1 hm' with hm' | hm'
      · exact h2 m' hm'
      · rw [List.mem_singleton.1 hm']
        exact h

/-- What a type of units that was made with some definitions has. -/
structure Holds {V : Type} (ms : List (Meta V)) (k : Kind V) : Prop where
  nodup : ∀ d ∈ k.fields, (d.map (·.1)).Nodup
  field : ∀ n s, ¬ Special n → (Nearest k.fields n (.sym s) ↔ Field ms n s)
  unique : ∀ d, k.validators = some d → (d.map (·.1)).Nodup
  validator : ∀ f v, (∃ d, k.validators = some d ∧ (f, v) ∈ d) ↔ Validator ms f v
  without : k.validators = none ↔ ∀ m ∈ ms, m.validators = none

/-- The dictionaries in a definition have every key once. -/
def Meta.Ok {V : Type} (m : Meta V) : Prop :=
  (∀ d, m.fields = some d → (d.map (·.1)).Nodup) ∧ ∀ d, m.validators = some d → (d.map (·.1)).Nodup

theorem holds_root {V : Type} {m : Meta V} (hm : m.Ok) {k : Kind V} (h : root (some m) = .ok k) : Holds [m] k := by
  unfold root at h
  dsimp only at h
  cases hf : m.fields with
  | none => rw [hf] at h; cases h
  | some d =>
    rw [hf] at h
    injection h with h
    subst h
    refine ⟨?_, fun n s hn => ?_, hm.2, fun f v => ?_, by simp⟩
    · intro d' hd'
      rw [List.mem_singleton.1 hd']
      exact hm.1 d hf
    · rw [nearest_cons, ← List.nil_append [m], field_snoc, hf]
      simp [Nearest, Field]
    · rw [← List.nil_append [m], validator_snoc]
      simp [Validator]

theorem holds_derive {V : Type} {ms : List (Meta V)} {b k : Kind V} {m : Meta V} (hb : Holds ms b) (hm : m.Ok)
    (h : derive b (some m) = .ok k) : Holds (ms ++ [m]) k := by
  obtain ⟨m', e, hv, hf⟩ := derive_ok h
  injection e with e
  subst e
  have hval : (∀ d, k.validators = some d → (d.map (·.1)).Nodup) ∧
      (∀ f v, (∃ d, k.validators = some d ∧ (f, v) ∈ d) ↔ Validator (ms ++ [m]) f v) ∧
      (k.validators = none ↔ ∀ x ∈ ms ++ [m], x.validators = none) := by
    cases hmv : m.validators with
    | none =>
      rw [hmv] at hv
      replace hv : k.validators = b.validators := hv
      refine ⟨fun d hd => hb.unique d (hv ▸ hd), fun f v => ?_, ?_⟩
      · rw [hv, hb.validator, validator_snoc, hmv]
        simp
      · rw [hv, hb.without]
        simp only [List.mem_append, List.mem_singleton]
        refine ⟨fun h x hx => ?_, fun h x hx => h x (.inl hx)⟩
        rcases hx with hx | rfl
        · exact h x hx
        · exact hmv
    | some ours =>
      rw [hmv] at hv
      replace hv : k.validators = some (update (update [] (b.validators.getD [])) ours) := hv
      have hb1 : ((b.validators.getD []).map (·.1)).Nodup := by
        cases hbv : b.validators with
        | none => simp
        | some d => exact hb.unique d hbv
      have hu1 := update_nodup (b.validators.getD []) ([] : List (Str × V)) (by simp)
      have hu2 := update_nodup ours _ hu1
      have ho := hm.2 ours hmv
      refine ⟨fun d hd => ?_, fun f v => ?_, ?_⟩
      · rw [hv] at hd
        injection hd with hd
        rw [← hd]
        exact hu2
      · rw [validator_snoc, ← hb.validator, hmv, hv]
        simp only [Option.some.injEq, exists_eq_left', forall_eq']
        rw [← lookup_mem (show ((update (update [] (b.validators.getD [])) ours).map (·.1)).Nodup from hu2), update,
          update_lookup _ _ _ ho, Option.or_eq_some_iff, lookup_mem ho, lookup_none, update, update_lookup _ _ _ hb1]
        simp only [List.lookup_nil, Option.or_none]
        refine or_congr Iff.rfl (and_congr ⟨fun hn v' hv => hn (List.mem_map.2 ⟨_, hv, rfl⟩), fun hn hm => ?_⟩ ?_)
        · obtain ⟨⟨a, c⟩, hp, rfl⟩ := List.mem_map.1 hm
          exact hn c hp
        · rw [lookup_mem hb1]
          cases b.validators <;> simp
      · rw [hv]
        simp only [reduceCtorEq, false_iff]
        intro hall
        rw [hall m (by simp)] at hmv
        cases hmv
  refine ⟨?_, fun n s hn => ?_, hval.1, hval.2.1, hval.2.2⟩
  · rcases hf with ⟨-, hf⟩ | ⟨d, hd, hf⟩
    · rw [hf]
      exact hb.nodup
    · rw [hf]
      intro d' hd'
      rcases List.mem_cons.1 hd' with rfl | hd'
      · exact Assoc.nodup_dictSet _ _ _ (Assoc.nodup_dictSet _ _ _ ((List.filter_sublist.map _).nodup (hm.1 d hd)))
      · exact hb.nodup d' hd'
  · rw [field_snoc]
    rcases hf with ⟨hn', hf⟩ | ⟨d, hd, hf⟩
    · rw [hf, hb.field n s hn, hn']
      simp
    · obtain ⟨-, hc⟩ := copy_mem (hm.1 d hd) hn
      rw [hf, nearest_cons, hd, hb.field n s hn]
      simp only [hc, Option.some.injEq, exists_eq_left', forall_eq']
      refine or_congr ⟨fun h => h.1, fun h => ⟨h, s, rfl⟩⟩ (and_congr ⟨fun h s' hs' => h _ ⟨hs', s', rfl⟩, ?_⟩ Iff.rfl)
      rintro h v' ⟨h1, s', rfl⟩
      exact h s' h1

theorem holds_all {V : Type} (ms : List (Meta V)) : ∀ (done : List (Meta V)) (b k : Kind V), Holds done b → (∀ m ∈ ms, m.Ok) →
    deriveAll (ms.map some) b = .ok k → Holds (done ++ ms) k := by
  induction ms with
  | nil =>
    intro done b k hb _ h
    injection h with h
    rw [List.append_nil, ← h]
    exact hb
  | cons m ms ih =>
    intro done b k hb hm h
    simp only [List.map_cons, deriveAll] at h
    cases hd : derive b (some m) with
    | error e => rw [hd] at h; cases h
    | ok b1 =>
      rw [hd] at h
      have := ih (done ++ [m]) b1 k (holds_derive hb (hm m (by simp)) hd) (fun m' hm' => hm m' (by simp [hm'])) h
      simpa using this

/-- **C114, part 7.** The fields of a type of units are its own and those of all types it is derived from: for every name the symbol
in the last definition that has it. Partial: if every type has its own `Meta` (`C114_meta_violated`). -/
theorem C114_fields_partial {V : Type} (m : Meta V) (ms : List (Meta V)) (b k : Kind V) (hm : ∀ m' ∈ m :: ms, m'.Ok) (hr : root (some m) = .ok b)
    (h : deriveAll (ms.map some) b = .ok k) : ∃ l : List (Str × Str), allSymbols k.fields = l.map (·.2) ∧
    (l.map (·.1)).Pairwise Before ∧ ∀ n s, ¬ Special n → n ≠ "__locals__".toList → ((n, s) ∈ l ↔ Field (m :: ms) n s) := by
  have hk := holds_all ms [m] b k (holds_root (hm m (by simp)) hr) (fun m' hm' => hm m' (by simp [hm'])) h
  obtain ⟨l, h1, h2, h3⟩ := C114_listed_partial k.fields hk.nodup
  refine ⟨l, h1, h2, fun n s hn hl => ?_⟩
  rw [h3, hk.field n s hn]
  exact ⟨fun h => h.2, fun h => ⟨hl, h⟩⟩

/-- **C114, part 8.** A unit is checked with the validators of its type and of all types it is derived from: for every field those in
the last definition that has some, every field once, in the order of the fields. Partial: if every type has its own `Meta`. -/
theorem C114_checks_partial {V : Type} (m : Meta V) (ms : List (Meta V)) (b k : Kind V) (hm : ∀ m' ∈ m :: ms, m'.Ok) (hr : root (some m) = .ok b)
    (h : deriveAll (ms.map some) b = .ok k) (hv : ∃ m' ∈ m :: ms, m'.validators ≠ none) :
    ∃ l, checks k = some l ∧ (l.map (·.1)).Pairwise Before ∧ ∀ f v, (f, v) ∈ l ↔ Validator (m :: ms) f v := by
  have hk := holds_all ms [m] b k (holds_root (hm m (by simp)) hr) (fun m' hm' => hm m' (by simp [hm'])) h
  cases hd : k.validators with
  | none =>
    obtain ⟨m', hm', hne⟩ := hv
    exact absurd (hk.without.1 hd m' hm') hne
  | some d =>
    refine ⟨sortBy (fun a b => strLe a.1 b.1) d, by unfold checks; rw [hd]; rfl, ?_, fun f v => ?_⟩
    · rw [List.pairwise_map]
      exact sorted_strict d (hk.unique d hd)
    · rw [(Sort.sortBy_perm d).mem_iff]
      refine Iff.trans ?_ (hk.validator f v)
      rw [hd]
      simp

/-- Why the definition of a derived type is refused. -/
inductive Bad {V : Type} : Option (Meta V) → Err → Prop
  | missing : Bad none .key
  | base (m : Meta V) : m.fields ≠ none → m.direct = false → Bad (some m) .assertion
  | name (m : Meta V) : (m.fields = none ∨ m.direct = true) → m.name = none → Bad (some m) .type

theorem derive_error {V : Type} (b : Kind V) (m : Option (Meta V)) (e : Err) : derive b m = .error e ↔ Bad m e := by
  constructor
  · intro h
    cases m with
    | none =>
      injection h with h
      subst h
      exact .missing
    | some m =>
      unfold derive at h
      dsimp only at h
      split at h
      · rename_i hc
        injection h with h
        subst h
        rw [Bool.and_eq_true, Bool.not_eq_true'] at hc
        exact .base m (by cases hf : m.fields with
          | none => rw [hf] at hc; simp at hc
          | some d => simp) hc.2
      · rename_i hc
        split at h
        · rename_i hn
          injection h with h
          subst h
          refine .name m ?_ (by simpa using hn)
          rw [Bool.and_eq_true, Bool.not_eq_true'] at hc
          cases hf : m.fields with
          | none => exact .inl rfl
          | some d =>
            refine .inr ?_
            rw [hf] at hc
            simpa using hc
        · split at h <;> cases h
  · intro h
    cases h with
    | missing => rfl
    | base m h1 h2 =>
      unfold derive
      dsimp only
      rw [if_pos]
      cases hf : m.fields with
      | none => exact absurd hf h1
      | some d => simp [h2]
    | name m h1 h2 =>
      unfold derive
      dsimp only
      rw [if_neg, if_pos (by rw [h2]; rfl)]
      rcases h1 with h1 | h1 <;> simp [h1]

/-- **C114, part 9.** Definitions of types are refused exactly if one has no `Meta`, has fields that are derived from something else, or
has no name; the first such definition decides. -/
theorem C114_types {V : Type} (ms : List (Option (Meta V))) (b : Kind V) (e : Err) : deriveAll ms b = .error e ↔
    ∃ pre m post, ms = pre ++ m :: post ∧ (∀ m' ∈ pre, ∀ e', ¬ Bad m' e') ∧ Bad m e := by
  induction ms generalizing b with
  | nil => simp [deriveAll]
  | cons m ms ih =>
    simp only [deriveAll]
    cases hd : derive b m with
    | error x =>
      have hx := (derive_error b m x).1 hd
      constructor
      · intro h
        injection h with h
        subst h
        exact ⟨[], m, ms, rfl, by simp, hx⟩
      · rintro ⟨pre, m', post, e1, h1, h2⟩
        cases pre with
        | nil =>
          injection e1 with e1 _
          subst e1
          rw [(derive_error b m e).2 h2] at hd
          injection hd with hd
          rw [← hd]
          rfl
        | cons y pre =>
          injection e1 with e1 _
          subst e1
          exact absurd hx (h1 m (by simp) x)
    | ok k =>
      have hx : ∀ e', ¬ Bad m e' := by
        intro e' he
        rw [(derive_error b m e').2 he] at hd
        cases hd
      refine (ih k).trans ⟨fun ⟨pre, m', post, e1, h1, h2⟩ => ⟨m :: pre, m', post, by rw [e1]; rfl, fun x hx' => ?_, h2⟩,
        fun ⟨pre, m', post, e1, h1, h2⟩ => ?_⟩
      · rcases List.mem_cons.1 hx' with rfl | hx'
        · exact hx
        · exact h1 x hx'
      · cases pre with
        | nil =>
          injection e1 with e1 _
          subst e1
          exact absurd h2 (hx e)
        | cons y pre =>
          injection e1 with _ e1
          exact ⟨pre, m', post, e1, fun x hx' => h1 x (by simp [hx']), h2⟩

/-! ## Violations and examples -/

/-- **C114** is violated: a type derived from a type of units without a `Meta` of its own does not inherit it, but cannot be made, whatever
it is derived from. -/
theorem C114_meta_violated {V : Type} (b : Kind V) : derive b none = .error .key := rfl

/-- **C114** is violated: symbols are listed as often as they have names. -/
theorem C114_twice_violated : (define [] [.assign "a".toList (.text "x".toList), .assign "b".toList (.text "x".toList)]).map
    (fun d => allSymbols [d]) = .ok ["x".toList, "x".toList] := by decide +kernel

/-- Asking for three symbols with two names. -/
example : (mkSymbols [] ["a".toList, "b".toList, "a".toList]).map (·.id) = [0, 1, 0] := by decide +kernel

/-- A text and a symbol. -/
example : ∃ r, less (.text "a".toList) (.sym ⟨0, "b".toList⟩) = some r ∧ (r = true ↔ Before "a".toList "b".toList) :=
  (C114_compare ["b".toList] (.text "a".toList) (.sym ⟨0, "b".toList⟩) "a".toList "b".toList (.inr ⟨_, rfl⟩)
    (.inl ⟨_, by decide +kernel, rfl⟩) rfl rfl (fun _ => 0) id).2.2

/-- The definition of a type like `UnitWithId`: its own field and checks, and checks for a field of the type it is derived from. -/
def withId : Meta Nat := ⟨some "unit-with-id".toList, some [("id".toList, .sym "id".toList)], true,
  some [("id".toList, 1), ("unit".toList, 2)]⟩

/-- The definition of a type like `Unit`. -/
def plainUnit : Meta Nat := ⟨some "unit".toList, some [("unit".toList, .sym "unit".toList), ("id".toList, .sym "x".toList)], true,
  some [("unit".toList, 3), ("requires".toList, 4)]⟩

theorem metas_ok : ∀ m' ∈ [plainUnit, withId], m'.Ok := by
  intro m hm
  rcases List.mem_cons.1 hm with rfl | hm
  · exact ⟨fun d hd => by injection hd with hd; rw [← hd]; decide +kernel, fun d hd => by injection hd with hd; rw [← hd]; decide +kernel⟩
  · rw [List.mem_singleton.1 hm]
    exact ⟨fun d hd => by injection hd with hd; rw [← hd]; decide +kernel, fun d hd => by injection hd with hd; rw [← hd]; decide +kernel⟩

/-- The derived type has both fields, and its own checks come before those of the other type. -/
example : ∃ b k, root (some plainUnit) = .ok b ∧ deriveAll [some withId] b = .ok k ∧
    allSymbols k.fields = ["id".toList, "unit".toList] ∧
    checks k = some [("id".toList, 1), ("requires".toList, 4), ("unit".toList, 2)] :=
  ⟨_, _, rfl, rfl, by decide +kernel, by decide +kernel⟩

/-- The hypotheses of `C114_checks_partial` are met. -/
example : ∃ b k l, root (some plainUnit) = .ok b ∧ deriveAll ([withId].map some) b = .ok k ∧ checks k = some l ∧
    ∀ f v, (f, v) ∈ l ↔ Validator [plainUnit, withId] f v := by
  refine ⟨_, _, _, rfl, rfl, (C114_checks_partial plainUnit [withId] _ _ metas_ok rfl rfl ⟨withId, by simp, by simp [withId]⟩).choose_spec.1,
    (C114_checks_partial plainUnit [withId] _ _ metas_ok rfl rfl ⟨withId, by simp, by simp [withId]⟩).choose_spec.2.2⟩

/-- A definition with a name that is only mentioned, and one with another symbol. -/
example : define ["_".toList] [.name "job".toList, .assign "min".toList (.text "0.1".toList), .name "_".toList] =
    .ok [("job".toList, .sym "job".toList), ("min".toList, .sym "0.1".toList), ("get_all_symbols".toList, .plain)] := by decide +kernel

end Verif.Symbols
