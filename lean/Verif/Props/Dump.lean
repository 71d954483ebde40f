import Verif.Model.Dump
import Verif.Props.Checksum

/-!
# C150: what parsers give, shown as JSON

The specification looks at data by paths: following keys and positions from the outermost value, what is there? For other objects
that is a dictionary of their attributes, unless they say themselves what they are.
-/

namespace Verif.Dump

open Checksum (Str sortItems)

/-! ## Specification -/

inductive Step
  | key (k : Str)
  | idx (i : Nat)

/-- What is at a place. `bad` is something that cannot be shown. -/
inductive Node
  | null | bool (b : Bool) | int (n : Int) | str (s : Str) | array (length : Nat) | object | bad

/-- Places in something without parts. -/
def leaf (n : Node) : List Step → Option Node
  | [] => some n
  | _ => none

mutual
/-- What is at a place in what a parser gives. -/
def Obj.at_ : Obj → List Step → Option Node
  | .none, p => leaf .null p
  | .bool b, p => leaf (.bool b) p
  | .int n, p => leaf (.int n) p
  | .str s, p => leaf (.str s) p
  | .list l, [] => some (.array l.length)
  | .list l, .idx i :: p => atIdx l i p
  | .list _, .key _ :: _ => none
  | .dict _, [] => some .object
  | .dict l, .key k :: p => atKey l k p
  | .dict _, .idx _ :: _ => none
  | .inst true _ _ _ _ _ _, p => leaf (.str "<Pattern>".toList) p
  | .inst false (o :: _) _ _ _ _ _, p => o.at_ p
  | .inst false [] true _ _ _ _, [] => some .object
  | .inst false [] true l _ _ _, .key k :: p => atKey l k p
  | .inst false [] true _ _ _ _, .idx _ :: _ => none
  | .inst false [] false _ true _ false, [] => some .object
  | .inst false [] false _ true l false, .key k :: p => atKey l k p
  | .inst false [] false _ true _ false, .idx _ :: _ => none
  | .inst false [] false _ true _ true, p => leaf .bad p
  | .inst false [] false _ false _ _, p => leaf .bad p
def atIdx : List Obj → Nat → List Step → Option Node
  | [], _, _ => none
  | o :: _, 0, p => o.at_ p
  | _ :: l, i + 1, p => atIdx l i p
def atKey : List (Str × Obj) → Str → List Step → Option Node
  | [], _, _ => none
  | (k', o) :: l, k, p => if k = k' then o.at_ p else atKey l k p
end

mutual
/-- Dictionaries have each key once. -/
def Obj.Wf : Obj → Prop
  | .list l => WfList l
  | .dict l => (l.map (·.1)).Nodup ∧ WfItems l
  | .inst _ a _ l _ m _ => WfList a ∧ ((l.map (·.1)).Nodup ∧ WfItems l) ∧ (m.map (·.1)).Nodup ∧ WfItems m
  | _ => True
def WfList : List Obj → Prop
  | [] => True
  | o :: l => o.Wf ∧ WfList l
def WfItems : List (Str × Obj) → Prop
  | [] => True
  | (_, o) :: l => o.Wf ∧ WfItems l
end

/-! ## Places in JSON, and keys in order -/

mutual
def J.at_ : J → List Step → Option Node
  | .null, p => leaf .null p
  | .bool b, p => leaf (.bool b) p
  | .int n, p => leaf (.int n) p
  | .str s, p => leaf (.str s) p
  | .arr l, [] => some (.array l.length)
  | .arr l, .idx i :: p => jIdx l i p
  | .arr _, .key _ :: _ => none
  | .obj _, [] => some .object
  | .obj l, .key k :: p => jKey l k p
  | .obj _, .idx _ :: _ => none
def jIdx : List J → Nat → List Step → Option Node
  | [], _, _ => none
  | j :: _, 0, p => j.at_ p
  | _ :: l, i + 1, p => jIdx l i p
def jKey : List (Str × J) → Str → List Step → Option Node
  | [], _, _ => none
  | (k', j) :: l, k, p => if k = k' then j.at_ p else jKey l k p
end

def Lt (a b : Str) : Prop := Sort.strLe a b = true ∧ a ≠ b

mutual
def J.Ok : J → Prop
  | .arr l => OkList l
  | .obj m => (m.map (·.1)).Pairwise Lt ∧ OkItems m
  | _ => True
def OkList : List J → Prop
  | [] => True
  | j :: l => j.Ok ∧ OkList l
def OkItems : List (Str × J) → Prop
  | [] => True
  | (_, j) :: l => j.Ok ∧ OkItems l
end

theorem at_root (j : J) : ∃ x, j.at_ [] = some x := by
  cases j <;> exact ⟨_, by simp only [J.at_, leaf]; rfl⟩

theorem okItems_iff : ∀ m : List (Str × J), OkItems m ↔ ∀ x ∈ m, x.2.Ok
  | [] => by simp [OkItems]
  | (k, j) :: m => by simp [OkItems, okItems_iff m]

theorem jKey_iff : ∀ (m : List (Str × J)), (m.map (·.1)).Nodup → ∀ k p x,
    jKey m k p = some x ↔ ∃ v, (k, v) ∈ m ∧ v.at_ p = some x
  | [], _, k, p, x => by simp [jKey]
  | (k', j) :: m, hn, k, p, x => by
    rw [List.map_cons, List.nodup_cons] at hn
    rw [jKey]
    by_cases h : k = k'
    · subst h
      rw [if_pos rfl]
      constructor
      · intro hx; exact ⟨j, List.mem_cons_self .., hx⟩
      · rintro ⟨v, hv, hx⟩
        rcases List.mem_cons.mp hv with e | hv
        · cases e; exact hx
        · exact absurd (List.mem_map.mpr ⟨(k, v), hv, rfl⟩) hn.1
    · rw [if_neg h, jKey_iff m hn.2]
      constructor
      · rintro ⟨v, hv, hx⟩; exact ⟨v, List.mem_cons_of_mem _ hv, hx⟩
      · rintro ⟨v, hv, hx⟩
        rcases List.mem_cons.mp hv with e | hv
        · cases e; exact absurd rfl h
        · exact ⟨v, hv, hx⟩

theorem jKey_sorted {m : List (Str × J)} (hn : (m.map (·.1)).Nodup) (k : Str) (p : List Step) :
    jKey (sortItems m) k p = jKey m k p := by
  have hp := Checksum.sortItems_perm m
  have hn' : ((sortItems m).map (·.1)).Nodup := (hp.map (·.1)).nodup_iff.mpr hn
  have h : ∀ x, jKey (sortItems m) k p = some x ↔ jKey m k p = some x := by
    intro x
    rw [jKey_iff _ hn', jKey_iff _ hn]
    simp only [hp.mem_iff]
  cases h1 : jKey m k p with
  | none =>
    cases h2 : jKey (sortItems m) k p with
    | none => rfl
    | some x => rw [(h x).mp h2] at h1; cases h1
  | some x => exact (h x).mpr h1

theorem sorted_ok {m : List (Str × J)} (hn : (m.map (·.1)).Nodup) (ho : OkItems m) : (J.obj (sortItems m)).Ok := by
  have hp := Checksum.sortItems_perm m
  have hn' : ((sortItems m).map (·.1)).Nodup := (hp.map (·.1)).nodup_iff.mpr hn
  rw [J.Ok]
  refine ⟨?_, (okItems_iff _).mpr fun x hx => (okItems_iff _).mp ho x (hp.mem_iff.mp hx)⟩
  have hs : (sortItems m).Pairwise fun a b => Sort.strLe a.1 b.1 = true :=
    Sort.sortBy_sorted (le := fun a b => Sort.strLe a.1 b.1) (fun _ _ => Sort.strLe_total _ _)
      (fun _ _ _ => Sort.strLe_trans _ _ _) m
  have hs' : ((sortItems m).map (·.1)).Pairwise fun a b => Sort.strLe a b = true := List.pairwise_map.mpr hs
  exact List.Pairwise.and hs' hn'

/-! ## Data with the same things in the same places is the same -/

theorem jKey_isSome : ∀ (m : List (Str × J)) (k : Str), (jKey m k []).isSome ↔ k ∈ m.map (·.1)
  | [], k => by simp [jKey]
  | (k', j) :: m, k => by
    rw [jKey]
    by_cases h : k = k'
    · subst h
      obtain ⟨x, hx⟩ := at_root j
      simp [hx]
    · rw [if_neg h, jKey_isSome m k]
      simp [h]

mutual
theorem ext : ∀ (a b : J), a.Ok → b.Ok → (∀ p, a.at_ p = b.at_ p) → a = b
  | .null, b, _, _, h => by have := h []; cases b <;> simp_all [J.at_, leaf]
  | .bool x, b, _, _, h => by have := h []; cases b <;> simp_all [J.at_, leaf]
  | .int x, b, _, _, h => by have := h []; cases b <;> simp_all [J.at_, leaf]
  | .str x, b, _, _, h => by have := h []; cases b <;> simp_all [J.at_, leaf]
  | .arr l, b, ha, hb, h => by
    have h0 := h []
    cases b with
    | arr l' =>
      rw [J.at_, J.at_] at h0
      rw [J.Ok] at ha hb
      rw [extList l l' ha hb (by simpa using h0) (fun i p => by have := h (.idx i :: p); rwa [J.at_, J.at_] at this)]
    | _ => simp [J.at_, leaf] at h0
  | .obj m, b, ha, hb, h => by
    have h0 := h []
    cases b with
    | obj m' =>
      rw [J.Ok] at ha hb
      rw [extItems m m' ha.1 hb.1 ha.2 hb.2 (fun k p => by have := h (.key k :: p); rwa [J.at_, J.at_] at this)]
    | _ => simp [J.at_, leaf] at h0
theorem extList : ∀ (l l' : List J), OkList l → OkList l' → l.length = l'.length → (∀ i p, jIdx l i p = jIdx l' i p) → l = l'
  | [], [], _, _, _, _ => rfl
  | [], _ :: _, _, _, h, _ => by simp at h
  | _ :: _, [], _, _, h, _ => by simp at h
  | a :: l, b :: l', ha, hb, hl, h => by
    rw [OkList] at ha hb
    rw [ext a b ha.1 hb.1 (fun p => by have := h 0 p; rwa [jIdx, jIdx] at this),
      extList l l' ha.2 hb.2 (by simpa using hl) (fun i p => by have := h (i + 1) p; rwa [jIdx, jIdx] at this)]
theorem extItems : ∀ (m m' : List (Str × J)), (m.map (·.1)).Pairwise Lt → (m'.map (·.1)).Pairwise Lt → OkItems m → OkItems m' →
    (∀ k p, jKey m k p = jKey m' k p) → m = m'
  | [], [], _, _, _, _, _ => rfl
  | [], (k, j) :: m', _, _, _, _, h => by
    have := (jKey_isSome ((k, j) :: m') k).mpr (by simp)
    rw [← h] at this
    simp [jKey] at this
  | (k, j) :: m, [], _, _, _, _, h => by
    have := (jKey_isSome ((k, j) :: m) k).mpr (by simp)
    rw [h] at this
    simp [jKey] at this
  | (k, j) :: m, (k', j') :: m', hs, hs', ho, ho', h => by
    rw [List.map_cons, List.pairwise_cons] at hs hs'
    have h1 : k ∈ ((k', j') :: m').map (·.1) := by
      rw [← jKey_isSome, ← h, jKey_isSome]; simp
    have h2 : k' ∈ ((k, j) :: m).map (·.1) := by
      rw [← jKey_isSome, h, jKey_isSome]; simp
    have hk : k = k' := by
      rw [List.map_cons, List.mem_cons] at h1 h2
      rcases h1 with e | h1
      · exact e
      · rcases h2 with e | h2
        · exact e.symm
        · exact Sort.strLe_antisymm _ _ (hs.1 _ h2).1 (hs'.1 _ h1).1
    subst hk
    rw [OkItems] at ho ho'
    have hj : j = j' := ext j j' ho.1 ho'.1 (fun p => by
      have := h k p
      rwa [jKey, jKey, if_pos rfl, if_pos rfl] at this)
    subst hj
    rw [extItems m m' hs.2 hs'.2 ho.2 ho'.2 (fun k2 p => by
      by_cases he : k2 = k
      · subst he
        have e1 : k2 ∉ m.map (·.1) := fun hm => (hs.1 _ hm).2 rfl
        have e2 : k2 ∉ m'.map (·.1) := fun hm => (hs'.1 _ hm).2 rfl
        have none_of : ∀ (m : List (Str × J)), k2 ∉ m.map (·.1) → jKey m k2 p = none := by
          intro m
          induction m with
          | nil => intro _; rw [jKey]
          | cons x m ih =>
            intro hx
            rw [List.map_cons, List.mem_cons, not_or] at hx
            rw [jKey, if_neg hx.1, ih hx.2]
        rw [none_of m e1, none_of m' e2]
      · have := h k2 p
        rwa [jKey, jKey, if_neg he, if_neg he] at this)]
end

/-! ## What is converted -/

theorem conv_pattern (a : List Obj) (d : Bool) (l : List (Str × Obj)) (s : Bool) (m : List (Str × Obj)) (u : Bool) :
    conv (.inst true a d l s m u) = some (.str "<Pattern>".toList) := by
  cases a <;> rw [conv] <;> rfl

mutual
theorem conv_spec : ∀ (o : Obj), o.Wf → ∀ j, conv o = some j → j.Ok ∧ ∀ p, j.at_ p = o.at_ p
  | .none, _, j, h => by cases h; exact ⟨trivial, fun p => by rw [J.at_, Obj.at_]⟩
  | .bool b, _, j, h => by cases h; exact ⟨trivial, fun p => by rw [J.at_, Obj.at_]⟩
  | .int n, _, j, h => by cases h; exact ⟨trivial, fun p => by rw [J.at_, Obj.at_]⟩
  | .str s, _, j, h => by cases h; exact ⟨trivial, fun p => by rw [J.at_, Obj.at_]⟩
  | .list l, hw, j, h => by
    rw [Obj.Wf] at hw
    rw [conv, Option.map_eq_some_iff] at h
    obtain ⟨js, hjs, rfl⟩ := h
    obtain ⟨h1, h2, h3⟩ := convList_spec l hw js hjs
    refine ⟨by rw [J.Ok]; exact h1, fun p => ?_⟩
    rcases p with _ | ⟨k | i, p⟩
    · rw [J.at_, Obj.at_, h2]
    · rw [J.at_, Obj.at_]
    · rw [J.at_, Obj.at_, h3]
  | .dict l, hw, j, h => by
    rw [Obj.Wf] at hw
    rw [conv, Option.map_eq_some_iff] at h
    obtain ⟨js, hjs, rfl⟩ := h
    obtain ⟨h1, h2, h3⟩ := convItems_spec l hw.2 js hjs
    have hn : (js.map (·.1)).Nodup := by rw [h2]; exact hw.1
    refine ⟨sorted_ok hn h1, fun p => ?_⟩
    rcases p with _ | ⟨k | i, p⟩
    · rw [J.at_, Obj.at_]
    · rw [J.at_, Obj.at_, jKey_sorted hn, h3]
    · rw [J.at_, Obj.at_]
  | .inst true _ _ _ _ _ _, _, j, h => by
    rw [conv_pattern] at h
    cases h
    exact ⟨trivial, fun p => by rw [J.at_, Obj.at_]⟩
  | .inst false (o :: _) _ _ _ _ _, hw, j, h => by
    rw [Obj.Wf, WfList] at hw
    have h : conv o = some j := by simpa only [conv, Bool.false_eq_true, if_false] using h
    obtain ⟨h1, h2⟩ := conv_spec o hw.1.1 j h
    exact ⟨h1, fun p => by rw [h2, Obj.at_]⟩
  | .inst false [] true l _ _ _, hw, j, h => by
    rw [Obj.Wf] at hw
    rw [conv, if_neg (by simp)] at h
    rw [if_pos rfl, Option.map_eq_some_iff] at h
    obtain ⟨js, hjs, rfl⟩ := h
    obtain ⟨h1, h2, h3⟩ := convItems_spec l hw.2.1.2 js hjs
    have hn : (js.map (·.1)).Nodup := by rw [h2]; exact hw.2.1.1
    refine ⟨sorted_ok hn h1, fun p => ?_⟩
    rcases p with _ | ⟨k | i, p⟩
    · rw [J.at_, Obj.at_]
    · rw [J.at_, Obj.at_, jKey_sorted hn, h3]
    · rw [J.at_, Obj.at_]
  | .inst false [] false _ true l false, hw, j, h => by
    rw [Obj.Wf] at hw
    rw [conv, if_neg (by simp)] at h
    rw [if_neg (by simp), if_pos rfl, if_neg (by simp), Option.map_eq_some_iff] at h
    obtain ⟨js, hjs, rfl⟩ := h
    obtain ⟨h1, h2, h3⟩ := convItems_spec l hw.2.2.2 js hjs
    have hn : (js.map (·.1)).Nodup := by rw [h2]; exact hw.2.2.1
    refine ⟨sorted_ok hn h1, fun p => ?_⟩
    rcases p with _ | ⟨k | i, p⟩
    · rw [J.at_, Obj.at_]
    · rw [J.at_, Obj.at_, jKey_sorted hn, h3]
    · rw [J.at_, Obj.at_]
  | .inst false [] false _ true _ true, _, j, h => by simp [conv] at h
  | .inst false [] false _ false _ _, _, j, h => by simp [conv] at h
theorem convList_spec : ∀ (l : List Obj), WfList l → ∀ js, convList l = some js →
    OkList js ∧ js.length = l.length ∧ ∀ i p, jIdx js i p = atIdx l i p
  | [], _, js, h => by cases h; exact ⟨trivial, rfl, fun i p => by rw [jIdx, atIdx]⟩
  | o :: l, hw, js, h => by
    rw [WfList] at hw
    rw [convList] at h
    split at h
    · rename_i j js' hj hjs
      cases h
      obtain ⟨h1, h2⟩ := conv_spec o hw.1 j hj
      obtain ⟨h3, h4, h5⟩ := convList_spec l hw.2 js' hjs
      refine ⟨by rw [OkList]; exact ⟨h1, h3⟩, by simp [h4], fun i p => ?_⟩
      cases i with
      | zero => rw [jIdx, atIdx, h2]
      | succ i => rw [jIdx, atIdx, h5]
    · cases h
theorem convItems_spec : ∀ (l : List (Str × Obj)), WfItems l → ∀ js, convItems l = some js →
    OkItems js ∧ js.map (·.1) = l.map (·.1) ∧ ∀ k p, jKey js k p = atKey l k p
  | [], _, js, h => by cases h; exact ⟨trivial, rfl, fun i p => by rw [jKey, atKey]⟩
  | (k, o) :: l, hw, js, h => by
    rw [WfItems] at hw
    rw [convItems] at h
    split at h
    · rename_i j js' hj hjs
      cases h
      obtain ⟨h1, h2⟩ := conv_spec o hw.1 j hj
      obtain ⟨h3, h4, h5⟩ := convItems_spec l hw.2 js' hjs
      refine ⟨by rw [OkItems]; exact ⟨h1, h3⟩, by simp [h4], fun i p => ?_⟩
      rw [jKey, atKey, h2, h5]
    · cases h
end

/-! ## What cannot be converted -/

mutual
theorem conv_bad : ∀ (o : Obj), o.Wf → (conv o = none ↔ ∃ p, o.at_ p = some .bad)
  | .none, _ => by
    simp only [conv, reduceCtorEq, false_iff, not_exists]
    intro p; cases p <;> simp [Obj.at_, leaf]
  | .bool b, _ => by
    simp only [conv, reduceCtorEq, false_iff, not_exists]
    intro p; cases p <;> simp [Obj.at_, leaf]
  | .int n, _ => by
    simp only [conv, reduceCtorEq, false_iff, not_exists]
    intro p; cases p <;> simp [Obj.at_, leaf]
  | .str s, _ => by
    simp only [conv, reduceCtorEq, false_iff, not_exists]
    intro p; cases p <;> simp [Obj.at_, leaf]
  | .list l, hw => by
    rw [Obj.Wf] at hw
    rw [conv, Option.map_eq_none_iff, convList_bad l hw]
    constructor
    · rintro ⟨i, p, h⟩; exact ⟨.idx i :: p, by rw [Obj.at_, h]⟩
    · rintro ⟨p, h⟩
      rcases p with _ | ⟨k | i, p⟩
      · simp [Obj.at_] at h
      · simp [Obj.at_] at h
      · rw [Obj.at_] at h; exact ⟨i, p, h⟩
  | .dict l, hw => by
    rw [Obj.Wf] at hw
    rw [conv, Option.map_eq_none_iff, convItems_bad l hw.1 hw.2]
    constructor
    · rintro ⟨i, p, h⟩; exact ⟨.key i :: p, by rw [Obj.at_, h]⟩
    · rintro ⟨p, h⟩
      rcases p with _ | ⟨k | i, p⟩
      · simp [Obj.at_] at h
      · rw [Obj.at_] at h; exact ⟨k, p, h⟩
      · simp [Obj.at_] at h
  | .inst true _ _ _ _ _ _, _ => by
    rw [conv_pattern]
    simp only [reduceCtorEq, false_iff, not_exists]
    intro p; cases p <;> simp [Obj.at_, leaf]
  | .inst false (o :: _) _ _ _ _ _, hw => by
    rw [Obj.Wf, WfList] at hw
    simp only [conv, Bool.false_eq_true, if_false, Obj.at_]
    exact conv_bad o hw.1.1
  | .inst false [] true l _ _ _, hw => by
    rw [Obj.Wf] at hw
    rw [conv, if_neg (by simp), if_pos rfl, Option.map_eq_none_iff, convItems_bad l hw.2.1.1 hw.2.1.2]
    constructor
    · rintro ⟨i, p, h⟩; exact ⟨.key i :: p, by rw [Obj.at_, h]⟩
    · rintro ⟨p, h⟩
      rcases p with _ | ⟨k | i, p⟩
      · simp [Obj.at_] at h
      · rw [Obj.at_] at h; exact ⟨k, p, h⟩
      · simp [Obj.at_] at h
  | .inst false [] false _ true l false, hw => by
    rw [Obj.Wf] at hw
    rw [conv, if_neg (by simp), if_neg (by simp), if_pos rfl, if_neg (by simp), Option.map_eq_none_iff,
      convItems_bad l hw.2.2.1 hw.2.2.2]
    constructor
    · rintro ⟨i, p, h⟩; exact ⟨.key i :: p, by rw [Obj.at_, h]⟩
    · rintro ⟨p, h⟩
      rcases p with _ | ⟨k | i, p⟩
      · simp [Obj.at_] at h
      · rw [Obj.at_] at h; exact ⟨k, p, h⟩
      · simp [Obj.at_] at h
  | .inst false [] false _ true _ true, _ => by
    simp only [conv, Bool.false_eq_true, if_false, if_true, true_iff]
    exact ⟨[], by rw [Obj.at_, leaf]⟩
  | .inst false [] false _ false _ _, _ => by
    simp only [conv, Bool.false_eq_true, if_false, true_iff]
    exact ⟨[], by rw [Obj.at_, leaf]⟩
theorem convList_bad : ∀ (l : List Obj), WfList l → (convList l = none ↔ ∃ i p, atIdx l i p = some .bad)
  | [], _ => by simp [convList, atIdx]
  | o :: l, hw => by
    rw [WfList] at hw
    have h1 := conv_bad o hw.1
    have h2 := convList_bad l hw.2
    have h3 : convList (o :: l) = none ↔ conv o = none ∨ convList l = none := by
      rw [convList]
      cases conv o <;> cases convList l <;> simp
    rw [h3, h1, h2]
    constructor
    · rintro (⟨p, h⟩ | ⟨i, p, h⟩)
      · exact ⟨0, p, by rw [atIdx, h]⟩
      · exact ⟨i + 1, p, by rw [atIdx, h]⟩
    · rintro ⟨i, p, h⟩
      cases i with
      | zero => rw [atIdx] at h; exact .inl ⟨p, h⟩
      | succ i => rw [atIdx] at h; exact .inr ⟨i, p, h⟩
theorem convItems_bad : ∀ (l : List (Str × Obj)), (l.map (·.1)).Nodup → WfItems l →
    (convItems l = none ↔ ∃ k p, atKey l k p = some .bad)
  | [], _, _ => by simp [convItems, atKey]
  | (k, o) :: l, hn, hw => by
    rw [WfItems] at hw
    rw [List.map_cons, List.nodup_cons] at hn
    have h1 := conv_bad o hw.1
    have h2 := convItems_bad l hn.2 hw.2
    have h3 : convItems ((k, o) :: l) = none ↔ conv o = none ∨ convItems l = none := by
      rw [convItems]
      cases conv o <;> cases convItems l <;> simp
    have h4 : ∀ (l : List (Str × Obj)) (k : Str) p x, atKey l k p = some x → k ∈ l.map (·.1) := by
      intro l
      induction l with
      | nil => intro k p x h; simp [atKey] at h
      | cons y l ih =>
        intro k p x h
        rw [atKey] at h
        by_cases he : k = y.1
        · simp [he]
        · rw [if_neg he] at h
          exact List.mem_cons_of_mem _ (ih k p x h)
    rw [h3, h1, h2]
    constructor
    · rintro (⟨p, h⟩ | ⟨i, p, h⟩)
      · exact ⟨k, p, by rw [atKey, if_pos rfl, h]⟩
      · have : i ≠ k := fun e => hn.1 (e ▸ h4 _ _ _ _ h)
        exact ⟨i, p, by rw [atKey, if_neg this, h]⟩
    · rintro ⟨i, p, h⟩
      rw [atKey] at h
      by_cases he : i = k
      · rw [if_pos he] at h; exact .inl ⟨p, h⟩
      · rw [if_neg he] at h; exact .inr ⟨i, p, h⟩
end

/-! ## The text tells the data -/

/-- What may follow a value. -/
def Follows (r : Str) : Prop := r = [] ∨ ∃ t, r = ',' :: t ∨ r = '\n' :: t

def kind (c : Char) : Nat :=
  if c = 'n' then 0 else if c = 't' then 1 else if c = 'f' then 2 else if c = '"' then 3 else if c = '[' then 4
  else if c = '{' then 5 else 6

def J.kind : J → Nat
  | .null => 0
  | .bool true => 1
  | .bool false => 2
  | .str _ => 3
  | .arr _ => 4
  | .obj _ => 5
  | .int _ => 6

theorem digit_kind {c : Char} (h : c.isDigit = true) : kind c = 6 ∧ c ≠ '-' := by
  refine ⟨?_, fun e => by rw [e] at h; exact absurd h (by decide)⟩
  unfold kind
  repeat' split
  all_goals first | rfl | (rename_i e; rw [e] at h; exact absurd h (by decide))

theorem text_kind (n : Nat) (j : J) : ∃ c t, text n j = c :: t ∧ kind c = j.kind := by
  cases j with
  | null => exact ⟨'n', _, by rw [text]; rfl, rfl⟩
  | bool b =>
    cases b
    · exact ⟨'f', _, by rw [text]; rfl, rfl⟩
    · exact ⟨'t', _, by rw [text]; rfl, rfl⟩
  | str s => exact ⟨'"', _, by rw [text]; rfl, rfl⟩
  | arr l => cases l with
    | nil => exact ⟨'[', _, by rw [text]; rfl, rfl⟩
    | cons a l => exact ⟨'[', _, by rw [text], rfl⟩
  | obj l => cases l with
    | nil => exact ⟨'{', _, by rw [text]; rfl, rfl⟩
    | cons a l => exact ⟨'{', _, by rw [text], rfl⟩
  | int n =>
    rw [text, intText]
    split
    · exact ⟨'-', _, rfl, rfl⟩
    · obtain ⟨c, t, h, _⟩ := Checksum.digits_cons n.natAbs
      exact ⟨c, t, h, (digit_kind (Checksum.digits_digit _ c (by rw [h]; simp))).1⟩

theorem follows_nodigit {x : Str} (hx : Follows x) : ∀ c t, x = c :: t → c.isDigit = false := by
  rintro c t rfl
  rcases hx with h | ⟨t', h | h⟩
  · cases h
  · rw [(List.cons.inj h).1]; rfl
  · rw [(List.cons.inj h).1]; rfl

theorem int_inj {m n : Int} {x y : Str} (hx : Follows x) (hy : Follows y) (h : intText m ++ x = intText n ++ y) : m = n ∧ x = y := by
  have minus : ∀ (k : Nat) (x t : Str), Nat.toDigits 10 k ++ x ≠ '-' :: t := by
    intro k x t e
    obtain ⟨c, t', hc, _⟩ := Checksum.digits_cons k
    rw [hc, List.cons_append, List.cons.injEq] at e
    exact (digit_kind (Checksum.digits_digit k c (by rw [hc]; simp))).2 e.1
  have key : ∀ {a b : Nat}, Nat.toDigits 10 a ++ x = Nat.toDigits 10 b ++ y → a = b ∧ x = y := by
    intro a b e
    obtain ⟨h1, h2⟩ := Checksum.prefix_split (Checksum.digits_digit a) (Checksum.digits_digit b) (follows_nodigit hx)
      (follows_nodigit hy) e
    exact ⟨Checksum.digits_inj h1, h2⟩
  unfold intText at h
  by_cases hm : m < 0 <;> by_cases hn : n < 0
  · rw [if_pos hm, if_pos hn, List.cons_append, List.cons_append, List.cons.injEq] at h
    obtain ⟨h1, h2⟩ := key h.2
    exact ⟨by omega, h2⟩
  · rw [if_pos hm, if_neg hn] at h
    exact absurd h.symm (minus _ _ _)
  · rw [if_neg hm, if_pos hn] at h
    exact absurd h (minus _ _ _)
  · rw [if_neg hm, if_neg hn] at h
    obtain ⟨h1, h2⟩ := key h
    exact ⟨by omega, h2⟩

theorem nl_follows (n : Nat) (x : Str) : Follows (nl n ++ x) := .inr ⟨_, .inr rfl⟩

theorem rest_follows (n m : Nat) (l : List J) (x : Str) : Follows (rest n l ++ (nl m ++ x)) := by
  cases l with
  | nil => rw [rest]; exact nl_follows m x
  | cons j l => rw [rest]; exact .inr ⟨_, .inl rfl⟩

theorem restItems_follows (n m : Nat) (l : List (Str × J)) (x : Str) : Follows (restItems n l ++ (nl m ++ x)) := by
  cases l with
  | nil => rw [restItems]; exact nl_follows m x
  | cons j l => rw [restItems]; exact .inr ⟨_, .inl rfl⟩

theorem nl_comma (m : Nat) (x t : Str) : nl m ++ x ≠ ',' :: t := by simp [nl]

mutual
theorem text_inj : ∀ (a b : J) (n : Nat) (x y : Str), Follows x → Follows y → text n a ++ x = text n b ++ y → a = b ∧ x = y
  | a, b, n, x, y, hx, hy, h => by
    have hk : a.kind = b.kind := by
      obtain ⟨c, t, h1, h2⟩ := text_kind n a
      obtain ⟨d, t', h3, h4⟩ := text_kind n b
      rw [h1, h3, List.cons_append, List.cons_append, List.cons.injEq] at h
      rw [← h2, ← h4, h.1]
    match a, b with
    | .null, .null => exact ⟨rfl, by simpa [text] using h⟩
    | .bool true, .bool true => exact ⟨rfl, by simpa [text] using h⟩
    | .bool false, .bool false => exact ⟨rfl, by simpa [text] using h⟩
    | .int p, .int q =>
      rw [text, text] at h
      obtain ⟨h1, h2⟩ := int_inj hx hy h
      exact ⟨by rw [h1], h2⟩
    | .str s, .str t =>
      rw [text, text] at h
      obtain ⟨h1, h2⟩ := Checksum.jsonStr_inj h
      exact ⟨by rw [h1], h2⟩
    | .arr [], .arr [] => exact ⟨rfl, by simpa [text] using h⟩
    | .arr [], .arr (_ :: _) => simp [text, nl] at h
    | .arr (_ :: _), .arr [] => simp [text, nl] at h
    | .arr (i :: l), .arr (j :: m) =>
      rw [text, text] at h
      simp only [List.cons_append, List.append_assoc, List.cons.injEq, true_and, List.append_cancel_left_eq] at h
      obtain ⟨h1, h2⟩ := text_inj i j (n + 1) _ _ (rest_follows ..) (rest_follows ..) h
      obtain ⟨h3, h4⟩ := rest_inj l m (n + 1) n _ _ h2
      refine ⟨by rw [h1, h3], ?_⟩
      simpa using h4
    | .obj [], .obj [] => exact ⟨rfl, by simpa [text] using h⟩
    | .obj [], .obj (_ :: _) => simp [text, nl] at h
    | .obj (_ :: _), .obj [] => simp [text, nl] at h
    | .obj ((k, i) :: l), .obj ((k', j) :: m) =>
      rw [text, text] at h
      simp only [List.cons_append, List.append_assoc, List.cons.injEq, true_and, List.append_cancel_left_eq] at h
      obtain ⟨h0, h⟩ := Checksum.jsonStr_inj h
      rw [List.append_cancel_left_eq] at h
      obtain ⟨h1, h2⟩ := text_inj i j (n + 1) _ _ (restItems_follows ..) (restItems_follows ..) h
      obtain ⟨h3, h4⟩ := restItems_inj l m (n + 1) n _ _ h2
      refine ⟨by rw [h0, h1, h3], ?_⟩
      simpa using h4
theorem rest_inj : ∀ (l l' : List J) (n m : Nat) (x y : Str),
    rest n l ++ (nl m ++ x) = rest n l' ++ (nl m ++ y) → l = l' ∧ x = y
  | [], [], n, m, x, y, h => by rw [rest] at h; exact ⟨rfl, by simpa using h⟩
  | [], _ :: _, n, m, x, y, h => by rw [rest, rest] at h; exact absurd h (nl_comma _ _ _)
  | _ :: _, [], n, m, x, y, h => by rw [rest, rest] at h; exact absurd h.symm (nl_comma _ _ _)
  | i :: l, j :: l', n, m, x, y, h => by
    rw [rest, rest] at h
    simp only [List.cons_append, List.append_assoc, List.cons.injEq, true_and, List.append_cancel_left_eq] at h
    obtain ⟨h1, h2⟩ := text_inj i j n _ _ (rest_follows ..) (rest_follows ..) h
    obtain ⟨h3, h4⟩ := rest_inj l l' n m x y h2
    exact ⟨by rw [h1, h3], h4⟩
theorem restItems_inj : ∀ (l l' : List (Str × J)) (n m : Nat) (x y : Str),
    restItems n l ++ (nl m ++ x) = restItems n l' ++ (nl m ++ y) → l = l' ∧ x = y
  | [], [], n, m, x, y, h => by rw [restItems] at h; exact ⟨rfl, by simpa using h⟩
  | [], _ :: _, n, m, x, y, h => by rw [restItems, restItems] at h; exact absurd h (nl_comma _ _ _)
  | _ :: _, [], n, m, x, y, h => by rw [restItems, restItems] at h; exact absurd h.symm (nl_comma _ _ _)
  | (k, i) :: l, (k', j) :: l', n, m, x, y, h => by
    rw [restItems, restItems] at h
    simp only [List.cons_append, List.append_assoc, List.cons.injEq, true_and, List.append_cancel_left_eq] at h
    obtain ⟨h0, h⟩ := Checksum.jsonStr_inj h
    rw [List.append_cancel_left_eq] at h
    obtain ⟨h1, h2⟩ := text_inj i j n _ _ (restItems_follows ..) (restItems_follows ..) h
    obtain ⟨h3, h4⟩ := restItems_inj l l' n m x y h2
    exact ⟨by rw [h0, h1, h3], h4⟩
end

/-! ## The text is JSON

The grammar of JSON, with white space wherever it may be; numbers are written as usual, and strings so that a reader of JSON
(the one of C14) reads them. -/

def Ws (s : Str) : Prop := ∀ c ∈ s, c = ' ' ∨ c = '\n' ∨ c = '\t' ∨ c = '\r'

def Quoted (s t : Str) : Prop := ∃ r, t = '"' :: r ∧ ∀ x, IOLog.scanStr (r ++ x) = some (s, x)

mutual
inductive Value : J → Str → Prop
  | null : Value .null "null".toList
  | true_ : Value (.bool true) "true".toList
  | false_ : Value (.bool false) "false".toList
  | int (n : Int) : Value (.int n) (toString n).toList
  | str (s t : Str) : Quoted s t → Value (.str s) t
  | arr0 (w : Str) : Ws w → Value (.arr []) ('[' :: (w ++ [']']))
  | arr (l : List J) (s : Str) : Elems l s → Value (.arr l) ('[' :: (s ++ [']']))
  | obj0 (w : Str) : Ws w → Value (.obj []) ('{' :: (w ++ ['}']))
  | obj (l : List (Str × J)) (s : Str) : Members l s → Value (.obj l) ('{' :: (s ++ ['}']))
inductive Elems : List J → Str → Prop
  | one (j : J) (s w w' : Str) : Value j s → Ws w → Ws w' → Elems [j] (w ++ (s ++ w'))
  | more (j : J) (l : List J) (s w w' t : Str) : Value j s → Ws w → Ws w' → Elems l t → Elems (j :: l) (w ++ (s ++ (w' ++ ',' :: t)))
inductive Members : List (Str × J) → Str → Prop
  | one (k : Str) (j : J) (q s w w1 w2 w' : Str) : Quoted k q → Value j s → Ws w → Ws w1 → Ws w2 → Ws w' →
      Members [(k, j)] (w ++ (q ++ (w1 ++ ':' :: (w2 ++ (s ++ w')))))
  | more (k : Str) (j : J) (l : List (Str × J)) (q s w w1 w2 w' t : Str) : Quoted k q → Value j s → Ws w → Ws w1 → Ws w2 → Ws w' →
      Members l t → Members ((k, j) :: l) (w ++ (q ++ (w1 ++ ':' :: (w2 ++ (s ++ (w' ++ ',' :: t))))))
end

theorem ws_nl (n : Nat) : Ws (nl n) := by
  intro c hc
  rcases List.mem_cons.mp hc with h | h
  · exact .inr (.inl h)
  · exact .inl (List.mem_replicate.mp h).2

theorem ws_nil : Ws [] := fun c hc => by cases hc
theorem ws_one : Ws [' '] := fun _ hc => .inl (List.mem_singleton.mp hc)

theorem quoted (s : Str) : Quoted s (IOLog.jsonStr s) :=
  ⟨_, rfl, fun x => by simpa using IOLog.scanStr_round s x⟩

theorem int_text (n : Int) : intText n = (toString n).toList := by
  have hd : ∀ m : Nat, (Nat.repr m).toList = Nat.toDigits 10 m := fun m => by rw [Nat.repr_eq_ofList_toDigits]; simp
  cases n with
  | ofNat m =>
    have : ¬ (Int.ofNat m < 0) := by simp
    rw [intText, if_neg this]
    exact (hd m).symm
  | negSucc m =>
    have : Int.negSucc m < 0 := Int.negSucc_lt_zero m
    rw [intText, if_pos this]
    show _ = ("-" ++ Nat.repr (m + 1)).toList
    rw [String.toList_append, hd]
    rfl

mutual
theorem text_value : ∀ (j : J) (n : Nat), Value j (text n j)
  | .null, n => by rw [text]; exact .null
  | .bool true, n => by rw [text]; exact .true_
  | .bool false, n => by rw [text]; exact .false_
  | .int i, n => by rw [text, int_text]; exact .int i
  | .str s, n => by rw [text]; exact .str s _ (quoted s)
  | .arr [], n => by rw [text]; exact .arr0 [] ws_nil
  | .arr (j :: l), n => by
    rw [text]
    have := Value.arr _ _ (text_elems l j _ (n + 1) n (text_value j (n + 1)))
    simpa only [List.append_assoc] using this
  | .obj [], n => by rw [text]; exact .obj0 [] ws_nil
  | .obj ((k, j) :: l), n => by
    rw [text]
    have := Value.obj _ _ (text_members l k j _ (n + 1) n (text_value j (n + 1)))
    simpa only [List.append_assoc] using this
theorem text_elems : ∀ (l : List J) (j : J) (s : Str) (n m : Nat), Value j s → Elems (j :: l) (nl n ++ (s ++ (rest n l ++ nl m)))
  | [], j, s, n, m, h => by
    rw [rest]
    exact .one j _ _ _ h (ws_nl n) (ws_nl m)
  | i :: l, j, s, n, m, h => by
    rw [rest]
    have := Elems.more j (i :: l) _ (nl n) [] _ h (ws_nl n) ws_nil (text_elems l i _ n m (text_value i n))
    simpa only [List.append_assoc, List.nil_append, List.cons_append] using this
theorem text_members : ∀ (l : List (Str × J)) (k : Str) (j : J) (s : Str) (n m : Nat), Value j s → Members ((k, j) :: l)
    (nl n ++ (IOLog.jsonStr k ++ (": ".toList ++ (s ++ (restItems n l ++ nl m)))))
  | [], k, j, s, n, m, h => by
    rw [restItems]
    exact .one k j _ _ _ [] [' '] _ (quoted k) h (ws_nl n) ws_nil ws_one (ws_nl m)
  | (k', i) :: l, k, j, s, n, m, h => by
    rw [restItems]
    have := Members.more k j ((k', i) :: l) _ _ (nl n) [] [' '] [] _ (quoted k) h (ws_nl n) ws_nil ws_one ws_nil
      (text_members l k' i _ n m (text_value i n))
    have e : ": ".toList = [':', ' '] := rfl
    rw [e] at this ⊢
    simpa only [List.append_assoc, List.nil_append, List.cons_append] using this
end

/-! ## C150 -/

/-- **C150_json**: what is printed is JSON, with the same in the same places as what the parser gave; keys are in order. -/
theorem C150_json (parser : Str → Except Unit Obj) (s t : Str) (o : Obj) (ho : parser s = .ok o) (hw : o.Wf)
    (h : run parser (some s) = .exit 0 (some t)) : ∃ j, Value j t ∧ j.Ok ∧ ∀ p, j.at_ p = o.at_ p := by
  simp only [run, ast, ho] at h
  split at h
  · cases h
  · split at h
    · rename_i j hj
      cases h
      obtain ⟨h1, h2⟩ := conv_spec o hw j hj
      exact ⟨j, text_value j 0, h1, h2⟩
    · cases h

/-- **C150_same**: what is shown for two things is the same just when they have the same in the same places. -/
theorem C150_same (parser : Str → Except Unit Obj) (s t : Str) (a b : Obj) (ha : parser s = .ok a) (hb : parser t = .ok b)
    (wa : a.Wf) (wb : b.Wf) (x y : Str) (hx : run parser (some s) = .exit 0 (some x)) (hy : run parser (some t) = .exit 0 (some y)) :
    x = y ↔ ∀ p, a.at_ p = b.at_ p := by
  have key : ∀ (s : Str) (a : Obj) (x : Str), parser s = .ok a → run parser (some s) = .exit 0 (some x) →
      ∃ j, conv a = some j ∧ x = text 0 j := by
    intro s a x ha hx
    simp only [run, ast, ha] at hx
    split at hx
    · cases hx
    · split at hx
      · rename_i j hj
        cases hx
        exact ⟨j, hj, rfl⟩
      · cases hx
  obtain ⟨i, hi, rfl⟩ := key s a x ha hx
  obtain ⟨j, hj, rfl⟩ := key t b y hb hy
  obtain ⟨oi, pi⟩ := conv_spec a wa i hi
  obtain ⟨oj, pj⟩ := conv_spec b wb j hj
  constructor
  · intro h p
    obtain ⟨e, _⟩ := text_inj i j 0 [] [] (.inl rfl) (.inl rfl) (by simpa using h)
    rw [← pi, ← pj, e]
  · intro h
    rw [ext i j oi oj (fun p => by rw [pi, pj, h])]

/-- **C150_exit_partial**: for input that can be read, the command ends with zero just when the parser gives something and all of
it can be shown; it ends with two just when the parser fails or gives nothing. -/
theorem C150_exit_partial (parser : Str → Except Unit Obj) (s : Str) (hw : ∀ o, parser s = .ok o → o.Wf) :
    ((∃ t, run parser (some s) = .exit 0 (some t)) ↔
      ∃ o, parser s = .ok o ∧ o ≠ .none ∧ ∀ p, o.at_ p ≠ some .bad) ∧
    (run parser (some s) = .exit 2 none ↔ (∃ e, parser s = .error e) ∨ parser s = .ok .none) := by
  cases h : parser s with
  | error e => simp [run, ast, h]
  | ok o =>
    have hb := conv_bad o (hw o h)
    by_cases ho : o = .none
    · subst ho
      simp [run, ast, h]
    · have hr : run parser (some s) = match conv o with
          | some j => .exit 0 (some (text 0 j))
          | none => .traceback := by
        simp only [run, ast, h]
        cases conv o <;> rfl
      rw [hr]
      cases hc : conv o with
      | none =>
        obtain ⟨p, hp⟩ := hb.mp hc
        simp only [reduceCtorEq, exists_false, false_iff, not_exists, Except.ok.injEq, false_or, ho, and_true, not_and]
        rintro o' rfl _ hall
        exact hall p hp
      | some j =>
        simp only [Except.ok.injEq, Out.exit.injEq, true_and, Option.some.injEq, exists_eq', true_iff, reduceCtorEq, ho, or_self,
          exists_false, iff_false, exists_eq_left']
        refine ⟨⟨ho, fun p hp => ?_⟩, by simp⟩
        have := hb.mpr ⟨p, hp⟩
        rw [hc] at this
        cases this

/-- Input that cannot be decoded was to end with a message and status one; there is a traceback. Something that cannot be shown was
to end with a message; there is a traceback too. -/
theorem C150_traceback_violated (parser : Str → Except Unit Obj) :
    run parser none = .traceback ∧ (∀ input printed, run parser input ≠ .exit 1 printed) ∧
    run (fun _ => .ok (.list [.inst false [] false [] false [] false])) (some []) = .traceback := by
  refine ⟨rfl, fun input printed => ?_, ?_⟩
  · unfold run
    repeat' split
    all_goals simp
  · simp [run, ast, conv, convList]

/-- A parser of something with attributes, out of order. -/
def sampleParser : Str → Except Unit Obj := fun s =>
  .ok (.inst false [] true [("b".toList, .list [.int (-3), .none]), ("a".toList, .str s)] false [] false)

example : run sampleParser (some "x".toList) =
    .exit 0 (some "{\n    \"a\": \"x\",\n    \"b\": [\n        -3,\n        null\n    ]\n}".toList) := by decide +kernel
example : ∀ s o, sampleParser s = .ok o → o.Wf := by
  rintro s o h
  cases h
  simp [Obj.Wf, WfList, WfItems]

end Verif.Dump
