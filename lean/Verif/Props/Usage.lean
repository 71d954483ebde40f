import Verif.Model.Usage
import Verif.Model.Assistant
import Verif.Lemmas.Sort

/-! # Property C136: calls are refused exactly if they are not expected, and undeclared exceptions are reported -/

namespace Verif.Usage

/-! ## Specification -/

/-- The code that a function was written with, below all decorators. -/
def body : Fn → Code
  | .plain c => c
  | .wraps _ f => body f

/-- How often a function was decorated. -/
def depth : Fn → Nat
  | .plain _ => 0
  | .wraps _ f => depth f + 1

/-- The stack when `f` is called from `outer` and the function it was written as calls `enforce`. -/
def callStack (e : Code) (f : Fn) (outer : List Code) : List Code := e :: (f.frames ++ outer)

/-- The function is one of the allowed ones. -/
def Expected (calls : List (Fn × Str)) (f : Fn) : Prop := ∃ why, (f, why) ∈ calls

/-- Functions that were written separately have different code. -/
def Separate (calls : List (Fn × Str)) (f : Fn) : Prop := ∀ p ∈ calls, body p.1 = body f → p.1 = f

/-! ## Lemmas -/

theorem frames_head (f : Fn) : ∃ r, f.frames = body f :: r := by
  induction f with
  | plain c => exact ⟨[], rfl⟩
  | wraps c f ih =>
    obtain ⟨r, hr⟩ := ih
    exact ⟨r ++ [c], by simp [Fn.frames, hr, body]⟩

theorem under_code {f : Fn} (h : depth f ≤ 1) : f.under.code = body f := by
  match f, h with
  | .plain c, _ => rfl
  | .wraps _ (.plain c), _ => rfl
  | .wraps _ (.wraps _ f), h => simp [depth] at h

theorem mem_allowed {calls : List (Fn × Str)} (hd : ∀ p ∈ calls, depth p.1 ≤ 1) {f : Fn} (hs : Separate calls f) :
    body f ∈ allowedCode calls ↔ Expected calls f := by
  simp only [allowedCode, List.mem_map, Expected]
  constructor
  · rintro ⟨p, hp, he⟩
    rw [under_code (hd p hp)] at he
    have := hs p hp he
    exact ⟨p.2, by rw [← this]; exact hp⟩
  · rintro ⟨w, hw⟩
    exact ⟨(f, w), hw, under_code (hd _ hw)⟩

theorem under_eq {f g : Fn} (hf : depth f ≤ 1) (hg : depth g ≤ 1) : f.under = g.under ↔ body f = body g := by
  match f, g, hf, hg with
  | .plain a, .plain b, _, _ => simp [Fn.under, body]
  | .plain a, .wraps _ (.plain b), _, _ => simp [Fn.under, body]
  | .wraps _ (.plain a), .plain b, _, _ => simp [Fn.under, body]
  | .wraps _ (.plain a), .wraps _ (.plain b), _, _ => simp [Fn.under, body]
  | .wraps _ (.wraps _ f), _, h, _ => simp [depth] at h
  | _, .wraps _ (.wraps _ f), _, h => simp [depth] at h

theorem put_new {k : Fn} {v : Str} : ∀ {d : List (Fn × Str)}, (∀ p ∈ d, p.1 ≠ k) → put k v d = d ++ [(k, v)]
  | [], _ => rfl
  | (k', v') :: d, h => by
    have h1 : k ≠ k' := fun e => h (k', v') (by simp) e.symm
    have h2 := put_new (v := v) fun p hp => h p (List.mem_cons_of_mem _ hp)
    simp [put, if_neg h1, h2]

theorem undecorated_eq {calls : List (Fn × Str)} (hn : (calls.map fun p => p.1.under).Nodup) :
    undecorated calls = calls.map fun p => (p.1.under, p.2) := by
  have main : ∀ (l d : List (Fn × Str)), (d.map (·.1) ++ l.map fun p => p.1.under).Nodup →
      l.foldl (fun d p => put p.1.under p.2 d) d = d ++ l.map fun p => (p.1.under, p.2) := by
    intro l
    induction l with
    | nil => intro d _; simp
    | cons p l ih =>
      intro d hd
      simp only [List.map_cons, List.nodup_append, List.mem_map, List.nodup_cons, List.mem_cons] at hd
      have hp : put p.1.under p.2 d = d ++ [(p.1.under, p.2)] := by
        refine put_new fun q hq he => ?_
        exact hd.2.2 q.1 ⟨q, hq, rfl⟩ p.1.under (.inl rfl) he
      rw [List.foldl_cons, hp, ih]
      · simp
      · simp only [List.map_append, List.map_cons, List.map_nil, List.nodup_append, List.mem_map,
          List.append_assoc, List.singleton_append, List.nodup_cons, List.mem_cons]
        refine ⟨hd.1, ⟨?_, hd.2.1.2⟩, ?_⟩
        · exact hd.2.1.1
        · exact hd.2.2
  simpa [undecorated] using main calls [] (by simpa using hn)

/-! ## Property theorems -/

/-- **C136**, the decision: a method that calls `enforce()` is accepted exactly if it is one of the allowed calls, whoever calls
it. Missing: allowed functions that were decorated more than once (`C136_twice_violated`). -/
theorem C136_decision_partial (calls : List (Fn × Str)) (hd : ∀ p ∈ calls, depth p.1 ≤ 1) (e : Code) (f : Fn) (outer : List Code)
    (hs : Separate calls f) :
    (Expected calls f → enforce calls (callStack e f outer) 1 = .accepted) ∧
    (¬ Expected calls f → ∃ pairs, enforce calls (callStack e f outer) 1 = .unexpected (body f).name pairs) := by
  obtain ⟨r, hr⟩ := frames_head f
  have hst : (callStack e f outer)[1]? = some (body f) := by simp [callStack, hr]
  unfold enforce
  simp only [hst, Nat.lt_irrefl, gt_iff_lt, if_false]
  constructor
  · intro h
    rw [if_pos ((mem_allowed hd hs).mpr h)]
  · intro h
    rw [if_neg fun hc => h ((mem_allowed hd hs).mp hc)]
    exact ⟨_, rfl⟩

/-- **C136**, helpers: when `enforce` is called by a helper that the method calls, over `n` frames, with `back` one more than `n`,
the method is accepted if it is allowed; otherwise it is only accepted, with a warning that tells the right value, if the helper
in the last of these frames is itself allowed. -/
theorem C136_back_partial (calls : List (Fn × Str)) (hd : ∀ p ∈ calls, depth p.1 ≤ 1) (e : Code) (helpers : List Code) (f : Fn)
    (outer : List Code) (hs : Separate calls f) :
    let v := enforce calls (e :: (helpers ++ (f.frames ++ outer))) (helpers.length + 1)
    (Expected calls f → v = .accepted) ∧
    (¬ Expected calls f →
      (∀ c, helpers.getLast? = some c → c ∈ calls.map (fun p => body p.1) → v = .warned helpers.length) ∧
      ((∀ c, helpers.getLast? = some c → c ∉ calls.map (fun p => body p.1)) →
        ∃ pairs, v = .unexpected (body f).name pairs)) := by
  obtain ⟨r, hr⟩ := frames_head f
  have hst : (e :: (helpers ++ (f.frames ++ outer)))[helpers.length + 1]? = some (body f) := by
    simp [hr]
  have hcode : allowedCode calls = calls.map fun p => body p.1 :=
    List.map_congr_left fun p hp => under_code (hd p hp)
  have halt : (if helpers.length + 1 > 1 then (e :: (helpers ++ (f.frames ++ outer)))[helpers.length + 1 - 1]? else none) =
      helpers.getLast? := by
    rcases List.eq_nil_or_concat helpers with rfl | ⟨l, x, rfl⟩
    · simp
    · simp
  intro v
  have hv : v = if body f ∈ allowedCode calls then .accepted else
      match helpers.getLast? with
      | some alt => if alt ∈ allowedCode calls then .warned helpers.length else .unexpected (body f).name (allowedPairs calls)
      | none => .unexpected (body f).name (allowedPairs calls) := by
    show enforce _ _ _ = _
    unfold enforce
    rw [hst, halt]
    rfl
  refine ⟨fun h => ?_, fun h => ⟨fun c hc hm => ?_, fun hn => ?_⟩⟩
  · rw [hv, if_pos ((mem_allowed hd hs).mpr h)]
  · rw [hv, if_neg fun hx => h ((mem_allowed hd hs).mp hx), hc]
    simp only
    rw [if_pos (by rw [hcode]; exact hm)]
  · rw [hv, if_neg fun hx => h ((mem_allowed hd hs).mp hx)]
    cases hl : helpers.getLast? with
    | none => exact ⟨_, rfl⟩
    | some c =>
      simp only
      rw [if_neg (by rw [hcode]; exact hn c hl)]
      exact ⟨_, rfl⟩

/-- **C136**, the message: the error lists all allowed functions with the reasons given for them, in the order of the names. -/
theorem C136_message_partial (calls : List (Fn × Str)) (hd : ∀ p ∈ calls, depth p.1 ≤ 1)
    (hn : (calls.map fun p => body p.1).Nodup) (stack : List Code) (back : Nat) (fn : Str) (pairs : List (Str × Str))
    (h : enforce calls stack back = .unexpected fn pairs) :
    pairs.Perm (calls.map fun p => ((body p.1).name, p.2)) ∧ pairs.Pairwise (fun a b => Sort.strLe a.1 b.1 = true) ∧
    ∃ c, stack[back]? = some c ∧ fn = c.name := by
  have hpairs : pairs = allowedPairs calls ∧ ∃ c, stack[back]? = some c ∧ fn = c.name := by
    unfold enforce at h
    split at h
    · simp at h
    · rename_i c hc
      split at h
      · simp at h
      · split at h
        · split at h
          · simp at h
          · simp only [Verdict.unexpected.injEq] at h
            exact ⟨h.2.symm, c, hc, h.1.symm⟩
        · simp only [Verdict.unexpected.injEq] at h
          exact ⟨h.2.symm, c, hc, h.1.symm⟩
  have hnu : (calls.map fun p => p.1.under).Nodup := by
    rw [List.nodup_iff_pairwise_ne, List.pairwise_map] at hn ⊢
    refine List.Pairwise.imp_of_mem ?_ hn
    intro p q hp hq hne he
    exact hne ((under_eq (hd p hp) (hd q hq)).mp he)
  refine ⟨?_, ?_, hpairs.2⟩
  · rw [hpairs.1]
    unfold allowedPairs
    rw [undecorated_eq hnu]
    refine ((Sort.sortBy_perm _).map _).trans ?_
    rw [List.map_map]
    refine List.Perm.of_eq (List.map_congr_left fun p hp => ?_)
    simp [under_code (hd p hp)]
  · rw [hpairs.1]
    unfold allowedPairs
    rw [List.pairwise_map]
    exact Sort.sortBy_sorted (le := fun a b : Fn × Str => Sort.strLe a.1.code.name b.1.code.name)
      (fun a b => Sort.strLe_total _ _) (fun a b c => Sort.strLe_trans _ _ _) _

/-- **C136**, for the assistant: with its methods, which are decorated once, in the dictionary of allowed calls as the model of the
assistant has them, `enforce` accepts a method exactly if the model does. -/
theorem C136_assistant (meth : Assistant.Call → Fn) (hd : ∀ c, depth (meth c) = 1)
    (hinj : ∀ c c', body (meth c) = body (meth c') → c = c') (st : Assistant.St) (calls : List (Fn × Str))
    (hc : ∀ f why, (f, why) ∈ calls → ∃ c, f = meth c ∧ st.allowed c = true)
    (hall : ∀ c, st.allowed c = true → ∃ why, (meth c, why) ∈ calls) (e : Code) (c : Assistant.Call) (outer : List Code) :
    (enforce calls (callStack e (meth c) outer) 1 = .accepted ↔ st.allowed c = true) ∧
    (enforce calls (callStack e (meth c) outer) 1 ≠ .accepted →
      ∀ a o, Assistant.call c a o st = (st, .refused, [])) := by
  have hs : Separate calls (meth c) := by
    intro p hp he
    obtain ⟨c', hc', _⟩ := hc p.1 p.2 hp
    rw [hc'] at he ⊢
    rw [hinj _ _ he]
  have hd' : ∀ p ∈ calls, depth p.1 ≤ 1 := by
    intro p hp
    obtain ⟨c', hc', _⟩ := hc p.1 p.2 hp
    rw [hc']; exact Nat.le_of_eq (hd c')
  obtain ⟨h1, h2⟩ := C136_decision_partial calls hd' e (meth c) outer hs
  have key : enforce calls (callStack e (meth c) outer) 1 = .accepted ↔ st.allowed c = true := by
    constructor
    · intro h
      by_cases hx : Expected calls (meth c)
      · obtain ⟨w, hw⟩ := hx
        obtain ⟨c', hc', ha⟩ := hc _ _ hw
        rwa [hinj c c' (by rw [hc'])]
      · obtain ⟨p, hp⟩ := h2 hx
        rw [hp] at h
        simp at h
    · intro h
      exact h1 (hall c h)
  refine ⟨key, fun h a o => ?_⟩
  have : st.allowed c = false := by
    cases hb : st.allowed c with
    | false => rfl
    | true => exact absurd (key.mpr hb) h
  simp [Assistant.call, this]

/-- **C136**, expectations belong to objects: however often and in whatever order `of` is called, two calls give the same
expectations exactly if they are about the same object. -/
theorem C136_of (os : List Nat) (i j : Nat) (hi : i < os.length) (hj : j < os.length) :
    (ofAll {} os)[i]? = (ofAll {} os)[j]? ↔ os[i]? = os[j]? := by
  -- an invariant: expectations are numbered as they were made
  have len : ∀ (os : List Nat) (h : Heap), (ofAll h os).length = os.length := by
    intro os
    induction os with
    | nil => intro h; rfl
    | cons o os ih => intro h; simp [ofAll, ih]
  let Good (h : Heap) : Prop := (∀ o e, h.attrs.lookup o = some e → e < h.made) ∧
    ∀ o o' e, h.attrs.lookup o = some e → h.attrs.lookup o' = some e → o = o'
  have step : ∀ h o, Good h → Good (of h o).1 ∧ (of h o).1.attrs.lookup o = some (of h o).2 ∧
      ∀ o' e, h.attrs.lookup o' = some e → (of h o).1.attrs.lookup o' = some e := by
    intro h o hg
    unfold of
    cases hl : h.attrs.lookup o with
    | some e => exact ⟨hg, hl, fun _ _ h => h⟩
    | none =>
      simp only
      have lk : ∀ o', ((o, h.made) :: h.attrs).lookup o' = if o' = o then some h.made else h.attrs.lookup o' := by
        intro o'
        by_cases he : o' = o
        · subst he; simp
        · have hb : (o' == o) = false := by simpa using he
          rw [List.lookup_cons, hb, if_neg he]
      refine ⟨⟨?_, ?_⟩, by simp, ?_⟩
      · intro o' e' h'
        rw [lk] at h'
        split at h'
        · simp only [Option.some.injEq] at h'; simp only; omega
        · have := hg.1 _ _ h'; simp only; omega
      · intro a b e' ha hb
        rw [lk] at ha hb
        split at ha <;> split at hb
        · rename_i h1 h2; rw [h1, h2]
        · simp only [Option.some.injEq] at ha; have := hg.1 _ _ hb; omega
        · simp only [Option.some.injEq] at hb; have := hg.1 _ _ ha; omega
        · exact hg.2 _ _ _ ha hb
      · intro o' e' h'
        rw [lk]
        split
        · rename_i he; subst he; rw [hl] at h'; simp at h'
        · exact h'
  -- afterwards each object has the expectations that were given for it
  have main : ∀ (os : List Nat) (h : Heap), Good h → ∃ h', Good h' ∧
      (∀ o e, h.attrs.lookup o = some e → h'.attrs.lookup o = some e) ∧
      ∀ (n o e : Nat), os[n]? = some o → (ofAll h os)[n]? = some e → h'.attrs.lookup o = some e := by
    intro os
    induction os with
    | nil => intro h hg; exact ⟨h, hg, fun _ _ h => h, by simp⟩
    | cons o os ih =>
      intro h hg
      obtain ⟨g1, g2, g3⟩ := step h o hg
      obtain ⟨h', k1, k2, k3⟩ := ih _ g1
      refine ⟨h', k1, fun a e ha => k2 _ _ (g3 _ _ ha), ?_⟩
      intro n a e hn he
      cases n with
      | zero =>
        simp only [List.getElem?_cons_zero, Option.some.injEq, ofAll] at hn he
        subst hn; subst he
        exact k2 _ _ g2
      | succ n =>
        simp only [List.getElem?_cons_succ, ofAll] at hn he
        exact k3 n a e hn he
  obtain ⟨h', hg, -, hm⟩ := main os {} ⟨by simp, by simp⟩
  have hi' : i < (ofAll {} os).length := by rw [len]; exact hi
  have hj' : j < (ofAll {} os).length := by rw [len]; exact hj
  have a1 := hm i _ _ (List.getElem?_eq_getElem hi) (List.getElem?_eq_getElem hi')
  have a2 := hm j _ _ (List.getElem?_eq_getElem hj) (List.getElem?_eq_getElem hj')
  rw [List.getElem?_eq_getElem hi, List.getElem?_eq_getElem hj, List.getElem?_eq_getElem hi', List.getElem?_eq_getElem hj']
  simp only [Option.some.injEq]
  constructor
  · intro h
    rw [h] at a1
    exact hg.2 _ _ _ a1 a2
  · intro h
    rw [h, a2] at a1
    simp only [Option.some.injEq] at a1
    exact a1.symm

theorem contains_iff (n : Str) : ∀ s : Str, contains n s = true ↔ ∃ a b, s = a ++ n ++ b
  | [] => by
    simp only [contains, List.isEmpty_iff]
    constructor
    · rintro rfl; exact ⟨[], [], rfl⟩
    · rintro ⟨a, b, h⟩
      have := congrArg List.length h
      simp only [List.length_nil, List.length_append] at this
      exact List.length_eq_zero_iff.mp (by omega)
  | c :: s => by
    simp only [contains, Bool.or_eq_true, contains_iff n s, List.isPrefixOf_iff_prefix]
    constructor
    · rintro (⟨b, h⟩ | ⟨a, b, h⟩)
      · exact ⟨[], b, by simp [h]⟩
      · exact ⟨c :: a, b, by simp [h]⟩
    · rintro ⟨a, b, h⟩
      cases a with
      | nil => exact .inl ⟨b, by simpa using h.symm⟩
      | cons x a =>
        simp only [List.cons_append, List.cons.injEq] at h
        exact .inr ⟨a, b, h.2⟩

theorem undocumented_none (doc : Str) : ∀ ns, undocumented doc ns = none ↔
    ∀ n ∈ ns, ∃ a b, doc = a ++ (":raises ".toList ++ n ++ ":".toList) ++ b
  | [] => by simp [undocumented]
  | n :: ns => by
    simp only [undocumented, List.mem_cons, forall_eq_or_imp]
    cases hc : contains (":raises ".toList ++ n ++ ":".toList) doc with
    | true =>
      have := (contains_iff _ _).mp hc
      simp only [if_true, undocumented_none doc ns, this, true_and]
    | false =>
      have : ¬ ∃ a b, doc = a ++ (":raises ".toList ++ n ++ ":".toList) ++ b := fun h => by
        rw [(contains_iff _ _).mpr h] at hc; simp at hc
      simp only [Bool.false_eq_true, if_false, this, false_and]
      exact ⟨fun h => by simp at h, fun h => h.elim⟩

theorem undocumented_some (doc : Str) : ∀ ns n, undocumented doc ns = some n →
    n ∈ ns ∧ ¬ ∃ a b, doc = a ++ (":raises ".toList ++ n ++ ":".toList) ++ b
  | [], n, h => by simp [undocumented] at h
  | m :: ns, n, h => by
    simp only [undocumented] at h
    split at h
    · obtain ⟨h1, h2⟩ := undocumented_some doc ns n h
      exact ⟨by simp [h1], h2⟩
    · rename_i hc
      simp only [Option.some.injEq] at h
      subst h
      exact ⟨by simp, fun h => hc ((contains_iff _ _).mpr h)⟩

/-- **C136**, documentation: a function can be declared to raise exceptions exactly if all of them are exceptions and its
docstring, if it has one, documents each of them; otherwise the error names one that is not documented. -/
theorem C136_documented (args : List Arg) (doc : Option Str) :
    (decorate args doc = .wrapper ↔ (∀ a ∈ args, a ≠ .other) ∧ ∀ d, doc = some d → ∀ n, .exc n ∈ args →
      ∃ x y, d = x ++ (":raises ".toList ++ n ++ ":".toList) ++ y) ∧
    (decorate args doc = .typeError ↔ .other ∈ args) ∧
    (∀ n, decorate args doc = .undocumented n → .exc n ∈ args ∧ ∃ d, doc = some d ∧
      ¬ ∃ x y, d = x ++ (":raises ".toList ++ n ++ ":".toList) ++ y) := by
  have hany : args.any (fun a => decide (a = .other)) = true ↔ .other ∈ args := by simp
  have hmem : ∀ n, n ∈ (args.filterMap fun a => match a with | .exc n => some n | .other => none) ↔ .exc n ∈ args := by
    intro n
    simp only [List.mem_filterMap]
    constructor
    · rintro ⟨a, ha, he⟩
      cases a with
      | exc m => simp only [Option.some.injEq] at he; exact he ▸ ha
      | other => simp at he
    · intro h
      exact ⟨_, h, rfl⟩
  unfold decorate
  by_cases ho : .other ∈ args
  · rw [if_pos (hany.mpr ho)]
    refine ⟨⟨fun h => by simp at h, fun h => absurd rfl (h.1 _ ho)⟩, by simp [ho], by simp⟩
  · rw [if_neg fun h => ho (hany.mp h)]
    have hne : ∀ a ∈ args, a ≠ .other := fun a ha he => ho (he ▸ ha)
    cases doc with
    | none => simp [ho]; exact hne
    | some d =>
      simp only [Option.some.injEq, forall_eq']
      cases hu : undocumented d (args.filterMap fun a => match a with | .exc n => some n | .other => none) with
      | none =>
        have := (undocumented_none d _).mp hu
        refine ⟨⟨fun _ => ⟨hne, fun n hn => this n ((hmem n).mpr hn)⟩, fun _ => rfl⟩, by simp [ho], by simp⟩
      | some n =>
        obtain ⟨h1, h2⟩ := undocumented_some d _ n hu
        refine ⟨⟨fun h => by simp at h, fun h => absurd (h.2 n ((hmem n).mp h1)) h2⟩, by simp [ho], ?_⟩
        intro m hm
        simp only [Decorated.undocumented.injEq] at hm
        subst hm
        exact ⟨(hmem _).mp h1, d, rfl, h2⟩

/-- **C136**, nothing is changed by declaring exceptions: the wrapper ends as the function does, and reports an exception exactly if
it is an `Exception` and of none of the declared classes, with its class and the name of the function. -/
theorem C136_reported {α : Type} (k : Classes) (declared : List Str) (fn : Str) (e : End α) :
    (wrapped k declared fn e).1 = e ∧
    ∀ c f, (c, f) ∈ (wrapped k declared fn e).2 ↔
      f = fn ∧ ∃ x, e = .raised c x ∧ k.isException c = true ∧ ∀ d ∈ declared, k.sub c d = false := by
  cases e with
  | value a => simp [wrapped]
  | raised c x =>
    simp only [wrapped]
    constructor
    · split
      · split <;> rfl
      · rfl
    · intro c' f
      cases he : k.isException c with
      | false =>
        simp only [Bool.false_eq_true, if_false, List.not_mem_nil, false_iff, not_and]
        rintro _ ⟨y, h1, h2, _⟩
        simp only [End.raised.injEq] at h1
        rw [← h1.1, he] at h2
        simp at h2
      | true =>
        simp only [if_true]
        by_cases hd : declared.any (k.sub c) = true
        · rw [if_pos hd]
          obtain ⟨d, hd1, hd2⟩ := List.any_eq_true.mp hd
          simp only [List.not_mem_nil, false_iff, not_and]
          rintro _ ⟨y, h1, _, h3⟩
          simp only [End.raised.injEq] at h1
          rw [h1.1, h3 d hd1] at hd2
          simp at hd2
        · rw [if_neg hd]
          have hall : ∀ d ∈ declared, k.sub c d = false := by
            intro d hd'
            cases hx : k.sub c d with
            | false => rfl
            | true => exact absurd (List.any_eq_true.mpr ⟨d, hd', hx⟩) hd
          simp only [List.mem_singleton, Prod.mk.injEq]
          constructor
          · rintro ⟨rfl, rfl⟩
            exact ⟨rfl, x, rfl, he, hall⟩
          · rintro ⟨rfl, y, h1, -, -⟩
            simp only [End.raised.injEq] at h1
            exact ⟨h1.1.symm, rfl⟩

/-! ## Concrete cases -/

def wrapperCode : Code := ⟨0, "wrapper".toList⟩
def enforceCode : Code := ⟨1, "enforce".toList⟩
def runJob : Fn := .wraps wrapperCode (.plain ⟨2, "run_job".toList⟩)
def useResult : Fn := .wraps wrapperCode (.plain ⟨3, "use_job_result".toList⟩)
def startIt : Fn := .wraps wrapperCode (.plain ⟨4, "start_new_session".toList⟩)
def someCalls : List (Fn × Str) := [(useResult, "remember the result".toList), (startIt, "start".toList)]

/-- The wrappers share their code, and still only the allowed methods are accepted. -/
example : (∀ p ∈ someCalls, depth p.1 ≤ 1) ∧ (∀ p ∈ someCalls, body p.1 = body runJob → p.1 = runJob) ∧
    (someCalls.map fun p => body p.1).Nodup ∧
    enforce someCalls (callStack enforceCode startIt []) 1 = .accepted ∧
    enforce someCalls (callStack enforceCode runJob []) 1 = .unexpected "run_job".toList
      [("start_new_session".toList, "start".toList), ("use_job_result".toList, "remember the result".toList)] := by
  decide +kernel

/-- The hypotheses of `C136_assistant` hold, for an assistant that allows two calls. -/
example : ∃ (meth : Assistant.Call → Fn) (st : Assistant.St) (calls : List (Fn × Str)), (∀ c, depth (meth c) = 1) ∧
    (∀ c c', body (meth c) = body (meth c') → c = c') ∧
    (∀ f why, (f, why) ∈ calls → ∃ c, f = meth c ∧ st.allowed c = true) ∧
    (∀ c, st.allowed c = true → ∃ why, (meth c, why) ∈ calls) ∧ calls.length = 2 := by
  refine ⟨fun c => .wraps wrapperCode (.plain ⟨c.ctorIdx, []⟩),
    { Assistant.init false with allowed := fun c => c = .runJob ∨ c = .finalize },
    [(.wraps wrapperCode (.plain ⟨Assistant.Call.runJob.ctorIdx, []⟩), []),
      (.wraps wrapperCode (.plain ⟨Assistant.Call.finalize.ctorIdx, []⟩), [])], fun _ => rfl, ?_, ?_, ?_, rfl⟩
  · intro c c' h
    simp only [body, Code.mk.injEq, and_true] at h
    cases c <;> cases c' <;> first | rfl | simp [Assistant.Call.ctorIdx] at h
  · intro f why h
    simp only [List.mem_cons, Prod.mk.injEq, List.not_mem_nil, or_false] at h
    rcases h with ⟨rfl, _⟩ | ⟨rfl, _⟩
    · exact ⟨.runJob, rfl, by simp⟩
    · exact ⟨.finalize, rfl, by simp⟩
  · intro c h
    simp only [decide_eq_true_eq] at h
    rcases h with rfl | rfl
    · exact ⟨[], by simp⟩
    · exact ⟨[], by simp⟩

example : ofAll {} [7, 8, 7, 9, 8] = [0, 1, 0, 2, 1] := by decide

example : decorate [.exc "KeyError".toList, .exc "ValueError".toList] (some ":raises KeyError:\n if".toList) =
    .undocumented "ValueError".toList := by decide +kernel

/-- **C136** does not hold for functions that were decorated twice, with proper decorators: they are refused although they are
allowed. -/
theorem C136_twice_violated :
    let f := Fn.wraps ⟨5, "other".toList⟩ runJob
    Expected [(f, [])] f ∧ enforce [(f, [])] (callStack enforceCode f []) 1 =
      .unexpected "run_job".toList [("wrapper".toList, [])] :=
  ⟨⟨[], by simp⟩, by decide +kernel⟩

end Verif.Usage
