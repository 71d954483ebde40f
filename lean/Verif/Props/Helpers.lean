import Verif.Model.Helpers

/-!
# C147: reading in chunks, restricted objects

The specification of reading is the list of elements; that of restricted objects speaks of what can be found out and changed by
any sequence of accesses.
-/

namespace Verif.Helpers

variable {V E : Type}

/-! ## Reading in chunks -/

theorem collect_fine (n : Nat) (l : List V) : collect (none : Option E) n l = (.ok (l.take n), l.drop n) := by
  induction n generalizing l with
  | zero => simp [collect]
  | succ n ih =>
    cases l with
    | nil => simp [collect]
    | cons v l => simp [collect, ih]

theorem collect_error (e : E) (n : Nat) (l : List V) :
    collect (some e) n l = if n ≤ l.length then (.ok (l.take n), l.drop n) else (.error e, []) := by
  induction n generalizing l with
  | zero => simp [collect]
  | succ n ih =>
    cases l with
    | nil => simp [collect]
    | cons v l =>
      rw [collect, ih]
      by_cases h : n ≤ l.length
      · simp [h]
      · simp [h]

/-- What is asked for in the rounds. -/
def asked (chunk maxChunk factor : Nat) : Nat → Nat
  | 0 => chunk
  | n + 1 => min (chunk * factor ^ (n + 1)) maxChunk

theorem asked_succ (c m f : Nat) (hf : 1 ≤ f) (n : Nat) : asked (min (c * f) m) m f n = asked c m f (n + 1) := by
  cases n with
  | zero => simp [asked]
  | succ n =>
    simp only [asked]
    have h1 : c * f ^ (n + 1 + 1) = c * f * f ^ (n + 1) := by rw [Nat.pow_succ' (n := n + 1), Nat.mul_assoc]
    have h2 : m ≤ m * f ^ (n + 1) := Nat.le_mul_of_pos_right _ (Nat.pow_pos hf)
    rw [h1, ← Nat.mul_min_mul_right]
    omega

theorem loop_counts (m f : Nat) (hf : 1 ≤ f) (error : Option E) (n c : Nat) (l : List V) (i : Nat) (k : Nat)
    (h : (loop m f error n c l).counts[i]? = some k) : k = asked c m f i := by
  induction n generalizing c l i with
  | zero => simp [loop] at h
  | succ n ih =>
    unfold loop at h
    split at h
    · cases i with
      | zero => simpa [asked] using h.symm
      | succ i => simp at h
    · split at h
      · cases i with
        | zero => simpa [asked] using h.symm
        | succ i => simp at h
      · cases i with
        | zero => simpa [asked] using h.symm
        | succ i =>
          simp at h
          rw [ih _ _ _ h, asked_succ c m f hf]

/-- **C147_elements_partial**: an iterator that raises no exception is read to its end, and exactly its elements are given, in
order, whatever the sizes, if these are not zero. Missing: exceptions. -/
theorem C147_elements_partial (l : List V) (chunk maxChunk factor : Nat) (hc : 0 < chunk) (hm : 0 < maxChunk) (hf : 1 ≤ factor) :
    ∃ t, buffiter (⟨l, none⟩ : Iter V E) chunk maxChunk factor = some t ∧ t.out = l ∧ t.fin = .done := by
  refine ⟨_, by rw [buffiter, if_neg (by omega)], ?_⟩
  have key : ∀ (n c : Nat) (l : List V), 0 < c → l.length < n →
      (loop maxChunk factor (none : Option E) n c l).out = l ∧ (loop maxChunk factor (none : Option E) n c l).fin = .done := by
    intro n
    induction n with
    | zero => intro c l _ h; omega
    | succ n ih =>
      intro c l hc hn
      unfold loop
      rw [collect_fine]
      dsimp only
      cases l with
      | nil => simp
      | cons v l =>
        obtain ⟨c, rfl⟩ : ∃ d, c = d + 1 := ⟨c - 1, by omega⟩
        simp only [List.take_succ_cons, List.isEmpty_cons, Bool.false_eq_true, if_false, List.drop_succ_cons]
        have hp : 0 < (c + 1) * factor := Nat.mul_pos (by omega) hf
        have := ih (min ((c + 1) * factor) maxChunk) (l.drop c) (by omega) (by simp at hn ⊢; omega)
        rw [this.1, this.2]
        simp
  exact key _ _ _ hc (by simp)

/-- **C147_raises_partial**: if the iterator raises an exception, that is raised, and only elements that came before it are given,
in order. -/
theorem C147_raises_partial (l : List V) (e : E) (chunk maxChunk factor : Nat) (hc : 0 < chunk) (hm : 0 < maxChunk)
    (hf : 1 ≤ factor) :
    ∃ t, buffiter (⟨l, some e⟩ : Iter V E) chunk maxChunk factor = some t ∧ t.out <+: l ∧ t.fin = .raised e := by
  refine ⟨_, by rw [buffiter, if_neg (by omega)], ?_⟩
  have key : ∀ (n c : Nat) (l : List V), 0 < c → l.length < n →
      (loop maxChunk factor (some e) n c l).out <+: l ∧ (loop maxChunk factor (some e) n c l).fin = .raised e := by
    intro n
    induction n with
    | zero => intro c l _ h; omega
    | succ n ih =>
      intro c l hc hn
      unfold loop
      rw [collect_error]
      by_cases hle : c ≤ l.length
      · rw [if_pos hle]
        dsimp only
        cases l with
        | nil => simp at hle; omega
        | cons v l =>
          obtain ⟨c, rfl⟩ : ∃ d, c = d + 1 := ⟨c - 1, by omega⟩
          simp only [List.take_succ_cons, List.isEmpty_cons, Bool.false_eq_true, if_false, List.drop_succ_cons]
          have hp : 0 < (c + 1) * factor := Nat.mul_pos (by omega) hf
          have := ih (min ((c + 1) * factor) maxChunk) (l.drop c) (by omega) (by simp at hn ⊢; omega)
          refine ⟨?_, this.2⟩
          obtain ⟨s, hs⟩ := this.1
          exact ⟨s, by simp [hs]⟩
      · rw [if_neg hle]
        exact ⟨List.nil_prefix, rfl⟩
  exact key _ _ _ hc (by simp)

/-- **C147_sizes**: the first request asks for `chunk` elements, each one after it for `factor` times as many as the one before,
but no more than `max_chunk`. -/
theorem C147_sizes (it : Iter V E) (chunk maxChunk factor : Nat) (t : Trace V E)
    (h : buffiter it chunk maxChunk factor = some t) (i k : Nat) (hk : t.counts[i]? = some k) :
    k = if i = 0 then chunk else min (chunk * factor ^ i) maxChunk := by
  unfold buffiter at h
  split at h
  · cases h
  · cases h
    rw [loop_counts _ _ (by omega) _ _ _ _ _ _ hk]
    cases i <;> simp [asked]

/-- **C147_factor**: a factor below one is refused. -/
theorem C147_factor (it : Iter V E) (chunk maxChunk factor : Nat) : buffiter it chunk maxChunk factor = none ↔ factor = 0 := by
  unfold buffiter
  split <;> simp <;> omega

/-- Elements that come before an exception are lost if they are read in the same chunk; reading one by one gives them. -/
theorem C147_lost_violated :
    buffiter (⟨[1, 2, 3], some 'e'⟩ : Iter Nat Char) 10 1000 2 = some ⟨[10], [], .raised 'e'⟩ ∧
    buffiter (⟨[1, 2, 3], some 'e'⟩ : Iter Nat Char) 1 1 1 = some ⟨[1, 1, 1, 1], [1, 2, 3], .raised 'e'⟩ := by decide

/-- With a size of zero the elements are left out, without an exception; the first chunk can be larger than the maximum. -/
theorem C147_zero_violated :
    buffiter (⟨[1, 2, 3], none⟩ : Iter Nat Char) 0 1000 2 = some ⟨[0], [], .done⟩ ∧
    buffiter (⟨[1, 2, 3], none⟩ : Iter Nat Char) 2 0 2 = some ⟨[2, 0], [1, 2], .done⟩ ∧
    buffiter (⟨[1, 2, 3], none⟩ : Iter Nat Char) 10 2 2 = some ⟨[10, 2], [1, 2, 3], .done⟩ := by decide

example : buffiter (⟨[1, 2, 3, 4, 5, 6, 7, 8], none⟩ : Iter Nat Char) 1 3 2 =
    some ⟨[1, 2, 3, 3, 3], [1, 2, 3, 4, 5, 6, 7, 8], .done⟩ := by decide
example : buffiter (⟨[1, 2, 3, 4], some 'e'⟩ : Iter Nat Char) 1 5 2 = some ⟨[1, 2, 4], [1, 2, 3], .raised 'e'⟩ := by decide

/-! ## Restricted objects -/

/-- What the other side can do. -/
inductive Access (V : Type)
  | get (n : String)
  | set (n : String) (v : V)

/-- The accesses one after the other: what each gives, and the object in the end. -/
def accesses (attrs : List String) (wattrs : Option (List String)) : Obj V → List (Access V) → List (Out V) × Obj V
  | o, [] => ([], o)
  | o, .get n :: as => let r := accesses attrs wattrs o as; (read attrs o n :: r.1, r.2)
  | o, .set n v :: as =>
    let w := write attrs wattrs o n v
    let r := accesses attrs wattrs w.2 as
    (w.1 :: r.1, r.2)

/-- **C147_unseen**: what the other side sees does not depend on attributes that are not exposed for reading. -/
theorem C147_unseen (attrs : List String) (wattrs : Option (List String)) (o p : Obj V) (as : List (Access V))
    (h : ∀ n ∈ attrs, o n = p n) : (accesses attrs wattrs o as).1 = (accesses attrs wattrs p as).1 := by
  induction as generalizing o p with
  | nil => rfl
  | cons a as ih =>
    cases a with
    | get n =>
      have : read attrs o n = read attrs p n := by
        by_cases hn : n ∈ attrs
        · simp [read, h n hn]
        · simp [read, hn]
      simp only [accesses, this, ih o p h]
    | set n v =>
      by_cases hn : n ∈ writable attrs wattrs
      · simp only [accesses, write, hn, not_true, if_false]
        rw [ih _ (fun m => if m = n then some v else p m) (fun m hm => by by_cases e : m = n <;> simp [e, h m hm])]
      · simp only [accesses, write, hn, not_false_eq_true, if_true, ih o p h]

/-- **C147_unchanged**: attributes that are not exposed for writing are not changed; if none are given for writing, these are those
exposed for reading. -/
theorem C147_unchanged (attrs : List String) (wattrs : Option (List String)) (o : Obj V) (as : List (Access V)) (n : String)
    (h : n ∉ wattrs.getD attrs) : (accesses attrs wattrs o as).2 n = o n := by
  have hw : writable attrs wattrs = wattrs.getD attrs := by cases wattrs <;> rfl
  induction as generalizing o with
  | nil => rfl
  | cons a as ih =>
    cases a with
    | get m => exact ih o
    | set m v =>
      simp only [accesses]
      rw [ih]
      by_cases hm : m ∈ wattrs.getD attrs
      · have hne : n ≠ m := fun e => h (e ▸ hm)
        simp [write, hw, hm, hne]
      · simp [write, hw, hm]

/-- **C147_through**: exposed attributes are read and written as they are; everything else is refused. -/
theorem C147_through (attrs : List String) (wattrs : Option (List String)) (o : Obj V) (n : String) :
    (∀ v, n ∈ attrs → o n = some v → read attrs o n = .value v) ∧
    (n ∉ attrs ∨ o n = none → read attrs o n = .attributeError) ∧
    (∀ v, n ∈ wattrs.getD attrs → (write attrs wattrs o n v).1 = .done ∧ (write attrs wattrs o n v).2 n = some v) ∧
    (∀ v, n ∉ wattrs.getD attrs → (write attrs wattrs o n v).1 = .attributeError) := by
  have hw : writable attrs wattrs = wattrs.getD attrs := by cases wattrs <;> rfl
  refine ⟨fun v h e => by simp [read, h, e], fun h => ?_, fun v h => by simp [write, hw, h], fun v h => by simp [write, hw, h]⟩
  by_cases hn : n ∈ attrs
  · simp [read, hn, h.resolve_left (fun x => x hn)]
  · simp [read, hn]

/-- An object with three attributes. -/
def sample : Obj Nat := fun n => if n = "a" then some 1 else if n = "b" then some 2 else if n = "c" then some 3 else none

example : (accesses ["a"] (some ["b"]) sample [.get "a", .get "b", .set "a" 5, .set "b" 7, .get "c"]).1 =
    [.value 1, .attributeError, .attributeError, .done, .attributeError] ∧
    (accesses ["a"] (some ["b"]) sample [.get "a", .get "b", .set "a" 5, .set "b" 7, .get "c"]).2 "b" = some 7 := by decide
example : (accesses ["a"] none sample [.set "a" 5, .get "a"]).1 = [.done, .value 5] ∧
    (accesses ["a"] (some []) sample [.set "a" 5, .get "a"]).1 = [.attributeError, .value 1] := by decide

end Verif.Helpers
