import Verif.Model.Shared
import Verif.Model.Text
import Verif.Lemmas.Sort

/-! # C141: what validators share does not change what they report -/

namespace Verif.Shared

open Verif.Path (Str)

variable {V : Type} [DecidableEq V]

/-! ## Specification -/

/-- The units, in the order of the providers, for which reading the attribute gives the value. -/
def bearers (ps : List (List (Unit V))) (prop : Str) (v : V) : List (Unit V) :=
  ps.flatten.filter fun u => decide (u.attr prop = .value v)

/-- Reading the attribute raises an exception for no unit but `AttributeError`. -/
def Readable (ps : List (List (Unit V))) (prop : Str) : Prop := ∀ us ∈ ps, ∀ u ∈ us, u.attr prop ≠ .raises

/-- Nothing is assigned to the list of providers. -/
def Op.asks : Op V → Prop
  | .assign _ => False
  | _ => True

/-! ## The value map -/

theorem find_add (m : ValueMap V) (v w : V) (u : Unit V) :
    (m.add v u).find w = if v = w then some ((m.find w).getD [] ++ [u]) else m.find w := by
  induction m with
  | nil => by_cases h : v = w <;> simp [ValueMap.add, ValueMap.find, h]
  | cons e m ih =>
    obtain ⟨x, us⟩ := e
    by_cases hx : x = v
    · subst hx
      by_cases h : x = w <;> simp [ValueMap.add, ValueMap.find, h]
    · by_cases h : v = w
      · subst h
        simp [ValueMap.add, ValueMap.find, hx, ih]
      · simp [ValueMap.add, ValueMap.find, hx, ih, h]

/-- What a list of units is under which a value can be found. -/
def entry (l : List (Unit V)) : Option (List (Unit V)) := if l = [] then none else some l

theorem fill_spec (prop : Str) (us done : List (Unit V)) (m : ValueMap V)
    (hm : ∀ v, m.find v = entry (done.filter fun u => decide (u.attr prop = .value v))) :
    (if ∀ u ∈ us, u.attr prop ≠ .raises then
      ∃ m', fill prop m us = some m' ∧
        ∀ v, m'.find v = entry ((done ++ us).filter fun u => decide (u.attr prop = .value v))
    else fill prop m us = none) := by
  induction us generalizing m done with
  | nil => simpa [fill] using hm
  | cons u us ih =>
    cases hu : u.attr prop with
    | raises => simp [fill, hu]
    | missing =>
      have h := ih (done ++ [u]) m (by
        intro v
        rw [hm v, List.filter_append]
        simp [hu])
      simp only [fill, hu]
      simpa [hu] using h
    | value x =>
      have h := ih (done ++ [u]) (m.add x u) (by
        intro v
        rw [find_add, hm v, List.filter_append]
        by_cases hx : x = v
        · subst hx
          simp only [entry, if_true]
          split <;> simp_all
        · simp [hu, hx])
      simp only [fill, hu]
      simpa [hu] using h

theorem valueMap_spec (c : Context V) (field : Str) :
    (Readable c.providers (field2prop field) →
      ∃ m, computeValueMap c field = some m ∧
        ∀ v, m.find v = entry (bearers c.providers (field2prop field) v)) ∧
    (¬ Readable c.providers (field2prop field) → computeValueMap c field = none) := by
  have h := fill_spec (field2prop field) c.providers.flatten [] [] (by intro v; rfl)
  have e : (∀ u ∈ c.providers.flatten, u.attr (field2prop field) ≠ .raises) ↔ Readable c.providers (field2prop field) := by
    constructor
    · intro h us hus u hu; exact h u (List.mem_flatten.2 ⟨us, hus, hu⟩)
    · intro h u hu
      obtain ⟨us, hus, hu⟩ := List.mem_flatten.1 hu
      exact h us hus u hu
  constructor
  · intro hr
    rw [if_pos (e.2 hr)] at h
    exact h
  · intro hr
    rw [if_neg (fun x => hr (e.1 x))] at h
    exact h

/-! ## The cache -/

theorem keyOf_inj {f g : Str} (h : keyOf f = keyOf g) : f = g :=
  List.append_cancel_left (List.append_cancel_right h)

omit [DecidableEq V] in
theorem cached_append (key : Str) (l r : List (Str × ValueMap V)) :
    cached key (l ++ r) = (cached key l).or (cached key r) := by
  induction l with
  | nil => simp [cached]
  | cons e l ih =>
    obtain ⟨k, m⟩ := e
    by_cases h : k = key <;> simp [cached, h, ih]

/-- Whatever is in the cache is what would be computed now. -/
def Sound (ps : List (List (Unit V))) (c : Context V) : Prop :=
  c.providers = ps ∧ ∀ f m, cached (keyOf f) c.cache = some m → computeValueMap (Context.new ps) f = some m

theorem computeValueMap_new {ps : List (List (Unit V))} {c : Context V} (h : c.providers = ps) (f : Str) :
    computeValueMap c f = computeValueMap (Context.new ps) f := by subst h; rfl

theorem shared_sound {ps : List (List (Unit V))} {c : Context V} (h : Sound ps c) (f : Str) :
    Sound ps (computeShared c (keyOf f) (computeValueMap · f)).1 ∧
      (computeShared c (keyOf f) (computeValueMap · f)).2 = computeValueMap (Context.new ps) f := by
  unfold computeShared
  cases hc : cached (keyOf f) c.cache with
  | some m => exact ⟨h, (h.2 f m hc).symm⟩
  | none =>
    dsimp only
    rw [computeValueMap_new h.1]
    cases hm : computeValueMap (Context.new ps) f with
    | none => exact ⟨h, rfl⟩
    | some m =>
      refine ⟨⟨h.1, ?_⟩, rfl⟩
      intro g m' hg
      dsimp only at hg
      rw [cached_append] at hg
      cases hg' : cached (keyOf g) c.cache with
      | some m'' =>
        rw [hg'] at hg
        exact h.2 g m' (by rw [hg']; exact hg)
      | none =>
        rw [hg'] at hg
        simp only [Option.none_or, cached] at hg
        by_cases hk : keyOf f = keyOf g
        · rw [if_pos hk] at hg
          have := keyOf_inj hk
          subst this
          rw [hm]; exact hg
        · rw [if_neg hk] at hg
          cases hg

theorem new_sound (ps : List (List (Unit V))) : Sound ps (Context.new ps) :=
  ⟨rfl, fun _ _ h => by simp [Context.new, cached] at h⟩

/-- Unique, as a function of the map that is given to it. -/
def uniqueWith (u : Unit V) (field : Str) (m : Option (ValueMap V)) : Option (List (Issue V)) :=
  match m with
  | none => none
  | some m =>
    match u.attr (field2prop field) with
    | .value v =>
      match m.find v with
      | none => none
      | some us =>
        if us.length > 1 then
          some [.clash (Sort.sortBy (fun a b => decide (sortKey u us a ≤ sortKey u us b)) us) (us.length - 1)
            (us.filter fun o => o.ident ≠ u.ident)]
        else some []
    | _ => none

theorem unique_eq (c : Context V) (u : Unit V) (field : Str) :
    unique c u field = ((computeShared c (keyOf field) (computeValueMap · field)).1,
      uniqueWith u field (computeShared c (keyOf field) (computeValueMap · field)).2) := by
  unfold unique uniqueWith
  generalize computeShared c (keyOf field) (computeValueMap · field) = r
  obtain ⟨c', m⟩ := r
  cases m with
  | none => rfl
  | some m =>
    dsimp only
    cases u.attr (field2prop field) with
    | value v =>
      dsimp only
      cases m.find v with
      | none => rfl
      | some us => dsimp only; split <;> rfl
    | missing => rfl
    | raises => rfl

/-- The same for references. -/
def referencesWith (refs : Option (List V)) (cs : Unit V → List (Bool × Bool)) (m : Option (ValueMap V)) :
    Option (List (Issue V)) :=
  match m with
  | none => none
  | some m =>
    match refs with
    | none => some [.wrong]
    | some l => some (l.flatMap (refIssues m cs))

theorem references_eq (c : Context V) (refs : Option (List V)) (cs : Unit V → List (Bool × Bool)) :
    references c refs cs = ((computeShared c (keyOf "id".toList) (computeValueMap · "id".toList)).1,
      referencesWith refs cs (computeShared c (keyOf "id".toList) (computeValueMap · "id".toList)).2) := by
  unfold references referencesWith
  generalize computeShared c (keyOf "id".toList) (computeValueMap · "id".toList) = r
  obtain ⟨c', m⟩ := r
  cases m with
  | none => rfl
  | some m => cases refs <;> rfl

theorem step_sound {ps : List (List (Unit V))} {c : Context V} (h : Sound ps c) {o : Op V} (ho : o.asks) :
    Sound ps (step c o).1 ∧ (step c o).2 = (step (Context.new ps) o).2 := by
  cases o with
  | assign _ => exact ho.elim
  | unique u f =>
    have hn := shared_sound (new_sound ps) f
    have hc := shared_sound h f
    simp only [step, unique_eq]
    exact ⟨hc.1, by rw [hc.2, hn.2]⟩
  | references r cs =>
    have hn := shared_sound (new_sound ps) "id".toList
    have hc := shared_sound h "id".toList
    simp only [step, references_eq]
    exact ⟨hc.1, by rw [hc.2, hn.2]⟩

theorem run_sound {ps : List (List (Unit V))} {c : Context V} (h : Sound ps c) {os : List (Op V)}
    (ho : ∀ o ∈ os, o.asks) :
    Sound ps (run c os).1 ∧ (run c os).2 = os.map fun o => (step (Context.new ps) o).2 := by
  induction os generalizing c with
  | nil => exact ⟨h, rfl⟩
  | cons o os ih =>
    have h1 := step_sound h (ho o (by simp))
    have h2 := ih h1.1 (fun x hx => ho x (by simp [hx]))
    exact ⟨h2.1, by simp only [run, List.map_cons]; rw [h1.2, h2.2]⟩

/-! ## Property -/

/-- **C141**: as long as nothing is assigned to the list of providers, each validator reports what it would report with
a context of its own, whatever was checked before. Missing: providers that are assigned, see `C141_stale_violated`. -/
theorem C141_same_partial (ps : List (List (Unit V))) (os : List (Op V)) (ho : ∀ o ∈ os, o.asks) :
    (run (Context.new ps) os).2 = os.map fun o => (step (Context.new ps) o).2 :=
  (run_sound (new_sound ps) ho).2

theorem calls_step (ps : List (List (Unit V))) (hr : ∀ f, Readable ps f) (c : Context V) (h : Sound ps c)
    (hk : ∀ k ∈ c.calls, (cached k c.cache).isSome) (hd : c.calls.Nodup) (f : Str) :
    (∀ k ∈ (computeShared c (keyOf f) (computeValueMap · f)).1.calls,
      (cached k (computeShared c (keyOf f) (computeValueMap · f)).1.cache).isSome) ∧
    (computeShared c (keyOf f) (computeValueMap · f)).1.calls.Nodup := by
  unfold computeShared
  cases hc : cached (keyOf f) c.cache with
  | some m => exact ⟨hk, hd⟩
  | none =>
    dsimp only
    obtain ⟨m, hm, -⟩ := (valueMap_spec c f).1 (h.1 ▸ hr (field2prop f))
    rw [hm]
    dsimp only
    constructor
    · intro k hkm
      rw [cached_append]
      rcases List.mem_append.1 hkm with hkm | hkm
      · have := hk k hkm
        cases he : cached k c.cache with
        | none => rw [he] at this; cases this
        | some _ => rfl
      · rw [List.mem_singleton.1 hkm, hc]
        simp [cached]
    · rw [List.nodup_append]
      refine ⟨hd, by simp, ?_⟩
      intro a ha b hb e
      rw [List.mem_singleton.1 hb] at e
      subst e
      have := hk _ ha
      rw [hc] at this
      cases this

theorem calls_run (ps : List (List (Unit V))) (hr : ∀ f, Readable ps f) (os : List (Op V)) (ho : ∀ o ∈ os, o.asks)
    (c : Context V) (h : Sound ps c) (hk : ∀ k ∈ c.calls, (cached k c.cache).isSome) (hd : c.calls.Nodup) :
    (run c os).1.calls.Nodup := by
  induction os generalizing c with
  | nil => exact hd
  | cons o os ih =>
    have hs := step_sound h (ho o (by simp))
    have ho' : ∀ x ∈ os, Op.asks x := fun x hx => ho x (by simp [hx])
    cases o with
    | assign _ => exact (ho _ (List.mem_cons_self ..)).elim
    | unique u f =>
      have := calls_step ps hr c h hk hd f
      simp only [step, unique_eq] at hs
      simp only [run, step, unique_eq]
      exact ih ho' _ hs.1 this.1 this.2
    | references r cs =>
      have := calls_step ps hr c h hk hd "id".toList
      simp only [step, references_eq] at hs
      simp only [run, step, references_eq]
      exact ih ho' _ hs.1 this.1 this.2

/-- **C141**: if the units can be read, the map of a field is computed at most once, however many units are checked. -/
theorem C141_once (ps : List (List (Unit V))) (hr : ∀ f, Readable ps f) (os : List (Op V)) (ho : ∀ o ∈ os, o.asks) :
    (run (Context.new ps) os).1.calls.Nodup :=
  calls_run ps hr os ho _ (new_sound ps) (by simp [Context.new]) (by simp [Context.new])

/-- **C141**: that the map could not be computed is not kept: the next check computes again. -/
theorem C141_retry (c : Context V) (u : Unit V) (field : Str) (h : cached (keyOf field) c.cache = none)
    (hr : ¬ Readable c.providers (field2prop field)) :
    (unique c u field).2 = none ∧ (unique c u field).1.cache = c.cache ∧
      (unique c u field).1.providers = c.providers ∧ (unique c u field).1.calls = c.calls ++ [keyOf field] := by
  have := (valueMap_spec c field).2 hr
  rw [unique_eq]
  simp [computeShared, h, this, uniqueWith]

/-! ### Values that are not unique -/

omit [DecidableEq V] in
theorem entry_some {l us : List (Unit V)} (h : entry l = some us) : us = l ∧ l ≠ [] := by
  unfold entry at h
  split at h
  · cases h
  · rename_i hl; cases h; exact ⟨rfl, hl⟩

omit [DecidableEq V] in
/-- In a list of units with different checksums, the index of what stands first is smaller. -/
theorem indexOf_pairwise (pre l : List (Unit V)) (hd : ((pre ++ l).map (·.checksum)).Nodup) :
    l.Pairwise fun a b => indexOf a (pre ++ l) < indexOf b (pre ++ l) := by
  induction l generalizing pre with
  | nil => exact List.Pairwise.nil
  | cons a l ih =>
    have e : pre ++ a :: l = (pre ++ [a]) ++ l := by simp
    rw [List.pairwise_cons]
    refine ⟨?_, by rw [e]; exact ih _ (e ▸ hd)⟩
    have idx : ∀ (p r : List (Unit V)) (x : Unit V), ((p ++ x :: r).map (·.checksum)).Nodup →
        indexOf x (p ++ x :: r) = p.length := by
      intro p
      induction p with
      | nil => intro r x _; simp [indexOf]
      | cons y p ihp =>
        intro r x hx
        simp only [List.cons_append, List.map_cons, List.nodup_cons] at hx
        have : y.checksum ≠ x.checksum := fun e => hx.1 (by rw [e]; simp)
        simp [indexOf, this, ihp r x hx.2]
    intro b hb
    obtain ⟨l1, l2, rfl⟩ := List.append_of_mem hb
    rw [idx pre _ a hd]
    have e2 : pre ++ a :: (l1 ++ b :: l2) = (pre ++ a :: l1) ++ b :: l2 := by simp
    rw [e2, idx _ _ b (e2 ▸ hd)]
    simp

omit [DecidableEq V] in
theorem filter_split {α : Type} (k : α → Nat) (l : List α) (h : l.Pairwise fun a b => k a ≤ k b) :
    l = (l.filter fun a => decide (k a = 0)) ++ l.filter fun a => decide (k a ≠ 0) := by
  induction l with
  | nil => rfl
  | cons a l ih =>
    rw [List.pairwise_cons] at h
    by_cases ha : k a = 0
    · simp only [ha, List.filter_cons, decide_true, if_true, ne_eq, not_true, decide_false]
      simpa using ih h.2
    · have hn : (l.filter fun b => decide (k b = 0)) = [] := by
        rw [List.filter_eq_nil_iff]
        intro b hb he
        have := h.1 b hb
        have : k b = 0 := by simpa using he
        omega
      have := ih h.2
      rw [hn, List.nil_append] at this
      rw [List.filter_cons_of_neg (by simpa using ha), List.filter_cons_of_pos (by simpa using ha), hn, ← this]
      rfl

omit [DecidableEq V] in
theorem sortKey_zero (u a : Unit V) (l : List (Unit V)) : sortKey u l a = 0 ↔ a.ident = u.ident := by
  unfold sortKey
  split <;> simp_all

omit [DecidableEq V] in
theorem sorted_pairwise (u : Unit V) (l : List (Unit V)) :
    (Sort.sortBy (fun a b => decide (sortKey u l a ≤ sortKey u l b)) l).Pairwise
      fun a b => sortKey u l a ≤ sortKey u l b := by
  have := Sort.sortBy_sorted (le := fun a b => decide (sortKey u l a ≤ sortKey u l b))
    (by intro a b; simp only [decide_eq_true_eq]; omega)
    (by intro a b c; simp only [decide_eq_true_eq]; omega) l
  exact this.imp (by intro a b h; simpa using h)

omit [DecidableEq V] in
theorem sort_front (u : Unit V) (l : List (Unit V)) (hd : (l.map (·.checksum)).Nodup) :
    Sort.sortBy (fun a b => decide (sortKey u l a ≤ sortKey u l b)) l =
      l.filter (fun a => decide (a.ident = u.ident)) ++ l.filter fun a => decide (a.ident ≠ u.ident) := by
  have hs := sorted_pairwise u l
  have hp := Sort.sortBy_perm (le := fun a b => decide (sortKey u l a ≤ sortKey u l b)) l
  have hf := Sort.sortBy_filter (le := fun a b => decide (sortKey u l a ≤ sortKey u l b))
    (fun a => decide (a.ident = u.ident)) (by
      intro a b ha hb
      have ha := (sortKey_zero u a l).2 (by simpa using ha)
      simp [ha]) l
  generalize Sort.sortBy (fun a b => decide (sortKey u l a ≤ sortKey u l b)) l = s at *
  rw [filter_split (sortKey u l) s hs]
  simp only [sortKey_zero]
  rw [hf]
  congr 1
  have hlt : l.Pairwise fun a b => indexOf a l < indexOf b l := indexOf_pairwise [] l hd
  have key : ∀ a : Unit V, a ∈ (l.filter fun a => decide (a.ident ≠ u.ident)) → sortKey u l a = indexOf a l + 1 := by
    intro a ha
    have : a.ident ≠ u.ident := by simpa using (List.mem_filter.1 ha).2
    simp [sortKey, this]
  have hk : (s.filter fun a => decide (sortKey u l a ≠ 0)) = s.filter fun a => decide (a.ident ≠ u.ident) := by
    simp only [ne_eq, sortKey_zero]
  rw [hk]
  have hq := hp.filter fun a => decide (a.ident ≠ u.ident)
  refine List.Perm.eq_of_pairwise (le := fun a b => sortKey u l a ≤ sortKey u l b) ?_ (hs.filter _) ?_ hq
  · intro a b ha hb hab hba
    have ha' := hq.mem_iff.1 ha
    rw [key a ha', key b hb] at hab hba
    have hi : indexOf a l = indexOf b l := by omega
    obtain ⟨l1, l2, e⟩ := List.append_of_mem (List.mem_filter.1 hb).1
    have hal := (List.mem_filter.1 ha').1
    rw [e, List.pairwise_append, List.pairwise_cons] at hlt
    rw [e, List.mem_append, List.mem_cons] at hal
    rw [← e] at hlt
    rcases hal with h | h | h
    · have := hlt.2.2 a h b (by simp); omega
    · exact h
    · have := hlt.2.1.1 a h; omega
  · refine (hlt.filter _).imp_of_mem ?_
    intro a b ha hb h
    rw [key a ha, key b hb]
    omega

theorem run_last (ps : List (List (Unit V))) (pre : List (Op V)) (hp : ∀ o ∈ pre, o.asks) (o : Op V) (ho : o.asks) :
    (run (Context.new ps) (pre ++ [o])).2.getLast? = some (step (Context.new ps) o).2 := by
  rw [C141_same_partial ps _ (by
    intro x hx
    rcases List.mem_append.1 hx with h | h
    · exact hp x h
    · rw [List.mem_singleton.1 h]; exact ho)]
  simp

/-- **C141**: whatever was checked before, a unit of the context with a value that no other unit of the context has is
found to be unique. -/
theorem C141_unique (ps : List (List (Unit V))) (pre : List (Op V)) (hp : ∀ o ∈ pre, o.asks) (u : Unit V) (field : Str)
    (v : V) (hr : Readable ps (field2prop field)) (hv : u.attr (field2prop field) = .value v)
    (h1 : bearers ps (field2prop field) v = [u]) :
    (run (Context.new ps) (pre ++ [.unique u field])).2.getLast? = some (some []) := by
  rw [run_last ps pre hp (.unique u field) trivial]
  obtain ⟨m, hm, hf⟩ := (valueMap_spec (Context.new ps) field).1 hr
  have hs := (shared_sound (new_sound ps) field).2
  have hf := hf v
  simp only [Context.new] at hf
  rw [h1] at hf
  simp only [step, unique_eq, hs, hm, uniqueWith, hv, hf]
  simp [entry]

omit [DecidableEq V] in
theorem field2prop_cons (c : Char) (l : Str) : field2prop (c :: l) = (if c = '-' then '_' else c) :: field2prop l := rfl

omit [DecidableEq V] in
theorem field2prop_id {l : Str} (h : '-' ∉ l) : field2prop l = l := by
  induction l with
  | nil => rfl
  | cons c l ih =>
    simp only [List.mem_cons, not_or] at h
    rw [field2prop_cons, ih h.2, if_neg (fun e => h.1 e.symm)]

/-- **C141**: the property that is read for a field has the words of the field, with an underscore wherever the field has a
dash. -/
theorem C141_field (words : List Str) (h : ∀ w ∈ words, '-' ∉ w) :
    field2prop (Text.joinWith '-' words) = Text.joinWith '_' words := by
  induction words with
  | nil => rfl
  | cons w ws ih =>
    cases ws with
    | nil => exact field2prop_id (h w (by simp))
    | cons x xs =>
      have hi := ih (fun y hy => h y (by simp [hy]))
      show field2prop (w ++ '-' :: Text.joinWith '-' (x :: xs)) = w ++ '_' :: Text.joinWith '_' (x :: xs)
      rw [← hi]
      unfold field2prop at hi ⊢
      rw [List.map_append, List.map_cons, if_pos rfl]
      congr 1
      exact field2prop_id (h w (by simp))

example : field2prop "qml-file".toList = "qml_file".toList := by decide +kernel

/-- **C141**: whatever was checked before, if several units of the context have the value, one issue is reported: it has
all of them, the unit that is checked in front, the others in the order of the providers if their definitions differ; the
number is one less than there are, and one is told to look at all but the unit itself. -/
theorem C141_clash (ps : List (List (Unit V))) (pre : List (Op V)) (hp : ∀ o ∈ pre, o.asks) (u : Unit V) (field : Str)
    (v : V) (hr : Readable ps (field2prop field)) (hv : u.attr (field2prop field) = .value v)
    (hu : u ∈ ps.flatten) (h1 : 1 < (bearers ps (field2prop field) v).length) :
    ∃ us, (run (Context.new ps) (pre ++ [.unique u field])).2.getLast? =
        some (some [.clash us ((bearers ps (field2prop field) v).length - 1)
          ((bearers ps (field2prop field) v).filter fun o => decide (o.ident ≠ u.ident))]) ∧
      us.Perm (bearers ps (field2prop field) v) ∧ us.head?.map (·.ident) = some u.ident ∧
      (((bearers ps (field2prop field) v).map (·.checksum)).Nodup →
        us = (bearers ps (field2prop field) v).filter (fun o => decide (o.ident = u.ident)) ++
          (bearers ps (field2prop field) v).filter fun o => decide (o.ident ≠ u.ident)) := by
  rw [run_last ps pre hp (.unique u field) trivial]
  obtain ⟨m, hm, hf⟩ := (valueMap_spec (Context.new ps) field).1 hr
  have hs := (shared_sound (new_sound ps) field).2
  have hf := hf v
  simp only [Context.new] at hf
  have hub : u ∈ bearers ps (field2prop field) v := List.mem_filter.2 ⟨hu, by simpa using hv⟩
  generalize bearers ps (field2prop field) v = l at *
  have hne : l ≠ [] := by intro e; rw [e] at hub; cases hub
  refine ⟨Sort.sortBy (fun a b => decide (sortKey u l a ≤ sortKey u l b)) l, ?_, Sort.sortBy_perm l, ?_, sort_front u l⟩
  · simp only [step, unique_eq, hs, hm, uniqueWith, hv, hf, entry, if_neg hne, if_pos h1]
  · have hs := sorted_pairwise u l
    have hp := Sort.sortBy_perm (le := fun a b => decide (sortKey u l a ≤ sortKey u l b)) l
    generalize Sort.sortBy (fun a b => decide (sortKey u l a ≤ sortKey u l b)) l = s at *
    have hus := hp.mem_iff.2 hub
    cases s with
    | nil => cases hus
    | cons a s =>
      rw [List.pairwise_cons] at hs
      have : sortKey u l a = 0 := by
        rcases List.mem_cons.1 hus with e | h
        · rw [← e]; exact (sortKey_zero u u l).2 rfl
        · have := hs.1 u h
          have := (sortKey_zero u u l).2 rfl
          omega
      simp [(sortKey_zero u a l).1 this]

/-- **C141**: a check ends with an exception exactly if some unit cannot be read, the unit has no value, or no unit of the
context has this value. -/
theorem C141_raises (ps : List (List (Unit V))) (pre : List (Op V)) (hp : ∀ o ∈ pre, o.asks) (u : Unit V) (field : Str) :
    (run (Context.new ps) (pre ++ [.unique u field])).2.getLast? = some none ↔
      ¬ Readable ps (field2prop field) ∨
        ¬ ∃ v, u.attr (field2prop field) = .value v ∧ bearers ps (field2prop field) v ≠ [] := by
  rw [run_last ps pre hp (.unique u field) trivial]
  have hs := (shared_sound (new_sound ps) field).2
  by_cases hr : Readable ps (field2prop field)
  · obtain ⟨m, hm, hf⟩ := (valueMap_spec (Context.new ps) field).1 hr
    simp only [step, unique_eq, hs, hm, uniqueWith]
    cases hu : u.attr (field2prop field) with
    | missing => simp
    | raises => simp
    | value v =>
      have hf := hf v
      simp only [Context.new] at hf
      simp only [hf, entry]
      by_cases he : bearers ps (field2prop field) v = []
      · simp [he]
      · simp only [he, if_false]
        simp only [hr, not_true, false_or]
        have : ∃ w, Got.value v = Got.value w ∧ bearers ps (field2prop field) w ≠ [] := ⟨v, rfl, he⟩
        simp only [this, not_true, iff_false]
        split <;> simp
  · have hm := (valueMap_spec (Context.new ps) field).2 hr
    simp [step, unique_eq, hs, hm, uniqueWith, hr]

/-! ### References -/

/-- What is to be reported for a reference: nothing is there; the constraints that matter and do not hold for the one
unit that is there; or several are there. -/
def verdict (ps : List (List (Unit V))) (cs : Unit V → List (Bool × Bool)) (id : V) : List (Issue V) :=
  match bearers ps "id".toList id with
  | [] => [.unavailable id]
  | [r] => (cs r).zipIdx.filterMap fun (c, n) => if c = (true, false) then some (.constraint id n) else none
  | us => [.several id us]

omit [DecidableEq V] in
theorem constraintIssues_eq (id : V) (n : Nat) (l : List (Bool × Bool)) :
    constraintIssues id n l =
      (l.zipIdx n).filterMap fun (c, n) => if c = (true, false) then some (.constraint id n) else none := by
  induction l generalizing n with
  | nil => rfl
  | cons c l ih =>
    obtain ⟨a, b⟩ := c
    cases a <;> cases b <;> simp [constraintIssues, ih, List.zipIdx_cons]

/-- **C141**: whatever was checked before, a reference is reported if there is no unit with this identifier in the
context, if there are several, and once for each constraint that matters and does not hold for the one that there is. -/
theorem C141_references (ps : List (List (Unit V))) (pre : List (Op V)) (hp : ∀ o ∈ pre, o.asks)
    (refs : Option (List V)) (cs : Unit V → List (Bool × Bool)) :
    (Readable ps "id".toList →
      (run (Context.new ps) (pre ++ [.references refs cs])).2.getLast? =
        some (some (match refs with | none => [.wrong] | some l => l.flatMap (verdict ps cs)))) ∧
    (¬ Readable ps "id".toList →
      (run (Context.new ps) (pre ++ [.references refs cs])).2.getLast? = some none) := by
  rw [run_last ps pre hp (.references refs cs) trivial]
  have e : field2prop "id".toList = "id".toList := by decide
  have hs := (shared_sound (new_sound ps) "id".toList).2
  have h := valueMap_spec (Context.new ps) "id".toList
  rw [e] at h
  constructor
  · intro hr
    obtain ⟨m, hm, hf⟩ := h.1 hr
    simp only [Context.new] at hf
    simp only [step, references_eq, hs, hm, referencesWith]
    cases refs with
    | none => rfl
    | some l =>
      dsimp only
      congr 3
      funext id
      unfold refIssues verdict
      rw [hf id]
      cases bearers ps "id".toList id with
      | nil => rfl
      | cons a t =>
        simp only [entry, reduceCtorEq, if_false]
        cases t with
        | nil => exact constraintIssues_eq id 0 (cs a)
        | cons b t => rfl
  · intro hr
    simp only [step, references_eq, hs, h.2 hr, referencesWith]

/-! ## Examples and violations -/

/-- A unit with an `id`. -/
def unitOf (ident checksum id : Nat) : Unit Nat :=
  ⟨ident, checksum, fun p => if p = "id".toList then .value id else .missing⟩

/-- Two providers; the identifier 7 is used in both. -/
def twoProviders : List (List (Unit Nat)) := [[unitOf 0 10 7, unitOf 1 11 8], [unitOf 2 12 7]]

/-- What can be looked at of a report. -/
def Issue.view : Issue Nat → List Nat
  | .clash us n l => 0 :: n :: us.map (·.ident) ++ 99 :: l.map (·.ident)
  | .wrong => [1]
  | .unavailable i => [2, i]
  | .constraint i n => [3, i, n]
  | .several i us => 4 :: i :: us.map (·.ident)

/-- What can be looked at of a run. -/
def view (c : Context Nat) (os : List (Op Nat)) : List (Option (List (List Nat))) :=
  (run c os).2.map (·.map (·.map Issue.view))

/-- Unique, clashing and referred to: of the unit 2, the clash has it in front. -/
example : view (Context.new twoProviders)
    [.unique (unitOf 1 11 8) "id".toList, .unique (unitOf 2 12 7) "id".toList,
      .references (some [7, 8, 9]) fun _ => [(true, false), (false, false), (true, true)]] =
    [some [], some [[0, 1, 2, 0, 99, 0]], some [[4, 7, 0, 2], [3, 8, 0], [2, 9]]] := by decide +kernel

/-- The map was computed once for these three. -/
example : (run (Context.new twoProviders)
    [.unique (unitOf 1 11 8) "id".toList, .unique (unitOf 2 12 7) "id".toList, .references (some [7]) fun _ => []]).1.calls =
    ["field_value_map[id]".toList] := by decide +kernel

/-- The hypotheses of `C141_once` and `C141_clash` hold for them. -/
example : (∀ f, Readable twoProviders f) ∧ unitOf 2 12 7 ∈ twoProviders.flatten ∧
    (bearers twoProviders (field2prop "id".toList) 7).map (·.ident) = [0, 2] := by
  refine ⟨?_, by simp [twoProviders], by decide +kernel⟩
  intro f us hus u hu
  simp only [twoProviders, List.mem_cons, List.not_mem_nil, or_false] at hus
  rcases hus with rfl | rfl <;> simp only [List.mem_cons, List.not_mem_nil, or_false] at hu
  · rcases hu with rfl | rfl <;> (simp only [unitOf]; split <;> simp)
  · subst hu; simp only [unitOf]; split <;> simp

/-- The hypotheses of `C141_unique`. -/
example : (bearers twoProviders (field2prop "id".toList) 8).map (·.ident) = [1] := by decide +kernel

/-- `C141_retry` and `C141_raises`: a unit that cannot be read. -/
example : (run (Context.new [[⟨0, 0, fun _ => Got.raises⟩, unitOf 1 11 8]])
      [.unique (unitOf 1 11 8) "id".toList, .unique (unitOf 1 11 8) "id".toList]).1.calls =
    ["field_value_map[id]".toList, "field_value_map[id]".toList] ∧
    view (Context.new [[⟨0, 0, fun _ => Got.raises⟩, unitOf 1 11 8]])
      [.unique (unitOf 1 11 8) "id".toList, .unique (unitOf 1 11 8) "id".toList] = [none, none] := by decide +kernel

/-- **C141**, violated: after providers were assigned, what was computed for the old ones is still used: a clash in the
new providers is not seen. -/
theorem C141_stale_violated : ∃ (ps qs : List (List (Unit Nat))) (u : Unit Nat),
    view (Context.new ps) [.unique u "id".toList, .assign qs, .unique u "id".toList] = [some [], some [], some []] ∧
      view (Context.new qs) [.unique u "id".toList] = [some [[0, 1, 0, 1, 99, 1]]] :=
  ⟨[[unitOf 0 10 7]], [[unitOf 0 10 7, unitOf 1 11 7]], unitOf 0 10 7, by decide +kernel⟩

/-- **C141**, violated: a provider that is twice in the list makes its units clash with themselves, with nothing to look
at. -/
theorem C141_itself_violated : ∃ (p : List (Unit Nat)) (u : Unit Nat), p = [u] ∧
    view (Context.new [p, p]) [.unique u "id".toList] = [some [[0, 1, 0, 0, 99]]] :=
  ⟨_, unitOf 0 10 7, rfl, by decide +kernel⟩

/-- **C141**, violated: units that are defined alike stand together in the report, also if another stands between them. -/
theorem C141_order_violated : ∃ (p : List (Unit Nat)) (u : Unit Nat),
    p.map (·.ident) = [0, 1, 2, 3] ∧
      view (Context.new [p]) [.unique u "id".toList] = [some [[0, 3, 3, 0, 2, 1, 99, 0, 1, 2]]] :=
  ⟨[unitOf 0 10 7, unitOf 1 11 7, unitOf 2 10 7, unitOf 3 12 7], unitOf 3 12 7, by decide +kernel⟩

end Verif.Shared
