import Verif.Lemmas.Netref

/-!
# C80: a remote object stays usable as long as somebody has it, and is released after that

The specification here knows only histories (`List Act`), what each step gives (`Out`), which references were
received and which proxies there are; it does not mention the counters of the code except to say that an object
is or is not in the collection.
-/

set_option linter.unusedSectionVars false

namespace Verif.Netref

variable {O : Type} [DecidableEq O]

/-- The state after a history. -/
def after (l : List (Act O)) : World O := (run l start).1

/-- A history during which the connection stays open. -/
def Open (l : List (Act O)) : Prop := ∀ a ∈ l, a ≠ Act.disconnect

instance (l : List (Act O)) : Decidable (Open l) :=
  decidable_of_iff (l.all fun a => match a with | .disconnect => false | _ => true) (by
    simp only [List.all_eq_true, Open]
    refine ⟨fun h a ha e => ?_, fun h a ha => ?_⟩
    · have := h a ha; rw [e] at this; simp at this
    · have := h a ha; cases a <;> simp_all)

/-- The owner still keeps an object at this address. -/
def Kept (w : World O) (k : Nat) : Prop := ∃ o, getitem w.coll k = some o

/-- Nobody has a reference: no proxy, no reference and no request is on the way. -/
def Quiet (w : World O) (k : Nat) : Prop :=
  (∀ p ∈ w.proxies, p.key ≠ k) ∧ (∀ r ∈ w.refs, r.1 ≠ k) ∧
  ∀ m ∈ w.msgs, (∀ o, m ≠ .use k o) ∧ ∀ c, m ≠ .del k c

theorem good_after {l : List (Act O)} (hl : Open l) : Good (after l) (fun k => hitsOf k l start) := by
  have := Good.run l (Good.start (O := O)) hl
  simpa [after] using this

theorem run_outs {w : World O} {hits : Nat → Nat} : ∀ (l : List (Act O)), Good w hits → (∀ a ∈ l, a ≠ .disconnect) →
    ∀ r ∈ (run l w).2, r ≠ .keyError ∧ ∀ m x, r = .found m x → m = x
  | [], _, _, r, hr => by cases hr
  | a :: l, h, hl, r, hr => by
    simp only [run, List.mem_cons] at hr
    rcases hr with rfl | hr
    · exact h.out a
    · exact run_outs l (h.step a (hl a (List.mem_cons_self ..))) (fun b hb => hl b (List.mem_cons_of_mem _ hb)) r hr

/-- C80: on an open connection every request that uses a remote object reaches exactly the object that was meant,
and no request fails because its object is gone. -/
theorem C80_usable (l : List (Act O)) (hl : Open l) :
    Out.keyError ∉ (run l start).2 ∧ ∀ m x, Out.found m x ∈ (run l start).2 → m = x :=
  ⟨fun h => (run_outs l Good.start hl _ h).1 rfl, fun m x h => (run_outs l Good.start hl _ h).2 m x rfl⟩

/-- The object at address 7 is sent twice, used, dropped with the use still on the way; another object with the
same address is sent and used later. -/
def exUse : List (Act String) :=
  [.box 7 "a", .box 8 "b", .unbox none true, .use 0, .drop 0, .serve, .unbox none false, .serve, .serve,
   .box 7 "c", .unbox none false, .use 1, .use 0, .serve, .serve]

example : Open exUse ∧
    (run exUse start).2.filter (· ≠ .quiet) = [.found "a" "a", .found "a" "a", .found "c" "c", .found "b" "b"] := by
  decide

/-- C80: as long as there is a proxy, or a reference is on its way, the owner keeps the object. -/
theorem C80_alive (l : List (Act O)) (hl : Open l) :
    (∀ p ∈ (after l).proxies, getitem (after l).coll p.key = some p.obj) ∧
    ∀ r ∈ (after l).refs, getitem (after l).coll r.1 = some r.2 := by
  have h := good_after hl
  refine ⟨fun p hp => ?_, fun r hr => ?_⟩
  · have := nprox_pos hp
    have hb := h.bal p.key
    obtain ⟨s, hs⟩ := cnt_pos (c := (after l).coll) (k := p.key) (by omega)
    rw [getitem, hs, Option.map_some, h.prox p s hp hs]
  · have : 1 ≤ nref r.1 (after l).refs := nref_pos (o := r.2) hr
    have hb := h.bal r.1
    obtain ⟨s, hs⟩ := cnt_pos (c := (after l).coll) (k := r.1) (by omega)
    rw [getitem, hs, Option.map_some, h.ref r.1 r.2 s hr hs]

example : (after (exUse.take 4)).proxies = [⟨7, 1, "a"⟩] ∧ (after (exUse.take 4)).refs = [(8, "b")] ∧ Open (exUse.take 4) := by
  decide

/-- C80: proxies and references with the same address mean the same object, so that one found in the cache is the
right one. -/
theorem C80_distinct (l : List (Act O)) (hl : Open l) {p : Proxy O} (hp : p ∈ (after l).proxies) :
    (∀ q ∈ (after l).proxies, q.key = p.key → q.obj = p.obj) ∧ ∀ r ∈ (after l).refs, r.1 = p.key → r.2 = p.obj := by
  obtain ⟨h1, h2⟩ := C80_alive l hl
  have hp' := h1 p hp
  refine ⟨fun q hq e => ?_, fun r hr e => ?_⟩
  · have := h1 q hq
    rw [e, hp'] at this
    exact (Option.some.inj this).symm
  · have := h2 r hr
    rw [e, hp'] at this
    exact (Option.some.inj this).symm

example : (after [Act.box 7 "a", .box 7 "a", .unbox none false, .box 8 "b"]).refs = [(7, "a"), (8, "b")] ∧
    (after [Act.box 7 "a", .box 7 "a", .unbox none false, .box 8 "b"]).proxies = [⟨7, 1, "a"⟩] := by decide

/-- A step in which a reference is received and a proxy is found for it. -/
def Cached (k : Nat) (a : Act O) (w : World O) : Prop :=
  ∃ i inspect o rest p, a = .unbox (some i) inspect ∧ w.refs = (k, o) :: rest ∧ w.proxies[i]? = some p ∧ p.key = k

/-- A history in which no reference to this address is received when there is a proxy for it. -/
def NeverCached (k : Nat) : List (Act O) → World O → Prop
  | [], _ => True
  | a :: l, w => ¬ Cached k a w ∧ NeverCached k l (step a w).1

theorem hit_pos {k : Nat} {a : Act O} {w : World O} : 0 < hit k a w ↔ Cached k a w := by
  constructor
  · intro h
    unfold hit at h
    split at h
    · rename_i i ins k' o rest hr
      split at h
      · rename_i hc
        obtain ⟨rfl, hc⟩ := hc
        cases hp : w.proxies[i]? with
        | none => rw [hp] at hc; simp at hc
        | some p => rw [hp] at hc; exact ⟨i, ins, o, rest, p, rfl, hr, hp, by simpa using hc⟩
      · omega
    · omega
  · rintro ⟨i, ins, o, rest, p, rfl, hr, hp, hk⟩
    simp [hit, hr, hp, hk]

theorem never_hits {k : Nat} : ∀ (l : List (Act O)) (w : World O), NeverCached k l w ↔ hitsOf k l w = 0
  | [], w => by simp [NeverCached, hitsOf]
  | a :: l, w => by
    simp only [NeverCached, hitsOf, never_hits l, ← hit_pos]
    omega

theorem quiet_zero {w : World O} {k : Nat} (h : Quiet w k) : nref k w.refs = 0 ∧ nprox k w.proxies = 0 ∧ ndel k w.msgs = 0 := by
  refine ⟨List.countP_eq_zero.2 fun r hr => ?_, List.countP_eq_zero.2 fun p hp => ?_, List.countP_eq_zero.2 fun m hm => ?_⟩
  · simpa using h.2.1 r hr
  · simpa using h.1 p hp
  · cases m with
    | use => simp [isDel]
    | del i c =>
      simp only [isDel, decide_eq_true_eq]
      intro e
      exact (h.2.2 _ hm).2 c (by rw [e])

theorem kept_iff {w : World O} {k : Nat} : Kept w k ↔ 0 < cnt w.coll k := by
  unfold Kept getitem cnt
  cases w.coll k <;> simp

/-- C80, exactly: when nobody has a reference, the owner has released the object if, and only if, none of its
references was ever received while there was a proxy for it.  Missing from the full claim: the condition. -/
theorem C80_release_partial (l : List (Act O)) (hl : Open l) (k : Nat) (hq : Quiet (after l) k) :
    ¬ Kept (after l) k ↔ NeverCached k l start := by
  have hb := (good_after hl).bal k
  obtain ⟨h1, h2, h3⟩ := quiet_zero hq
  rw [never_hits, kept_iff, hb, h1, h2, h3]
  omega

instance (w : World O) (k : Nat) : Decidable (Quiet w k) :=
  decidable_of_iff
    ((∀ p ∈ w.proxies, p.key ≠ k) ∧ (∀ r ∈ w.refs, r.1 ≠ k) ∧
      ∀ m ∈ w.msgs, (match m with | .use i _ => i | .del i _ => i) ≠ k) (by
    refine and_congr Iff.rfl (and_congr Iff.rfl ⟨fun h m hm => ?_, fun h m hm => ?_⟩)
    · have := h m hm
      refine ⟨fun o e => ?_, fun c e => ?_⟩ <;> (subst e; exact this rfl)
    · have := h m hm
      cases m with
      | use i o => exact fun e => this.1 o (by rw [← e])
      | del i c => exact fun e => this.2 c (by rw [← e]))

example : Quiet (after (exUse.take 9)) 7 ∧ getitem (after (exUse.take 9)).coll 7 = none ∧
    getitem (after (exUse.take 9)).coll 8 = some "b" := by decide

/-- The full claim is violated: an object that was sent twice while its proxy was alive is kept although its proxy
is dead and nothing is on the way, because the count in the request to delete it is ignored. -/
theorem C80_release_violated :
    ∃ l : List (Act String), Open l ∧ Quiet (after l) 7 ∧ Kept (after l) 7 :=
  ⟨[.box 7 "a", .unbox none false, .box 7 "a", .unbox (some 0) false, .drop 0, .serve], by decide, by decide,
    ⟨"a", by decide⟩⟩

/-- C80: after the connection is closed the owner keeps nothing. -/
theorem C80_disconnect (l : List (Act O)) (k : Nat) : ¬ Kept (after (l ++ [.disconnect])) k := by
  have : ∀ (l : List (Act O)) (w : World O), (run (l ++ [.disconnect]) w).1.coll = fun _ => none := by
    intro l
    induction l with
    | nil => intro w; rfl
    | cons a l ih => intro w; exact ih _
  rintro ⟨o, ho⟩
  unfold after at ho
  rw [this] at ho
  cases ho

example : getitem (after exUse).coll 7 = some "c" := by decide

/-! ## Attributes -/

/-- C80: with the default configuration and an object without hooks of its own, the other side can only read
attributes that are exposed or among the safe ones, and can set or delete none. -/
theorem C80_attributes (safe : List (List Char)) (has : List Char → Bool) (kind : Kind) (name : Option (List Char))
    (n : List Char) (h : access (defaults safe) has (fun _ => false) kind name = .done n) :
    kind = .get ∧ ((∃ rest, n = "exposed_".toList ++ rest ∧ has n = true) ∨ (name = some n ∧ n ∈ safe)) := by
  obtain ⟨nm, rfl, hk, _, hc⟩ := access_done h
  refine ⟨(by cases kind <;> first | rfl | cases hk), ?_⟩
  rcases checkAttr_some hc with ⟨_, hh, t, ht⟩ | ⟨h, _⟩ | ⟨_, hs, rfl⟩ | ⟨h, _⟩
  · exact Or.inl ⟨t, ht.symm, hh⟩
  · cases h
  · exact Or.inr ⟨rfl, hs⟩
  · cases h

/-- C80: every exposed attribute can be read, under its short name and under its full name; a safe one under its
name unless an exposed one hides it. -/
theorem C80_exposed (safe : List (List Char)) (has : List Char → Bool) (x : List Char) :
    (has ("exposed_".toList ++ x) = true →
      access (defaults safe) has (fun _ => false) .get (some ("exposed_".toList ++ x)) = .done ("exposed_".toList ++ x) ∧
      (¬ "exposed_".toList <+: x → access (defaults safe) has (fun _ => false) .get (some x) = .done ("exposed_".toList ++ x))) ∧
    (x ∈ safe → x ≠ [] → (∀ y, y = x ∨ y = "exposed_".toList ++ x → "exposed_".toList <+: y → has y = false) →
      access (defaults safe) has (fun _ => false) .get (some x) = .done x) := by
  have hne : ∀ y : List Char, "exposed_".toList ++ y ≠ [] := by
    intro y h
    have := congrArg List.length h
    simp at this
  have hpre : "exposed_".toList.isPrefixOf ("exposed_".toList ++ x) = true :=
    List.isPrefixOf_iff_prefix.2 (List.prefix_append _ _)
  have hne := hne x
  generalize hp : "exposed_".toList = pref at *
  have hd : (defaults safe).pref = pref := hp
  have done : ∀ nm n, checkAttr (defaults safe) has nm = some n → n ≠ [] →
      access (defaults safe) has (fun _ => false) .get (some nm) = .done n := by
    intro nm n hc hn
    simp only [access, hc, Bool.false_eq_true, if_false]
    rw [if_neg]
    rintro (h | h)
    · exact hn h
    · simp [Config.allows, defaults] at h
  refine ⟨fun hh => ⟨done _ _ ?_ hne, fun hx => done _ _ ?_ hne⟩, fun hs hn hh => done _ _ ?_ hn⟩
  · simp only [checkAttr, hd]
    rw [if_pos hpre, hh]
    rfl
  · have : ¬ pref.isPrefixOf x = true := fun e => hx (List.isPrefixOf_iff_prefix.1 e)
    simp only [checkAttr, hd]
    rw [if_neg this, hh]
    rfl
  · simp only [checkAttr, hd]
    have : has (if pref.isPrefixOf x = true then x else pref ++ x) = false := by
      by_cases e : pref.isPrefixOf x = true
      · rw [if_pos e]; exact hh x (Or.inl rfl) (List.isPrefixOf_iff_prefix.1 e)
      · rw [if_neg e]; exact hh _ (Or.inr rfl) (List.prefix_append _ _)
    rw [this]
    simp [defaults, hs]

/-- The object has `exposed_run`, `secret` and `__len__`. -/
def exHas (n : List Char) : Bool := ["exposed_run".toList, "secret".toList, "__len__".toList].contains n

example : (["run", "exposed_run", "secret", "__len__", "__class__", ""].map fun n =>
      access (defaults ["__len__".toList]) exHas (fun _ => false) .get (some n.toList)) =
    [.done "exposed_run".toList, .done "exposed_run".toList, .attributeError, .done "__len__".toList, .attributeError,
     .attributeError] ∧
    access (defaults []) exHas (fun _ => false) .set (some "run".toList) = .attributeError := by decide +kernel

/-- C80: whatever the configuration, unless all attributes are allowed, a private attribute can be reached only if
it is one of the safe ones or exists with the prefix; and a kind of access that is not allowed never happens. -/
theorem C80_private (cfg : Config) (has : List Char → Bool) (kind : Kind) (name : List Char) (n : List Char)
    (h : access cfg has (fun _ => false) kind (some name) = .done n) :
    ((kind = .get → cfg.allowGet = true) ∧ (kind = .set → cfg.allowSet = true) ∧ (kind = .del → cfg.allowDel = true)) ∧
      n ≠ [] ∧ (cfg.allowAll = false → "_".toList <+: n →
      (cfg.allowSafe = true ∧ n ∈ cfg.safe) ∨ (cfg.allowExposed = true ∧ has n = true ∧ cfg.pref <+: n)) := by
  obtain ⟨nm, hnm, hk, hn, hc⟩ := access_done h
  cases hnm
  refine ⟨⟨(by rintro rfl; exact hk), (by rintro rfl; exact hk), (by rintro rfl; exact hk)⟩, hn, fun hall hpriv => ?_⟩
  rcases checkAttr_some hc with ⟨h1, hh, hp⟩ | ⟨h, _⟩ | ⟨h1, hs, rfl⟩ | ⟨_, h, _⟩
  · exact Or.inr ⟨h1, hh, hp⟩
  · rw [hall] at h; cases h
  · exact Or.inl ⟨h1, hs⟩
  · exact absurd hpriv h

example : (["secret", "_secret", "__len__"].map fun n =>
      access { defaults ["__len__".toList] with
        allowPublic := true
        allowSet := true } exHas (fun _ => false) .set (some n.toList)) =
    [.done "secret".toList, .attributeError, .done "__len__".toList] := by decide +kernel

end Verif.Netref
