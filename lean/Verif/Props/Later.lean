import Verif.Model.Later

/-!
# C145: results that arrive later

The specification speaks of what is done with the result, in order, with the time that passes in between; and, for waiting, of
the time at which the answer is got to if messages are handled one after the other.
-/

namespace Verif.Later

variable {V : Type}

/-! ## Specification -/

/-- What can be done with a result, and time that passes. -/
inductive Op (V : Type)
  | add (c : Callback)
  | expiry (t : Option Nat)
  | arrive (x : Bool × V)
  | tick (n : Nat)

/-- The time, the result, and the callbacks called so far, each with what the result held when it was called. -/
structure Hist (V : Type) where
  now : Nat
  res : Result V
  calls : List (Nat × Option (Bool × V))

/-- One thing after the other; exceptions of callbacks are handled by the caller. -/
def step (h : Hist V) : Op V → Hist V
  | .add c => let r := h.res.add c; ⟨h.now, r.1, h.calls ++ r.2.1.map (·, r.1.obj)⟩
  | .expiry t => ⟨h.now, h.res.setExpiry h.now t, h.calls⟩
  | .arrive x => let r := h.res.arrive h.now x; ⟨h.now, r.1, h.calls ++ r.2.1.map (·, r.1.obj)⟩
  | .tick n => ⟨h.now + n, h.res, h.calls⟩

def run (t0 : Nat) (ops : List (Op V)) : Hist V := ops.foldl step ⟨t0, Result.new V, []⟩

/-- How much time passes. -/
def ticks : List (Op V) → Nat
  | [] => 0
  | .tick n :: ops => n + ticks ops
  | _ :: ops => ticks ops

/-- The callbacks that are added. -/
def added : List (Op V) → List Callback
  | [] => []
  | .add c :: ops => c :: added ops
  | _ :: ops => added ops

/-- The answer does not arrive, the expiry is not set. -/
def Quiet (ops : List (Op V)) : Prop := ∀ x, Op.arrive x ∉ ops
def Unset (ops : List (Op V)) : Prop := ∀ t, Op.expiry t ∉ ops

/-- In time: no more time than was given has passed since the expiry was last set, if it was set to one. -/
def InTime (ops : List (Op V)) : Prop :=
  ∀ a b t, ops = a ++ .expiry (some t) :: b → Unset b → ticks b ≤ t

/-- The time at which the answer is got to, if messages are handled one after the other from some time on. -/
def heard : Nat → List (Item V) → Option (Nat × Bool × V)
  | _, [] => none
  | now, i :: q =>
    match i.mine with
    | some x => some (max now i.at_, x)
    | none => heard (max now i.at_ + i.cost) q

/-! ## Arrival and callbacks -/

theorem ticks_append (a b : List (Op V)) : ticks (a ++ b) = ticks a + ticks b := by
  induction a with
  | nil => simp [ticks]
  | cons o a ih => cases o <;> simp [ticks, ih] <;> omega

theorem added_append (a b : List (Op V)) : added (a ++ b) = added a ++ added b := by
  induction a with
  | nil => rfl
  | cons o a ih => cases o <;> simp [added, ih]

theorem snoc_ind {α : Type} {p : List α → Prop} (h0 : p []) (h1 : ∀ l x, p l → p (l ++ [x])) (l : List α) : p l := by
  have : ∀ r : List α, p r.reverse := by
    intro r
    induction r with
    | nil => exact h0
    | cons x r ih => rw [List.reverse_cons]; exact h1 _ _ ih
  simpa using this l.reverse

theorem run_snoc (t0 : Nat) (ops : List (Op V)) (o : Op V) : run t0 (ops ++ [o]) = step (run t0 ops) o := by
  simp [run, List.foldl_append]

/-- The time that was given last, and what has passed since. -/
def Due (ops : List (Op V)) (t0 : Nat) : Option Nat → Prop
  | none => ∀ a b t, ops = a ++ Op.expiry (some t) :: b → ¬ Unset b
  | some d => ∃ a b t, ops = a ++ Op.expiry (some t) :: b ∧ Unset b ∧ d = t0 + ticks a + t

theorem snoc_split {α : Type} {l : List α} {x y : α} {a b : List α} (h : l ++ [x] = a ++ y :: b) :
    (b = [] ∧ l = a ∧ x = y) ∨ ∃ b', b = b' ++ [x] ∧ l = a ++ y :: b' := by
  rcases List.eq_nil_or_concat b with rfl | ⟨b', z, rfl⟩
  · left
    have := List.append_inj' h rfl
    exact ⟨rfl, this.1, by simpa using this.2⟩
  · right
    have h' : l ++ [x] = (a ++ y :: b') ++ [z] := by simpa using h
    have := List.append_inj' h' rfl
    have hz : x = z := by simpa using this.2
    exact ⟨b', by simp [hz], this.1⟩

theorem due_snoc_other {ops : List (Op V)} {t0 : Nat} {o : Op V} (ho : ∀ t, o ≠ .expiry t) :
    ∀ {d}, Due ops t0 d → Due (ops ++ [o]) t0 d
  | none, h => by
    intro a b t e hu
    rcases snoc_split e with ⟨_, _, hx⟩ | ⟨b', rfl, e'⟩
    · exact ho _ hx
    · exact h a b' t e' (fun t' hm => hu t' (List.mem_append_left _ hm))
  | some d, h => by
    obtain ⟨a, b, t, e, hu, hd⟩ := h
    refine ⟨a, b ++ [o], t, by simp [e], ?_, hd⟩
    intro t' hm
    rcases List.mem_append.mp hm with hm | hm
    · exact hu t' hm
    · exact ho t' (List.mem_singleton.mp hm).symm

theorem due_snoc_expiry (ops : List (Op V)) (t0 : Nat) : ∀ t : Option Nat,
    Due (ops ++ [.expiry t]) t0 (t.map (t0 + ticks ops + ·))
  | none => by
    intro a b t e hu
    rcases snoc_split e with ⟨_, _, hx⟩ | ⟨b', rfl, _⟩
    · cases hx
    · exact hu none (by simp)
  | some t => ⟨ops, [], t, rfl, by intro t h; simp at h, rfl⟩

theorem inTime_of_due {ops : List (Op V)} {t0 : Nat} : ∀ {d}, Due ops t0 d →
    (InTime ops ↔ ∀ e, d = some e → t0 + ticks ops ≤ e)
  | none, h => ⟨by simp, fun _ a b t e hu => absurd hu (h a b t e)⟩
  | some d, h => by
    obtain ⟨a, b, t, e, hu, hd⟩ := h
    have key : t0 + ticks ops ≤ d ↔ ticks b ≤ t := by rw [e, ticks_append, hd]; simp [ticks]; omega
    constructor
    · intro hi e' he'
      cases he'
      exact key.mpr (hi a b t e hu)
    · intro hi a' b' t' e' hu'
      have hle := hi d rfl
      -- the last setting is unique
      have huniq : a' = a ∧ t' = t ∧ b' = b := by
        have hh := e.symm.trans e'
        clear e e' hd key hle hi
        induction a generalizing a' with
        | nil =>
          cases a' with
          | nil => simp at hh; exact ⟨rfl, hh.1.symm, hh.2.symm⟩
          | cons z a' =>
            simp at hh
            exact absurd (hh.2 ▸ (by simp : Op.expiry (some t') ∈ a' ++ Op.expiry (some t') :: b')) (hu _)
        | cons y a ih =>
          cases a' with
          | nil =>
            simp at hh
            exact absurd (hh.2 ▸ (by simp : Op.expiry (some t) ∈ a ++ Op.expiry (some t) :: b)) (hu' _)
          | cons z a' =>
            simp at hh
            obtain ⟨h1, h2, h3⟩ := ih a' hh.2
            exact ⟨by rw [h1, hh.1], h2, h3⟩
      obtain ⟨_, rfl, rfl⟩ := huniq
      exact key.mp hle

/-- Until the answer arrives nothing is called. -/
theorem before (t0 : Nat) (ops : List (Op V)) (hq : Quiet ops) :
    (run t0 ops).now = t0 + ticks ops ∧ (run t0 ops).res.ready = false ∧ (run t0 ops).res.obj = none ∧
    (run t0 ops).res.callbacks = added ops ∧ (run t0 ops).calls = [] ∧ Due ops t0 (run t0 ops).res.ttl := by
  induction ops using snoc_ind with
  | h0 => exact ⟨rfl, rfl, rfl, rfl, rfl, by intro a b t e; simp at e⟩
  | h1 ops o ih =>
    obtain ⟨h1, h2, h3, h4, h5, h6⟩ := ih (fun x hm => hq x (List.mem_append_left _ hm))
    rw [run_snoc]
    cases o with
    | add c =>
      refine ⟨?_, ?_, ?_, ?_, ?_, ?_⟩
      · simp [step, h1, ticks_append, ticks]
      · simp [step, Result.add, h2]
      · simp [step, Result.add, h2, h3]
      · simp [step, Result.add, h2, h4, added_append, added]
      · simp [step, Result.add, h2, h5]
      · have := due_snoc_other (o := Op.add c) (by simp) h6
        simpa [step, Result.add, h2] using this
    | expiry t =>
      refine ⟨?_, ?_, ?_, ?_, ?_, ?_⟩
      · simp [step, h1, ticks_append, ticks]
      · cases t <;> simp [step, Result.setExpiry, h2]
      · cases t <;> simp [step, Result.setExpiry, h3]
      · cases t <;> simp [step, Result.setExpiry, h4, added_append, added]
      · simp [step, h5]
      · have := due_snoc_expiry ops t0 t
        cases t <;> simpa [step, Result.setExpiry, h1] using this
    | arrive x => exact absurd (List.mem_append_right _ (List.mem_singleton.mpr rfl)) (hq x)
    | tick n =>
      refine ⟨?_, h2, h3, ?_, h5, due_snoc_other (by simp) h6⟩
      · simp [step, h1, ticks_append, ticks]; omega
      · simp [step, h4, added_append, added]

theorem expired_iff {t0 : Nat} {ops : List (Op V)} (hq : Quiet ops) :
    (run t0 ops).res.expired (run t0 ops).now = false ↔ InTime ops := by
  obtain ⟨h1, h2, _, _, _, h6⟩ := before t0 ops hq
  rw [inTime_of_due h6]
  unfold Result.expired
  rw [h2]
  cases hd : (run t0 ops).res.ttl with
  | none => simp
  | some d => simp [h1]

theorem callAll_fine {cs : List Callback} (h : ∀ c ∈ cs, c.fails = false) : callAll cs = (cs.map (·.id), false) := by
  induction cs with
  | nil => rfl
  | cons c cs ih =>
    simp only [callAll, h c (List.mem_cons_self ..), Bool.false_eq_true, if_false,
      ih (fun c hc => h c (List.mem_cons_of_mem _ hc)), List.map_cons]

/-- After the answer was taken callbacks are called as they are added, and it is kept. -/
theorem after (h : Hist V) (x : Bool × V) (hr : h.res.ready = true) (ho : h.res.obj = some x) (ops : List (Op V))
    (hq : Quiet ops) :
    (ops.foldl step h).res.ready = true ∧ (ops.foldl step h).res.obj = some x ∧
    (ops.foldl step h).calls = h.calls ++ (added ops).map (fun c => (c.id, some x)) := by
  induction ops generalizing h with
  | nil => simp [added, hr, ho]
  | cons o ops ih =>
    have hq' : Quiet ops := fun x hm => hq x (List.mem_cons_of_mem _ hm)
    cases o with
    | add c =>
      have := ih (step h (.add c)) (by simp [step, Result.add, hr]) (by simp [step, Result.add, hr, ho]) hq'
      simpa [step, Result.add, hr, ho, added] using this
    | expiry t =>
      have := ih (step h (.expiry t)) (by cases t <;> simp [step, Result.setExpiry, hr])
        (by cases t <;> simp [step, Result.setExpiry, ho]) hq'
      simpa [step, added] using this
    | arrive x => exact absurd (List.mem_cons_self ..) (hq x)
    | tick n => simpa [step, added] using ih (step h (.tick n)) hr ho hq'

/-- Without an answer nothing is ever called. -/
theorem refused (t0 : Nat) (a : List (Op V)) (x : Bool × V) (b : List (Op V)) (ha : Quiet a) (hb : Quiet b)
    (ht : ¬ InTime a) : (run t0 (a ++ .arrive x :: b)).res.ready = false ∧ (run t0 (a ++ .arrive x :: b)).calls = [] := by
  have he : (run t0 a).res.expired (run t0 a).now = true := by
    cases h : (run t0 a).res.expired (run t0 a).now with
    | true => rfl
    | false => exact absurd ((expired_iff ha).mp h) ht
  obtain ⟨_, h2, _, _, h5, _⟩ := before t0 a ha
  have hs : step (run t0 a) (.arrive x) = run t0 a := by
    simp [step, Result.arrive, he]
  have : run t0 (a ++ .arrive x :: b) = b.foldl step (run t0 a) := by
    rw [run, List.foldl_append, List.foldl_cons]
    show b.foldl step (step (run t0 a) (.arrive x)) = _
    rw [hs]
  rw [this]
  clear this hs he ht ha
  generalize run t0 a = h at h2 h5
  induction b generalizing h with
  | nil => exact ⟨h2, h5⟩
  | cons o b ih =>
    have hb' : Quiet b := fun x hm => hb x (List.mem_cons_of_mem _ hm)
    rw [List.foldl_cons]
    cases o with
    | add c => exact ih hb' _ (by simp [step, Result.add, h2]) (by simp [step, Result.add, h2, h5])
    | expiry t => exact ih hb' _ (by cases t <;> simp [step, Result.setExpiry, h2]) h5
    | arrive x => exact absurd (List.mem_cons_self ..) (hb x)
    | tick n => exact ih hb' _ h2 h5

/-- **C145_taken**: the answer is taken exactly if it is handled in time, counted from when the expiry was last set; it is then
kept, whatever is done afterwards. Otherwise the result does not become ready. -/
theorem C145_taken (t0 : Nat) (a : List (Op V)) (x : Bool × V) (b : List (Op V)) (ha : Quiet a) (hb : Quiet b) :
    (InTime a → (run t0 (a ++ .arrive x :: b)).res.ready = true ∧ (run t0 (a ++ .arrive x :: b)).res.obj = some x) ∧
    (¬ InTime a → (run t0 (a ++ .arrive x :: b)).res.ready = false) := by
  refine ⟨fun ht => ?_, fun ht => (refused t0 a x b ha hb ht).1⟩
  have he := (expired_iff (t0 := t0) ha).mpr ht
  have : run t0 (a ++ .arrive x :: b) = b.foldl step (step (run t0 a) (.arrive x)) := by
    rw [run, List.foldl_append, List.foldl_cons]; rfl
  rw [this]
  have hr : (step (run t0 a) (.arrive x)).res.ready = true ∧ (step (run t0 a) (.arrive x)).res.obj = some x := by
    simp only [step, Result.arrive, he, Bool.false_eq_true, if_false]
    generalize callAll (run t0 a).res.callbacks = r
    obtain ⟨ids, f⟩ := r
    cases f <;> exact ⟨rfl, rfl⟩
  have h := after _ x hr.1 hr.2 b hb
  exact ⟨h.1, h.2.1⟩

/-- **C145_callbacks_partial**: if no callback raises an exception, each one is called exactly once, in the order in which they
were added, before or after the answer, and finds the answer; if the answer comes too late none is called. Missing: callbacks
that raise. -/
theorem C145_callbacks_partial (t0 : Nat) (a : List (Op V)) (x : Bool × V) (b : List (Op V)) (ha : Quiet a) (hb : Quiet b)
    (hf : ∀ c ∈ added a, c.fails = false) :
    (InTime a → (run t0 (a ++ .arrive x :: b)).calls = (added a ++ added b).map fun c => (c.id, some x)) ∧
    (¬ InTime a → (run t0 (a ++ .arrive x :: b)).calls = []) := by
  refine ⟨fun ht => ?_, fun ht => (refused t0 a x b ha hb ht).2⟩
  have he := (expired_iff (t0 := t0) ha).mpr ht
  obtain ⟨_, _, _, h4, h5, _⟩ := before t0 a ha
  have : run t0 (a ++ .arrive x :: b) = b.foldl step (step (run t0 a) (.arrive x)) := by
    rw [run, List.foldl_append, List.foldl_cons]; rfl
  rw [this]
  have hc : (step (run t0 a) (.arrive x)).res.ready = true ∧ (step (run t0 a) (.arrive x)).res.obj = some x ∧
      (step (run t0 a) (.arrive x)).calls = (added a).map fun c => (c.id, some x) := by
    simp only [step, Result.arrive, he, Bool.false_eq_true, if_false, h4, callAll_fine hf, h5, List.nil_append]
    exact ⟨trivial, trivial, by simp⟩
  rw [(after _ x hc.1 hc.2.1 b hb).2.2, hc.2.2, List.map_append]

/-- Before the answer nothing is called. -/
theorem C145_not_before (t0 : Nat) (a : List (Op V)) (ha : Quiet a) :
    (run t0 a).calls = [] ∧ (run t0 a).res.ready = false :=
  ⟨(before t0 a ha).2.2.2.2.1, (before t0 a ha).2.1⟩


/-! ## Waiting -/

/-- Handling a message that is not the answer changes nothing but the time. -/
theorem handle_other (w : World V) (i : Item V) (q : List (Item V)) (h : i.mine = none) :
    w.handle i q = ⟨max w.now i.at_ + i.cost, q, w.res⟩ := by
  simp [World.handle, h]

theorem arrive_obj (r : Result V) (now : Nat) (x : Bool × V) (he : r.expired now = false) :
    (r.arrive now x).1.ready = true ∧ (r.arrive now x).1.obj = some x := by
  simp only [Result.arrive, he, Bool.false_eq_true, if_false]
  generalize callAll r.callbacks = c
  obtain ⟨ids, f⟩ := c
  cases f <;> exact ⟨rfl, rfl⟩

theorem arrive_late (r : Result V) (now : Nat) (x : Bool × V) (he : r.expired now = true) : (r.arrive now x).1 = r := by
  simp [Result.arrive, he]

/-- **C145_forever**: without an expiry waiting ends exactly if the answer comes, and then with it. -/
theorem C145_forever (w : World V) (hr : w.res.ready = false) (ht : w.res.ttl = none) :
    (∀ t x, heard w.now w.queue = some (t, x) → w.value = if x.1 then .raised x.2 else .ret x.2) ∧
    (heard w.now w.queue = none → w.value = .never) := by
  have key : ∀ (q : List (Item V)) (w : World V), w.res.ready = false → w.res.ttl = none →
      (∀ t x, heard w.now q = some (t, x) → (waitForever q w).1 = .done ∧ (waitForever q w).2.res.obj = some x) ∧
      (heard w.now q = none → (waitForever q w).1 = .never) := by
    intro q
    induction q with
    | nil =>
      intro w hr _
      refine ⟨fun t x h => by simp [heard] at h, fun _ => by simp [waitForever, hr]⟩
    | cons i q ih =>
      intro w hr ht
      simp only [waitForever, hr, Bool.false_eq_true, if_false]
      cases hm : i.mine with
      | none =>
        rw [handle_other w i q hm]
        simpa [heard, hm] using ih ⟨max w.now i.at_ + i.cost, q, w.res⟩ hr ht
      | some x =>
        have he : w.res.expired (max w.now i.at_) = false := by simp [Result.expired, hr, ht]
        have ha := arrive_obj w.res (max w.now i.at_) x he
        have hw : waitForever q (w.handle i q) = (.done, w.handle i q) := by
          have : (w.handle i q).res.ready = true := by simp [World.handle, hm, ha.1]
          cases q <;> simp [waitForever, this]
        rw [hw]
        refine ⟨fun t y h => ?_, fun h => by simp [heard, hm] at h⟩
        simp only [heard, hm, Option.some.injEq, Prod.mk.injEq] at h
        obtain ⟨_, rfl⟩ := h
        refine ⟨rfl, ?_⟩
        simp only [World.handle, hm]
        exact ha.2
  have k := key w.queue w hr ht
  have hw : w.wait = waitForever w.queue w := by simp [World.wait, hr, ht]
  constructor
  · intro t x h
    obtain ⟨h1, h2⟩ := k.1 t x h
    rw [World.value, hw]
    generalize waitForever w.queue w = r at h1 h2
    obtain ⟨o, w'⟩ := r
    subst h1
    dsimp only at h2
    obtain ⟨e, v⟩ := x
    cases e <;> simp [h2]
  · intro h
    have h1 := k.2 h
    rw [World.value, hw]
    generalize waitForever w.queue w = r at h1
    obtain ⟨o, w'⟩ := r
    subst h1
    rfl

theorem heard_ge {now : Nat} {q : List (Item V)} {t : Nat} {x : Bool × V} (h : heard now q = some (t, x)) : now ≤ t := by
  induction q generalizing now with
  | nil => simp [heard] at h
  | cons i q ih =>
    cases hm : i.mine with
    | none =>
      simp only [heard, hm] at h
      have := ih h
      omega
    | some y =>
      simp [heard, hm] at h
      omega

theorem heard_at {now : Nat} {i : Item V} {q : List (Item V)} {t : Nat} {x : Bool × V}
    (h : heard now (i :: q) = some (t, x)) : i.at_ ≤ t := by
  cases hm : i.mine with
  | none =>
    simp only [heard, hm] at h
    have := heard_ge h
    omega
  | some y =>
    simp [heard, hm] at h
    omega

/-- What the loop with an expiry gives. -/
theorem until_spec (ttl : Nat) : ∀ (n : Nat) (w : World V), w.res.ready = false → w.res.ttl = some ttl →
    (if ttl ≤ w.now then 1 else w.queue.length + 2) ≤ n →
    (waitUntil ttl n w).1 ≠ .never ∧
    ((waitUntil ttl n w).1 = .timeout → ttl ≤ (waitUntil ttl n w).2.now) ∧
    ((waitUntil ttl n w).1 = .done → ∃ t x, heard w.now w.queue = some (t, x) ∧ t ≤ ttl ∧
      (waitUntil ttl n w).2.res.obj = some x) ∧
    (∀ t x, heard w.now w.queue = some (t, x) → t < ttl → (waitUntil ttl n w).1 = .done)
  | 0, w, _, _, hn => by split at hn <;> omega
  | n + 1, w, hr, ht, hn => by
    -- what one go gives: an answer, another message, or time
    have hmax : w.now + (ttl - w.now) = max w.now ttl := by omega
    unfold waitUntil
    dsimp only
    cases hq : w.queue with
    | nil =>
      have hp : w.poll (ttl - w.now) = { w with now := max w.now ttl } := by simp [World.poll, hq, hmax]
      rw [hp]
      simp only [hr, Bool.false_eq_true, if_false]
      by_cases hl : ttl ≤ w.now
      · simp only [hl, if_true]
        refine ⟨by simp, fun _ => by first | omega | (dsimp only; omega), fun h => by simp at h, fun t x h => by simp [heard] at h⟩
      · simp only [hl, if_false]
        have := until_spec ttl n { w with now := max w.now ttl } hr ht (by
          show (if ttl ≤ max w.now ttl then 1 else w.queue.length + 2) ≤ n
          rw [if_pos (Nat.le_max_right ..)]; simp only [hl, if_false] at hn; omega)
        refine ⟨this.1, this.2.1, fun h => ?_, fun t x h => by simp [heard] at h⟩
        obtain ⟨t, x, h1, _⟩ := this.2.2.1 h
        simp [hq, heard] at h1
    | cons i q =>
      by_cases ha : i.at_ ≤ w.now + (ttl - w.now)
      · have hp : w.poll (ttl - w.now) = w.handle i q := by simp [World.poll, hq, ha]
        rw [hp]
        cases hm : i.mine with
        | some x =>
          by_cases he : ttl < max w.now i.at_
          · -- too late
            have hx : w.res.expired (max w.now i.at_) = true := by
              simp only [Result.expired, hr, ht, Bool.false_eq_true, if_false]; exact decide_eq_true he
            have hh : w.handle i q = ⟨max w.now i.at_ + i.cost, q, w.res⟩ := by
              simp [World.handle, hm, arrive_late _ _ x hx]
            have hl : ttl ≤ w.now := by omega
            rw [hh]
            simp only [hr, Bool.false_eq_true, if_false, hl, if_true]
            refine ⟨by simp, fun _ => by first | omega | (dsimp only; omega), fun h => by simp at h, fun t y h => ?_⟩
            simp [heard, hm] at h
            omega
          · have hx : w.res.expired (max w.now i.at_) = false := by
              simp only [Result.expired, hr, ht, Bool.false_eq_true, if_false]; exact decide_eq_false he
            have ho := arrive_obj w.res _ x hx
            have hh : (w.handle i q).res.ready = true := by simp [World.handle, hm, ho.1]
            simp only [hh, if_true]
            refine ⟨by simp, fun h => by simp at h, fun _ => ⟨max w.now i.at_, x, by simp [heard, hm], by omega, ?_⟩,
              fun _ _ _ _ => by simp⟩
            simp [World.handle, hm, ho.2]
        | none =>
          rw [handle_other w i q hm]
          simp only [hr, Bool.false_eq_true, if_false]
          have hd : heard w.now (i :: q) = heard (max w.now i.at_ + i.cost) q := by simp [heard, hm]
          by_cases hl : ttl ≤ w.now
          · simp only [hl, if_true]
            refine ⟨by simp, fun _ => by first | omega | (dsimp only; omega), fun h => by simp at h, fun t y h hlt => ?_⟩
            rw [hd] at h
            exact absurd (heard_ge h) (by omega)
          · simp only [hl, if_false]
            rw [hd]
            exact until_spec ttl n ⟨max w.now i.at_ + i.cost, q, w.res⟩ hr ht (by
              simp only [hl, if_false, hq] at hn; simp at hn ⊢; split <;> omega)
      · have hp : w.poll (ttl - w.now) = { w with now := max w.now ttl } := by
          rw [World.poll, hq]
          show (if _ then _ else _) = _
          rw [if_neg ha, hmax]
        rw [hp]
        simp only [hr, Bool.false_eq_true, if_false]
        by_cases hl : ttl ≤ w.now
        · simp only [hl, if_true]
          refine ⟨by simp, fun _ => by first | omega | (dsimp only; omega), fun h => by simp at h, fun t x h hlt => ?_⟩
          exact absurd (heard_ge h) (by omega)
        · simp only [hl, if_false]
          have := until_spec ttl n { w with now := max w.now ttl } hr ht (by
            show (if ttl ≤ max w.now ttl then 1 else w.queue.length + 2) ≤ n
            rw [if_pos (Nat.le_max_right ..)]; simp only [hl, if_false] at hn; omega)
          rw [hq] at this ⊢
          dsimp only at this
          refine ⟨this.1, this.2.1, fun h => ?_, fun t x h hlt => ?_⟩
          · obtain ⟨t, x, h1, h2, h3⟩ := this.2.2.1 h
            exact absurd (heard_at h1) (by omega)
          · exact absurd (heard_at h) (by omega)

/-- **C145_wait**: with an expiry waiting always ends. It gives the answer if that is got to before the expiry, only if it is got to
by then, and never another one; otherwise it ends with a timeout, never before the expiry. -/
theorem C145_wait (w : World V) (ttl : Nat) (hr : w.res.ready = false) (ht : w.res.ttl = some ttl) :
    (∀ t x, heard w.now w.queue = some (t, x) → t < ttl → w.value = if x.1 then .raised x.2 else .ret x.2) ∧
    (w.value = .timeout ∨ ∃ t x, heard w.now w.queue = some (t, x) ∧ t ≤ ttl ∧
      w.value = if x.1 then .raised x.2 else .ret x.2) ∧
    (w.wait.1 = .timeout → ttl ≤ w.wait.2.now) := by
  have hw : w.wait = waitUntil ttl (w.queue.length + 2) w := by simp [World.wait, hr, ht]
  have k := until_spec ttl (w.queue.length + 2) w hr ht (by split <;> omega)
  rw [← hw] at k
  obtain ⟨h1, h2, h3, h4⟩ := k
  refine ⟨fun t x h hlt => ?_, ?_, h2⟩
  · obtain ⟨t', x', e, _, ho⟩ := h3 (h4 t x h hlt)
    rw [h] at e
    cases e
    have hd := h4 t x h hlt
    rw [World.value]
    clear h
    generalize w.wait = r at hd ho
    obtain ⟨o, w'⟩ := r
    subst hd
    obtain ⟨e, v⟩ := x
    cases e <;> simp at ho <;> simp [ho]
  · rw [World.value]
    generalize w.wait = r at h1 h3
    obtain ⟨o, w'⟩ := r
    cases o with
    | timeout => exact .inl rfl
    | never => exact absurd rfl h1
    | done =>
      right
      obtain ⟨t, x, e, hle, ho⟩ := h3 rfl
      refine ⟨t, x, e, hle, ?_⟩
      clear e
      obtain ⟨e, v⟩ := x
      cases e <;> simp at ho <;> simp [ho]

/-- **C145_kept**: once the answer is there it is given without waiting, whatever the expiry. -/
theorem C145_kept (w : World V) (x : Bool × V) (hr : w.res.ready = true) (ho : w.res.obj = some x) :
    w.wait = (.done, w) ∧ w.value = if x.1 then .raised x.2 else .ret x.2 := by
  have hw : w.wait = (.done, w) := by simp [World.wait, hr]
  refine ⟨hw, ?_⟩
  rw [World.value, hw]
  obtain ⟨e, v⟩ := x
  cases e <;> simp [ho]

/-- An answer that is there in time is lost if handling another message takes too long. -/
theorem C145_late_violated :
    (World.mk 0 [⟨1, none, 10⟩, ⟨2, some (false, 'x'), 0⟩] { Result.new Char with ttl := some 5 }).value = .timeout := by decide

/-- After an answer was dropped the expiry can be removed, and waiting then never ends. -/
theorem C145_dropped_violated :
    let h := run 0 [.expiry (some 3), .tick 4, .arrive (false, 'x'), .expiry none]
    (World.mk h.now [] h.res).value = .never := by decide

example : (World.mk 0 [⟨1, none, 1⟩, ⟨4, some (true, 'x'), 0⟩] { Result.new Char with ttl := some 5 }).value = .raised 'x' ∧
    heard 0 [⟨1, none, 1⟩, ⟨4, some (true, 'x'), 0⟩] = some (4, true, 'x') := by decide
example : (World.mk 0 [⟨1, none, 1⟩, ⟨6, some (true, 'x'), 0⟩] { Result.new Char with ttl := some 5 }).value = .timeout := by decide
example : (World.mk 0 [⟨1, none, 1⟩, ⟨6, some (false, 'x'), 0⟩] (Result.new Char)).value = .ret 'x' := by decide

/-- A callback that raises an exception keeps those after it from ever being called. -/
theorem C145_raising_violated :
    (run 0 [.add ⟨1, true⟩, .add ⟨2, false⟩, .arrive (false, 'x'), .tick 5]).calls = [(1, some (false, 'x'))] := by decide

example : InTime [.expiry (some 3), Op.add (V := Char) ⟨1, false⟩, .tick 3] ∧
    ¬ InTime [.expiry (some 3), Op.add (V := Char) ⟨1, false⟩, .tick 4] := by
  constructor
  · exact (expired_iff (t0 := 0) (by intro x h; simp at h)).mp rfl
  · exact fun h => absurd ((expired_iff (t0 := 0) (by intro x h; simp at h)).mpr h) (by decide)
example : (run 0 [.expiry (some 3), .add ⟨1, false⟩, .tick 3, .add ⟨2, false⟩, .arrive (true, 'x'), .add ⟨3, true⟩]).calls
    = [(1, some (true, 'x')), (2, some (true, 'x')), (3, some (true, 'x'))] := by decide
example : (run 0 [.expiry (some 3), .add ⟨1, false⟩, .tick 4, .arrive (true, 'x'), .add ⟨3, true⟩]).calls = [] := by decide

end Verif.Later
