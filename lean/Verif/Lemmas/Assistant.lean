import Verif.Model.Assistant

/-!
# Lemmas about the session assistant

Statements about what happened before (`Since`), and the invariant of the protocol.
-/

namespace Verif.Assistant

/-! ## Since -/

/-- Something that satisfies `p` happened, and nothing that satisfies `q` happened after it. -/
def Since (p q : Event → Bool) (evs : List Event) : Prop :=
  ∃ a e b, evs = a ++ e :: b ∧ p e = true ∧ ∀ x ∈ b, q x = false

theorem since_nil (p q : Event → Bool) : Since p q [] ↔ False := by
  constructor
  · rintro ⟨a, e, b, h, _⟩; simp at h
  · exact False.elim

theorem since_snoc (p q : Event → Bool) (evs : List Event) (e : Event) :
    Since p q (evs ++ [e]) ↔ p e = true ∨ (Since p q evs ∧ q e = false) := by
  constructor
  · rintro ⟨a, x, b, h, hp, hq⟩
    rcases List.eq_nil_or_concat b with rfl | ⟨b', y, rfl⟩
    · have := List.append_inj' h rfl
      simp only [List.cons.injEq, and_true] at this
      exact .inl (this.2 ▸ hp)
    · rw [List.concat_eq_append] at h hq
      have h' : evs ++ [e] = (a ++ x :: b') ++ [y] := by rw [h]; simp
      obtain ⟨h1, h2⟩ := List.append_inj' h' rfl
      simp only [List.cons.injEq, and_true] at h2
      subst h2
      exact .inr ⟨⟨a, x, b', h1, hp, fun z hz => hq z (by simp [hz])⟩, hq _ (by simp)⟩
  · rintro (h | ⟨⟨a, x, b, rfl, hp, hq⟩, h⟩)
    · exact ⟨evs, e, [], rfl, h, by simp⟩
    · refine ⟨a, x, b ++ [e], by simp, hp, ?_⟩
      intro z hz
      rcases List.mem_append.1 hz with hz | hz
      · exact hq z hz
      · simp only [List.mem_singleton] at hz; exact hz ▸ h

/-- A list of events that does not matter. -/
theorem since_skip (p q : Event → Bool) (evs l : List Event) (h : ∀ e ∈ l, p e = false ∧ q e = false) :
    Since p q (evs ++ l) ↔ Since p q evs := by
  induction l generalizing evs with
  | nil => simp
  | cons e l ih =>
    have e1 : evs ++ e :: l = (evs ++ [e]) ++ l := by simp
    rw [e1, ih _ fun x hx => h x (by simp [hx]), since_snoc]
    simp [h e (by simp)]

theorem since_keep (p q : Event → Bool) (evs l : List Event) (h : ∀ e ∈ l, q e = false) (hs : Since p q evs) :
    Since p q (evs ++ l) := by
  obtain ⟨a, e, b, rfl, hp, hq⟩ := hs
  refine ⟨a, e, b ++ l, by simp, hp, ?_⟩
  intro x hx
  rcases List.mem_append.1 hx with hx | hx
  · exact hq x hx
  · exact h x hx

/-! ## What the properties talk about -/

def isOpened : Event → Bool
  | .opened _ => true
  | _ => false

/-- A test plan was selected or jobs were hand-picked in this session, or it was resumed as one without a
test plan. -/
def Chosen : List Event → Prop :=
  Since (fun e => e = .planned ∨ e = .picked ∨ e = .opened true) (fun e => e = .opened false)

/-- Calls that allow a new run of a job. -/
def renews : Event → Bool
  | .used | .opened _ | .picked | .finished | .booting | .todo => true
  | _ => false

/-- A job ran, and since then there was no call that allows a new run. -/
def Pending : List Event → Prop := Since (fun e => e = .ran) renews

def RanHere : List Event → Prop := Since (fun e => e = .ran) isOpened
def BrokeHere : List Event → Prop := Since (fun e => e = .broke) isOpened

/-- The selection of jobs is complete: `bootstrap`, `finish_bootstrap` or `hand_pick_jobs` did its work in
this session, or it was resumed as one without a test plan, and no finalisation raised since. -/
def Ready : List Event → Prop :=
  Since (fun e => e = .picked ∨ e = .finished ∨ e = .bootstrapped ∨ e = .opened true)
    (fun e => e = .opened false ∨ e = .finalBroke)

/-- The session was finalised when it was ready. -/
def Finalized (evs : List Event) : Prop :=
  ∃ a b, evs = a ++ .final :: b ∧ (∀ e ∈ b, isOpened e = false) ∧ Ready a

theorem finalized_snoc (evs : List Event) (e : Event) :
    Finalized (evs ++ [e]) ↔ (e = .final ∧ Ready evs) ∨ (Finalized evs ∧ isOpened e = false) := by
  constructor
  · rintro ⟨a, b, h, ho, hr⟩
    rcases List.eq_nil_or_concat b with rfl | ⟨b', y, rfl⟩
    · obtain ⟨h1, h2⟩ := List.append_inj' h rfl
      simp only [List.cons.injEq, and_true] at h2
      subst h1
      exact .inl ⟨h2, hr⟩
    · rw [List.concat_eq_append] at h ho
      have h' : evs ++ [e] = (a ++ .final :: b') ++ [y] := by rw [h]; simp
      obtain ⟨h1, h2⟩ := List.append_inj' h' rfl
      simp only [List.cons.injEq, and_true] at h2
      subst h2
      exact .inr ⟨⟨a, b', h1, fun z hz => ho z (by simp [hz]), hr⟩, ho _ (by simp)⟩
  · rintro (⟨rfl, h⟩ | ⟨⟨a, b, rfl, ho, hr⟩, h⟩)
    · exact ⟨evs, [], rfl, by simp, h⟩
    · refine ⟨a, b ++ [e], by simp, ?_, hr⟩
      intro z hz
      rcases List.mem_append.1 hz with hz | hz
      · exact ho z hz
      · simp only [List.mem_singleton] at hz; exact hz ▸ h

theorem finalized_nil : Finalized [] ↔ False := by
  constructor
  · rintro ⟨a, b, h, _⟩; simp at h
  · exact False.elim

theorem finalized_skip (evs l : List Event) (h : ∀ e ∈ l, e ≠ .final ∧ isOpened e = false) :
    Finalized (evs ++ l) ↔ Finalized evs := by
  induction l generalizing evs with
  | nil => simp
  | cons e l ih =>
    have e1 : evs ++ e :: l = (evs ++ [e]) ++ l := by simp
    rw [e1, ih _ fun x hx => h x (by simp [hx]), finalized_snoc]
    simp [h e (by simp)]

/-! ## Phases -/

inductive Phase
  | setup | started | resumed | boot | normal | ended
deriving DecidableEq

/-- The calls of the first phase. -/
def setupCall : Call → Bool
  | .useRepository | .useConfiguration | .useControllers | .selectProviders | .getOldSessions
  | .deleteSessions | .configureRestart | .useStrategy | .startNew | .getResumable | .clearCache
  | .resume => true
  | _ => false

/-- The calls of the other phases, those that come and go apart. -/
def base : Phase → Call → Bool
  | .setup => fun _ => false
  | .started => Assistant.started
  | .resumed => Assistant.resumed
  | .boot => bootable
  | .normal => Assistant.normal
  | .ended => Assistant.ended

/-- What the allowed calls of a phase are. -/
def Fits (ph : Phase) (al : Call → Bool) : Prop :=
  if ph = .setup then (∀ c, al c = true → setupCall c = true) ∧ (al .selectProviders = true ∨ al .startNew = true)
  else (∀ c, c ≠ .runJob → c ≠ .useResult → c ≠ .resume → al c = base ph c) ∧
    (ph ≠ .boot → ph ≠ .normal → al .runJob = false ∧ al .useResult = false) ∧
    (ph = .normal → al .runJob = true ∨ al .useResult = true)

structure Inv (ph : Phase) (st : St) (evs : List Event) : Prop where
  fits : Fits ph st.allowed
  attrs : ph ≠ .setup → st.session = true ∧ st.metadata = true ∧ st.runner = true
  provs : (ph ≠ .setup ∨ st.gen = true ∨ st.allowed .startNew = true ∨ st.allowed .resume = true ∨
    st.allowed .getResumable = true ∨ st.allowed .clearCache = true) → .providers ∈ evs
  cands : st.allowed .resume = true ∨ st.gen = true → st.candidates = true
  chosen : ph = .boot ∨ ph = .normal ∨ ph = .ended → Chosen evs
  pending : st.allowed .runJob = true → ¬Pending evs
  ran : ph = .started ∨ ph = .resumed ∨ ph = .setup → ¬RanHere evs
  broke : ph = .boot → RanHere evs → BrokeHere evs
  unready : ph = .started ∨ ph = .resumed ∨ ph = .boot ∨ ph = .setup → ¬Ready evs
  ready : ph = .normal → Ready evs → st.incomplete = true
  final : ph ≠ .ended → ¬Finalized evs
  permit : ph = .boot → st.allowed .runJob = true ∨ st.allowed .useResult = true → BrokeHere evs

/-- Where a call is allowed. -/
theorem Fits.phase {ph : Phase} {al : Call → Bool} (h : Fits ph al) {c : Call} (hc : al c = true) :
    (ph = .setup ∧ setupCall c = true) ∨
    (ph ≠ .setup ∧ (base ph c = true ∨ c = .resume ∨ ((c = .runJob ∨ c = .useResult) ∧ (ph = .boot ∨ ph = .normal)))) := by
  unfold Fits at h
  split at h
  · rename_i hp; exact .inl ⟨hp, h.1 c hc⟩
  · rename_i hp
    refine .inr ⟨hp, ?_⟩
    by_cases h3 : c = .resume
    · exact .inr (.inl h3)
    · by_cases h12 : c = .runJob ∨ c = .useResult
      · refine .inr (.inr ⟨h12, ?_⟩)
        by_cases hb : ph = .boot
        · exact .inl hb
        · by_cases hn : ph = .normal
          · exact .inr hn
          · have := h.2.1 hb hn
            rcases h12 with rfl | rfl
            · rw [this.1] at hc; cases hc
            · rw [this.2] at hc; cases hc
      · left
        rw [← h.1 c (fun e => h12 (.inl e)) (fun e => h12 (.inr e)) h3]
        exact hc

theorem inv_init (restartable : Bool) : Inv .setup (init restartable) [] := by
  refine ⟨?_, by simp, ?_, ?_, by simp, ?_, ?_, by simp, ?_, by simp, ?_, by simp⟩
  · simp only [Fits, if_true]
    refine ⟨?_, .inl (by cases restartable <;> rfl)⟩
    intro c
    cases restartable <;> cases c <;> simp [init, put, atFirst, setupCall]
  · cases restartable <;> simp [init, put, atFirst]
  · cases restartable <;> simp [init, put, atFirst]
  · intro _; rw [Pending, since_nil]; exact id
  · intro _; rw [RanHere, since_nil]; exact id
  · intro _; rw [Ready, since_nil]; exact id
  · intro _; rw [finalized_nil]; exact id

/-! ## The loop of bootstrap -/

/-- What the loop changes: whether jobs may be run and results reported. -/
theorem bootLoop_spec (l : List (Job × Outcome × Outcome)) (st : St) :
    (∃ al, (bootLoop l st).1 = { st with allowed := al } ∧
      ∀ c, c ≠ .runJob → c ≠ .useResult → al c = st.allowed c) ∧
    (∀ e ∈ (bootLoop l st).2.2, e = .ran ∨ e = .used) ∧
    (∀ evs, ¬Pending evs → (bootLoop l st).1.allowed .runJob = true → ¬Pending (evs ++ (bootLoop l st).2.2)) ∧
    (∀ evs, ¬Pending evs → (bootLoop l st).2.1 = .ok → ¬Pending (evs ++ (bootLoop l st).2.2)) := by
  induction l generalizing st with
  | nil =>
    refine ⟨⟨st.allowed, rfl, fun _ _ _ => rfl⟩, by simp [bootLoop], fun evs h _ => ?_, fun evs h _ => ?_⟩
    · simpa [bootLoop] using h
    · simpa [bootLoop] using h
  | cons x l ih =>
    obtain ⟨j, o1, o2⟩ := x
    have hrun : ∀ st0 : St, (runJob j o1 st0 = (st0, (runJob j o1 st0).2.1, []) ∧ (runJob j o1 st0).2.1 ≠ .ok) ∨
        runJob j o1 st0 = ({ st0 with allowed := put .useResult true (put .runJob false st0.allowed) }, .ok, [.ran]) := by
      intro st0
      simp only [runJob, runBody]
      repeat' split
      all_goals simp
    have huse : ∀ st0 : St, (useResult o2 st0 = (st0, (useResult o2 st0).2.1, []) ∧ (useResult o2 st0).2.1 ≠ .ok) ∨
        useResult o2 st0 = ({ st0 with allowed := put .runJob true (put .useResult false st0.allowed) }, .ok, [.used]) := by
      intro st0
      simp only [useResult]
      repeat' split
      all_goals simp
    simp only [bootLoop]
    generalize hst1 : ({ st with allowed := put .runJob true st.allowed } : St) = st1
    have hst1' : ∀ c, c ≠ .runJob → c ≠ .useResult → st1.allowed c = st.allowed c := by
      intro c h1 _; subst hst1; simp [put, h1]
    rcases hrun st1 with ⟨h, hne⟩ | h
    · rw [if_pos hne, h]
      refine ⟨⟨st1.allowed, by subst hst1; rfl, hst1'⟩, by simp, fun evs hp _ => by simpa using hp, ?_⟩
      intro _ _ hok
      exact absurd hok hne
    · rw [h]
      simp only [ne_eq, not_true_eq_false, if_false]
      generalize hst2 : ({ st1 with allowed := put .useResult true (put .runJob false st1.allowed) } : St) = st2
      rcases huse st2 with ⟨h2, hne⟩ | h2
      · rw [if_pos hne, h2]
        refine ⟨⟨st2.allowed, by subst hst2 hst1; rfl, ?_⟩, by simp, ?_, fun _ _ hok => absurd hok hne⟩
        · intro c h1 h3
          rw [← hst1' c h1 h3, ← hst2]
          simp [put, h1, h3]
        · intro evs _ hr
          exfalso
          rw [← hst2] at hr
          simp [put] at hr
      · rw [h2]
        simp only [not_true_eq_false, if_false]
        generalize hst3 : ({ st2 with allowed := put .runJob true (put .useResult false st2.allowed) } : St) = st3
        obtain ⟨⟨al, h3, h4⟩, h5, h6, h7⟩ := ih st3
        refine ⟨⟨al, by rw [h3]; subst hst3 hst2 hst1; rfl, ?_⟩, ?_, ?_, ?_⟩
        · intro c hc1 hc2
          rw [h4 c hc1 hc2, ← hst1' c hc1 hc2, ← hst3, ← hst2]
          simp [put, hc1, hc2]
        · intro e he
          simp only [List.mem_append, List.mem_singleton] at he
          rcases he with (rfl | rfl) | he
          · exact .inl rfl
          · exact .inr rfl
          · exact h5 e he
        all_goals
          intro evs hp hr
          have e1 : evs ++ ([Event.ran] ++ [Event.used] ++ (bootLoop l st3).2.2) =
              (evs ++ [.ran] ++ [.used]) ++ (bootLoop l st3).2.2 := by simp
          rw [e1]
          first
            | refine h6 _ ?_ hr
            | refine h7 _ ?_ hr
          rw [Pending, since_snoc]
          simp [renews]

/-! ## Preservation -/

theorem inv_gen {ph : Phase} {st : St} {evs : List Event} (h : Inv ph st evs) (hp : .providers ∈ evs) (b g : Bool) :
    Inv ph { st with candidates := true, gen := g,
                     allowed := if b then put .resume true st.allowed else st.allowed } evs := by
  have hal : ∀ c, c ≠ .resume → (if b then put .resume true st.allowed else st.allowed) c = st.allowed c := by
    intro c hc; cases b <;> simp [put, hc]
  refine ⟨?_, h.attrs, fun _ => hp, fun _ => rfl, h.chosen, ?_, h.ran, h.broke, h.unready, h.ready, h.final, ?_⟩
  · have hf := h.fits
    unfold Fits at hf ⊢
    split at hf
    · rename_i hph
      rw [if_pos hph]
      refine ⟨?_, ?_⟩
      · intro c hc
        by_cases hr : c = .resume
        · subst hr; rfl
        · exact hf.1 c (by rw [← hal c hr]; exact hc)
      · dsimp only; rw [hal .selectProviders (by decide), hal .startNew (by decide)]; exact hf.2
    · rename_i hph
      rw [if_neg hph]
      refine ⟨?_, ?_, ?_⟩
      · intro c h1 h2 h3
        rw [← hf.1 c h1 h2 h3]; exact hal c h3
      · dsimp only; rw [hal .runJob (by decide), hal .useResult (by decide)]; exact hf.2.1
      · dsimp only; rw [hal .runJob (by decide), hal .useResult (by decide)]; exact hf.2.2
  · dsimp only; rw [hal .runJob (by decide)]; exact h.pending
  · dsimp only; rw [hal .runJob (by decide), hal .useResult (by decide)]; exact h.permit

/-- A call that allows reporting a result, in the normal phase. -/
theorem inv_use {st : St} {evs : List Event} (h : Inv .normal st evs) :
    Inv .normal { st with allowed := put .useResult true st.allowed } evs := by
  have hal : ∀ c, c ≠ .useResult → put .useResult true st.allowed c = st.allowed c := by
    intro c hc; simp [put, hc]
  refine ⟨?_, h.attrs, fun _ => h.provs (.inl (by decide)), ?_, h.chosen, ?_, h.ran, h.broke, h.unready,
    h.ready, h.final, by simp⟩
  · have hf := h.fits
    unfold Fits at hf ⊢
    rw [if_neg (by decide)] at hf ⊢
    refine ⟨?_, by simp, fun _ => .inr (by simp [put])⟩
    intro c h1 h2 h3
    rw [← hf.1 c h1 h2 h3]; exact hal c h2
  · dsimp only; rw [hal .resume (by decide)]; exact h.cands
  · dsimp only; rw [hal .runJob (by decide)]; exact h.pending

/-- Entering the normal phase. -/
theorem inv_normal {st : St} {evs : List Event} (hal : st.allowed = Assistant.normal)
    (ha : st.session = true ∧ st.metadata = true ∧ st.runner = true) (hp : .providers ∈ evs)
    (hc : st.gen = true → st.candidates = true) (hch : Chosen evs) (hpe : ¬Pending evs)
    (hr : Ready evs → st.incomplete = true) (hf : ¬Finalized evs) : Inv .normal st evs := by
  refine ⟨?_, fun _ => ha, fun _ => hp, ?_, fun _ => hch, fun _ => hpe, by simp, by simp, by simp,
    fun _ => hr, fun _ => hf, by simp⟩
  · unfold Fits
    rw [if_neg (by decide), hal]
    exact ⟨fun c _ _ _ => rfl, by simp, fun _ => .inl rfl⟩
  · rw [hal]; intro h; exact hc (h.resolve_left (by decide))

/-- Running a job, in a phase where that can be allowed. -/
theorem inv_ran {ph : Phase} {st : St} {evs : List Event} (h : Inv ph st evs)
    (hph : ph = .boot ∨ ph = .normal) (hr : st.allowed .runJob = true) :
    Inv ph { st with allowed := put .useResult true (put .runJob false st.allowed) } (evs ++ [.ran]) := by
  have hns : ph ≠ .setup := by rcases hph with rfl | rfl <;> decide
  have hal : ∀ c, c ≠ .runJob → c ≠ .useResult →
      put .useResult true (put .runJob false st.allowed) c = st.allowed c := by
    intro c h1 h2; simp [put, h1, h2]
  refine ⟨?_, h.attrs, fun _ => by simp [h.provs (.inl hns)], ?_, ?_, ?_, ?_, ?_, ?_, ?_, ?_, ?_⟩
  · have hf := h.fits
    unfold Fits at hf ⊢
    rw [if_neg hns] at hf ⊢
    refine ⟨fun c h1 h2 h3 => by rw [← hf.1 c h1 h2 h3]; exact hal c h1 h2, ?_, fun _ => .inr (by simp [put])⟩
    intro h1 h2
    rcases hph with rfl | rfl
    · exact absurd rfl h1
    · exact absurd rfl h2
  · dsimp only; rw [hal .resume (by decide) (by decide)]; exact h.cands
  · intro hc
    rw [Chosen, since_snoc]
    exact .inr ⟨h.chosen hc, by decide⟩
  · intro hr'; simp [put] at hr'
  · intro hc; rcases hph with rfl | rfl <;> simp at hc
  · intro hc _
    rw [BrokeHere, since_snoc]
    exact .inr ⟨h.permit hc (.inl hr), rfl⟩
  · intro hc
    rw [Ready, since_snoc]
    simp only [reduceCtorEq, or_self, decide_false, Bool.false_eq_true, and_true, false_or]
    exact h.unready hc
  · intro hc
    rw [Ready, since_snoc]
    simp only [reduceCtorEq, or_self, decide_false, Bool.false_eq_true, and_true, false_or]
    exact h.ready hc
  · intro hc
    rw [finalized_snoc]
    simp only [reduceCtorEq, false_and, false_or, isOpened, and_true]
    exact h.final hc
  · intro hc _
    rw [BrokeHere, since_snoc]
    exact .inr ⟨h.permit hc (.inl hr), rfl⟩

theorem inv_used {ph : Phase} {st : St} {evs : List Event} (h : Inv ph st evs)
    (hph : ph = .boot ∨ ph = .normal) (hu : st.allowed .useResult = true) :
    Inv ph { st with allowed := put .runJob true (put .useResult false st.allowed) } (evs ++ [.used]) := by
  have hns : ph ≠ .setup := by rcases hph with rfl | rfl <;> decide
  have hal : ∀ c, c ≠ .runJob → c ≠ .useResult →
      put .runJob true (put .useResult false st.allowed) c = st.allowed c := by
    intro c h1 h2; simp [put, h1, h2]
  refine ⟨?_, h.attrs, fun _ => by simp [h.provs (.inl hns)], ?_, ?_, ?_, ?_, ?_, ?_, ?_, ?_, ?_⟩
  · have hf := h.fits
    unfold Fits at hf ⊢
    rw [if_neg hns] at hf ⊢
    refine ⟨fun c h1 h2 h3 => by rw [← hf.1 c h1 h2 h3]; exact hal c h1 h2, ?_, fun _ => .inl (by simp [put])⟩
    intro h1 h2
    rcases hph with rfl | rfl
    · exact absurd rfl h1
    · exact absurd rfl h2
  · dsimp only; rw [hal .resume (by decide) (by decide)]; exact h.cands
  · intro hc
    rw [Chosen, since_snoc]
    exact .inr ⟨h.chosen hc, by decide⟩
  · intro _
    rw [Pending, since_snoc]
    simp [renews]
  · intro hc; rcases hph with rfl | rfl <;> simp at hc
  · intro hc hr
    rw [RanHere, since_snoc] at hr
    rw [BrokeHere, since_snoc]
    refine .inr ⟨h.broke hc ?_, rfl⟩
    exact (hr.resolve_left (by decide)).1
  · intro hc
    rw [Ready, since_snoc]
    simp only [reduceCtorEq, or_self, decide_false, Bool.false_eq_true, and_true, false_or]
    exact h.unready hc
  · intro hc
    rw [Ready, since_snoc]
    simp only [reduceCtorEq, or_self, decide_false, Bool.false_eq_true, and_true, false_or]
    exact h.ready hc
  · intro hc
    rw [finalized_snoc]
    simp only [reduceCtorEq, false_and, false_or, isOpened, and_true]
    exact h.final hc
  · intro hc _
    rw [BrokeHere, since_snoc]
    exact .inr ⟨h.permit hc (.inr hu), rfl⟩

/-- A new session. -/
theorem inv_opened {ph : Phase} {st st' : St} {evs : List Event} (h : Inv ph st evs) (b : Bool)
    (hp : .providers ∈ evs)
    (hal : st'.allowed = if b then Assistant.normal else (if st'.incomplete then Assistant.resumed else Assistant.started))
    (ha : st'.session = true ∧ st'.metadata = true ∧ st'.runner = true)
    (hg : st'.gen = st.gen) (hc : st'.candidates = st.candidates) (hi : b = true → st'.incomplete = true) :
    ∃ ph', Inv ph' st' (evs ++ [.opened b]) := by
  have hp' : Event.providers ∈ evs ++ [.opened b] := by simp [hp]
  have hpend : ¬Pending (evs ++ [.opened b]) := by rw [Pending, since_snoc]; simp [renews]
  have hfin : ¬Finalized (evs ++ [.opened b]) := by rw [finalized_snoc]; simp [isOpened]
  have hran : ¬RanHere (evs ++ [.opened b]) := by rw [RanHere, since_snoc]; simp [isOpened]
  have hcand : st'.gen = true → st'.candidates = true := by
    rw [hg, hc]; exact fun e => h.cands (.inr e)
  cases b with
  | true =>
    refine ⟨.normal, inv_normal (by simpa using hal) ha hp' hcand ?_ hpend (fun _ => hi rfl) hfin⟩
    rw [Chosen, since_snoc]; simp
  | false =>
    have hready : ¬Ready (evs ++ [.opened false]) := by rw [Ready, since_snoc]; simp
    simp only [Bool.false_eq_true, if_false] at hal
    cases hinc : st'.incomplete with
    | true =>
      rw [hinc, if_pos rfl] at hal
      refine ⟨.resumed, ⟨?_, fun _ => ha, fun _ => hp', ?_, by simp, fun _ => hpend, fun _ => hran, by simp,
        fun _ => hready, by simp, fun _ => hfin, by simp⟩⟩
      · unfold Fits; rw [if_neg (by decide), hal]
        exact ⟨fun c _ _ _ => rfl, fun _ _ => ⟨rfl, rfl⟩, by simp⟩
      · rw [hal]; exact fun e => hcand (e.resolve_left (by decide))
    | false =>
      rw [hinc, if_neg (by decide)] at hal
      refine ⟨.started, ⟨?_, fun _ => ha, fun _ => hp', ?_, by simp, fun _ => hpend, fun _ => hran, by simp,
        fun _ => hready, by simp, fun _ => hfin, by simp⟩⟩
      · unfold Fits; rw [if_neg (by decide), hal]
        exact ⟨fun c _ _ _ => rfl, fun _ _ => ⟨rfl, rfl⟩, by simp⟩
      · rw [hal]; exact fun e => hcand (e.resolve_left (by decide))

/-- Calls of the first phase that remove calls from it. -/
theorem inv_setup {st st' : St} {evs : List Event} (h : Inv .setup st evs)
    (hal : ∀ c, st'.allowed c = true → st.allowed c = true)
    (hk : st'.allowed .selectProviders = st.allowed .selectProviders ∧ st'.allowed .startNew = st.allowed .startNew)
    (hg : st'.gen = st.gen) (hc : st'.candidates = st.candidates) : Inv .setup st' evs := by
  refine ⟨?_, by simp, ?_, ?_, by simp, fun e => h.pending (hal _ e), h.ran, by simp, h.unready, by simp, h.final, by simp⟩
  · have hf := h.fits
    unfold Fits at hf ⊢
    simp only [if_true] at hf ⊢
    exact ⟨fun c e => hf.1 c (hal c e), by rw [hk.1, hk.2]; exact hf.2⟩
  · intro e
    refine h.provs ?_
    rw [hg] at e
    rcases e with e | e | e | e | e | e
    · exact .inl e
    · exact .inr (.inl e)
    · exact .inr (.inr (.inl (hal _ e)))
    · exact .inr (.inr (.inr (.inl (hal _ e))))
    · exact .inr (.inr (.inr (.inr (.inl (hal _ e)))))
    · exact .inr (.inr (.inr (.inr (.inr (hal _ e)))))
  · rw [hg, hc]
    exact fun e => h.cands (e.imp_left (hal _))

theorem mem_base {ph : Phase} {c : Call} {al : Call → Bool} (h : Fits ph al) (hc : al c = true)
    (h1 : setupCall c = false) (h2 : c ≠ .runJob) (h3 : c ≠ .useResult) : ph ≠ .setup ∧ base ph c = true := by
  rcases h.phase hc with ⟨_, e⟩ | ⟨e, b⟩
  · rw [h1] at e; cases e
  · refine ⟨e, ?_⟩
    rcases b with b | rfl | ⟨b | b, _⟩
    · exact b
    · cases h1
    · exact absurd b h2
    · exact absurd b h3

theorem inv_call {ph : Phase} {st : St} {evs : List Event} (h : Inv ph st evs) (c : Call) (a : Args) (o : Outcome) :
    ∃ ph', Inv ph' (call c a o st).1 (evs ++ (call c a o st).2.2) := by
  have same : ∃ ph', Inv ph' st (evs ++ []) := ⟨ph, by simpa using h⟩
  unfold call
  split
  · exact same
  rename_i hc
  simp only [Bool.not_eq_true, Bool.not_eq_false'] at hc
  split
  · exact same
  rename_i hn
  simp only [Bool.not_eq_true, Bool.not_eq_false'] at hn
  have setup_of : base ph c = false → c ≠ .resume → c ≠ .runJob → c ≠ .useResult → ph = .setup := by
    intro hb h3 h1 h2
    rcases h.fits.phase hc with ⟨e, _⟩ | ⟨_, e | e | ⟨e | e, _⟩⟩
    · exact e
    · rw [hb] at e; cases e
    · exact absurd e h3
    · exact absurd e h1
    · exact absurd e h2
  cases c
  case useRepository | useConfiguration | useControllers =>
    simp only [body]
    split
    · have hs : ph = .setup := setup_of (by cases ph <;> rfl) (by decide) (by decide) (by decide)
      subst hs
      refine ⟨.setup, ?_⟩
      simp only [List.append_nil]
      refine inv_setup h ?_ ⟨rfl, rfl⟩ rfl rfl
      intro c; simp only [put]; split <;> simp
    · exact same
  case configureRestart =>
    simp only [body]
    split
    · have hs : ph = .setup := setup_of (by cases ph <;> rfl) (by decide) (by decide) (by decide)
      subst hs
      refine ⟨.setup, ?_⟩
      simp only [List.append_nil]
      refine inv_setup h ?_ ⟨rfl, rfl⟩ rfl rfl
      intro c; simp only [put]; repeat' split
      all_goals simp
    · exact same
  case useStrategy =>
    simp only [body]
    split
    · have hs : ph = .setup := setup_of (by cases ph <;> rfl) (by decide) (by decide) (by decide)
      subst hs
      refine ⟨.setup, ?_⟩
      simp only [List.append_nil]
      refine inv_setup h ?_ ⟨rfl, rfl⟩ rfl rfl
      intro c; simp only [put]; split <;> simp
    · exact same
  case selectProviders =>
    simp only [body]
    split
    · have hs : ph = .setup := setup_of (by cases ph <;> rfl) (by decide) (by decide) (by decide)
      subst hs
      refine ⟨.setup, ⟨?_, by simp, by simp, ?_, by simp, ?_, ?_, by simp, ?_, by simp, ?_, by simp⟩⟩
      · have hf := h.fits
        unfold Fits at hf ⊢
        simp only [if_true] at hf ⊢
        refine ⟨?_, .inr rfl⟩
        intro c
        simp only [put]
        repeat' split
        · rename_i e; subst e; simp [setupCall]
        · rename_i e; subst e; simp [setupCall]
        · rename_i e; subst e; simp [setupCall]
        · simp
        · exact hf.1 c
      · exact h.cands
      · intro e
        rw [Pending, since_snoc]
        simp only [reduceCtorEq, decide_false, Bool.false_eq_true, false_or, not_and]
        exact fun hp => absurd hp (h.pending e)
      · intro e
        rw [RanHere, since_snoc]
        simp only [reduceCtorEq, decide_false, Bool.false_eq_true, false_or, not_and]
        exact fun hp => absurd hp (h.ran e)
      · intro e
        rw [Ready, since_snoc]
        simp only [reduceCtorEq, or_self, decide_false, Bool.false_eq_true, false_or, not_and]
        exact fun hp => absurd hp (h.unready e)
      · intro e
        rw [finalized_snoc]
        simp only [reduceCtorEq, false_and, false_or, not_and]
        exact fun hp => absurd hp (h.final e)
    · exact same
  case startNew =>
    have hp : Event.providers ∈ evs := h.provs (.inr (.inr (.inl hc)))
    simp only [body]
    split
    · exact inv_opened h false hp rfl ⟨rfl, rfl, rfl⟩ rfl rfl (by simp)
    · split
      · have hph : ph ≠ .normal ∧ ph ≠ .boot := by
          rcases h.fits.phase hc with ⟨rfl, _⟩ | ⟨_, e | e | ⟨e | e, _⟩⟩
          · exact ⟨by decide, by decide⟩
          · constructor
            · rintro rfl; cases e
            · rintro rfl; cases e
          · cases e
          · cases e
          · cases e
        refine ⟨ph, ?_⟩
        simp only [List.append_nil]
        exact ⟨h.fits, fun e => ⟨rfl, rfl, (h.attrs e).2.2⟩, h.provs, h.cands, h.chosen,
          h.pending, h.ran, h.broke, h.unready, fun e => absurd e hph.1, h.final, h.permit⟩
      · exact same
  case resume =>
    have hp : Event.providers ∈ evs := h.provs (.inr (.inr (.inr (.inl hc))))
    simp only [body]
    split
    · exact same
    split
    · refine ⟨ph, ?_⟩
      simp only [List.append_nil]
      exact ⟨h.fits, fun _ => ⟨rfl, rfl, rfl⟩, h.provs, h.cands, h.chosen, h.pending, h.ran, h.broke, h.unready,
        fun _ _ => rfl, h.final, h.permit⟩
    · exact inv_opened h a.testplanless hp rfl ⟨rfl, rfl, rfl⟩ rfl rfl (by simp)
  case getResumable =>
    have hp : Event.providers ∈ evs := h.provs (.inr (.inr (.inr (.inr (.inl hc)))))
    simp only [body]
    split
    · exact same
    · refine ⟨ph, ?_⟩
      simp only [List.append_nil]
      exact inv_gen h hp a.found true
  case selectTestPlan =>
    have hb := mem_base h.fits hc rfl (by decide) (by decide)
    have hph : ph = .started ∨ ph = .resumed := by
      revert hb; cases ph <;> simp [base, Assistant.started, Assistant.resumed, bootable, Assistant.normal, Assistant.ended]
    have hph' : ph = .started ∨ ph = .resumed ∨ ph = .setup := hph.elim .inl fun e => .inr (.inl e)
    simp only [body]
    split
    · exact same
    split
    · refine ⟨ph, ?_⟩
      simp only [List.append_nil]
      exact ⟨h.fits, h.attrs, h.provs, h.cands, h.chosen, h.pending, h.ran, h.broke, h.unready, h.ready, h.final, h.permit⟩
    · refine ⟨.boot, ⟨?_, fun _ => h.attrs hb.1, fun _ => by simp [h.provs (.inl hb.1)], ?_, ?_, ?_, by simp, ?_, ?_, by simp, ?_, ?_⟩⟩
      · unfold Fits; rw [if_neg (by decide)]
        exact ⟨fun c _ _ _ => rfl, by simp, by simp⟩
      · exact fun e => h.cands (.inr (e.resolve_left (by simp [bootable])))
      · intro _; rw [Chosen, since_snoc]; simp
      · intro e; cases e
      · intro _ hr
        rw [RanHere, since_snoc] at hr
        exact absurd (hr.resolve_left (by decide)).1 (h.ran hph')
      · intro _
        rw [Ready, since_snoc]
        simp only [reduceCtorEq, or_self, decide_false, Bool.false_eq_true, false_or, not_and]
        intro hr
        exact absurd hr (h.unready (hph.elim .inl fun e => .inr (.inl e)))
      · intro _
        rw [finalized_snoc]
        simp only [reduceCtorEq, false_and, false_or, not_and]
        refine fun hr => absurd hr (h.final ?_)
        rcases hph with rfl | rfl <;> decide
      · intro _ e; rcases e with e | e <;> cases e
  case bootstrap =>
    have hb := mem_base h.fits hc rfl (by decide) (by decide)
    have hph : ph = .boot := by
      revert hb; cases ph <;> simp [base, Assistant.started, Assistant.resumed, bootable, Assistant.normal, Assistant.ended]
    subst hph
    obtain ⟨⟨al, hal, hsame⟩, hev, hpe, hpe2⟩ := bootLoop_spec a.boots st
    -- what happens when it raises, and when it does not
    have broken : ∀ (al : Call → Bool) (l : List Event), (∀ c, c ≠ .runJob → c ≠ .useResult → al c = st.allowed c) →
        (∀ e ∈ l, e = .ran ∨ e = .used) → (al .runJob = true → ¬Pending (evs ++ [.booting] ++ l)) →
        Inv .boot { st with allowed := al } (evs ++ (.booting :: l ++ [.broke])) := by
      intro al l hs hl hp
      have e1 : evs ++ (Event.booting :: l ++ [.broke]) = (evs ++ .booting :: l) ++ [.broke] := by simp
      have e2 : evs ++ [Event.booting] ++ l = evs ++ .booting :: l := by simp
      rw [e2] at hp
      rw [e1]
      have hq : ∀ e ∈ Event.booting :: l, e = .booting ∨ e = .ran ∨ e = .used := by
        intro e he
        rcases List.mem_cons.1 he with he | he
        · exact .inl he
        · exact .inr (hl e he)
      refine ⟨?_, h.attrs, fun _ => by simp [h.provs (.inl hb.1)], ?_, ?_, ?_, by simp, ?_, ?_, by simp, ?_, ?_⟩
      · have hf := h.fits
        unfold Fits at hf ⊢
        rw [if_neg (by decide)] at hf ⊢
        exact ⟨fun c h1 h2 h3 => by rw [← hf.1 c h1 h2 h3]; exact hs c h1 h2, by simp, by simp⟩
      · dsimp only
        rw [hs .resume (by decide) (by decide)]; exact h.cands
      · intro hh
        rw [Chosen, since_snoc]
        refine .inr ⟨since_keep _ _ _ _ ?_ (h.chosen hh), by decide⟩
        intro e he
        rcases hq e he with rfl | rfl | rfl <;> decide
      · intro hr
        rw [Pending, since_snoc]
        simp only [reduceCtorEq, decide_false, Bool.false_eq_true, false_or, not_and]
        exact fun hh => absurd hh (hp hr)
      · intro _ _
        rw [BrokeHere, since_snoc]
        exact .inl (by decide)
      · intro hh
        rw [Ready, since_snoc, since_skip]
        · simp only [reduceCtorEq, or_self, decide_false, Bool.false_eq_true, false_or, not_and]
          exact fun hr => absurd hr (h.unready hh)
        · intro e he
          rcases hq e he with rfl | rfl | rfl <;> decide
      · intro hh
        rw [finalized_snoc, finalized_skip]
        · simp only [reduceCtorEq, false_and, false_or, not_and]
          exact fun hr => absurd hr (h.final hh)
        · intro e he
          rcases hq e he with rfl | rfl | rfl <;> decide
      · intro _ _
        rw [BrokeHere, since_snoc]
        exact .inl (by decide)
    have hboot : ¬Pending (evs ++ [.booting]) := by rw [Pending, since_snoc]; simp [renews]
    simp only [body, bootstrap]
    split
    · refine ⟨.boot, ?_⟩
      exact broken st.allowed [] (fun _ _ _ => rfl) (by simp) (by simpa using fun _ => hboot)
    split
    · refine ⟨.boot, ?_⟩
      have := broken al _ hsame hev (by
        intro hr
        refine hpe _ hboot ?_
        rw [hal]; exact hr)
      rw [hal]
      exact this
    · have e1 : evs ++ (Event.booting :: (bootLoop a.boots st).2.2 ++ [.bootstrapped]) =
          (evs ++ .booting :: (bootLoop a.boots st).2.2) ++ [.bootstrapped] := by simp
      have hq : ∀ e ∈ Event.booting :: (bootLoop a.boots st).2.2, e = .booting ∨ e = .ran ∨ e = .used := by
        intro e he
        rcases List.mem_cons.1 he with he | he
        · exact .inl he
        · exact .inr (hev e he)
      rename_i hok
      simp only [ne_eq, Decidable.not_not] at hok
      have hpe' := hpe2 _ hboot hok
      refine ⟨.normal, ?_⟩
      simp only [e1]
      refine inv_normal rfl ?_ (by simp [h.provs (.inl hb.1)]) ?_ ?_ ?_ (fun _ => rfl) ?_
      · rw [hal]; exact h.attrs hb.1
      · rw [hal]; exact fun e => h.cands (.inr e)
      · rw [Chosen, since_snoc]
        refine .inr ⟨since_keep _ _ _ _ ?_ (h.chosen (.inl rfl)), by decide⟩
        intro e he
        rcases hq e he with rfl | rfl | rfl <;> decide
      · rw [Pending, since_snoc]
        simp only [reduceCtorEq, decide_false, Bool.false_eq_true, false_or, not_and]
        intro hh
        refine absurd hh ?_
        have e2 : evs ++ [Event.booting] ++ (bootLoop a.boots st).2.2 = evs ++ .booting :: (bootLoop a.boots st).2.2 := by simp
        rw [e2] at hpe'
        exact hpe'
      · rw [finalized_snoc, finalized_skip]
        · simp only [reduceCtorEq, false_and, false_or, not_and]
          exact fun hr => absurd hr (h.final (by decide))
        · intro e he
          rcases hq e he with rfl | rfl | rfl <;> decide
  case handPick =>
    have hb := mem_base h.fits hc rfl (by decide) (by decide)
    have hph : ph ≠ .ended := by rintro rfl; simp [base, Assistant.ended] at hb
    simp only [body]
    split
    · refine ⟨.normal, inv_normal rfl (h.attrs hb.1) (by simp [h.provs (.inl hb.1)]) (fun e => h.cands (.inr e)) ?_ ?_
        (fun _ => rfl) ?_⟩
      · rw [Chosen, since_snoc]; simp
      · rw [Pending, since_snoc]; simp [renews]
      · rw [finalized_snoc]
        simp only [reduceCtorEq, false_and, false_or, not_and]
        exact fun hr => absurd hr (h.final hph)
    · exact same
  case getBootstrapTodo =>
    have hb := mem_base h.fits hc rfl (by decide) (by decide)
    have hph : ph = .boot := by
      revert hb; cases ph <;> simp [base, Assistant.started, Assistant.resumed, bootable, Assistant.normal, Assistant.ended]
    subst hph
    simp only [body]
    split
    · refine ⟨.normal, inv_normal rfl (h.attrs hb.1) (by simp [h.provs (.inl hb.1)]) (fun e => h.cands (.inr e)) ?_ ?_ ?_ ?_⟩
      · rw [Chosen, since_snoc]; exact .inr ⟨h.chosen (.inl rfl), by decide⟩
      · rw [Pending, since_snoc]; simp [renews]
      · rw [Ready, since_snoc]
        intro hr
        exact absurd (hr.resolve_left (by decide)).1 (h.unready (.inr (.inr (.inl rfl))))
      · rw [finalized_snoc]
        simp only [reduceCtorEq, false_and, false_or, not_and]
        exact fun hr => absurd hr (h.final (by decide))
    · exact same
  case finishBootstrap =>
    have hb := mem_base h.fits hc rfl (by decide) (by decide)
    have hph : ph = .normal := by
      revert hb; cases ph <;> simp [base, Assistant.started, Assistant.resumed, bootable, Assistant.normal, Assistant.ended]
    subst hph
    simp only [body]
    split
    · exact same
    · refine ⟨.normal, inv_normal rfl (h.attrs hb.1) (by simp [h.provs (.inl hb.1)]) (fun e => h.cands (.inr e)) ?_ ?_
        (fun _ => rfl) ?_⟩
      · rw [Chosen, since_snoc]; exact .inr ⟨h.chosen (.inr (.inl rfl)), by decide⟩
      · rw [Pending, since_snoc]; simp [renews]
      · rw [finalized_snoc]
        simp only [reduceCtorEq, false_and, false_or, not_and]
        exact fun hr => absurd hr (h.final (by decide))
  case getJob =>
    have hb := mem_base h.fits hc rfl (by decide) (by decide)
    have hph : ph = .normal := by
      revert hb; cases ph <;> simp [base, Assistant.started, Assistant.resumed, bootable, Assistant.normal, Assistant.ended]
    subst hph
    simp only [body]
    split
    · exact same
    · exact ⟨.normal, by simpa using inv_use h⟩
  case filterJobs =>
    have hb := mem_base h.fits hc rfl (by decide) (by decide)
    have hph : ph = .normal := by
      revert hb; cases ph <;> simp [base, Assistant.started, Assistant.resumed, bootable, Assistant.normal, Assistant.ended]
    subst hph
    simp only [body]
    split
    · exact same
    · cases a.found
      · exact ⟨.normal, by simpa using h⟩
      · exact ⟨.normal, by simpa using inv_use h⟩
  case runJob =>
    have hph : ph = .boot ∨ ph = .normal := by
      rcases h.fits.phase hc with ⟨_, e⟩ | ⟨_, e | e | ⟨_, e⟩⟩
      · cases e
      · revert e; cases ph <;> simp [base, Assistant.started, Assistant.resumed, bootable, Assistant.normal, Assistant.ended]
      · cases e
      · exact e
    simp only [body, runBody]
    repeat' split
    all_goals first
      | exact same
      | skip
    exact ⟨ph, inv_ran h hph hc⟩
  case useResult =>
    have hph : ph = .boot ∨ ph = .normal := by
      rcases h.fits.phase hc with ⟨_, e⟩ | ⟨_, e | e | ⟨_, e⟩⟩
      · cases e
      · revert e; cases ph <;> simp [base, Assistant.started, Assistant.resumed, bootable, Assistant.normal, Assistant.ended]
      · cases e
      · exact e
    simp only [body, useResult]
    repeat' split
    all_goals first
      | exact same
      | skip
    exact ⟨ph, inv_used h hph hc⟩
  case finalize =>
    have hb := mem_base h.fits hc rfl (by decide) (by decide)
    have hph : ph = .normal ∨ ph = .ended := by
      revert hb; cases ph <;> simp [base, Assistant.started, Assistant.resumed, bootable, Assistant.normal, Assistant.ended]
    have hready : ∀ e, (e = Event.final ∨ e = .finalBroke) → Ready (evs ++ [e]) → Ready evs ∧ e = .final := by
      intro e he
      rw [Ready, since_snoc]
      rcases he with rfl | rfl
      · intro hr; exact ⟨(hr.resolve_left (by decide)).1, rfl⟩
      · simp
    have common : ∀ (ph' : Phase) (st' : St) (e : Event), (e = .final ∨ e = .finalBroke) → Fits ph' st'.allowed →
        (ph' = .normal ∨ ph' = .ended) →
        (st'.session = st.session ∧ st'.metadata = st.metadata ∧ st'.runner = st.runner) → st'.gen = st.gen →
        st'.candidates = st.candidates → (∀ c, c = .runJob ∨ c = .resume → st'.allowed c = true → st.allowed c = true) →
        (ph' = .normal → Ready (evs ++ [e]) → st'.incomplete = true) → (ph' ≠ .ended → ¬Finalized (evs ++ [e])) →
        Inv ph' st' (evs ++ [e]) := by
      intro ph' st' e he hf hp ha hg hcd hal hr hfin
      have hch : Chosen evs := h.chosen (.inr hph)
      have hns : ph' ≠ .setup := by rcases hp with rfl | rfl <;> decide
      refine ⟨hf, fun _ => by rw [ha.1, ha.2.1, ha.2.2]; exact h.attrs hb.1, fun _ => by simp [h.provs (.inl hb.1)], ?_, ?_, ?_,
        ?_, ?_, ?_, hr, hfin, ?_⟩
      · rw [hg, hcd]; exact fun e => h.cands (e.imp_left (hal _ (.inr rfl)))
      · intro _
        rw [Chosen, since_snoc]
        exact .inr ⟨hch, by rcases he with rfl | rfl <;> decide⟩
      · intro hrun
        rw [Pending, since_snoc]
        intro hh
        rcases hh with hh | hh
        · rcases he with rfl | rfl <;> simp at hh
        · exact h.pending (hal _ (.inl rfl) hrun) hh.1
      · intro hh; rcases hp with rfl | rfl <;> simp at hh
      · intro hh; rcases hp with rfl | rfl <;> simp at hh
      · intro hh; rcases hp with rfl | rfl <;> simp at hh
      · intro hh; rcases hp with rfl | rfl <;> simp at hh
    simp only [body]
    split
    · exact same
    split
    · rename_i hinc
      simp only [Bool.not_eq_true'] at hinc
      split
      · refine ⟨ph, common ph st .final (.inl rfl) h.fits hph ⟨rfl, rfl, rfl⟩ rfl rfl (fun _ _ e => e) ?_ ?_⟩
        · intro hh hr; exact h.ready hh (hready _ (.inl rfl) hr).1
        · intro hh
          rw [finalized_snoc]
          rintro (⟨_, hr⟩ | ⟨hf, _⟩)
          · have := h.ready (hph.resolve_right hh) hr
            rw [hinc] at this; cases this
          · exact h.final hh hf
      · exact same
    · split
      · refine ⟨ph, common ph _ .finalBroke (.inr rfl) h.fits hph ⟨rfl, rfl, rfl⟩ rfl rfl (fun _ _ e => e) ?_ ?_⟩
        · intro _ hr
          have := (hready _ (.inr rfl) hr).2
          cases this
        · intro hh
          rw [finalized_snoc]
          simp only [reduceCtorEq, false_and, false_or, not_and]
          exact fun hf => absurd hf (h.final hh)
      · refine ⟨.ended, common .ended _ .final (.inl rfl) ?_ (.inr rfl) ⟨rfl, rfl, rfl⟩ rfl rfl ?_ (by simp) (by simp)⟩
        · unfold Fits; rw [if_neg (by decide)]
          exact ⟨fun c _ _ _ => rfl, fun _ _ => ⟨rfl, rfl⟩, by simp⟩
        · rintro c (rfl | rfl) e <;> cases e
  all_goals exact same

theorem inv_step {ph : Phase} {st : St} {evs : List Event} (h : Inv ph st evs) (a : Act) :
    ∃ ph', Inv ph' (step a st).1 (evs ++ (step a st).2.2) := by
  cases a with
  | call c a o => exact inv_call h c a o
  | advance found =>
    simp only [step]
    split
    · rename_i hg
      have := inv_gen h (h.provs (.inr (.inl hg.1))) true true
      rw [if_pos rfl] at this
      have e : ({ st with candidates := true, gen := true, allowed := put .resume true st.allowed } : St) =
          { st with allowed := put .resume true st.allowed } := by
        have hcd := h.cands (.inr hg.1)
        have hgn := hg.1
        cases st
        dsimp only at hcd hgn
        subst hcd hgn
        rfl
      rw [e] at this
      exact ⟨ph, by simpa using this⟩
    · exact ⟨ph, by simpa using h⟩

/-- The invariant holds after every history. -/
theorem inv_run (restartable : Bool) (acts : List Act) :
    ∃ ph, Inv ph (run acts (init restartable, [])).1 (run acts (init restartable, [])).2 := by
  have key : ∀ (acts : List Act) (s : St × List Event), (∃ ph, Inv ph s.1 s.2) →
      ∃ ph, Inv ph (run acts s).1 (run acts s).2 := by
    intro acts
    induction acts with
    | nil => exact fun s h => h
    | cons a l ih =>
      rintro s ⟨ph, h⟩
      exact ih _ (inv_step h a)
  exact key acts _ ⟨.setup, inv_init restartable⟩

/-! ## Every event of a history -/

/-- What is known about the events before an event. -/
def Claim (pre : List Event) (e : Event) : Prop :=
  (e = .ran → .providers ∈ pre ∧ Chosen pre ∧ ¬Pending pre ∧ ¬Finalized pre) ∧
  (e = .booting ∨ e = .todo → RanHere pre → BrokeHere pre)

def GoodTrace (evs : List Event) : Prop := ∀ pre e post, evs = pre ++ e :: post → Claim pre e

theorem good_append {evs l : List Event} (h : GoodTrace evs) (hl : ∀ x e y, l = x ++ e :: y → Claim (evs ++ x) e) :
    GoodTrace (evs ++ l) := by
  intro pre e post he
  rcases List.append_eq_append_iff.1 he with ⟨as, h1, h2⟩ | ⟨bs, h1, h2⟩
  · rw [h1]; exact hl as e post h2
  · cases bs with
    | nil =>
      simp only [List.append_nil, List.nil_append] at h1 h2
      have := hl [] e post h2.symm
      rw [List.append_nil, h1] at this
      exact this
    | cons b bs =>
      simp only [List.cons_append, List.cons.injEq] at h2
      obtain ⟨rfl, -⟩ := h2
      exact h pre e bs h1

theorem good_none {evs : List Event} (h : GoodTrace evs) : GoodTrace (evs ++ []) := by simpa using h

theorem good_one {evs : List Event} (h : GoodTrace evs) {e : Event} (hc : Claim evs e) : GoodTrace (evs ++ [e]) := by
  refine good_append h ?_
  intro x d y hx
  cases x with
  | nil => simp only [List.nil_append, List.cons.injEq] at hx; obtain ⟨rfl, -⟩ := hx; simpa using hc
  | cons a x => simp at hx

theorem bootLoop_runs (l : List (Job × Outcome × Outcome)) (st : St) (evs : List Event) (hp : ¬Pending evs)
    (x y : List Event) (h : (bootLoop l st).2.2 = x ++ .ran :: y) : ¬Pending (evs ++ x) := by
  induction l generalizing st evs x with
  | nil => simp [bootLoop] at h
  | cons z l ih =>
    obtain ⟨j, o1, o2⟩ := z
    have hrun : ∀ st0 : St, ((runJob j o1 st0).2.2 = [] ∧ (runJob j o1 st0).2.1 ≠ .ok) ∨
        ((runJob j o1 st0).2.1 = .ok ∧ (runJob j o1 st0).2.2 = [.ran]) := by
      intro st0
      simp only [runJob, runBody]
      repeat' split
      all_goals simp
    have huse : ∀ st0 : St, ((useResult o2 st0).2.2 = [] ∧ (useResult o2 st0).2.1 ≠ .ok) ∨
        ((useResult o2 st0).2.1 = .ok ∧ (useResult o2 st0).2.2 = [.used]) := by
      intro st0
      simp only [useResult]
      repeat' split
      all_goals simp
    simp only [bootLoop] at h
    generalize ({ st with allowed := put .runJob true st.allowed } : St) = st1 at h
    rcases hrun st1 with ⟨h1, h2⟩ | ⟨h1, h2⟩
    · rw [if_pos h2, h1] at h; simp at h
    · rw [if_neg (by simp [h1]), h2] at h
      rcases huse (runJob j o1 st1).1 with ⟨h3, h4⟩ | ⟨h3, h4⟩
      · rw [if_pos h4, h3] at h
        cases x with
        | nil => simpa using hp
        | cons a x => simp at h
      · rw [if_neg (by simp [h3]), h4] at h
        cases x with
        | nil => simpa using hp
        | cons a x =>
          simp only [List.cons_append, List.cons.injEq, List.nil_append] at h
          obtain ⟨rfl, h⟩ := h
          cases x with
          | nil => simp at h
          | cons b x =>
            simp only [List.cons_append, List.cons.injEq] at h
            obtain ⟨rfl, h⟩ := h
            have := ih _ (evs ++ [.ran] ++ [.used]) (by rw [Pending, since_snoc]; simp [renews]) x h
            simpa using this

theorem good_step {ph : Phase} {st : St} {evs : List Event} (h : Inv ph st evs) (hg : GoodTrace evs) (a : Act) :
    GoodTrace (evs ++ (step a st).2.2) := by
  have none := good_none hg
  have easy : ∀ e, e ≠ .ran → e ≠ .booting → e ≠ .todo → GoodTrace (evs ++ [e]) := by
    intro e h1 h2 h3
    refine good_one hg ⟨fun e => absurd e h1, fun e => ?_⟩
    rcases e with e | e
    · exact absurd e h2
    · exact absurd e h3
  cases a with
  | advance found => simp only [step]; split <;> exact none
  | call c a o =>
    simp only [step]
    unfold call
    split
    · exact none
    rename_i hc
    simp only [Bool.not_eq_true, Bool.not_eq_false'] at hc
    split
    · exact none
    cases c
    case runJob =>
      have hph : ph = .boot ∨ ph = .normal := by
        rcases h.fits.phase hc with ⟨_, e⟩ | ⟨_, e | e | ⟨_, e⟩⟩
        · cases e
        · revert e; cases ph <;> simp [base, Assistant.started, Assistant.resumed, bootable, Assistant.normal, Assistant.ended]
        · cases e
        · exact e
      simp only [body, runBody]
      repeat' split
      all_goals first
        | exact none
        | skip
      refine good_one hg ⟨fun _ => ⟨h.provs (.inl ?_), h.chosen (hph.imp_right .inl), h.pending hc, h.final ?_⟩, by simp⟩
      · rcases hph with rfl | rfl <;> decide
      · rcases hph with rfl | rfl <;> decide
    case useResult =>
      simp only [body, useResult]
      repeat' split
      all_goals first
        | exact none
        | exact easy _ (by decide) (by decide) (by decide)
    case bootstrap =>
      have hb := mem_base h.fits hc rfl (by decide) (by decide)
      have hph : ph = .boot := by
        revert hb; cases ph <;> simp [base, Assistant.started, Assistant.resumed, bootable, Assistant.normal, Assistant.ended]
      subst hph
      have hboot : ¬Pending (evs ++ [.booting]) := by rw [Pending, since_snoc]; simp [renews]
      have key : ∀ (l : List Event) (last : Event), (∀ e ∈ l, e = .ran ∨ e = .used) → last = .broke ∨ last = .bootstrapped →
          (∀ x y, l = x ++ .ran :: y → ¬Pending (evs ++ [.booting] ++ x)) → GoodTrace (evs ++ (.booting :: l ++ [last])) := by
        intro l last hl hlast hp
        refine good_append hg ?_
        intro x e y hx
        cases x with
        | nil =>
          simp only [List.cons_append, List.nil_append, List.cons.injEq] at hx
          obtain ⟨rfl, -⟩ := hx
          rw [List.append_nil]
          exact ⟨by simp, fun _ => h.broke rfl⟩
        | cons b x =>
          simp only [List.cons_append, List.cons.injEq] at hx
          obtain ⟨rfl, hx⟩ := hx
          rcases List.eq_nil_or_concat y with rfl | ⟨y', z, rfl⟩
          · obtain ⟨h1, h2⟩ := List.append_inj' hx rfl
            simp only [List.cons.injEq, and_true] at h2
            subst h2
            refine ⟨?_, ?_⟩
            · rintro rfl; rcases hlast with e | e <;> cases e
            · rintro (rfl | rfl) <;> rcases hlast with e | e <;> cases e
          · rw [List.concat_eq_append] at hx
            have hx' : l ++ [last] = (x ++ e :: y') ++ [z] := by rw [hx]; simp
            obtain ⟨h1, -⟩ := List.append_inj' hx' rfl
            have hmem : e = .ran ∨ e = .used := hl e (by rw [h1]; simp)
            refine ⟨?_, ?_⟩
            · rintro rfl
              have hx2 : ∀ d ∈ Event.booting :: x, d = .booting ∨ d = .ran ∨ d = .used := by
                intro d hd
                rcases List.mem_cons.1 hd with hd | hd
                · exact .inl hd
                · exact .inr (hl d (by rw [h1]; simp [hd]))
              refine ⟨by simp [h.provs (.inl hb.1)], since_keep _ _ _ _ ?_ (h.chosen (.inl rfl)), ?_, ?_⟩
              · intro d hd
                rcases hx2 d hd with rfl | rfl | rfl <;> decide
              · have := hp x y' h1
                rwa [List.append_assoc] at this
              · rw [finalized_skip]
                · exact h.final (by decide)
                · intro d hd
                  rcases hx2 d hd with rfl | rfl | rfl <;> decide
            · rcases hmem with rfl | rfl <;> simp
      obtain ⟨-, hev, -, -⟩ := bootLoop_spec a.boots st
      simp only [body, bootstrap]
      split
      · exact key [] .broke (by simp) (.inl rfl) (by simp)
      split
      · exact key _ .broke hev (.inl rfl) (fun x y hx => bootLoop_runs a.boots st _ hboot x y hx)
      · exact key _ .bootstrapped hev (.inr rfl) (fun x y hx => bootLoop_runs a.boots st _ hboot x y hx)
    case getBootstrapTodo =>
      have hb := mem_base h.fits hc rfl (by decide) (by decide)
      have hph : ph = .boot := by
        revert hb; cases ph <;> simp [base, Assistant.started, Assistant.resumed, bootable, Assistant.normal, Assistant.ended]
      subst hph
      simp only [body]
      split
      · exact good_one hg ⟨by simp, fun _ => h.broke rfl⟩
      · exact none
    all_goals
      simp only [body]
      repeat' split
      all_goals first
        | exact none
        | exact easy _ (by simp) (by simp) (by simp)

theorem good_run (restartable : Bool) (acts : List Act) : GoodTrace (run acts (init restartable, [])).2 := by
  have key : ∀ (acts : List Act) (s : St × List Event), (∃ ph, Inv ph s.1 s.2) → GoodTrace s.2 →
      GoodTrace (run acts s).2 := by
    intro acts
    induction acts with
    | nil => exact fun s _ h => h
    | cons a l ih =>
      rintro s ⟨ph, h⟩ hg
      exact ih _ (inv_step h a) (good_step h hg a)
  exact key acts _ ⟨.setup, inv_init restartable⟩ (by intro pre e post h; simp at h)

end Verif.Assistant
