import Verif.Lemmas.Again

/-! # C86: an interrupted `plainbox run` continues where it stopped -/

namespace Verif.Again

set_option linter.unusedSectionVars false

variable {I A K O : Type} [DecidableEq I] [DecidableEq A] [DecidableEq K]

/-! ## Specification -/

/-- Any number of processes, one after the other, dying anywhere. -/
def Reached (c : Cmd A K O) (w : World I A K O) : Prop := ∃ l, w = World.run c .start l

/-- The job has a result. -/
def Has (s : Sess A K O) (k : K) : Prop := ∃ e ∈ s.results, e.job = k

/-- The stored session. -/
def Stored (w : World I A K O) (i : I) (s : Sess A K O) : Prop := w.repo.lookup i = some (.saved s)

/-- The session of the process. -/
def Owner (w : World I A K O) (i : I) : Prop := ∃ p m, w.proc = some p ∧ p.sess = some (i, m)

/-- The user is going to be asked about the session. -/
def Asked (w : World I A K O) (i : I) : Prop :=
  ∃ p j r, w.proc = some p ∧ p.pc = .offer j r ∧ (i = j ∨ i ∈ r)

/-- A later state of a session: results are added, for jobs that had none, and none if the session was finished. -/
structure Later (d t : Sess A K O) : Prop where
  app : t.app = d.app
  added : ∃ l, t.results = l ++ d.results ∧ (∀ e ∈ l, ¬ Has d e.job) ∧ (d.incomplete = false → l = [])
  over : d.incomplete = false → t.incomplete = false

/-! ## What a step does to the repository -/

theorem has_jobs {s : Sess A K O} {k : K} : Has s k ↔ k ∈ s.jobs := by
  simp [Has, Sess.jobs, List.mem_map]

theorem Later.refl (d : Sess A K O) : Later d d :=
  ⟨rfl, ⟨[], rfl, by simp, fun _ => rfl⟩, fun h => h⟩

theorem Later.trans {d t u : Sess A K O} (h : Later d t) (h' : Later t u) : Later d u := by
  obtain ⟨ha, ⟨l, hl, hn, ho⟩, hov⟩ := h
  obtain ⟨ha', ⟨l', hl', hn', ho'⟩, hov'⟩ := h'
  refine ⟨ha'.trans ha, ⟨l' ++ l, by simp [hl', hl], fun e he => ?_, fun hd => ?_⟩, fun hd => hov' (hov hd)⟩
  · rcases List.mem_append.1 he with he | he
    · intro ⟨f, hf, hj⟩
      exact hn' e he ⟨f, by rw [hl]; exact List.mem_append_right _ hf, hj⟩
    · exact hn e he
  · rw [ho hd, ho' (hov hd)]; rfl

inductive Change (w w' : World I A K O) : Prop
  | quiet (new : List (Event I A K O)) : w'.repo = w.repo → w'.log = new ++ w.log →
      (∀ e ∈ new, (∀ j k, e ≠ .started j k) ∧ (∀ j, e ≠ .erased j) ∧
        ∀ j a r, e = .exported j a r → Owner w j) → Change w w'
  | save (i : I) (d t : Sess A K O) (new : List (Event I A K O)) : Owner w i → Stored w i d →
      w'.repo = write w.repo i (.saved t) → Later d t → w'.log = new ++ w.log →
      (∀ e ∈ new, (∀ j k, e = .started j k → j = i ∧ ¬ Has d k) ∧ (∀ j, e ≠ .erased j) ∧ ∀ j a r, e ≠ .exported j a r) →
      (t.incomplete = d.incomplete ∨ Event.finished i ∈ new) → Change w w'
  | first (i : I) (t : Sess A K O) : Owner w i → w.repo.lookup i = some .empty →
      w'.repo = write w.repo i (.saved t) → w'.log = w.log → Change w w'
  | new (i : I) (x : Content A K O) : w.repo.lookup i = none → w'.repo = (i, x) :: w.repo → w'.log = w.log → Change w w'
  | erase (i : I) : (∃ p r, w.proc = some p ∧ p.pc = .broken i r) →
      w'.repo = w.repo.filter (fun x => decide (x.1 ≠ i)) → w'.log = .erased i :: w.log → Change w w'

theorem change_same (w : World I A K O) (p : Option (Proc I A K O)) : Change w { w with proc := p } :=
  .quiet [] rfl rfl (by simp)

theorem live_later {c : Cmd A K O} {a : A} {m d t : Sess A K O} {pc : Pc I K O} (h : Live c a m d pc)
    (h1 : t.results = m.results) (h2 : t.app = m.app) (h3 : d.incomplete = false → m = d ∧ t.incomplete = false) :
    Later d t := by
  obtain ⟨l, hl, -⟩ := h.ahead
  refine ⟨by rw [h2, h.app, h.app'], ⟨l, by rw [h1, hl], fun e he hd => ?_, fun hd => ?_⟩, fun hd => (h3 hd).2⟩
  · have hn := h.base.nodup
    have : m.jobs = l.map (·.job) ++ d.jobs := by simp [Sess.jobs, hl]
    rw [this] at hn
    exact (List.nodup_append.1 hn).2.2 _ (List.mem_map.2 ⟨e, he, rfl⟩) _ (has_jobs.1 hd) rfl
  · have := (h3 hd).1
    rw [this] at hl
    simpa using hl

theorem change_checkpoint {w : World I A K O} {a : A} {i : I} {d t : Sess A K O} {pc : Pc I K O}
    {new : List (Event I A K O)} (saves : Bool) (hown : Owner w i) (hi : Stored w i d) (hl : Later d t)
    (hnew : ∀ e ∈ new, (∀ j k, e = .started j k → j = i ∧ ¬ Has d k) ∧ (∀ j, e ≠ .erased j) ∧ ∀ j a r, e ≠ .exported j a r)
    (hinc : t.incomplete = d.incomplete ∨ Event.finished i ∈ new) : Change w (w.checkpoint a i t pc saves new) := by
  unfold World.checkpoint
  split
  · exact .save i d t new hown hi rfl hl rfl hnew hinc
  · exact change_same w none

theorem go_change {c : Cmd A K O} {w : World I A K O} (h : Inv c w) {a : A} {i : I}
    {m : Sess A K O} {pc : Pc I K O} (hp : w.proc = some ⟨a, some (i, m), pc⟩) (saves starts : Bool) (o : O) :
    Change w (w.go c a i m saves starts o pc) := by
  have hown : Owner w i := ⟨_, _, hp, rfl⟩
  have hP := h.proc _ hp
  simp only [PInv] at hP
  rcases hP with ⟨rfl, rfl, hi⟩ | ⟨d, hi, hL⟩
  · simp only [World.go, World.checkpoint]
    split
    · exact .first i _ hown hi rfl rfl
    · exact change_same w none
  · have hplace := hL.place
    cases pc with
    | offer j r => exact hplace.elim
    | broken j r => exact hplace.elim
    | another => exact hplace.elim
    | create => exact hplace.elim
    | created => exact hplace.elim
    | last k => exact change_same w w.proc
    | select => exact change_same w _
    | prepare => exact change_same w _
    | loop t =>
      cases t with
      | nil => exact change_same w _
      | cons k t =>
        simp only [World.go]
        split
        · have hinc : d.incomplete = true := by rw [← hL.inc]; exact hplace.1
          refine change_checkpoint saves hown hi (live_later hL rfl rfl fun hf => ?_) ?_ (.inl hL.inc)
          · rw [hinc] at hf; cases hf
          · intro e he
            simp only [List.mem_singleton] at he
            subst he
            refine ⟨fun j k' hj => ?_, by simp, by simp⟩
            cases hj
            refine ⟨rfl, fun hd => ?_⟩
            obtain ⟨l, hl, -⟩ := hL.ahead
            have hn := (hplace.2.mem k List.mem_cons_self).2
            obtain ⟨f, hf, hj⟩ := hd
            exact hn (has_jobs.1 ⟨f, by rw [hl]; exact List.mem_append_right _ hf, hj⟩)
        · exact change_same w _
    | running k t =>
      obtain ⟨rfl, h1, h2, h3⟩ := hplace
      simp only [World.go, World.checkpoint]
      split
      · refine .save i m _ [.ended i k o] hown hi rfl (live_later hL rfl rfl fun hf => ?_) (by simp) ?_ (.inl rfl)
        · rw [h1] at hf; cases hf
        · simp
      · exact .quiet [.ended i k o] rfl rfl (by simp)
    | ended k o t => exact change_same w _
    | finishing =>
      have hinc : d.incomplete = true := by rw [← hL.inc]; exact hplace.1
      refine change_checkpoint saves hown hi (live_later hL rfl rfl fun hf => ?_) (by simp) (.inr (by simp))
      rw [hinc] at hf; cases hf
    | exporting =>
      refine .quiet [.exported i a m.results] rfl rfl ?_
      intro e he
      simp only [List.mem_singleton] at he
      subst he
      refine ⟨by simp, by simp, fun j a' r hj => ?_⟩
      cases hj; exact hown
    | exported =>
      obtain ⟨rfl, h1, h2⟩ := hplace
      exact change_checkpoint saves hown hi (live_later hL rfl rfl fun hf => ⟨rfl, h1⟩) (by simp) (.inl rfl)
    | done => exact change_same w none

theorem step_change {c : Cmd A K O} {w : World I A K O} (h : Inv c w) (x : Act I A O) :
    Change w (w.step c x) := by
  cases x with
  | die => exact change_same w none
  | foreign i =>
    simp only [World.step]
    split
    · next hu => exact .new i .bad (unused_spec hu).1 rfl rfl
    · exact change_same w w.proc
  | launch a b =>
    simp only [World.step]
    split
    · exact change_same w w.proc
    · exact change_same w _
  | offer x loads =>
    simp only [World.step]
    split
    · cases x
      · simp only
        split
        · split <;> exact change_same w _
        · exact change_same w _
      · exact change_same w _
      · exact change_same w _
    · exact change_same w w.proc
  | broken erase =>
    simp only [World.step]
    split
    · next a se i r hp =>
      split
      · exact .erase i ⟨_, r, hp, rfl⟩ rfl rfl
      · exact change_same w _
    · exact change_same w w.proc
  | another yes =>
    simp only [World.step]
    split
    · split <;> exact change_same w _
    · exact change_same w w.proc
  | last x saves =>
    simp only [World.step]
    split
    · next a i m k hp =>
      have hP := h.proc _ hp
      simp only [PInv] at hP
      rcases hP with ⟨h1, -⟩ | ⟨d, hi, hL⟩
      · cases h1
      obtain ⟨rfl, h1, h2⟩ := hL.place
      have hk := (h.disk i m hi).running h1 k h2
      split
      · next o ho =>
        refine change_checkpoint saves ⟨_, _, hp, rfl⟩ hi ⟨rfl, ⟨[⟨k, o, .told⟩], rfl, ?_, fun hf => ?_⟩, fun hf => ?_⟩
          (by simp) (.inl rfl)
        · intro e he
          simp only [List.mem_singleton] at he
          subst he
          exact fun hh => hk.2 (has_jobs.1 hh)
        · rw [h1] at hf; cases hf
        · rw [h1] at hf; cases hf
      · exact change_same w _
    · exact change_same w w.proc
  | create i =>
    simp only [World.step]
    split
    · split
      · next hu => exact .new i .empty (unused_spec hu).1 rfl rfl
      · exact change_same w w.proc
    · exact change_same w w.proc
  | go saves starts o =>
    simp only [World.step]
    split
    · next a i s pc hp => exact go_change h hp saves starts o
    · exact change_same w w.proc

theorem stored_write {w w' : World I A K O} {i j : I} {d s t : Sess A K O} (hi : Stored w i d)
    (hr : w'.repo = write w.repo i (.saved t)) (hs : Stored w j s) :
    (j = i ∧ s = d ∧ Stored w' j t) ∨ (j ≠ i ∧ Stored w' j s) := by
  by_cases hj : j = i
  · subst hj
    refine .inl ⟨rfl, ?_, ?_⟩
    · unfold Stored at hi hs; rw [hs] at hi; cases hi; rfl
    · unfold Stored at hi ⊢; rw [hr, lookup_write, if_pos rfl, hi]; rfl
  · refine .inr ⟨hj, ?_⟩
    unfold Stored at hs ⊢; rw [hr, lookup_write, if_neg hj, hs]

/-- What becomes of a stored session. -/
theorem step_stored {w w' : World I A K O} (h : Change w w') {i : I} {s : Sess A K O} (hs : Stored w i s) :
    (Event.erased i ∈ w'.log ∨ ∃ t, Stored w' i t ∧ Later s t ∧
      (t.incomplete = s.incomplete ∨ Event.finished i ∈ w'.log)) ∧
    ∃ new, w'.log = new ++ w.log ∧ ∀ k, Has s k → Event.started i k ∉ new := by
  cases h with
  | quiet new hr hl he =>
    refine ⟨.inr ⟨s, ?_, .refl s, .inl rfl⟩, new, hl, fun k _ hk => (he _ hk).1 i k rfl⟩
    unfold Stored; rw [hr]; exact hs
  | save j d t new hown hi hr hlat hl he hinc =>
    rcases stored_write hi hr hs with ⟨rfl, rfl, hs'⟩ | ⟨hj, hs'⟩
    · refine ⟨.inr ⟨t, hs', hlat, ?_⟩, new, hl, fun k hk hm => ((he _ hm).1 i k rfl).2 hk⟩
      rcases hinc with hinc | hinc
      · exact .inl hinc
      · exact .inr (by rw [hl]; exact List.mem_append_left _ hinc)
    · exact ⟨.inr ⟨s, hs', .refl s, .inl rfl⟩, new, hl, fun k hk hm => hj ((he _ hm).1 i k rfl).1⟩
  | first j t hown hi hr hl =>
    have hj : i ≠ j := by
      rintro rfl
      unfold Stored at hs; rw [hi] at hs; cases hs
    refine ⟨.inr ⟨s, ?_, .refl s, .inl rfl⟩, [], by simpa using hl, by simp⟩
    unfold Stored; rw [hr, lookup_write, if_neg hj]; exact hs
  | new j x hi hr hl =>
    have hj : i ≠ j := by
      rintro rfl
      unfold Stored at hs; rw [hi] at hs; cases hs
    refine ⟨.inr ⟨s, ?_, .refl s, .inl rfl⟩, [], by simpa using hl, by simp⟩
    have : (i == j) = false := by simpa using hj
    unfold Stored; rw [hr]; simp only [List.lookup, this]; exact hs
  | erase j hb hr hl =>
    by_cases hj : i = j
    · subst hj
      exact ⟨.inl (by rw [hl]; exact List.mem_cons_self), [.erased i], hl, by simp⟩
    · refine ⟨.inr ⟨s, ?_, .refl s, .inl rfl⟩, [.erased j], hl, by simp⟩
      unfold Stored; rw [hr, lookup_erase, if_neg hj]; exact hs

theorem log_grows {w w' : World I A K O} (h : Change w w') : ∃ new, w'.log = new ++ w.log := by
  cases h with
  | quiet new _ hl _ => exact ⟨new, hl⟩
  | save _ _ _ new _ _ _ _ hl _ _ => exact ⟨new, hl⟩
  | first _ _ _ _ _ hl => exact ⟨[], hl⟩
  | new _ _ _ _ hl => exact ⟨[], hl⟩
  | erase j _ _ hl => exact ⟨[.erased j], hl⟩

theorem log_run {c : Cmd A K O} (hc : ∀ a, (c.jobs a).Nodup) : ∀ (l : List (Act I A O)) (w : World I A K O), Inv c w →
    ∃ new, (w.run c l).log = new ++ w.log
  | [], _, _ => ⟨[], rfl⟩
  | x :: l, w, h => by
    obtain ⟨n1, h1⟩ := log_grows (step_change h x)
    obtain ⟨n2, h2⟩ := log_run hc l (w.step c x) (step_inv hc h x)
    refine ⟨n2 ++ n1, ?_⟩
    show ((w.step c x).run c l).log = _
    rw [h2, h1, List.append_assoc]

theorem run_stored {c : Cmd A K O} (hc : ∀ a, (c.jobs a).Nodup) : ∀ (l : List (Act I A O)) (w : World I A K O), Inv c w →
    ∀ (i : I) (s : Sess A K O), Stored w i s →
    (Event.erased i ∈ (w.run c l).log ∨ ∃ t, Stored (w.run c l) i t ∧ Later s t ∧
      (t.incomplete = s.incomplete ∨ Event.finished i ∈ (w.run c l).log)) ∧
    ∃ new, (w.run c l).log = new ++ w.log ∧ (Event.erased i ∉ (w.run c l).log → ∀ k, Has s k → Event.started i k ∉ new)
  | [], w, _, i, s, hs => ⟨.inr ⟨s, hs, .refl s, .inl rfl⟩, [], rfl, by simp⟩
  | x :: l, w, h, i, s, hs => by
    have hi' := step_inv hc h x
    obtain ⟨h1, n1, h2, h3⟩ := step_stored (step_change h x) hs
    obtain ⟨n2, h4⟩ := log_run hc l (w.step c x) hi'
    have hrun : w.run c (x :: l) = (w.step c x).run c l := rfl
    rcases h1 with h1 | ⟨t, ht, hlat, hinc⟩
    · have : Event.erased i ∈ (w.run c (x :: l)).log := by
        rw [hrun, h4]; exact List.mem_append_right _ h1
      exact ⟨.inl this, n2 ++ n1, by rw [hrun, h4, h2, List.append_assoc], fun hn => absurd this hn⟩
    · obtain ⟨h5, n3, h6, h7⟩ := run_stored hc l (w.step c x) hi' i t ht
      rw [hrun]
      constructor
      · rcases h5 with h5 | ⟨u, hu, hlu, hincu⟩
        · exact .inl h5
        · refine .inr ⟨u, hu, hlat.trans hlu, ?_⟩
          rcases hinc with hinc | hinc
          · rcases hincu with hincu | hincu
            · exact .inl (hincu.trans hinc)
            · exact .inr hincu
          · exact .inr (by rw [h6]; exact List.mem_append_right _ hinc)
      · refine ⟨n3 ++ n1, by rw [h6, h2, List.append_assoc], fun hn k hk hm => ?_⟩
        rcases List.mem_append.1 hm with hm | hm
        · refine h7 hn k ?_ hm
          obtain ⟨l', hl', -⟩ := hlat.added
          obtain ⟨e, he, hj⟩ := hk
          exact ⟨e, by rw [hl']; exact List.mem_append_right _ he, hj⟩
        · exact h3 k hk hm

theorem eq_of_key {α β : Type} (f : α → β) : ∀ {l : List α}, (l.map f).Nodup → ∀ {x y}, x ∈ l → y ∈ l → f x = f y → x = y
  | [], _, _, _, hx, _, _ => by cases hx
  | z :: l, h, x, y, hx, hy, e => by
    simp only [List.map_cons, List.nodup_cons, List.mem_map, not_exists, not_and] at h
    rcases List.mem_cons.1 hx with rfl | hx' <;> rcases List.mem_cons.1 hy with rfl | hy'
    · rfl
    · exact absurd e.symm (h.1 y hy')
    · exact absurd e (h.1 x hx')
    · exact eq_of_key f h.2 hx' hy' e

theorem count_nodup {l : List K} (h : l.Nodup) {k : K} (hk : k ∈ l) : l.count k = 1 := by
  have h1 := List.nodup_iff_count.1 h k
  have h2 := List.count_pos_iff.2 hk
  omega

theorem reached_inv {c : Cmd A K O} (hc : ∀ a, (c.jobs a).Nodup) {w : World I A K O} (h : Reached c w) : Inv c w := by
  obtain ⟨l, rfl⟩ := h
  exact run_inv hc l _ (start_inv c)

/-- A session becomes that of the process only if it is new, or stored and not finished. -/
theorem owner_step {c : Cmd A K O} {w : World I A K O} (h : Inv c w) (x : Act I A O) {i : I}
    (ho : Owner (w.step c x) i) :
    Owner w i ∨ w.repo.lookup i = none ∨ ∃ s, Stored w i s ∧ s.incomplete = true := by
  have same : ∀ (p : Proc I A K O), p.sess = none → ¬ Owner (I := I) { w with proc := some p } i := by
    rintro p hn ⟨p', m, hp, hs⟩
    cases hp; rw [hn] at hs; cases hs
  have dead : ∀ (r : List (I × Content A K O)) (lg : List (Event I A K O)), ¬ Owner (⟨r, none, lg⟩ : World I A K O) i := by
    rintro r lg ⟨p', m, hp, hs⟩; cases hp
  have keep : ∀ (w' : World I A K O) (p : Proc I A K O) (j : I) (m : Sess A K O), w'.proc = some p →
      p.sess = some (j, m) → Owner w' i → j = i := by
    rintro w' p j m hp hs ⟨p', m', hp', hs'⟩
    rw [hp] at hp'; cases hp'; rw [hs] at hs'; cases hs'; rfl
  have check : ∀ (w0 : World I A K O) (a : A) (j : I) (m : Sess A K O) (pc : Pc I K O) (b : Bool) (new : List (Event I A K O)),
      Owner (w0.checkpoint a j m pc b new) i → j = i := by
    intro w0 a j m pc b new hh
    unfold World.checkpoint at hh
    split at hh
    · exact keep _ _ j m rfl rfl hh
    · exact absurd hh (dead _ _)
  cases x with
  | launch a b =>
    simp only [World.step] at ho
    split at ho
    · exact .inl ho
    · exact absurd ho (same _ rfl)
  | offer x loads =>
    simp only [World.step] at ho
    split at ho
    · next a se j r hp =>
      cases x with
      | resume =>
        simp only at ho
        split at ho
        · next s hs =>
          split at ho
          · have := keep _ _ j s rfl rfl ho
            subst this
            have hP := h.proc _ hp
            have hcs : Cands w.repo a (j :: r) := by
              cases se with
              | none => exact hP
              | some y =>
                rcases hP with ⟨h1, -⟩ | ⟨d, -, h1⟩
                · cases h1
                · exact h1.place.elim
            obtain ⟨s', hs', -, hinc⟩ := hcs.2 j List.mem_cons_self
            exact .inr (.inr ⟨s', hs', hinc⟩)
          · exact absurd ho (same _ rfl)
        · exact absurd ho (same _ rfl)
      | next => exact absurd ho (same _ rfl)
      | create => exact absurd ho (same _ rfl)
    · exact .inl ho
  | broken erase =>
    simp only [World.step] at ho
    split at ho
    · split at ho
      · obtain ⟨p', m, hp, hs⟩ := ho
        cases hp; cases hs
      · exact absurd ho (same _ rfl)
    · exact .inl ho
  | another yes =>
    simp only [World.step] at ho
    split at ho
    · split at ho
      · exact absurd ho (same _ rfl)
      · exact absurd ho (dead _ _)
    · exact .inl ho
  | last x saves =>
    simp only [World.step] at ho
    split at ho
    · next a j m k hp =>
      have hown : j = i → Owner w i := by rintro rfl; exact ⟨_, _, hp, rfl⟩
      split at ho
      · exact .inl (hown (check _ _ _ _ _ _ _ ho))
      · exact .inl (hown (keep _ _ j m rfl rfl ho))
    · exact .inl ho
  | create j =>
    simp only [World.step] at ho
    split at ho
    · split at ho
      · next hu =>
        have := keep _ _ j _ rfl rfl ho
        subst this
        exact .inr (.inl (unused_spec hu).1)
      · exact .inl ho
    · exact .inl ho
  | go saves starts o =>
    simp only [World.step] at ho
    split at ho
    · next a j m pc hp =>
      have hown : j = i → Owner w i := by rintro rfl; exact ⟨_, _, hp, rfl⟩
      refine .inl ?_
      cases pc with
      | loop t =>
        cases t with
        | nil => exact hown (keep _ _ j _ rfl rfl ho)
        | cons k t =>
          simp only [World.go] at ho
          split at ho
          · exact hown (check _ _ _ _ _ _ _ ho)
          · exact hown (keep _ _ j _ rfl rfl ho)
      | created => exact hown (check _ _ _ _ _ _ _ ho)
      | running k t => exact hown (check _ _ _ _ _ _ _ ho)
      | finishing => exact hown (check _ _ _ _ _ _ _ ho)
      | exported => exact hown (check _ _ _ _ _ _ _ ho)
      | done => exact absurd ho (dead _ _)
      | select => exact hown (keep _ _ j _ rfl rfl ho)
      | prepare => exact hown (keep _ _ j _ rfl rfl ho)
      | ended k o t => exact hown (keep _ _ j _ rfl rfl ho)
      | exporting => exact hown (keep _ _ j _ rfl rfl ho)
      | _ => exact ho
    · exact .inl ho
  | die => exact absurd ho (dead _ _)
  | foreign j =>
    simp only [World.step] at ho
    split at ho
    · exact .inl ho
    · exact .inl ho

/-- A finished session that no process has is never touched again. -/
theorem over_step {c : Cmd A K O} {w : World I A K O} (h : Inv c w) (x : Act I A O) {i : I}
    {s : Sess A K O} (hs : Stored w i s) (hf : s.incomplete = false) (ho : ¬ Owner w i)
    (he : ∀ a r, Event.exported i a r ∉ w.log) :
    Stored (w.step c x) i s ∧ ¬ Owner (w.step c x) i ∧ ∀ a r, Event.exported i a r ∉ (w.step c x).log := by
  have h1 : ¬ Owner (w.step c x) i := by
    intro h'
    rcases owner_step h x h' with h' | h' | ⟨s', hs', hinc⟩
    · exact ho h'
    · unfold Stored at hs; rw [h'] at hs; cases hs
    · unfold Stored at hs hs'; rw [hs] at hs'; cases hs'; rw [hf] at hinc; cases hinc
  cases step_change h x with
  | quiet new hr hl hn =>
    refine ⟨by unfold Stored; rw [hr]; exact hs, h1, fun a r hm => ?_⟩
    rw [hl] at hm
    rcases List.mem_append.1 hm with hm | hm
    · exact ho ((hn _ hm).2.2 i a r rfl)
    · exact he a r hm
  | save j d t new hown hi hr hlat hl hn hinc =>
    have hj : i ≠ j := by rintro rfl; exact ho hown
    refine ⟨by unfold Stored; rw [hr, lookup_write, if_neg hj]; exact hs, h1, fun a r hm => ?_⟩
    rw [hl] at hm
    rcases List.mem_append.1 hm with hm | hm
    · exact (hn _ hm).2.2 i a r rfl
    · exact he a r hm
  | first j t hown hi hr hl =>
    have hj : i ≠ j := by rintro rfl; exact ho hown
    exact ⟨by unfold Stored; rw [hr, lookup_write, if_neg hj]; exact hs, h1, by rw [hl]; exact he⟩
  | new j y hi hr hl =>
    have hj : i ≠ j := by
      rintro rfl
      unfold Stored at hs; rw [hi] at hs; cases hs
    have : (i == j) = false := by simpa using hj
    exact ⟨by unfold Stored; rw [hr]; simp only [List.lookup, this]; exact hs, h1, by rw [hl]; exact he⟩
  | erase j hbr hr hl =>
    obtain ⟨p, r, hp, hpc⟩ := hbr
    have hj : i ≠ j := by
      rintro rfl
      have hP := h.proc p hp
      have hcs : Cands w.repo p.app (i :: r) := by
        obtain ⟨a, se, pc⟩ := p
        simp only at hpc
        subst hpc
        cases se with
        | none => exact hP
        | some y =>
          rcases hP with ⟨h1, -⟩ | ⟨d, -, h1⟩
          · cases h1
          · exact h1.place.elim
      obtain ⟨s', hs', -, hinc⟩ := hcs.2 i List.mem_cons_self
      unfold Stored at hs; rw [hs] at hs'; cases hs'; rw [hf] at hinc; cases hinc
    refine ⟨by unfold Stored; rw [hr, lookup_erase, if_neg hj]; exact hs, h1, fun a r => ?_⟩
    rw [hl]
    simpa using he a r

theorem over_run {c : Cmd A K O} (hc : ∀ a, (c.jobs a).Nodup) : ∀ (l : List (Act I A O)) (w : World I A K O), Inv c w →
    ∀ (i : I) (s : Sess A K O), Stored w i s → s.incomplete = false → ¬ Owner w i →
      (∀ a r, Event.exported i a r ∉ w.log) →
      Stored (w.run c l) i s ∧ ¬ Owner (w.run c l) i ∧ ∀ a r, Event.exported i a r ∉ (w.run c l).log
  | [], _, _, _, _, hs, _, ho, he => ⟨hs, ho, he⟩
  | x :: l, w, h, i, s, hs, hf, ho, he => by
    obtain ⟨h1, h2, h3⟩ := over_step h x hs hf ho he
    exact over_run hc l (w.step c x) (step_inv hc h x) i s h1 hf h2 h3

/-! ## Theorems -/

/-- The user is asked about exactly the stored sessions of the same command that are not finished. -/
theorem C86_offered {c : Cmd A K O} (hc : ∀ a, (c.jobs a).Nodup) {w : World I A K O} (h : Reached c w)
    (hp : w.proc = none) (a : A) (i : I) :
    Asked (w.step c (.launch a true)) i ↔ ∃ s, Stored w i s ∧ s.app = a ∧ s.incomplete = true := by
  have hI := reached_inv hc h
  have key : Asked (w.step c (.launch a true)) i ↔ i ∈ candidates a w.repo := by
    simp only [World.step, hp, Asked, if_true]
    cases e : candidates a w.repo with
    | nil =>
      constructor
      · rintro ⟨p, j, r, ⟨⟩, hpc, -⟩; cases hpc
      · intro h; cases h
    | cons j r =>
      constructor
      · rintro ⟨p, j', r', ⟨⟩, hpc, hm⟩
        cases hpc
        rcases hm with rfl | hm
        · exact List.mem_cons_self
        · exact List.mem_cons_of_mem _ hm
      · intro hm
        exact ⟨_, j, r, rfl, rfl, List.mem_cons.1 hm⟩
  rw [key, mem_candidates]
  constructor
  · rintro ⟨s, hs, h'⟩; exact ⟨s, mem_lookup hI.keys hs, h'⟩
  · rintro ⟨s, hs, h'⟩; exact ⟨s, lookup_mem hs, h'⟩

/-- From the first checkpoint until all jobs are done the session of the process is stored as an unfinished one of
its command. -/
theorem C86_begun {c : Cmd A K O} (hc : ∀ a, (c.jobs a).Nodup) {w : World I A K O} (h : Reached c w) {a : A} {i : I}
    {m : Sess A K O} {pc : Pc I K O} (hp : w.proc = some ⟨a, some (i, m), pc⟩) (h1 : pc ≠ .created)
    (h2 : pc ≠ .exporting) (h3 : pc ≠ .exported) (h4 : pc ≠ .done) :
    ∃ s, Stored w i s ∧ s.app = a ∧ s.incomplete = true := by
  have hP := (reached_inv hc h).proc _ hp
  rcases hP with ⟨rfl, -⟩ | ⟨d, hd, hL⟩
  · exact absurd rfl h1
  · refine ⟨d, hd, hL.app', ?_⟩
    rw [← hL.inc]
    have := hL.place
    simp only at this
    cases pc <;> simp only [Place] at this
    all_goals first | exact this.elim | exact this.2.1 | exact this.1 | skip
    · exact absurd rfl h2
    · exact absurd rfl h3
    · exact absurd rfl h4

/-- A session that is not finished stays on offer until it is finished, or the user erases it. -/
theorem C86_unfinished {c : Cmd A K O} (hc : ∀ a, (c.jobs a).Nodup) {w : World I A K O} (h : Reached c w) {i : I}
    {s : Sess A K O} (hs : Stored w i s) (hinc : s.incomplete = true) (l : List (Act I A O)) :
    Event.finished i ∈ (w.run c l).log ∨ Event.erased i ∈ (w.run c l).log ∨
      ((w.run c l).proc = none → Asked ((w.run c l).step c (.launch s.app true)) i) := by
  have hI := reached_inv hc h
  rcases (run_stored hc l w hI i s hs).1 with he | ⟨t, ht, hlat, hf | hf⟩
  · exact .inr (.inl he)
  · refine .inr (.inr fun hp => ?_)
    have hr : Reached c (w.run c l) := by
      obtain ⟨l0, rfl⟩ := h
      exact ⟨l0 ++ l, by simp [World.run, List.foldl_append]⟩
    exact (C86_offered hc hr hp s.app i).2 ⟨t, ht, hlat.app, hf.trans hinc⟩
  · exact .inl hf

/-- A stored result is never changed or lost, unless the user erases the session. -/
theorem C86_kept {c : Cmd A K O} (hc : ∀ a, (c.jobs a).Nodup) {w : World I A K O} (h : Reached c w) {i : I}
    {s : Sess A K O} (hs : Stored w i s) (l : List (Act I A O)) (hl : Event.erased i ∉ (w.run c l).log) :
    ∃ t, Stored (w.run c l) i t ∧ ∀ e ∈ s.results, e ∈ t.results ∧ ∀ f ∈ t.results, f.job = e.job → f = e := by
  have hI := reached_inv hc h
  rcases (run_stored hc l w hI i s hs).1 with he | ⟨t, ht, hlat, -⟩
  · exact absurd he hl
  · refine ⟨t, ht, fun e he => ?_⟩
    obtain ⟨l', hl', -⟩ := hlat.added
    have hmem : e ∈ t.results := by rw [hl']; exact List.mem_append_right _ he
    refine ⟨hmem, fun f hf hj => ?_⟩
    have hn := ((run_inv hc l w hI).disk i t ht).base.nodup
    exact eq_of_key Entry.job hn hf hmem hj

/-- A job with a stored result is not run again. -/
theorem C86_once {c : Cmd A K O} (hc : ∀ a, (c.jobs a).Nodup) {w : World I A K O} (h : Reached c w) {i : I}
    {s : Sess A K O} (hs : Stored w i s) (l : List (Act I A O)) (hl : Event.erased i ∉ (w.run c l).log) :
    ∃ new, (w.run c l).log = new ++ w.log ∧ ∀ k, Has s k → Event.started i k ∉ new := by
  obtain ⟨-, new, h1, h2⟩ := run_stored hc l w (reached_inv hc h) i s hs
  exact ⟨new, h1, h2 hl⟩

/-- While a job runs, the stored session has all results so far and the name of the job. -/
theorem C86_running {c : Cmd A K O} (hc : ∀ a, (c.jobs a).Nodup) {w : World I A K O} (h : Reached c w) {a : A} {i : I}
    {m : Sess A K O} {k : K} {t : List K} (hp : w.proc = some ⟨a, some (i, m), .running k t⟩) :
    Stored w i m ∧ m.running = some k ∧ ¬ Has m k := by
  rcases (reached_inv hc h).proc _ hp with ⟨h1, -⟩ | ⟨d, hd, hL⟩
  · cases h1
  · obtain ⟨rfl, h1, h2, h3⟩ := hL.place
    exact ⟨hd, h2, fun hh => (h3.mem k List.mem_cons_self).2 (has_jobs.1 hh)⟩

/-- At any moment at most one result of a job that was run is not stored. (Partial: it should be none, see
`C86_again_violated`.) -/
theorem C86_saved_partial {c : Cmd A K O} (hc : ∀ a, (c.jobs a).Nodup) {w : World I A K O} (h : Reached c w) {a : A}
    {i : I} {m : Sess A K O} {pc : Pc I K O} (hp : w.proc = some ⟨a, some (i, m), pc⟩) {s : Sess A K O}
    (hs : Stored w i s) :
    ∃ l, m.results = l ++ s.results ∧ (l.filter fun e => decide (e.how = .ran)).length ≤ 1 := by
  rcases (reached_inv hc h).proc _ hp with ⟨-, -, h1⟩ | ⟨d, hd, hL⟩
  · unfold Stored at hs; rw [h1] at hs; cases hs
  · unfold Stored at hs; rw [hd] at hs; cases hs
    obtain ⟨l, h1, h2⟩ := hL.ahead
    exact ⟨l, h1, by rw [← List.countP_eq_length_filter]; exact h2⟩

/-- The session that the user chose is the one that is resumed, as it was stored; they are asked about the job that
was running, if any. -/
theorem C86_resumed {c : Cmd A K O} (hc : ∀ a, (c.jobs a).Nodup) {w : World I A K O} (h : Reached c w) {a : A}
    {se : Option (I × Sess A K O)} {i : I} {r : List I} (hp : w.proc = some ⟨a, se, .offer i r⟩) :
    ∃ s, Stored w i s ∧ s.app = a ∧ s.incomplete = true ∧
      ∃ pc, (w.step c (.offer .resume true)).proc = some ⟨a, some (i, s), pc⟩ ∧
        (w.step c (.offer .resume true)).repo = w.repo ∧ ∀ k, pc = .last k ↔ s.running = some k := by
  have hP := (reached_inv hc h).proc _ hp
  have hcs : Cands w.repo a (i :: r) := by
    cases se with
    | none => exact hP
    | some y =>
      rcases hP with ⟨h1, -⟩ | ⟨d, -, h1⟩
      · cases h1
      · exact h1.place.elim
  obtain ⟨s, hs, ha, hinc⟩ := hcs.2 i List.mem_cons_self
  refine ⟨s, hs, ha, hinc, ?_⟩
  simp only [World.step, hp, hs, if_true]
  refine ⟨_, rfl, trivial, fun k => ?_⟩
  cases s.running <;> simp

/-- What the user says about the job that was running is what is stored for it, and nothing else changes; if they
want to run it again it is among the jobs to run. -/
theorem C86_last {c : Cmd A K O} (hc : ∀ a, (c.jobs a).Nodup) {w : World I A K O} (h : Reached c w) {a : A} {i : I}
    {m : Sess A K O} {k : K} (hp : w.proc = some ⟨a, some (i, m), .last k⟩) :
    Stored w i m ∧ ¬ Has m k ∧
    (∀ x o, (x = .skip ∧ o = c.skip ∨ x = .pass ∧ o = c.pass ∨ x = .fail ∧ o = c.fail) →
      Stored (w.step c (.last x true)) i { m with running := none, results := ⟨k, o, .told⟩ :: m.results } ∧
      ∀ j, j ≠ i → (w.step c (.last x true)).repo.lookup j = w.repo.lookup j) ∧
    (∀ b o', (w.step c (.last .again b)).repo = w.repo ∧
      ∃ t, ((w.step c (.last .again b)).step c (.go true true o')).proc = some ⟨a, some (i, m), .loop t⟩ ∧ k ∈ t) := by
  have hI := reached_inv hc h
  rcases hI.proc _ hp with ⟨h1, -⟩ | ⟨d, hd, hL⟩
  · cases h1
  obtain ⟨rfl, h1, h2⟩ := hL.place
  have hk := (hI.disk i m hd).running h1 k h2
  refine ⟨hd, fun hh => hk.2 (has_jobs.1 hh), fun x o hx => ?_, fun b o' => ?_⟩
  · have : c.told x = some o := by
      rcases hx with ⟨rfl, rfl⟩ | ⟨rfl, rfl⟩ | ⟨rfl, rfl⟩ <;> rfl
    simp only [World.step, hp, this, World.checkpoint, if_true]
    constructor
    · unfold Stored
      simp only [lookup_write, if_true]
      rw [show w.repo.lookup i = some (.saved m) from hd]; rfl
    · intro j hj
      simp only [lookup_write, if_neg hj]
  · have : c.told .again = none := rfl
    simp only [World.step, hp, this, World.go]
    refine ⟨trivial, _, rfl, List.mem_filter.2 ⟨hk.1, ?_⟩⟩
    cases e : m.has k
    · rfl
    · exact absurd (has_iff.1 e) hk.2

/-- A step changes only the session of the process, one that the user erases, or a new one. -/
theorem C86_untouched {c : Cmd A K O} (hc : ∀ a, (c.jobs a).Nodup) {w : World I A K O} (h : Reached c w)
    (x : Act I A O) (j : I) (hj : (w.step c x).repo.lookup j ≠ w.repo.lookup j) :
    Owner w j ∨ w.repo.lookup j = none ∨ ∃ p r, w.proc = some p ∧ p.pc = .broken j r := by
  cases step_change (reached_inv hc h) x with
  | quiet new hr _ _ => rw [hr] at hj; exact absurd rfl hj
  | save i d t new hown _ hr _ _ _ _ =>
    by_cases hij : j = i
    · subst hij; exact .inl hown
    · rw [hr, lookup_write, if_neg hij] at hj; exact absurd rfl hj
  | first i t hown _ hr _ =>
    by_cases hij : j = i
    · subst hij; exact .inl hown
    · rw [hr, lookup_write, if_neg hij] at hj; exact absurd rfl hj
  | new i y hi hr _ =>
    by_cases hij : j = i
    · subst hij; exact .inr (.inl hi)
    · have : (j == i) = false := by simpa using hij
      rw [hr] at hj; simp only [List.lookup, this] at hj; exact absurd rfl hj
  | erase i hb hr _ =>
    by_cases hij : j = i
    · subst hij; exact .inr (.inr hb)
    · rw [hr, lookup_erase, if_neg hij] at hj; exact absurd rfl hj

/-- When results are exported there is one for each of the jobs of the command, and no others; or there is none at
all, and no job of the session was ever started. (Partial: the second should not happen, see `C86_empty_violated`.) -/
theorem C86_complete_partial {c : Cmd A K O} (hc : ∀ a, (c.jobs a).Nodup) {w : World I A K O} (h : Reached c w)
    (x : Act I A O) {i : I} {a : A} {res : List (Entry K O)} (hx : Event.exported i a res ∈ (w.step c x).log)
    (hw : Event.exported i a res ∉ w.log) :
    (∀ k, (res.filter fun e => decide (e.job = k)).length = if k ∈ c.jobs a then 1 else 0) ∨
      (res = [] ∧ ∀ k, Event.started i k ∉ w.log) := by
  have hI := reached_inv hc h
  have hown : ∃ m, w.proc = some ⟨a, some (i, m), .exporting⟩ ∧ res = m.results := by
    cases x with
    | go saves starts o =>
      simp only [World.step] at hx
      split at hx
      · next a' i' m pc hp =>
        have hck : ∀ (w0 : World I A K O) (s : Sess A K O) (pc : Pc I K O) (b : Bool) (new : List (Event I A K O)),
            Event.exported i a res ∉ new → Event.exported i a res ∉ w0.log →
            Event.exported i a res ∉ (w0.checkpoint a' i' s pc b new).log := by
          intro w0 s pc b new h1 h2
          unfold World.checkpoint
          split
          · simp only [List.mem_append, not_or]; exact ⟨h1, h2⟩
          · exact h2
        cases pc with
        | exporting =>
          simp only [World.go] at hx
          rcases List.mem_cons.1 hx with hx | hx
          · cases hx; exact ⟨m, hp, rfl⟩
          · exact absurd hx hw
        | loop t =>
          cases t with
          | nil => exact absurd hx hw
          | cons k t =>
            simp only [World.go] at hx
            split at hx
            · exact absurd hx (hck _ _ _ _ _ (by simp) hw)
            · exact absurd hx hw
        | running k t => exact absurd hx (hck _ _ _ _ _ (by simp) (by simpa using hw))
        | created => exact absurd hx (hck _ _ _ _ _ (by simp) hw)
        | finishing => exact absurd hx (hck _ _ _ _ _ (by simp) hw)
        | exported => exact absurd hx (hck _ _ _ _ _ (by simp) hw)
        | _ => exact absurd hx hw
      · exact absurd hx hw
    | last y saves =>
      simp only [World.step] at hx
      split at hx
      · split at hx
        · unfold World.checkpoint at hx
          split at hx
          · exact absurd hx (by simpa using hw)
          · exact absurd hx hw
        · exact absurd hx hw
      · exact absurd hx hw
    | _ =>
      exfalso
      simp only [World.step] at hx
      repeat' split at hx
      all_goals first | exact hw hx | (simp at hx; exact hw hx)
  obtain ⟨m, hp, rfl⟩ := hown
  rcases hI.proc _ hp with ⟨h1, -⟩ | ⟨d, hd, hL⟩
  · cases h1
  obtain ⟨rfl, h1, h2⟩ := hL.place
  have hcount : ∀ k, (m.results.filter fun e => decide (e.job = k)).length = if k ∈ m.jobs then 1 else 0 := by
    intro k
    have hn := hL.base.nodup
    have e : (m.results.filter fun e => decide (e.job = k)).length = m.jobs.count k := by
      unfold Sess.jobs List.count
      rw [List.countP_map, List.countP_eq_length_filter]
      congr 1
    rw [e]
    split
    · next hk => exact count_nodup hn hk
    · next hk => exact List.count_eq_zero_of_not_mem hk
  have hmem : ∀ k, k ∈ m.jobs ↔ k ∈ m.run := fun k =>
    ⟨hL.base.sub k, fun hk => (h2.all k hk).resolve_left (by simp)⟩
  by_cases hr : m.run = c.jobs a
  · left
    intro k
    rw [hcount k]
    simp only [hmem, hr]
  · right
    have hnil : m.run = [] := by
      rcases hL.base.run with hb | hb
      · exact hb
      · rw [hL.app] at hb; exact absurd hb hr
    constructor
    · cases e : m.results with
      | nil => rfl
      | cons y l =>
        have := hL.base.sub y.job (by simp [Sess.jobs, e])
        rw [hnil] at this; cases this
    · intro k hk
      rcases hI.started i k hk with he | ⟨d', hd', hr'⟩
      · rw [hI.gone i he] at hd; cases hd
      · rw [hd] at hd'; cases hd'
        rw [hL.app] at hr'
        exact hr hr'

/-! ## Where the code fails -/

/-- The command of the examples: jobs 10, 11 and 12; outcomes 0 (skip), 1 (pass), 2 (fail). -/
def exCmd : Cmd Nat Nat Nat := ⟨fun _ => [10, 11, 12], 0, 1, 2⟩

theorem exCmd_nodup : ∀ a, (exCmd.jobs a).Nodup := fun _ => by
  show [10, 11, 12].Nodup
  decide

/-- A process up to the start of its first job. -/
def exFirst : List (Act Nat Nat Nat) :=
  [.launch 5 true, .create 0, .go true true 0, .go true true 0, .go true true 0, .go true true 0]

/-- Job 10 has passed, job 11 runs. -/
def exSecond : List (Act Nat Nat Nat) := exFirst ++ [.go true true 1, .go true true 0, .go true true 0]

/-- The result of a job is taken over only after the checkpoint that says that no job is running. If the process dies
in between, the user is not asked about the job, and it is run again although it has ended. (inv_run 779-780, 804) -/
theorem C86_again_violated : ∃ (l : List (Act Nat Nat Nat)), (∀ x b, Act.last x b ∉ l) ∧
    (World.run exCmd (.start : World Nat Nat Nat Nat) l).log =
      [.started 0 10, .ended 0 10 1, .started 0 10] := by
  refine ⟨exFirst ++ [.go true true 1, .die, .launch 5 true, .offer .resume true, .go true true 0, .go true true 0],
    ?_, by decide⟩
  intro x b
  simp [exFirst]

/-- The session is on offer before its jobs are selected. If the process dies in between, and the user resumes the
session, no job is run, and an empty report is exported. (inv_run 402-406) -/
theorem C86_empty_violated : ∃ (l : List (Act Nat Nat Nat)),
    (World.run exCmd (.start : World Nat Nat Nat Nat) l).log = [.exported 0 5 [], .finished 0] := by
  refine ⟨[.launch 5 true, .create 0, .go true true 0, .die, .launch 5 true, .offer .resume true,
    .go true true 0, .go true true 0, .go true true 0, .go true true 0], by decide⟩

/-- The session is marked as finished before its results are exported. If the process dies in between the session is
never offered again and its results are never exported. (inv_run 416-420) -/
theorem C86_export_violated : ∃ (w : World Nat Nat Nat Nat) (s : Sess Nat Nat Nat), Reached exCmd w ∧ w.proc = none ∧
    Stored w 0 s ∧ s.results.length = 3 ∧
    ∀ l, Stored (w.run exCmd l) 0 s ∧ (∀ a r, Event.exported 0 a r ∉ (w.run exCmd l).log) ∧
      ∀ a, (w.run exCmd l).proc = none → ¬ Asked ((w.run exCmd l).step exCmd (.launch a true)) 0 := by
  let acts : List (Act Nat Nat Nat) := exSecond ++ List.replicate 7 (.go true true 1) ++ [.die]
  have hr : Reached exCmd (World.run exCmd (.start : World Nat Nat Nat Nat) acts) := ⟨acts, rfl⟩
  refine ⟨_, ⟨5, false, false, none, [10, 11, 12], [⟨12, 1, .ran⟩, ⟨11, 1, .ran⟩, ⟨10, 1, .ran⟩]⟩, hr, by decide,
    (by unfold Stored; decide), rfl, fun l => ?_⟩
  have hlog : (World.run exCmd (.start : World Nat Nat Nat Nat) acts).log =
      [.finished 0, .ended 0 12 1, .started 0 12, .ended 0 11 1, .started 0 11, .ended 0 10 1, .started 0 10] := by decide
  have hproc : (World.run exCmd (.start : World Nat Nat Nat Nat) acts).proc = none := by decide
  obtain ⟨h1, -, h2⟩ := over_run exCmd_nodup l _ (reached_inv exCmd_nodup hr) 0
    ⟨5, false, false, none, [10, 11, 12], [⟨12, 1, .ran⟩, ⟨11, 1, .ran⟩, ⟨10, 1, .ran⟩]⟩ (by unfold Stored; decide) rfl
    (by rintro ⟨p, m, hp, -⟩; rw [hproc] at hp; cases hp) (by intro a r; rw [hlog]; simp)
  refine ⟨h1, h2, fun a hp hask => ?_⟩
  have hr' : Reached exCmd ((World.run exCmd (.start : World Nat Nat Nat Nat) acts).run exCmd l) :=
    ⟨acts ++ l, by simp [World.run, List.foldl_append]⟩
  obtain ⟨s', hs', -, hinc⟩ := (C86_offered exCmd_nodup hr' hp a 0).1 hask
  unfold Stored at h1 hs'
  rw [h1] at hs'
  cases hs'
  cases hinc

/-! ## Examples -/

/-- A process dies while its second job runs; a storage that cannot be read is there, and one of another command. -/
def exWorld : World Nat Nat Nat Nat :=
  .run exCmd .start ([.launch 6 false, .create 7, .go true true 0, .die, .foreign 9] ++ exSecond ++ [.die])

-- C86_offered: only session 0 is on offer for command 5
example : exWorld.proc = none ∧ candidates 5 exWorld.repo = [0] ∧ (exWorld.repo.map (·.1)) = [0, 9, 7] := by decide

-- C86_resumed: the user is asked about job 11
example : (exWorld.run exCmd [.launch 5 true, .offer .resume true]).proc =
    some ⟨5, some (0, ⟨5, true, false, some 11, [10, 11, 12], [⟨10, 1, .ran⟩]⟩), .last 11⟩ := by decide

-- C86_last, C86_unfinished, C86_kept, C86_once: it failed; job 12 cannot start; all is exported, job 10 ran once
example : (exWorld.run exCmd ([.launch 5 true, .offer .resume true, .last .fail true, .go true true 0, .go true false 0] ++
      List.replicate 3 (.go true true 0))).log =
    [.exported 0 5 [⟨12, 0, .cannot⟩, ⟨11, 2, .told⟩, ⟨10, 1, .ran⟩], .finished 0, .started 0 11, .ended 0 10 1,
      .started 0 10] := by decide

-- C86_last: or it is run again
example : (exWorld.run exCmd [.launch 5 true, .offer .resume true, .last .again true, .go true true 0]).proc =
    some ⟨5, some (0, ⟨5, true, false, some 11, [10, 11, 12], [⟨10, 1, .ran⟩]⟩), .loop [11, 12]⟩ := by decide

-- C86_running, C86_begun, C86_saved_partial: while job 11 runs; and after it, its result is in memory only
example : (World.run exCmd .start exSecond).proc =
      some ⟨5, some (0, ⟨5, true, false, some 11, [10, 11, 12], [⟨10, 1, .ran⟩]⟩), .running 11 [12]⟩ ∧
    (World.run exCmd .start (exSecond ++ [.go true true 1, .go true true 0])).proc =
      some ⟨5, some (0, ⟨5, true, false, none, [10, 11, 12], [⟨11, 1, .ran⟩, ⟨10, 1, .ran⟩]⟩), .loop [12]⟩ ∧
    (World.run exCmd .start (exSecond ++ [.go true true 1, .go true true 0])).repo =
      [(0, .saved ⟨5, true, false, none, [10, 11, 12], [⟨10, 1, .ran⟩]⟩)] := by decide

-- C86_untouched: a session that cannot be loaded is erased, the others stay
example : (exWorld.run exCmd [.launch 5 true, .offer .resume false, .broken true]).repo.map (·.1) = [9, 7] := by decide

end Verif.Again
