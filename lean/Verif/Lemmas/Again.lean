import Verif.Model.Again

/-! # Lemmas about interrupted runs -/

namespace Verif.Again

set_option linter.unusedSectionVars false

variable {I A K O : Type} [DecidableEq I] [DecidableEq A] [DecidableEq K]

/-! ## The repository -/

theorem lookup_write (repo : List (I × Content A K O)) (i j : I) (c : Content A K O) :
    (write repo i c).lookup j = if j = i then (repo.lookup i).map fun _ => c else repo.lookup j := by
  induction repo with
  | nil => simp [write]
  | cons x repo ih =>
    obtain ⟨k, y⟩ := x
    simp only [write, List.map_cons] at ih ⊢
    by_cases hk : k = i
    · subst hk
      by_cases hj : j = k
      · subst hj
        simp [List.lookup]
      · have : (j == k) = false := by simpa using hj
        simp only [if_true, List.lookup, this, if_neg hj] at ih ⊢
        exact ih
    · simp only [if_neg hk]
      have hik : (i == k) = false := by simpa using fun h : i = k => hk h.symm
      by_cases hj : j = k
      · subst hj
        simp [List.lookup, hk]
      · have : (j == k) = false := by simpa using hj
        simp only [List.lookup, this, hik] at ih ⊢
        exact ih

theorem keys_write (repo : List (I × Content A K O)) (i : I) (c : Content A K O) :
    (write repo i c).map (·.1) = repo.map (·.1) := by
  induction repo with
  | nil => rfl
  | cons x repo ih =>
    simp only [write, List.map_cons] at ih ⊢
    rw [ih]
    by_cases h : x.1 = i <;> simp [h]

theorem lookup_erase (repo : List (I × Content A K O)) (i j : I) :
    (repo.filter fun x => decide (x.1 ≠ i)).lookup j = if j = i then none else repo.lookup j := by
  induction repo with
  | nil => simp
  | cons x repo ih =>
    obtain ⟨k, y⟩ := x
    by_cases hk : k = i
    · subst hk
      simp only [ne_eq, not_true_eq_false, decide_false, List.filter_cons, Bool.false_eq_true, if_false]
      rw [show (List.filter (fun x : I × Content A K O => decide (¬ x.1 = k)) repo).lookup j = _ from ih]
      by_cases hj : j = k
      · simp [hj]
      · have : (j == k) = false := by simpa using hj
        simp [hj, List.lookup, this]
    · simp only [ne_eq, hk, not_false_eq_true, decide_true, List.filter_cons, if_true]
      by_cases hj : j = k
      · subst hj
        simp [List.lookup, hk]
      · have : (j == k) = false := by simpa using hj
        simp only [List.lookup, this]
        exact ih

theorem lookup_mem {repo : List (I × Content A K O)} {i : I} {x : Content A K O} (h : repo.lookup i = some x) :
    (i, x) ∈ repo := by
  induction repo with
  | nil => cases h
  | cons y repo ih =>
    obtain ⟨k, y⟩ := y
    by_cases hk : i = k
    · subst hk
      simp [List.lookup] at h
      subst h; simp
    · have : (i == k) = false := by simpa using hk
      simp only [List.lookup, this] at h
      exact List.mem_cons_of_mem _ (ih h)

theorem mem_lookup {repo : List (I × Content A K O)} (hn : (repo.map (·.1)).Nodup) {i : I} {x : Content A K O}
    (h : (i, x) ∈ repo) : repo.lookup i = some x := by
  induction repo with
  | nil => cases h
  | cons y repo ih =>
    obtain ⟨k, y⟩ := y
    simp only [List.map_cons, List.nodup_cons] at hn
    rcases List.mem_cons.1 h with h | h'
    · cases h; simp [List.lookup]
    · have hk : i ≠ k := by
        rintro rfl
        exact hn.1 (List.mem_map.2 ⟨(i, x), h', rfl⟩)
      have : (i == k) = false := by simpa using hk
      simp only [List.lookup, this]
      exact ih hn.2 h'

theorem lookup_none_key {repo : List (I × Content A K O)} {i : I} (h : repo.lookup i = none) :
    i ∉ repo.map (·.1) := by
  intro hm
  obtain ⟨⟨k, x⟩, hx, rfl⟩ := List.mem_map.1 hm
  induction repo with
  | nil => cases hx
  | cons y repo ih =>
    obtain ⟨j, y⟩ := y
    by_cases hk : k = j
    · subst hk; simp [List.lookup] at h
    · have : (k == j) = false := by simpa using hk
      simp only [List.lookup, this] at h
      rcases List.mem_cons.1 hx with hx | hx
      · cases hx; exact hk rfl
      · exact ih hx h (List.mem_map.2 ⟨(k, x), hx, rfl⟩)

theorem mem_candidates {repo : List (I × Content A K O)} {a : A} {i : I} :
    i ∈ candidates a repo ↔ ∃ s, (i, Content.saved s) ∈ repo ∧ s.app = a ∧ s.incomplete = true := by
  simp only [candidates, List.mem_filterMap]
  constructor
  · rintro ⟨⟨k, x⟩, hx, h⟩
    cases x with
    | saved s =>
      simp only at h
      split at h
      · next hc => cases h; exact ⟨s, hx, hc⟩
      · cases h
    | empty => cases h
    | bad => cases h
  · rintro ⟨s, hx, hc⟩
    exact ⟨_, hx, by simp [hc]⟩

theorem candidates_nodup {repo : List (I × Content A K O)} (hn : (repo.map (·.1)).Nodup) (a : A) :
    (candidates a repo).Nodup := by
  induction repo with
  | nil => simp [candidates]
  | cons y repo ih =>
    obtain ⟨k, y⟩ := y
    simp only [List.map_cons, List.nodup_cons] at hn
    have hk : k ∉ candidates a repo := by
      intro h
      obtain ⟨s, hs, -⟩ := mem_candidates.1 h
      exact hn.1 (List.mem_map.2 ⟨_, hs, rfl⟩)
    have := ih hn.2
    simp only [candidates, List.filterMap_cons] at this hk ⊢
    split
    · exact this
    · next b hb =>
      have : b = k := by
        cases y with
        | saved s =>
          simp only at hb
          split at hb
          · cases hb; rfl
          · cases hb
        | empty => cases hb
        | bad => cases hb
      subst this
      exact List.nodup_cons.2 ⟨hk, ih hn.2⟩

/-! ## The invariant -/

/-- The jobs that have a result. -/
def Sess.jobs (s : Sess A K O) : List K := s.results.map (·.job)

theorem has_iff {s : Sess A K O} {k : K} : s.has k = true ↔ k ∈ s.jobs := by
  simp [Sess.has, Sess.jobs, List.any_eq_true, List.mem_map]

/-- Results were obtained by running. -/
def ranB (e : Entry K O) : Bool := decide (e.how = .ran)

structure Base (c : Cmd A K O) (s : Sess A K O) : Prop where
  run : s.run = [] ∨ s.run = c.jobs s.app
  nodup : s.jobs.Nodup
  sub : ∀ k ∈ s.jobs, k ∈ s.run

structure DiskOK (c : Cmd A K O) (s : Sess A K O) : Prop where
  base : Base c s
  running : s.incomplete = true → ∀ k, s.running = some k → k ∈ s.run ∧ k ∉ s.jobs

/-- The jobs that are still to be considered. -/
structure Todo (m : Sess A K O) (t : List K) : Prop where
  nodup : t.Nodup
  mem : ∀ k ∈ t, k ∈ m.run ∧ k ∉ m.jobs
  all : ∀ k ∈ m.run, k ∈ t ∨ k ∈ m.jobs

def Place (m d : Sess A K O) : Pc I K O → Prop
  | .select => m = d ∧ m.incomplete = true ∧ m.run = [] ∧ m.results = []
  | .last k => m = d ∧ m.incomplete = true ∧ m.running = some k
  | .prepare => m.incomplete = true ∧ m.results = d.results
  | .loop t => m.incomplete = true ∧ Todo m t
  | .running k t => m = d ∧ m.incomplete = true ∧ m.running = some k ∧ Todo m (k :: t)
  | .ended k _ t => m = d ∧ m.incomplete = true ∧ Todo m (k :: t)
  | .finishing => m.incomplete = true ∧ Todo m []
  | .exporting => m = d ∧ m.incomplete = false ∧ Todo m []
  | .exported => m = d ∧ m.incomplete = false ∧ Todo m []
  | .done => m = d ∧ m.incomplete = false ∧ Todo m []
  | _ => False

structure Live (c : Cmd A K O) (a : A) (m d : Sess A K O) (pc : Pc I K O) : Prop where
  app : m.app = a
  app' : d.app = a
  base : Base c m
  inc : m.incomplete = d.incomplete
  run : d.run = m.run ∨ d.run = []
  ahead : ∃ l, m.results = l ++ d.results ∧ l.countP ranB ≤ 1
  place : Place m d pc

def Cands (repo : List (I × Content A K O)) (a : A) (l : List I) : Prop :=
  l.Nodup ∧ ∀ j ∈ l, ∃ s, repo.lookup j = some (.saved s) ∧ s.app = a ∧ s.incomplete = true

def PInv (c : Cmd A K O) (repo : List (I × Content A K O)) (p : Proc I A K O) : Prop :=
  match p.sess with
  | none =>
    match p.pc with
    | .offer i r => Cands repo p.app (i :: r)
    | .broken i r => Cands repo p.app (i :: r)
    | .another => True
    | .create => True
    | _ => False
  | some (i, m) =>
    (p.pc = .created ∧ m = .blank p.app ∧ repo.lookup i = some .empty) ∨
      ∃ d, repo.lookup i = some (.saved d) ∧ Live c p.app m d p.pc

structure Inv (c : Cmd A K O) (w : World I A K O) : Prop where
  keys : (w.repo.map (·.1)).Nodup
  disk : ∀ i s, w.repo.lookup i = some (.saved s) → DiskOK c s
  proc : ∀ p, w.proc = some p → PInv c w.repo p
  started : ∀ i k, Event.started i k ∈ w.log →
    Event.erased i ∈ w.log ∨ ∃ d, w.repo.lookup i = some (.saved d) ∧ d.run = c.jobs d.app
  gone : ∀ i, Event.erased i ∈ w.log → w.repo.lookup i = none

theorem start_inv (c : Cmd A K O) : Inv c (.start : World I A K O) := by
  constructor <;> simp [World.start]

/-- Another process, or none. -/
theorem inv_proc {c : Cmd A K O} {w : World I A K O} (h : Inv c w) (p : Option (Proc I A K O))
    (hp : ∀ q, p = some q → PInv c w.repo q) : Inv c { w with proc := p } :=
  ⟨h.keys, h.disk, hp, h.started, h.gone⟩

theorem inv_log {c : Cmd A K O} {w : World I A K O} (h : Inv c w) (e : Event I A K O)
    (h1 : ∀ i k, e ≠ .started i k) (h2 : ∀ i, e ≠ .erased i) : Inv c { w with log := e :: w.log } := by
  refine ⟨h.keys, h.disk, h.proc, fun i k hm => ?_, fun i hm => ?_⟩
  · rcases List.mem_cons.1 hm with hm | hm
    · exact absurd hm.symm (h1 i k)
    · rcases h.started i k hm with hg | hg
      · exact .inl (List.mem_cons_of_mem _ hg)
      · exact .inr hg
  · rcases List.mem_cons.1 hm with hm | hm
    · exact absurd hm.symm (h2 i)
    · exact h.gone i hm

theorem inv_checkpoint {c : Cmd A K O} {w : World I A K O} (h : Inv c w) {a : A} {i : I} {s : Sess A K O}
    {x : Content A K O} {pc : Pc I K O} {new : List (Event I A K O)} (saves : Bool)
    (hi : w.repo.lookup i = some x) (hd : DiskOK c s) (hl : Live c a s s pc)
    (h1 : ∀ j k, .started j k ∈ new → j = i ∧ s.run = c.jobs s.app)
    (h2 : ∀ j, Event.erased j ∉ new)
    (h3 : ∀ d, x = .saved d → d.run = c.jobs d.app → s.run = c.jobs s.app) : Inv c (w.checkpoint a i s pc saves new) := by
  unfold World.checkpoint
  split
  · have hself : (write w.repo i (.saved s)).lookup i = some (.saved s) := by
      rw [lookup_write, if_pos rfl, hi]; rfl
    constructor
    · simp only [keys_write]; exact h.keys
    · intro j t hj
      simp only [lookup_write] at hj
      split at hj
      · rw [hi] at hj; cases hj; exact hd
      · exact h.disk j t hj
    · rintro p ⟨⟩
      exact .inr ⟨s, hself, hl⟩
    · intro j k hm
      simp only [List.mem_append] at hm ⊢
      rcases hm with hm | hm
      · obtain ⟨rfl, hr⟩ := h1 j k hm
        exact .inr ⟨s, hself, hr⟩
      · rcases h.started j k hm with hg | ⟨d, hg, hr⟩
        · exact .inl (.inr hg)
        · right
          by_cases hj : j = i
          · subst hj
            rw [hi] at hg; cases hg
            exact ⟨s, hself, h3 d rfl hr⟩
          · refine ⟨d, ?_, hr⟩
            rw [lookup_write, if_neg hj]; exact hg
    · intro j hm
      simp only [List.mem_append] at hm
      rcases hm with hm | hm
      · exact absurd hm (h2 j)
      · have := h.gone j hm
        simp only [lookup_write]
        split
        · next hj => subst hj; rw [hi] at this; cases this
        · exact this
  · exact inv_proc h none (by simp)

theorem unused_spec {w : World I A K O} {i : I} (h : w.unused i = true) :
    w.repo.lookup i = none ∧ Event.erased i ∉ w.log := by
  simp only [World.unused, Bool.and_eq_true, List.all_eq_true] at h
  refine ⟨by simpa using h.1, fun hm => ?_⟩
  have := h.2 _ hm
  simp at this

theorem cands_after {c : Cmd A K O} {repo : List (I × Content A K O)} {a : A} {l : List I} (h : Cands repo a l) :
    PInv c repo (⟨a, none, afterOffer l⟩ : Proc I A K O) := by
  cases l with
  | nil => trivial
  | cons j r => exact h

theorem cands_tail {repo : List (I × Content A K O)} {a : A} {i : I} {l : List I} (h : Cands repo a (i :: l)) :
    Cands repo a l :=
  ⟨(List.nodup_cons.1 h.1).2, fun j hj => h.2 j (List.mem_cons_of_mem _ hj)⟩

/-- A new storage. -/
theorem inv_new {c : Cmd A K O} {w : World I A K O} (h : Inv c w) {i : I} {x : Content A K O} (hu : w.unused i = true)
    (hx : ∀ s, x ≠ .saved s) (p : Option (Proc I A K O)) (hp : ∀ q, p = some q → PInv c ((i, x) :: w.repo) q) :
    Inv c { w with repo := (i, x) :: w.repo, proc := p } := by
  obtain ⟨hn, hg⟩ := unused_spec hu
  have hl : ∀ j, j ≠ i → ((i, x) :: w.repo).lookup j = w.repo.lookup j := by
    intro j hj
    have : (j == i) = false := by simpa using hj
    simp [List.lookup, this]
  have hi : ((i, x) :: w.repo).lookup i = some x := by simp [List.lookup]
  constructor
  · simp only [List.map_cons, List.nodup_cons]
    exact ⟨lookup_none_key hn, h.keys⟩
  · intro j s hj
    by_cases hji : j = i
    · subst hji
      rw [hi] at hj; cases hj; exact absurd rfl (hx s)
    · rw [hl j hji] at hj; exact h.disk j s hj
  · exact hp
  · intro j k hm
    rcases h.started j k hm with he | ⟨d, hd, hr⟩
    · exact .inl he
    · refine .inr ⟨d, ?_, hr⟩
      rw [hl j, hd]
      rintro rfl
      rw [hn] at hd; cases hd
  · intro j hm
    have : j ≠ i := by rintro rfl; exact hg hm
    simp only [hl j this]
    exact h.gone j hm

theorem todo_cons {m m' : Sess A K O} {k : K} {t : List K} (h : Todo m (k :: t)) (hr : m'.run = m.run)
    (hj : m'.jobs = k :: m.jobs) : Todo m' t := by
  have hn := List.nodup_cons.1 h.nodup
  refine ⟨hn.2, fun j hj' => ?_, fun j hj' => ?_⟩
  · have := h.mem j (List.mem_cons_of_mem _ hj')
    rw [hr, hj]
    refine ⟨this.1, fun hm => ?_⟩
    rcases List.mem_cons.1 hm with rfl | hm
    · exact hn.1 hj'
    · exact this.2 hm
  · rw [hr] at hj'
    rw [hj]
    rcases h.all j hj' with hm | hm
    · rcases List.mem_cons.1 hm with rfl | hm
      · exact .inr List.mem_cons_self
      · exact .inl hm
    · exact .inr (List.mem_cons_of_mem _ hm)

theorem base_cons {c : Cmd A K O} {m m' : Sess A K O} {k : K} (h : Base c m) (hr : m'.run = m.run) (ha : m'.app = m.app)
    (hj : m'.jobs = k :: m.jobs) (hk : k ∈ m.run) (hn : k ∉ m.jobs) : Base c m' := by
  refine ⟨by rw [hr, ha]; exact h.run, ?_, fun j hj' => ?_⟩
  · rw [hj]; exact List.nodup_cons.2 ⟨hn, h.nodup⟩
  · rw [hj] at hj'; rw [hr]
    rcases List.mem_cons.1 hj' with rfl | hj'
    · exact hk
    · exact h.sub j hj'

theorem base_same {c : Cmd A K O} {m m' : Sess A K O} (h : Base c m) (hr : m'.run = m.run) (ha : m'.app = m.app)
    (hj : m'.results = m.results) : Base c m' := by
  have : m'.jobs = m.jobs := by simp [Sess.jobs, hj]
  exact ⟨by rw [hr, ha]; exact h.run, by rw [this]; exact h.nodup, by rw [this, hr]; exact h.sub⟩

theorem todo_same {m m' : Sess A K O} {t : List K} (h : Todo m t) (hr : m'.run = m.run)
    (hj : m'.results = m.results) : Todo m' t := by
  have : m'.jobs = m.jobs := by simp [Sess.jobs, hj]
  exact ⟨h.nodup, by rw [this, hr]; exact h.mem, by rw [this, hr]; exact h.all⟩

theorem live_self {c : Cmd A K O} {m : Sess A K O} {pc : Pc I K O} (hb : Base c m) (hp : Place m m pc) :
    Live c m.app m m pc :=
  ⟨rfl, rfl, hb, rfl, .inl rfl, ⟨[], rfl, by simp⟩, hp⟩

/-- The selection is not forgotten by a checkpoint. -/
theorem run_kept {c : Cmd A K O} {a : A} {m d : Sess A K O} {pc : Pc I K O} (h : Live c a m d pc)
    (hr : d.run = c.jobs d.app) : m.run = c.jobs m.app := by
  rcases h.base.run with hb | hb
  · rcases h.run with hd | hd
    · rw [← hd, hr, h.app, h.app']
    · rw [hb, h.app, ← h.app', ← hr, hd]
  · exact hb

theorem go_inv {c : Cmd A K O} (hc : ∀ a, (c.jobs a).Nodup) {w : World I A K O} (h : Inv c w) {a : A} {i : I}
    {m : Sess A K O} {pc : Pc I K O} (hp : w.proc = some ⟨a, some (i, m), pc⟩) (saves starts : Bool) (o : O) :
    Inv c (w.go c a i m saves starts o pc) := by
  have hP := h.proc _ hp
  simp only [PInv] at hP
  rcases hP with ⟨rfl, rfl, hi⟩ | ⟨d, hi, hL⟩
  · simp only [World.go]
    have hb : Base c ({ (Sess.blank a : Sess A K O) with app := a, incomplete := true }) :=
      ⟨.inl rfl, by simp [Sess.jobs, Sess.blank], by simp [Sess.jobs, Sess.blank]⟩
    exact inv_checkpoint h saves hi ⟨hb, fun _ k hk => by cases hk⟩
      (live_self hb ⟨rfl, rfl, rfl, rfl⟩) (by simp) (by simp) (fun d hd => by cases hd)
  · obtain ⟨happ, happ', hb, hinc, hrun, ⟨l, hl, hcnt⟩, hplace⟩ := id hL
    -- a step that stores nothing
    have move : ∀ (m' : Sess A K O) (pc' : Pc I K O), Live c a m' d pc' →
        Inv c { w with proc := some ⟨a, some (i, m'), pc'⟩ } := fun m' pc' hl' =>
      inv_proc h _ (by rintro q ⟨⟩; exact .inr ⟨d, hi, hl'⟩)
    have kept : ∀ d', Content.saved d = Content.saved d' → d'.run = c.jobs d'.app → m.run = c.jobs m.app := by
      rintro d' ⟨⟩; exact run_kept hL
    cases pc with
    | offer j r => exact hplace.elim
    | broken j r => exact hplace.elim
    | another => exact hplace.elim
    | create => exact hplace.elim
    | created => exact hplace.elim
    | last k => exact h
    | select =>
      obtain ⟨rfl, h1, h2, h3⟩ := hplace
      have hj : m.jobs = [] := by simp [Sess.jobs, h3]
      refine move _ _ ⟨happ, happ, ⟨.inr (by simp [happ]), ?_, ?_⟩, rfl, .inr h2, ⟨[], rfl, by simp⟩, h1, rfl⟩
      · show m.jobs.Nodup
        rw [hj]; simp
      · show ∀ k ∈ m.jobs, _
        rw [hj]; simp
    | prepare =>
      obtain ⟨h1, h2⟩ := hplace
      refine move _ _ ⟨happ, happ', hb, hinc, hrun, ⟨l, hl, hcnt⟩, h1, ?_, ?_, ?_⟩
      · have hn : m.run.Nodup := by
          rcases hb.run with hr | hr
          · rw [hr]; simp
          · rw [hr]; exact hc _
        exact hn.sublist List.filter_sublist
      · intro k hk
        rw [List.mem_filter] at hk
        refine ⟨hk.1, fun hm => ?_⟩
        have := has_iff.2 hm
        simp [this] at hk
      · intro k hk
        by_cases hm : k ∈ m.jobs
        · exact .inr hm
        · refine .inl (List.mem_filter.2 ⟨hk, ?_⟩)
          have : m.has k = false := by
            cases e : m.has k
            · rfl
            · exact absurd (has_iff.1 e) hm
          simp [this]
    | loop t =>
      obtain ⟨h1, h2⟩ := hplace
      cases t with
      | nil => exact move _ _ ⟨happ, happ', hb, hinc, hrun, ⟨l, hl, hcnt⟩, h1, h2⟩
      | cons k t =>
        have hk := h2.mem k List.mem_cons_self
        simp only [World.go]
        split
        · have hb' : Base c { m with running := some k } := base_same hb rfl rfl rfl
          have hr : m.run = c.jobs m.app := by
            rcases hb.run with hr | hr
            · rw [hr] at hk; cases hk.1
            · exact hr
          refine inv_checkpoint h saves hi ⟨hb', fun _ j hj => ?_⟩ ?_ ?_ (by simp) kept
          · cases hj; exact hk
          · rw [← happ]
            exact live_self hb' ⟨rfl, h1, rfl, todo_same h2 rfl rfl⟩
          · intro j k' hm
            simp at hm
            exact ⟨hm.1, hr⟩
        · refine move _ _ ⟨happ, happ', base_cons hb rfl rfl rfl hk.1 hk.2, hinc, hrun,
            ⟨⟨k, o, .cannot⟩ :: l, by simp [hl], ?_⟩, h1, todo_cons h2 rfl rfl⟩
          rw [List.countP_cons_of_neg (by simp [ranB])]; exact hcnt
    | running k t =>
      obtain ⟨rfl, h1, h2, h3⟩ := hplace
      simp only [World.go]
      have hb' : Base c { m with running := none } := base_same hb rfl rfl rfl
      refine inv_checkpoint (inv_log h _ (by simp) (by simp)) saves hi ⟨hb', fun _ j hj => by cases hj⟩ ?_
        (by simp) (by simp) kept
      rw [← happ]
      exact live_self hb' ⟨rfl, h1, todo_same h3 rfl rfl⟩
    | ended k o t =>
      obtain ⟨rfl, h1, h2⟩ := hplace
      have hk := h2.mem k List.mem_cons_self
      refine move _ _ ⟨happ, happ', base_cons hb rfl rfl rfl hk.1 hk.2, rfl, .inl rfl,
        ⟨[⟨k, o, .ran⟩], by simp, ?_⟩, h1, todo_cons h2 rfl rfl⟩
      exact Nat.le_trans List.countP_le_length (by simp)
    | finishing =>
      obtain ⟨h1, h2⟩ := hplace
      have hb' : Base c { m with incomplete := false } := base_same hb rfl rfl rfl
      refine inv_checkpoint h saves hi ⟨hb', fun hf => by cases hf⟩ ?_ (by simp) (by simp) kept
      rw [← happ]
      exact live_self hb' ⟨rfl, rfl, todo_same h2 rfl rfl⟩
    | exporting =>
      obtain ⟨rfl, h1, h2⟩ := hplace
      have := move m .exported ⟨happ, happ', hb, rfl, .inl rfl, ⟨[], rfl, by simp⟩, rfl, h1, h2⟩
      exact inv_log this (.exported i a m.results) (by simp) (by simp)
    | exported =>
      obtain ⟨rfl, h1, h2⟩ := hplace
      have hb' : Base c { m with submitted := true } := base_same hb rfl rfl rfl
      refine inv_checkpoint h saves hi ⟨hb', fun hf => by rw [show m.incomplete = true from hf] at h1; cases h1⟩ ?_
        (by simp) (by simp) kept
      rw [← happ]
      exact live_self hb' ⟨rfl, h1, todo_same h2 rfl rfl⟩
    | done => exact inv_proc h none (by simp)

theorem step_inv {c : Cmd A K O} (hc : ∀ a, (c.jobs a).Nodup) {w : World I A K O} (h : Inv c w) (x : Act I A O) :
    Inv c (w.step c x) := by
  cases x with
  | die => exact inv_proc h none (by simp)
  | foreign i =>
    simp only [World.step]
    split
    · next hu =>
      refine inv_new h hu (by simp) w.proc (fun q hq => ?_)
      have hP := h.proc q hq
      have hn := (unused_spec hu).1
      have hl : ∀ j y, w.repo.lookup j = some y → ((i, Content.bad) :: w.repo).lookup j = some y := by
        intro j y hj
        have hji : j ≠ i := by rintro rfl; rw [hn] at hj; cases hj
        have : (j == i) = false := by simpa using hji
        simp [List.lookup, this, hj]
      have hcands : ∀ a l, Cands w.repo a l → Cands ((i, Content.bad) :: w.repo) a l := fun a l hcs =>
        ⟨hcs.1, fun j hj => by
          obtain ⟨s, h1, h2⟩ := hcs.2 j hj
          exact ⟨s, hl j _ h1, h2⟩⟩
      obtain ⟨a, se, pc⟩ := q
      unfold PInv at hP ⊢
      cases se with
      | none => cases pc <;> first | exact hP | exact hcands _ _ hP
      | some y =>
        rcases hP with ⟨h1, h2, h3⟩ | ⟨d, h1, h2⟩
        · exact .inl ⟨h1, h2, hl _ _ h3⟩
        · exact .inr ⟨d, hl _ _ h1, h2⟩
    · exact h
  | launch a b =>
    simp only [World.step]
    split
    · exact h
    · refine inv_proc h _ ?_
      rintro q ⟨⟩
      simp only [PInv]
      cases b with
      | false => trivial
      | true =>
        simp only [if_true]
        cases e : candidates a w.repo with
        | nil => trivial
        | cons j r =>
          simp only
          rw [← e]
          refine ⟨candidates_nodup h.keys a, fun k hk => ?_⟩
          obtain ⟨s, h1, h2⟩ := mem_candidates.1 hk
          exact ⟨s, mem_lookup h.keys h1, h2⟩
  | offer x loads =>
    simp only [World.step]
    split
    · next a se i r hp =>
      have hP := h.proc _ hp
      have hcs : Cands w.repo a (i :: r) := by
        cases se with
        | none => exact hP
        | some y =>
          rcases hP with ⟨h1, -⟩ | ⟨d, -, h1⟩
          · cases h1
          · exact h1.place.elim
      obtain ⟨s, hs, ha, hinc⟩ := hcs.2 i List.mem_cons_self
      cases x with
      | resume =>
        simp only [hs]
        split
        · refine inv_proc h _ ?_
          rintro q ⟨⟩
          have hd := h.disk i s hs
          refine .inr ⟨s, hs, ?_⟩
          simp only
          rw [← ha]
          refine live_self hd.base ?_
          cases e : s.running with
          | none => exact ⟨hinc, rfl⟩
          | some k => exact ⟨rfl, hinc, e⟩
        · exact inv_proc h _ (by rintro q ⟨⟩; exact hcs)
      | next => exact inv_proc h _ (by rintro q ⟨⟩; exact cands_after (cands_tail hcs))
      | create => exact inv_proc h _ (by rintro q ⟨⟩; trivial)
    · exact h
  | broken erase =>
    simp only [World.step]
    split
    · next a se i r hp =>
      have hP := h.proc _ hp
      have hcs : Cands w.repo a (i :: r) := by
        cases se with
        | none => exact hP
        | some y =>
          rcases hP with ⟨h1, -⟩ | ⟨d, -, h1⟩
          · cases h1
          · exact h1.place.elim
      have hir := (List.nodup_cons.1 hcs.1).1
      split
      · constructor
        · refine h.keys.sublist ?_
          exact List.Sublist.map _ List.filter_sublist
        · intro j s hj
          simp only [lookup_erase] at hj
          split at hj
          · cases hj
          · exact h.disk j s hj
        · rintro q ⟨⟩
          refine cands_after ⟨(cands_tail hcs).1, fun j hj => ?_⟩
          obtain ⟨s, h1, h2⟩ := (cands_tail hcs).2 j hj
          refine ⟨s, ?_, h2⟩
          rw [lookup_erase, if_neg (by rintro rfl; exact hir hj), h1]
        · intro j k hm
          rcases List.mem_cons.1 hm with hm | hm
          · cases hm
          · rcases h.started j k hm with he | ⟨d, hd, hr⟩
            · exact .inl (List.mem_cons_of_mem _ he)
            · by_cases hj : j = i
              · subst hj; exact .inl List.mem_cons_self
              · refine .inr ⟨d, ?_, hr⟩
                simp only [lookup_erase, if_neg hj, hd]
        · intro j hm
          simp only [lookup_erase]
          split
          · rfl
          · next hj =>
            rcases List.mem_cons.1 hm with hm | hm
            · cases hm; exact absurd rfl hj
            · exact h.gone j hm
      · exact inv_proc h _ (by rintro q ⟨⟩; exact cands_after (cands_tail hcs))
    · exact h
  | another yes =>
    simp only [World.step]
    split
    · split
      · exact inv_proc h _ (by rintro q ⟨⟩; trivial)
      · exact inv_proc h none (by simp)
    · exact h
  | last x saves =>
    simp only [World.step]
    split
    · next a i m k hp =>
      have hP := h.proc _ hp
      simp only [PInv] at hP
      rcases hP with ⟨h1, -⟩ | ⟨d, hi, hL⟩
      · cases h1
      obtain ⟨happ, happ', hb, hinc, hrun, hahead, hplace⟩ := id hL
      obtain ⟨rfl, h1, h2⟩ := hplace
      have hk := (h.disk i m hi).running h1 k h2
      split
      · next o ho =>
        have hb' : Base c { m with running := none, results := ⟨k, o, .told⟩ :: m.results } :=
          base_cons hb rfl rfl rfl hk.1 hk.2
        refine inv_checkpoint h saves hi ⟨hb', fun _ j hj => by cases hj⟩ ?_ (by simp) (by simp) ?_
        · rw [← happ]
          exact live_self hb' ⟨h1, rfl⟩
        · rintro d' ⟨⟩ hr
          exact hr
      · refine inv_proc h _ ?_
        rintro q ⟨⟩
        exact .inr ⟨m, hi, happ, happ', hb, rfl, hrun, hahead, h1, rfl⟩
    · exact h
  | create i =>
    simp only [World.step]
    split
    · split
      · next hu =>
        refine inv_new h hu (by simp) _ ?_
        rintro q ⟨⟩
        exact .inl ⟨rfl, rfl, by simp [List.lookup]⟩
      · exact h
    · exact h
  | go saves starts o =>
    simp only [World.step]
    split
    · next a i s pc hp => exact go_inv hc h hp saves starts o
    · exact h

theorem run_inv {c : Cmd A K O} (hc : ∀ a, (c.jobs a).Nodup) : ∀ (l : List (Act I A O)) (w : World I A K O),
    Inv c w → Inv c (w.run c l)
  | [], _, h => h
  | x :: l, w, h => run_inv hc l (w.step c x) (step_inv hc h x)

end Verif.Again
