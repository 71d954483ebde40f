import Verif.Model.Replies
import Verif.Lemmas.Netref

namespace Verif.Replies
open Verif.Netref (countP_eraseIdx)

variable {Q A : Type}

/-! ## Counting -/

/-- How many events of this kind there are about this request. -/
def cnt (w : World Q A) (k : Kind) (b : Bool) (s : Nat) : Nat :=
  w.log.countP fun e => decide (e.kind = (k, b, s))

def isReq (s : Nat) : Msg Q A → Bool
  | .req t _ => decide (t = s)
  | .rep _ _ => false

def isRep (s : Nat) : Msg Q A → Bool
  | .rep t _ => decide (t = s)
  | .req _ _ => false

def keyed {T : Type} (m : List (Nat × T)) (s : Nat) : Nat := m.countP fun x => decide (x.1 = s)

def held (l : List Nat) (s : Nat) : Nat := l.countP fun x => decide (x = s)

theorem keyed_filter {T : Type} (m : List (Nat × T)) (k s : Nat) :
    keyed (m.filter fun x => decide (x.1 ≠ k)) s = if s = k then 0 else keyed m s := by
  unfold keyed
  rw [List.countP_filter]
  split
  · next h =>
    subst h
    rw [List.countP_eq_zero]
    intro x _
    simp
  · next h =>
    apply List.countP_congr
    intro x _
    by_cases hx : x.1 = s
    · simp [hx, h]
    · simp [hx]

theorem keyed_put {T : Type} (m : List (Nat × T)) (k s : Nat) (v : T) :
    keyed (put m k v) s = if s = k then 1 else keyed m s := by
  unfold put
  have h := keyed_filter m k s
  unfold keyed at h ⊢
  rw [List.countP_cons, h]
  by_cases hs : s = k
  · subst hs; simp
  · rw [if_neg hs, if_neg (show ¬ decide ((k, v).1 = s) = true by simpa using fun e => hs e.symm),
      if_neg hs, Nat.add_zero]

theorem held_filter (m : List Nat) (k s : Nat) :
    held (m.filter fun x => decide (x ≠ k)) s = if s = k then 0 else held m s := by
  unfold held
  rw [List.countP_filter]
  split
  · next h =>
    subst h
    rw [List.countP_eq_zero]
    intro x _
    simp
  · next h =>
    apply List.countP_congr
    intro x _
    by_cases hx : x = s
    · simp [hx, h]
    · simp [hx]

theorem held_pos {l : List Nat} {s : Nat} (h : s ∈ l) : 1 ≤ held l s := by
  unfold held
  exact List.countP_pos_iff.2 ⟨s, h, by simp⟩

theorem mem_of_held {l : List Nat} {s : Nat} (h : 1 ≤ held l s) : s ∈ l := by
  obtain ⟨x, hx, he⟩ := List.countP_pos_iff.1 h
  simp at he; subst he; exact hx

theorem mem_of_lookup {T : Type} {m : List (Nat × T)} {s : Nat} {v : T} (h : m.lookup s = some v) :
    (s, v) ∈ m := by
  induction m with
  | nil => simp at h
  | cons x m ih =>
    obtain ⟨k, u⟩ := x
    rw [List.lookup_cons] at h
    by_cases hk : s = k
    · subst hk; simp at h; subst h; simp
    · have : (s == k) = false := by simpa using hk
      rw [this] at h
      exact List.mem_cons_of_mem _ (ih h)

theorem keyed_pos {T : Type} {m : List (Nat × T)} {s : Nat} {v : T} (h : (s, v) ∈ m) : 1 ≤ keyed m s := by
  unfold keyed
  exact List.countP_pos_iff.2 ⟨(s, v), h, by simp⟩

theorem keyed_none {T : Type} {m : List (Nat × T)} {s : Nat} (h : m.lookup s = none) : keyed m s = 0 := by
  unfold keyed
  rw [List.countP_eq_zero]
  intro x hx
  obtain ⟨k, u⟩ := x
  rw [List.lookup_eq_none_iff] at h
  have := h _ hx
  simp at this ⊢
  exact fun e => this e.symm

theorem lookup_of_keyed {T : Type} {m : List (Nat × T)} {s : Nat} (h : 1 ≤ keyed m s) :
    ∃ v, m.lookup s = some v := by
  cases e : m.lookup s with
  | some v => exact ⟨v, rfl⟩
  | none => rw [keyed_none e] at h; omega

/-- Requests of `b` numbered `s` that are on the way to the other end, or there. -/
def asked (w : World Q A) (b : Bool) (s : Nat) : Nat :=
  (w.chan (!b)).countP (isReq s) + (w.party (!b)).hand.countP (isReq s) + keyed (w.party (!b)).serving s

/-- Answers to requests of `b` numbered `s` that are on the way to `b`, or there. -/
def due (w : World Q A) (b : Bool) (s : Nat) : Nat :=
  (w.chan b).countP (isRep s) + (w.party b).hand.countP (isRep s) + keyed (w.party b).replies s

theorem upd_same {T : Type} (f : Bool → T) (b : Bool) (v : T) : upd f b v b = v := by simp [upd]

theorem upd_other {T : Type} (f : Bool → T) {b c : Bool} (v : T) (h : c ≠ b) : upd f b v c = f c := by
  simp [upd, h]

/-- Requests and answers are neither duplicated nor forgotten: numbers for one request. -/
def Good (made sync async refused answered unsent lost returned failed settled ignored asked way stored
    waits calls : Nat) : Prop :=
  made ≤ 1 ∧ sync + async + refused = made ∧ asked + answered + unsent + refused = made ∧
  answered = way + stored + lost + returned + settled + ignored ∧
  waits + returned + failed = sync ∧ calls + settled + ignored = async ∧ stored ≤ sync

/-- Answers to requests of `b` numbered `s` that are on the way to `b`. -/
def way (w : World Q A) (b : Bool) (s : Nat) : Nat :=
  (w.chan b).countP (isRep s) + (w.party b).hand.countP (isRep s)

def made (w : World Q A) (b : Bool) (s : Nat) : Nat := if s < (w.party b).next then 1 else 0

def stored (w : World Q A) (b : Bool) (s : Nat) : Nat := keyed (w.party b).replies s

def waits (w : World Q A) (b : Bool) (s : Nat) : Nat := held (w.party b).waiting s

def calls (w : World Q A) (b : Bool) (s : Nat) : Nat := keyed (w.party b).callbacks s

def GoodAt (w : World Q A) (b : Bool) (s : Nat) : Prop :=
  Good (made w b s) (cnt w .sync b s) (cnt w .async b s) (cnt w .refused b s) (cnt w .answered b s)
    (cnt w .unsent b s) (cnt w .lost b s) (cnt w .returned b s) (cnt w .failed b s) (cnt w .settled b s)
    (cnt w .ignored b s) (asked w b s) (way w b s) (stored w b s) (waits w b s) (calls w b s)

def Inv (w : World Q A) : Prop := ∀ b s, GoodAt w b s

theorem start_inv : Inv (World.start (Q := Q) (A := A)) := by
  intro b s
  simp [GoodAt, Good, World.start, cnt, asked, way, keyed, held, made, stored, waits, calls]

theorem cnt_cons (w w' : World Q A) (e : Event Q A) (h : w'.log = e :: w.log) (k : Kind) (b : Bool) (s : Nat) :
    cnt w' k b s = cnt w k b s + if e.kind = (k, b, s) then 1 else 0 := by
  unfold cnt
  rw [h, List.countP_cons]
  by_cases h : e.kind = (k, b, s) <;> simp [h]

set_option hygiene false in
/-- Ends the proof that a step about the request `t` of `d` keeps the invariant. -/
macro "close_inv" : tactic => `(tactic| (
  intro c s
  have g := h c s
  have g0 := h d t
  simp only [GoodAt, Good] at g g0 ⊢
  have k1 := hk .sync c s
  have k2 := hk .async c s
  have k3 := hk .refused c s
  have k4 := hk .answered c s
  have k5 := hk .unsent c s
  have k6 := hk .lost c s
  have k7 := hk .returned c s
  have k8 := hk .failed c s
  have k9 := hk .settled c s
  have k10 := hk .ignored c s
  have m1 := hm c s
  have m2 := ha c s
  have m3 := hy c s
  have m4 := hr c s
  have m5 := hv c s
  have m6 := hc c s
  clear hk hm ha hy hr hv hc h e
  try simp only [Event.kind, Prod.mk.injEq, reduceCtorEq, false_and, true_and, if_false, Nat.add_zero] at *
  by_cases e1 : d = c
  · subst e1
    by_cases e2 : t = s
    · subst e2
      try simp only [and_self, true_and, if_true] at *
      omega
    · try simp only [e2, true_and, if_false] at *
      omega
  · try simp only [e1, false_and, if_false] at *
    omega))

set_option hygiene false in
/-- A counter that the step does not change. -/
macro "same_inv" : tactic => `(tactic| (subst e; intro c s; cases d <;> cases c <;> rfl))

theorem blame_inv {w : World Q A} (h : Inv w) (d : Bool) (t : Option Nat) : Inv (w.blame d t) := by
  cases t with
  | none => exact h
  | some t =>
    unfold World.blame
    by_cases ht : t ∈ (w.party d).waiting
    · simp only [ht, if_true]
      have hp : 1 ≤ waits w d t := held_pos ht
      obtain ⟨w', e⟩ : ∃ w' : World Q A, w' = { w with
        party := upd w.party d { w.party d with
          waiting := (w.party d).waiting.filter fun y => decide (y ≠ t) }
        log := .failed d t :: w.log } := ⟨_, rfl⟩
      rw [← e]
      have hk := cnt_cons w w' (.failed d t) (by rw [e])
      have hm : ∀ c s, made w' c s = made w c s := by same_inv
      have ha : ∀ c s, asked w' c s = asked w c s := by same_inv
      have hy : ∀ c s, way w' c s = way w c s := by same_inv
      have hr : ∀ c s, stored w' c s = stored w c s := by same_inv
      have hc : ∀ c s, calls w' c s = calls w c s := by same_inv
      have hv : ∀ c s, waits w' c s = if d = c ∧ t = s then 0 else waits w c s := by
        subst e; intro c s
        show held (upd w.party d _ c).waiting s = _
        by_cases e1 : d = c
        · subst e1
          rw [upd_same]
          show held (List.filter _ _) s = _
          rw [held_filter]
          by_cases e2 : t = s
          · rw [if_pos e2.symm, if_pos ⟨rfl, e2⟩]
          · rw [if_neg (fun e => e2 e.symm), if_neg (fun e => e2 e.2)]; rfl
        · rw [upd_other _ _ (fun e => e1 e.symm), if_neg (fun e => e1 e.1)]; rfl
      close_inv
    · simp only [ht, if_false]; exact h

set_option maxHeartbeats 1000000 in
theorem call_sync_inv {w w' : World Q A} (h : Inv w) (d : Bool) (q : Q) (e : w' = {
    party := upd w.party d { w.party d with
      next := (w.party d).next + 1
      waiting := (w.party d).next :: (w.party d).waiting }
    chan := upd w.chan (!d) (w.chan (!d) ++ [.req (w.party d).next q])
    log := .sent d true (w.party d).next q :: w.log }) : Inv w' := by
  obtain ⟨t, ht⟩ : ∃ t, t = (w.party d).next := ⟨_, rfl⟩
  rw [← ht] at e
  have h0 : made w d t = 0 := by rw [made, ht]; simp
  have hk := cnt_cons w w' (.sent d true t q) (by rw [e])
  have hm : ∀ c s, made w' c s = made w c s + if d = c ∧ t = s then 1 else 0 := by
    subst e; intro c s
    by_cases e1 : d = c
    · subst e1
      simp only [made, upd_same, ← ht]
      by_cases e2 : t = s
      · subst e2; simp
      · simp only [e2, and_false, if_false]
        split <;> split <;> omega
    · simp only [made, upd_other _ _ (fun e => e1 e.symm), e1, false_and, if_false]; rfl
  have ha : ∀ c s, asked w' c s = asked w c s + if d = c ∧ t = s then 1 else 0 := by
    subst e; intro c s
    cases d <;> cases c <;> simp [asked, upd, isReq, List.countP_append, List.countP_cons] <;> omega
  have hy : ∀ c s, way w' c s = way w c s := by
    subst e; intro c s
    cases d <;> cases c <;> simp [way, upd, isRep, List.countP_append]
  have hr : ∀ c s, stored w' c s = stored w c s := by same_inv
  have hc : ∀ c s, calls w' c s = calls w c s := by same_inv
  have hv : ∀ c s, waits w' c s = waits w c s + if d = c ∧ t = s then 1 else 0 := by
    subst e; intro c s
    cases d <;> cases c <;> simp [waits, upd, held, List.countP_cons]
  simp only [Event.kind, if_true] at hk
  clear ht
  close_inv

set_option maxHeartbeats 1000000 in
theorem call_async_inv {w w' : World Q A} (h : Inv w) (d : Bool) (q : Q) (e : w' = {
    party := upd w.party d { w.party d with
      next := (w.party d).next + 1
      callbacks := put (w.party d).callbacks (w.party d).next false }
    chan := upd w.chan (!d) (w.chan (!d) ++ [.req (w.party d).next q])
    log := .sent d false (w.party d).next q :: w.log }) : Inv w' := by
  obtain ⟨t, ht⟩ : ∃ t, t = (w.party d).next := ⟨_, rfl⟩
  rw [← ht] at e
  have h0 : made w d t = 0 := by rw [made, ht]; simp
  have hk := cnt_cons w w' (.sent d false t q) (by rw [e])
  have hm : ∀ c s, made w' c s = made w c s + if d = c ∧ t = s then 1 else 0 := by
    subst e; intro c s
    by_cases e1 : d = c
    · subst e1
      simp only [made, upd_same, ← ht]
      by_cases e2 : t = s
      · subst e2; simp
      · simp only [e2, and_false, if_false]
        split <;> split <;> omega
    · simp only [made, upd_other _ _ (fun e => e1 e.symm), e1, false_and, if_false]; rfl
  have ha : ∀ c s, asked w' c s = asked w c s + if d = c ∧ t = s then 1 else 0 := by
    subst e; intro c s
    cases d <;> cases c <;> simp [asked, upd, isReq, List.countP_append, List.countP_cons] <;> omega
  have hy : ∀ c s, way w' c s = way w c s := by
    subst e; intro c s
    cases d <;> cases c <;> simp [way, upd, isRep, List.countP_append]
  have hr : ∀ c s, stored w' c s = stored w c s := by same_inv
  have hv : ∀ c s, waits w' c s = waits w c s := by same_inv
  have hc : ∀ c s, calls w' c s = if d = c ∧ t = s then 1 else calls w c s := by
    subst e; intro c s
    cases d <;> cases c <;> simp [calls, upd, keyed_put, eq_comm]
  simp only [Event.kind, Bool.false_eq_true, if_false] at hk
  clear ht
  close_inv

theorem refused_inv {w w' : World Q A} (h : Inv w) (d : Bool) (e : w' = { w with
    party := upd w.party d { w.party d with next := (w.party d).next + 1 }
    log := .refused d (w.party d).next :: w.log }) : Inv w' := by
  obtain ⟨t, ht⟩ : ∃ t, t = (w.party d).next := ⟨_, rfl⟩
  rw [← ht] at e
  have h0 : made w d t = 0 := by rw [made, ht]; simp
  have hk := cnt_cons w w' (.refused d t) (by rw [e])
  have hm : ∀ c s, made w' c s = made w c s + if d = c ∧ t = s then 1 else 0 := by
    subst e; intro c s
    by_cases e1 : d = c
    · subst e1
      simp only [made, upd_same, ← ht]
      by_cases e2 : t = s
      · subst e2; simp
      · simp only [e2, and_false, if_false]
        split <;> split <;> omega
    · simp only [made, upd_other _ _ (fun e => e1 e.symm), e1, false_and, if_false]; rfl
  have ha : ∀ c s, asked w' c s = asked w c s := by same_inv
  have hy : ∀ c s, way w' c s = way w c s := by same_inv
  have hr : ∀ c s, stored w' c s = stored w c s := by same_inv
  have hv : ∀ c s, waits w' c s = waits w c s := by same_inv
  have hc : ∀ c s, calls w' c s = calls w c s := by same_inv
  close_inv

theorem recv_inv {w w' : World Q A} (h : Inv w) (d : Bool) (t : Nat) (m : Msg Q A) (l : List (Msg Q A)) (hl : w.chan d = m :: l) (e : w' = { w with
    party := upd w.party d { w.party d with hand := (w.party d).hand ++ [m] }
    chan := upd w.chan d l }) : Inv w' := by
  have hk : ∀ k c s, cnt w' k c s = cnt w k c s := by subst e; intro k c s; rfl
  have hm : ∀ c s, made w' c s = made w c s := by same_inv
  have hr : ∀ c s, stored w' c s = stored w c s := by same_inv
  have hv : ∀ c s, waits w' c s = waits w c s := by same_inv
  have hc : ∀ c s, calls w' c s = calls w c s := by same_inv
  have ha : ∀ c s, asked w' c s = asked w c s := by
    subst e; intro c s
    cases d <;> cases c <;> simp [asked, upd, hl, List.countP_append, List.countP_cons] <;> omega
  have hy : ∀ c s, way w' c s = way w c s := by
    subst e; intro c s
    cases d <;> cases c <;> simp [way, upd, hl, List.countP_append, List.countP_cons] <;> omega
  close_inv

theorem serve_inv {w w' : World Q A} (h : Inv w) (d : Bool) (k : Nat) (t : Nat) (q : Q) (hl : (w.party d).hand[k]? = some (.req t q)) (e : w' = { w with
    party := upd w.party d { w.party d with
      hand := (w.party d).hand.eraseIdx k
      serving := (w.party d).serving ++ [(t, q)] } }) : Inv w' := by
  have hk : ∀ k c s, cnt w' k c s = cnt w k c s := by subst e; intro k c s; rfl
  have hm : ∀ c s, made w' c s = made w c s := by same_inv
  have hr : ∀ c s, stored w' c s = stored w c s := by same_inv
  have hv : ∀ c s, waits w' c s = waits w c s := by same_inv
  have hc : ∀ c s, calls w' c s = calls w c s := by same_inv
  have ha : ∀ c s, asked w' c s = asked w c s := by
    subst e; intro c s
    have := countP_eraseIdx (isReq s) _ _ _ hl
    cases d <;> cases c <;> simp [asked, upd, keyed, isReq, List.countP_append, List.countP_cons] at this ⊢ <;> omega
  have hy : ∀ c s, way w' c s = way w c s := by
    subst e; intro c s
    have := countP_eraseIdx (isRep s) _ _ _ hl
    cases d <;> cases c <;> simp [way, upd, isRep] at this ⊢ <;> omega
  close_inv

theorem store_inv {w w' : World Q A} (h : Inv w) (d : Bool) (k : Nat) (t : Nat) (a : A) (hl : (w.party d).hand[k]? = some (.rep t a)) (hn : (w.party d).callbacks.lookup t = none) (e : w' = { w with
    party := upd w.party d { w.party d with
      hand := (w.party d).hand.eraseIdx k
      replies := put (w.party d).replies t a } }) : Inv w' := by
  have h0 : calls w d t = 0 := keyed_none hn
  have h1 : 1 ≤ way w d t := by
    have := countP_eraseIdx (isRep t) _ _ _ hl
    simp [way, isRep] at this ⊢; omega
  have hk : ∀ k c s, cnt w' k c s = cnt w k c s := by subst e; intro k c s; rfl
  have hm : ∀ c s, made w' c s = made w c s := by same_inv
  have hv : ∀ c s, waits w' c s = waits w c s := by same_inv
  have hc : ∀ c s, calls w' c s = calls w c s := by same_inv
  have ha : ∀ c s, asked w' c s = asked w c s := by
    subst e; intro c s
    have := countP_eraseIdx (isReq s) _ _ _ hl
    cases d <;> cases c <;> simp [asked, upd, isReq] at this ⊢ <;> omega
  have hy : ∀ c s, way w' c s + (if d = c ∧ t = s then 1 else 0) = way w c s := by
    subst e; intro c s
    have := countP_eraseIdx (isRep s) _ _ _ hl
    cases d <;> cases c <;> simp [way, upd, isRep] at this ⊢ <;> omega
  have hr : ∀ c s, stored w' c s = if d = c ∧ t = s then 1 else stored w c s := by
    subst e; intro c s
    cases d <;> cases c <;> simp [stored, upd, keyed_put, eq_comm]
  close_inv

theorem settle_inv {w w' : World Q A} (h : Inv w) (d : Bool) (k : Nat) (t : Nat) (a : A) (hl : (w.party d).hand[k]? = some (.rep t a)) (old : Bool) (hn : (w.party d).callbacks.lookup t = some old) (e : w' = { w with
    party := upd w.party d { w.party d with
      hand := (w.party d).hand.eraseIdx k
      callbacks := (w.party d).callbacks.filter fun y => decide (y.1 ≠ t) }
    log := .settled d t a :: w.log }) : Inv w' := by
  have h0 : 1 ≤ calls w d t := keyed_pos (mem_of_lookup hn)
  have h1 : 1 ≤ way w d t := by
    have := countP_eraseIdx (isRep t) _ _ _ hl
    simp [way, isRep] at this ⊢; omega
  have hk := cnt_cons w w' (.settled d t a) (by rw [e])
  have hm : ∀ c s, made w' c s = made w c s := by same_inv
  have hv : ∀ c s, waits w' c s = waits w c s := by same_inv
  have hr : ∀ c s, stored w' c s = stored w c s := by same_inv
  have ha : ∀ c s, asked w' c s = asked w c s := by
    subst e; intro c s
    have := countP_eraseIdx (isReq s) _ _ _ hl
    cases d <;> cases c <;> simp [asked, upd, isReq] at this ⊢ <;> omega
  have hy : ∀ c s, way w' c s + (if d = c ∧ t = s then 1 else 0) = way w c s := by
    subst e; intro c s
    have := countP_eraseIdx (isRep s) _ _ _ hl
    cases d <;> cases c <;> simp [way, upd, isRep] at this ⊢ <;> omega
  have hc : ∀ c s, calls w' c s = if d = c ∧ t = s then 0 else calls w c s := by
    subst e; intro c s
    by_cases e1 : d = c
    · subst e1
      simp only [calls, upd_same, keyed_filter, true_and, eq_comm (a := s)]
    · simp only [calls, upd_other _ _ (fun e => e1 e.symm), e1, false_and, if_false]
  close_inv

theorem ignore_inv {w w' : World Q A} (h : Inv w) (d : Bool) (k : Nat) (t : Nat) (a : A) (hl : (w.party d).hand[k]? = some (.rep t a)) (old : Bool) (hn : (w.party d).callbacks.lookup t = some old) (e : w' = { w with
    party := upd w.party d { w.party d with
      hand := (w.party d).hand.eraseIdx k
      callbacks := (w.party d).callbacks.filter fun y => decide (y.1 ≠ t) }
    log := .ignored d t :: w.log }) : Inv w' := by
  have h0 : 1 ≤ calls w d t := keyed_pos (mem_of_lookup hn)
  have h1 : 1 ≤ way w d t := by
    have := countP_eraseIdx (isRep t) _ _ _ hl
    simp [way, isRep] at this ⊢; omega
  have hk := cnt_cons w w' (.ignored d t) (by rw [e])
  have hm : ∀ c s, made w' c s = made w c s := by same_inv
  have hv : ∀ c s, waits w' c s = waits w c s := by same_inv
  have hr : ∀ c s, stored w' c s = stored w c s := by same_inv
  have ha : ∀ c s, asked w' c s = asked w c s := by
    subst e; intro c s
    have := countP_eraseIdx (isReq s) _ _ _ hl
    cases d <;> cases c <;> simp [asked, upd, isReq] at this ⊢ <;> omega
  have hy : ∀ c s, way w' c s + (if d = c ∧ t = s then 1 else 0) = way w c s := by
    subst e; intro c s
    have := countP_eraseIdx (isRep s) _ _ _ hl
    cases d <;> cases c <;> simp [way, upd, isRep] at this ⊢ <;> omega
  have hc : ∀ c s, calls w' c s = if d = c ∧ t = s then 0 else calls w c s := by
    subst e; intro c s
    by_cases e1 : d = c
    · subst e1
      simp only [calls, upd_same, keyed_filter, true_and, eq_comm (a := s)]
    · simp only [calls, upd_other _ _ (fun e => e1 e.symm), e1, false_and, if_false]
  close_inv

theorem lost_inv {w w' : World Q A} (h : Inv w) (d : Bool) (k : Nat) (t : Nat) (a : A) (hl : (w.party d).hand[k]? = some (.rep t a)) (e : w' = { w with
    party := upd w.party d { w.party d with hand := (w.party d).hand.eraseIdx k }
    log := .lost d t :: w.log }) : Inv w' := by
  have hk := cnt_cons w w' (.lost d t) (by rw [e])
  have hm : ∀ c s, made w' c s = made w c s := by same_inv
  have hr : ∀ c s, stored w' c s = stored w c s := by same_inv
  have hv : ∀ c s, waits w' c s = waits w c s := by same_inv
  have hc : ∀ c s, calls w' c s = calls w c s := by same_inv
  have ha : ∀ c s, asked w' c s = asked w c s := by
    subst e; intro c s
    have := countP_eraseIdx (isReq s) _ _ _ hl
    cases d <;> cases c <;> simp [asked, upd, isReq] at this ⊢ <;> omega
  have hy : ∀ c s, way w' c s + (if d = c ∧ t = s then 1 else 0) = way w c s := by
    subst e; intro c s
    have := countP_eraseIdx (isRep s) _ _ _ hl
    cases d <;> cases c <;> simp [way, upd, isRep] at this ⊢ <;> omega
  close_inv

theorem answer_inv {w w' : World Q A} (h : Inv w) (d : Bool) (b : Bool) (hb : b = !d) (k : Nat) (t : Nat) (q : Q) (a : A) (hl : (w.party b).serving[k]? = some (t, q)) (e : w' = {
    party := upd w.party b { w.party b with serving := (w.party b).serving.eraseIdx k }
    chan := upd w.chan d (w.chan d ++ [.rep t a])
    log := .answered d t q a :: w.log }) : Inv w' := by
  subst hb
  have hk := cnt_cons w w' (.answered d t q a) (by rw [e])
  have hm : ∀ c s, made w' c s = made w c s := by same_inv
  have hr : ∀ c s, stored w' c s = stored w c s := by same_inv
  have hv : ∀ c s, waits w' c s = waits w c s := by same_inv
  have hc : ∀ c s, calls w' c s = calls w c s := by same_inv
  have ha : ∀ c s, asked w' c s + (if d = c ∧ t = s then 1 else 0) = asked w c s := by
    subst e; intro c s
    have := countP_eraseIdx (fun x => decide (x.1 = s)) _ _ _ hl
    cases d <;> cases c <;> simp [asked, upd, keyed, isReq, List.countP_append] at this ⊢ <;> omega
  have hy : ∀ c s, way w' c s = way w c s + if d = c ∧ t = s then 1 else 0 := by
    subst e; intro c s
    cases d <;> cases c <;> simp [way, upd, isRep, List.countP_append, List.countP_cons] <;> omega
  close_inv

theorem unsent_inv {w w' : World Q A} (h : Inv w) (d : Bool) (b : Bool) (hb : b = !d) (k : Nat) (t : Nat) (q : Q) (hl : (w.party b).serving[k]? = some (t, q)) (e : w' = { w with
    party := upd w.party b { w.party b with serving := (w.party b).serving.eraseIdx k }
    log := .unsent d t :: w.log }) : Inv w' := by
  subst hb
  have hk := cnt_cons w w' (.unsent d t) (by rw [e])
  have hm : ∀ c s, made w' c s = made w c s := by same_inv
  have hy : ∀ c s, way w' c s = way w c s := by same_inv
  have hr : ∀ c s, stored w' c s = stored w c s := by same_inv
  have hv : ∀ c s, waits w' c s = waits w c s := by same_inv
  have hc : ∀ c s, calls w' c s = calls w c s := by same_inv
  have ha : ∀ c s, asked w' c s + (if d = c ∧ t = s then 1 else 0) = asked w c s := by
    subst e; intro c s
    have := countP_eraseIdx (fun x => decide (x.1 = s)) _ _ _ hl
    cases d <;> cases c <;> simp [asked, upd, keyed] at this ⊢ <;> omega
  close_inv

theorem wake_inv {w w' : World Q A} (h : Inv w) (d : Bool) (t : Nat) (a : A) (hl : (w.party d).replies.lookup t = some a) (ht : t ∈ (w.party d).waiting) (e : w' = { w with
    party := upd w.party d { w.party d with
      waiting := (w.party d).waiting.filter fun y => decide (y ≠ t)
      replies := (w.party d).replies.filter fun y => decide (y.1 ≠ t) }
    log := .returned d t a :: w.log }) : Inv w' := by
  have h0 : 1 ≤ stored w d t := keyed_pos (mem_of_lookup hl)
  have h1 : 1 ≤ waits w d t := held_pos ht
  have hk := cnt_cons w w' (.returned d t a) (by rw [e])
  have hm : ∀ c s, made w' c s = made w c s := by same_inv
  have ha : ∀ c s, asked w' c s = asked w c s := by same_inv
  have hy : ∀ c s, way w' c s = way w c s := by same_inv
  have hc : ∀ c s, calls w' c s = calls w c s := by same_inv
  have hr : ∀ c s, stored w' c s = if d = c ∧ t = s then 0 else stored w c s := by
    subst e; intro c s
    by_cases e1 : d = c
    · subst e1
      simp only [stored, upd_same, keyed_filter, true_and, eq_comm (a := s)]
    · simp only [stored, upd_other _ _ (fun e => e1 e.symm), e1, false_and, if_false]
  have hv : ∀ c s, waits w' c s = if d = c ∧ t = s then 0 else waits w c s := by
    subst e; intro c s
    by_cases e1 : d = c
    · subst e1
      simp only [waits, upd_same, held_filter, true_and, eq_comm (a := s)]
    · simp only [waits, upd_other _ _ (fun e => e1 e.symm), e1, false_and, if_false]
  close_inv

theorem expire_inv {w w' : World Q A} (h : Inv w) (d : Bool) (t : Nat) (old : Bool) (hl : (w.party d).callbacks.lookup t = some old) (e : w' = { w with
    party := upd w.party d { w.party d with callbacks := put (w.party d).callbacks t true }
    log := .expired d t :: w.log }) : Inv w' := by
  have h0 : 1 ≤ calls w d t := keyed_pos (mem_of_lookup hl)
  have hk := cnt_cons w w' (.expired d t) (by rw [e])
  have hm : ∀ c s, made w' c s = made w c s := by same_inv
  have ha : ∀ c s, asked w' c s = asked w c s := by same_inv
  have hy : ∀ c s, way w' c s = way w c s := by same_inv
  have hr : ∀ c s, stored w' c s = stored w c s := by same_inv
  have hv : ∀ c s, waits w' c s = waits w c s := by same_inv
  have hc : ∀ c s, calls w' c s = if d = c ∧ t = s then 1 else calls w c s := by
    subst e; intro c s
    cases d <;> cases c <;> simp [calls, upd, keyed_put, eq_comm]
  close_inv

theorem step_inv (x : Wire Q A) {w : World Q A} (h : Inv w) (act : Act Q A) : Inv (w.step x act) := by
  cases act with
  | call b sync q =>
    simp only [World.step]
    split
    · cases sync
      · exact call_async_inv h b q rfl
      · exact call_sync_inv h b q rfl
    · exact refused_inv h b rfl
  | recv b =>
    simp only [World.step]
    split
    · exact h
    · next m l hl => exact recv_inv h b 0 m l hl rfl
  | dispatch b k by' =>
    simp only [World.step]
    split
    · exact h
    · next s q hl => exact serve_inv h b k s q hl rfl
    · next s a hl =>
      split
      · split
        · next old hn =>
          cases old
          · exact settle_inv h b k s a hl false hn rfl
          · exact ignore_inv h b k s a hl true hn rfl
        · next hn => exact store_inv h b k s a hl hn rfl
      · exact blame_inv (lost_inv h b k s a hl rfl) b by'
  | finish b k a by' =>
    simp only [World.step]
    split
    · exact h
    · next s q hl =>
      split
      · exact answer_inv h (!b) b (by simp) k s q a hl rfl
      · exact blame_inv (unsent_inv h (!b) b (by simp) k s q hl rfl) b by'
  | wake b s =>
    simp only [World.step]
    split
    · exact h
    · next a hl =>
      split
      · next ht => exact wake_inv h b s a hl ht rfl
      · exact h
  | expire b s =>
    simp only [World.step]
    split
    · next hl => exact expire_inv h b s false hl rfl
    · exact h

/-- Any steps keep a property that one step keeps. -/
theorem foldl_keeps {P : World Q A → Prop} {x : Wire Q A} (hs : ∀ w a, P w → P (w.step x a)) :
    ∀ (l : List (Act Q A)) (w : World Q A), P w → P (l.foldl (fun w a => w.step x a) w)
  | [], _, h => h
  | a :: l, w, h => foldl_keeps hs l _ (hs w a h)

theorem run_inv (x : Wire Q A) (l : List (Act Q A)) : Inv (World.run x l) :=
  foldl_keeps (P := Inv) (fun _ a h => step_inv x h a) l _ start_inv

/-! ## What is on the way was sent -/

theorem cnt_pos {w : World Q A} {e : Event Q A} {k : Kind} {b : Bool} {s : Nat} (h : e ∈ w.log)
    (hk : e.kind = (k, b, s)) : 1 ≤ cnt w k b s := by
  unfold cnt
  exact List.countP_pos_iff.2 ⟨e, h, by simpa using hk⟩

theorem exists_of_cnt {w : World Q A} {k : Kind} {b : Bool} {s : Nat} (h : 1 ≤ cnt w k b s) :
    ∃ e ∈ w.log, e.kind = (k, b, s) := by
  obtain ⟨e, he, hk⟩ := List.countP_pos_iff.1 h
  exact ⟨e, he, by simpa using hk⟩

/-- Two events about one request of a kind that happens at most once are the same. -/
theorem countP_unique {α : Type} {p : α → Bool} {l : List α} (h : l.countP p ≤ 1) {a b : α} (ha : a ∈ l) (hb : b ∈ l)
    (pa : p a = true) (pb : p b = true) : a = b := by
  induction l with
  | nil => simp at ha
  | cons y l ih =>
    rw [List.countP_cons] at h
    rcases List.mem_cons.1 ha with rfl | ha'
    · rcases List.mem_cons.1 hb with rfl | hb'
      · rfl
      · have := List.countP_pos_iff.2 ⟨b, hb', pb⟩
        rw [pa, if_pos rfl] at h; omega
    · rcases List.mem_cons.1 hb with rfl | hb'
      · have := List.countP_pos_iff.2 ⟨a, ha', pa⟩
        rw [pb, if_pos rfl] at h; omega
      · exact ih (by omega) ha' hb'

theorem cnt_unique {w : World Q A} {k : Kind} {b : Bool} {s : Nat} (h : cnt w k b s ≤ 1) {e f : Event Q A}
    (he : e ∈ w.log) (hf : f ∈ w.log) (ke : e.kind = (k, b, s)) (kf : f.kind = (k, b, s)) : e = f :=
  countP_unique h he hf (by simpa using ke) (by simpa using kf)

/-- The values on the way were sent, the answers by handlers of these requests. -/
structure Traced (w : World Q A) : Prop where
  req : ∀ b s q, (.req s q ∈ w.chan (!b) ∨ .req s q ∈ (w.party (!b)).hand ∨ (s, q) ∈ (w.party (!b)).serving) →
    ∃ sync, .sent b sync s q ∈ w.log
  rep : ∀ b s a, (.rep s a ∈ w.chan b ∨ .rep s a ∈ (w.party b).hand ∨ (s, a) ∈ (w.party b).replies) →
    ∃ q sync, [.answered b s q a, .sent b sync s q].Sublist w.log
  ans : ∀ b s q a, .answered b s q a ∈ w.log → ∃ sync, [.answered b s q a, .sent b sync s q].Sublist w.log
  ret : ∀ b s a, .returned b s a ∈ w.log →
    ∃ q, [.returned b s a, .answered b s q a, .sent b true s q].Sublist w.log
  set : ∀ b s a, .settled b s a ∈ w.log →
    ∃ q, [.settled b s a, .answered b s q a, .sent b false s q].Sublist w.log

theorem mem_of_sublist2 {α : Type} {a b : α} {l : List α} (h : [a, b].Sublist l) : a ∈ l ∧ b ∈ l :=
  ⟨h.subset (by simp), h.subset (by simp)⟩

/-- Nothing new is on the way, and what is new in the record is not about values. -/
theorem traced_same {w w' : World Q A} (h : Traced w) (hc : ∀ b, w'.chan b ⊆ w.chan b)
    (hh : ∀ b, (w'.party b).hand ⊆ (w.party b).hand) (hs : ∀ b, (w'.party b).serving ⊆ (w.party b).serving)
    (hr : ∀ b, (w'.party b).replies ⊆ (w.party b).replies) (hl : w.log.Sublist w'.log)
    (ha : ∀ b s q a, .answered b s q a ∈ w'.log → .answered b s q a ∈ w.log)
    (ht : ∀ b s a, .returned b s a ∈ w'.log → .returned b s a ∈ w.log)
    (he : ∀ b s a, .settled b s a ∈ w'.log → .settled b s a ∈ w.log) : Traced w' := by
  obtain ⟨h1, h2, h3, h4, h5⟩ := h
  constructor
  · intro b s q hq
    obtain ⟨sy, m⟩ := h1 b s q (hq.imp (fun h => hc _ h) (Or.imp (fun h => hh _ h) (fun h => hs _ h)))
    exact ⟨sy, hl.subset m⟩
  · intro b s a hq
    obtain ⟨q, sy, m⟩ := h2 b s a (hq.imp (fun h => hc _ h) (Or.imp (fun h => hh _ h) (fun h => hr _ h)))
    exact ⟨q, sy, m.trans hl⟩
  · intro b s q a hq
    obtain ⟨sy, m⟩ := h3 b s q a (ha _ _ _ _ hq)
    exact ⟨sy, m.trans hl⟩
  · intro b s a hq
    obtain ⟨q, m⟩ := h4 b s a (ht _ _ _ hq)
    exact ⟨q, m.trans hl⟩
  · intro b s a hq
    obtain ⟨q, m⟩ := h5 b s a (he _ _ _ hq)
    exact ⟨q, m.trans hl⟩

theorem blame_traced {w : World Q A} (h : Traced w) (b : Bool) (t : Option Nat) : Traced (w.blame b t) := by
  cases t with
  | none => exact h
  | some t =>
    unfold World.blame
    by_cases ht : t ∈ (w.party b).waiting
    · simp only [ht, if_true]
      refine traced_same h (fun c => ?_) (fun c => ?_) (fun c => ?_) (fun c => ?_) (List.sublist_cons_self _ _)
        (fun c s q a hm => ?_) (fun c s a hm => ?_) (fun c s a hm => ?_)
      · exact fun _ h => h
      · cases b <;> cases c <;> exact fun _ h => h
      · cases b <;> cases c <;> exact fun _ h => h
      · cases b <;> cases c <;> exact fun _ h => h
      · simpa using hm
      · simpa using hm
      · simpa using hm
    · simp only [ht, if_false]; exact h

theorem mem_put {T : Type} {m : List (Nat × T)} {k s : Nat} {v u : T} (h : (s, u) ∈ put m k v) :
    (s = k ∧ u = v) ∨ (s, u) ∈ m := by
  rcases List.mem_cons.1 h with h | h
  · simp only [Prod.mk.injEq] at h; exact .inl h
  · exact .inr (List.mem_filter.1 h).1

/-- Requests are of one sort. -/
theorem sort_of {w : World Q A} (h : Inv w) {b : Bool} {s : Nat} {sync : Bool} {q : Q}
    (hm : .sent b sync s q ∈ w.log) (c : Bool) (hc : 1 ≤ cnt w (if c then .sync else .async) b s) : sync = c := by
  have g := h b s
  simp only [GoodAt, Good] at g
  have := cnt_pos (k := if sync then .sync else .async) (b := b) (s := s) hm (by simp [Event.kind])
  cases sync <;> cases c <;> simp at * <;> omega

theorem step_traced (x : Wire Q A) {w : World Q A} (hi : Inv w) (h : Traced w) (act : Act Q A) :
    Traced (w.step x act) := by
  cases act with
  | call b sync q =>
    simp only [World.step]
    split
    · obtain ⟨h1, h2, h3, h4, h5⟩ := h
      have hl := List.sublist_cons_self (Event.sent b sync (w.party b).next q) w.log
      constructor
      · intro c s q' hm
        by_cases hcb : c = b
        · subst hcb
          simp only [upd_same] at hm
          rcases hm with hm | hm | hm
          · rcases List.mem_append.1 hm with hm | hm
            · obtain ⟨sy, m⟩ := h1 c s q' (.inl hm); exact ⟨sy, hl.subset m⟩
            · simp only [List.mem_singleton, Msg.req.injEq] at hm
              obtain ⟨rfl, rfl⟩ := hm
              exact ⟨sync, by simp⟩
          · obtain ⟨sy, m⟩ := h1 c s q' (.inr (.inl (by cases c <;> exact hm))); exact ⟨sy, hl.subset m⟩
          · obtain ⟨sy, m⟩ := h1 c s q' (.inr (.inr (by cases c <;> exact hm))); exact ⟨sy, hl.subset m⟩
        · obtain ⟨sy, m⟩ := h1 c s q' (by
            cases c <;> cases b <;> first | exact hm | exact absurd rfl hcb)
          exact ⟨sy, hl.subset m⟩
      · intro c s a hm
        obtain ⟨q', sy, m⟩ := h2 c s a (by
          refine hm.imp (fun hm => ?_) (fun hm => ?_)
          · cases c <;> cases b <;>
              first | exact hm | (simpa [upd] using hm)
          · cases c <;> cases b <;> exact hm)
        exact ⟨q', sy, m.trans hl⟩
      · intro c s q' a hm
        obtain ⟨sy, m⟩ := h3 c s q' a (by simpa using hm)
        exact ⟨sy, m.trans hl⟩
      · intro c s a hm
        obtain ⟨q', m⟩ := h4 c s a (by simpa using hm)
        exact ⟨q', m.trans hl⟩
      · intro c s a hm
        obtain ⟨q', m⟩ := h5 c s a (by simpa using hm)
        exact ⟨q', m.trans hl⟩
    · refine traced_same h (fun c => ?_) (fun c => ?_) (fun c => ?_) (fun c => ?_) (List.sublist_cons_self _ _)
        (fun c s q a hm => ?_) (fun c s a hm => ?_) (fun c s a hm => ?_)
      · exact fun _ h => h
      · cases b <;> cases c <;> exact fun _ h => h
      · cases b <;> cases c <;> exact fun _ h => h
      · cases b <;> cases c <;> exact fun _ h => h
      · simpa using hm
      · simpa using hm
      · simpa using hm
  | recv b =>
    simp only [World.step]
    split
    · exact h
    · next m l hl =>
      obtain ⟨h1, h2, h3, h4, h5⟩ := h
      have key : ∀ c (y : Msg Q A), (y ∈ upd w.chan b l c ∨
          y ∈ (upd w.party b { w.party b with hand := (w.party b).hand ++ [m] } c).hand) →
          (y ∈ w.chan c ∨ y ∈ (w.party c).hand) := by
        intro c y hy
        by_cases hcb : c = b
        · subst hcb
          simp only [upd_same, List.mem_append, List.mem_singleton] at hy
          rw [hl, List.mem_cons]
          rcases hy with hy | hy | hy
          · exact .inl (.inr hy)
          · exact .inr hy
          · exact .inl (.inl hy)
        · simpa only [upd_other _ _ hcb] using hy
      constructor
      · intro c s q hm
        apply h1
        rcases hm with hm | hm | hm
        · rcases key _ _ (.inl hm) with k | k
          · exact .inl k
          · exact .inr (.inl k)
        · rcases key _ _ (.inr hm) with k | k
          · exact .inl k
          · exact .inr (.inl k)
        · exact .inr (.inr (by cases c <;> cases b <;> exact hm))
      · intro c s a hm
        apply h2
        rcases hm with hm | hm | hm
        · rcases key _ _ (.inl hm) with k | k
          · exact .inl k
          · exact .inr (.inl k)
        · rcases key _ _ (.inr hm) with k | k
          · exact .inl k
          · exact .inr (.inl k)
        · exact .inr (.inr (by cases c <;> cases b <;> exact hm))
      · exact h3
      · exact h4
      · exact h5
  | dispatch b k by' =>
    simp only [World.step]
    split
    · exact h
    · next s0 q0 hl =>
      have hmem := List.mem_of_getElem? hl
      obtain ⟨h1, h2, h3, h4, h5⟩ := h
      have hsub : ∀ c y, y ∈ (upd w.party b { w.party b with
          hand := (w.party b).hand.eraseIdx k
          serving := (w.party b).serving ++ [(s0, q0)] } c).hand → y ∈ (w.party c).hand := by
        intro c y hy
        by_cases hcb : c = b
        · subst hcb; rw [upd_same] at hy; exact List.mem_of_mem_eraseIdx hy
        · rwa [upd_other _ _ hcb] at hy
      constructor
      · intro c s q hm
        apply h1
        rcases hm with hm | hm | hm
        · exact .inl hm
        · exact .inr (.inl (hsub _ _ hm))
        · by_cases hcb : (!c) = b
          · subst hcb
            simp only [upd_same] at hm
            rcases List.mem_append.1 hm with hm | hm
            · exact .inr (.inr hm)
            · simp only [List.mem_singleton, Prod.mk.injEq] at hm
              obtain ⟨rfl, rfl⟩ := hm
              exact .inr (.inl hmem)
          · simp only [upd_other _ _ hcb] at hm; exact .inr (.inr hm)
      · intro c s a hm
        apply h2
        rcases hm with hm | hm | hm
        · exact .inl hm
        · exact .inr (.inl (hsub _ _ hm))
        · exact .inr (.inr (by cases c <;> cases b <;> exact hm))
      · exact h3
      · exact h4
      · exact h5
    · next s0 a0 hl =>
      have hmem := List.mem_of_getElem? hl
      split
      · split
        · next old hn =>
          have hpos : 1 ≤ calls w b s0 := keyed_pos (mem_of_lookup hn)
          obtain ⟨h1, h2, h3, h4, h5⟩ := h
          have hll := List.sublist_cons_self
            (if old = true then Event.ignored b s0 else Event.settled b s0 a0) w.log
          have hsub : ∀ c y, y ∈ (upd w.party b { w.party b with
              hand := (w.party b).hand.eraseIdx k
              callbacks := (w.party b).callbacks.filter fun y => decide (y.1 ≠ s0) } c).hand →
              y ∈ (w.party c).hand := by
            intro c y hy
            by_cases hcb : c = b
            · subst hcb; rw [upd_same] at hy; exact List.mem_of_mem_eraseIdx hy
            · rwa [upd_other _ _ hcb] at hy
          constructor
          · intro c s q hm
            obtain ⟨sy, m⟩ := h1 c s q (hm.imp id (Or.imp (hsub _ _) (fun hm => by
              cases c <;> cases b <;> exact hm)))
            exact ⟨sy, hll.subset m⟩
          · intro c s a hm
            obtain ⟨q, sy, m⟩ := h2 c s a (hm.imp id (Or.imp (hsub _ _) (fun hm => by
              cases c <;> cases b <;> exact hm)))
            exact ⟨q, sy, m.trans hll⟩
          · intro c s q a hm
            obtain ⟨sy, m⟩ := h3 c s q a (by cases old <;> simpa using hm)
            exact ⟨sy, m.trans hll⟩
          · intro c s a hm
            obtain ⟨q, m⟩ := h4 c s a (by cases old <;> simpa using hm)
            exact ⟨q, m.trans hll⟩
          · intro c s a hm
            rcases List.mem_cons.1 hm with hm | hm
            · cases old
              · simp only [Bool.false_eq_true, if_false, Event.settled.injEq] at hm
                obtain ⟨rfl, rfl, rfl⟩ := hm
                obtain ⟨q, sy, m⟩ := h2 c s a (.inr (.inl hmem))
                have g := hi c s
                simp only [GoodAt, Good] at g
                have : sy = false := sort_of hi (mem_of_sublist2 m).2 false (by simp; omega)
                subst this
                exact ⟨q, by simpa using m⟩
              · simp at hm
            · obtain ⟨q, m⟩ := h5 c s a hm
              exact ⟨q, m.trans hll⟩
        · next hn =>
          obtain ⟨h1, h2, h3, h4, h5⟩ := h
          have hsub : ∀ c y, y ∈ (upd w.party b { w.party b with
              hand := (w.party b).hand.eraseIdx k
              replies := put (w.party b).replies s0 a0 } c).hand → y ∈ (w.party c).hand := by
            intro c y hy
            by_cases hcb : c = b
            · subst hcb; rw [upd_same] at hy; exact List.mem_of_mem_eraseIdx hy
            · rwa [upd_other _ _ hcb] at hy
          constructor
          · intro c s q hm
            exact h1 c s q (hm.imp id (Or.imp (hsub _ _) (fun hm => by cases c <;> cases b <;> exact hm)))
          · intro c s a hm
            apply h2
            rcases hm with hm | hm | hm
            · exact .inl hm
            · exact .inr (.inl (hsub _ _ hm))
            · by_cases hcb : c = b
              · subst hcb
                simp only [upd_same] at hm
                rcases mem_put hm with ⟨rfl, rfl⟩ | hm
                · exact .inr (.inl hmem)
                · exact .inr (.inr hm)
              · simp only [upd_other _ _ hcb] at hm; exact .inr (.inr hm)
          · exact h3
          · exact h4
          · exact h5
      · apply blame_traced
        refine traced_same h (fun c => ?_) (fun c => ?_) (fun c => ?_) (fun c => ?_) (List.sublist_cons_self _ _)
          (fun c s q a hm => ?_) (fun c s a hm => ?_) (fun c s a hm => ?_)
        · exact fun _ h => h
        · by_cases hcb : c = b
          · subst hcb; simp only [upd_same]; exact fun _ h => List.mem_of_mem_eraseIdx h
          · simp only [upd_other _ _ hcb]; exact fun _ h => h
        · cases b <;> cases c <;> exact fun _ h => h
        · cases b <;> cases c <;> exact fun _ h => h
        · simpa using hm
        · simpa using hm
        · simpa using hm
  | finish b k a by' =>
    simp only [World.step]
    split
    · exact h
    · next s0 q0 hl =>
      have hmem := List.mem_of_getElem? hl
      have hsub : ∀ c y, y ∈ (upd w.party b { w.party b with
          serving := (w.party b).serving.eraseIdx k } c).serving → y ∈ (w.party c).serving := by
        intro c y hy
        by_cases hcb : c = b
        · subst hcb; rw [upd_same] at hy; exact List.mem_of_mem_eraseIdx hy
        · rwa [upd_other _ _ hcb] at hy
      split
      · obtain ⟨h1, h2, h3, h4, h5⟩ := h
        obtain ⟨sy0, m0⟩ := h1 (!b) s0 q0 (.inr (.inr (by simpa using hmem)))
        have hll := List.sublist_cons_self (Event.answered (!b) s0 q0 a) w.log
        have hnew : [Event.answered (!b) s0 q0 a, .sent (!b) sy0 s0 q0].Sublist
            (Event.answered (!b) s0 q0 a :: w.log) := (List.singleton_sublist.2 m0).cons_cons _
        constructor
        · intro c s q hm
          obtain ⟨sy, m⟩ := h1 c s q (by
            rcases hm with hm | hm | hm
            · exact .inl (by cases c <;> cases b <;> simpa [upd] using hm)
            · exact .inr (.inl (by cases c <;> cases b <;> exact hm))
            · exact .inr (.inr (hsub _ _ hm)))
          exact ⟨sy, hll.subset m⟩
        · intro c s a' hm
          rcases hm with hm | hm | hm
          · by_cases hcb : c = !b
            · subst hcb
              simp only [upd_same, List.mem_append, List.mem_singleton] at hm
              rcases hm with hm | hm
              · obtain ⟨q, sy, m⟩ := h2 _ s a' (.inl hm)
                exact ⟨q, sy, m.trans hll⟩
              · simp only [Msg.rep.injEq] at hm
                obtain ⟨rfl, rfl⟩ := hm
                exact ⟨q0, sy0, hnew⟩
            · simp only [upd_other _ _ hcb] at hm
              obtain ⟨q, sy, m⟩ := h2 _ s a' (.inl hm)
              exact ⟨q, sy, m.trans hll⟩
          · obtain ⟨q, sy, m⟩ := h2 c s a' (.inr (.inl (by cases c <;> cases b <;> exact hm)))
            exact ⟨q, sy, m.trans hll⟩
          · obtain ⟨q, sy, m⟩ := h2 c s a' (.inr (.inr (by cases c <;> cases b <;> exact hm)))
            exact ⟨q, sy, m.trans hll⟩
        · intro c s q a' hm
          rcases List.mem_cons.1 hm with hm | hm
          · simp only [Event.answered.injEq] at hm
            obtain ⟨rfl, rfl, rfl, rfl⟩ := hm
            exact ⟨sy0, hnew⟩
          · obtain ⟨sy, m⟩ := h3 c s q a' hm
            exact ⟨sy, m.trans hll⟩
        · intro c s a' hm
          obtain ⟨q, m⟩ := h4 c s a' (by simpa using hm)
          exact ⟨q, m.trans hll⟩
        · intro c s a' hm
          obtain ⟨q, m⟩ := h5 c s a' (by simpa using hm)
          exact ⟨q, m.trans hll⟩
      · apply blame_traced
        refine traced_same h (fun c => ?_) (fun c => ?_) (fun c => ?_) (fun c => ?_) (List.sublist_cons_self _ _)
          (fun c s q a hm => ?_) (fun c s a hm => ?_) (fun c s a hm => ?_)
        · exact fun _ h => h
        · cases b <;> cases c <;> exact fun _ h => h
        · exact fun y hy => hsub c y hy
        · cases b <;> cases c <;> exact fun _ h => h
        · simpa using hm
        · simpa using hm
        · simpa using hm
  | wake b s0 =>
    simp only [World.step]
    split
    · exact h
    · next a0 hl =>
      split
      · next ht =>
        have hpos : 1 ≤ waits w b s0 := held_pos ht
        obtain ⟨h1, h2, h3, h4, h5⟩ := h
        have hll := List.sublist_cons_self (Event.returned b s0 a0) w.log
        constructor
        · intro c s q hm
          obtain ⟨sy, m⟩ := h1 c s q (by cases c <;> cases b <;> exact hm)
          exact ⟨sy, hll.subset m⟩
        · intro c s a hm
          obtain ⟨q, sy, m⟩ := h2 c s a (by
            rcases hm with hm | hm | hm
            · exact .inl hm
            · exact .inr (.inl (by cases c <;> cases b <;> exact hm))
            · by_cases hcb : c = b
              · subst hcb; simp only [upd_same] at hm; exact .inr (.inr (List.mem_filter.1 hm).1)
              · simp only [upd_other _ _ hcb] at hm; exact .inr (.inr hm))
          exact ⟨q, sy, m.trans hll⟩
        · intro c s q a hm
          obtain ⟨sy, m⟩ := h3 c s q a (by simpa using hm)
          exact ⟨sy, m.trans hll⟩
        · intro c s a hm
          rcases List.mem_cons.1 hm with hm | hm
          · simp only [Event.returned.injEq] at hm
            obtain ⟨rfl, rfl, rfl⟩ := hm
            obtain ⟨q, sy, m⟩ := h2 c s a (.inr (.inr (mem_of_lookup hl)))
            have g := hi c s
            simp only [GoodAt, Good] at g
            have : sy = true := sort_of hi (mem_of_sublist2 m).2 true (by simp; omega)
            subst this
            exact ⟨q, m.cons_cons _⟩
          · obtain ⟨q, m⟩ := h4 c s a hm
            exact ⟨q, m.trans hll⟩
        · intro c s a hm
          obtain ⟨q, m⟩ := h5 c s a (by simpa using hm)
          exact ⟨q, m.trans hll⟩
      · exact h
  | expire b s0 =>
    simp only [World.step]
    split
    · refine traced_same h (fun c => ?_) (fun c => ?_) (fun c => ?_) (fun c => ?_) (List.sublist_cons_self _ _)
        (fun c s q a hm => ?_) (fun c s a hm => ?_) (fun c s a hm => ?_)
      · exact fun _ h => h
      · cases b <;> cases c <;> exact fun _ h => h
      · cases b <;> cases c <;> exact fun _ h => h
      · cases b <;> cases c <;> exact fun _ h => h
      · simpa using hm
      · simpa using hm
      · simpa using hm
    · exact h

theorem start_traced : Traced (World.start (Q := Q) (A := A)) := by
  constructor <;> intros <;> simp_all [World.start]

theorem run_traced (x : Wire Q A) (l : List (Act Q A)) : Traced (World.run x l) :=
  (foldl_keeps (P := fun w => Inv w ∧ Traced w)
    (fun _ a h => ⟨step_inv x h.1 a, step_traced x h.1 h.2 a⟩) l _ ⟨start_inv, start_traced⟩).2

/-! ## Results that come too late -/

theorem lookup_filter {T : Type} (m : List (Nat × T)) (k s : Nat) :
    (m.filter fun x => decide (x.1 ≠ k)).lookup s = if s = k then none else m.lookup s := by
  induction m with
  | nil => simp
  | cons y m ih =>
    obtain ⟨j, v⟩ := y
    by_cases hj : j = k
    · subst hj
      rw [List.filter_cons_of_neg (by simp), ih, List.lookup_cons]
      by_cases hs : s = j
      · simp [hs]
      · have : (s == j) = false := by simpa using hs
        rw [this]
    · rw [List.filter_cons_of_pos (by simpa using hj), List.lookup_cons, List.lookup_cons, ih]
      by_cases hs : s = j
      · have : (s == j) = true := by simpa using hs
        rw [this]; simp only; rw [if_neg (fun e => hj (hs.symm.trans e))]
      · have : (s == j) = false := by simpa using hs
        rw [this]

theorem lookup_put {T : Type} (m : List (Nat × T)) (k s : Nat) (v : T) :
    (put m k v).lookup s = if s = k then some v else m.lookup s := by
  unfold put
  rw [List.lookup_cons, lookup_filter]
  by_cases hs : s = k
  · have : (s == k) = true := by simpa using hs
    rw [this]; simp only; rw [if_pos hs]
  · have : (s == k) = false := by simpa using hs
    rw [this, if_neg hs, if_neg hs]

/-- Results that have expired: their answers are still to come, or were ignored. -/
def Late (w : World Q A) : Prop := ∀ b s, .expired b s ∈ w.log ↔
  ((w.party b).callbacks.lookup s = some true ∨ .ignored b s ∈ w.log)

theorem late_same {w w' : World Q A} (h : Late w) (hc : ∀ b, (w'.party b).callbacks = (w.party b).callbacks)
    (he : ∀ b s, .expired b s ∈ w'.log ↔ .expired b s ∈ w.log)
    (hi : ∀ b s, .ignored b s ∈ w'.log ↔ .ignored b s ∈ w.log) : Late w' := by
  intro b s
  rw [he, hi, hc]
  exact h b s

theorem blame_late {w : World Q A} (h : Late w) (b : Bool) (t : Option Nat) : Late (w.blame b t) := by
  cases t with
  | none => exact h
  | some t =>
    unfold World.blame
    by_cases ht : t ∈ (w.party b).waiting
    · simp only [ht, if_true]
      exact late_same h (fun c => by cases b <;> cases c <;> rfl) (by simp) (by simp)
    · simp only [ht, if_false]; exact h

theorem step_late (x : Wire Q A) {w : World Q A} (hi : Inv w) (h : Late w) (act : Act Q A) :
    Late (w.step x act) := by
  cases act with
  | call b sync q =>
    simp only [World.step]
    split
    · cases sync
      · intro c s
        by_cases hcb : c = b
        · subst hcb
          have e : (((upd w.party c { w.party c with
              next := (w.party c).next + 1
              callbacks := put (w.party c).callbacks (w.party c).next false }) c).callbacks).lookup s =
              if s = (w.party c).next then some false else (w.party c).callbacks.lookup s := by
            rw [upd_same]; exact lookup_put _ _ _ _
          simp only [Bool.false_eq_true, if_false, List.mem_cons, reduceCtorEq, false_or, e]
          by_cases hs : s = (w.party c).next
          · have g := hi c s
            simp only [GoodAt, Good, made, hs] at g
            have hn : Event.ignored c s ∉ w.log := fun hm => by
              have := cnt_pos (k := .ignored) (b := c) (s := s) hm rfl
              rw [hs] at this
              simp at g; omega
            have hl : (w.party c).callbacks.lookup s ≠ some true := fun hm => by
              have : 1 ≤ calls w c s := keyed_pos (mem_of_lookup hm)
              rw [hs] at this
              simp at g; omega
            rw [if_pos hs]
            constructor
            · intro he
              rcases (h c s).1 he with k | k
              · exact absurd k hl
              · exact absurd k hn
            · rintro (k | k)
              · simp at k
              · exact absurd k hn
          · rw [if_neg hs]; exact h c s
        · simp only [upd_other _ _ hcb, List.mem_cons, reduceCtorEq, false_or]; exact h c s
      · exact late_same h (fun c => by cases b <;> cases c <;> rfl) (by simp) (by simp)
    · exact late_same h (fun c => by cases b <;> cases c <;> rfl) (by simp) (by simp)
  | recv b =>
    simp only [World.step]
    split
    · exact h
    · exact late_same h (fun c => by cases b <;> cases c <;> rfl) (by simp) (by simp)
  | dispatch b k by' =>
    simp only [World.step]
    split
    · exact h
    · exact late_same h (fun c => by cases b <;> cases c <;> rfl) (by simp) (by simp)
    · next s0 a0 hl =>
      split
      · split
        · next old hn =>
          intro c s
          by_cases hcb : c = b
          · subst hcb
            simp only [upd_same, lookup_filter]
            by_cases hs : s = s0
            · subst hs
              have hp : 1 ≤ calls w c s := keyed_pos (mem_of_lookup hn)
              have g := hi c s
              simp only [GoodAt, Good] at g
              have hni : Event.ignored c s ∉ w.log := fun hm => by
                have := cnt_pos (k := .ignored) (b := c) (s := s) hm rfl
                omega
              have := h c s
              cases old <;> simp_all
            · rw [if_neg hs]
              have := h c s
              cases old <;> simp_all
          · simp only [upd_other _ _ hcb]
            have := h c s
            cases old <;> simp_all
        · exact late_same h (fun c => by cases b <;> cases c <;> rfl) (by simp) (by simp)
      · exact blame_late (late_same h (fun c => by cases b <;> cases c <;> rfl) (by simp) (by simp)) _ _
  | finish b k a by' =>
    simp only [World.step]
    split
    · exact h
    · split
      · exact late_same h (fun c => by cases b <;> cases c <;> rfl) (by simp) (by simp)
      · exact blame_late (late_same h (fun c => by cases b <;> cases c <;> rfl) (by simp) (by simp)) _ _
  | wake b s =>
    simp only [World.step]
    split
    · exact h
    · split
      · exact late_same h (fun c => by cases b <;> cases c <;> rfl) (by simp) (by simp)
      · exact h
  | expire b s0 =>
    simp only [World.step]
    split
    · intro c s
      by_cases hcb : c = b
      · subst hcb
        simp only [upd_same, lookup_put]
        by_cases hs : s = s0
        · subst hs; simp
        · rw [if_neg hs]
          have := h c s
          simp_all
      · simp only [upd_other _ _ hcb]
        have := h c s
        simp_all
    · exact h

theorem run_late (x : Wire Q A) (l : List (Act Q A)) : Late (World.run x l) :=
  (foldl_keeps (P := fun w => Inv w ∧ Late w)
    (fun _ a h => ⟨step_inv x h.1 a, step_late x h.1 h.2 a⟩) l _
    ⟨start_inv, fun b s => by simp [World.start]⟩).2

/-! ## The record only grows -/

theorem blame_log (w : World Q A) (b : Bool) (t : Option Nat) : w.log ⊆ (w.blame b t).log := by
  cases t with
  | none => exact fun _ h => h
  | some t =>
    unfold World.blame
    by_cases ht : t ∈ (w.party b).waiting
    · simp only [ht, if_true]; exact List.subset_cons_self _ _
    · simp only [ht, if_false]; exact fun _ h => h

theorem step_log (x : Wire Q A) (w : World Q A) (act : Act Q A) : w.log ⊆ (w.step x act).log := by
  cases act with
  | call b sync q => simp only [World.step]; split <;> exact List.subset_cons_self _ _
  | recv b => simp only [World.step]; split <;> exact fun _ h => h
  | dispatch b k by' =>
    simp only [World.step]
    split
    · exact fun _ h => h
    · exact fun _ h => h
    · split
      · split
        · exact List.subset_cons_self _ _
        · exact fun _ h => h
      · exact fun _ h => blame_log _ _ _ (List.mem_cons_of_mem _ h)
  | finish b k a by' =>
    simp only [World.step]
    split
    · exact fun _ h => h
    · split
      · exact List.subset_cons_self _ _
      · exact fun _ h => blame_log _ _ _ (List.mem_cons_of_mem _ h)
  | wake b s =>
    simp only [World.step]
    split
    · exact fun _ h => h
    · split
      · exact List.subset_cons_self _ _
      · exact fun _ h => h
  | expire b s =>
    simp only [World.step]
    split
    · exact List.subset_cons_self _ _
    · exact fun _ h => h

theorem run_append (x : Wire Q A) (l m : List (Act Q A)) :
    World.run x (l ++ m) = m.foldl (fun w a => w.step x a) (World.run x l) := by
  unfold World.run
  rw [List.foldl_append]

theorem run_log (x : Wire Q A) (l m : List (Act Q A)) : (World.run x l).log ⊆ (World.run x (l ++ m)).log := by
  rw [run_append]
  intro e he
  exact foldl_keeps (P := fun w => e ∈ w.log) (fun w a h => step_log x w a h) m _ he

/-! ## What can still happen -/

/-- Nothing raises. -/
def Clean (w : World Q A) : Prop := ∀ b s, .failed b s ∉ w.log ∧ .lost b s ∉ w.log ∧ .unsent b s ∉ w.log

theorem step_clean {x : Wire Q A} (h1 : ∀ a, x.sendA a = true) (h2 : ∀ a, x.unbox a = true) {w : World Q A}
    (h : Clean w) (act : Act Q A) : Clean (w.step x act) := by
  intro c s
  have g := h c s
  cases act with
  | call b sync q => simp only [World.step]; split <;> simpa using g
  | recv b => simp only [World.step]; split <;> simpa using g
  | dispatch b k by' =>
    simp only [World.step, h2, if_true]
    split
    · exact g
    · exact g
    · split
      · next old _ => cases old <;> simpa using g
      · exact g
  | finish b k a by' =>
    simp only [World.step, h1, if_true]
    split
    · exact g
    · simpa using g
  | wake b s =>
    simp only [World.step]
    split
    · exact g
    · split
      · simpa using g
      · exact g
  | expire b s =>
    simp only [World.step]
    split
    · simpa using g
    · exact g

theorem run_clean {x : Wire Q A} (h1 : ∀ a, x.sendA a = true) (h2 : ∀ a, x.unbox a = true)
    (l : List (Act Q A)) : Clean (World.run x l) :=
  foldl_keeps (P := Clean) (fun _ a h => step_clean h1 h2 h a) l _ (fun b s => by simp [World.start])

def chanWeight : Msg Q A → Nat
  | .req _ _ => 6
  | .rep _ _ => 3

def handWeight : Msg Q A → Nat
  | .req _ _ => 5
  | .rep _ _ => 2

/-- How much there is to do at one end. -/
def todo (p : Party Q A) (c : List (Msg Q A)) : Nat :=
  (c.map chanWeight).sum + (p.hand.map handWeight).sum + 4 * p.serving.length + p.replies.length

def load (w : World Q A) : Nat := todo (w.party true) (w.chan true) + todo (w.party false) (w.chan false)

theorem length_put_le {T : Type} (m : List (Nat × T)) (k : Nat) (v : T) : (put m k v).length ≤ m.length + 1 := by
  unfold put
  have := List.length_filter_le (fun x : Nat × T => decide (x.1 ≠ k)) m
  simp only [List.length_cons]; omega

/-- While there is something to do, one of the ends can do it. -/
theorem progress {x : Wire Q A} (h1 : ∀ a, x.sendA a = true) (h2 : ∀ a, x.unbox a = true) (a0 : A) {w : World Q A}
    (hi : Inv w) (hc : Clean w) (hl : load w ≠ 0) :
    ∃ act, (∀ b sync q, act ≠ .call b sync q) ∧ load (w.step x act) < load w := by
  obtain ⟨b, hb⟩ : ∃ b, todo (w.party b) (w.chan b) ≠ 0 := by
    by_cases h : todo (w.party true) (w.chan true) = 0
    · exact ⟨false, by unfold load at hl; omega⟩
    · exact ⟨true, h⟩
  by_cases e1 : w.chan b = []
  · by_cases e2 : (w.party b).hand = []
    · by_cases e3 : (w.party b).serving = []
      · have e4 : (w.party b).replies ≠ [] := by
          intro e4; simp [todo, e1, e2, e3, e4] at hb
        obtain ⟨⟨s, a⟩, r, hr⟩ := List.exists_cons_of_ne_nil e4
        refine ⟨.wake b s, by simp, ?_⟩
        have hlk : (w.party b).replies.lookup s = some a := by rw [hr]; simp
        have hw : s ∈ (w.party b).waiting := by
          apply mem_of_held
          have g := hi b s
          simp only [GoodAt, Good] at g
          have hp : 1 ≤ stored w b s := keyed_pos (mem_of_lookup hlk)
          have hf : cnt w .failed b s = 0 := by
            apply Classical.byContradiction
            intro hne
            obtain ⟨e, he, hk⟩ := exists_of_cnt (show 1 ≤ cnt w .failed b s by omega)
            cases e <;> simp [Event.kind] at hk
            · next sy _ _ => cases sy <;> simp at hk
            · obtain ⟨rfl, rfl⟩ := hk; exact (hc _ _).1 he
          show 1 ≤ waits w b s
          omega
        have hs : ((w.party b).replies.filter fun y => decide (y.1 ≠ s)).length < (w.party b).replies.length := by
          rw [hr, List.filter_cons_of_neg (by simp)]
          have := List.length_filter_le (fun y : Nat × A => decide (y.1 ≠ s)) r
          simp only [List.length_cons]; omega
        simp only [World.step, hlk, hw, if_true]
        cases b <;> simp only [load, todo, upd, Bool.false_eq_true, Bool.true_eq_false, if_true, if_false] <;> omega
      · obtain ⟨⟨s, q⟩, r, hr⟩ := List.exists_cons_of_ne_nil e3
        refine ⟨.finish b 0 a0 none, by simp, ?_⟩
        simp only [World.step, hr, List.getElem?_cons_zero, h1, if_true, List.eraseIdx_cons_zero]
        cases b <;> simp [load, todo, upd, hr, chanWeight, List.sum_append] <;> omega
    · obtain ⟨m, r, hr⟩ := List.exists_cons_of_ne_nil e2
      refine ⟨.dispatch b 0 none, by simp, ?_⟩
      simp only [World.step, hr, List.getElem?_cons_zero, h2, if_true, List.eraseIdx_cons_zero]
      cases m with
      | req s q => cases b <;> simp [load, todo, upd, hr, handWeight] <;> omega
      | rep s a =>
        have := length_put_le (w.party b).replies s a
        cases hk : (w.party b).callbacks.lookup s with
        | none =>
          simp only [hk]
          cases b <;> simp [load, todo, upd, hr, handWeight] <;> omega
        | some old =>
          simp only [hk]
          cases b <;> simp [load, todo, upd, hr, handWeight] <;> omega
  · obtain ⟨m, r, hr⟩ := List.exists_cons_of_ne_nil e1
    refine ⟨.recv b, by simp, ?_⟩
    simp only [World.step, hr]
    cases m <;> cases b <;> simp [load, todo, upd, hr, handWeight, chanWeight, List.sum_append] <;> omega

/-- Everything can be done, without further calls. -/
theorem drain {x : Wire Q A} (h1 : ∀ a, x.sendA a = true) (h2 : ∀ a, x.unbox a = true) (a0 : A) :
    ∀ (n : Nat) (w : World Q A), load w ≤ n → Inv w → Clean w →
    ∃ l : List (Act Q A), (∀ act ∈ l, ∀ b sync q, act ≠ .call b sync q) ∧
      load (l.foldl (fun w a => w.step x a) w) = 0
  | 0, w, h, _, _ => ⟨[], by simp, by simpa using h⟩
  | n + 1, w, h, hi, hc => by
    by_cases h0 : load w = 0
    · exact ⟨[], by simp, h0⟩
    · obtain ⟨act, ha, hlt⟩ := progress h1 h2 a0 hi hc h0
      obtain ⟨l, hl, he⟩ := drain h1 h2 a0 n (w.step x act) (by omega) (step_inv x hi act) (step_clean h1 h2 hc act)
      refine ⟨act :: l, ?_, he⟩
      intro y hy
      rcases List.mem_cons.1 hy with rfl | hy
      · exact ha
      · exact hl y hy

end Verif.Replies
