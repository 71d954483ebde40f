import Verif.Lemmas.Registry
import Verif.Props.Brine
import Mathlib.Data.List.Induction

/-! # C126: the registry server answers with the servers that are there -/

namespace Verif.Registry

open Verif.Brine (Val Bytes)

variable {A : Type} [DecidableEq A]

/-! ## Specification -/

/-- What one command means for one server of one service: a registration under this name, in any case of the letters, says
that it is there; when it unregisters, it is gone; nothing else matters. -/
def heard (upper : Text → Text) (name : Text) (a : A) (known : Option Nat) : Nat × Cmd A → Option Nat
  | (now, .register ns b) => if b = a ∧ ns.any (fun n => upper n == name) then some now else known
  | (_, .unregister b) => if b = a then none else known
  | (_, .query _) => known

/-- When a server has registered last, unless it has unregistered since. -/
def last (upper : Text → Text) (name : Text) (a : A) (h : List (Nat × Cmd A)) : Option Nat :=
  h.foldl (heard upper name a) none

/-- The clock does not go back. -/
def Clock (h : List (Nat × Cmd A)) : Prop := h.Pairwise fun x y => x.1 ≤ y.1

/-! ## The table and the history -/

theorem heard_register (upper : Text → Text) (name : Text) (a b : A) (k : Option Nat) (now : Nat) (ns : List Text) :
    heard upper name a k (now, .register ns b) = if b = a ∧ ∃ n ∈ ns, upper n = name then some now else k := by
  simp only [heard, List.any_eq_true, beq_iff_eq]

theorem last_snoc (upper : Text → Text) (name : Text) (a : A) (h : List (Nat × Cmd A)) (c : Nat × Cmd A) :
    last upper name a (h ++ [c]) = heard upper name a (last upper name a h) c := by
  simp [last, List.foldl_append]

theorem run_snoc (upper : Text → Text) (timeout : Nat) (h : List (Nat × Cmd A)) (c : Nat × Cmd A) (t : Table A) :
    run upper timeout (h ++ [c]) t = (run upper timeout h t).bind fun t' => (step upper timeout t' c).map (·.1) := by
  induction h generalizing t with
  | nil =>
    simp only [List.nil_append, run, Option.bind_some]
    cases step upper timeout t c <;> rfl
  | cons x h ih =>
    simp only [List.cons_append, run]
    cases step upper timeout t x with
    | none => rfl
    | some r => simp only [Option.bind_some]; exact ih r.1

open scoped Classical in
/-- What the table knows is what has been heard last; what it does not know any more is stale. -/
theorem run_spec (upper : Text → Text) (timeout : Nat) (h : List (Nat × Cmd A)) (hc : Clock h) :
    ∃ t, run upper timeout h [] = some t ∧ Keys t ∧
      (∀ n a s, stamp t n a = some s → last upper n a h = some s) ∧
      (∀ n a s, last upper n a h = some s → stamp t n a = none → ∃ x ∈ h, s + timeout < x.1) := by
  induction h using List.reverseRecOn with
  | nil =>
    exact ⟨[], rfl, ⟨List.nodup_nil, fun n d e => (nomatch e)⟩, fun n a s e => (nomatch e), fun n a s e => (nomatch e)⟩
  | append_singleton h c ih =>
    have hc' : Clock h := (List.pairwise_append.1 hc).1
    obtain ⟨t, ht, k, s1, s2⟩ := ih hc'
    rw [run_snoc, ht, Option.bind_some]
    have keep : ∀ {s : Nat}, (∃ x ∈ h, s + timeout < x.1) → ∃ x ∈ h ++ [c], s + timeout < x.1 :=
      fun ⟨x, hx, e⟩ => ⟨x, List.mem_append_left _ hx, e⟩
    obtain ⟨now, cmd⟩ := c
    cases cmd with
    | query name =>
      obtain ⟨r, hr, r1, _, r3⟩ := query_spec upper timeout now name t k
      refine ⟨r.2.1, by simp only [step, hr, Option.map_some], r1, fun n a s e => ?_, fun n a s e e' => ?_⟩
      · rw [last_snoc]
        rw [r3] at e
        split at e
        · cases e
        · exact s1 _ _ _ e
      · rw [last_snoc] at e
        replace e : last upper n a h = some s := e
        rw [r3] at e'
        split at e'
        · next hst =>
          obtain ⟨_, s', h1, h2⟩ := hst
          have := s1 _ _ _ h1
          rw [e] at this
          cases this
          exact ⟨(now, .query name), List.mem_append_right _ (List.mem_singleton.2 rfl), h2⟩
        · exact keep (s2 _ _ _ e e')
    | register ns b =>
      obtain ⟨r1, r2⟩ := register_spec upper now ns b t k
      refine ⟨_, rfl, r1, fun n a s e => ?_, fun n a s e e' => ?_⟩
      · rw [last_snoc, heard_register]
        rw [r2] at e
        split at e
        · next hst => rw [if_pos ⟨hst.1.symm, hst.2⟩]; exact e
        · next hst =>
          rw [if_neg (fun h => hst ⟨h.1.symm, h.2⟩)]
          exact s1 _ _ _ e
      · rw [last_snoc, heard_register] at e
        rw [r2] at e'
        split at e'
        · cases e'
        · next hst =>
          rw [if_neg (fun h => hst ⟨h.1.symm, h.2⟩)] at e
          exact keep (s2 _ _ _ e e')
    | unregister b =>
      obtain ⟨r, hr, r1, r2⟩ := unregister_spec b t k
      refine ⟨r.1, by simp only [step, hr, Option.map_some], r1, fun n a s e => ?_, fun n a s e e' => ?_⟩
      · rw [last_snoc]
        rw [r2] at e
        by_cases ha : a = b
        · rw [if_pos ha] at e; cases e
        · rw [if_neg ha] at e
          simp only [heard]
          rw [if_neg (Ne.symm ha)]
          exact s1 _ _ _ e
      · rw [last_snoc] at e
        simp only [heard] at e
        rw [r2] at e'
        by_cases ha : a = b
        · rw [if_pos ha.symm] at e; cases e
        · rw [if_neg (Ne.symm ha)] at e
          rw [if_neg ha] at e'
          exact keep (s2 _ _ _ e e')

/-! ## The property -/

/-- **C126 (answers).** Whatever has been registered, unregistered and asked for before, the server answers every query, and
the answer consists of exactly the servers whose last registration under this name is not older than the timeout and
which have not unregistered since, every one once, and those that registered earlier first.  Earlier queries, which
remove servers from the table, do not change any answer. -/
theorem C126_query (upper : Text → Text) (timeout now : Nat) (h : List (Nat × Cmd A)) (hc : Clock h)
    (hn : ∀ x ∈ h, x.1 ≤ now) (name : Text) :
    ∃ t r, run upper timeout h [] = some t ∧ query upper timeout now name t = some r ∧
      (∀ a, a ∈ r.1 ↔ ∃ s, last upper (upper name) a h = some s ∧ now ≤ s + timeout) ∧ r.1.Nodup ∧
      r.1.Pairwise (fun a b => ∀ s s', last upper (upper name) a h = some s → last upper (upper name) b h = some s' → s ≤ s') := by
  obtain ⟨t, ht, k, s1, s2⟩ := run_spec upper timeout h hc
  obtain ⟨r, hr, _, ⟨l, l1, l2, l3, l4⟩, _⟩ := query_spec upper timeout now name t k
  refine ⟨t, r, ht, hr, fun a => ?_, l1 ▸ l2, ?_⟩
  · rw [l1, List.mem_map]
    constructor
    · rintro ⟨⟨a', s⟩, hm, rfl⟩
      obtain ⟨e1, e2⟩ := (l4 a' s).1 hm
      exact ⟨s, s1 _ _ _ e1, e2⟩
    · rintro ⟨s, e1, e2⟩
      cases e3 : stamp t (upper name) a with
      | none =>
        obtain ⟨x, hx, e4⟩ := s2 _ _ _ e1 e3
        have := hn x hx
        omega
      | some s' =>
        have := s1 _ _ _ e3
        rw [e1] at this
        cases this
        exact ⟨(a, s), (l4 a s).2 ⟨e3, e2⟩, rfl⟩
  · rw [l1, List.pairwise_map]
    refine l3.imp_of_mem ?_
    intro x y hx hy hxy s s' e e'
    have h1 := s1 _ _ _ ((l4 x.1 x.2).1 hx).1
    have h2 := s1 _ _ _ ((l4 y.1 y.2).1 hy).1
    rw [h1] at e
    rw [h2] at e'
    cases e
    cases e'
    exact hxy

/-- **C126 (keep-alive).** A registration under one name tells the callback of a new server if the server has never
registered under this name, or unregistered since; a server whose last registration is not older than the timeout is
not reported as new. -/
theorem C126_added (upper : Text → Text) (timeout now : Nat) (h : List (Nat × Cmd A)) (hc : Clock h)
    (hn : ∀ x ∈ h, x.1 ≤ now) (name : Text) (a : A) :
    ∃ t, run upper timeout h [] = some t ∧
      (last upper (upper name) a h = none → (register upper now [name] a t).2 = [.added (upper name) a]) ∧
      (∀ s, last upper (upper name) a h = some s → now ≤ s + timeout → (register upper now [name] a t).2 = []) := by
  obtain ⟨t, ht, k, s1, s2⟩ := run_spec upper timeout h hc
  have key : (register upper now [name] a t).2 = if stamp t (upper name) a = none then [.added (upper name) a] else [] := by
    simp only [register, List.append_nil]
    exact add_event ..
  refine ⟨t, ht, fun e => ?_, fun s e e' => ?_⟩
  · rw [key, if_pos]
    cases e3 : stamp t (upper name) a with
    | none => rfl
    | some s => rw [s1 _ _ _ e3] at e; cases e
  · rw [key, if_neg]
    intro e3
    obtain ⟨x, hx, e4⟩ := s2 _ _ _ e e3
    have := hn x hx
    omega

/-- ASCII letters in upper case, for the examples. -/
def up (s : Text) : Text := s.map fun c => if 97 ≤ c ∧ c ≤ 122 then c - 32 else c

/-- Two servers of a service, one of which stops, and a third one which is silent for too long. -/
def exHistory : List (Nat × Cmd Nat) :=
  [(0, .register [[97, 98], [99]] 3), (10, .register [[97, 66]] 1), (20, .register [[65, 66], [99]] 2),
   (100, .query [97, 98]), (230, .register [[97, 98]] 1), (240, .unregister 2), (245, .query [99])]

example : Clock exHistory ∧ (∀ x ∈ exHistory, x.1 ≤ 250) ∧ last up [65, 66] 1 exHistory = some 230 ∧
    last up [65, 66] 2 exHistory = none ∧ last up [65, 66] 3 exHistory = some 0 := by
  refine ⟨?_, ?_, by decide, by decide, by decide⟩
  · simp [Clock, exHistory]
  · simp [exHistory]

example : ((run up 240 exHistory []).bind fun t => (query up 240 240 [97, 98] t).map (·.1)) = some [3, 1] ∧
    ((run up 240 exHistory []).bind fun t => (query up 240 241 [97, 98] t).map (·.1)) = some [1] ∧
    ((run up 240 exHistory []).map fun t => (register up 250 [[97, 98]] 1 t).2) = some [] ∧
    ((run up 240 exHistory []).map fun t => (register up 250 [[97, 98]] 2 t).2) = some [.added [65, 66] 2] := by decide

/-- **C126 (callback), full statement.** `on_service_removed` is "called when a service unregisters or is pruned": whenever
a server is in the table, unregistering calls it. -/
def RemovedStatement : Prop :=
  ∀ (timeout : Nat) (h : List (Nat × Cmd Nat)) (t t' : Table Nat) (ev : List (Event Nat)) (n : Text) (a : Nat),
    run up timeout h [] = some t → (∃ s, last up n a h = some s ∧ ∀ x ∈ h, x.1 ≤ s + timeout) →
      unregister a t = some (t', ev) → Event.removed n a ∈ ev

/-- The callbacks of a removed server: for the names it leaves without any server in the table. -/
theorem removed_events (a : A) (names : List Text) (t t' : Table A) (ev : List (Event A)) (hk : Keys t)
    (hn : names.Nodup) (hm : ∀ n ∈ names, n ∈ t.map (·.1)) (h : unregisterAll a names t = some (t', ev)) (n : Text) (b : A) :
    (Event.removed n b ∈ ev ↔ b = a ∧ n ∈ names ∧ ∀ c, c ≠ a → stamp t n c = none) ∧ Event.added n b ∉ ev := by
  induction names generalizing t ev with
  | nil =>
    simp only [unregisterAll, Option.some.injEq, Prod.mk.injEq] at h
    obtain ⟨rfl, rfl⟩ := h
    simp
  | cons m names ih =>
    rw [List.nodup_cons] at hn
    obtain ⟨r, hr, k1, k2, k3, _⟩ := remove_spec m a t hk (hm m (List.mem_cons_self ..))
    simp only [unregisterAll] at h
    rw [hr, Option.bind_some, Option.map_eq_some_iff] at h
    obtain ⟨q, hq, e⟩ := h
    cases e
    obtain ⟨i1, i2⟩ := ih r.1 q.2 k1 hn.2 (fun m' hm' =>
      (k3 m' (fun e => hn.1 (e ▸ hm'))).2 (hm m' (List.mem_cons_of_mem _ hm'))) hq
    -- the callback of this step
    have hstep : (r.2 = [.removed m a] ∧ ∀ c, c ≠ a → stamp t m c = none) ∨
        (r.2 = [] ∧ ¬ ∀ c, c ≠ a → stamp t m c = none) := by
      have hs := (get_isSome m t).2 (hm m (List.mem_cons_self ..))
      obtain ⟨d, hd⟩ := Option.isSome_iff_exists.1 hs
      have hst : ∀ c, c ≠ a → stamp t m c = get c (del a d) := fun c hc => by
        simp only [stamp, hd, Option.bind_some]
        rw [get_del, if_neg hc]
      unfold removeService at hr
      rw [hd, Option.bind_some] at hr
      by_cases he : (del a d).isEmpty = true
      · rw [if_pos he] at hr
        cases hr
        exact .inl ⟨rfl, fun c hc => by rw [hst c hc, List.isEmpty_iff.1 he]; rfl⟩
      · rw [if_neg he] at hr
        cases hr
        refine .inr ⟨rfl, fun hall => ?_⟩
        cases hdd : del a d with
        | nil => rw [hdd] at he; exact he rfl
        | cons x l =>
          have hx : x ∈ del a d := hdd ▸ List.mem_cons_self ..
          have hxa : x.1 ≠ a := by
            have := (List.mem_filter.1 hx).2
            simpa using this
          have := (get_isSome x.1 (del a d)).2 (List.mem_map.2 ⟨x, hx, rfl⟩)
          rw [← hst _ hxa, hall _ hxa] at this
          cases this
    have hsame : ∀ m', m' ≠ m → ∀ c, stamp r.1 m' c = stamp t m' c := fun m' hne c => by
      rw [k2, if_neg (fun e => hne e.1)]
    constructor
    · rw [List.mem_append, i1]
      by_cases hnm : n = m
      · subst hnm
        have : n ∉ names := hn.1
        rcases hstep with ⟨e1, e2⟩ | ⟨e1, e2⟩
        · simp [e1, this]
          intro _
          exact e2
        · rw [e1]
          simp [this]
          intro _
          simpa using e2
      · have hr2 : Event.removed n b ∉ r.2 := by
          rcases hstep with ⟨e1, _⟩ | ⟨e1, _⟩ <;> simp [e1, hnm]
        simp only [hr2, false_or, List.mem_cons, hnm, hsame n hnm]
    · rw [List.mem_append]
      rintro (e | e)
      · rcases hstep with ⟨e1, _⟩ | ⟨e1, _⟩ <;> simp [e1] at e
      · exact i2 e

/-- **C126 (callback), partial.** When a server unregisters, callbacks are about its address.  It is called for a name
under which only this server is registered, and it is not called for a name under which another server is, too.
Missing: that it is called in the latter case. -/
theorem C126_removed_partial (upper : Text → Text) (timeout now : Nat) (h : List (Nat × Cmd A)) (hc : Clock h)
    (hn : ∀ x ∈ h, x.1 ≤ now) (a : A) :
    ∃ t t' ev, run upper timeout h [] = some t ∧ unregister a t = some (t', ev) ∧
      (∀ e ∈ ev, ∃ n, e = .removed n a) ∧
      (∀ n s, last upper n a h = some s → now ≤ s + timeout → (∀ c, c ≠ a → last upper n c h = none) → .removed n a ∈ ev) ∧
      (∀ n c s, c ≠ a → last upper n c h = some s → now ≤ s + timeout → .removed n a ∉ ev) := by
  obtain ⟨t, ht, k, s1, s2⟩ := run_spec upper timeout h hc
  obtain ⟨r, hr, _, _⟩ := unregister_spec a t k
  have hev := removed_events a (t.map fun x : Text × List (A × Nat) => x.1) t r.1 r.2 k k.1 (fun _ h => h) hr
  have fresh : ∀ n c s, last upper n c h = some s → now ≤ s + timeout → stamp t n c ≠ none := by
    intro n c s e e' e3
    obtain ⟨x, hx, e4⟩ := s2 _ _ _ e e3
    have := hn x hx
    omega
  refine ⟨t, r.1, r.2, ht, hr, fun e he => ?_, fun n s e e' hall => ?_, fun n c s hca e e' hm => ?_⟩
  · cases e with
    | added n b => exact absurd he (hev n b).2
    | removed n b =>
      obtain ⟨rfl, _⟩ := (hev n b).1.1 he
      exact ⟨n, rfl⟩
  · refine (hev n a).1.2 ⟨rfl, ?_, fun c hca => ?_⟩
    · rw [← get_isSome]
      have := fresh n a s e e'
      simp only [stamp] at this
      cases hg : get n t with
      | none => rw [hg] at this; exact absurd rfl this
      | some d => rfl
    · cases e3 : stamp t n c with
      | none => rfl
      | some s' =>
        have := s1 _ _ _ e3
        rw [hall c hca] at this
        cases this
  · exact fresh n c s e e' (((hev n a).1.1 hm).2.2 c hca)

example : ((run up 240 [(0, .register [[97], [98]] 2), (1, .register [[97]] 1)] []).bind fun t =>
    (unregister 2 t).map (·.2)) = some [.removed [66] 2] := by decide

/-- **C126 is violated**: nothing is called when one of two servers of a service unregisters. -/
theorem C126_removed_violated : ¬ RemovedStatement := by
  intro h
  have := h 240 [(0, .register [[65]] 1), (0, .register [[65]] 2)] [([65], [(1, 0), (2, 0)])] [([65], [(2, 0)])] [] [65] 1
    (by decide) ⟨0, by decide, by simp⟩ (by decide)
  cases this

/-! ## Packets -/

/-- The server does not end when a packet arrives, whatever is in it (full statement). -/
def SurvivesStatement : Prop :=
  ∀ (env : Brine.Env) (timeout now : Nat) (host : Text) (t : Table Addr) (data : Bytes),
    packet up env timeout now host t data ≠ .died

/-- **C126 (packets), partial.** A packet ends the server exactly when it is three values of which the first is the text
`RPYC` and the second one is neither a text nor bytes.  Missing: that there are no such packets. -/
theorem C126_survives_partial (upper : Text → Text) (env : Brine.Env) (timeout now : Nat) (host : Text) (t : Table Addr)
    (data : Bytes) :
    packet upper env timeout now host t data = .died ↔
      ∃ v cmd args, Brine.loads env data = .ok v ∧
        Brine.items v = .ok [.str ("RPYC".toList.map Char.toNat), cmd, args] ∧
        (∀ s, cmd ≠ .str s) ∧ ∀ b, cmd ≠ .bytes b := by
  have hcmd : ∀ c l, command upper timeout now host t c l ≠ .died := by
    intro c l
    unfold command
    repeat' split
    all_goals simp
  unfold packet
  generalize "RPYC".toList.map Char.toNat = q
  cases hl : Brine.loads env data with
  | error e => simp
  | ok v =>
    simp only [three]
    cases hi : Brine.items v with
    | error e => simp [hi]
    | ok l =>
      match l, hi with
      | [], hi => simp [hi]
      | [_], hi => simp [hi]
      | [_, _], hi => simp [hi]
      | _ :: _ :: _ :: _ :: _, hi => simp [hi]
      | [m, c, a], hi =>
        simp only
        have key : (∃ x cmd args, (Except.ok v : Except Brine.Err Val) = .ok x ∧ Brine.items x = .ok [.str q, cmd, args] ∧
            (∀ s, cmd ≠ .str s) ∧ ∀ b, cmd ≠ .bytes b) ↔ m = .str q ∧ (∀ s, c ≠ .str s) ∧ ∀ b, c ≠ .bytes b := by
          constructor
          · rintro ⟨_, _, _, h1, h2, h3⟩
            cases h1
            rw [hi] at h2
            cases h2
            exact ⟨rfl, h3⟩
          · rintro ⟨rfl, h2⟩
            exact ⟨v, c, a, rfl, hi, h2⟩
        rw [key]
        cases m with
        | str s =>
          simp only [Val.str.injEq]
          by_cases hs : s = q
          · rw [if_pos hs]
            cases c with
            | str c =>
              cases Brine.items a with
              | error e => simp
              | ok l => simp [hcmd]
            | _ => simp [hs]
          · rw [if_neg hs]
            simp [hs]
        | _ => simp

/-- **C126 is violated**: the packet with `("RPYC", 5, ())` ends the server; nothing that comes later is answered. -/
theorem C126_survives_violated : ¬ SurvivesStatement ∧
    ∃ data, Brine.dump (.tup [.str ("RPYC".toList.map Char.toNat), .int 5, .tup []]) = .ok data ∧
      ∀ upper env timeout now host t rest, work upper env timeout ((now, host, data) :: rest) t = [] := by
  have hd : Brine.dump (.tup [.str ("RPYC".toList.map Char.toNat), .int 5, .tup []]) =
      .ok [0x12, 0x08, 0x0d, 0x52, 0x50, 0x59, 0x43, 0x55, 0x02] := by rfl
  have hp : ∀ upper env timeout now host t,
      packet upper env timeout now host t [0x12, 0x08, 0x0d, 0x52, 0x50, 0x59, 0x43, 0x55, 0x02] = .died := by
    intro upper env timeout now host t
    rw [C126_survives_partial]
    refine ⟨.tup [.str ("RPYC".toList.map Char.toNat), .int 5, .tup []], .int 5, .tup [],
      (Brine.C79_roundtrip env _ ?_ _ hd).1, rfl, by simp, by simp⟩
    simp [Brine.Proper, Brine.ProperAll]
  refine ⟨fun h => h Brine.exEnv 240 0 [] [] _ (hp ..), _, hd, fun upper env timeout now host t rest => ?_⟩
  simp only [work, hp]

/-- **C126 (over the network).** A query as the client sends it is answered with the addresses that `cmd_query` gives, and
the client reads just these. -/
theorem C126_wire (upper : Text → Text) (env : Brine.Env) (timeout now : Nat) (host name : Text) (t t' : Table Addr)
    (l : List Addr) (ev : List (Event Addr)) (data reply : Bytes) (rest : List (Nat × Text × Bytes))
    (hd : Brine.dump (.tup [.str ("RPYC".toList.map Char.toNat), .str ("QUERY".toList.map Char.toNat), .tup [.str name]]) =
      .ok data)
    (hq : query upper timeout now name t = some (l, t', ev))
    (hr : Brine.dump (.tup (l.map fun a => .tup [.str a.1, .int a.2])) = .ok reply) :
    work upper env timeout ((now, host, data) :: rest) t = (host, reply) :: work upper env timeout rest t' ∧
      Brine.loads env reply = .ok (.tup (l.map fun a => .tup [.str a.1, .int a.2])) := by
  have hload := (Brine.C79_roundtrip env _ (by simp [Brine.Proper, Brine.ProperAll]) _ hd).1
  have hp : packet upper env timeout now host t data = .replied t' (.tup (l.map fun a => .tup [.str a.1, .int a.2])) := by
    unfold packet
    rw [hload]
    simp only [three, Brine.items, if_true, command]
    rw [if_pos (by decide)]
    simp only [hq]
    rfl
  refine ⟨?_, (Brine.C79_roundtrip env _ ?_ _ hr).1⟩
  · simp only [work, hp, hr]
  · have : ∀ l : List Addr, Brine.ProperAll (l.map fun a => .tup [.str a.1, .int a.2]) := by
      intro l
      induction l with
      | nil => simp [Brine.ProperAll]
      | cons a l ih => simp [Brine.Proper, Brine.ProperAll, ih]
    simpa [Brine.Proper] using this l

/-- A table, a query and its reply. -/
example : ∃ data reply, Brine.dump (.tup [.str ("RPYC".toList.map Char.toNat), .str ("QUERY".toList.map Char.toNat),
      .tup [.str [97]]]) = .ok data ∧
    (query up 240 100 [97] [([65], [(([49], 18861), 0), (([50], 80), 50)])]).map (·.1) = some [([49], 18861), ([50], 80)] ∧
    Brine.dump (.tup [.tup [.str [49], .int 18861], .tup [.str [50], .int 80]]) = .ok reply :=
  ⟨_, _, rfl, by decide, rfl⟩

end Verif.Registry
