import Verif.Model.Hints

/-! # C95: loading only the command that seems to be wanted changes nothing -/

namespace Verif.Hints

open Verif.Checksum (Str)

/-! ## Specification -/

/-- Everything but the commands that are shown. -/
def Result.forget : Result → Result
  | .help _ => .help []
  | .badChoice w _ => .badChoice w []
  | r => r

/-- No command has a name like an option. -/
def Named (t : Table) : Prop := ∀ n ∈ t.names, dashed n = false

/-- No command ends the loading with an exception. -/
def Tame (t : Table) : Prop := ∀ n ∈ t.names, t.load n ≠ .fails

/-! ## Lemmas -/

theorem registerAll_tame {t : Table} {ns : List Str} (h : ∀ n ∈ ns, t.load n ≠ .fails) :
    registerAll t ns = (ns, .ok (ns.filter fun n => decide (t.load n = .ok))) := by
  induction ns with
  | nil => rfl
  | cons n ns ih =>
    have h1 := h n (by simp)
    rw [registerAll, ih fun m hm => h m (List.mem_cons_of_mem _ hm)]
    cases hl : t.load n with
    | ok => simp [hl, Except.map]
    | missing => simp [hl]
    | fails => exact absurd hl h1

/-- The commands that are registered. -/
def picked (t : Table) (hs : List Str) : List Str :=
  match hs.find? fun w => !dashed w && t.names.contains w && decide (t.load w = .ok) with
  | some w => [w]
  | none => t.names.filter fun n => decide (t.load n = .ok)

/-- The first hint that can be loaded is registered alone, or else everything that can be loaded. -/
theorem register_tame {t : Table} (h : Tame t) (hs : List Str) :
    ∃ tried, register t hs = (tried, .ok (picked t hs)) := by
  unfold picked
  induction hs with
  | nil => exact ⟨_, registerAll_tame h⟩
  | cons w hs ih =>
    obtain ⟨tried, ih⟩ := ih
    rw [register, List.find?_cons]
    by_cases hd : dashed w = true
    · rw [if_pos hd]
      exact ⟨tried, by simpa [hd] using ih⟩
    · rw [if_neg hd]
      simp only [Bool.not_eq_true] at hd
      by_cases hn : t.names.contains w = true
      · rw [if_pos hn]
        have hm : w ∈ t.names := by simpa using hn
        cases hl : t.load w with
        | ok => exact ⟨[w], by simp [hd, hm]⟩
        | missing =>
          refine ⟨w :: tried, ?_⟩
          simp only [ih]
          simp [hd]
        | fails => exact absurd hl (h w hm)
      · rw [if_neg hn]
        have hm : w ∉ t.names := by simpa using hn
        exact ⟨tried, by simpa [hm] using ih⟩

theorem stop_forget (r r' : List Str) (ks : List Kind) : (stop r ks).map Result.forget = (stop r' ks).map Result.forget := by
  induction ks with
  | nil => rfl
  | cons k ks ih => cases k <;> first | rfl | exact ih

/-! ## C95 -/

/-- **C95, part 1.** For every command line, loading commands lazily leads to the same command with the same words, to the
same error or to help, as loading all of them; apart from which commands are shown. -/
theorem C95_same_partial (kind : Str → Kind) (t : Table) (hn : Named t) (ht : Tame t) (argv : List Str) :
    (lazily kind t argv).2.forget = (eagerly kind t argv).2.forget := by
  unfold lazily eagerly run
  cases he : early kind argv with
  | none => rfl
  | some rest =>
    obtain ⟨tried, hr⟩ := register_tame ht rest
    simp only [hr, registerAll_tame (ns := t.names) ht]
    unfold full
    have hrest : rest = (lead kind argv).2.2 := by
      unfold early at he
      split at he
      · cases he
      · exact (Option.some.inj he).symm
    generalize hreg : picked t rest = reg
    have hs := stop_forget reg (t.names.filter fun n => decide (t.load n = .ok)) (lead kind argv).1
    cases h1 : stop reg (lead kind argv).1 with
    | some r =>
      rw [h1] at hs
      cases h2 : stop (t.names.filter fun n => decide (t.load n = .ok)) (lead kind argv).1 with
      | none => rw [h2] at hs; cases hs
      | some r' =>
        rw [h2] at hs
        simpa using hs
    | none =>
      rw [h1] at hs
      cases h2 : stop (t.names.filter fun n => decide (t.load n = .ok)) (lead kind argv).1 with
      | some r' => rw [h2] at hs; cases hs
      | none =>
        rw [← hrest]
        cases rest with
        | nil => rfl
        | cons w args =>
          dsimp only
          have key : reg.contains w = (t.names.filter fun n => decide (t.load n = .ok)).contains w := by
            rw [Bool.eq_iff_iff, List.contains_iff_mem, List.contains_iff_mem, ← hreg, picked, List.find?_cons]
            by_cases hw : w ∈ t.names ∧ t.load w = .ok
            · simp [hn w hw.1, hw.1, hw.2]
            · have hf : (!dashed w && t.names.contains w && decide (t.load w = .ok)) = false := by
                by_cases h1 : w ∈ t.names
                · have : t.load w ≠ .ok := fun e => hw ⟨h1, e⟩
                  simp [this]
                · simp [h1]
              rw [hf]
              dsimp only
              split
              · next v hv =>
                have := List.find?_some hv
                simp only [Bool.and_eq_true, decide_eq_true_eq, List.contains_iff_mem] at this
                simp only [List.mem_singleton, List.mem_filter, decide_eq_true_eq]
                refine ⟨?_, fun h => absurd h hw⟩
                rintro rfl
                exact absurd ⟨this.1.2, this.2⟩ hw
              · rfl
          rw [key]
          by_cases h : (t.names.filter fun n => decide (t.load n = .ok)).contains w = true
          · rw [if_pos h, if_pos h]
          · rw [if_neg h, if_neg h]
            rfl

/-- **C95, part 2.** When a command is named and can be loaded, it is run with the words after it, no other command is
loaded, and it does not matter what would come of loading others. -/
theorem C95_alone (kind : Str → Kind) (t : Table) (argv : List Str) (ks : List Kind) (w : Str) (args : List Str)
    (hl : lead kind argv = (ks, false, w :: args)) (hk : ∀ k ∈ ks, k = .flag ∨ k = .arg) (hd : dashed w = false)
    (hw : w ∈ t.names) (ho : t.load w = .ok) :
    lazily kind t argv = ([w], .command w args) := by
  have hb : ks.contains Kind.bad = false := by
    rw [Bool.eq_false_iff]
    intro h
    have := hk _ (List.contains_iff_mem.1 h)
    simp at this
  have hstop : ∀ r, stop r ks = none := by
    intro r
    clear hl hb
    induction ks with
    | nil => rfl
    | cons k ks ih =>
      have := ih fun k hk' => hk k (List.mem_cons_of_mem _ hk')
      rcases hk k (by simp) with rfl | rfl <;> exact this
  have he : early kind argv = some (w :: args) := by
    unfold early
    rw [hl, hb]
    rfl
  have hr : register t (w :: args) = ([w], .ok [w]) := by
    rw [register, if_neg (by simp [hd]), if_pos (by simpa using hw)]
    simp [ho]
  unfold lazily run
  rw [he]
  dsimp only
  rw [hr]
  dsimp only
  unfold full
  rw [hl]
  simp [hstop]

/-- **C95, part 3.** When no word after the options names a command that can be loaded, then nothing is different. -/
theorem C95_fallback (kind : Str → Kind) (t : Table) (ht : Tame t) (argv : List Str)
    (h : ∀ w ∈ (lead kind argv).2.2, w ∈ t.names → t.load w ≠ .ok) :
    (lazily kind t argv).2 = (eagerly kind t argv).2 := by
  unfold lazily eagerly run
  cases he : early kind argv with
  | none => rfl
  | some rest =>
    obtain ⟨tried, hr⟩ := register_tame ht rest
    have hrest : rest = (lead kind argv).2.2 := by
      unfold early at he
      split at he
      · cases he
      · exact (Option.some.inj he).symm
    have hf : rest.find? (fun w => !dashed w && t.names.contains w && decide (t.load w = .ok)) = none := by
      rw [List.find?_eq_none]
      intro w hw hc
      simp only [Bool.and_eq_true, decide_eq_true_eq, List.contains_iff_mem] at hc
      exact h w (hrest ▸ hw) hc.1.2 hc.2
    simp only [hr, registerAll_tame (ns := t.names) ht, picked, hf]

theorem registerAll_fails {t : Table} {n : Str} (h : t.load n = .fails) (post : List Str) :
    ∀ pre, (∀ m ∈ pre, t.load m ≠ .fails) → registerAll t (pre ++ n :: post) = (pre ++ [n], .error ()) := by
  intro pre
  induction pre with
  | nil => intro _; rw [List.nil_append, registerAll, h]; rfl
  | cons m pre ih =>
    intro hp
    have := ih fun x hx => hp x (List.mem_cons_of_mem _ hx)
    rw [List.cons_append, registerAll, this]
    cases hl : t.load m with
    | ok => rfl
    | missing => rfl
    | fails => exact absurd hl (hp m List.mem_cons_self)

theorem register_skip {t : Table} (hs : List Str) :
    ∀ pre, (∀ w ∈ pre, w ∉ t.names) → register t (pre ++ hs) = register t hs := by
  intro pre
  induction pre with
  | nil => intro _; rfl
  | cons w pre ih =>
    intro hp
    rw [List.cons_append, register, if_neg (c := t.names.contains w = true)
      (by rw [List.contains_iff_mem]; exact hp w List.mem_cons_self), ih fun x hx => hp x (List.mem_cons_of_mem _ hx)]
    split <;> rfl

/-- **C95, part 4.** The exception with which loading a command ends is not caught: neither when the command is the first one
that is named, and then no other has been loaded, nor when it is the first to fail of all of them. -/
theorem C95_exception (kind : Str → Kind) (t : Table) (hn : Named t) (argv rest : List Str) (he : early kind argv = some rest) :
    (∀ pre w post, rest = pre ++ w :: post → (∀ v ∈ pre, v ∉ t.names) → w ∈ t.names → t.load w = .fails →
      lazily kind t argv = ([w], .raised)) ∧
    (∀ pre n post, t.names = pre ++ n :: post → (∀ m ∈ pre, t.load m ≠ .fails) → t.load n = .fails →
      eagerly kind t argv = (pre ++ [n], .raised) ∧
      ((∀ v ∈ rest, v ∉ t.names) → lazily kind t argv = (pre ++ [n], .raised))) := by
  refine ⟨fun pre w post hr hp hw hf => ?_, fun pre n post hns hp hf => ⟨?_, fun hr => ?_⟩⟩
  · unfold lazily run
    rw [he]
    dsimp only
    rw [hr, register_skip _ pre hp, register, hn w hw]
    simp only [Bool.false_eq_true, if_false]
    rw [if_pos (List.contains_iff_mem.2 hw), hf]
  · unfold eagerly run
    rw [he]
    dsimp only
    rw [hns, registerAll_fails hf post pre hp]
  · unfold lazily run
    rw [he]
    dsimp only
    have := register_skip (t := t) [] rest hr
    rw [List.append_nil] at this
    rw [this, register, hns, registerAll_fails hf post pre hp]

/-! ## Examples -/

/-- A command that cannot be loaded is in the way of those after it. -/
example : lazily (fun _ => .flag) ⟨["run".toList, "dev".toList], fun n => if n = "dev".toList then .fails else .ok⟩
    ["-v".toList, "x".toList, "dev".toList, "run".toList] = (["dev".toList], .raised) := by decide +kernel

/-- A dash is not an option. -/
example : lazily (fun _ => .flag) ⟨["run".toList], fun _ => .ok⟩ ["-".toList, "run".toList] =
    (["run".toList], .badChoice "-".toList ["run".toList]) := by decide +kernel

/-- Some options of plainbox. -/
def exKind (w : Str) : Kind :=
  if w = "-v".toList then .flag else if w = "--trace".toList then .arg else if w = "--help".toList then .help
  else if w = "--version".toList then .version else .bad

/-- Some commands of plainbox; one cannot be imported. -/
def exTable : Table :=
  ⟨["run", "session", "dev", "old"].map String.toList, fun n => if n = "old".toList then .missing else .ok⟩

/-- Words. -/
def ws (l : List String) : List Str := l.map String.toList

example : Named exTable ∧ Tame exTable := by unfold Named Tame; decide +kernel

example : lazily exKind exTable (ws ["-v", "--trace", "dev", "run", "session", "--help"]) =
    (ws ["run"], .command "run".toList (ws ["session", "--help"])) ∧
    eagerly exKind exTable (ws ["-v", "--trace", "dev", "run", "session", "--help"]) =
    (ws ["run", "session", "dev", "old"], .command "run".toList (ws ["session", "--help"])) := by decide +kernel

example : lazily exKind exTable (ws ["-v"]) = (ws ["run", "session", "dev", "old"], .noCommand) ∧
    lazily exKind exTable (ws ["--bad", "run"]) = ([], .usage) ∧
    lazily exKind exTable (ws ["run", "--bad"]) = (ws ["run"], .command "run".toList (ws ["--bad"])) := by decide +kernel

example : lazily exKind ⟨ws ["run", "dev"], fun n => if n = "dev".toList then .fails else .ok⟩ (ws ["run", "dev"]) =
    (ws ["run"], .command "run".toList (ws ["dev"])) :=
  C95_alone exKind _ _ [] "run".toList (ws ["dev"]) (by decide +kernel) (by simp) (by decide +kernel) (by decide +kernel)
    (by decide +kernel)

/-! ## Where it fails -/

/-- The list of commands depends on words that come later: help shows one command only. -/
theorem C95_help_violated :
    (lazily exKind exTable (ws ["--help", "run"])).2 = .help (ws ["run"]) ∧
    (eagerly exKind exTable (ws ["--help", "run"])).2 = .help (ws ["run", "session", "dev"]) := by decide +kernel

/-- After a misspelt command, one that happens to be named later is said to be the only one. -/
theorem C95_choice_violated :
    (lazily exKind exTable (ws ["rum", "session"])).2 = .badChoice "rum".toList (ws ["session"]) ∧
    (eagerly exKind exTable (ws ["rum", "session"])).2 = .badChoice "rum".toList (ws ["run", "session", "dev"]) := by
  decide +kernel

/-- Help is not shown when there is a wrong option before the command, because the other parser comes first. -/
theorem C95_early_violated :
    (lazily exKind exTable (ws ["--help", "--bad"])).2 = .usage ∧
      full exKind exTable.names (ws ["--help", "--bad"]) = .help exTable.names := by decide +kernel

end Verif.Hints
