import Verif.Lemmas.Dialogue

/-!
# C68: the interactive run records what the user decided

The specification (`Reads`, `Before`, `Recorded`, `NoComment`) is at the beginning of
`Verif/Lemmas/Dialogue.lean`.

* `C68_total`: the dialogue ends for every list of answers.
* `C68_unambiguous`: a line means at most one command.
* `C68_answers`: what happens is what the answers say.
* `C68_recorded`: the result, given what happened.
* `C68_outcome`, `C68_decided`, `C68_last_run`: consequences in plain terms.
* `C68_comments_partial`: comments entered before running and after the last run are kept.
* `C68_ends`: leaving early and the input ending.
* `C68_rerun_violated`, `C68_explicit_fail_violated`, `C68_eof_violated`, `C68_own_comments_violated`.
-/

namespace Verif.Dialogue

variable {L : Type} (w : World L)

/-! ## Examples -/

/-- The labels of the code. -/
def exPLabel : PCmd → Str
  | .run => "start the test".toList | .comment => "add a comment".toList | .skip => "skip this job".toList
  | .quit => "quit the application".toList

def exCLabel : CCmd → Str
  | .comments => "add a comment".toList | .pass => "set outcome to pass".toList
  | .fail => "set outcome to fail".toList | .skip => "set outcome to skip".toList
  | .rerun => "re-run this job".toList | .suggested => "set suggested outcome [job failed]".toList

/-- A user-interact-verify job whose program fails the first time. -/
def exWorld : World Nat :=
  { plabel := exPLabel, clabel := exCLabel, interactive := true, plugin := .userInteractVerify,
    hasCommand := true, explicitFail := false,
    runs := fun n => ⟨some .undecided, none, some (if n = 0 then 1 else 0), some n⟩,
    skipText := "Explicitly skipped before execution".toList }

/-- The same for a job that wants comments about failures. -/
def exExplicit : World Nat := { exWorld with explicitFail := true }

/-- Comment, start, a wrong line, re-run, start, comment, take the suggested outcome. -/
def exAnswers : List Str :=
  ["c", "slow disk", "", "what", "r", "", "c", "better now", ""].map String.toList

/-! ## Theorems -/

/-- The dialogue ends, whatever the user answers. -/
theorem C68_total (answers : List Str) : dialogue w answers ≠ .stuck := by
  intro h
  have := dialogue_spec w answers
  rw [h] at this
  exact this

/-- If labels differ from each other and are no shortcuts, a line means at most one command. -/
theorem C68_unambiguous (h : Labels w) (l : Str) :
    (∀ c d, PMeans w l c → PMeans w l d → c = d) ∧
    (∀ code c d, CMeans w code l c → CMeans w code l d → c = d) := by
  have hk : ∀ c, (PKey c).length < 2 := by intro c; cases c <;> decide
  have hk' : ∀ c, (CKey c).length < 2 := by intro c; cases c <;> decide
  have hi : ∀ c d, PKey c = PKey d → c = d := by intro c d; cases c <;> cases d <;> decide
  have hi' : ∀ c d, CKey c = CKey d → c = d := by intro c d; cases c <;> cases d <;> decide
  constructor
  · intro c d h1 h2
    have a := h.pl c; have b := h.pl d; have a' := hk c; have b' := hk d
    rcases h1 with h1 | h1 <;> rcases h2 with h2 | h2
    · exact hi c d (h1.symm.trans h2)
    · rw [h1] at h2; rw [← h2] at b; omega
    · rw [h1] at h2; rw [← h2] at b'; omega
    · exact h.pinj c d (h1.symm.trans h2)
  · rintro code c d ⟨_, h1⟩ ⟨_, h2⟩
    have a := h.cl c; have b := h.cl d; have a' := hk' c; have b' := hk' d
    rcases h1 with h1 | h1 <;> rcases h2 with h2 | h2
    · exact hi' c d (h1.symm.trans h2)
    · rw [h1] at h2; rw [← h2] at b; omega
    · rw [h1] at h2; rw [← h2] at b'; omega
    · exact h.cinj c d (h1.symm.trans h2)

example : Labels exWorld :=
  ⟨by intro c; cases c <;> decide, by intro c; cases c <;> decide,
   by intro c d; cases c <;> cases d <;> decide, by intro c d; cases c <;> cases d <;> decide⟩

/-- What happens is what the answers say: every command picked is the first line with a meaning at its
prompt, every comment is the line after the command to enter one. -/
theorem C68_answers (answers : List Str) (s : St)
    (h : (∃ b, dialogue w answers = .done b s) ∨ dialogue w answers = .quit s ∨ dialogue w answers = .eof s) :
    Reads w none s.ev answers s.input := by
  have := dialogue_spec w answers
  rcases h with ⟨b, h⟩ | h | h <;> rw [h] at this
  · exact this.2
  · exact this.2
  · exact this.2.2

/-- The result recorded is that of `Recorded` for what happened. -/
theorem C68_recorded (answers : List Str) (b : Result L) (s : St) (h : dialogue w answers = .done b s) :
    Recorded w s.ev b := by
  have := dialogue_spec w answers
  rw [h] at this
  exact this.1

/-- Without a result, the user left at the first prompt, or the input ended where a comment was to be
entered. -/
theorem C68_ends (answers : List Str) (s : St) :
    (dialogue w answers = .quit s → ∃ E, Before w E ∧ Asks w ∧ s.ev = E ++ [.asked (some .quit)]) ∧
    (dialogue w answers = .eof s → NoComment w s.ev ∧ s.input = []) := by
  have := dialogue_spec w answers
  constructor <;> intro h <;> rw [h] at this
  · exact this.1
  · exact ⟨this.1, this.2.1⟩

/-- How the last thing that happened settles the outcome. -/
def Settles (b : Result L) : Ev → Prop
  | .ran n => b.outcome = (w.runs n).outcome
  | .asked c => c = some .skip ∧ b.outcome = some .skip
  | .chose (some .pass) => b.outcome = some .pass
  | .chose (some .fail) => b.outcome = some .fail ∧ w.explicitFail = false
  | .chose (some .skip) => b.outcome = some .skip
  | .chose none => b.outcome = some .skip
  | .chose (some .suggested) => (b.code = some 0 ∧ b.outcome = some .pass) ∨ (b.code ≠ some 0 ∧ b.outcome = some .fail)
  | .chose _ => False
  | .typed _ => b.outcome = some .fail ∧ w.explicitFail = true
  | .note _ => False

/-- The outcome is the one given by the last thing that happened. -/
theorem C68_outcome (answers : List Str) (b : Result L) (s : St) (h : dialogue w answers = .done b s) :
    ∃ E e, s.ev = E ++ [e] ∧ Settles w b e := by
  have := C68_recorded w answers b s h
  generalize hev : s.ev = ev at this
  cases this with
  | @skipped E hE hA => exact ⟨E, _, rfl, rfl, rfl⟩
  | @straight E l hE hl ho => exact ⟨E ++ l, .ran (ranIn E), by simp, rfl⟩
  | @decided E l pre dec o hE hl ho hp hd =>
    cases hd with
    | @explicit t he =>
      exact ⟨E ++ (l ++ .ran (ranIn E) :: (pre ++ [.chose (some .fail)])), .typed t, by simp, rfl, he⟩
    | @plain c o hg he =>
      refine ⟨E ++ (l ++ .ran (ranIn E) :: pre), _, by simp; rfl, ?_⟩
      cases c with
      | none => exact congrArg some hg
      | some c =>
        cases c with
        | pass => exact congrArg some hg
        | skip => exact congrArg some hg
        | fail => exact ⟨congrArg some hg, he rfl⟩
        | suggested =>
          rcases hg with ⟨h1, h2⟩ | ⟨h1, h2⟩
          · exact .inl ⟨h1, congrArg some h2⟩
          · exact .inr ⟨h1, congrArg some h2⟩
        | rerun => exact hg
        | comments => exact hg

/-- In an interactive session no result is left undecided. -/
theorem C68_decided (answers : List Str) (b : Result L) (s : St) (h : dialogue w answers = .done b s)
    (hi : w.interactive = true) : b.outcome ≠ some .undecided := by
  have := C68_recorded w answers b s h
  generalize s.ev = ev at this
  cases this with
  | skipped => simp
  | straight hE hl ho => exact fun h => ho ⟨hi, h⟩
  | @decided E l pre dec o hE hl ho hp hd =>
    intro h
    cases h
    cases hd with
    | @plain c o hg he =>
      cases c with
      | none => cases hg
      | some c => cases c <;> simp [Gives] at hg

/-- The return code and the log are those of the last run, which is numbered by the runs before it. -/
theorem C68_last_run (answers : List Str) (b : Result L) (s : St) (h : dialogue w answers = .done b s) :
    (∃ E, s.ev = E ++ [.asked (some .skip)] ∧ b.code = none ∧ b.rest = none) ∨
    ∃ A B, s.ev = A ++ .ran (ranIn A) :: B ∧ ranIn B = 0 ∧ b.code = (w.runs (ranIn A)).code ∧
      b.rest = (w.runs (ranIn A)).rest := by
  have := C68_recorded w answers b s h
  generalize s.ev = ev at this
  have hd0 : ∀ {code dec o}, Decision w code dec o → ranIn dec = 0 := by
    intro code dec o h; cases h <;> rfl
  cases this with
  | @skipped E hE hA => exact .inl ⟨E, rfl, rfl, rfl⟩
  | @straight E l hE hl ho =>
    have : ranIn (E ++ l) = ranIn E := by rw [ranIn_append, (lead_facts w hl).1]; rfl
    exact .inr ⟨E ++ l, [], by rw [this]; simp, rfl, by rw [this], by rw [this]⟩
  | @decided E l pre dec o hE hl ho hp hd =>
    have : ranIn (E ++ l) = ranIn E := by rw [ranIn_append, (lead_facts w hl).1]; rfl
    exact .inr ⟨E ++ l, pre ++ dec, by rw [this]; simp, by rw [ranIn_append, (hp.facts w).1, hd0 hd],
      by rw [this], by rw [this]⟩

/-! ### Comments -/

theorem foldl_keeps : ∀ (cs : List Str) (o : Str), ∃ c, cs.foldl addComment (some o) = some c ∧ o <:+: c := by
  intro cs
  induction cs with
  | nil => intro o; exact ⟨o, rfl, List.infix_refl _⟩
  | cons x cs ih =>
    intro o
    obtain ⟨c, h1, h2⟩ := ih (o ++ '\n' :: x)
    exact ⟨c, h1, (List.prefix_append o ('\n' :: x)).isInfix.trans h2⟩

theorem foldl_has (cs : List Str) : ∀ (o : Option Str), ∀ x ∈ cs,
    ∃ c, cs.foldl addComment o = some c ∧ x <:+: c := by
  induction cs with
  | nil => intro o x hx; cases hx
  | cons y cs ih =>
    intro o x hx
    rcases List.mem_cons.mp hx with rfl | hx
    · cases o with
      | none => exact foldl_keeps cs x
      | some o =>
        obtain ⟨c, h1, h2⟩ := foldl_keeps cs (o ++ '\n' :: x)
        refine ⟨c, h1, List.IsInfix.trans ?_ h2⟩
        exact (List.suffix_append_of_suffix (List.suffix_cons '\n' x)).isInfix
    · exact ih _ x hx

theorem note_infix {x : Str} : ∀ {ev : List Ev}, .note x ∈ ev → x ≠ [] → x <:+: notes ev := by
  intro ev h hx
  induction ev with
  | nil => cases h
  | cons e ev ih =>
    rcases List.mem_cons.mp h with rfl | h
    · rw [notes, if_neg hx, List.append_assoc]
      exact (List.prefix_append x _).isInfix
    · have := ih h
      cases e with
      | note s => exact this.trans (List.suffix_append _ _).isInfix
      | _ => exact this

theorem typed_mem {x : Str} : ∀ {ev : List Ev}, .typed x ∈ ev → x ≠ [] → x ∈ typedIn ev := by
  intro ev h hx
  induction ev with
  | nil => cases h
  | cons e ev ih =>
    rcases List.mem_cons.mp h with rfl | h
    · rw [typedIn, if_neg hx]; exact List.mem_cons_self
    · have := ih h
      cases e with
      | typed s =>
        rw [typedIn]
        split
        · exact this
        · exact List.mem_cons_of_mem _ this
      | _ => exact this

theorem chat_notes {pre : List Ev} (h : Chat pre) (x : Str) : .note x ∉ pre := by
  induction h with
  | nil => simp
  | more _ ih => simp [ih]

theorem decision_notes {code : Option Int} {dec : List Ev} {o : Outcome} (h : Decision w code dec o) (x : Str) :
    .note x ∉ dec := by
  cases h <;> simp

theorem lead_notes {l : List Ev} (h : Lead w l) (x : Str) : .note x ∉ l := by
  rcases h with ⟨_, rfl | rfl⟩ | ⟨_, rfl⟩ <;> simp

theorem before_asks {E : List Ev} (h : Before w E) : ∀ x, .note x ∈ E → Asks w := by
  induction h with
  | nil => simp
  | note _ hA _ => exact fun _ _ => hA
  | rerun hE hl ho hp hc ih =>
    intro x hx
    rcases List.mem_append.mp hx with hx | hx
    · exact ih x hx
    · simp only [List.mem_append, List.mem_cons, List.not_mem_nil, or_false] at hx
      rcases hx with hx | hx | hx | hx
      · exact absurd hx (lead_notes w hl x)
      · cases hx
      · exact absurd hx (chat_notes hp x)
      · cases hx

/-- Two ways to split at the last run agree. -/
theorem last_ran_unique : ∀ (A A' B B' : List Ev) (n n' : Nat), A ++ .ran n :: B = A' ++ .ran n' :: B' →
    ranIn B = 0 → ranIn B' = 0 → B = B' := by
  intro A
  induction A with
  | nil =>
    intro A' B B' n n' h h0 h0'
    cases A' with
    | nil => cases h; rfl
    | cons a A' =>
      simp only [List.nil_append, List.cons_append, List.cons.injEq] at h
      rw [h.2, ranIn_append] at h0
      simp only [ranIn] at h0
      omega
  | cons a A ih =>
    intro A' B B' n n' h h0 h0'
    cases A' with
    | nil =>
      simp only [List.nil_append, List.cons_append, List.cons.injEq] at h
      rw [← h.2, ranIn_append] at h0'
      simp only [ranIn] at h0'
      omega
    | cons a' A' =>
      simp only [List.cons_append, List.cons.injEq] at h
      exact ih A' B B' n n' h.2 h0 h0'

theorem last_ran : ∀ {l : List Ev}, ranIn l ≠ 0 → ∃ A n B, l = A ++ .ran n :: B ∧ ranIn B = 0 := by
  intro l
  induction l with
  | nil => intro h; exact absurd rfl h
  | cons e l ih =>
    intro h
    by_cases hl : ranIn l = 0
    · cases e with
      | ran n => exact ⟨[], n, l, rfl, hl⟩
      | _ => exact absurd hl h
    · obtain ⟨A, n, B, h1, h2⟩ := ih hl
      exact ⟨e :: A, n, B, by rw [h1]; rfl, h2⟩

theorem before_rerun {E : List Ev} (h : Before w E) : ∀ A n B, E = A ++ .ran n :: B → ranIn B = 0 →
    .chose (some .rerun) ∈ B := by
  induction h with
  | nil => intro A n B h; cases A <;> cases h
  | @note E t hE hA ih =>
    intro A n B h h0
    have hB := last_ran (l := E) (by
      have := congrArg ranIn h
      rw [ranIn_append, ranIn_append] at this
      simp only [ranIn] at this
      omega)
    obtain ⟨A', n', B', e, e0⟩ := hB
    have := last_ran_unique A A' B (B' ++ [.asked (some .comment), .note t]) n n'
      (by rw [← h, e]; simp) h0 (by rw [ranIn_append, e0]; rfl)
    rw [this]
    exact List.mem_append_left _ (ih A' n' B' e e0)
  | @rerun E l pre hE hl ho hp hc ih =>
    intro A n B h h0
    have := last_ran_unique A (E ++ l) B (pre ++ [.chose (some .rerun)]) n (ranIn E)
      (by rw [← h, List.append_assoc]) h0 (by rw [ranIn_append, (hp.facts w).1]; rfl)
    rw [this]
    simp

/-- Comments that are not lost: those entered before running, whatever is re-run, and those entered after the
last run if the user does not ask to run the job again.  Comments entered before that are lost, see `C68_rerun_violated`. -/
theorem C68_comments_partial (answers : List Str) (b : Result L) (s : St) (h : dialogue w answers = .done b s)
    (x : Str) (hx : x ≠ []) :
    (.note x ∈ s.ev → ∃ c, b.comments = some c ∧ x <:+: c) ∧
    (∀ A n B, s.ev = A ++ .ran n :: B → ranIn B = 0 → .chose (some .rerun) ∉ B → .typed x ∈ B →
      ∃ c, b.comments = some c ∧ x <:+: c) := by
  have := C68_recorded w answers b s h
  generalize s.ev = ev at this ⊢
  have hd0 : ∀ {code dec o}, Decision w code dec o → ranIn dec = 0 := by
    intro code dec o h; cases h <;> rfl
  cases this with
  | @skipped E hE hA =>
    constructor
    · intro hm
      have hm : .note x ∈ E := by simpa using hm
      have hi := note_infix hm hx
      refine ⟨_, rfl, ?_⟩
      rw [if_neg]
      · exact hi
      · intro he
        rw [he] at hi
        exact hx (List.infix_nil.mp hi)
    · intro A n B he h0 hr ht
      exfalso
      rcases List.eq_nil_or_concat B with hB | ⟨B', e, hB⟩
      · rw [hB] at ht; cases ht
      · subst hB
        rw [List.concat_eq_append] at he h0 hr ht
        rw [show A ++ Ev.ran n :: (B' ++ [e]) = (A ++ Ev.ran n :: B') ++ [e] by simp] at he
        obtain ⟨hE', -⟩ := List.append_inj' he rfl
        rw [ranIn_append] at h0
        exact hr (List.mem_append_left _ (before_rerun w hE A n B' hE' (by omega)))
  | @straight E l hE hl ho =>
    constructor
    · intro hm
      have hm : .note x ∈ E := by
        simp only [List.mem_append, List.mem_cons, List.not_mem_nil, or_false] at hm
        rcases hm with h | h | h
        · exact h
        · exact absurd h (lead_notes w hl x)
        · cases h
      refine ⟨notes E, if_pos (Or.inl (before_asks w hE x hm)), note_infix hm hx⟩
    · intro A n B he h0 _ ht
      have : B = [] := last_ran_unique A (E ++ l) B [] n _ (by rw [← he, List.append_assoc]) h0 rfl
      rw [this] at ht; cases ht
  | @decided E l pre dec o hE hl ho hp hd =>
    constructor
    · intro hm
      have hm : .note x ∈ E := by
        simp only [List.mem_append, List.mem_cons] at hm
        rcases hm with h | h | h | h | h
        · exact h
        · exact absurd h (lead_notes w hl x)
        · cases h
        · exact absurd h (chat_notes hp x)
        · exact absurd h (decision_notes w hd x)
      have hs : startComments w E = some (notes E) := if_pos (Or.inl (before_asks w hE x hm))
      rw [hs]
      obtain ⟨c, h1, h2⟩ := foldl_keeps (typedIn (pre ++ dec)) (notes E)
      exact ⟨c, h1, (note_infix hm hx).trans h2⟩
    · intro A n B he h0 _ ht
      have : B = pre ++ dec := last_ran_unique A (E ++ l) B _ n _ (by rw [← he, List.append_assoc]) h0
        (by rw [ranIn_append, (hp.facts w).1, hd0 hd])
      rw [this] at ht
      exact foldl_has _ _ x (typed_mem ht hx)

/-! ## A dialogue -/

/-- The comment entered before running survives the re-run, the suggested outcome is that of the second run. -/
example : dialogue exWorld exAnswers =
    .done ⟨some .pass, some "slow disk\n\nbetter now".toList, some 0, some 1⟩
      ⟨[], 2, [.asked (some .comment), .note "slow disk".toList, .asked (some .run), .ran 0, .chose (some .rerun),
        .asked (some .run), .ran 1, .chose (some .comments), .typed "better now".toList, .chose (some .suggested)]⟩ := by
  decide +kernel

/-- Leaving, and the end of input in place of a comment. -/
example : dialogue exWorld (["quit the application"].map String.toList) = .quit ⟨[], 0, [.asked (some .quit)]⟩ ∧
    dialogue exWorld (["c"].map String.toList) = .eof ⟨[], 0, [.asked (some .comment)]⟩ := by
  decide +kernel

/-! ## Violations -/

/-- A comment entered after running is lost when the user asks to run the job again. -/
theorem C68_rerun_violated : ∃ (answers : List Str) (b : Result Nat) (s : St) (x : Str),
    dialogue exWorld answers = .done b s ∧ .typed x ∈ s.ev ∧ x ≠ [] ∧
    ∀ c, b.comments = some c → ¬ x <:+: c :=
  ⟨["", "c", "screen flickered", "r", "", "p"].map String.toList,
   ⟨some .pass, some [], some 0, some 1⟩,
   ⟨[], 2, [.asked (some .run), .ran 0, .chose (some .comments), .typed "screen flickered".toList,
     .chose (some .rerun), .asked (some .run), .ran 1, .chose (some .pass)]⟩,
   "screen flickered".toList, by decide +kernel, by decide +kernel, by decide +kernel, by
    intro c hc
    cases hc
    intro h
    have := List.infix_nil.mp h
    revert this
    decide +kernel⟩

/-- The flag that asks for a comment about a failure does not ensure one: an empty line is taken, and taking
the suggested outcome asks for nothing. -/
theorem C68_explicit_fail_violated :
    dialogue exExplicit (["", "f", ""].map String.toList) =
      .done ⟨some .fail, some [], some 1, some 0⟩
        ⟨[], 1, [.asked (some .run), .ran 0, .chose (some .fail), .typed []]⟩ ∧
    dialogue exExplicit (["", ""].map String.toList) =
      .done ⟨some .fail, some [], some 1, some 0⟩
        ⟨[], 1, [.asked (some .run), .ran 0, .chose (some .suggested)]⟩ := by
  decide +kernel

/-- The input may end at either prompt (the job is run, then skipped), but not where a comment is to be
entered: the program ends with `EOFError`. -/
theorem C68_eof_violated :
    dialogue exWorld [] = .done ⟨some .skip, some [], some 1, some 0⟩
      ⟨[], 1, [.asked none, .ran 0, .chose none]⟩ ∧
    dialogue exWorld (["", "c"].map String.toList) =
      .eof ⟨[], 1, [.asked (some .run), .ran 0, .chose (some .comments)]⟩ := by
  decide +kernel

/-- A job whose run says something by itself and needs no decision. -/
def exOwn : World Nat :=
  { exWorld with plugin := .userInteract, runs := fun _ => ⟨some .fail, some "could not start".toList, none, none⟩ }

/-- The comments of the run itself are replaced by the empty text. -/
theorem C68_own_comments_violated :
    (exOwn.runs 0).comments = some "could not start".toList ∧
    dialogue exOwn [[]] = .done ⟨some .fail, some [], none, none⟩ ⟨[], 1, [.asked (some .run), .ran 0]⟩ := by
  decide +kernel

end Verif.Dialogue
