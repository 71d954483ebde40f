import Verif.Model.Dialogue
import Mathlib.Tactic.Tauto

/-!
# What the dialogue of `plainbox run` should do, and lemmas

The specification used by `Verif/Props/Dialogue.lean` comes first.
-/

namespace Verif.Dialogue

variable {L : Type} (w : World L)

/-! ## Specification -/

/-- The shortcut of a command of the first prompt. -/
def PKey : PCmd → Str
  | .run => [] | .comment => ['c'] | .skip => ['s'] | .quit => ['q']

/-- The shortcut of a command of the second prompt. -/
def CKey : CCmd → Str
  | .comments => ['c'] | .pass => ['p'] | .fail => ['f'] | .skip => ['s'] | .rerun => ['r'] | .suggested => []

/-- Which commands the second prompt offers. -/
def Offered (code : Option Int) : CCmd → Prop
  | .rerun => w.hasCommand = true
  | .suggested => ∃ c, code = some c
  | _ => True

/-- Labels are different from each other and longer than one letter. -/
structure Labels : Prop where
  pl : ∀ c, 2 ≤ (w.plabel c).length
  cl : ∀ c, 2 ≤ (w.clabel c).length
  pinj : ∀ c d, w.plabel c = w.plabel d → c = d
  cinj : ∀ c d, w.clabel c = w.clabel d → c = d

/-- A line means a command of the first prompt. -/
def PMeans (l : Str) (c : PCmd) : Prop := l = PKey c ∨ l = w.plabel c

/-- A line means a command of the second prompt. -/
def CMeans (code : Option Int) (l : Str) (c : CCmd) : Prop :=
  Offered w code c ∧ (l = CKey c ∨ l = w.clabel c)

/-- The events agree with the lines read: `Reads code ev i r` when, starting after a run with this return
code, reading from `i` leaves `r`.  Lines that mean nothing are passed over at prompts. -/
inductive Reads : Option Int → List Ev → List Str → List Str → Prop
  | nil {code i} : Reads code [] i i
  | ran {code n es i r} : Reads (w.runs n).code es i r → Reads code (.ran n :: es) i r
  | asked {code c es junk l i r} : (∀ x ∈ junk, ∀ d, ¬ PMeans w x d) → PMeans w l c → Reads code es i r →
      Reads code (.asked (some c) :: es) (junk ++ l :: i) r
  | askedEnd {code es junk r} : (∀ x ∈ junk, ∀ d, ¬ PMeans w x d) → Reads code es [] r →
      Reads code (.asked none :: es) junk r
  | chose {code c es junk l i r} : (∀ x ∈ junk, ∀ d, ¬ CMeans w code x d) → CMeans w code l c →
      Reads code es i r → Reads code (.chose (some c) :: es) (junk ++ l :: i) r
  | choseEnd {code es junk r} : (∀ x ∈ junk, ∀ d, ¬ CMeans w code x d) → Reads code es [] r →
      Reads code (.chose none :: es) junk r
  | note {code s es i r} : Reads code es i r → Reads code (.note s :: es) (s :: i) r
  | typed {code s es i r} : Reads code es i r → Reads code (.typed s :: es) (s :: i) r

/-- The return code that counts after these events. -/
def codeAfter : Option Int → List Ev → Option Int
  | c, [] => c
  | _, .ran n :: es => codeAfter (w.runs n).code es
  | c, _ :: es => codeAfter c es

/-- The text of the comments entered before running. -/
def notes : List Ev → Str
  | [] => []
  | .note s :: es => (if s = [] then [] else s ++ ['\n']) ++ notes es
  | _ :: es => notes es

/-- The comments entered after running. -/
def typedIn : List Ev → List Str
  | [] => []
  | .typed s :: es => if s = [] then typedIn es else s :: typedIn es
  | _ :: es => typedIn es

/-- How often the job was run. -/
def ranIn : List Ev → Nat
  | [] => 0
  | .ran _ :: es => ranIn es + 1
  | _ :: es => ranIn es

/-- A dialogue after a run that has not come to a decision: comments only. -/
inductive Chat : List Ev → Prop
  | nil : Chat []
  | more {es s} : Chat es → Chat (.chose (some .comments) :: .typed s :: es)

/-- The outcome a command stands for. -/
def Gives (code : Option Int) : Option CCmd → Outcome → Prop
  | some .pass, o => o = .pass
  | some .fail, o => o = .fail
  | some .skip, o => o = .skip
  | none, o => o = .skip
  | some .suggested, o => (code = some 0 ∧ o = .pass) ∨ (code ≠ some 0 ∧ o = .fail)
  | _, _ => False

/-- How a decision ends: with a command, and a comment if the job asks for one when failing. -/
inductive Decision (code : Option Int) : List Ev → Outcome → Prop
  | plain {c o} : Gives code c o → (c = some .fail → w.explicitFail = false) →
      Decision code [.chose c] o
  | explicit {s} : w.explicitFail = true → Decision code [.chose (some .fail), .typed s] .fail

/-- Whether the user is asked before running. -/
def Asks : Prop := w.interactive = true ∧ (w.plugin = .userInteract ∨ w.plugin = .userInteractVerify)

/-- Whether comments of the run itself are replaced by those entered before. -/
def Takes : Prop := Asks w ∨ (w.interactive = true ∧ w.plugin = .manual)

/-- What comes right before running. -/
def Lead (l : List Ev) : Prop :=
  (Asks w ∧ (l = [.asked (some .run)] ∨ l = [.asked none])) ∨ (¬ Asks w ∧ l = [])

/-- Whether a run leaves the decision to the user. -/
def Open (n : Nat) : Prop := w.interactive = true ∧ (w.runs n).outcome = some .undecided

/-- What may come before the last run: comments entered and earlier runs the user asked to repeat. -/
inductive Before : List Ev → Prop
  | nil : Before []
  | note {E s} : Before E → Asks w → Before (E ++ [.asked (some .comment), .note s])
  | rerun {E l pre} : Before E → Lead w l → Open w (ranIn E) → Chat pre → w.hasCommand = true →
      Before (E ++ (l ++ .ran (ranIn E) :: (pre ++ [.chose (some .rerun)])))

open Classical in
/-- The comments to begin with. -/
noncomputable def startComments (E : List Ev) : Option Str :=
  if Takes w then some (notes E) else (w.runs (ranIn E)).comments

/-- The result recorded for what happened. -/
inductive Recorded : List Ev → Result L → Prop
  | skipped {E} : Before w E → Asks w → Recorded (E ++ [.asked (some .skip)])
      ⟨some .skip, some (if notes E = [] then w.skipText else notes E), none, none⟩
  | straight {E l} : Before w E → Lead w l → ¬ Open w (ranIn E) → Recorded (E ++ (l ++ [.ran (ranIn E)]))
      ⟨(w.runs (ranIn E)).outcome, startComments w E, (w.runs (ranIn E)).code, (w.runs (ranIn E)).rest⟩
  | decided {E l pre dec o} : Before w E → Lead w l → Open w (ranIn E) → Chat pre →
      Decision w (w.runs (ranIn E)).code dec o →
      Recorded (E ++ (l ++ .ran (ranIn E) :: (pre ++ dec)))
        ⟨some o, (typedIn (pre ++ dec)).foldl addComment (startComments w E),
          (w.runs (ranIn E)).code, (w.runs (ranIn E)).rest⟩

/-- The input ended where a comment was to be entered. -/
inductive NoComment : List Ev → Prop
  | note {E} : Before w E → Asks w → NoComment (E ++ [.asked (some .comment)])
  | typed {E l pre c} : Before w E → Lead w l → Open w (ranIn E) → Chat pre →
      (c = .comments ∨ (c = .fail ∧ w.explicitFail = true)) →
      NoComment (E ++ (l ++ .ran (ranIn E) :: (pre ++ [.chose (some c)])))

/-! ## Lemmas -/

theorem Reads.append {code : Option Int} {a b : List Ev} {i j r : List Str} (h1 : Reads w code a i j)
    (h2 : Reads w (codeAfter w code a) b j r) : Reads w code (a ++ b) i r := by
  induction h1 with
  | nil => exact h2
  | ran _ ih => exact .ran (ih h2)
  | asked h1 h2' _ ih => exact .asked h1 h2' (ih h2)
  | askedEnd h1 _ ih => exact .askedEnd h1 (ih h2)
  | chose h1 h2' _ ih => exact .chose h1 h2' (ih h2)
  | choseEnd h1 _ ih => exact .choseEnd h1 (ih h2)
  | note _ ih => exact .note (ih h2)
  | typed _ ih => exact .typed (ih h2)

theorem codeAfter_append (c : Option Int) (a b : List Ev) :
    codeAfter w c (a ++ b) = codeAfter w (codeAfter w c a) b := by
  induction a generalizing c with
  | nil => rfl
  | cons e a ih => cases e <;> simp only [List.cons_append, codeAfter, ih]

theorem notes_append (a b : List Ev) : notes (a ++ b) = notes a ++ notes b := by
  induction a with
  | nil => rfl
  | cons e a ih => cases e <;> simp only [List.cons_append, notes, ih, List.append_assoc]

theorem typedIn_append (a b : List Ev) : typedIn (a ++ b) = typedIn a ++ typedIn b := by
  induction a with
  | nil => rfl
  | cons e a ih =>
    cases e with
    | typed s => by_cases h : s = [] <;> simp [typedIn, ih, h]
    | _ => simp only [List.cons_append, typedIn, ih]

theorem ranIn_append (a b : List Ev) : ranIn (a ++ b) = ranIn a + ranIn b := by
  induction a with
  | nil => simp [ranIn]
  | cons e a ih => cases e <;> simp only [List.cons_append, ranIn, ih] <;> omega

theorem Chat.append {a b : List Ev} (ha : Chat a) (hb : Chat b) : Chat (a ++ b) := by
  induction ha with
  | nil => exact hb
  | more _ ih => exact .more ih

theorem Chat.facts {a : List Ev} (h : Chat a) : ranIn a = 0 ∧ notes a = [] ∧ ∀ c, codeAfter w c a = c := by
  induction h with
  | nil => exact ⟨rfl, rfl, fun _ => rfl⟩
  | more _ ih => exact ⟨by simp [ranIn, ih.1], by simp [notes, ih.2.1], fun c => by simp [codeAfter, ih.2.2]⟩

/-- Picking passes over lines that match nothing. -/
theorem pick_spec {C : Type} (acts : List (Action C)) : ∀ (i : List Str),
    (∃ junk l c, i = junk ++ l :: (pick acts i).2 ∧ (∀ x ∈ junk, matching x acts = none) ∧
      matching l acts = some c ∧ (pick acts i).1 = some c) ∨
    ((∀ x ∈ i, matching x acts = none) ∧ (pick acts i).1 = none ∧ (pick acts i).2 = []) := by
  intro i
  induction i with
  | nil => exact .inr ⟨by simp, rfl, rfl⟩
  | cons l ls ih =>
    cases h : matching l acts with
    | some c =>
      have e : pick acts (l :: ls) = (some c, ls) := by rw [pick, h]
      rw [e]
      exact .inl ⟨[], l, c, rfl, by simp, h, rfl⟩
    | none =>
      have e : pick acts (l :: ls) = pick acts ls := by rw [pick, h]
      rw [e]
      rcases ih with ⟨junk, m, c, h1, h2, h3, h4⟩ | ⟨h1, h2, h3⟩
      · refine .inl ⟨l :: junk, m, c, by rw [List.cons_append, ← h1], ?_, h3, h4⟩
        intro x hx
        rcases List.mem_cons.mp hx with rfl | hx
        · exact h
        · exact h2 x hx
      · refine .inr ⟨?_, h2, h3⟩
        intro x hx
        rcases List.mem_cons.mp hx with rfl | hx
        · exact h
        · exact h1 x hx

theorem pick_length {C : Type} (acts : List (Action C)) (i : List Str) :
    ((pick acts i).1 = none ∧ (pick acts i).2 = []) ∨ (pick acts i).2.length < i.length := by
  rcases pick_spec acts i with ⟨junk, l, c, h, _⟩ | ⟨_, h1, h2⟩
  · right
    rw [h]
    simp only [List.length_append, List.length_cons]
    rw [← h]
    omega
  · exact .inl ⟨h1, h2⟩

theorem matching_some {C : Type} (l : Str) (acts : List (Action C)) (c : C) (h : matching l acts = some c) :
    ∃ a b, (a, b, c) ∈ acts ∧ (l = a ∨ l = b) := by
  induction acts with
  | nil => cases h
  | cons x acts ih =>
    obtain ⟨a, b, d⟩ := x
    rw [matching] at h
    by_cases hm : l = a ∨ l = b
    · rw [if_pos hm] at h; cases h; exact ⟨a, b, List.mem_cons_self, hm⟩
    · rw [if_neg hm] at h
      obtain ⟨a', b', h1, h2⟩ := ih h
      exact ⟨a', b', List.mem_cons_of_mem _ h1, h2⟩

theorem matching_none {C : Type} (l : Str) (acts : List (Action C)) (h : matching l acts = none) :
    ∀ a b c, (a, b, c) ∈ acts → l ≠ a ∧ l ≠ b := by
  induction acts with
  | nil => intro a b c h; cases h
  | cons x acts ih =>
    obtain ⟨a, b, d⟩ := x
    rw [matching] at h
    by_cases hm : l = a ∨ l = b
    · rw [if_pos hm] at h; cases h
    · rw [if_neg hm] at h
      intro a' b' c' hx
      rcases List.mem_cons.mp hx with e | hx
      · cases e; exact ⟨fun e => hm (.inl e), fun e => hm (.inr e)⟩
      · exact ih h a' b' c' hx

theorem promptActs_mem (a b : Str) (c : PCmd) : (a, b, c) ∈ promptActs w ↔ a = PKey c ∧ b = w.plabel c := by
  unfold promptActs
  cases c <;> simp [PKey]

theorem callbackActs_mem (code : Option Int) (a b : Str) (c : CCmd) :
    (a, b, c) ∈ callbackActs w code ↔ Offered w code c ∧ a = CKey c ∧ b = w.clabel c := by
  unfold callbackActs
  cases hc : w.hasCommand <;> cases code <;> cases c <;> simp [CKey, Offered, hc]

theorem prompt_some {l : Str} {c : PCmd} (h : matching l (promptActs w) = some c) : PMeans w l c := by
  obtain ⟨a, b, hm, hl⟩ := matching_some l _ c h
  obtain ⟨rfl, rfl⟩ := (promptActs_mem w a b c).mp hm
  exact hl

theorem prompt_none {l : Str} (h : matching l (promptActs w) = none) (d : PCmd) : ¬ PMeans w l d := by
  intro hm
  obtain ⟨h1, h2⟩ := matching_none l _ h _ _ d ((promptActs_mem w _ _ d).mpr ⟨rfl, rfl⟩)
  exact hm.elim h1 h2

theorem callback_some {code : Option Int} {l : Str} {c : CCmd} (h : matching l (callbackActs w code) = some c) :
    CMeans w code l c := by
  obtain ⟨a, b, hm, hl⟩ := matching_some l _ c h
  obtain ⟨ho, rfl, rfl⟩ := (callbackActs_mem w code a b c).mp hm
  exact ⟨ho, hl⟩

theorem callback_none {code : Option Int} {l : Str} (h : matching l (callbackActs w code) = none) (d : CCmd) :
    ¬ CMeans w code l d := by
  rintro ⟨ho, hm⟩
  obtain ⟨h1, h2⟩ := matching_none l _ h _ _ d ((callbackActs_mem w code _ _ d).mpr ⟨ho, rfl, rfl⟩)
  exact hm.elim h1 h2

/-- What is read at the first prompt. -/
theorem prompt_reads (code : Option Int) (i : List Str) {es : List Ev} {r : List Str}
    (h : Reads w code es (pick (promptActs w) i).2 r) :
    Reads w code (.asked (pick (promptActs w) i).1 :: es) i r := by
  rcases pick_spec (promptActs w) i with ⟨junk, l, c, h1, h2, h3, h4⟩ | ⟨h1, h2, h3⟩
  · rw [h4]
    have := Reads.asked (w := w) (fun x hx d => prompt_none w (h2 x hx) d) (prompt_some w h3) h
    rwa [← h1] at this
  · rw [h2]
    rw [h3] at h
    exact .askedEnd (fun x hx d => prompt_none w (h1 x hx) d) h

/-- What is read at the second prompt. -/
theorem callback_reads (code : Option Int) (i : List Str) {es : List Ev} {r : List Str}
    (h : Reads w code es (pick (callbackActs w code) i).2 r) :
    Reads w code (.chose (pick (callbackActs w code) i).1 :: es) i r := by
  rcases pick_spec (callbackActs w code) i with ⟨junk, l, c, h1, h2, h3, h4⟩ | ⟨h1, h2, h3⟩
  · rw [h4]
    have := Reads.chose (w := w) (fun x hx d => callback_none w (h2 x hx) d) (callback_some w h3) h
    rwa [← h1] at this
  · rw [h2]
    rw [h3] at h
    exact .choseEnd (fun x hx d => callback_none w (h1 x hx) d) h

/-! ## The second prompt -/

/-- What the dialogue after a run does, starting from a state without decision. -/
def CBSpec (s : St) (b : Result L) : CB L → Prop
  | .ok b' s' => ∃ pre dec o, Chat pre ∧ Decision w b.code dec o ∧
      s'.ev = s.ev ++ (pre ++ dec) ∧ s'.n = s.n ∧ Reads w b.code (pre ++ dec) s.input s'.input ∧
      b' = ⟨some o, (typedIn (pre ++ dec)).foldl addComment b.comments, b.code, b.rest⟩
  | .rerun s' => ∃ pre, Chat pre ∧ s'.ev = s.ev ++ (pre ++ [.chose (some .rerun)]) ∧ s'.n = s.n ∧
      Reads w b.code (pre ++ [.chose (some .rerun)]) s.input s'.input ∧
      w.hasCommand = true ∧ s'.input.length < s.input.length
  | .eof s' => ∃ pre c, Chat pre ∧ s'.ev = s.ev ++ (pre ++ [.chose (some c)]) ∧ s'.n = s.n ∧
      s'.input = [] ∧ Reads w b.code (pre ++ [.chose (some c)]) s.input [] ∧
      (c = .comments ∨ (c = .fail ∧ w.explicitFail = true))
  | .stuck => False

theorem callback_decided (k : Nat) (s : St) (b : Result L) (h : allowed b.outcome = true) :
    callback w (k + 1) s b = .ok b s := by
  rw [callback, if_pos h]

theorem callback_spec : ∀ (k : Nat) (s : St) (b : Result L), s.input.length + 2 ≤ k →
    allowed b.outcome = false → CBSpec w s b (callback w k s b) := by
  intro k
  induction k with
  | zero => intro s b hk; omega
  | succ k ih =>
    intro s b hk ho
    obtain ⟨k, rfl⟩ : ∃ j, k = j + 1 := ⟨k - 1, by omega⟩
    rw [callback, if_neg (by simp [ho])]
    dsimp only
    have hlen := pick_length (callbackActs w b.code) s.input
    have hreads := fun {es r} => callback_reads w b.code s.input (es := es) (r := r)
    cases hp : pick (callbackActs w b.code) s.input with
    | mk c rest =>
      rw [hp] at hlen hreads
      dsimp only at hlen hreads ⊢
      -- a decision without a comment
      have plain : ∀ (o : Outcome), Gives b.code c o → (c = some .fail → w.explicitFail = false) →
          allowed (some o) = true →
          CBSpec w s b (callback w (k + 1) { s with input := rest, ev := s.ev ++ [.chose c] }
            { b with outcome := some o }) := by
        intro o hg he ha
        rw [callback_decided w k _ _ ha]
        exact ⟨[], [.chose c], o, .nil, .plain hg he, rfl, rfl, hreads .nil, rfl⟩
      cases c with
      | none => exact plain .skip rfl (by simp) rfl
      | some c =>
        have hlt : rest.length < s.input.length := by
          rcases hlen with ⟨h, _⟩ | h
          · cases h
          · exact h
        cases c with
        | pass => exact plain .pass rfl (by simp) rfl
        | skip => exact plain .skip rfl (by simp) rfl
        | suggested =>
          refine plain (suggested b.code) ?_ (by simp) ?_
          · unfold suggested
            by_cases h0 : b.code = some 0
            · rw [if_pos h0]; exact .inl ⟨h0, rfl⟩
            · rw [if_neg h0]; exact .inr ⟨h0, rfl⟩
          · unfold suggested
            by_cases h0 : b.code = some 0
            · rw [if_pos h0]; rfl
            · rw [if_neg h0]; rfl
        | rerun =>
          refine ⟨[], .nil, rfl, rfl, hreads .nil, ?_, hlt⟩
          rcases pick_spec (callbackActs w b.code) s.input with ⟨_, _, c, _, _, h3, h4⟩ | ⟨_, h2, _⟩
          · rw [hp] at h4
            cases h4
            exact (callback_some w h3).1
          · rw [hp] at h2; cases h2
        | fail =>
          dsimp only
          cases he : w.explicitFail with
          | false =>
            rw [if_neg (by decide)]
            exact plain .fail rfl (fun _ => he) rfl
          | true =>
            rw [if_pos rfl]
            cases rest with
            | nil => exact ⟨[], .fail, .nil, rfl, rfl, rfl, hreads .nil, .inr ⟨rfl, he⟩⟩
            | cons l ls =>
              dsimp only
              rw [callback_decided w k _ _ rfl]
              refine ⟨[], [.chose (some .fail), .typed l], .fail, .nil, .explicit he, by simp, rfl,
                hreads (.typed .nil), ?_⟩
              unfold withComment
              by_cases hl : l = [] <;> simp [typedIn, hl]
        | comments =>
          dsimp only
          cases rest with
          | nil => exact ⟨[], .comments, .nil, rfl, rfl, rfl, hreads .nil, .inl rfl⟩
          | cons l ls =>
            dsimp only
            have hco : (withComment b l).code = b.code := by unfold withComment; split <;> rfl
            have hre : (withComment b l).rest = b.rest := by unfold withComment; split <;> rfl
            have hcm : ∀ t, (t).foldl addComment (withComment b l).comments =
                (typedIn [.typed l] ++ t).foldl addComment b.comments := by
              intro t
              unfold withComment
              by_cases hl : l = [] <;> simp [typedIn, hl]
            have := ih { s with input := ls, ev := (s.ev ++ [.chose (some .comments)]) ++ [.typed l] }
              (withComment b l) (by simp only [List.length_cons] at hlt; dsimp only; omega)
              (by unfold withComment; split <;> exact ho)
            generalize callback w (k + 1) { s with input := ls, ev := (s.ev ++ [.chose (some .comments)]) ++ [.typed l] }
              (withComment b l) = q at this ⊢
            cases q with
            | stuck => exact this
            | ok b' s' =>
              obtain ⟨pre, dec, o, h1, h2, h3, h4, h5, h6⟩ := this
              rw [hco] at h2 h5 h6
              refine ⟨.chose (some .comments) :: .typed l :: pre, dec, o, .more h1, h2, by rw [h3]; simp, h4,
                hreads (.typed h5), ?_⟩
              rw [h6, hre, hcm]
              congr 2
              rw [← typedIn_append]
              rfl
            | rerun s' =>
              obtain ⟨pre, h1, h2, h3, h4, h5, h6⟩ := this
              rw [hco] at h4
              refine ⟨.chose (some .comments) :: .typed l :: pre, .more h1, by rw [h2]; simp, h3,
                hreads (.typed h4), h5, ?_⟩
              simp only [List.length_cons] at hlt
              dsimp only at h6
              omega
            | eof s' =>
              obtain ⟨pre, c, h1, h2, h3, h4, h5, h6⟩ := this
              rw [hco] at h5
              exact ⟨.chose (some .comments) :: .typed l :: pre, c, .more h1, by rw [h2]; simp, h3, h4,
                hreads (.typed h5), h6⟩

/-! ## The whole dialogue -/

/-- What the loop does. -/
def RSpec (answers : List Str) : R L → Prop
  | .done b s => Recorded w s.ev b ∧ Reads w none s.ev answers s.input
  | .quit s => (∃ E, Before w E ∧ Asks w ∧ s.ev = E ++ [.asked (some .quit)]) ∧ Reads w none s.ev answers s.input
  | .eof s => NoComment w s.ev ∧ s.input = [] ∧ Reads w none s.ev answers s.input
  | .stuck => False

/-- The state between rounds. -/
structure Inv (answers : List Str) (s : St) (comments : Str) : Prop where
  before : Before w s.ev
  reads : Reads w none s.ev answers s.input
  n : s.n = ranIn s.ev
  eq : comments = notes s.ev
  asks : ¬ Asks w → comments = []

theorem lead_facts {l : List Ev} (h : Lead w l) : ranIn l = 0 ∧ notes l = [] ∧ ∀ c, codeAfter w c l = c := by
  rcases h with ⟨_, rfl | rfl⟩ | ⟨_, rfl⟩ <;> exact ⟨rfl, rfl, fun _ => rfl⟩

theorem after_spec (answers : List Str) (again : St → R L) (E l : List Ev) (i : List Str) (n : Nat)
    (comments : Str) (b : Result L) (hE : Before w E) (hl : Lead w l) (hn : n = ranIn E)
    (hc : comments = notes E) (ha : ¬ Asks w → comments = [])
    (hr : Reads w none (E ++ l) answers i)
    (hb : b = { w.runs n with comments := startComments w E })
    (hagain : ∀ s', Inv w answers s' comments → s'.input.length < i.length → RSpec w answers (again s')) :
    RSpec w answers (after w again comments (ranSt ⟨i, n, E ++ l⟩) b) := by
  subst hn
  have hcm : (if comments = [] then b else { b with comments := some comments }) = b := by
    by_cases h : comments = []
    · rw [if_pos h]
    · rw [if_neg h]
      have hA : Asks w := Classical.byContradiction fun hA => h (ha hA)
      have hT : startComments w E = some (notes E) := if_pos (Or.inl hA)
      rw [hb, hT, ← hc]
  have hev : (ranSt ⟨i, ranIn E, E ++ l⟩).ev = E ++ (l ++ [.ran (ranIn E)]) := by simp [ranSt]
  have hin : (ranSt ⟨i, ranIn E, E ++ l⟩).input = i := rfl
  have hrn : (ranSt ⟨i, ranIn E, E ++ l⟩).n = ranIn E + 1 := rfl
  have hreads : ∀ (es : List Ev) (r : List Str), Reads w b.code es i r →
      Reads w none (E ++ (l ++ .ran (ranIn E) :: es)) answers r := by
    intro es r h
    rw [← List.append_assoc]
    refine hr.append w (.ran ?_)
    rw [hb] at h
    exact h
  unfold after
  by_cases ho : Open w (ranIn E)
  · have hbo : b.outcome = some .undecided := by rw [hb]; exact ho.2
    rw [if_pos (by simp [ho.1, hbo]), hcm]
    have := callback_spec w _ (ranSt ⟨i, ranIn E, E ++ l⟩) b (Nat.le_refl _) (by rw [hbo]; rfl)
    generalize callback w ((ranSt ⟨i, ranIn E, E ++ l⟩).input.length + 2) (ranSt ⟨i, ranIn E, E ++ l⟩) b = q at this ⊢
    cases q with
    | stuck => exact this
    | ok b' s' =>
      obtain ⟨pre, dec, o, h1, h2, h3, h4, h5, h6⟩ := this
      rw [hev] at h3
      have h3' : s'.ev = E ++ (l ++ .ran (ranIn E) :: (pre ++ dec)) := by rw [h3]; simp
      refine ⟨?_, ?_⟩
      · rw [h3', h6, hb]
        rw [hb] at h2
        exact .decided hE hl ho h1 h2
      · rw [h3']
        exact hreads _ _ h5
    | rerun s' =>
      obtain ⟨pre, h1, h2, h3, h4, h5, h6⟩ := this
      rw [hev] at h2
      have h2' : s'.ev = E ++ (l ++ .ran (ranIn E) :: (pre ++ [.chose (some .rerun)])) := by rw [h2]; simp
      refine hagain s' ⟨?_, ?_, ?_, ?_, ha⟩ h6
      · rw [h2']; exact .rerun hE hl ho h1 h5
      · rw [h2']; exact hreads _ _ h4
      · rw [h3, hrn, h2', ranIn_append, ranIn_append, (lead_facts w hl).1]
        simp only [ranIn]
        rw [ranIn_append, (h1.facts w).1]
        simp [ranIn]
      · rw [h2', hc, notes_append, notes_append, (lead_facts w hl).2.1]
        simp only [notes]
        rw [notes_append, (h1.facts w).2.1]
        simp [notes]
    | eof s' =>
      obtain ⟨pre, c, h1, h2, h3, h4, h5, h6⟩ := this
      rw [hev] at h2
      have h2' : s'.ev = E ++ (l ++ .ran (ranIn E) :: (pre ++ [.chose (some c)])) := by rw [h2]; simp
      refine ⟨?_, h4, ?_⟩
      · rw [h2']; exact .typed hE hl ho h1 h6
      · rw [h2', h4]; exact hreads _ _ h5
  · rw [if_neg]
    · refine ⟨?_, ?_⟩
      · rw [hev, hb]; exact .straight hE hl ho
      · rw [hev]; exact hreads _ _ .nil
    · rw [hb]
      intro h
      simp only [Bool.and_eq_true, decide_eq_true_eq] at h
      exact ho h

theorem prompts_iff : prompts w = true ↔ Takes w := by
  unfold prompts Takes Asks
  simp only [Bool.and_eq_true, Bool.or_eq_true, beq_iff_eq]
  tauto

theorem loop_spec (answers : List Str) : ∀ (k : Nat) (s : St) (comments : Str), s.input.length + 1 ≤ k →
    Inv w answers s comments → RSpec w answers (loop w k s comments) := by
  intro k
  induction k with
  | zero => intro s c h; omega
  | succ k ih =>
    intro s comments hk hi
    obtain ⟨input, n, ev⟩ := s
    obtain ⟨h1, h2, h3, h4, h5⟩ := hi
    dsimp only at h1 h2 h3 h4 h5 hk
    have hagain : ∀ (i : List Str), i.length ≤ input.length → ∀ s', Inv w answers s' comments →
        s'.input.length < i.length → RSpec w answers ((fun s => loop w k s comments) s') := by
      intro i hle s' h hlt
      exact ih s' comments (by omega) h
    rw [loop]
    by_cases hp : prompts w = true
    · rw [if_pos hp]
      have hT := (prompts_iff w).mp hp
      by_cases hm : w.plugin = .manual
      · rw [if_pos hm]
        have hA : ¬ Asks w := by
          rintro ⟨_, h | h⟩ <;> rw [hm] at h <;> cases h
        have := after_spec w answers (fun s => loop w k s comments) ev [] input n comments
          { w.runs n with comments := some comments } h1 (.inr ⟨hA, rfl⟩) h3 h4 h5 (by rw [List.append_nil]; exact h2)
          (by rw [startComments, if_pos hT, h4]) (hagain input (Nat.le_refl _))
        rw [List.append_nil] at this
        exact this
      · rw [if_neg hm]
        dsimp only
        have hA : Asks w := by
          rcases hT with h | h
          · exact h
          · exact absurd h.2 hm
        have hlen := pick_length (promptActs w) input
        have hreads := fun {es r} => prompt_reads w (codeAfter w none ev) input (es := es) (r := r)
        cases hpk : pick (promptActs w) input with
        | mk c rest =>
          rw [hpk] at hlen hreads
          dsimp only at hlen hreads ⊢
          have hle : rest.length ≤ input.length := by
            rcases hlen with ⟨_, h⟩ | h
            · rw [h]; exact Nat.zero_le _
            · omega
          have run : ∀ l, l = [Ev.asked c] → Lead w l → RSpec w answers (runPrompted w (fun s => loop w k s comments) comments
              ⟨rest, n, ev ++ l⟩) := by
            rintro l rfl hl
            exact after_spec w answers (fun s => loop w k s comments) ev _ rest n comments
              { w.runs n with comments := some comments } h1 hl h3 h4 h5 (h2.append w (hreads .nil))
              (by rw [startComments, if_pos hT, h4]) (hagain rest hle)
          cases c with
          | none => exact run _ rfl (.inl ⟨hA, .inr rfl⟩)
          | some c =>
            have hlt : rest.length < input.length := by
              rcases hlen with ⟨h, _⟩ | h
              · cases h
              · exact h
            cases c with
            | run => exact run _ rfl (.inl ⟨hA, .inl rfl⟩)
            | skip =>
              refine ⟨?_, h2.append w (hreads .nil)⟩
              rw [h4]
              exact .skipped h1 hA
            | quit => exact ⟨⟨ev, h1, hA, rfl⟩, h2.append w (hreads .nil)⟩
            | comment =>
              dsimp only
              cases rest with
              | nil => exact ⟨.note h1 hA, rfl, h2.append w (hreads .nil)⟩
              | cons t ts =>
                dsimp only
                have hev : (ev ++ [Ev.asked (some .comment)]) ++ [.note t] = ev ++ [.asked (some .comment), .note t] := by simp
                refine ih _ _ (by simp only [List.length_cons] at hlt; dsimp only; omega) ⟨?_, ?_, ?_, ?_, fun h => absurd hA h⟩
                · dsimp only; rw [hev]; exact .note h1 hA
                · dsimp only; rw [hev]; exact h2.append w (hreads (.note .nil))
                · dsimp only; rw [hev, ranIn_append, h3]; simp [ranIn]
                · dsimp only; rw [hev, notes_append, ← h4]
                  by_cases ht : t = [] <;> simp [notes, ht]
    · rw [if_neg hp]
      have hT : ¬ Takes w := fun h => hp ((prompts_iff w).mpr h)
      have hA : ¬ Asks w := fun h => hT (.inl h)
      have := after_spec w answers (fun s => loop w k s comments) ev [] input n comments
        (w.runs n) h1 (.inr ⟨hA, rfl⟩) h3 h4 h5 (by rw [List.append_nil]; exact h2)
        (by rw [startComments, if_neg hT, h3]) (hagain input (Nat.le_refl _))
      rw [List.append_nil] at this
      exact this

theorem dialogue_spec (answers : List Str) : RSpec w answers (dialogue w answers) :=
  loop_spec w answers _ _ _ (Nat.le_refl _) ⟨.nil, .nil, rfl, rfl, fun _ => rfl⟩

end Verif.Dialogue
