import Verif.Model.Pattern

/-! # Lemmas about job id patterns -/

set_option linter.unusedSimpArgs false

namespace Verif.Pattern

/-! ## The parser and text put in front of a pattern -/

theorem run_append (s : PS) (a b : Str) : run s (a ++ b) = (run s a).bind fun s' => run s' b := by
  induction a generalizing s with
  | nil => rfl
  | cons c a ih =>
    simp only [List.cons_append, run]
    cases step s c with
    | none => rfl
    | some s' => exact ih s'

/-- Insert pieces before the first branch of a frame. -/
def insF (P : List Piece) (f : Frame) : Frame :=
  match f.done with
  | [] => ⟨[], P ++ f.cur⟩
  | b :: r => ⟨(P ++ b) :: r, f.cur⟩

/-- Insert pieces before the first branch of the outermost frame. -/
def insL (P : List Piece) : List Frame → List Frame
  | [] => []
  | [f] => [insF P f]
  | f :: g :: l => f :: insL P (g :: l)

def insS (P : List Piece) (s : PS) : PS :=
  match s.below with
  | [] => { s with top := insF P s.top }
  | f :: l => { s with below := insL P (f :: l) }

theorem insF_cur (P : List Piece) (f : Frame) (x : List Piece) :
    ({ insF P f with cur := (insF P f).cur ++ x } : Frame) = insF P { f with cur := f.cur ++ x } := by
  obtain ⟨done, cur⟩ := f
  cases done <;> simp [insF]

theorem insF_branch (P : List Piece) (f : Frame) :
    (⟨(insF P f).done ++ [(insF P f).cur], []⟩ : Frame) = insF P ⟨f.done ++ [f.cur], []⟩ := by
  obtain ⟨done, cur⟩ := f
  cases done <;> simp [insF]

theorem insS_mode (P : List Piece) (s : PS) : (insS P s).mode = s.mode := by
  unfold insS
  split <;> rfl

theorem insS_setMode (P : List Piece) (s : PS) (m : Mode) :
    ({ insS P s with mode := m } : PS) = insS P { s with mode := m } := by
  unfold insS
  obtain ⟨mode, top, below⟩ := s
  cases below <;> rfl

theorem insS_add (P : List Piece) (s : PS) (a : Atom) : (insS P s).add a = insS P (s.add a) := by
  obtain ⟨mode, top, below⟩ := s
  cases below with
  | nil =>
    have := insF_cur P top [(a, .one)]
    simp only [insS, PS.add, this]
  | cons f l => rfl

theorem insS_quantify {P : List Piece} {s s' : PS} {q : Q} (h : s.quantify q = some s') :
    (insS P s).quantify q = some (insS P s') := by
  obtain ⟨mode, ⟨done, cur⟩, below⟩ := s
  unfold PS.quantify at h
  simp only at h
  split at h
  · rename_i a hl
    split at h
    · rename_i hr
      have hs := (Option.some.inj h).symm
      subst hs
      have hne : cur ≠ [] := by rintro rfl; simp at hl
      have hl2 : (P ++ cur).getLast? = some (a, .one) := by
        rw [List.getLast?_append, hl]; rfl
      cases below with
      | nil =>
        cases done with
        | nil =>
          simp only [insS, insF, PS.quantify, hl2, hr, ↓reduceIte, List.dropLast_append_of_ne_nil hne,
            List.append_assoc]
        | cons b r => simp only [insS, insF, PS.quantify, hl, hr, ↓reduceIte]
      | cons f l => simp only [insS, PS.quantify, hl, hr, ↓reduceIte]
    · cases h
  · cases h

theorem step_ins {P : List Piece} {s s' : PS} {c : Char} (h : step s c = some s') :
    step (insS P s) c = some (insS P s') := by
  unfold step at h ⊢
  rw [insS_mode]
  cases hm : s.mode with
  | esc =>
    simp only [hm] at h ⊢
    split at h
    · rename_i hc; rw [if_pos hc]; cases h; rw [insS_add]
    · rename_i hc
      rw [if_neg hc]
      split at h
      · cases h
      · rename_i hc2; rw [if_neg hc2]; cases h; rw [insS_add]
  | inSetEsc raw =>
    simp only [hm] at h ⊢
    split at h
    · cases h
    · rename_i hc; rw [if_neg hc]; cases h; rw [insS_setMode]
  | inSet raw =>
    simp only [hm] at h ⊢
    split at h
    · rename_i hc; rw [if_pos hc]; cases h; rw [insS_add]
    · rename_i hc
      rw [if_neg hc]
      split at h
      · rename_i hc2; rw [if_pos hc2]; cases h; rw [insS_setMode]
      · rename_i hc2; rw [if_neg hc2]; cases h; rw [insS_setMode]
  | normal =>
    simp only [hm] at h ⊢
    by_cases c1 : c = '\\'
    · rw [if_pos c1] at h ⊢; cases h; rw [insS_setMode]
    rw [if_neg c1] at h ⊢
    by_cases c2 : c = '['
    · rw [if_pos c2] at h ⊢; cases h; rw [insS_setMode]
    rw [if_neg c2] at h ⊢
    by_cases c3 : c = '.'
    · rw [if_pos c3] at h ⊢; cases h; rw [insS_add]
    rw [if_neg c3] at h ⊢
    by_cases c4 : c = '^'
    · rw [if_pos c4] at h ⊢; cases h; rw [insS_add]
    rw [if_neg c4] at h ⊢
    by_cases c5 : c = '$'
    · rw [if_pos c5] at h ⊢; cases h; rw [insS_add]
    rw [if_neg c5] at h ⊢
    by_cases c6 : c = '*'
    · rw [if_pos c6] at h ⊢; exact insS_quantify h
    rw [if_neg c6] at h ⊢
    by_cases c7 : c = '+'
    · rw [if_pos c7] at h ⊢; exact insS_quantify h
    rw [if_neg c7] at h ⊢
    by_cases c8 : c = '?'
    · rw [if_pos c8] at h ⊢; exact insS_quantify h
    rw [if_neg c8] at h ⊢
    by_cases c9 : c = '{'
    · rw [if_pos c9] at h; cases h
    rw [if_neg c9] at h ⊢
    by_cases c10 : c = '|'
    · rw [if_pos c10] at h ⊢
      cases h
      obtain ⟨mode, top, below⟩ := s
      cases below with
      | nil => simp only [insS]; rw [insF_branch]
      | cons f l => rfl
    rw [if_neg c10] at h ⊢
    by_cases c11 : c = '('
    · rw [if_pos c11] at h ⊢
      cases h
      obtain ⟨mode, top, below⟩ := s
      cases below with
      | nil => rfl
      | cons f l => rfl
    rw [if_neg c11] at h ⊢
    by_cases c12 : c = ')'
    · rw [if_pos c12] at h ⊢
      obtain ⟨mode, top, below⟩ := s
      cases below with
      | nil => cases h
      | cons f l =>
        cases h
        cases l with
        | nil =>
          have := insF_cur P f [(.group (top.done ++ [top.cur]), .one)]
          simp only [insS, insL, this]
        | cons g l => rfl
    rw [if_neg c12] at h ⊢
    cases h
    rw [insS_add]

theorem run_ins {P : List Piece} : ∀ {t : Str} {s s' : PS}, run s t = some s' →
    run (insS P s) t = some (insS P s') := by
  intro t
  induction t with
  | nil => intro s s' h; cases h; rfl
  | cons c t ih =>
    intro s s' h
    unfold run at h ⊢
    cases hs : step s c with
    | none => rw [hs] at h; cases h
    | some s1 =>
      rw [hs] at h
      rw [step_ins hs]
      exact ih h

def init : PS := ⟨.normal, ⟨[], []⟩, []⟩

theorem parse_inv {t : Str} {bs : Branches} (h : parseRe t = some bs) :
    ∃ top, run init t = some ⟨.normal, top, []⟩ ∧ bs = top.done ++ [top.cur] := by
  unfold parseRe at h
  split at h
  · rename_i top hr
    exact ⟨top, hr, (Option.some.inj h).symm⟩
  · cases h

/-- A pattern with one branch, between a prefix that reads as `P` and possibly a dollar sign. -/
theorem parse_around {pre t : Str} {P b : List Piece} (hp : run init pre = some ⟨.normal, ⟨[], P⟩, []⟩)
    (h : parseRe t = some [b]) :
    parseRe (pre ++ t) = some [P ++ b] ∧ parseRe (pre ++ t ++ ['$']) = some [P ++ b ++ [(.eol, .one)]] := by
  obtain ⟨top, hr, hb⟩ := parse_inv h
  obtain ⟨done, cur⟩ := top
  have hd : done = [] ∧ cur = b := by
    cases done with
    | nil => simpa using hb.symm
    | cons x l => simp at hb
  obtain ⟨rfl, rfl⟩ := hd
  have hi : (⟨.normal, ⟨[], P⟩, []⟩ : PS) = insS P init := by simp [insS, insF, init]
  have h2 := run_ins (P := P) hr
  constructor
  · unfold parseRe
    rw [run_append, show (⟨.normal, ⟨[], []⟩, []⟩ : PS) = init from rfl, hp]
    simp only [Option.bind]
    rw [hi, h2]
    simp [insS, insF]
  · unfold parseRe
    rw [run_append, run_append, show (⟨.normal, ⟨[], []⟩, []⟩ : PS) = init from rfl, hp]
    simp only [Option.bind]
    rw [hi, h2]
    simp only [insS, insF, run, step, List.nil_append]
    simp [PS.add]

/-! ## Plain characters -/

/-- A character with no special meaning in a regular expression. -/
def Plain (c : Char) : Prop :=
  c ≠ '\\' ∧ c ≠ '[' ∧ c ≠ '.' ∧ c ≠ '^' ∧ c ≠ '$' ∧ c ≠ '*' ∧ c ≠ '+' ∧ c ≠ '?' ∧ c ≠ '{' ∧
    c ≠ '|' ∧ c ≠ '(' ∧ c ≠ ')'

instance (c : Char) : Decidable (Plain c) := by unfold Plain; infer_instance

/-- How a plain character or a dot reads. -/
def atomOf (c : Char) : Piece := if c = '.' then (.any, .one) else (.lit c, .one)

theorem step_plain {done cur below} {c : Char} (h : Plain c ∨ c = '.') :
    step ⟨.normal, ⟨done, cur⟩, below⟩ c = some ⟨.normal, ⟨done, cur ++ [atomOf c]⟩, below⟩ := by
  rcases h with h | rfl
  · obtain ⟨h1, h2, h3, h4, h5, h6, h7, h8, h9, h10, h11, h12⟩ := h
    simp [step, atomOf, PS.add, h1, h2, h3, h4, h5, h6, h7, h8, h9, h10, h11, h12]
  · simp [step, atomOf, PS.add]

theorem run_plain {done below} (t : Str) : ∀ cur, (∀ c ∈ t, Plain c ∨ c = '.') →
    run ⟨.normal, ⟨done, cur⟩, below⟩ t = some ⟨.normal, ⟨done, cur ++ t.map atomOf⟩, below⟩ := by
  induction t with
  | nil => intro cur _; simp [run]
  | cons c t ih =>
    intro cur h
    simp only [run]
    rw [step_plain (h c (by simp))]
    simp only
    rw [ih _ (fun d hd => h d (List.mem_cons_of_mem _ hd))]
    simp

theorem step_caret : step init '^' = some ⟨.normal, ⟨[], [(.bol, .one)]⟩, []⟩ := by
  simp [step, init, PS.add]

theorem run_caret {t : Str} (h : ∀ c ∈ t, Plain c ∨ c = '.') :
    run init ('^' :: t) = some ⟨.normal, ⟨[], (.bol, .one) :: t.map atomOf⟩, []⟩ := by
  simp only [run, step_caret]
  rw [run_plain t _ h]
  rfl

/-! ## Matching -/

variable {setMem : Str → Char → Bool}

theorem mseq_append {s : Str} (a b : List Piece) (i j : Nat) :
    MSeq setMem s (a ++ b) i j ↔ ∃ k, MSeq setMem s a i k ∧ MSeq setMem s b k j := by
  induction a generalizing i with
  | nil => simp [MSeq]
  | cons p a ih =>
    simp only [List.cons_append, MSeq, ih]
    constructor
    · rintro ⟨k, h1, k2, h2, h3⟩; exact ⟨k2, ⟨k, h1, h2⟩, h3⟩
    · rintro ⟨k2, ⟨k, h1, h2⟩, h3⟩; exact ⟨k, h1, k2, h2, h3⟩

/-- No anchors inside. -/
inductive Free : Atom → Prop
  | lit {c} : Free (.lit c)
  | any : Free .any
  | set {raw} : Free (.set raw)
  | group {bs : Branches} : (∀ b ∈ bs, ∀ p ∈ b, Free p.1) → Free (.group bs)

theorem shift_down {u s : Str} {p : Piece} {x y : Nat} (h : MPiece setMem (u ++ s) p x y)
    (hf : Free p.1) : ∀ i, x = u.length + i → ∃ j, y = u.length + j ∧ MPiece setMem s p i j := by
  have get : ∀ i, (u ++ s)[u.length + i]? = s[i]? := by
    intro i; rw [List.getElem?_append_right (by omega)]; congr 1; omega
  induction h with
  | lit hc => intro i hi; subst hi; rw [get] at hc; exact ⟨i + 1, by omega, .lit hc⟩
  | any hc hn => intro i hi; subst hi; rw [get] at hc; exact ⟨i + 1, by omega, .any hc hn⟩
  | set hc hn => intro i hi; subst hi; rw [get] at hc; exact ⟨i + 1, by omega, .set hc hn⟩
  | bol => cases hf
  | eol _ => cases hf
  | empty hb => intro i hi; exact ⟨i, hi, .empty hb⟩
  | @group bs b p l x k y hb he hp hg ih1 ih2 =>
    intro i hi
    cases hf with
    | group hf =>
      have hfb := hf b hb
      rw [he] at hfb
      obtain ⟨j1, rfl, h1⟩ := ih1 (hfb p (by simp)) i hi
      obtain ⟨j2, rfl, h2⟩ := ih2 (.group (by
        intro b' hb' q hq
        rw [List.mem_singleton] at hb'
        subst hb'
        exact hfb q (List.mem_cons_of_mem _ hq))) j1 rfl
      exact ⟨j2, rfl, .group hb he h1 h2⟩
  | optNone => intro i hi; exact ⟨i, hi, .optNone⟩
  | optSome _ ih => intro i hi; obtain ⟨j, hj, h⟩ := ih hf i hi; exact ⟨j, hj, .optSome h⟩
  | starNone => intro i hi; exact ⟨i, hi, .starNone⟩
  | starSome _ _ ih1 ih2 =>
    intro i hi
    obtain ⟨j1, hj1, h1⟩ := ih1 hf i hi
    obtain ⟨j2, hj2, h2⟩ := ih2 hf j1 hj1
    exact ⟨j2, hj2, .starSome h1 h2⟩
  | plus _ _ ih1 ih2 =>
    intro i hi
    obtain ⟨j1, hj1, h1⟩ := ih1 hf i hi
    obtain ⟨j2, hj2, h2⟩ := ih2 hf j1 hj1
    exact ⟨j2, hj2, .plus h1 h2⟩

theorem shift_up (u : Str) {s : Str} {p : Piece} {i j : Nat} (h : MPiece setMem s p i j)
    (hf : Free p.1) : MPiece setMem (u ++ s) p (u.length + i) (u.length + j) := by
  have get : ∀ i, (u ++ s)[u.length + i]? = s[i]? := by
    intro i; rw [List.getElem?_append_right (by omega)]; congr 1; omega
  induction h with
  | lit hc => exact .lit (by rw [get]; exact hc)
  | any hc hn => exact .any (by rw [get]; exact hc) hn
  | set hc hn => exact .set (by rw [get]; exact hc) hn
  | bol => cases hf
  | eol _ => cases hf
  | empty hb => exact .empty hb
  | @group bs b p l x k y hb he hp hg ih1 ih2 =>
    cases hf with
    | group hf =>
      have hfb := hf b hb
      rw [he] at hfb
      exact .group hb he (ih1 (hfb p (by simp))) (ih2 (.group (by
        intro b' hb' q hq
        rw [List.mem_singleton] at hb'
        subst hb'
        exact hfb q (List.mem_cons_of_mem _ hq))))
  | optNone => exact .optNone
  | optSome _ ih => exact .optSome (ih hf)
  | starNone => exact .starNone
  | starSome _ _ ih1 ih2 => exact .starSome (ih1 hf) (ih2 hf)
  | plus _ _ ih1 ih2 => exact .plus (ih1 hf) (ih2 hf)

theorem shift_seq (u : Str) {s : Str} {b : List Piece} (hf : ∀ p ∈ b, Free p.1) (i y : Nat) :
    MSeq setMem (u ++ s) b (u.length + i) y ↔ ∃ j, y = u.length + j ∧ MSeq setMem s b i j := by
  induction b generalizing i with
  | nil =>
    simp only [MSeq]
    constructor
    · intro h; exact ⟨i, h.symm, rfl⟩
    · rintro ⟨j, rfl, rfl⟩; rfl
  | cons p b ih =>
    have hp := hf p (by simp)
    have ih := ih (fun q hq => hf q (List.mem_cons_of_mem _ hq))
    simp only [MSeq]
    constructor
    · rintro ⟨k, h1, h2⟩
      obtain ⟨k', rfl, h1'⟩ := shift_down h1 hp i rfl
      obtain ⟨j, rfl, h3⟩ := (ih k').1 h2
      exact ⟨j, rfl, k', h1', h3⟩
    · rintro ⟨j, rfl, k, h1, h2⟩
      exact ⟨u.length + k, shift_up u h1 hp, (ih k).2 ⟨j, rfl, h2⟩⟩

/-- Matching never goes past the end. -/
theorem mpiece_le {s : Str} {p : Piece} {i j : Nat} (h : MPiece setMem s p i j) (hi : i ≤ s.length) :
    j ≤ s.length := by
  induction h with
  | lit hc => have := (List.getElem?_eq_some_iff.1 hc).1; omega
  | any hc _ => have := (List.getElem?_eq_some_iff.1 hc).1; omega
  | set hc _ => have := (List.getElem?_eq_some_iff.1 hc).1; omega
  | bol | eol | empty | optNone | starNone => exact hi
  | group _ _ _ _ ih1 ih2 => exact ih2 (ih1 hi)
  | optSome _ ih => exact ih hi
  | starSome _ _ ih1 ih2 => exact ih2 (ih1 hi)
  | plus _ _ ih1 ih2 => exact ih2 (ih1 hi)

/-- `t` as a pattern in which a dot stands for any character. -/
def DotEq : Str → Str → Prop
  | [], [] => True
  | p :: ps, c :: cs => (if p = '.' then c ≠ '\n' else c = p) ∧ DotEq ps cs
  | _, _ => False

theorem DotEq.length : ∀ {t u : Str}, DotEq t u → t.length = u.length
  | [], [], _ => rfl
  | _ :: _, _ :: _, h => by simp [DotEq.length h.2]

theorem mseq_plain {s : Str} (t : Str) : ∀ i j, MSeq setMem s (t.map atomOf) i j ↔
    ∃ u, DotEq t u ∧ j = i + t.length ∧ ∀ k, k < u.length → s[i + k]? = u[k]? := by
  induction t with
  | nil =>
    intro i j
    simp only [List.map_nil, MSeq]
    constructor
    · intro h; exact ⟨[], trivial, by simp [h], by simp⟩
    · rintro ⟨u, _, rfl, _⟩; simp
  | cons p t ih =>
    intro i j
    simp only [List.map_cons, MSeq, ih]
    constructor
    · rintro ⟨k, hk, u, hu, rfl, hs⟩
      have : ∃ c, s[i]? = some c ∧ k = i + 1 ∧ (if p = '.' then c ≠ '\n' else c = p) := by
        unfold atomOf at hk
        split at hk
        · rename_i hp
          cases hk with
          | any hc hn => exact ⟨_, hc, rfl, by rw [if_pos hp]; exact hn⟩
        · rename_i hp
          cases hk with
          | lit hc => exact ⟨_, hc, rfl, by rw [if_neg hp]⟩
      obtain ⟨c, hc, rfl, hcp⟩ := this
      refine ⟨c :: u, ⟨hcp, hu⟩, by simp; omega, ?_⟩
      intro k hk
      cases k with
      | zero => simpa using hc
      | succ k =>
        have := hs k (by simpa using hk)
        rw [show i + (k + 1) = i + 1 + k by omega, this]
        simp
    · rintro ⟨u, hu, rfl, hs⟩
      match u, hu with
      | c :: u, hu =>
        have hc : s[i]? = some c := by simpa using hs 0 (by simp)
        refine ⟨i + 1, ?_, u, hu.2, by simp; omega, ?_⟩
        · have h1 := hu.1
          unfold atomOf
          split at h1
          · rename_i hp; rw [if_pos hp]; exact .any hc h1
          · rename_i hp; rw [if_neg hp]; rw [h1] at hc; exact .lit hc
        · intro k hk
          have := hs (k + 1) (by simpa using hk)
          rw [show i + (k + 1) = i + 1 + k by omega] at this
          rw [this]
          simp

/-- A prefix of plain characters and dots. -/
theorem mseq_plain_zero {s : Str} (t : Str) (j : Nat) : MSeq setMem s (t.map atomOf) 0 j ↔
    ∃ u r, s = u ++ r ∧ DotEq t u ∧ j = u.length := by
  rw [mseq_plain]
  constructor
  · rintro ⟨u, hu, rfl, hs⟩
    refine ⟨u, s.drop u.length, ?_, hu, by rw [hu.length]; omega⟩
    have : s.take u.length = u := by
      apply List.ext_getElem?
      intro k
      by_cases hk : k < u.length
      · rw [List.getElem?_take_of_lt hk]
        simpa using hs k hk
      · rw [List.getElem?_eq_none (by simp; omega), List.getElem?_eq_none (by omega)]
    rw [← this, List.length_take]
    conv => lhs; rw [← List.take_append_drop u.length s]
    congr 1
    rw [show min u.length s.length = u.length by
      have := congrArg List.length this; simp at this; omega]
  · rintro ⟨u, r, rfl, hu, rfl⟩
    refine ⟨u, hu, by rw [hu.length]; omega, ?_⟩
    intro k hk
    rw [show 0 + k = k by omega, List.getElem?_append_left hk]

end Verif.Pattern
