import Verif.Lemmas.Sysinfo
import Verif.Props.Checksum
import Verif.Lemmas.Assoc

/-!
# C132: the system information of the spreadsheet is what the resources and lspci say
-/

namespace Verif.Sysinfo

open Verif.Text

/-! ## Specification -/

/-- What lspci prints after the name of a device: ` [8086:3b57]`. -/
def Ids (t : Str) : Prop := ∃ w a b, isSpace w = true ∧ a ≠ [] ∧ b ≠ [] ∧ (∀ c ∈ a, c.isAlphanum = true ∨ c = '_') ∧
  (∀ c ∈ b, c.isAlphanum = true ∨ c = '_') ∧ t = w :: '[' :: (a ++ ':' :: (b ++ [']']))

/-- What ends the name of a chipset: ` LPC`. -/
def Lpc (t : Str) : Prop := ∃ w, isSpace w = true ∧ t = w :: "LPC".toList

/-- A line of lspci that tells of a device of one class: the class occurs once, a colon and a space come after
it, then the name, which goes on to the first text that ends names. -/
def Device (T : Str → Prop) (cls name l : Str) : Prop :=
  ∃ before mid ids rest, l = before ++ (cls ++ (mid ++ ':' :: ' ' :: (name ++ (ids ++ rest)))) ∧ ':' ∉ mid ∧ T ids ∧
    (∀ a b, l = a ++ (cls ++ b) → a = before) ∧
    ∀ a t b, T t → name ++ (ids ++ rest) = a ++ (t ++ b) → name.length ≤ a.length

/-- The names of the devices of one class, in the order of the lines. -/
inductive Names (T : Str → Prop) (cls : Str) : List Str → List Str → Prop
  | nil : Names T cls [] []
  | other (l ls ns) : '\n' ∉ l → ¬ cls <:+: l → Names T cls ls ns → Names T cls (l :: ls) ns
  | device (l n ls ns) : '\n' ∉ l → Device T cls n l → Names T cls ls ns → Names T cls (l :: ls) (n :: ns)

/-- The beginning of what lspci prints of memory. -/
def memText : Str := "Memory".toList

/-- What is in front of a size. -/
def sizeText : Str := " prefetchable) [size=".toList

/-- What comes after a size in mebibytes. -/
def mbText : Str := "M]".toList

/-- A line that tells of memory which can be prefetched, of `n` mebibytes. -/
def Region (n : Nat) (l : Str) : Prop :=
  ∃ before mid rest, mid ≠ [] ∧ l = before ++ (memText ++ (mid ++ (sizeText ++
    (Nat.toDigits 10 n ++ (mbText ++ rest))))) ∧
    (∀ a b, l = a ++ (memText ++ b) → a = before) ∧
    ∀ a b, l = a ++ (sizeText ++ b) → a = before ++ (memText ++ mid)

/-- The sizes of such memory, in the order of the lines. -/
inductive Sizes : List Str → List Nat → Prop
  | nil : Sizes [] []
  | other (l ls ns) : '\n' ∉ l → (∀ a mid ds rest, ds ≠ [] → (∀ c ∈ ds, c.isDigit = true) → mid ≠ [] →
      l ≠ a ++ (memText ++ (mid ++ (sizeText ++ (ds ++ (mbText ++ rest)))))) →
      Sizes ls ns → Sizes (l :: ls) ns
  | region (l n ls ns) : '\n' ∉ l → Region n l → Sizes ls ns → Sizes (l :: ls) (n :: ns)

/-- The last element that has a property. -/
def Last {α : Type} (p : α → Prop) (l : List α) (r : α) : Prop :=
  ∃ a b, l = a ++ r :: b ∧ p r ∧ ∀ x ∈ b, ¬ p x

/-! ## Patterns -/

/-- The same as `Ids`, with the model's class of letters. -/
def IdsW (t : Str) : Prop := ∃ w a b, isSpace w = true ∧ a ≠ [] ∧ b ≠ [] ∧ (∀ c ∈ a, isWord c = true) ∧
  (∀ c ∈ b, isWord c = true) ∧ t = w :: '[' :: (a ++ ':' :: (b ++ [']']))

theorem idsW_ends : Ends idTail IdsW := by
  constructor
  · intro s r
    constructor
    · intro h
      unfold idTail at h
      split at h
      · rename_i w s
        split at h
        · rename_i hw
          split at h
          · rename_i x a s' h1 h2
            split at h
            · rename_i y b s'' h3 h4
              cases h
              refine ⟨w :: '[' :: ((x :: a) ++ ':' :: ((y :: b) ++ [']'])), ⟨w, x :: a, y :: b, hw, by simp, by simp,
                ?_, ?_, rfl⟩, ?_⟩
              · intro c hc; rw [← h1] at hc; exact takeWhile_all _ c hc
              · intro c hc; rw [← h3] at hc; exact takeWhile_all _ c hc
              · have e1 := List.takeWhile_append_dropWhile (p := isWord) (l := s)
                have e2 := List.takeWhile_append_dropWhile (p := isWord) (l := s')
                rw [h1, h2] at e1
                rw [h3, h4] at e2
                rw [← e1, ← e2]
                simp
            · cases h
          · cases h
        · cases h
      · cases h
    · rintro ⟨t, ⟨w, a, b, hw, ha, hb, haw, hbw, rfl⟩, rfl⟩
      unfold idTail
      have e1 := takeWhile_stop (p := isWord) (a := a) (c := ':') (r := b ++ ']' :: r) haw (by decide)
      have e2 := takeWhile_stop (p := isWord) (a := b) (c := ']') (r := r) hbw (by decide)
      simp only [List.cons_append, List.append_assoc, List.nil_append]
      rw [if_pos hw, e1.1, e1.2]
      obtain ⟨x, a', rfl⟩ := List.exists_cons_of_ne_nil ha
      show (match (b ++ ']' :: r).takeWhile isWord, (b ++ ']' :: r).dropWhile isWord with
        | _ :: _, ']' :: s => some s
        | _, _ => none) = some r
      rw [e2.1, e2.2]
      obtain ⟨y, b', rfl⟩ := List.exists_cons_of_ne_nil hb
      rfl
  · rintro t ⟨w, a, b, hw, ha, hb, haw, hbw, rfl⟩
    refine ⟨w, _, rfl, ?_⟩
    simp only [List.mem_cons, List.mem_append, List.not_mem_nil, or_false, not_or]
    refine ⟨by decide, fun h => ?_, by decide, fun h => ?_, by decide⟩
    · exact absurd (haw _ h) (by decide)
    · exact absurd (hbw _ h) (by decide)

theorem ids_ends : Ends idTail Ids := by
  have : Ids = IdsW := by
    funext t
    simp only [Ids, IdsW, isWord, Bool.or_eq_true, beq_iff_eq]
  rw [this]
  exact idsW_ends

theorem lpc_ends : Ends lpcTail Lpc := by
  constructor
  · intro s r
    constructor
    · intro h
      unfold lpcTail at h
      split at h
      · rename_i w s
        split at h
        · rename_i hw
          exact ⟨w :: "LPC".toList, ⟨w, hw, rfl⟩, by rw [(literal_spec _ _ _).1 h]; rfl⟩
        · cases h
      · cases h
    · rintro ⟨t, ⟨w, hw, rfl⟩, rfl⟩
      show (if isSpace w then literal "LPC".toList ("LPC".toList ++ r) else none) = some r
      rw [if_pos hw]
      exact (literal_spec _ _ _).2 rfl
  · rintro t ⟨w, hw, rfl⟩
    exact ⟨w, _, rfl, by decide⟩

theorem matchAt_none {k v z : Str} {tail : Str → Option Str} (hk : '\n' ∉ k) (hz : After z) (hv : ¬ k <+: v) :
    matchAt k tail (v ++ z) = none := by
  unfold matchAt
  rw [literal_after hk hz hv]
  rfl

theorem names_line {tail : Str → Option Str} {T : Str → Prop} (ht : Ends tail T) {k : Str} (hk : '\n' ∉ k)
    (hne : k ≠ []) {ls ns : List Str} (h : Names T k ls ns) :
    ∃ xss, List.Forall₂ (LineHas (matchAt k tail)) ls xss ∧ xss.flatten = ns := by
  induction h with
  | nil => exact ⟨[], .nil, rfl⟩
  | other l ls ns hl hn _ ih =>
    obtain ⟨xss, h1, h2⟩ := ih
    refine ⟨[] :: xss, .cons (lineHas_none ?_) h1, by simpa using h2⟩
    intro z hz u v e hv
    refine matchAt_none hk hz fun hp => hn ?_
    rw [e]
    exact hp.isInfix.trans (List.suffix_append u v).isInfix
  | device l n ls ns hl hd _ ih =>
    obtain ⟨xss, h1, h2⟩ := ih
    refine ⟨[n] :: xss, .cons ?_ h1, by simp [h2]⟩
    obtain ⟨before, mid, ids, rest, rfl, hm, hi, hu, hs⟩ := hd
    simp only [List.mem_append, List.mem_cons, not_or] at hl
    obtain ⟨hl1, -, hl3, -, -, hl4, hl5, hl6⟩ := hl
    have hkl : 0 < k.length := List.length_pos_iff.2 hne
    refine lineHas_one (r := rest) (by simp [hne]) (by simp only [List.length_append, List.length_cons]; omega)
      ?_ ?_ ?_
    · intro z hz u v e hv
      unfold matchAt
      cases hlit : literal k (v ++ ((k ++ (mid ++ ':' :: ' ' :: (n ++ (ids ++ rest)))) ++ z)) with
      | none => rfl
      | some r =>
        exfalso
        rw [← List.append_assoc] at hlit
        have hp : k <+: v ++ (k ++ (mid ++ ':' :: ' ' :: (n ++ (ids ++ rest)))) := by
          apply Classical.byContradiction
          intro hn
          rw [literal_after hk hz hn] at hlit
          cases hlit
        obtain ⟨b, hb⟩ := hp
        have := hu u b (by rw [hb, ← List.append_assoc u, ← e])
        rw [this] at e
        have : v = [] := by
          have := congrArg List.length e
          rw [List.length_append] at this
          exact List.eq_nil_of_length_eq_zero (by omega)
        exact hv this
    · intro z hz
      unfold matchAt
      rw [List.append_assoc, (literal_spec k _ _).2 rfl, Option.bind_some]
      simp only [List.append_assoc, List.cons_append]
      refine afterColon_stop ' ' (by decide) ?_ mid hm hl3
      refine lazyTo_stop ht hi n hl4 ?_
      intro u v e hv
      cases htl : tail (v ++ (ids ++ (rest ++ z))) with
      | none => rfl
      | some r =>
        exfalso
        obtain ⟨t, hT, et⟩ := (ht.spec _ _).1 htl
        obtain ⟨w, t', rfl, hnt⟩ := ht.inside t hT
        -- the end of the name is inside the line
        have hlen : (w :: t') <+: v ++ (ids ++ rest) := by
          rw [show v ++ (ids ++ (rest ++ z)) = (v ++ (ids ++ rest)) ++ z by simp] at et
          rcases List.append_eq_append_iff.1 et with ⟨a, h1, h2⟩ | ⟨a, h1, h2⟩
          · cases a with
            | nil => rw [h1]; simp
            | cons c a =>
              rcases hz with rfl | ⟨y, rfl⟩
              · simp at h2
              · rw [List.cons_append] at h2
                injection h2 with h2 _
                obtain ⟨x, v', rfl⟩ := List.exists_cons_of_ne_nil hv
                rw [List.cons_append, List.cons_append] at h1
                injection h1 with _ h1
                exact absurd (by rw [h1, ← h2]; simp) hnt
          · exact ⟨a, h1.symm⟩
        obtain ⟨b, hb⟩ := hlen
        have := hs u (w :: t') b hT (by rw [hb, e, List.append_assoc])
        rw [e, List.length_append] at this
        exact hv (List.eq_nil_of_length_eq_zero (by omega))
    · intro z hz u v e hv
      refine matchAt_none hk hz ?_
      rintro ⟨b, hb⟩
      have := hu (before ++ (k ++ (mid ++ ':' :: ' ' :: (n ++ (ids ++ u))))) b (by rw [hb, e]; simp)
      have := congrArg List.length this
      simp only [List.length_append, List.length_cons] at this
      omega

theorem names_found {tail : Str → Option Str} {T : Str → Prop} (ht : Ends tail T) {k : Str} (hk : '\n' ∉ k)
    (hne : k ≠ []) {ls ns : List Str} (h : Names T k ls ns) :
    finditer (matchAt k tail) (joinWith '\n' ls).length (joinWith '\n' ls) = ns ∧
    search (matchAt k tail) (joinWith '\n' ls) = ns.head? := by
  obtain ⟨xss, h1, h2⟩ := names_line ht hk hne h
  have hm : ∀ y, matchAt k tail ('\n' :: y) = none := fun y =>
    matchAt_none (v := []) hk (.inr ⟨y, rfl⟩) (by simpa using hne)
  have h0 : matchAt k tail [] = none := matchAt_none (v := []) hk (.inl rfl) (by simpa using hne)
  have e := finditer_lines hm h1 _ (Nat.le_refl _)
  rw [h2] at e
  exact ⟨e, by rw [search_head h0 _ _ (Nat.le_refl _), e]⟩

/-! ## Memory -/

theorem sizeTail_eq (s : Str) : sizeTail s = (literal sizeText s).bind fun s =>
    match s.takeWhile Char.isDigit with
    | [] => none
    | ds => (literal mbText (s.dropWhile Char.isDigit)).map fun r => (Nat.ofDigitChars 10 ds 0, r) := rfl

theorem memoryAt_eq (s : Str) : memoryAt s = (literal memText s).bind greedy := rfl

theorem sizeTail_spec (s : Str) (n : Nat) (r : Str) : sizeTail s = some (n, r) ↔
    ∃ ds, ds ≠ [] ∧ (∀ c ∈ ds, c.isDigit = true) ∧ n = Nat.ofDigitChars 10 ds 0 ∧
      s = sizeText ++ (ds ++ (mbText ++ r)) := by
  constructor
  · intro h
    rw [sizeTail_eq] at h
    obtain ⟨s', h1, h2⟩ := Option.bind_eq_some_iff.1 h
    have e := (literal_spec _ _ _).1 h1
    have hd := takeWhile_all (p := Char.isDigit) s'
    have ea := List.takeWhile_append_dropWhile (p := Char.isDigit) (l := s')
    cases ht : s'.takeWhile Char.isDigit with
    | nil => rw [ht] at h2; cases h2
    | cons c ds =>
      rw [ht] at h2 hd ea
      obtain ⟨r', h3, h4⟩ := Option.map_eq_some_iff.1 h2
      injection h4 with h4 h5
      subst h4 h5
      have e2 := (literal_spec _ _ _).1 h3
      refine ⟨c :: ds, by simp, hd, rfl, ?_⟩
      rw [e, ← ea, e2]
  · rintro ⟨ds, h1, h2, rfl, rfl⟩
    rw [sizeTail_eq, (literal_spec sizeText _ _).2 rfl, Option.bind_some]
    have e := takeWhile_stop (p := Char.isDigit) (a := ds) (c := 'M') (r := ']' :: r) h2 (by decide)
    rw [show ds ++ (mbText ++ r) = ds ++ 'M' :: ']' :: r from rfl, e.1, e.2]
    obtain ⟨x, ds', rfl⟩ := List.exists_cons_of_ne_nil h1
    dsimp only
    rw [show 'M' :: ']' :: r = mbText ++ r from rfl, (literal_spec mbText _ r).2 rfl]
    rfl

theorem greedy_some : ∀ (s : Str) (n : Nat) (r : Str), greedy s = some (n, r) →
    ∃ mid ds, mid ≠ [] ∧ '\n' ∉ mid ∧ ds ≠ [] ∧ (∀ c ∈ ds, c.isDigit = true) ∧ n = Nat.ofDigitChars 10 ds 0 ∧
      s = mid ++ (sizeText ++ (ds ++ (mbText ++ r))) := by
  intro s
  induction s with
  | nil => intro n r h; cases h
  | cons c s ih =>
    intro n r h
    rw [greedy] at h
    split at h
    · cases h
    · rename_i hc
      cases hg : greedy s with
      | some x =>
        rw [hg] at h
        cases h
        obtain ⟨mid, ds, h1, h2, h3, h4, h5, rfl⟩ := ih n r hg
        exact ⟨c :: mid, ds, by simp, by simp only [List.mem_cons, not_or]; exact ⟨fun e => hc e.symm, h2⟩, h3, h4, h5, rfl⟩
      | none =>
        rw [hg] at h
        obtain ⟨ds, h3, h4, h5, rfl⟩ := (sizeTail_spec _ _ _).1 h
        exact ⟨[c], ds, by simp, by simp only [List.mem_singleton]; exact fun e => hc e.symm, h3, h4, h5, rfl⟩

theorem greedy_exists (ds r : Str) (h1 : ds ≠ []) (h2 : ∀ c ∈ ds, c.isDigit = true) : ∀ mid : Str, mid ≠ [] →
    '\n' ∉ mid → greedy (mid ++ (sizeText ++ (ds ++ (mbText ++ r)))) ≠ none := by
  intro mid
  induction mid with
  | nil => intro h; exact absurd rfl h
  | cons c mid ih =>
    intro _ hn
    simp only [List.mem_cons, not_or] at hn
    rw [List.cons_append, greedy, if_neg fun e => hn.1 e.symm]
    cases hg : greedy (mid ++ (sizeText ++ (ds ++ (mbText ++ r)))) with
    | some x => simp
    | none =>
      cases mid with
      | nil =>
        rw [List.nil_append, (sizeTail_spec _ _ r).2 ⟨ds, h1, h2, rfl, rfl⟩]
        simp
      | cons d mid => exact absurd hg (ih (by simp) hn.2)

theorem digit_newline {ds : Str} (h : ∀ c ∈ ds, c.isDigit = true) : '\n' ∉ ds := fun hm =>
  absurd (h _ hm) (by decide)

/-- A match is inside of the line. -/
theorem memory_inside {v z : Str} (hz : After z) {n : Nat} {r : Str} (h : memoryAt (v ++ z) = some (n, r)) :
    ∃ mid ds b, mid ≠ [] ∧ ds ≠ [] ∧ (∀ c ∈ ds, c.isDigit = true) ∧ n = Nat.ofDigitChars 10 ds 0 ∧
      v = memText ++ (mid ++ (sizeText ++ (ds ++ (mbText ++ b)))) ∧ r = b ++ z := by
  rw [memoryAt_eq] at h
  obtain ⟨s, h1, h2⟩ := Option.bind_eq_some_iff.1 h
  have e := (literal_spec _ _ _).1 h1
  obtain ⟨mid, ds, g1, g2, g3, g4, g5, rfl⟩ := greedy_some s n r h2
  have hx : '\n' ∉ memText ++ (mid ++ (sizeText ++ (ds ++ mbText))) := by
    simp only [List.mem_append, not_or]
    exact ⟨by decide, g2, by decide, digit_newline g4, by decide⟩
  obtain ⟨b, hb, hr⟩ := prefix_line hx hz (r := r) (by rw [e]; simp)
  exact ⟨mid, ds, b, g1, g3, g4, g5, by rw [hb]; simp, hr⟩

theorem sizes_line {ls : List Str} {ns : List Nat} (h : Sizes ls ns) :
    ∃ xss, List.Forall₂ (LineHas memoryAt) ls xss ∧ xss.flatten = ns := by
  induction h with
  | nil => exact ⟨[], .nil, rfl⟩
  | other l ls ns hl hn _ ih =>
    obtain ⟨xss, h1, h2⟩ := ih
    refine ⟨[] :: xss, .cons (lineHas_none ?_) h1, by simpa using h2⟩
    intro z hz u v e hv
    cases hm : memoryAt (v ++ z) with
    | none => rfl
    | some x =>
      obtain ⟨n, r⟩ := x
      obtain ⟨mid, ds, b, g1, g2, g3, -, rfl, -⟩ := memory_inside hz hm
      exact absurd e (hn u mid ds b g2 g3 g1)
  | region l n ls ns hl hr _ ih =>
    obtain ⟨xss, h1, h2⟩ := ih
    refine ⟨[n] :: xss, .cons ?_ h1, by simp [h2]⟩
    obtain ⟨before, mid, rest, hmid, rfl, hu, hs⟩ := hr
    have hds : ∀ c ∈ Nat.toDigits 10 n, c.isDigit = true := Checksum.digits_digit n
    have hdn : Nat.toDigits 10 n ≠ [] := Nat.toDigits_ne_nil
    simp only [List.mem_append, not_or] at hl
    refine lineHas_one (r := rest) (by simp) (by simp only [List.length_append]; have : memText.length = 6 := by decide
                                                 omega) ?_ ?_ ?_
    · intro z hz u v e hv
      cases hm : memoryAt (v ++ ((memText ++ (mid ++ (sizeText ++
          (Nat.toDigits 10 n ++ (mbText ++ rest))))) ++ z)) with
      | none => rfl
      | some x =>
        exfalso
        rw [← List.append_assoc] at hm
        obtain ⟨k, r⟩ := x
        obtain ⟨mid', ds, b, -, -, -, -, hv', -⟩ := memory_inside hz hm
        have := hu u _ (by rw [← hv', ← List.append_assoc u, ← e])
        rw [this] at e
        have := congrArg List.length e
        rw [List.length_append] at this
        exact hv (List.eq_nil_of_length_eq_zero (by omega))
    · intro z hz
      have hex : memoryAt ((memText ++ (mid ++ (sizeText ++
          (Nat.toDigits 10 n ++ (mbText ++ rest))))) ++ z) ≠ none := by
        rw [memoryAt_eq, List.append_assoc, (literal_spec memText _ _).2 rfl, Option.bind_some]
        have := greedy_exists (Nat.toDigits 10 n) (rest ++ z) hdn hds mid hmid hl.2.2.1
        simpa only [List.append_assoc] using this
      cases hm : memoryAt ((memText ++ (mid ++ (sizeText ++
          (Nat.toDigits 10 n ++ (mbText ++ rest))))) ++ z) with
      | none => exact absurd hm hex
      | some x =>
        obtain ⟨k, r⟩ := x
        obtain ⟨mid', ds, b, g1, g2, g3, rfl, hv', rfl⟩ := memory_inside hz hm
        have h5 := hs (before ++ (memText ++ mid')) (ds ++ (mbText ++ b)) (by
          rw [hv']; simp only [List.append_assoc])
        have h6 : mid' = mid := (List.append_cancel_left_eq memText _ _).mp ((List.append_cancel_left_eq before _ _).mp h5)
        subst h6
        rw [List.append_cancel_left_eq, List.append_cancel_left_eq, List.append_cancel_left_eq] at hv'
        have h7 := hv'
        have t1 := takeWhile_stop (p := Char.isDigit) (a := ds) (c := 'M') (r := ']' :: b) g3 (by decide)
        have t2 := takeWhile_stop (p := Char.isDigit) (a := Nat.toDigits 10 n) (c := 'M') (r := ']' :: rest) hds
          (by decide)
        have h8 : Nat.toDigits 10 n ++ 'M' :: ']' :: rest = ds ++ 'M' :: ']' :: b := h7
        have h9 : Nat.toDigits 10 n = ds := by rw [← t1.1, ← t2.1, h8]
        rw [← h9] at h8 ⊢
        have := List.append_cancel_left h8
        simp only [List.cons.injEq, true_and] at this
        rw [this, Nat.ofDigitChars_ten_toDigits]
    · intro z hz u v e hv
      cases hm : memoryAt (v ++ z) with
      | none => rfl
      | some x =>
        exfalso
        obtain ⟨k, r⟩ := x
        obtain ⟨mid', ds, b, -, -, -, -, hv', -⟩ := memory_inside hz hm
        have := hu (before ++ (memText ++ (mid ++ (sizeText ++
          (Nat.toDigits 10 n ++ (mbText ++ u)))))) (mid' ++ (sizeText ++ (ds ++ (mbText ++ b)))) (by rw [hv'] at e; rw [e]; simp only [List.append_assoc])
        have := congrArg List.length this
        have h6 : memText.length = 6 := by decide
        simp only [List.length_append] at this
        omega

theorem sizes_found {ls : List Str} {ns : List Nat} (h : Sizes ls ns) :
    finditer memoryAt (joinWith '\n' ls).length (joinWith '\n' ls) = ns := by
  obtain ⟨xss, h1, h2⟩ := sizes_line h
  rw [← h2]
  refine finditer_lines ?_ h1 _ (Nat.le_refl _)
  intro y
  rw [memoryAt_eq, show literal memText ('\n' :: y) = none from literal_after (v := []) (by decide) (.inr ⟨y, rfl⟩)
    (by decide)]
  rfl

/-! ## Facts -/

open Verif.Assoc (lk_cons)

/-- The last of some texts, or nothing. -/
def orLast (l : List Str) (o : Option Str) : Option Str := l.getLast?.or o

theorem look_pop (key : Str) (l : List Str) (h : Info) (k : Str) :
    (popTo key l h).lookup k = if k = key then orLast l (h.lookup k) else h.lookup k := by
  unfold popTo orLast
  cases l.getLast? with
  | none => simp
  | some v => rw [lk_cons]; rfl

theorem look_found (key : Str) (m : Option Str) (h : Info) (k : Str) :
    (found key m h).lookup k = if k = key then m.or (h.lookup k) else h.lookup k := by
  unfold found
  cases m with
  | none => simp
  | some v => rw [lk_cons]; rfl

/-- The key of a video device. -/
def videoKey (i : Nat) : Str := "video".toList ++ Nat.toDigits 10 i

theorem videoKey_inj {i j : Nat} (h : videoKey i = videoKey j) : i = j :=
  Checksum.digits_inj ((List.append_cancel_left_eq _ _ _).mp h)

theorem look_videos (j : Nat) : ∀ (l : List Str) (i : Nat) (h : Info),
    (videos i l h).lookup (videoKey j) = if i ≤ j then l[j - i]?.or (h.lookup (videoKey j)) else h.lookup (videoKey j) := by
  intro l
  induction l with
  | nil => intro i h; simp [videos]
  | cons v l ih =>
    intro i h
    rw [videos, ih, lk_cons]
    dsimp only
    rw [show "video".toList ++ Nat.toDigits 10 i = videoKey i from rfl]
    by_cases e : i = j
    · subst e
      rw [if_neg (by omega), if_pos rfl, if_pos (Nat.le_refl _), Nat.sub_self]
      rfl
    · rw [if_neg fun x => e (videoKey_inj x).symm]
      by_cases hl : i ≤ j
      · rw [if_pos (by omega), if_pos hl, show j - i = (j - (i + 1)) + 1 by omega, List.getElem?_cons_succ]
      · rw [if_neg (by omega), if_neg hl]

theorem look_videos_ne {k : Str} (hk : ∀ j, k ≠ videoKey j) : ∀ (l : List Str) (i : Nat) (h : Info),
    (videos i l h).lookup k = h.lookup k := by
  intro l
  induction l with
  | nil => intro i h; rfl
  | cons v l ih =>
    intro i h
    rw [videos, ih, lk_cons]
    exact if_neg (hk i)

theorem not_video {k : Str} (h : k.take 3 ≠ "vid".toList) (j : Nat) : k ≠ videoKey j := by
  rintro rfl
  exact h rfl

/-- What is looked up in the end. -/
theorem look_bt (l : List Rec) (h : Info) (k : Str) : (bluetoothInfo l h).lookup k =
    if k = "bluetooth".toList then ((bluetooth l).filter (· ≠ [])).or (h.lookup k) else h.lookup k := by
  unfold bluetoothInfo
  generalize "bluetooth".toList = key
  cases hb : bluetooth l with
  | none => exact (ite_self _).symm
  | some s =>
    cases s with
    | nil => exact (ite_self _).symm
    | cons c s => dsimp only; rw [lk_cons]; rfl

/-- What is found in lspci, for each key. -/
theorem look_lspci (t : Str) (h : Info) (k : Str) : (lspciInfo t h).lookup k =
    if k = "vram".toList ∧ (finditer memoryAt t.length t).sum ≠ 0 then
      some (Nat.toDigits 10 (finditer memoryAt t.length t).sum ++ " MiB".toList)
    else (videos 1 (finditer (matchAt "VGA compatible controller".toList idTail) t.length t)
      (found "wireless".toList (search (matchAt "Network controller".toList idTail) t)
      (found "nic".toList (search (matchAt "Ethernet controller".toList idTail) t)
      (found "audio".toList (search (matchAt "Audio device".toList idTail) t)
      (found "chipset".toList (search (matchAt "ISA bridge".toList lpcTail) t) h))))).lookup k := by
  unfold lspciInfo
  dsimp only
  generalize "vram".toList = key
  generalize " MiB".toList = unit
  by_cases hv : (finditer memoryAt t.length t).sum = 0
  · rw [if_neg (by simpa using hv), if_neg fun x => x.2 hv]
  · rw [if_pos hv, lk_cons]
    dsimp only
    by_cases hk : k = key
    · rw [if_pos hk, if_pos ⟨hk, hv⟩]
    · rw [if_neg hk, if_neg fun x => hk x.1]

/-- What `collect` is made of. -/
theorem collect_ok {int : Str → Option Int} {d : Data} {h : Info} (e : collect int d = .ok h) :
    ∃ cpus mems, (d.cpuinfo.getD []).mapM processor = .ok cpus ∧ (d.meminfo.getD []).mapM (memory int) = .ok mems ∧
      ((d.lspci = none ∧ h = bluetoothInfo (d.device.getD []) (popTo "memory".toList mems
        (popTo "processors".toList cpus (dmiInfo (d.dmi.getD []) [])))) ∨
      ∃ t, d.lspci = some (some t) ∧ h = bluetoothInfo (d.device.getD []) (popTo "memory".toList mems
        (lspciInfo t (popTo "processors".toList cpus (dmiInfo (d.dmi.getD []) []))))) := by
  unfold collect at e
  cases h1 : (d.cpuinfo.getD []).mapM processor with
  | error x => rw [h1] at e; cases e
  | ok cpus =>
    rw [h1] at e
    cases h2 : (d.meminfo.getD []).mapM (memory int) with
    | error x =>
      rw [h2] at e
      cases h3 : d.lspci with
      | none => rw [h3] at e; cases e
      | some t => rw [h3] at e; cases t <;> cases e
    | ok mems =>
      rw [h2] at e
      refine ⟨cpus, mems, rfl, rfl, ?_⟩
      cases h3 : d.lspci with
      | none => rw [h3] at e; cases e; exact .inl ⟨rfl, rfl⟩
      | some t =>
        rw [h3] at e
        cases t with
        | none => cases e
        | some t => cases e; exact .inr ⟨t, rfl, rfl⟩

/-! ## Cells -/

theorem cell_append (a b : List Cell) (r c : Nat) : cell (a ++ b) r c = (cell b r c).or (cell a r c) := by
  unfold cell
  rw [List.reverse_append, List.find?_append]
  cases List.find? (fun x : Cell => decide (x.1 = r ∧ x.2.1 = c)) b.reverse <;> rfl

theorem cell_cons (x : Cell) (b : List Cell) (r c : Nat) : cell (x :: b) r c =
    (cell b r c).or (if x.1 = r ∧ x.2.1 = c then some x.2.2 else none) := by
  rw [show x :: b = [x] ++ b from rfl, cell_append]
  congr 1
  unfold cell
  by_cases h : x.1 = r ∧ x.2.1 = c
  · rw [if_pos h]; simp [h.1, h.2]
  · rw [if_neg h]; simp [List.find?, h]

theorem cell_none {b : List Cell} {r c : Nat} (h : ∀ x ∈ b, x.1 ≠ r) : cell b r c = none := by
  induction b with
  | nil => rfl
  | cons x b ih =>
    rw [cell_cons, ih fun y hy => h y (List.mem_cons_of_mem _ hy),
      if_neg fun e => h x List.mem_cons_self e.1]
    rfl

theorem packageRows_row : ∀ (l : List Rec) (i : Nat), ∀ x ∈ packageRows i l, 22 + i ≤ x.1 ∧ x.1 < 22 + i + l.length := by
  intro l
  induction l with
  | nil => intro i x hx; cases hx
  | cons p l ih =>
    intro i x hx
    simp only [packageRows, List.mem_cons] at hx
    rcases hx with rfl | rfl | hx
    · simp
    · simp
    · have := ih (i + 1) x hx
      simp only [List.length_cons]
      omega

theorem packageRows_cell : ∀ (l : List Rec) (i j : Nat) (p : Rec), l[j]? = some p →
    cell (packageRows i l) (22 + i + j) 1 = some ((p.find "name").getD []) ∧
    cell (packageRows i l) (22 + i + j) 2 = some ((p.find "version").getD []) := by
  intro l
  induction l with
  | nil => intro i j p h; simp at h
  | cons q l ih =>
    intro i j p h
    rw [packageRows]
    cases j with
    | zero =>
      simp only [List.getElem?_cons_zero, Option.some.injEq] at h
      subst h
      have hn : ∀ c, cell (packageRows (i + 1) l) (22 + i + 0) c = none := fun c => cell_none fun x hx => by
        have := packageRows_row l (i + 1) x hx
        omega
      constructor
      · rw [cell_cons, cell_cons, hn]; simp
      · rw [cell_cons, cell_cons, hn]; simp
    | succ j =>
      rw [List.getElem?_cons_succ] at h
      obtain ⟨h1, h2⟩ := ih (i + 1) j p h
      rw [show 22 + (i + 1) + j = 22 + i + (j + 1) by omega] at h1 h2
      constructor
      · rw [cell_cons, cell_cons, h1]; rfl
      · rw [cell_cons, cell_cons, h2]; rfl

theorem packages_row (tr : Str → Str) (o : Option (List Rec)) : ∀ x ∈ packages tr o, 19 ≤ x.1 := by
  intro x hx
  cases o with
  | none => cases hx
  | some l =>
    simp only [packages, List.mem_cons] at hx
    rcases hx with rfl | rfl | rfl | hx
    · simp
    · simp
    · simp
    · have := packageRows_row l 0 x hx; omega

theorem info_cell {tr : Str → Str} {int : Str → Option Int} {d : Data} {cells : List Cell}
    (h : systemInfo tr int d = .ok cells) : ∃ i, collect int d = .ok i ∧
      ∀ r ∈ rows, cell cells r.1 1 = some (tr r.2.1.toList) ∧ cell cells r.1 2 = some (i.at r.2.2) := by
  unfold systemInfo at h
  cases hc : collect int d with
  | error x => rw [hc] at h; cases h
  | ok i =>
    rw [hc] at h
    cases h
    refine ⟨i, rfl, ?_⟩
    intro r hr
    have hlt : r.1 < 19 := by
      have : ∀ r ∈ rows, r.1 < 19 := by decide
      exact this r hr
    have hp : ∀ c, cell (packages tr d.package) r.1 c = none := fun c => cell_none fun x hx => by
      have := packages_row tr d.package x hx
      omega
    rw [cell_append, cell_append, hp, hp, Option.none_or, Option.none_or]
    simp only [rows, List.mem_cons, List.not_mem_nil, or_false] at hr
    rcases hr with rfl | rfl | rfl | rfl | rfl | rfl | rfl | rfl | rfl | rfl | rfl | rfl <;> exact ⟨rfl, rfl⟩

/-! ## What is collected -/

/-- The texts of the platform. -/
def platforms (dmi : List Rec) : List Str :=
  (dmi.filter fun i => i.find "category" = some "SYSTEM".toList).map fun i =>
    shown (i.find "vendor") ++ ' ' :: (shown (i.find "product") ++ " (".toList ++ shown (i.find "version") ++ ")".toList)

/-- The texts of the BIOS. -/
def bioses (dmi : List Rec) : List Str :=
  (dmi.filter fun i => i.find "category" = some "BIOS".toList).map fun i => shown (i.find "version")

/-- All that is put together, when nothing goes wrong. -/
def allInfo (dmi dev : List Rec) (t : Str) (cpus mems : List Str) : Info :=
  bluetoothInfo dev (popTo "memory".toList mems (lspciInfo t (popTo "processors".toList cpus (dmiInfo dmi []))))

theorem collect_all {int : Str → Option Int} {d : Data} {h : Info} (e : collect int d = .ok h) :
    ∃ cpus mems, (d.cpuinfo.getD []).mapM processor = .ok cpus ∧ (d.meminfo.getD []).mapM (memory int) = .ok mems ∧
      d.lspci ≠ some none ∧
      h = allInfo (d.dmi.getD []) (d.device.getD []) ((d.lspci.getD none).getD []) cpus mems := by
  obtain ⟨cpus, mems, h1, h2, h3⟩ := collect_ok e
  refine ⟨cpus, mems, h1, h2, ?_⟩
  rcases h3 with ⟨hl, rfl⟩ | ⟨t, hl, rfl⟩
  · rw [hl]; exact ⟨nofun, rfl⟩
  · rw [hl]; exact ⟨nofun, rfl⟩

variable (dmi dev : List Rec) (t : Str) (cpus mems : List Str)

/-- Keys that only the text of lspci gives. -/
theorem look_pci {k : Str} (h1 : k ≠ "bluetooth".toList) (h2 : k ≠ "memory".toList) :
    (allInfo dmi dev t cpus mems).lookup k =
      (lspciInfo t (popTo "processors".toList cpus (dmiInfo dmi []))).lookup k := by
  rw [allInfo, look_bt, if_neg h1, look_pop, if_neg h2]

/-- Keys that the text of lspci does not give. -/
theorem look_rest {k : Str} (h1 : k ≠ "bluetooth".toList) (h2 : k ≠ "memory".toList) (h3 : k ≠ "vram".toList)
    (h4 : k.take 3 ≠ "vid".toList) (h5 : k ≠ "wireless".toList) (h6 : k ≠ "nic".toList) (h7 : k ≠ "audio".toList)
    (h8 : k ≠ "chipset".toList) : (allInfo dmi dev t cpus mems).lookup k =
      (popTo "processors".toList cpus (dmiInfo dmi [])).lookup k := by
  rw [look_pci dmi dev t cpus mems h1 h2, look_lspci, if_neg fun x => h3 x.1, look_videos_ne (not_video h4), look_found,
    if_neg h5, look_found, if_neg h6, look_found, if_neg h7, look_found, if_neg h8]

theorem look_dmi (k : Str) : (dmiInfo dmi []).lookup k =
    if k = "bios".toList then orLast (bioses dmi) (if k = "platform".toList then (platforms dmi).getLast? else none)
    else if k = "platform".toList then (platforms dmi).getLast? else none := by
  rw [dmiInfo, look_pop, look_pop]
  show (if _ then orLast _ (if _ then Option.or _ none else none) else if _ then Option.or _ none else none) = _
  rw [Option.or_none]
  rfl

theorem look_platform : (allInfo dmi dev t cpus mems).lookup "platform".toList = (platforms dmi).getLast? := by
  rw [look_rest _ _ _ _ _ (by decide +kernel) (by decide +kernel) (by decide +kernel) (by decide +kernel)
    (by decide +kernel) (by decide +kernel) (by decide +kernel) (by decide +kernel), look_pop,
    if_neg (by decide +kernel), look_dmi, if_neg (by decide +kernel), if_pos rfl]

theorem look_bios : (allInfo dmi dev t cpus mems).lookup "bios".toList = (bioses dmi).getLast? := by
  rw [look_rest _ _ _ _ _ (by decide +kernel) (by decide +kernel) (by decide +kernel) (by decide +kernel)
    (by decide +kernel) (by decide +kernel) (by decide +kernel) (by decide +kernel), look_pop,
    if_neg (by decide +kernel), look_dmi, if_pos rfl, if_neg (by decide +kernel), orLast, Option.or_none]

theorem look_cpu : (allInfo dmi dev t cpus mems).lookup "processors".toList = cpus.getLast? := by
  rw [look_rest _ _ _ _ _ (by decide +kernel) (by decide +kernel) (by decide +kernel) (by decide +kernel)
    (by decide +kernel) (by decide +kernel) (by decide +kernel) (by decide +kernel), look_pop,
    if_pos rfl, look_dmi, if_neg (by decide +kernel), if_neg (by decide +kernel), orLast, Option.or_none]

/-- Before lspci is read nothing else is known. -/
theorem look_before {k : Str} (h1 : k ≠ "processors".toList) (h2 : k ≠ "bios".toList) (h3 : k ≠ "platform".toList) :
    (popTo "processors".toList cpus (dmiInfo dmi [])).lookup k = none := by
  rw [look_pop, if_neg h1, look_dmi, if_neg h2, if_neg h3]

theorem look_memory : (allInfo dmi dev t cpus mems).lookup "memory".toList = mems.getLast? := by
  rw [allInfo, look_bt, if_neg (by decide +kernel), look_pop, if_pos rfl, look_lspci,
    if_neg (fun x => absurd x.1 (by decide +kernel)), look_videos_ne (not_video (by decide +kernel)), look_found,
    if_neg (by decide +kernel), look_found, if_neg (by decide +kernel), look_found, if_neg (by decide +kernel),
    look_found, if_neg (by decide +kernel), look_before _ _ (by decide +kernel) (by decide +kernel)
    (by decide +kernel), orLast, Option.or_none]

theorem look_bluetooth : (allInfo dmi dev t cpus mems).lookup "bluetooth".toList = (bluetooth dev).filter (· ≠ []) := by
  rw [allInfo, look_bt, if_pos rfl, look_pop, if_neg (by decide +kernel), look_lspci,
    if_neg (fun x => absurd x.1 (by decide +kernel)), look_videos_ne (not_video (by decide +kernel)), look_found,
    if_neg (by decide +kernel), look_found, if_neg (by decide +kernel), look_found, if_neg (by decide +kernel),
    look_found, if_neg (by decide +kernel), look_before _ _ (by decide +kernel) (by decide +kernel)
    (by decide +kernel), Option.or_none]

theorem look_chipset : (allInfo dmi dev t cpus mems).lookup "chipset".toList =
    search (matchAt "ISA bridge".toList lpcTail) t := by
  rw [look_pci _ _ _ _ _ (by decide +kernel) (by decide +kernel), look_lspci,
    if_neg (fun x => absurd x.1 (by decide +kernel)), look_videos_ne (not_video (by decide +kernel)), look_found,
    if_neg (by decide +kernel), look_found, if_neg (by decide +kernel), look_found, if_neg (by decide +kernel),
    look_found, if_pos rfl, look_before _ _ (by decide +kernel) (by decide +kernel)
    (by decide +kernel), Option.or_none]

theorem look_audio : (allInfo dmi dev t cpus mems).lookup "audio".toList =
    search (matchAt "Audio device".toList idTail) t := by
  rw [look_pci _ _ _ _ _ (by decide +kernel) (by decide +kernel), look_lspci,
    if_neg (fun x => absurd x.1 (by decide +kernel)), look_videos_ne (not_video (by decide +kernel)), look_found,
    if_neg (by decide +kernel), look_found, if_neg (by decide +kernel), look_found, if_pos rfl,
    look_found, if_neg (by decide +kernel), look_before _ _ (by decide +kernel) (by decide +kernel)
    (by decide +kernel), Option.or_none]

theorem look_nic : (allInfo dmi dev t cpus mems).lookup "nic".toList =
    search (matchAt "Ethernet controller".toList idTail) t := by
  rw [look_pci _ _ _ _ _ (by decide +kernel) (by decide +kernel), look_lspci,
    if_neg (fun x => absurd x.1 (by decide +kernel)), look_videos_ne (not_video (by decide +kernel)), look_found,
    if_neg (by decide +kernel), look_found, if_pos rfl, look_found, if_neg (by decide +kernel),
    look_found, if_neg (by decide +kernel), look_before _ _ (by decide +kernel) (by decide +kernel)
    (by decide +kernel), Option.or_none]

theorem look_wireless : (allInfo dmi dev t cpus mems).lookup "wireless".toList =
    search (matchAt "Network controller".toList idTail) t := by
  rw [look_pci _ _ _ _ _ (by decide +kernel) (by decide +kernel), look_lspci,
    if_neg (fun x => absurd x.1 (by decide +kernel)), look_videos_ne (not_video (by decide +kernel)), look_found,
    if_pos rfl, look_found, if_neg (by decide +kernel), look_found, if_neg (by decide +kernel),
    look_found, if_neg (by decide +kernel), look_before _ _ (by decide +kernel) (by decide +kernel)
    (by decide +kernel), Option.or_none]

theorem look_video {k : Str} {j : Nat} (hk : k = videoKey j) (hj : 1 ≤ j) (h1 : k ≠ "bluetooth".toList)
    (h2 : k ≠ "memory".toList) (h3 : k ≠ "vram".toList) (h5 : k ≠ "wireless".toList) (h6 : k ≠ "nic".toList)
    (h7 : k ≠ "audio".toList) (h8 : k ≠ "chipset".toList) (h9 : k ≠ "processors".toList) (h10 : k ≠ "bios".toList)
    (h11 : k ≠ "platform".toList) : (allInfo dmi dev t cpus mems).lookup k =
      (finditer (matchAt "VGA compatible controller".toList idTail) t.length t)[j - 1]? := by
  rw [look_pci _ _ _ _ _ h1 h2, look_lspci, if_neg (fun x => h3 x.1)]
  subst hk
  rw [look_videos, if_pos hj, look_found, if_neg h5, look_found, if_neg h6, look_found, if_neg h7, look_found,
    if_neg h8, look_before _ _ h9 h10 h11, Option.or_none]

theorem look_vram : (allInfo dmi dev t cpus mems).lookup "vram".toList =
    if (finditer memoryAt t.length t).sum = 0 then none
    else some (Nat.toDigits 10 (finditer memoryAt t.length t).sum ++ " MiB".toList) := by
  rw [look_pci _ _ _ _ _ (by decide +kernel) (by decide +kernel), look_lspci]
  by_cases hv : (finditer memoryAt t.length t).sum = 0
  · rw [if_neg (fun x => x.2 hv), if_pos hv, look_videos_ne (not_video (by decide +kernel)), look_found,
    if_neg (by decide +kernel), look_found, if_neg (by decide +kernel), look_found, if_neg (by decide +kernel),
    look_found, if_neg (by decide +kernel), look_before _ _ (by decide +kernel) (by decide +kernel)
    (by decide +kernel)]
  · rw [if_pos ⟨rfl, hv⟩, if_neg hv]

theorem at_eq (h : Info) (k : String) : h.at k = (h.lookup k.toList).getD "NA".toList := by
  unfold Info.at
  cases h.lookup k.toList <;> rfl

/-- The twelve rows of the table. -/
theorem twelve {tr : Str → Str} {int : Str → Option Int} {d : Data} {cells : List Cell}
    (h : systemInfo tr int d = .ok cells) : ∃ cpus mems, (d.cpuinfo.getD []).mapM processor = .ok cpus ∧
      (d.meminfo.getD []).mapM (memory int) = .ok mems ∧ d.lspci ≠ some none ∧
      ∀ r ∈ rows, cell cells r.1 1 = some (tr r.2.1.toList) ∧ cell cells r.1 2 = some (((allInfo (d.dmi.getD [])
        (d.device.getD []) ((d.lspci.getD none).getD []) cpus mems).lookup r.2.2.toList).getD "NA".toList) := by
  obtain ⟨i, hc, hr⟩ := info_cell h
  obtain ⟨cpus, mems, h1, h2, h3, rfl⟩ := collect_all hc
  refine ⟨cpus, mems, h1, h2, h3, fun r hm => ?_⟩
  rw [← at_eq]
  exact hr r hm

/-! ## Theorems -/

/-- What the row of the video memory shows. -/
def Vram (total : Nat) (s : Str) : Prop :=
  s = if total = 0 then "NA".toList else Nat.toDigits 10 total ++ " MiB".toList

/-- **C132**: the rows of the devices show what lspci says: the first ISA bridge, audio device, Ethernet controller
and network controller, the first and the second VGA controller, and the sum of the memory which can be prefetched
and whose size is given in mebibytes; a device that lspci does not have is shown as NA.  Missing: that the video
memory is the one of the video devices, and that the add-on card is shown whatever its class is (see the
violations). -/
theorem C132_devices_partial {tr : Str → Str} {int : Str → Option Int} {d : Data} {cells : List Cell} {ls : List Str}
    (hl : d.lspci = some (some (joinWith '\n' ls))) (h : systemInfo tr int d = .ok cells)
    {chip audio nic wireless vga : List Str} {mem : List Nat}
    (hchip : Names Lpc "ISA bridge".toList ls chip) (haudio : Names Ids "Audio device".toList ls audio)
    (hnic : Names Ids "Ethernet controller".toList ls nic)
    (hwl : Names Ids "Network controller".toList ls wireless)
    (hvga : Names Ids "VGA compatible controller".toList ls vga) (hmem : Sizes ls mem) :
    cell cells 9 2 = some (chip.head?.getD "NA".toList) ∧
    cell cells 11 2 = some (vga[0]?.getD "NA".toList) ∧
    cell cells 12 2 = some (vga[1]?.getD "NA".toList) ∧
    (∃ s, cell cells 13 2 = some s ∧ Vram mem.sum s) ∧
    cell cells 14 2 = some (audio.head?.getD "NA".toList) ∧
    cell cells 15 2 = some (nic.head?.getD "NA".toList) ∧
    cell cells 16 2 = some (wireless.head?.getD "NA".toList) := by
  obtain ⟨cpus, mems, -, -, -, hr⟩ := twelve h
  rw [hl] at hr
  simp only [Option.getD_some] at hr
  refine ⟨?_, ?_, ?_, ?_, ?_, ?_, ?_⟩
  · refine (hr (9, "Chipset", "chipset") (by simp [rows])).2.trans ?_
    dsimp only
    rw [look_chipset, (names_found lpc_ends (by decide +kernel) (by decide +kernel) hchip).2]
  · refine (hr (11, "Video (on board)", "video1") (by simp [rows])).2.trans ?_
    dsimp only
    rw [look_video (j := 1) _ _ _ _ _ (by decide +kernel) (by decide) (by decide +kernel) (by decide +kernel)
      (by decide +kernel) (by decide +kernel) (by decide +kernel) (by decide +kernel) (by decide +kernel)
      (by decide +kernel) (by decide +kernel) (by decide +kernel),
      (names_found ids_ends (by decide +kernel) (by decide +kernel) hvga).1]
  · refine (hr (12, "Video (add-on)", "video2") (by simp [rows])).2.trans ?_
    dsimp only
    rw [look_video (j := 2) _ _ _ _ _ (by decide +kernel) (by decide) (by decide +kernel) (by decide +kernel)
      (by decide +kernel) (by decide +kernel) (by decide +kernel) (by decide +kernel) (by decide +kernel)
      (by decide +kernel) (by decide +kernel) (by decide +kernel),
      (names_found ids_ends (by decide +kernel) (by decide +kernel) hvga).1]
  · refine ⟨_, (hr (13, "Video memory", "vram") (by simp [rows])).2, ?_⟩
    dsimp only
    rw [look_vram, sizes_found hmem, Vram]
    by_cases h0 : mem.sum = 0
    · rw [if_pos h0, if_pos h0]; rfl
    · rw [if_neg h0, if_neg h0]; rfl
  · refine (hr (14, "Audio", "audio") (by simp [rows])).2.trans ?_
    dsimp only
    rw [look_audio, (names_found ids_ends (by decide +kernel) (by decide +kernel) haudio).2]
  · refine (hr (15, "NIC", "nic") (by simp [rows])).2.trans ?_
    dsimp only
    rw [look_nic, (names_found ids_ends (by decide +kernel) (by decide +kernel) hnic).2]
  · refine (hr (16, "Wireless", "wireless") (by simp [rows])).2.trans ?_
    dsimp only
    rw [look_wireless, (names_found ids_ends (by decide +kernel) (by decide +kernel) hwl).2]

/-! ### Resources -/

theorem last_filter {α β : Type} (p : α → Prop) [DecidablePred p] (f : α → β) {l : List α} {r : α} (h : Last p l r) :
    ((l.filter fun x => p x).map f).getLast? = some (f r) := by
  obtain ⟨a, b, rfl, hp, hb⟩ := h
  have : b.filter (fun x => p x) = [] := by
    rw [List.filter_eq_nil_iff]
    intro x hx
    simpa using hb x hx
  rw [List.filter_append, List.filter_cons_of_pos (by simpa using hp), this]
  simp

theorem none_filter {α β : Type} (p : α → Prop) [DecidablePred p] (f : α → β) {l : List α} (h : ∀ x ∈ l, ¬ p x) :
    ((l.filter fun x => p x).map f).getLast? = none := by
  rw [List.filter_eq_nil_iff.2 fun x hx => by simpa using h x hx]
  rfl

theorem mapM_append_last {α β ε : Type} {f : α → Except ε β} {a : List α} {r : α} {ys : List β}
    (h : (a ++ [r]).mapM f = .ok ys) : ∃ y, f r = .ok y ∧ ys.getLast? = some y := by
  rw [List.mapM_append] at h
  cases h1 : a.mapM f with
  | error x => rw [h1] at h; cases h
  | ok zs =>
    rw [h1] at h
    cases h2 : f r with
    | error x => simp [List.mapM_cons, h2, bind, Except.bind] at h
    | ok y =>
      simp [List.mapM_cons, h2, bind, Except.bind, pure, Except.pure] at h
      exact ⟨y, rfl, by rw [← h]; simp⟩

/-- A text that tells a number of bytes in gibibytes, with one digit after the point, to the nearest. -/
def Gib (n : Nat) (s : Str) : Prop :=
  ∃ q m, m < 10 ∧ s = Nat.toDigits 10 q ++ '.' :: (Nat.toDigits 10 m ++ " GiB".toList) ∧
    2 * (10 * n) ≤ (2 * (10 * q + m) + 1) * 2 ^ 30 ∧ (2 * (10 * q + m)) * 2 ^ 30 ≤ 2 * (10 * n) + 2 ^ 30

theorem round_near (a : Nat) {b : Nat} (hb : 0 < b) :
    2 * a ≤ (2 * round a b + 1) * b ∧ 2 * round a b * b ≤ 2 * a + b := by
  have hd := Nat.div_add_mod a b
  have hm := Nat.mod_lt a hb
  have key : ∀ r, r * b = b * r := fun r => Nat.mul_comm _ _
  unfold round
  generalize a / b = q at *
  generalize a % b = m at *
  have e1 : (2 * q + 1) * b = 2 * (b * q) + b := by rw [Nat.add_mul, Nat.mul_assoc, key q]; omega
  have e2 : 2 * q * b = 2 * (b * q) := by rw [Nat.mul_assoc, key q]
  have e3 : (2 * (q + 1) + 1) * b = 2 * (b * q) + 3 * b := by
    rw [show 2 * (q + 1) + 1 = 2 * q + 3 by omega, Nat.add_mul, Nat.mul_assoc, key q]
  have e4 : 2 * (q + 1) * b = 2 * (b * q) + 2 * b := by
    rw [show 2 * (q + 1) = 2 * q + 2 by omega, Nat.add_mul, Nat.mul_assoc, key q]
  split
  · rw [e1, e2]; omega
  · split
    · rw [e1, e2]; omega
    · rw [e3, e4]; omega

theorem gib_spec (n : Nat) : Gib n (gib (n : Int)) := by
  have hr := round_near (10 * n) (b := 1073741824) (by decide)
  refine ⟨round (10 * n) 1073741824 / 10, round (10 * n) 1073741824 % 10, Nat.mod_lt _ (by decide), ?_, ?_⟩
  · unfold gib
    rw [if_neg (by omega), Int.natAbs_natCast]
    rfl
  · rw [Nat.div_add_mod]
    exact hr

theorem bluetooth_first {r : Rec} {s : Str} (hr : r.find "category" = some "BLUETOOTH".toList)
    (hs : r.find "product" = some s ∨ r.find "product" = none ∧ r.find "path" = some s) (b : List Rec) :
    ∀ a : List Rec, (∀ x ∈ a, x.find "category" = some "BLUETOOTH".toList →
      x.find "product" = none ∧ x.find "path" = none) → bluetooth (a ++ r :: b) = some s := by
  intro a
  induction a with
  | nil =>
    intro _
    rw [List.nil_append, bluetooth, if_neg (fun x => x hr)]
    rcases hs with h | ⟨h1, h2⟩
    · rw [h]
    · rw [h1, h2]
  | cons x a ih =>
    intro h
    rw [List.cons_append, bluetooth]
    by_cases hx : x.find "category" = some "BLUETOOTH".toList
    · obtain ⟨h1, h2⟩ := h x List.mem_cons_self hx
      rw [if_neg (fun y => y hx), h1, h2]
      exact ih fun y hy => h y (List.mem_cons_of_mem _ hy)
    · rw [if_pos hx]
      exact ih fun y hy => h y (List.mem_cons_of_mem _ hy)

theorem bluetooth_none : ∀ a : List Rec, (∀ x ∈ a, x.find "category" = some "BLUETOOTH".toList →
    x.find "product" = none ∧ x.find "path" = none) → bluetooth a = none := by
  intro a
  induction a with
  | nil => intro _; rfl
  | cons x a ih =>
    intro h
    rw [bluetooth]
    by_cases hx : x.find "category" = some "BLUETOOTH".toList
    · obtain ⟨h1, h2⟩ := h x List.mem_cons_self hx
      rw [if_neg (fun y => y hx), h1, h2]
      exact ih fun y hy => h y (List.mem_cons_of_mem _ hy)
    · rw [if_pos hx]
      exact ih fun y hy => h y (List.mem_cons_of_mem _ hy)

/-- **C132**: the platform is what the last DMI record of the system says, the BIOS the version of the last one of
the BIOS, the processors the model and the count of the last record of the processors, the memory the last total
in gibibytes, to the nearest tenth, and the Bluetooth device the product, or else the path, of the first Bluetooth
device that has one; without such a record the row shows NA.  Missing: platforms with fields that are not there,
and all the processors but the last (see the violations). -/
theorem C132_resources_partial {tr : Str → Str} {int : Str → Option Int} {d : Data} {cells : List Cell}
    (h : systemInfo tr int d = .ok cells) :
    (∀ r v p n, Last (fun x : Rec => x.find "category" = some "SYSTEM".toList) (d.dmi.getD []) r →
      r.find "vendor" = some v → r.find "product" = some p → r.find "version" = some n →
      cell cells 5 2 = some (v ++ ' ' :: (p ++ ' ' :: '(' :: (n ++ [')'])))) ∧
    ((∀ r ∈ d.dmi.getD [], r.find "category" ≠ some "SYSTEM".toList) → cell cells 5 2 = some "NA".toList) ∧
    (∀ r n, Last (fun x : Rec => x.find "category" = some "BIOS".toList) (d.dmi.getD []) r →
      r.find "version" = some n → cell cells 7 2 = some n) ∧
    ((∀ r ∈ d.dmi.getD [], r.find "category" ≠ some "BIOS".toList) → cell cells 7 2 = some "NA".toList) ∧
    (∀ a r m c, d.cpuinfo.getD [] = a ++ [r] → r.find "model" = some m → r.find "count" = some c →
      cell cells 8 2 = some (m ++ ' ' :: 'x' :: ' ' :: c)) ∧
    (d.cpuinfo.getD [] = [] → cell cells 8 2 = some "NA".toList) ∧
    (∀ a r t (n : Nat), d.meminfo.getD [] = a ++ [r] → r.find "total" = some t → int t = some (n : Int) →
      ∃ s, cell cells 10 2 = some s ∧ Gib n s) ∧
    (d.meminfo.getD [] = [] → cell cells 10 2 = some "NA".toList) ∧
    (∀ a r b s, d.device.getD [] = a ++ r :: b → r.find "category" = some "BLUETOOTH".toList →
      (r.find "product" = some s ∨ r.find "product" = none ∧ r.find "path" = some s) →
      (∀ x ∈ a, x.find "category" = some "BLUETOOTH".toList → x.find "product" = none ∧ x.find "path" = none) →
      cell cells 17 2 = some (if s = [] then "NA".toList else s)) ∧
    ((∀ x ∈ d.device.getD [], x.find "category" = some "BLUETOOTH".toList →
      x.find "product" = none ∧ x.find "path" = none) → cell cells 17 2 = some "NA".toList) := by
  obtain ⟨cpus, mems, hc, hm, -, hr⟩ := twelve h
  have h5 := (hr (5, "Platform Name", "platform") (by simp [rows])).2
  have h7 := (hr (7, "BIOS", "bios") (by simp [rows])).2
  have h8 := (hr (8, "Processors", "processors") (by simp [rows])).2
  have h10 := (hr (10, "Memory", "memory") (by simp [rows])).2
  have h17 := (hr (17, "Bluetooth", "bluetooth") (by simp [rows])).2
  dsimp only at h5 h7 h8 h10 h17
  rw [look_platform] at h5
  rw [look_bios] at h7
  rw [look_cpu] at h8
  rw [look_memory] at h10
  rw [look_bluetooth] at h17
  refine ⟨?_, ?_, ?_, ?_, ?_, ?_, ?_, ?_, ?_, ?_⟩
  · intro r v p n hl h1 h2 h3
    rw [h5, platforms, last_filter _ _ hl]
    rw [h1, h2, h3]
    simp [shown]
  · intro hn
    rw [h5, platforms, none_filter _ _ hn]
    rfl
  · intro r n hl h3
    rw [h7, bioses, last_filter _ _ hl, h3]
    rfl
  · intro hn
    rw [h7, bioses, none_filter _ _ hn]
    rfl
  · intro a r m c e h1 h2
    rw [e] at hc
    obtain ⟨y, hy, hl⟩ := mapM_append_last hc
    rw [processor, h1, h2] at hy
    cases hy
    rw [h8, hl]
    simp
  · intro e
    rw [e] at hc
    cases hc
    rw [h8]
    rfl
  · intro a r t n e h1 h2
    rw [e] at hm
    obtain ⟨y, hy, hl⟩ := mapM_append_last hm
    simp only [memory, h1, h2] at hy
    cases hy
    exact ⟨_, by rw [h10, hl]; rfl, gib_spec n⟩
  · intro e
    rw [e] at hm
    cases hm
    rw [h10]
    rfl
  · intro a r b s e h1 h2 h3
    rw [h17, e, bluetooth_first h1 h2 b a h3]
    cases s with
    | nil => rfl
    | cons c s => rfl
  · intro hn
    rw [h17, bluetooth_none _ hn]
    rfl

/-! ### Titles and packages -/

/-- **C132**: every row has its title, in the language of the user. -/
theorem C132_titles {tr : Str → Str} {int : Str → Option Int} {d : Data} {cells : List Cell}
    (h : systemInfo tr int d = .ok cells) :
    cell cells 5 1 = some (tr "Platform Name".toList) ∧ cell cells 7 1 = some (tr "BIOS".toList) ∧
    cell cells 8 1 = some (tr "Processors".toList) ∧ cell cells 9 1 = some (tr "Chipset".toList) ∧
    cell cells 10 1 = some (tr "Memory".toList) ∧ cell cells 11 1 = some (tr "Video (on board)".toList) ∧
    cell cells 12 1 = some (tr "Video (add-on)".toList) ∧ cell cells 13 1 = some (tr "Video memory".toList) ∧
    cell cells 14 1 = some (tr "Audio".toList) ∧ cell cells 15 1 = some (tr "NIC".toList) ∧
    cell cells 16 1 = some (tr "Wireless".toList) ∧ cell cells 17 1 = some (tr "Bluetooth".toList) := by
  obtain ⟨cpus, mems, -, -, -, hr⟩ := twelve h
  exact ⟨(hr (5, "Platform Name", "platform") (by simp [rows])).1, (hr (7, "BIOS", "bios") (by simp [rows])).1,
    (hr (8, "Processors", "processors") (by simp [rows])).1, (hr (9, "Chipset", "chipset") (by simp [rows])).1,
    (hr (10, "Memory", "memory") (by simp [rows])).1, (hr (11, "Video (on board)", "video1") (by simp [rows])).1,
    (hr (12, "Video (add-on)", "video2") (by simp [rows])).1, (hr (13, "Video memory", "vram") (by simp [rows])).1,
    (hr (14, "Audio", "audio") (by simp [rows])).1, (hr (15, "NIC", "nic") (by simp [rows])).1,
    (hr (16, "Wireless", "wireless") (by simp [rows])).1, (hr (17, "Bluetooth", "bluetooth") (by simp [rows])).1⟩

theorem rows_low {tr : Str → Str} {i : Info} :
    ∀ x ∈ rows.flatMap fun r => [((r.1, 1, tr r.2.1.toList) : Cell), (r.1, 2, i.at r.2.2)], x.1 < 18 := by
  intro x hx
  obtain ⟨r, hr, hx⟩ := List.mem_flatMap.1 hx
  have h18 : ∀ r ∈ rows, r.1 < 18 := by decide
  have := h18 r hr
  simp only [List.mem_cons, List.not_mem_nil, or_false] at hx
  rcases hx with rfl | rfl <;> exact this

/-- **C132**: every installed package has its own row, name and version, in the order of the records, and nothing is
written below the last one; a session without the resource has no table of packages. -/
theorem C132_packages {tr : Str → Str} {int : Str → Option Int} {d : Data} {cells : List Cell}
    (h : systemInfo tr int d = .ok cells) :
    (∀ l, d.package = some l →
      cell cells 19 1 = some (tr "Packages Installed".toList) ∧ cell cells 21 1 = some (tr "Name".toList) ∧
      cell cells 21 2 = some (tr "Version".toList) ∧
      (∀ i p n v, l[i]? = some p → p.find "name" = some n → p.find "version" = some v →
        cell cells (22 + i) 1 = some n ∧ cell cells (22 + i) 2 = some v) ∧
      ∀ i c, l.length ≤ i → cell cells (22 + i) c = none) ∧
    (d.package = none → ∀ r c, 18 ≤ r → cell cells r c = none) := by
  unfold systemInfo at h
  cases hc : collect int d with
  | error x => rw [hc] at h; cases h
  | ok i =>
    rw [hc] at h
    cases h
    have low : ∀ r c, 18 ≤ r → cell (rows.flatMap fun r => [((r.1, 1, tr r.2.1.toList) : Cell), (r.1, 2, i.at r.2.2)]) r c
        = none := fun r c hr => cell_none fun x hx => by
      have := rows_low x hx
      omega
    refine ⟨fun l hl => ?_, fun hn r c hr => ?_⟩
    · rw [hl]
      have hp : ∀ r c, r < 22 → cell (packageRows 0 l) r c = none := fun r c hr => cell_none fun x hx => by
        have := packageRows_row l 0 x hx
        omega
      have above : ∀ r c, 22 ≤ r → cell (packages tr (some l)) r c = cell (packageRows 0 l) r c := by
        intro r c hr
        rw [packages, cell_cons, cell_cons, cell_cons, if_neg (by intro e; have := e.1; dsimp only at this; omega),
          if_neg (by intro e; have := e.1; dsimp only at this; omega),
          if_neg (by intro e; have := e.1; dsimp only at this; omega)]
        simp
      refine ⟨?_, ?_, ?_, ?_, ?_⟩
      · rw [cell_append, packages, cell_cons, cell_cons, cell_cons, hp _ _ (by decide)]; rfl
      · rw [cell_append, packages, cell_cons, cell_cons, cell_cons, hp _ _ (by decide)]; rfl
      · rw [cell_append, packages, cell_cons, cell_cons, cell_cons, hp _ _ (by decide)]; rfl
      · intro j p n v hj h1 h2
        have := packageRows_cell l 0 j p hj
        rw [h1, h2, Nat.add_zero] at this
        constructor
        · rw [cell_append, above _ _ (by omega), this.1]; rfl
        · rw [cell_append, above _ _ (by omega), this.2]; rfl
      · intro j c hj
        rw [cell_append, above _ _ (by omega), low _ _ (by omega), cell_none fun x hx => by
          have := packageRows_row l 0 x hx
          omega]
        rfl
    · rw [hn, cell_append, low _ _ hr]
      rfl

/-! ### Failures -/

theorem mapM_error {α β ε : Type} {f : α → Except ε β} : ∀ {l : List α},
    (∃ x, l.mapM f = .error x) ↔ ∃ a ∈ l, ∃ x, f a = .error x := by
  intro l
  induction l with
  | nil =>
    constructor
    · rintro ⟨x, h⟩; cases h
    · rintro ⟨a, h, _⟩; cases h
  | cons b l ih =>
    rw [List.mapM_cons]
    cases hb : f b with
    | error x =>
      exact ⟨fun _ => ⟨b, List.mem_cons_self, x, hb⟩, fun _ => ⟨x, rfl⟩⟩
    | ok y =>
      cases hl : l.mapM f with
      | error x =>
        obtain ⟨a, ha, hx⟩ := ih.1 ⟨x, hl⟩
        exact ⟨fun _ => ⟨a, List.mem_cons_of_mem _ ha, hx⟩, fun _ => ⟨x, rfl⟩⟩
      | ok ys =>
        constructor
        · rintro ⟨x, h⟩; cases h
        · rintro ⟨a, ha, x, hx⟩
          rcases List.mem_cons.1 ha with rfl | ha
          · rw [hb] at hx; cases hx
          · obtain ⟨z, hz⟩ := ih.2 ⟨a, ha, x, hx⟩
            rw [hl] at hz
            cases hz

/-- **C132**: there is no report at all exactly when a record of the processors has no model or no count, the
attachment of lspci is not UTF-8, or a record of the memory has no total or one that is not a number. -/
theorem C132_fails {tr : Str → Str} {int : Str → Option Int} {d : Data} :
    (∃ x, systemInfo tr int d = .error x) ↔
      (∃ r ∈ d.cpuinfo.getD [], r.find "model" = none ∨ r.find "count" = none) ∨ d.lspci = some none ∨
      ∃ r ∈ d.meminfo.getD [], r.find "total" = none ∨ ∃ t, r.find "total" = some t ∧ int t = none := by
  have e1 : (∃ r ∈ d.cpuinfo.getD [], r.find "model" = none ∨ r.find "count" = none) ↔
      ∃ x, (d.cpuinfo.getD []).mapM processor = .error x := by
    rw [mapM_error]
    refine exists_congr fun r => and_congr_right fun _ => ?_
    unfold processor
    cases r.find "model" <;> cases r.find "count" <;> simp
  have e2 : (∃ r ∈ d.meminfo.getD [], r.find "total" = none ∨ ∃ t, r.find "total" = some t ∧ int t = none) ↔
      ∃ x, (d.meminfo.getD []).mapM (memory int) = .error x := by
    rw [mapM_error]
    refine exists_congr fun r => and_congr_right fun _ => ?_
    unfold memory
    cases r.find "total" with
    | none => simp
    | some t => cases ht : int t <;> simp [ht]
  rw [e1, e2]
  have e3 : (∃ x, systemInfo tr int d = .error x) ↔ ∃ x, collect int d = .error x := by
    unfold systemInfo
    cases collect int d <;> simp
  rw [e3]
  unfold collect
  cases h1 : (d.cpuinfo.getD []).mapM processor with
  | error x => exact ⟨fun _ => .inl ⟨x, rfl⟩, fun _ => ⟨x, rfl⟩⟩
  | ok cpus =>
    cases h3 : d.lspci with
    | none =>
      cases h2 : (d.meminfo.getD []).mapM (memory int) with
      | error x => exact ⟨fun _ => .inr (.inr ⟨x, rfl⟩), fun _ => ⟨x, rfl⟩⟩
      | ok mems => exact ⟨fun ⟨x, h⟩ => (nomatch h), fun h => by rcases h with ⟨x, h⟩ | h | ⟨x, h⟩ <;> cases h⟩
    | some o =>
      cases o with
      | none => exact ⟨fun _ => .inr (.inl rfl), fun _ => ⟨.unicode, rfl⟩⟩
      | some t =>
        cases h2 : (d.meminfo.getD []).mapM (memory int) with
        | error x => exact ⟨fun _ => .inr (.inr ⟨x, rfl⟩), fun _ => ⟨x, rfl⟩⟩
        | ok mems => exact ⟨fun ⟨x, h⟩ => (nomatch h), fun h => by rcases h with ⟨x, h⟩ | h | ⟨x, h⟩ <;> cases h⟩

/-- **C132**: a session that has run nothing still gets its sheet, with NA in every row. -/
theorem C132_missing (tr : Str → Str) (int : Str → Option Int) :
    ∃ cells, systemInfo tr int ⟨none, none, none, none, none, none⟩ = .ok cells ∧
      ∀ r ∈ [5, 7, 8, 9, 10, 11, 12, 13, 14, 15, 16, 17], cell cells r 2 = some "NA".toList := by
  refine ⟨_, rfl, ?_⟩
  intro r hr
  simp only [List.mem_cons, List.not_mem_nil, or_false] at hr
  rcases hr with rfl | rfl | rfl | rfl | rfl | rfl | rfl | rfl | rfl | rfl | rfl | rfl <;> rfl

/-! ### A machine -/

theorem once_of {cls l before : Str}
    (hb : before <+: l) (h : (List.range (l.length + 1)).filter (fun i => cls.isPrefixOf (l.drop i)) = [before.length]) :
    ∀ a b, l = a ++ (cls ++ b) → a = before := by
  intro a b e
  have hm : a.length ∈ (List.range (l.length + 1)).filter (fun i => cls.isPrefixOf (l.drop i)) := by
    rw [List.mem_filter, List.mem_range, e, List.drop_left]
    refine ⟨by simp only [List.length_append]; omega, ?_⟩
    rw [List.isPrefixOf_iff_prefix]
    exact List.prefix_append _ _
  rw [h, List.mem_singleton] at hm
  obtain ⟨z, rfl⟩ := hb
  exact (List.append_inj e.symm hm).1

theorem device_of {tail : Str → Option Str} {T : Str → Prop} (ht : Ends tail T) {cls name l : Str}
    (before mid ids rest : Str) (hl : l = before ++ (cls ++ (mid ++ ':' :: ' ' :: (name ++ (ids ++ rest)))))
    (hm : ':' ∉ mid) (hi : T ids)
    (h1 : (List.range (l.length + 1)).filter (fun i => cls.isPrefixOf (l.drop i)) = [before.length])
    (h2 : ∀ i ∈ List.range name.length, tail ((name ++ (ids ++ rest)).drop i) = none) : Device T cls name l := by
  refine ⟨before, mid, ids, rest, hl, hm, hi, once_of ⟨_, hl.symm⟩ h1, fun a t b hT e => ?_⟩
  refine Nat.le_of_not_lt fun hlt => ?_
  have := h2 a.length (List.mem_range.2 hlt)
  rw [e, List.drop_left, (ht.1 _ _).2 ⟨t, hT, rfl⟩] at this
  cases this

/-- The lines of lspci. -/
def exLs : List Str :=
  ["1f ISA bridge [0601]: Intel QM57 LPC Interface [8086:3b07]".toList,
   "1b Audio device [0403]: Intel 5 Series [8086:3b57] (rev 06)".toList,
   "02 VGA compatible controller [0300]: Intel Core [8086:0046]".toList,
   "\tMemory at d0 (64-bit, prefetchable) [size=256M]".toList,
   "01 VGA compatible controller [0300]: NVIDIA GT218 [10de:0a6c]".toList,
   "19 Ethernet controller [0200]: Intel 82577LM [8086:10ea]".toList]

theorem exChip : Names Lpc "ISA bridge".toList exLs ["Intel QM57".toList] :=
  .device _ _ _ _ (by decide +kernel) (device_of lpc_ends "1f ".toList " [0601]".toList " LPC".toList
    " Interface [8086:3b07]".toList (by decide +kernel) (by decide +kernel) ⟨' ', by decide +kernel, by decide +kernel⟩
    (by decide +kernel) (by decide +kernel)) <|
  .other _ _ _ (by decide +kernel) (by decide +kernel) <| .other _ _ _ (by decide +kernel) (by decide +kernel) <|
  .other _ _ _ (by decide +kernel) (by decide +kernel) <| .other _ _ _ (by decide +kernel) (by decide +kernel) <|
  .other _ _ _ (by decide +kernel) (by decide +kernel) .nil

theorem exAudio : Names Ids "Audio device".toList exLs ["Intel 5 Series".toList] :=
  .other _ _ _ (by decide +kernel) (by decide +kernel) <|
  .device _ _ _ _ (by decide +kernel) (device_of ids_ends "1b ".toList " [0403]".toList " [8086:3b57]".toList
    " (rev 06)".toList (by decide +kernel) (by decide +kernel)
    ⟨' ', "8086".toList, "3b57".toList, by decide +kernel, by decide +kernel, by decide +kernel, by decide +kernel,
      by decide +kernel, by decide +kernel⟩
    (by decide +kernel) (by decide +kernel)) <|
  .other _ _ _ (by decide +kernel) (by decide +kernel) <|
  .other _ _ _ (by decide +kernel) (by decide +kernel) <| .other _ _ _ (by decide +kernel) (by decide +kernel) <|
  .other _ _ _ (by decide +kernel) (by decide +kernel) .nil

theorem exNic : Names Ids "Ethernet controller".toList exLs ["Intel 82577LM".toList] :=
  .other _ _ _ (by decide +kernel) (by decide +kernel) <| .other _ _ _ (by decide +kernel) (by decide +kernel) <|
  .other _ _ _ (by decide +kernel) (by decide +kernel) <| .other _ _ _ (by decide +kernel) (by decide +kernel) <|
  .other _ _ _ (by decide +kernel) (by decide +kernel) <|
  .device _ _ _ _ (by decide +kernel) (device_of ids_ends "19 ".toList " [0200]".toList " [8086:10ea]".toList
    [] (by decide +kernel) (by decide +kernel)
    ⟨' ', "8086".toList, "10ea".toList, by decide +kernel, by decide +kernel, by decide +kernel, by decide +kernel,
      by decide +kernel, by decide +kernel⟩
    (by decide +kernel) (by decide +kernel)) .nil

theorem exWireless : Names Ids "Network controller".toList exLs [] :=
  .other _ _ _ (by decide +kernel) (by decide +kernel) <| .other _ _ _ (by decide +kernel) (by decide +kernel) <|
  .other _ _ _ (by decide +kernel) (by decide +kernel) <| .other _ _ _ (by decide +kernel) (by decide +kernel) <|
  .other _ _ _ (by decide +kernel) (by decide +kernel) <| .other _ _ _ (by decide +kernel) (by decide +kernel) .nil

theorem exVga : Names Ids "VGA compatible controller".toList exLs ["Intel Core".toList, "NVIDIA GT218".toList] :=
  .other _ _ _ (by decide +kernel) (by decide +kernel) <| .other _ _ _ (by decide +kernel) (by decide +kernel) <|
  .device _ _ _ _ (by decide +kernel) (device_of ids_ends "02 ".toList " [0300]".toList " [8086:0046]".toList
    [] (by decide +kernel) (by decide +kernel)
    ⟨' ', "8086".toList, "0046".toList, by decide +kernel, by decide +kernel, by decide +kernel, by decide +kernel,
      by decide +kernel, by decide +kernel⟩
    (by decide +kernel) (by decide +kernel)) <|
  .other _ _ _ (by decide +kernel) (by decide +kernel) <|
  .device _ _ _ _ (by decide +kernel) (device_of ids_ends "01 ".toList " [0300]".toList " [10de:0a6c]".toList
    [] (by decide +kernel) (by decide +kernel)
    ⟨' ', "10de".toList, "0a6c".toList, by decide +kernel, by decide +kernel, by decide +kernel, by decide +kernel,
      by decide +kernel, by decide +kernel⟩
    (by decide +kernel) (by decide +kernel)) <|
  .other _ _ _ (by decide +kernel) (by decide +kernel) .nil

theorem no_memory {l : Str} (h : ¬ memText <:+: l) : ∀ a mid ds rest : Str, ds ≠ [] → (∀ c ∈ ds, c.isDigit = true) →
    mid ≠ [] → l ≠ a ++ (memText ++ (mid ++ (sizeText ++ (ds ++ (mbText ++ rest))))) :=
  fun a _ _ _ _ _ _ e => h ⟨a, _, by rw [e, List.append_assoc]⟩

theorem exSizes : Sizes exLs [256] :=
  .other _ _ _ (by decide +kernel) (no_memory (by decide +kernel)) <|
  .other _ _ _ (by decide +kernel) (no_memory (by decide +kernel)) <|
  .other _ _ _ (by decide +kernel) (no_memory (by decide +kernel)) <|
  .region _ _ _ _ (by decide +kernel) ⟨"\t".toList, " at d0 (64-bit,".toList, [], by decide +kernel, by decide +kernel,
    once_of (by decide +kernel) (by decide +kernel), once_of (by decide +kernel) (by decide +kernel)⟩ <|
  .other _ _ _ (by decide +kernel) (no_memory (by decide +kernel)) <|
  .other _ _ _ (by decide +kernel) (no_memory (by decide +kernel)) .nil

/-- Makes a record. -/
def mk (l : List (String × String)) : Rec := l.map fun p => (p.1.toList, p.2.toList)

/-- `int` on two texts. -/
def exInt (s : Str) : Option Int := if s = "8000000000".toList then some 8000000000 else none

/-- The records of a machine. -/
def exData : Data :=
  { dmi := some [mk [("category", "SYSTEM"), ("vendor", "Dell"), ("product", "E6410"), ("version", "1")],
                 mk [("category", "BIOS"), ("version", "A05")], mk [("category", "CHASSIS"), ("version", "9")]]
    cpuinfo := some [mk [("model", "Intel i5"), ("count", "4")]]
    meminfo := some [mk [("total", "8000000000")]]
    device := some [mk [("category", "DISK"), ("product", "SSD")], mk [("category", "BLUETOOTH")],
                    mk [("category", "BLUETOOTH"), ("path", "/devices/usb")]]
    package := some [mk [("name", "bash"), ("version", "4.3")], mk [("name", "zsh"), ("version", "5.0")]]
    lspci := some (some (joinWith '\n' exLs)) }

/-- Its sheet. -/
def exCells : List Cell :=
  match systemInfo id exInt exData with
  | .ok c => c
  | .error _ => []

theorem exOk : systemInfo id exInt exData = .ok exCells := by
  have h : ¬ ∃ x, systemInfo id exInt exData = .error x := by
    rw [C132_fails]
    decide +kernel
  cases e : systemInfo id exInt exData with
  | error x => exact absurd ⟨x, e⟩ h
  | ok c => rw [exCells, e]

example : cell exCells 9 2 = some "Intel QM57".toList ∧ cell exCells 11 2 = some "Intel Core".toList ∧
    cell exCells 12 2 = some "NVIDIA GT218".toList ∧ cell exCells 13 2 = some "256 MiB".toList ∧
    cell exCells 14 2 = some "Intel 5 Series".toList ∧ cell exCells 15 2 = some "Intel 82577LM".toList ∧
    cell exCells 16 2 = some "NA".toList := by
  obtain ⟨h1, h2, h3, ⟨s, h4, h4'⟩, h5, h6, h7⟩ :=
    C132_devices_partial (d := exData) rfl exOk exChip exAudio exNic exWireless exVga exSizes
  refine ⟨h1, h2, h3, ?_, h5, h6, h7⟩
  rw [h4, h4']
  decide +kernel

example : cell exCells 5 2 = some "Dell E6410 (1)".toList ∧ cell exCells 7 2 = some "A05".toList ∧
    cell exCells 8 2 = some "Intel i5 x 4".toList ∧ (∃ s, cell exCells 10 2 = some s ∧ Gib 8000000000 s) ∧
    cell exCells 17 2 = some "/devices/usb".toList := by
  obtain ⟨h5, -, h7, -, h8, -, h10, -, h17, -⟩ := C132_resources_partial exOk
  refine ⟨?_, ?_, ?_, ?_, ?_⟩
  · exact h5 _ "Dell".toList "E6410".toList "1".toList ⟨[], _, rfl, by decide +kernel, by decide +kernel⟩
      (by decide +kernel) (by decide +kernel) (by decide +kernel)
  · exact h7 _ _ ⟨[_], _, rfl, by decide +kernel, by decide +kernel⟩ (by decide +kernel)
  · exact h8 [] _ "Intel i5".toList "4".toList rfl (by decide +kernel) (by decide +kernel)
  · exact h10 [] _ "8000000000".toList _ rfl (by decide +kernel) (by decide +kernel)
  · exact h17 [_, _] _ [] "/devices/usb".toList rfl (by decide +kernel) (.inr (by decide +kernel)) (by decide +kernel)

/-- It reads "7.5 GiB". -/
example : cell exCells 10 2 = some "7.5 GiB".toList := by decide +kernel

/-- The second package is below the first one. -/
example : cell exCells 22 1 = some "bash".toList ∧ cell exCells 23 2 = some "5.0".toList ∧ cell exCells 24 1 = none := by
  obtain ⟨-, -, -, h, h'⟩ := (C132_packages exOk).1 _ rfl
  exact ⟨(h 0 _ "bash".toList "4.3".toList rfl (by decide +kernel) (by decide +kernel)).1,
    (h 1 _ "zsh".toList "5.0".toList rfl (by decide +kernel) (by decide +kernel)).2, h' 2 1 (by decide)⟩

example : cell exCells 13 1 = some "Video memory".toList := (C132_titles exOk).2.2.2.2.2.2.2.1

/-- No failure on that machine; one without the number of processors gets no sheet. -/
example : ¬ (∃ x, systemInfo id exInt exData = .error x) ∧
    ∃ x, systemInfo id exInt { exData with cpuinfo := some [mk [("model", "Intel i5")]] } = .error x := by
  refine ⟨?_, C132_fails.2 (.inl (by decide +kernel))⟩
  rintro ⟨x, h⟩
  rw [exOk] at h
  cases h

/-! ### Violations -/

/-- Only the text of lspci. -/
def pciOnly (l : List String) : Data :=
  ⟨none, none, none, none, none, some (some (joinWith '\n' (l.map String.toList)))⟩

/-- The memory of a network card is told as the video memory, and the 8 GiB of the video card are not. -/
theorem C132_vram_violated : (systemInfo id exInt (pciOnly
    ["01 VGA compatible controller [0300]: NVIDIA GP104 [10de:1b80]",
     "\tMemory at d0 (64-bit, prefetchable) [size=8G]",
     "02 Network controller [0280]: Mellanox [15b3:1013]",
     "\tMemory at e0 (64-bit, prefetchable) [size=32M]"])).map (cell · 13 2) = .ok (some "32 MiB".toList) := by
  decide +kernel

/-- An add-on card whose class is "3D controller" is not shown. -/
theorem C132_addon_violated : (systemInfo id exInt (pciOnly
    ["02 VGA compatible controller [0300]: Intel Core [8086:0046]",
     "01 3D controller [0302]: NVIDIA GM108M [10de:1341]"])).map (cell · 12 2) = .ok (some "NA".toList) := by
  decide +kernel

/-- A chipset without "LPC" in its name is not shown. -/
theorem C132_chipset_violated : (systemInfo id exInt (pciOnly
    ["1f ISA bridge [0601]: Intel Z390 Chipset eSPI Controller [8086:a305]"])).map (cell · 9 2) =
      .ok (some "NA".toList) := by
  decide +kernel

/-- Without the vendor and the version, the platform is told to be of "None". -/
theorem C132_none_violated : (systemInfo id exInt ⟨some [mk [("category", "SYSTEM"), ("product", "E6410")]], none, none,
    none, none, none⟩).map (cell · 5 2) = .ok (some "None E6410 (None)".toList) := by
  decide +kernel

/-- Of two kinds of processors only the last one is told. -/
theorem C132_processors_violated : (systemInfo id exInt ⟨none, some [mk [("model", "Cortex-A15"), ("count", "4")],
    mk [("model", "Cortex-A7"), ("count", "2")]], none, none, none, none⟩).map (cell · 8 2) =
      .ok (some "Cortex-A7 x 2".toList) := by
  decide +kernel

/-- An lspci attachment that is not UTF-8 loses everything else, too. -/
theorem C132_lost_violated : systemInfo id exInt { exData with lspci := some none } = .error .unicode := by
  decide +kernel

end Verif.Sysinfo
