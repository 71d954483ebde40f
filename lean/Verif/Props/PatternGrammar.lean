import Verif.Lemmas.Pattern

/-!
# C30: how patterns are read

`Writes` is a grammar of the pattern language, independent of the parser: which texts write which tree.
`C30_grammar`: the parser finds the tree of every text of the grammar (so the grammar is unambiguous).
-/

namespace Verif.Pattern

/-- Parts of a pattern. -/
inductive Tree
  | atom (a : Atom)
  | piece (p : Piece)
  | seq (l : List Piece)
  | alts (bs : Branches)

/-- Letters of the classes `\d`, `\D`, `\s`, `\S`, `\w`, `\W`. -/
def classLetter (c : Char) : Prop := c ∈ "dDsSwW".toList

/-- Punctuation: anything that is not an ASCII letter or digit. -/
def Punct (c : Char) : Prop :=
  ¬ (97 ≤ c.toNat ∧ c.toNat ≤ 122) ∧ ¬ (65 ≤ c.toNat ∧ c.toNat ≤ 90) ∧ ¬ (48 ≤ c.toNat ∧ c.toNat ≤ 57)

/-- `SetItems first n t`: `t` writes `n` items of a set; a closing bracket is an item only as the first one. -/
inductive SetItems : Bool → Nat → Str → Prop
  | nil {first} : SetItems first 0 []
  | char {first n t} (c : Char) : c ≠ '\\' → (c = ']' → first = true) → SetItems false n t →
      SetItems first (n + 1) (c :: t)
  | esc {first n t} (c : Char) : Punct c ∨ classLetter c → SetItems false n t →
      SetItems first (n + 1) ('\\' :: c :: t)

/-- `Writes t tree`: the text writes that part of a pattern. -/
inductive Writes : Str → Tree → Prop
  | plain (c : Char) : c ∉ "\\[.^$*+?{|()".toList → Writes [c] (.atom (.lit c))
  | punct (c : Char) : Punct c → Writes ['\\', c] (.atom (.lit c))
  | dot : Writes ['.'] (.atom .any)
  | cls (c : Char) : classLetter c → Writes ['\\', c] (.atom (.set ['\\', c]))
  /-- a set of one character is that character -/
  | one (c : Char) : c ≠ '\\' → c ≠ '^' → Writes ['[', c, ']'] (.atom (.lit c))
  | oneEsc (c : Char) : Punct c → Writes ['[', '\\', c, ']'] (.atom (.lit c))
  | oneCls (c : Char) : classLetter c → Writes ['[', '\\', c, ']'] (.atom (.set ['\\', c]))
  | set (n : Nat) (t : Str) : SetItems true (n + 2) t → t.head? ≠ some '^' →
      Writes ('[' :: t ++ [']']) (.atom (.set t))
  | negated (n : Nat) (t : Str) : SetItems true (n + 1) t → Writes ('[' :: '^' :: t ++ [']']) (.atom (.set ('^' :: t)))
  | bol : Writes ['^'] (.atom .bol)
  | eol : Writes ['$'] (.atom .eol)
  | group {t bs} : Writes t (.alts bs) → Writes ('(' :: t ++ [')']) (.atom (.group bs))
  | once {t a} : Writes t (.atom a) → Writes t (.piece (a, .one))
  | star {t a} : Writes t (.atom a) → a ≠ .bol → a ≠ .eol → Writes (t ++ ['*']) (.piece (a, .star))
  | plus {t a} : Writes t (.atom a) → a ≠ .bol → a ≠ .eol → Writes (t ++ ['+']) (.piece (a, .plus))
  | opt {t a} : Writes t (.atom a) → a ≠ .bol → a ≠ .eol → Writes (t ++ ['?']) (.piece (a, .opt))
  | empty : Writes [] (.seq [])
  | snoc {t u l p} : Writes t (.seq l) → Writes u (.piece p) → Writes (t ++ u) (.seq (l ++ [p]))
  | single {t l} : Writes t (.seq l) → Writes t (.alts [l])
  | more {t u bs l} : Writes t (.alts bs) → Writes u (.seq l) → Writes (t ++ '|' :: u) (.alts (bs ++ [l]))

/-! ## The parser reads the grammar -/

theorem isClass_iff (c : Char) : isClass c = true ↔ classLetter c := by
  simp only [isClass, classLetter]
  rw [show "dDsSwW".toList = ['d', 'D', 's', 'S', 'w', 'W'] from rfl]
  simp only [Bool.or_eq_true, decide_eq_true_eq, List.mem_cons, List.not_mem_nil, or_false, or_assoc]

theorem isAlnum_iff (c : Char) : isAlnum c = false ↔ Punct c := by
  simp only [isAlnum, Punct, Bool.or_eq_false_iff, Bool.and_eq_false_iff, decide_eq_false_iff_not, Char.le_def,
    UInt32.le_iff_toNat_le]
  have h1 : ∀ a b : Nat, ¬ (a ≤ c.toNat ∧ c.toNat ≤ b) ↔ (¬ a ≤ c.toNat ∨ ¬ c.toNat ≤ b) := by
    intro a b; omega
  rw [h1, h1, h1, and_assoc]
  exact Iff.rfl

theorem class_not_punct {c : Char} (h : classLetter c) : isAlnum c = true := by
  simp only [classLetter] at h
  rw [show "dDsSwW".toList = ['d', 'D', 's', 'S', 'w', 'W'] from rfl] at h
  simp only [List.mem_cons, List.not_mem_nil, or_false] at h
  rcases h with rfl | rfl | rfl | rfl | rfl | rfl <;> decide

/-- What running the parser over a part does. -/
def Effect (t : Str) : Tree → Prop
  | .atom a => ∀ done cur below, run ⟨.normal, ⟨done, cur⟩, below⟩ t =
      some ⟨.normal, ⟨done, cur ++ [(a, .one)]⟩, below⟩
  | .piece p => ∀ done cur below, run ⟨.normal, ⟨done, cur⟩, below⟩ t =
      some ⟨.normal, ⟨done, cur ++ [p]⟩, below⟩
  | .seq l => ∀ done cur below, run ⟨.normal, ⟨done, cur⟩, below⟩ t =
      some ⟨.normal, ⟨done, cur ++ l⟩, below⟩
  | .alts bs => ∃ d l, bs = d ++ [l] ∧ ∀ done below, run ⟨.normal, ⟨done, []⟩, below⟩ t =
      some ⟨.normal, ⟨done ++ d, l⟩, below⟩

theorem run_items {first : Bool} {n : Nat} {t : Str} (h : SetItems first n t) :
    ∀ (raw : Str) (top : Frame) (below : List Frame) (rest : Str),
      (raw = [] → t.head? ≠ some '^') → (first = false → raw ≠ [] ∧ raw ≠ ['^']) →
      (first = true → raw = [] ∨ raw = ['^']) →
      run ⟨.inSet raw, top, below⟩ (t ++ rest) = run ⟨.inSet (raw ++ t), top, below⟩ rest := by
  induction h with
  | nil => intro raw top below rest _ _ _; simp
  | @char first n t c h1 h2 h3 ih =>
    intro raw top below rest ha hb hc
    have hne : raw ++ [c] ≠ [] ∧ raw ++ [c] ≠ ['^'] := by
      refine ⟨by simp, ?_⟩
      intro he
      cases raw with
      | nil =>
        simp only [List.nil_append, List.cons.injEq, and_true] at he
        exact ha rfl (by rw [he]; rfl)
      | cons x raw => simp at he
    have hs : step ⟨.inSet raw, top, below⟩ c = some ⟨.inSet (raw ++ [c]), top, below⟩ := by
      simp only [step]
      rw [if_neg, if_neg h1]
      rintro ⟨rfl, h5, h6⟩
      rcases hc (h2 rfl) with h | h
      · exact h5 h
      · exact h6 h
    rw [List.cons_append, run, hs]
    dsimp only
    rw [ih (raw ++ [c]) top below rest (fun h => absurd h hne.1) (fun _ => hne) (by simp)]
    simp
  | @esc first n t c h1 h3 ih =>
    intro raw top below rest ha hb hc
    have hne : raw ++ ['\\', c] ≠ [] ∧ raw ++ ['\\', c] ≠ ['^'] := by
      refine ⟨by simp, ?_⟩
      intro he
      have := congrArg List.length he
      simp at this
    have hs : step ⟨.inSet raw, top, below⟩ '\\' = some ⟨.inSetEsc (raw ++ ['\\']), top, below⟩ := by
      simp [step]
    have hs' : step ⟨.inSetEsc (raw ++ ['\\']), top, below⟩ c =
        some ⟨.inSet (raw ++ ['\\', c]), top, below⟩ := by
      simp only [step]
      rw [if_neg]
      · simp
      · rintro ⟨h5, h6⟩
        rcases h1 with h1 | h1
        · rw [(isAlnum_iff c).2 h1] at h5; cases h5
        · rw [(isClass_iff c).2 h1] at h6; cases h6
    rw [List.cons_append, List.cons_append, run, hs]
    dsimp only
    rw [run, hs']
    dsimp only
    rw [ih _ top below rest (fun h => absurd h hne.1) (fun _ => hne) (by simp)]
    simp

theorem step_close (raw : Str) (done : Branches) (cur : List Piece) (below : List Frame)
    (h1 : raw ≠ []) (h2 : raw ≠ ['^']) :
    run ⟨.inSet raw, ⟨done, cur⟩, below⟩ [']'] = some ⟨.normal, ⟨done, cur ++ [(setAtom raw, .one)]⟩, below⟩ := by
  simp only [run, step]
  rw [if_pos (by exact ⟨trivial, h1, h2⟩)]
  rfl

theorem step_open (done : Branches) (cur : List Piece) (below : List Frame) (rest : Str) :
    run ⟨.normal, ⟨done, cur⟩, below⟩ ('[' :: rest) = run ⟨.inSet [], ⟨done, cur⟩, below⟩ rest := by
  rw [run]
  have : step ⟨.normal, ⟨done, cur⟩, below⟩ '[' = some ⟨.inSet [], ⟨done, cur⟩, below⟩ := by
    simp [step]
  rw [this]

theorem run_set {first n t} (h : SetItems first n t) (done : Branches) (cur : List Piece) (below : List Frame)
    (hf : first = true) (hn : n ≠ 0) (hh : t.head? ≠ some '^') :
    run ⟨.normal, ⟨done, cur⟩, below⟩ ('[' :: t ++ [']']) =
      some ⟨.normal, ⟨done, cur ++ [(setAtom t, .one)]⟩, below⟩ := by
  rw [List.cons_append, step_open, run_items h [] _ _ _ (fun _ => hh) (by rw [hf]; simp) (fun _ => .inl rfl),
    List.nil_append]
  refine step_close t done cur below ?_ ?_
  · rintro rfl; cases h; exact hn rfl
  · rintro rfl; exact hh rfl

theorem setAtom_many {first n t} (h : SetItems first (n + 2) t) : setAtom t = .set t := by
  unfold setAtom
  split
  · rename_i c
    cases h with
    | char _ _ _ h => cases h
  · rename_i c
    cases h with
    | char _ h1 _ h => exact absurd rfl h1
    | esc _ _ h => cases h
  · rfl

theorem quantify_last (done : Branches) (cur : List Piece) (a : Atom) (below : List Frame) (q : Q)
    (h1 : a ≠ .bol) (h2 : a ≠ .eol) :
    PS.quantify ⟨.normal, ⟨done, cur ++ [(a, .one)]⟩, below⟩ q =
      some ⟨.normal, ⟨done, cur ++ [(a, q)]⟩, below⟩ := by
  have hr : a.repeatable = true := by
    cases a <;> first | rfl | exact absurd rfl h1 | exact absurd rfl h2
  simp [PS.quantify, hr]

theorem effect {t : Str} {tree : Tree} (h : Writes t tree) : Effect t tree := by
  induction h with
  | plain c hc =>
    intro done cur below
    rw [show "\\[.^$*+?{|()".toList = ['\\', '[', '.', '^', '$', '*', '+', '?', '{', '|', '(', ')'] from rfl] at hc
    simp only [List.mem_cons, List.not_mem_nil, or_false, not_or] at hc
    have := run_plain (done := done) (below := below) [c] cur (by
      intro d hd
      rw [List.mem_singleton] at hd
      subst hd
      exact .inl hc)
    rw [this]
    simp [atomOf, hc.2.2.1]
  | punct c hc =>
    intro done cur below
    have h1 : isAlnum c = false := (isAlnum_iff c).2 hc
    have h2 : isClass c = false := by
      cases he : isClass c with
      | false => rfl
      | true => rw [class_not_punct ((isClass_iff c).1 he)] at h1; cases h1
    simp [run, step, h1, h2, PS.add]
  | dot => intro done cur below; simp [run, step, PS.add]
  | cls c hc =>
    intro done cur below
    have h2 := (isClass_iff c).2 hc
    simp [run, step, h2, PS.add]
  | one c h1 h2 =>
    intro done cur below
    have h := run_set (SetItems.char (first := true) c h1 (fun _ => rfl) .nil) done cur below rfl (by simp)
      (by simpa using h2)
    exact h
  | oneEsc c hc =>
    intro done cur below
    have h1 : isAlnum c = false := (isAlnum_iff c).2 hc
    have h2 : isClass c = false := by
      cases he : isClass c with
      | false => rfl
      | true => rw [class_not_punct ((isClass_iff c).1 he)] at h1; cases h1
    have h := run_set (SetItems.esc (first := true) c (.inl hc) .nil) done cur below rfl (by simp) (by simp)
    refine Eq.trans h ?_
    simp [setAtom, h2]
  | oneCls c hc =>
    intro done cur below
    have h2 := (isClass_iff c).2 hc
    have h := run_set (SetItems.esc (first := true) c (.inr hc) .nil) done cur below rfl (by simp) (by simp)
    refine Eq.trans h ?_
    simp [setAtom, h2]
  | set n t h hh =>
    intro done cur below
    rw [run_set h done cur below rfl (by simp) hh, setAtom_many h]
  | negated n t h =>
    intro done cur below
    have hs : step ⟨.inSet [], ⟨done, cur⟩, below⟩ '^' = some ⟨.inSet ['^'], ⟨done, cur⟩, below⟩ := by
      simp [step]
    rw [List.cons_append, List.cons_append, step_open, run, hs]
    dsimp only
    rw [run_items h ['^'] _ _ _ (by simp) (by simp) (fun _ => .inr rfl)]
    have ht : t ≠ [] := by rintro rfl; cases h
    have he : setAtom ('^' :: t) = .set ('^' :: t) := by
      unfold setAtom
      split
      · rename_i c hc; cases hc; exact absurd rfl ht
      · rename_i c hc; cases hc
      · rfl
    rw [← he]
    refine step_close _ done cur below (by simp) ?_
    intro hc
    cases hc
    exact ht rfl
  | bol => intro done cur below; simp [run, step, PS.add]
  | eol => intro done cur below; simp [run, step, PS.add]
  | @group t bs h ih =>
    intro done cur below
    obtain ⟨d, l, rfl, he⟩ := ih
    have hs : step ⟨.normal, ⟨done, cur⟩, below⟩ '(' = some ⟨.normal, ⟨[], []⟩, ⟨done, cur⟩ :: below⟩ := by
      simp [step]
    rw [List.cons_append, run, hs]
    dsimp only
    rw [run_append, he]
    simp [run, step]
  | once _ ih => exact ih
  | star _ h1 h2 ih =>
    intro done cur below
    rw [run_append, ih]
    simp [run, step, quantify_last, h1, h2]
  | plus _ h1 h2 ih =>
    intro done cur below
    rw [run_append, ih]
    simp [run, step, quantify_last, h1, h2]
  | opt _ h1 h2 ih =>
    intro done cur below
    rw [run_append, ih]
    simp [run, step, quantify_last, h1, h2]
  | empty => intro done cur below; simp [run]
  | snoc _ _ ih1 ih2 =>
    intro done cur below
    rw [run_append, ih1]
    simp only [Option.bind_some]
    rw [ih2, List.append_assoc]
  | @single t l _ ih =>
    refine ⟨[], l, rfl, ?_⟩
    intro done below
    rw [ih]; simp
  | @more t u bs l _ _ ih1 ih2 =>
    obtain ⟨d, l', rfl, he⟩ := ih1
    refine ⟨d ++ [l'], l, rfl, ?_⟩
    intro done below
    rw [run_append, he]
    simp only [Option.bind_some]
    have hs : step ⟨.normal, ⟨done ++ d, l'⟩, below⟩ '|' = some ⟨.normal, ⟨done ++ d ++ [l'], []⟩, below⟩ := by
      simp [step]
    rw [run, hs]
    dsimp only
    rw [ih2]
    simp

/-- **C30, the pattern language**: the parser finds the tree of every text of the grammar. -/
theorem C30_grammar {t : Str} {bs : Branches} (h : Writes t (.alts bs)) : parseRe t = some bs := by
  obtain ⟨d, l, rfl, he⟩ := effect h
  simp only [parseRe, he [] []]
  rfl

/-- A text writes at most one pattern. -/
theorem C30_unambiguous {t : Str} {bs bs' : Branches} (h : Writes t (.alts bs)) (h' : Writes t (.alts bs')) :
    bs = bs' := by
  have := (C30_grammar h).symm.trans (C30_grammar h')
  exact Option.some.inj this

/-- `a|[\d]*` -/
example : parseRe "a|[\\d]*".toList = some [[(.lit 'a', .one)], [(.set "\\d".toList, .star)]] :=
  C30_grammar (.more (.single (.snoc .empty (.once (.plain 'a' (by decide)))))
    (.snoc .empty (.star (.oneCls 'd' (by unfold classLetter; decide)) (by simp) (by simp))))

/-- `[]a]` -/
example : parseRe "[]a]".toList = some [[(.set "]a".toList, .one)]] :=
  C30_grammar (.single (.snoc .empty (.once (.set 0 "]a".toList
    (.char ']' (by decide) (fun _ => rfl) (.char 'a' (by decide) (by decide) .nil)) (by decide)))))

end Verif.Pattern
