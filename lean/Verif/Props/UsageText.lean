import Verif.Model.UsageText

/-! # Property C138: the usage in the help text has all its parts, in order, in lines that are filled -/

namespace Verif.UsageText

/-! ## Specification -/

/-- A line of these parts that begins in column `base` fits, or cannot be made shorter. -/
def Fits (width base : Nat) (g : List Str) : Prop := g.length ≤ 1 ∨ base + (join g).length ≤ width

/-- Lines that are filled: the first one begins in column `base`, the others in column `ind`. Every line fits or has one part only;
the first part of each line would not have fitted in the line before. Only the first line may be empty. -/
def Filled (width ind : Nat) : Nat → List (List Str) → Prop
  | _, [] => True
  | base, g :: rest =>
    Fits width base g ∧ (rest = [] → g ≠ []) ∧
    (∀ h t, rest = h :: t → h ≠ [] ∧ ∀ p, h.head? = some p → width < base + (join (g ++ [p])).length) ∧
    Filled width ind ind rest

/-- Something that is not to be broken: a word, or words in brackets. -/
inductive Item : Str → Prop
  | word (c : Char) (s : Str) (hc : c ≠ '(' ∧ c ≠ '[') (hs : ∀ x ∈ c :: s, Text.isSpace x = false) : Item (c :: s)
  | square (s : Str) (n : Nat) (hs : ∀ x ∈ s, x ≠ ']' ∧ x ≠ '\n') : Item ('[' :: s ++ List.replicate (n + 1) ']')
  | round (s : Str) (n : Nat) (hs : ∀ x ∈ s, x ≠ ')' ∧ x ≠ '\n') : Item ('(' :: s ++ List.replicate (n + 1) ')')

/-! ## Lemmas -/

theorem join_snoc (l : List Str) (p : Str) : join (l ++ [p]) = if l = [] then p else join l ++ ' ' :: p := by
  induction l with
  | nil => rfl
  | cons a l ih =>
    cases l with
    | nil => simp [join]
    | cons b l =>
      have : join ((a :: b :: l) ++ [p]) = a ++ ' ' :: join ((b :: l) ++ [p]) := rfl
      rw [this, ih]
      simp [join]

/-- What the loop has used of the line. -/
def usedBy (base : Nat) (line : List Str) : Nat := if line = [] then base else base + (join line).length + 1

theorem usedBy_snoc (base : Nat) (line : List Str) (p : Str) : usedBy base (line ++ [p]) = usedBy base line + p.length + 1 := by
  unfold usedBy
  rw [join_snoc]
  by_cases h : line = []
  · simp [h]
  · simp [h]; omega

theorem used_join (base : Nat) (line : List Str) (p : Str) : usedBy base line + p.length = base + (join (line ++ [p])).length := by
  unfold usedBy
  rw [join_snoc]
  by_cases h : line = []
  · simp [h]
  · simp [h]; omega

theorem loop_spec (width : Nat) (indent : Str) : ∀ (ps : List Str) (base : Nat) (line : List Str), Fits width base line →
    ∃ gs, linesLoop width indent ps (usedBy base line) line = gs.map (fun g => indent ++ join g) ∧
      gs.flatten = line ++ ps ∧ Filled width indent.length base gs ∧ (line ++ ps = [] → gs = []) ∧
      (line ≠ [] → ∃ g t, gs = (line ++ g) :: t) := by
  intro ps
  induction ps with
  | nil =>
    intro base line hf
    unfold linesLoop
    by_cases h : line = []
    · exact ⟨[], by simp [h], by simp [h], trivial, fun _ => rfl, fun hn => absurd h hn⟩
    · exact ⟨[line], by simp [h], by simp, ⟨hf, fun _ => h, by simp, trivial⟩, fun he => absurd (by simpa using he) h,
        fun _ => ⟨[], [], by simp⟩⟩
  | cons p ps ih =>
    intro base line hf
    unfold linesLoop
    by_cases hw : usedBy base line + p.length > width
    · rw [if_pos hw]
      obtain ⟨gs, h1, h2, h3, -, h5⟩ := ih indent.length [p] (.inl (by simp))
      have hu : usedBy indent.length [p] = indent.length + p.length + 1 := by simp [usedBy, join]
      rw [hu] at h1
      refine ⟨line :: gs, by simp [h1], by simp [h2], ?_, by simp, fun _ => ⟨[], gs, by simp⟩⟩
      obtain ⟨g, t, hgt⟩ := h5 (by simp)
      refine ⟨hf, fun he => by simp [he] at hgt, ?_, h3⟩
      intro h t' he
      rw [hgt] at he
      simp only [List.cons.injEq] at he
      refine ⟨by rw [← he.1]; simp, ?_⟩
      intro q hq
      rw [← he.1] at hq
      simp only [List.cons_append, List.head?_cons, Option.some.injEq] at hq
      subst hq
      rw [← used_join]
      omega
    · rw [if_neg hw]
      have hf' : Fits width base (line ++ [p]) := by
        right
        rw [← used_join]
        omega
      obtain ⟨gs, h1, h2, h3, -, h5⟩ := ih base (line ++ [p]) hf'
      rw [usedBy_snoc] at h1
      refine ⟨gs, h1, by simp [h2], h3, by simp, fun _ => ?_⟩
      obtain ⟨g, t, hgt⟩ := h5 (by simp)
      exact ⟨p :: g, t, by rw [hgt]; simp⟩

/-- Lines without a prefix. -/
theorem plain_spec (width : Nat) (indent : Str) (ps : List Str) :
    ∃ gs, getLines width ps indent none = gs.map (fun g => indent ++ join g) ∧ gs.flatten = ps ∧
      Filled width indent.length indent.length gs ∧ (ps = [] → gs = []) := by
  obtain ⟨gs, h1, h2, h3, h4, -⟩ := loop_spec width indent ps indent.length [] (.inl (by simp))
  exact ⟨gs, h1, by simpa using h2, h3, by simpa using h4⟩

/-- Lines with a prefix, and a first part that fits. -/
theorem first_spec (width : Nat) (indent pre : Str) (p : Str) (ps : List Str) (hp : pre.length + p.length ≤ width) :
    ∃ g gs, getLines width (p :: ps) indent (some pre) = join (p :: g) :: gs.map (fun g => indent ++ join g) ∧
      ((p :: g) :: gs).flatten = p :: ps ∧ Filled width indent.length pre.length ((p :: g) :: gs) := by
  have hf : Fits width pre.length [p] := .inl (by simp)
  obtain ⟨gs, h1, h2, h3, -, h5⟩ := loop_spec width indent ps pre.length [p] hf
  obtain ⟨g, t, hgt⟩ := h5 (by simp)
  have hu : usedBy pre.length [p] = pre.length + p.length + 1 := by simp [usedBy, join]
  have hl : linesLoop width indent (p :: ps) pre.length [] = linesLoop width indent ps (pre.length + p.length + 1) [p] := by
    conv => lhs; unfold linesLoop
    rw [if_neg (by omega)]
    rfl
  refine ⟨g, t, ?_, by rw [← List.singleton_append (l := g), ← hgt, h2]; rfl,
    by rw [← List.singleton_append (l := g), ← hgt]; exact h3⟩
  unfold getLines
  simp only
  rw [hl, ← hu, h1, hgt]
  simp

/-! ## Property theorems -/

/-- **C138**, short ones: a usage that is not wider than the help is one line. -/
theorem C138_one_line (width : Nat) (pre prog : Str) (a : Actions) (hg : a.given = none) (hn : a.none' = false) (hprog : prog ≠ [])
    (hall : a.all ≠ []) (h : pre.length + prog.length + 1 + a.all.length ≤ width) :
    formatUsage width pre prog a = some (pre ++ prog ++ ' ' :: a.all ++ ['\n', '\n']) := by
  have hu : join ([prog, a.all].filter (· ≠ [])) = prog ++ ' ' :: a.all := by simp [hprog, hall, join]
  unfold formatUsage
  rw [hg, hn]
  simp only [Bool.false_eq_true, if_false, hu]
  rw [if_neg (by simp; omega)]
  simp

/-- **C138**, the parts: texts made of words and of words in brackets, with one blank between them, are taken apart into these, and
so they are accepted. -/
theorem C138_parts (l : List Str) (hl : ∀ i ∈ l, Item i) : parts (join l) = l := by
  have sp : Text.isSpace ' ' = true := by decide
  have clo : ∀ (x : Char) (s : Str) (n : Nat) (r : Str), (∀ y ∈ s, y ≠ x ∧ y ≠ '\n') → (∀ y, r.head? = some y → y ≠ x) →
      closing x (s ++ List.replicate (n + 1) x ++ r) = some (s ++ List.replicate (n + 1) x, r) := by
    intro x s
    induction s with
    | nil =>
      intro n r _ hr
      have tk : ∀ n, (List.replicate n x ++ r).takeWhile (fun y => decide (y = x)) = List.replicate n x ∧
          (List.replicate n x ++ r).dropWhile (fun y => decide (y = x)) = r := by
        intro n
        induction n with
        | zero =>
          cases r with
          | nil => simp
          | cons y r =>
            have := hr y rfl
            simp [this]
        | succ n ih => simpa [List.replicate_succ] using ih
      simp only [List.nil_append, List.replicate_succ, List.cons_append, closing, if_pos, tk n]
    | cons y s ih =>
      intro n r hs hr
      have hy := hs y (by simp)
      have := ih n r (fun z hz => hs z (by simp [hz])) hr
      simp only [List.cons_append, closing, if_neg hy.1, if_neg hy.2]
      rw [this]
      rfl
  -- one item, followed by nothing or a blank
  have one : ∀ i, Item i → ∀ r : Str, (∀ y, r.head? = some y → y = ' ') → parts (i ++ r) = i :: parts r := by
    intro i hi r hr
    cases hi with
    | word c s hc hs =>
      have hcs : Text.isSpace c = false := hs c (by simp)
      have hb : bracket c (s ++ r) = none := by simp [bracket, hc.1, hc.2]
      have tk : (s ++ r).takeWhile (fun x => !Text.isSpace x) = s ∧ (s ++ r).dropWhile (fun x => !Text.isSpace x) = r := by
        have hs' : ∀ x ∈ s, Text.isSpace x = false := fun x hx => hs x (by simp [hx])
        clear hs hb
        induction s with
        | nil =>
          cases r with
          | nil => simp
          | cons y r =>
            have := hr y rfl
            subst this
            simp [sp]
        | cons y s ih =>
          have := hs' y (by simp)
          simpa [this] using ih fun x hx => hs' x (by simp [hx])
      rw [List.cons_append, parts]
      simp only [hcs, Bool.false_eq_true, if_false]
      split
      · rename_i p hp; rw [hb] at hp; simp at hp
      · rw [tk.1, tk.2]
    | square s n hs =>
      have hb : bracket '[' (s ++ List.replicate (n + 1) ']' ++ r) = some (s ++ List.replicate (n + 1) ']', r) := by
        have h0 : ¬ ('[' : Char) = '(' := by decide
        simp only [bracket, if_neg h0, if_true]
        exact clo ']' s n r hs fun y hy => by rw [hr y hy]; decide
      have hsp : Text.isSpace '[' = false := by decide
      rw [List.cons_append, List.cons_append, parts]
      simp only [hsp, Bool.false_eq_true, if_false]
      split
      · rename_i p hp
        rw [hb] at hp
        simp only [Option.some.injEq] at hp
        subst hp
        rfl
      · rename_i hp; rw [hb] at hp; simp at hp
    | round s n hs =>
      have hb : bracket '(' (s ++ List.replicate (n + 1) ')' ++ r) = some (s ++ List.replicate (n + 1) ')', r) := by
        simp only [bracket, if_true]
        exact clo ')' s n r hs fun y hy => by rw [hr y hy]; decide
      have hsp : Text.isSpace '(' = false := by decide
      rw [List.cons_append, List.cons_append, parts]
      simp only [hsp, Bool.false_eq_true, if_false]
      split
      · rename_i p hp
        rw [hb] at hp
        simp only [Option.some.injEq] at hp
        subst hp
        rfl
      · rename_i hp; rw [hb] at hp; simp at hp
  induction l with
  | nil => simp [join, parts]
  | cons a l ih =>
    have ha := hl a (by simp)
    have ih := ih fun i hi => hl i (by simp [hi])
    cases l with
    | nil =>
      have := one a ha [] (by simp)
      simpa [join, parts] using this
    | cons b l =>
      have := one a ha (' ' :: join (b :: l)) (by simp)
      rw [join, this]
      have hb : parts (' ' :: join (b :: l)) = parts (join (b :: l)) := by
        rw [parts]
        simp [sp]
      rw [hb, ih]

/-- **C138**, long ones: if the usage is too wide and the name of the program is short, the options follow the name, and the positional
arguments come after them in lines of their own, or follow the name if there are no options. Every part is there, in order and in
one piece, and lines are filled, those after the first one behind the name. -/
theorem C138_short_name (width : Nat) (pre prog : Str) (a : Actions) (hg : a.given = none) (hn : a.none' = false)
    (opt pos : List Str) (ho : ∀ i ∈ opt, Item i) (hp : ∀ i ∈ pos, Item i) (hopt : a.opt = join opt) (hpos : a.pos = join pos)
    (hw : width < pre.length + (join ([prog, a.all].filter (· ≠ []))).length)
    (hs : 4 * (pre.length + prog.length) ≤ 3 * width) (hne : opt ++ pos ≠ []) :
    let ind := pre.length + prog.length + 1
    ∃ g gs hs, formatUsage width pre prog a = some (pre ++
        joinLines (join (prog :: g) :: (gs ++ hs).map fun g => List.replicate ind ' ' ++ join g) ++ ['\n', '\n']) ∧
      ((prog :: g) :: gs).flatten = prog :: (if opt = [] then pos else opt) ∧ hs.flatten = (if opt = [] then [] else pos) ∧
      Filled width ind pre.length ((prog :: g) :: gs) ∧ Filled width ind ind hs := by
  intro ind
  have po : parts a.opt = opt := by rw [hopt]; exact C138_parts opt ho
  have pp : parts a.pos = pos := by rw [hpos]; exact C138_parts pos hp
  have hfit : pre.length + prog.length ≤ width := by omega
  have hil : (blanks ind).length = ind := by simp [blanks]
  have key : formatUsage width pre prog a = some (pre ++ joinLines (wrapped width pre prog opt pos) ++ ['\n', '\n']) := by
    unfold formatUsage
    rw [hg, hn]
    simp only [Bool.false_eq_true, if_false]
    rw [if_pos hw, po, pp, if_neg (by rw [hopt, hpos]; simp)]
  rw [key]
  unfold wrapped
  rw [if_pos hs]
  by_cases h0 : opt = []
  · have h1 : pos ≠ [] := by rw [h0] at hne; simpa using hne
    obtain ⟨g, gs, e1, e2, e3⟩ := first_spec width (blanks ind) pre prog pos hfit
    refine ⟨g, gs, [], ?_, by simpa [h0] using e2, by simp [h0], by rw [hil] at e3; exact e3, trivial⟩
    simp only [h0, ne_eq, not_true_eq_false, if_false, h1, not_false_eq_true, if_true, List.append_nil]
    show some (pre ++ joinLines (getLines width (prog :: pos) (blanks ind) (some pre)) ++ _) = _
    rw [e1]
    rfl
  · obtain ⟨g, gs, e1, e2, e3⟩ := first_spec width (blanks ind) pre prog opt hfit
    obtain ⟨hs', f1, f2, f3, -⟩ := plain_spec width (blanks ind) pos
    refine ⟨g, gs, hs', ?_, by simpa [h0] using e2, by simpa [h0] using f2, by rw [hil] at e3; exact e3, by rw [hil] at f3; exact f3⟩
    simp only [ne_eq, h0, not_false_eq_true, if_true]
    show some (pre ++ joinLines (getLines width (prog :: opt) (blanks ind) (some pre) ++
      getLines width pos (blanks ind) none) ++ _) = _
    rw [e1, f1, List.map_append]
    rfl

/-- **C138**, long names: if the name of the program is long, it has a line of its own; the parts follow in one line, or, if they
are too long for that, the options and then the positional arguments in lines that are filled. -/
theorem C138_long_name (width : Nat) (pre prog : Str) (a : Actions) (hg : a.given = none) (hn : a.none' = false)
    (opt pos : List Str) (ho : ∀ i ∈ opt, Item i) (hp : ∀ i ∈ pos, Item i) (hopt : a.opt = join opt) (hpos : a.pos = join pos)
    (hw : width < pre.length + (join ([prog, a.all].filter (· ≠ []))).length)
    (hs : ¬ 4 * (pre.length + prog.length) ≤ 3 * width) :
    let ind := pre.length
    ∃ gs, formatUsage width pre prog a = some (pre ++
        joinLines (prog :: gs.map fun g => List.replicate ind ' ' ++ join g) ++ ['\n', '\n']) ∧
      gs.flatten = opt ++ pos ∧
      (Filled width ind ind gs ∧ gs.length ≤ 1 ∨
        ∃ g1 g2, gs = g1 ++ g2 ∧ g1.flatten = opt ∧ g2.flatten = pos ∧ Filled width ind ind g1 ∧ Filled width ind ind g2) := by
  intro ind
  have po : parts a.opt = opt := by rw [hopt]; exact C138_parts opt ho
  have pp : parts a.pos = pos := by rw [hpos]; exact C138_parts pos hp
  have hil : (blanks ind).length = ind := by simp [blanks]
  have key : formatUsage width pre prog a = some (pre ++ joinLines (wrapped width pre prog opt pos) ++ ['\n', '\n']) := by
    unfold formatUsage
    rw [hg, hn]
    simp only [Bool.false_eq_true, if_false]
    rw [if_pos hw, po, pp, if_neg (by rw [hopt, hpos]; simp)]
  rw [key]
  unfold wrapped
  rw [if_neg hs]
  obtain ⟨gs, e1, e2, e3, -⟩ := plain_spec width (blanks ind) (opt ++ pos)
  obtain ⟨g1, f1, f2, f3, -⟩ := plain_spec width (blanks ind) opt
  obtain ⟨g2, k1, k2, k3, -⟩ := plain_spec width (blanks ind) pos
  rw [hil] at e3 f3 k3
  have hlen : (getLines width (opt ++ pos) (blanks pre.length) none).length = gs.length := by
    show (getLines width (opt ++ pos) (blanks ind) none).length = _
    rw [e1]; simp
  by_cases hl : gs.length > 1
  · refine ⟨g1 ++ g2, ?_, by simp [f2, k2], .inr ⟨g1, g2, rfl, f2, k2, f3, k3⟩⟩
    simp only [hlen, if_pos hl]
    show some (pre ++ joinLines (prog :: (getLines width opt (blanks ind) none ++ getLines width pos (blanks ind) none)) ++ _) = _
    rw [f1, k1, List.map_append]
    rfl
  · refine ⟨gs, ?_, e2, .inl ⟨e3, by omega⟩⟩
    simp only [hlen, if_neg hl]
    show some (pre ++ joinLines (prog :: getLines width (opt ++ pos) (blanks ind) none) ++ _) = _
    rw [e1]
    rfl

/-- **C138**, given texts: a usage text that was given is shown as it is. -/
theorem C138_given (width : Nat) (pre prog u : Str) (a : Actions) (h : a.given = some u) :
    formatUsage width pre prog a = some (pre ++ u ++ ['\n', '\n']) := by
  unfold formatUsage
  rw [h]

/-- **C138** does not hold for arguments whose names have brackets in them: once the usage is too wide, help is not shown at all but
raises `AssertionError`. -/
theorem C138_brackets_violated :
    formatUsage 80 "usage: ".toList "tool".toList ⟨none, false, "[--opt [a]b]".toList, "[--opt [a]b]".toList, []⟩ =
      some "usage: tool [--opt [a]b]\n\n".toList ∧
    formatUsage 20 "usage: ".toList "tool".toList ⟨none, false, "[--opt [a]b]".toList, "[--opt [a]b]".toList, []⟩ = none := by
  constructor <;> decide +kernel

/-! ## Concrete cases -/

/-- The options and positional arguments of a tool. -/
def exOpt : List Str := ["[-h]".toList, "[--format FORMAT]".toList, "[--list [ITEM ...]]".toList]
def exPos : List Str := ["SESSION".toList, "(a | b)".toList]

theorem exItems : (∀ i ∈ exOpt, Item i) ∧ ∀ i ∈ exPos, Item i := by
  constructor
  · intro i hi
    simp only [exOpt, List.mem_cons, List.not_mem_nil, or_false] at hi
    rcases hi with rfl | rfl | rfl
    · exact Item.square "-h".toList 0 (by decide)
    · exact Item.square "--format FORMAT".toList 0 (by decide)
    · exact Item.square "--list [ITEM ...".toList 1 (by decide)
  · intro i hi
    simp only [exPos, List.mem_cons, List.not_mem_nil, or_false] at hi
    rcases hi with rfl | rfl
    · exact Item.word 'S' "ESSION".toList (by decide) (by decide)
    · exact Item.round "a | b".toList 0 (by decide)

def exActions : Actions := ⟨none, false, join (exOpt ++ exPos), join exOpt, join exPos⟩

/-- The hypotheses of `C138_short_name`, and the text; the last option does not fit into any line. -/
example : 30 < "usage: ".toList.length + (join (["tool".toList, exActions.all].filter (· ≠ []))).length ∧
    4 * ("usage: ".toList.length + "tool".toList.length) ≤ 3 * 30 ∧ exOpt ++ exPos ≠ [] ∧
    formatUsage 30 "usage: ".toList "tool".toList exActions = some
      ("usage: tool [-h]\n" ++
       "            [--format FORMAT]\n" ++
       "            [--list [ITEM ...]]\n" ++
       "            SESSION (a | b)\n\n").toList := by decide +kernel

/-- The hypotheses of `C138_long_name`; there is an empty line before a part that is too long. -/
example : 16 < "usage: ".toList.length + (join (["a-long-tool".toList, exActions.all].filter (· ≠ []))).length ∧
    ¬ 4 * ("usage: ".toList.length + "a-long-tool".toList.length) ≤ 3 * 16 ∧
    formatUsage 16 "usage: ".toList "a-long-tool".toList { exActions with opt := "[--format FORMAT]".toList } = some
      ("usage: a-long-tool\n" ++
       "       \n" ++
       "       [--format FORMAT]\n" ++
       "       SESSION\n" ++
       "       (a | b)\n\n").toList := by decide +kernel

end Verif.UsageText
