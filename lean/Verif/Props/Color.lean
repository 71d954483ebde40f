import Verif.Model.Color

/-! # Property C137: colours change how the text looks and nothing else -/

namespace Verif.Color

/-! ## Specification: a terminal -/

/-- The colours a terminal knows, in the order of their numbers. -/
inductive Hue
  | black | red | green | yellow | blue | magenta | cyan | white
deriving DecidableEq, Repr

/-- The name of a colour. -/
def Hue.name : Hue → Str
  | .black => "BLACK".toList
  | .red => "RED".toList
  | .green => "GREEN".toList
  | .yellow => "YELLOW".toList
  | .blue => "BLUE".toList
  | .magenta => "MAGENTA".toList
  | .cyan => "CYAN".toList
  | .white => "WHITE".toList

/-- The colours by number. -/
def Hue.byNumber : Nat → Option Hue
  | 0 => some .black
  | 1 => some .red
  | 2 => some .green
  | 3 => some .yellow
  | 4 => some .blue
  | 5 => some .magenta
  | 6 => some .cyan
  | 7 => some .white
  | _ => none

/-- How characters look; `none` is the default of the terminal. -/
structure Look where
  fg : Option Hue := none
  bg : Option Hue := none
  bright : Bool := false
  dim : Bool := false
deriving DecidableEq, Repr

/-- The control function "select graphic rendition" of ECMA-48. -/
def select (k : Look) (n : Nat) : Look :=
  if n = 0 then {}
  else if n = 1 then { k with bright := true }
  else if n = 2 then { k with dim := true }
  else if n = 22 then { k with bright := false, dim := false }
  else if n = 39 then { k with fg := none }
  else if n = 49 then { k with bg := none }
  else if 30 ≤ n ∧ n < 38 then { k with fg := Hue.byNumber (n - 30) }
  else if 40 ≤ n ∧ n < 48 then { k with bg := Hue.byNumber (n - 40) }
  else k

/-- Where a terminal is: in text, after the escape character, or in the parameters of a control sequence. -/
inductive Mode
  | text
  | esc
  | csi (done : List Nat) (cur : Nat)
deriving DecidableEq, Repr

/-- A terminal: what it has shown, and its state. -/
structure Term where
  shown : List (Char × Look) := []
  look : Look := {}
  mode : Mode := .text
deriving DecidableEq, Repr

/-- A terminal gets a character. -/
def Term.put (t : Term) (c : Char) : Term :=
  match t.mode with
  | .text => if c = ESC then { t with mode := .esc } else { t with shown := t.shown ++ [(c, t.look)] }
  | .esc => if c = '[' then { t with mode := .csi [] 0 } else { t with mode := .text }
  | .csi ps n =>
    if '0' ≤ c ∧ c ≤ '9' then { t with mode := .csi ps (10 * n + (c.toNat - '0'.toNat)) }
    else if c = ';' then { t with mode := .csi (ps ++ [n]) 0 }
    else if c = 'm' then { t with look := (ps ++ [n]).foldl select t.look, mode := .text }
    else { t with mode := .text }

/-- A terminal gets a text. -/
def Term.get (t : Term) (s : Str) : Term := s.foldl Term.put t

/-- Text without the escape character. -/
def Plain (s : Str) : Prop := ESC ∉ s

instance (s : Str) : Decidable (Plain s) := by unfold Plain; infer_instance

/-- Colours are written, unless they are off or cannot be used. -/
def colours : Colorizer := ⟨true, false⟩

/-- Colours are not written. -/
def noColours : Colorizer := ⟨false, false⟩

/-! ## Lemmas -/

theorem get_append (t : Term) (a b : Str) : t.get (a ++ b) = (t.get a).get b := List.foldl_append

theorem get_plain (k : Look) : ∀ (s : Str) (sh : List (Char × Look)), Plain s →
    Term.get ⟨sh, k, .text⟩ s = ⟨sh ++ s.map fun c => (c, k), k, .text⟩
  | [], sh, _ => by simp [Term.get]
  | c :: s, sh, h => by
    have hc : c ≠ ESC := fun e => h (by simp [e])
    have hs : Plain s := fun e => h (by simp [e])
    have := get_plain k s (sh ++ [(c, k)]) hs
    simp only [Term.get, List.foldl_cons, Term.put, if_neg hc] at this ⊢
    rw [this]
    simp

theorem get_digits (sh : List (Char × Look)) (k : Look) (ps : List Nat) : ∀ (s : Str) (n : Nat), (∀ c ∈ s, c.isDigit = true) →
    Term.get ⟨sh, k, .csi ps n⟩ s = ⟨sh, k, .csi ps (Nat.ofDigitChars 10 s n)⟩
  | [], n, _ => by simp [Term.get]
  | c :: s, n, h => by
    have hc := h c (by simp)
    have hd : '0' ≤ c ∧ c ≤ '9' := by
      simp only [Char.isDigit, Bool.and_eq_true, decide_eq_true_eq] at hc
      exact hc
    have := get_digits sh k ps s (10 * n + (c.toNat - '0'.toNat)) fun x hx => h x (by simp [hx])
    simp only [Term.get, List.foldl_cons, Term.put, if_pos hd] at this ⊢
    rw [this, Nat.ofDigitChars_cons]

theorem get_seq (sh : List (Char × Look)) (k : Look) (n : Nat) :
    Term.get ⟨sh, k, .text⟩ (colours.seq n) = ⟨sh, select k n, .text⟩ := by
  have h0 : colours.seq n = [ESC, '['] ++ (Nat.toDigits 10 n ++ ['m']) := rfl
  have h1 : Term.get ⟨sh, k, .text⟩ [ESC, '['] = ⟨sh, k, .csi [] 0⟩ := by
    simp [Term.get, Term.put]
  rw [h0, get_append, h1, get_append, get_digits _ _ _ _ _ fun c hc => Nat.isDigit_of_mem_toDigits (by decide) (by decide) hc,
    Nat.ofDigitChars_ten_toDigits]
  have h2 : ¬ ('0' ≤ 'm' ∧ 'm' ≤ '9') := by decide
  simp only [Term.get, List.foldl_cons, List.foldl_nil, Term.put, if_neg h2]
  rfl

theorem noseq (n : Nat) : noColours.seq n = [] := rfl

/-- The number of a colour. -/
def Hue.num : Hue → Nat
  | .black => 30
  | .red => 31
  | .green => 32
  | .yellow => 33
  | .blue => 34
  | .magenta => 35
  | .cyan => 36
  | .white => 37

theorem attr_hue (c : Colorizer) (h : Hue) (name : Str) (hn : name.map Char.toUpper = h.name) :
    c.attr fTable name = some (c.seq h.num) := by
  unfold Colorizer.attr
  rw [hn]
  have : fTable.lookup h.name = some h.num := by cases h <;> decide +kernel
  rw [this]
  rfl

theorem select_hue (k : Look) (h : Hue) : select k h.num = { k with fg := some h } := by
  cases h <;> rfl

/-! ## Property theorems -/

/-- **C137**, one text: the terminal shows the text and nothing else, in the colour that was named, in capital letters or not, and
bright if asked for; afterwards everything is as on a fresh terminal. -/
theorem C137_call (sh : List (Char × Look)) (k : Look) (text name : Str) (h : Hue) (hn : name.map Char.toUpper = h.name)
    (bright : Bool) (hp : Plain text) :
    ∃ out, colours.call text name bright = some out ∧
      Term.get ⟨sh, k, .text⟩ out =
        ⟨sh ++ text.map fun c => (c, { k with fg := some h, bright := bright || k.bright }), {}, .text⟩ := by
  refine ⟨_, by unfold Colorizer.call; rw [attr_hue colours h name hn], ?_⟩
  rw [get_append, get_append, get_append, get_seq, select_hue]
  cases bright with
  | true =>
    simp only [if_true]
    rw [get_seq, get_plain _ _ _ hp, get_seq]
    rfl
  | false =>
    simp only [Bool.false_eq_true, if_false, Bool.false_or]
    have : Term.get ⟨sh, { k with fg := some h }, .text⟩ [] = ⟨sh, { k with fg := some h }, .text⟩ := rfl
    rw [this, get_plain _ _ _ hp, get_seq]
    rfl

/-- **C137**, no colours: exactly the text is written. -/
theorem C137_off (text name : Str) (h : Hue) (hn : name.map Char.toUpper = h.name) (bright : Bool) (ansi : Str) :
    noColours.call text name bright = some text ∧ noColours.custom text ansi = text := by
  constructor
  · unfold Colorizer.call
    rw [attr_hue noColours h name hn]
    cases bright <;> simp [noseq]
  · simp [Colorizer.custom, Colorizer.enabled, noColours, Colorizer.seq]

/-- How outcomes are to look. -/
def outcomeLook : Option Str → Option Look
  | none => some {}
  | some o =>
    if o = "pass".toList then some { fg := some .green, bright := true }
    else if o = "fail".toList ∨ o = "not-implemented".toList then some { fg := some .red, bright := true }
    else if o = "skip".toList ∨ o = "not-supported".toList then some { fg := some .yellow, bright := true }
    else if o = "undecided".toList then some { fg := some .magenta, bright := true }
    else if o = "crash".toList then some { fg := some .white, bg := some .red, bright := true }
    else none

theorem ansi_look (o : Option Str) (a : Str) (h : outcomeAnsi.lookup o = some a) (sh : List (Char × Look)) :
    ∃ k, outcomeLook o = some k ∧ Term.get ⟨sh, {}, .text⟩ a = ⟨sh, k, .text⟩ := by
  have hm : (o, a) ∈ outcomeAnsi := by
    have : ∀ l : List (Option Str × Str), l.lookup o = some a → (o, a) ∈ l := by
      intro l
      induction l with
      | nil => simp
      | cons p l ih =>
        intro h
        rw [List.lookup_cons] at h
        split at h
        · rename_i heq
          have : o = p.1 := by simpa using heq
          simp only [Option.some.injEq] at h
          rw [this, ← h]
          simp
        · simp [ih h]
    exact this _ h
  have hall : ∀ p ∈ outcomeAnsi, ∃ k, outcomeLook p.1 = some k ∧ Term.get ⟨[], {}, .text⟩ p.2 = ⟨[], k, .text⟩ := by
    intro p hp
    have : (outcomeLook p.1).isSome = true ∧
        Term.get ⟨[], {}, .text⟩ p.2 = ⟨[], (outcomeLook p.1).getD {}, .text⟩ := by
      revert p
      decide +kernel
    obtain ⟨k, hk⟩ := Option.isSome_iff_exists.mp this.1
    exact ⟨k, hk, by rw [this.2, hk]; rfl⟩
  -- what was shown before does not matter
  have frame : ∀ (s : Str) (t : Term), (Term.get { t with shown := sh ++ t.shown } s) =
      { Term.get t s with shown := sh ++ (Term.get t s).shown } := by
    intro s
    induction s with
    | nil => intro t; rfl
    | cons c s ih =>
      intro t
      have : Term.put { t with shown := sh ++ t.shown } c = { Term.put t c with shown := sh ++ (Term.put t c).shown } := by
        unfold Term.put
        cases t.mode with
        | text => dsimp only; split <;> simp
        | esc => dsimp only; split <;> rfl
        | csi ps n => 
          dsimp only
          split
          · rfl
          · split
            · rfl
            · split <;> rfl
      simp only [Term.get, List.foldl_cons] at ih ⊢
      rw [this, ih]
  obtain ⟨k, hk, hg⟩ := hall _ hm
  refine ⟨k, hk, ?_⟩
  have := frame a ⟨[], {}, .text⟩
  simp only [List.append_nil] at this
  rw [this, hg]
  simp

/-- **C137**, outcomes: on a fresh terminal the text of an outcome is shown in the look of this outcome, and afterwards the
terminal is as before; there is a look for exactly the known outcomes. -/
theorem C137_outcome (sh : List (Char × Look)) (text : Str) (o : Option Str) (hp : Plain text) :
    (∀ out, colours.result text o = some out → ∃ k, outcomeLook o = some k ∧
      Term.get ⟨sh, {}, .text⟩ out = ⟨sh ++ text.map fun c => (c, k), {}, .text⟩) ∧
    (colours.result text o = none ↔ outcomeLook o = none) := by
  constructor
  · intro out h
    unfold Colorizer.result at h
    cases ha : outcomeAnsi.lookup o with
    | none => simp [ha] at h
    | some a =>
      simp only [ha, Option.map_some, Option.some.injEq] at h
      obtain ⟨k, hk, hg⟩ := ansi_look o a ha sh
      refine ⟨k, hk, ?_⟩
      rw [← h]
      unfold Colorizer.custom
      rw [get_append, get_append]
      simp only [Colorizer.enabled, colours, Bool.or_false, if_true]
      rw [hg, get_plain _ _ _ hp]
      exact get_seq _ _ 0
  · unfold Colorizer.result
    simp only [Option.map_eq_none_iff]
    constructor
    · intro h
      cases o with
      | none => exact absurd h (by decide +kernel)
      | some o =>
        unfold outcomeLook
        by_cases h1 : o = "pass".toList
        · subst h1; exact absurd h (by decide +kernel)
        by_cases h2 : o = "fail".toList
        · subst h2; exact absurd h (by decide +kernel)
        by_cases h3 : o = "not-implemented".toList
        · subst h3; exact absurd h (by decide +kernel)
        by_cases h4 : o = "skip".toList
        · subst h4; exact absurd h (by decide +kernel)
        by_cases h5 : o = "not-supported".toList
        · subst h5; exact absurd h (by decide +kernel)
        by_cases h6 : o = "undecided".toList
        · subst h6; exact absurd h (by decide +kernel)
        by_cases h7 : o = "crash".toList
        · subst h7; exact absurd h (by decide +kernel)
        dsimp only
        rw [if_neg h1, if_neg (not_or.mpr ⟨h2, h3⟩), if_neg (not_or.mpr ⟨h4, h5⟩), if_neg h6, if_neg h7]
    · intro h
      cases hl : outcomeAnsi.lookup o with
      | none => rfl
      | some a =>
        obtain ⟨k, hk, _⟩ := ansi_look o a hl []
        rw [h] at hk
        simp at hk

/-- Something that is written: plain text, coloured text, a header, the text of an outcome. -/
inductive Item
  | raw (text : Str)
  | tint (h : Hue) (bright : Bool) (text : Str)
  | head (h : Hue) (bright : Bool) (fill : Char) (text : Str)
  | result (o : Option Str) (text : Str)

/-- An item is made of plain text, and of a known outcome. -/
def Item.ok : Item → Prop
  | .raw t => Plain t
  | .tint _ _ t => Plain t
  | .head _ _ f t => Plain t ∧ f ≠ ESC
  | .result o t => Plain t ∧ outcomeLook o ≠ none

/-- What is written for an item. -/
def Item.out (c : Colorizer) : Item → Str
  | .raw t => t
  | .tint h b t => (c.call t h.name b).getD []
  | .head h b f t => (c.header t h.name b f).getD []
  | .result o t => (c.result t o).getD []

theorem plain_append {a b : Str} (ha : Plain a) (hb : Plain b) : Plain (a ++ b) := by
  unfold Plain at *
  simp [ha, hb]

theorem plain_center {f : Char} {s : Str} (hs : Plain s) (hf : f ≠ ESC) (n : Nat) : Plain (center n f s) := by
  have hr : ∀ m, Plain (List.replicate m f) := fun m h => hf (List.eq_of_mem_replicate h).symm
  exact plain_append (plain_append (hr _) hs) (hr _)

theorem upper_name (h : Hue) : h.name.map Char.toUpper = h.name := by cases h <;> decide +kernel

/-- **C137**, everything: whatever is written, a terminal shows the same characters with colours as without them, and is fresh at
the end. -/
theorem C137_same_text (l : List Item) (hok : ∀ i ∈ l, i.ok) :
    ((Term.get {} (l.flatMap (Item.out colours))).shown.map (·.1) = l.flatMap (Item.out noColours)) ∧
    (Term.get {} (l.flatMap (Item.out colours))).look = {} ∧ (Term.get {} (l.flatMap (Item.out colours))).mode = .text := by
  have one : ∀ (i : Item) (sh : List (Char × Look)), i.ok → ∃ new, Term.get ⟨sh, {}, .text⟩ (i.out colours) = ⟨sh ++ new, {}, .text⟩ ∧
      new.map (·.1) = i.out noColours := by
    intro i sh hi
    cases i with
    | raw t => exact ⟨_, get_plain {} t sh hi, by simp [Item.out, Function.comp_def]⟩
    | tint h b t =>
      obtain ⟨out, h1, h2⟩ := C137_call sh {} t h.name h (upper_name h) b hi
      refine ⟨_, by simpa only [Item.out, h1, Option.getD_some] using h2, ?_⟩
      simp [Item.out, (C137_off t h.name h (upper_name h) b []).1, Function.comp_def]
    | head h b f t =>
      have hp : Plain (center 80 f ("[ ".toList ++ t ++ " ]".toList)) :=
        plain_center (plain_append (plain_append (by decide) hi.1) (by decide)) hi.2 80
      obtain ⟨out, h1, h2⟩ := C137_call sh {} _ h.name h (upper_name h) b hp
      refine ⟨_, by simpa only [Item.out, Colorizer.header, h1, Option.getD_some] using h2, ?_⟩
      simp only [Item.out, Colorizer.header, (C137_off _ h.name h (upper_name h) b []).1, List.map_map, Function.comp_def,
        List.map_id', Option.getD_some]
    | result o t =>
      obtain ⟨h1, h2⟩ := C137_outcome sh t o hi.1
      cases hr : colours.result t o with
      | none => exact absurd (h2.mp hr) hi.2
      | some out =>
        obtain ⟨k, _, hk⟩ := h1 out hr
        refine ⟨_, by simpa only [Item.out, hr, Option.getD_some] using hk, ?_⟩
        have : noColours.result t o = some t := by
          unfold Colorizer.result at hr ⊢
          cases ha : outcomeAnsi.lookup o with
          | none => simp [ha] at hr
          | some a => simp [Colorizer.custom, Colorizer.enabled, Colorizer.seq, noColours]
        simp [Item.out, this, Function.comp_def]
  have main : ∀ (l : List Item) (sh : List (Char × Look)), (∀ i ∈ l, i.ok) → ∃ new,
      Term.get ⟨sh, {}, .text⟩ (l.flatMap (Item.out colours)) = ⟨sh ++ new, {}, .text⟩ ∧
      new.map (·.1) = l.flatMap (Item.out noColours) := by
    intro l
    induction l with
    | nil => intro sh _; exact ⟨[], by simp [Term.get], rfl⟩
    | cons i l ih =>
      intro sh h
      obtain ⟨n1, a1, a2⟩ := one i sh (h i (by simp))
      obtain ⟨n2, b1, b2⟩ := ih (sh ++ n1) fun j hj => h j (by simp [hj])
      refine ⟨n1 ++ n2, ?_, ?_⟩
      · rw [List.flatMap_cons, get_append, a1, b1, List.append_assoc]
      · rw [List.flatMap_cons, List.map_append, a2, b2]
  obtain ⟨new, h1, h2⟩ := main l [] hok
  have h1' : Term.get {} (l.flatMap (Item.out colours)) = ⟨[] ++ new, {}, .text⟩ := h1
  rw [h1']
  exact ⟨by simpa using h2, rfl, rfl⟩

/-- **C137**, headers: a header is the text in brackets in the middle of a line of 80 characters, or longer if the text is too
long, with equally many fill characters on both sides, up to one. -/
theorem C137_header (text name : Str) (h : Hue) (hn : name.map Char.toUpper = h.name) (bright : Bool) (fill : Char) :
    ∃ a b, noColours.header text name bright fill =
        some (List.replicate a fill ++ ("[ ".toList ++ text ++ " ]".toList) ++ List.replicate b fill) ∧
      a + b + (text.length + 4) = max 80 (text.length + 4) ∧ a ≤ b ∧ b ≤ a + 1 := by
  refine ⟨(80 - (text.length + 4)) / 2, 80 - (text.length + 4) - (80 - (text.length + 4)) / 2, ?_, by omega, by omega, by omega⟩
  unfold Colorizer.header
  rw [(C137_off _ name h hn bright []).1]
  have hl : ("[ ".toList ++ text ++ " ]".toList).length = text.length + 4 := by simp
  simp only [center, hl]
  simp

/-- **C137**, names: exactly the names of the colours and RESET are accepted, and different colours are written differently. -/
theorem C137_names (c : Colorizer) (text name : Str) (bright : Bool) :
    (c.call text name bright = none ↔ ¬ (name.map Char.toUpper = "RESET".toList ∨ ∃ h : Hue, name.map Char.toUpper = h.name)) ∧
    ∀ h h' : Hue, colours.call text h.name bright = colours.call text h'.name bright → h = h' := by
  constructor
  · have hcall : c.call text name bright = none ↔ fTable.lookup (name.map Char.toUpper) = none := by
      unfold Colorizer.call Colorizer.attr
      cases fTable.lookup (name.map Char.toUpper) <;> simp
    rw [hcall]
    generalize name.map Char.toUpper = n
    constructor
    · rintro h (rfl | ⟨hu, rfl⟩)
      · exact absurd h (by decide +kernel)
      · revert h
        cases hu <;> decide +kernel
    · intro h
      simp only [not_or, not_exists] at h
      have e : ∀ x : Str, n ≠ x → (n == x) = false := fun x hx => by simpa using hx
      have k := fun u : Hue => e _ (h.2 u)
      have k1 := k .black; have k2 := k .red; have k3 := k .green; have k4 := k .yellow
      have k5 := k .blue; have k6 := k .magenta; have k7 := k .cyan; have k8 := k .white
      have k9 := e _ h.1
      simp only [Hue.name] at k1 k2 k3 k4 k5 k6 k7 k8
      simp only [fTable, List.lookup_cons, k1, k2, k3, k4, k5, k6, k7, k8, k9, List.lookup_nil]
  · intro h h' he
    unfold Colorizer.call at he
    rw [attr_hue colours h _ (upper_name h), attr_hue colours h' _ (upper_name h')] at he
    simp only [Option.some.injEq, List.append_assoc] at he
    have hlen : (colours.seq h.num).length = (colours.seq h'.num).length := by cases h <;> cases h' <;> decide +kernel
    have hseq := (List.append_inj he hlen).1
    revert hseq
    cases h <;> cases h' <;> decide +kernel

/-- **C137**, the choice: colours are on exactly if they were asked for, or nothing was said and the output is a terminal. -/
theorem C137_choice (tty : Bool) (a : Arg) :
    mk false tty a = (if a = .yes ∨ (a = .unset ∧ tty = true) then colours else noColours) := by
  cases a <;> cases tty <;> rfl

/-- **C137**, backgrounds: all names but YELLOW give the background they name. -/
theorem C137_background_partial (sh : List (Char × Look)) (k : Look) (h : Hue) (hy : h ≠ .yellow) :
    ∃ out, colours.attr bTable h.name = some out ∧ Term.get ⟨sh, k, .text⟩ out = ⟨sh, { k with bg := some h }, .text⟩ := by
  cases h with
  | yellow => exact absurd rfl hy
  | black => exact ⟨colours.seq 40, by decide +kernel, get_seq _ _ _⟩
  | red => exact ⟨colours.seq 41, by decide +kernel, get_seq _ _ _⟩
  | green => exact ⟨colours.seq 42, by decide +kernel, get_seq _ _ _⟩
  | blue => exact ⟨colours.seq 44, by decide +kernel, get_seq _ _ _⟩
  | magenta => exact ⟨colours.seq 45, by decide +kernel, get_seq _ _ _⟩
  | cyan => exact ⟨colours.seq 46, by decide +kernel, get_seq _ _ _⟩
  | white => exact ⟨colours.seq 47, by decide +kernel, get_seq _ _ _⟩

/-- **C137**, styles: the names of styles give these styles. -/
theorem C137_style (sh : List (Char × Look)) (k : Look) :
    (colours.attr sTable "bright".toList).map (Term.get ⟨sh, k, .text⟩) = some ⟨sh, { k with bright := true }, .text⟩ ∧
    (colours.attr sTable "dim".toList).map (Term.get ⟨sh, k, .text⟩) = some ⟨sh, { k with dim := true }, .text⟩ ∧
    (colours.attr sTable "normal".toList).map (Term.get ⟨sh, k, .text⟩) = some ⟨sh, { k with bright := false, dim := false }, .text⟩ ∧
    (colours.attr sTable "reset_all".toList).map (Term.get ⟨sh, k, .text⟩) = some ⟨sh, {}, .text⟩ := by
  have e1 : colours.attr sTable "bright".toList = some (colours.seq 1) := by decide +kernel
  have e2 : colours.attr sTable "dim".toList = some (colours.seq 2) := by decide +kernel
  have e3 : colours.attr sTable "normal".toList = some (colours.seq 22) := by decide +kernel
  have e4 : colours.attr sTable "reset_all".toList = some (colours.seq 0) := by decide +kernel
  rw [e1, e2, e3, e4]
  simp only [Option.map_some, get_seq]
  exact ⟨rfl, rfl, rfl, rfl⟩

/-- **C137** does not hold for the background YELLOW, which is blue. -/
theorem C137_yellow_violated (sh : List (Char × Look)) (k : Look) :
    (colours.attr bTable Hue.yellow.name).map (Term.get ⟨sh, k, .text⟩) = some ⟨sh, { k with bg := some .blue }, .text⟩ := by
  have e : colours.attr bTable Hue.yellow.name = some (colours.seq 44) := by decide +kernel
  rw [e, Option.map_some, get_seq]
  rfl

/-- **C137** does not hold where `ansi_on` was replaced by `ansi_off`, on Windows without colorama: outcomes are written with the
escape sequence of their colour although no colours are wanted, and nothing ends it, so that everything after it looks like it. -/
theorem C137_windows_violated (tty : Bool) : ∃ out, (mk true tty .no).result "job failed".toList (some "fail".toList) = some out ∧
    (Term.get {} out).look = { fg := some .red, bright := true } :=
  ⟨ESC :: "[31;1mjob failed".toList, by cases tty <;> decide +kernel, by decide +kernel⟩

/-! ## Concrete cases -/

example : "red".toList.map Char.toUpper = Hue.red.name ∧ Plain "some text".toList := by decide +kernel

/-- The look of a text with colours, and of the text after it. -/
example : (Term.get {} (((colours.call "a".toList "red".toList true).getD []) ++ "b".toList)).shown =
    [('a', { fg := some .red, bright := true }), ('b', {})] := by decide +kernel

/-- What is written in a session, with and without colours. -/
example : ∃ l : List Item, (∀ i ∈ l, i.ok) ∧
    l.flatMap (Item.out noColours) = "job: job passed\nred".toList ∧
    (Term.get {} (l.flatMap (Item.out colours))).shown.length = 19 := by
  refine ⟨[.raw "job: ".toList, .result (some "pass".toList) "job passed".toList, .raw "\n".toList, .tint .red false "red".toList],
    ?_, by decide +kernel, by decide +kernel⟩
  intro i hi
  simp only [List.mem_cons, List.not_mem_nil, or_false] at hi
  rcases hi with rfl | rfl | rfl | rfl
  · show Plain _; decide
  · exact ⟨by decide, by decide +kernel⟩
  · show Plain _; decide
  · show Plain _; decide

end Verif.Color
