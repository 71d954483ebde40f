import Verif.Model.Text

/-!
# The usage line of the help text

Models `LegacyHelpFormatter._format_usage` (`plainbox/impl/_argparse.py`, "_argparse"), which all command line tools of plainbox use.

The texts of options and positional arguments that `_format_actions_usage` of the standard library makes are parameters, and so is a
usage text that was given, with `%(prog)s` replaced. The width is not negative.
-/

namespace Verif.UsageText

/-- Texts. (standard library) -/
abbrev Str := List Char

/-- `' '.join(parts)`. (standard library; _argparse 189) -/
def join : List Str → Str
  | [] => []
  | [a] => a
  | a :: b :: l => a ++ ' ' :: join (b :: l)

/-- `'\n'.join(lines)`. (standard library; _argparse 224) -/
def joinLines : List Str → Str
  | [] => []
  | [a] => a
  | a :: b :: l => a ++ '\n' :: joinLines (b :: l)

/-- `.*?x+` of a regular expression: what is matched, and the rest. (standard library; _argparse 172) -/
def closing (x : Char) : Str → Option (Str × Str)
  | [] => none
  | c :: s =>
    if c = x then some (c :: s.takeWhile (· = x), s.dropWhile (· = x))
    else if c = '\n' then none
    else (closing x s).map fun p => (c :: p.1, p.2)

/-- `\(.*?\)+` or `\[.*?\]+` at a character that is not blank. (_argparse 172) -/
def bracket (c : Char) (s : Str) : Option (Str × Str) :=
  if c = '(' then closing ')' s else if c = '[' then closing ']' s else none

theorem closing_le {x : Char} : ∀ {s : Str} {p : Str × Str}, closing x s = some p → p.2.length ≤ s.length
  | [], _, h => by simp [closing] at h
  | c :: s, p, h => by
    simp only [closing] at h
    split at h
    · simp only [Option.some.injEq] at h
      subst h
      have := (List.dropWhile_sublist (fun y => decide (y = x)) (l := s)).length_le
      simp only [List.length_cons]
      omega
    · split at h
      · simp at h
      · simp only [Option.map_eq_some_iff] at h
        obtain ⟨q, hq, rfl⟩ := h
        have := closing_le hq
        simp only [List.length_cons]
        omega

theorem bracket_le {c : Char} {s : Str} {p : Str × Str} (h : bracket c s = some p) : p.2.length ≤ s.length := by
  unfold bracket at h
  split at h
  · exact closing_le h
  · split at h
    · exact closing_le h
    · simp at h

/-- `re.findall(r'\(.*?\)+|\[.*?\]+|\S+', text)`. (standard library; _argparse 172-176) -/
def parts : Str → List Str
  | [] => []
  | c :: s =>
    if Text.isSpace c then parts s
    else
      match _h : bracket c s with
      | some p => (c :: p.1) :: parts p.2
      | none => (c :: s.takeWhile fun x => !Text.isSpace x) :: parts (s.dropWhile fun x => !Text.isSpace x)
termination_by s => s.length
decreasing_by
  · simp
  · have := bracket_le _h
    simp only [List.length_cons]
    omega
  · have := (List.dropWhile_sublist (fun x => !Text.isSpace x) (l := s)).length_le
    simp only [List.length_cons]
    omega

/-- The loop of `get_lines`, _argparse 188-195; `used` is `line_len + 1`. -/
def linesLoop (width : Nat) (indent : Str) : List Str → Nat → List Str → List Str
  | [], _, line => if line = [] then [] else [indent ++ join line]
  | p :: ps, used, line =>
    if used + p.length > width then
      (indent ++ join line) :: linesLoop width indent ps (indent.length + p.length + 1) [p]
    else linesLoop width indent ps (used + p.length + 1) (line ++ [p])

/-- `get_lines`, _argparse 181-199. It is called with a prefix only if there are parts; otherwise `lines[0]` would raise. -/
def getLines (width : Nat) (ps : List Str) (indent : Str) (prefix' : Option Str) : List Str :=
  match prefix' with
  | none => linesLoop width indent ps indent.length []
  | some p =>
    match linesLoop width indent ps p.length [] with
    | [] => []
    | l :: ls => l.drop indent.length :: ls

/-- `' ' * n`. (standard library; _argparse 203, 214) -/
def blanks (n : Nat) : Str := List.replicate n ' '

/-- What the usage is made of: the text that was given, if any, and the formatted actions, all of them, the options, the
positional arguments. (_argparse 141-148, 163, 173-174) -/
structure Actions where
  given : Option Str := none
  none' : Bool := false
  all : Str
  opt : Str
  pos : Str

/-- The lines of a usage that is too long, _argparse 201-221. -/
def wrapped (width : Nat) (pre prog : Str) (opt pos : List Str) : List Str :=
  if 4 * (pre.length + prog.length) ≤ 3 * width then
    let indent := blanks (pre.length + prog.length + 1)
    if opt ≠ [] then getLines width (prog :: opt) indent (some pre) ++ getLines width pos indent none
    else if pos ≠ [] then getLines width (prog :: pos) indent (some pre)
    else [prog]
  else
    let indent := blanks pre.length
    let ls := getLines width (opt ++ pos) indent none
    prog :: (if ls.length > 1 then getLines width opt indent none ++ getLines width pos indent none else ls)

/-- `_format_usage`, _argparse 137-227; `none` is `AssertionError`. -/
def formatUsage (width : Nat) (pre prog : Str) (a : Actions) : Option Str :=
  match a.given with
  | some u => some (pre ++ u ++ ['\n', '\n'])
  | none =>
    if a.none' then some (pre ++ prog ++ ['\n', '\n'])
    else
      let usage := join ([prog, a.all].filter (· ≠ []))
      if pre.length + usage.length > width then
        if join (parts a.opt) ≠ a.opt ∨ join (parts a.pos) ≠ a.pos then none
        else some (pre ++ joinLines (wrapped width pre prog (parts a.opt) (parts a.pos)) ++ ['\n', '\n'])
      else some (pre ++ usage ++ ['\n', '\n'])

end Verif.UsageText
