import Verif.Model.Config
import Verif.Model.Text
import Verif.Model.Sort

/-!
# The text of a configuration file

Model of `PlainBoxConfigParser.write` and of the reading of text behind `Config.read` and
`Config.read_string` (plainbox/impl/secure/config.py, "config").  The reader itself is the class
`RawConfigParser` of the standard library as this code sets it up (`allow_no_value=True`,
`delimiters=('=')`, option names kept); it is modelled line by line from `_read` and
`_join_multiline_values` of Python 3.12.

Left out: encodings and files that cannot be opened (they are skipped), numbers of lines in exceptions.
-/

namespace Verif.IniText

open Verif.Restart (Str)
open Verif.Text
open Verif.Config (DEFAULT)

/-- An option of a section. (Keys of the dictionaries of a parser, config 508-546.) -/
abbrev Key := Str × Str

/-- `dict[key]` (standard library, used in config 523-546). -/
def find {V : Type} (k : Key) : List (Key × V) → Option V
  | [] => none
  | (j, v) :: d => if j = k then some v else find k d

/-- `dict[key] = value` (standard library, used in config 523-546). -/
def put {V : Type} (k : Key) (v : V) : List (Key × V) → List (Key × V)
  | [] => [(k, v)]
  | (j, w) :: d => if j = k then (j, v) :: d else (j, w) :: put k v d

/-- The data of a parser: the sections in their order (`DEFAULT` is not one of them), and the options with
their values; an option may have none. (`_sections` and `_defaults`, used in config 434-439.) -/
structure Data where
  sections : List Str
  opts : List (Key × Option Str)
deriving DecidableEq, Repr

/-- A new parser. (config 576, 630) -/
def noData : Data := { sections := [], opts := [] }

/-- The options of one section. (`self._sections[section].items()`, config 436, 439) -/
def Data.of (d : Data) (s : Str) : List (Str × Option Str) :=
  (d.opts.filter fun e => e.1.1 = s).map fun e => (e.1.2, e.2)

/-! ## Writing -/

/-- `value.replace('\n', '\n\t')` (standard library, `_write_section`, called in config 435-439). -/
def tabbed : Str → Str
  | [] => []
  | c :: s => if c = '\n' then '\n' :: '\t' :: tabbed s else c :: tabbed s

/-- One option, with the spaces of config 431: `key = value`, or the key alone.
(Standard library, `_write_section`, called in config 435-439.) -/
def writeOption (e : Str × Option Str) : Str :=
  match e.2 with
  | none => e.1 ++ ['\n']
  | some v => e.1 ++ " = ".toList ++ tabbed v ++ ['\n']

/-- `_write_section` of the standard library, called in config 435-439 with sorted options. -/
def writeSection (s : Str) (es : List (Str × Option Str)) : Str :=
  '[' :: s ++ "]\n".toList ++ (Sort.sortBy (fun a b => Sort.strLe a.1 b.1) es).flatMap writeOption ++ ['\n']

/-- `PlainBoxConfigParser.write` (config 422-439); names are different, so sorting pairs is sorting names. -/
def write (d : Data) : Str :=
  (if d.of DEFAULT = [] then [] else writeSection DEFAULT (d.of DEFAULT)) ++
    d.sections.flatMap fun s => writeSection s (d.of s)

/-! ## Reading -/

/-- A value while a file is read: `None`, a text from before, or the lines found so far.
(Standard library, `_read`, behind config 582 and 636.) -/
inductive Raw
  | unset
  | text (s : Str)
  | lines (l : List Str)
deriving DecidableEq, Repr

/-- What comes out of reading: four kinds of `configparser.Error`, and `AttributeError`.
(Standard library, `_read`, behind config 582 and 636.) -/
inductive Exc
  | duplicateSection
  | duplicateOption
  | missingHeader
  | parsing
  | attribute
deriving DecidableEq, Repr

/-- The variables of `_read`: the dictionaries, `sectname` (once `cursect` is set), `optname`,
`indent_level`, `elements_added` (sections, options) and whether `e` is set.
(Standard library, behind config 582 and 636.) -/
structure St where
  sections : List Str
  opts : List (Key × Raw)
  cur : Option Str
  opt : Option Str
  indent : Nat
  addedS : List Str
  addedO : List Key
  bad : Bool
deriving DecidableEq, Repr

/-- A line that holds a comment, given without white space around it.
(`_comment_prefixes`, standard library, behind config 582 and 636.) -/
def isComment (full : Str) : Bool := full.head? = some '#' || full.head? = some ';'

/-- `SECTCRE.match(value)`: the text between the first bracket and the last one that closes; Python before
3.11 takes the first one that closes. (Standard library, behind config 582 and 636.) -/
def header : Str → Option Str
  | '[' :: r =>
    match r.reverse.dropWhile (· ≠ ']') with
    | [] => none
    | _ :: p => if p = [] then none else some p.reverse
  | _ => none

/-- `_optcre.match(value)`: the name, and the value if there is a `=`. (The expression of `allow_no_value`,
with the delimiters of config 576 and 630; standard library.) -/
def splitOption (full : Str) : Str × Option Str :=
  (rstrip (full.takeWhile (· ≠ '=')),
    match full.dropWhile (· ≠ '=') with
    | [] => none
    | _ :: v => some (strip v))

/-- `cursect[optname].append(value)`; only lists have `append`.
(Standard library, `_read`, behind config 582 and 636.) -/
def append (k : Key) (value : Str) (st : St) : Except Exc St :=
  match find k st.opts with
  | some (.lines l) => .ok { st with opts := put k (.lines (l ++ [value])) st.opts }
  | _ => .error .attribute

/-- A line with nothing on it: an empty line of the value that is being read, if there is one.
(Standard library, `_read`, behind config 582 and 636.) -/
def blank (st : St) : Except Exc St :=
  match st.cur, st.opt with
  | some s, some o =>
    if o = [] then .ok st
    else if find (s, o) st.opts = some .unset then .ok st
    else append (s, o) [] st
  | _, _ => .ok st

/-- A section header. (Standard library, `_read`, behind config 582 and 636.) -/
def openSection (s : Str) (st : St) : Except Exc St :=
  if s ∈ st.sections then
    if s ∈ st.addedS then .error .duplicateSection
    else .ok { st with cur := some s, opt := none, addedS := st.addedS ++ [s] }
  else if s = DEFAULT then .ok { st with cur := some s, opt := none }
  else .ok { st with
    sections := st.sections ++ [s], cur := some s, opt := none, addedS := st.addedS ++ [s] }

/-- An option line in a section. (Standard library, `_read`, behind config 582 and 636.) -/
def addOption (s : Str) (e : Str × Option Str) (st : St) : Except Exc St :=
  if (s, e.1) ∈ st.addedO then .error .duplicateOption
  else .ok { st with
    opts := put (s, e.1) (match e.2 with | none => .unset | some v => .lines [v]) st.opts,
    opt := some e.1, addedO := st.addedO ++ [(s, e.1)], bad := st.bad || e.1 = [] }

/-- A line that does not continue a value. (Standard library, `_read`, behind config 582 and 636.) -/
def newLine (full : Str) (st : St) : Except Exc St :=
  match header full with
  | some s => openSection s st
  | none =>
    match st.cur with
    | none => .error .missingHeader
    | some s => addOption s (splitOption full) st

/-- `NONSPACECRE.search(line).start()` (standard library, `_read`, behind config 582 and 636). -/
def indentOf (line : Str) : Nat := (line.takeWhile isSpace).length

/-- The option that a line indented by `n` continues, if any.
(Standard library, `_read`, behind config 582 and 636.) -/
def continued (n : Nat) (st : St) : Option Key :=
  match st.cur, st.opt with
  | some s, some o => if o ≠ [] ∧ st.indent < n then some (s, o) else none
  | _, _ => none

/-- One line: the body of the loop of `_read`. (Standard library, behind config 582 and 636.) -/
def step (line : Str) (st : St) : Except Exc St :=
  if isComment (strip line) then .ok st
  else if strip line = [] then blank st
  else match continued (indentOf line) st with
    | some k => append k (strip line) st
    | none => newLine (strip line) { st with indent := indentOf line }

/-- The loop of `_read`, with the state in which it ends or fails.
(Standard library, behind config 582 and 636.) -/
def loop : List Str → St → St × Option Exc
  | [], st => (st, if st.bad then some .parsing else none)
  | l :: ls, st =>
    match step l st with
    | .ok st' => loop ls st'
    | .error e => (st, some e)

/-- `_join_multiline_values` for one value. (Standard library, behind config 582 and 636.) -/
def joined : Raw → Option Str
  | .unset => none
  | .text s => some s
  | .lines l => some (rstrip (joinWith '\n' l))

/-- A value of the parser when the next file is read. (Standard library, behind config 636.) -/
def asRaw : Option Str → Raw
  | none => .unset
  | some s => .text s

/-- The state in which reading a file begins. (Standard library, `_read`, behind config 582 and 636.) -/
def start (d : Data) : St :=
  { sections := d.sections, opts := d.opts.map fun e => (e.1, asRaw e.2), cur := none, opt := none,
    indent := 0, addedS := [], addedO := [], bad := false }

/-- `_read`: the data of the parser afterwards and the exception, if any; the data read before an exception
stay in the parser. (`parser.read_string`, config 581-584; standard library.) -/
def read (d : Data) (text : Str) : Data × Option Exc :=
  let r := loop (linesKeep text) (start d)
  ({ sections := r.1.sections, opts := r.1.opts.map fun e => (e.1, joined e.2) }, r.2)

/-- The translation of line ends when a file is read as text: `\r\n` and `\r` are `\n`; `after` tells that a
`\r` comes before. (Standard library, behind config 636.) -/
def newlines (after : Bool) : Str → Str
  | [] => []
  | c :: s =>
    if c = '\r' then '\n' :: newlines true s
    else if after = true ∧ c = '\n' then newlines false s
    else c :: newlines false s

/-- What is read from a file opened as text. (Standard library, behind config 636.) -/
def universal (s : Str) : Str := newlines false s

/-- `parser.read(filename_list)` for the contents of the files that exist, one after the other; an exception
comes out at once. (config 636; standard library.) -/
def readFiles : List Str → Data → Data × Option Exc
  | [], d => (d, none)
  | t :: ts, d =>
    match read d (universal t) with
    | (d', none) => readFiles ts d'
    | (d', some e) => (d', some e)

/-! ## Use by `Config` -/

/-- The parser object that `get_parser_obj` makes (config 508-546), of which only options with values
are part. -/
def ofConfig (d : Config.Data) : Data :=
  { sections := d.sections, opts := d.opts.map fun e => (e.1, some e.2) }

/-- `ConfigParser.get` on data that were read: the section must exist, `DEFAULT` is behind every section,
percent signs are read by `Config.interp`. (Standard library, behind `parser.get` in config 643-685.) -/
def Data.get (d : Data) : Config.Parser := fun sec opt =>
  if sec = DEFAULT ∨ sec ∈ d.sections then
    match (find (sec, opt) d.opts).or (find (DEFAULT, opt) d.opts) with
    | none => .missing
    | some none => .value none
    | some (some v) => match Config.interp v with
      | none => .error
      | some s => .value (some s)
  else .missing

/-- `Config.read_string` (config 548-590) on a text: `configparser.Error` is caught and recorded,
`AttributeError` is not; sections are left out. The flag tells that an exception comes out. -/
def readString (w : Config.World) (xs : List Config.Var) (whole : Config.St → Config.Verdict) (text : Str)
    (st : Config.St) : Config.St × Bool :=
  match read noData text with
  | (_, some .attribute) => ({ st with problems := [] }, true)
  | (d, e) => Config.readCommit w xs d.get false whole
      { st with problems := if e.isSome then [.syntax] else [] }

end Verif.IniText
