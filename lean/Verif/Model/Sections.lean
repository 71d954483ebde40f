import Verif.Model.IniText
import Verif.Model.Checksum

/-!
# Sections of a configuration

Model of `Section` and `ParametricSection`, and of what `Config.get_parser_obj`, `Config.read_string`,
`Config.read` and `Config._read_commit` do with them (plainbox/impl/secure/config.py, "config"), together with the
parts of the standard library that they use: `ConfigParser.items`, `ConfigParser.get`, `BasicInterpolation`
(with references to other options), `add_section` and `set`.

Simplifications: a class does not use one name for a section and for a parametric section, so that there are two
dictionaries here for `_section`; the values of sections are texts; all exceptions of interpolation count as one.
-/

namespace Verif.Sections

open Verif.Restart (Str settable)
open Verif.IniText (Key Data find)
open Verif.Config (DEFAULT)
open Verif.Checksum (dictSet)

/-! ## Values -/

/-- `_KEYCRE.match(rest)` on what follows `%(`: the name, and what comes after the reference.
(Standard library, behind config 656 and 670.) -/
def reference (s : Str) : Option (Str × Str) :=
  match s.dropWhile (· ≠ ')') with
  | ')' :: 's' :: r => if s.takeWhile (· ≠ ')') = [] then none else some (s.takeWhile (· ≠ ')'), r)
  | _ => none

/-- The loop of `_interpolate_some`; `ref` gives the text for a name, the number is at least the length of the
text. (Standard library, behind config 656 and 670.) -/
def pieces (ref : Str → Option Str) : Nat → Str → Option Str
  | _, [] => some []
  | 0, _ :: _ => none
  | n + 1, c :: s =>
    if c = '%' then
      if s.head? = some '%' then (pieces ref n s.tail).map ('%' :: ·)
      else if s.head? = some '(' then
        (reference s.tail).bind fun e => (ref e.1).bind fun v => (pieces ref n e.2).map (v ++ ·)
      else none
    else (pieces ref n s).map (c :: ·)

/-- The options that references can name. (`map` in `_interpolate_some`, standard library, behind config 656 and
670.) -/
abbrev Names := Str → Option (Option Str)

/-- `_interpolate_some` with so many levels left; none of them is `InterpolationDepthError`. A reference to an
option without a value is a `TypeError`. (Standard library, behind config 656 and 670.) -/
def expand (names : Names) : Nat → Str → Option Str
  | 0, _ => none
  | n + 1, s => pieces (fun name =>
      match names name with
      | some (some v) => if '%' ∈ v then expand names n v else some v
      | _ => none) s.length s

/-- `MAX_INTERPOLATION_DEPTH` (standard library, behind config 656 and 670). -/
def maxDepth : Nat := 10

/-- The options of a section with `DEFAULT` behind it. (`_unify_values`, and the dictionary in `items`; standard
library, behind config 656 and 670.) -/
def Data.names (d : Data) (s : Str) : Names := fun o => (find (s, o) d.opts).or (find (DEFAULT, o) d.opts)

/-- `parser.get(section, option)` (standard library, used in config 656). -/
def get (d : Data) : Config.Parser := fun s o =>
  if s = DEFAULT ∨ s ∈ d.sections then
    match Data.names d s o with
    | none => .missing
    | some none => .value none
    | some (some v) =>
      match expand (Data.names d s) maxDepth v with
      | none => .error
      | some t => .value (some t)
  else .missing

/-! ## Reading -/

/-- The value of a section. (config 670, 681) -/
abbrev Dict := List (Str × Str)

/-- `list(d.keys())` in `items`: the options of `DEFAULT`, then those of the section.
(Standard library, used in config 670 and 681.) -/
def optionNames (d : Data) (s : Str) : List Str :=
  (d.of DEFAULT).map (·.1) ++ ((d.of s).map (·.1)).filter (· ∉ (d.of DEFAULT).map (·.1))

/-- `value_getter(option)` in `items`: here an option without a value is an empty text.
(Standard library, used in config 670 and 681.) -/
def itemValue (d : Data) (s o : Str) : Option Str :=
  match Data.names d s o with
  | some (some v) => expand (Data.names d s) maxDepth v
  | some none => some []
  | none => none

/-- What `dict(parser.items(section))` gives: `NoSectionError`, another exception, or a dictionary.
(config 670, 681) -/
inductive Items
  | missing
  | error
  | found (l : Dict)
deriving DecidableEq, Repr

/-- The items for given options, if no value raises. (Standard library, used in config 670 and 681.) -/
def itemList (d : Data) (s : Str) : List Str → Option Dict
  | [] => some []
  | o :: os => (itemValue d s o).bind fun v => (itemList d s os).map ((o, v) :: ·)

/-- `dict(parser.items(section))` (config 670, 681). -/
def items (d : Data) (s : Str) : Items :=
  if s = DEFAULT ∨ s ∈ d.sections then
    match itemList d s (optionNames d s) with
    | some l => .found l
    | none => .error
  else .missing

/-- A `Config` object with `_section` (config 469-476). -/
structure St where
  base : Config.St
  secs : List (Str × Dict)
  params : List (Str × List (Str × Dict))

/-- `Config.__init__` (config 469-476). -/
def init : St := { base := Config.init, secs := [], params := [] }

/-- `Section.__get__` (config 300-306); `none` is `Unset`. -/
def St.sec (st : St) (n : Str) : Option Dict := st.secs.lookup n

/-- `Section.__get__` for a parametric section (config 300-306); `none` is `Unset`. -/
def St.param (st : St) (n : Str) : Option (List (Str × Dict)) := st.params.lookup n

/-- The loop over sections (config 666-675); the flag tells that an exception comes out. -/
def readSections (d : Data) : List Str → St → St × Bool
  | [], st => (st, false)
  | n :: ns, st =>
    match items d n with
    | .missing => readSections d ns st
    | .error => (st, true)
    | .found l => readSections d ns { st with secs := dictSet n l st.secs }

/-- `parser.keys()` (standard library, used in config 678). -/
def keys (d : Data) : List Str := DEFAULT :: d.sections

/-- The keys that belong to a parametric section, config 678-679. -/
def matching (d : Data) (n : Str) : List Str := (keys d).filter fun k => (n ++ [':']).isPrefixOf k

/-- The loop over these keys, config 680-683; `none` is an exception. -/
def readParam (d : Data) (n : Str) : List Str → List (Str × Dict) → Option (List (Str × Dict))
  | [], acc => some acc
  | k :: ks, acc =>
    match items d k with
    | .found l => readParam d n ks (dictSet (k.drop (n.length + 1)) l acc)
    | _ => none

/-- The loop over parametric sections (config 676-684); the flag tells that an exception comes out. -/
def readParams (d : Data) : List Str → St → St × Bool
  | [], st => (st, false)
  | n :: ns, st =>
    match readParam d n (matching d n) [] with
    | none => (st, true)
    | some v => readParams d ns { st with params := dictSet n v st.params }

/-- What a class of configurations declares. (`ConfigMeta.__new__`, config 354-398) -/
structure Decl where
  vars : List Config.Var
  secs : List Str
  params : List Str

/-- The part of `_read_commit` after the variables (config 666-687); `whole` is `validate_whole`, where a refusal is a
`ValidationError`, which the callers record (config 586-589, 638-641). -/
def readRest (c : Decl) (d : Data) (whole : St → Config.Verdict) (st : St) : St × Bool :=
  let s := readSections d c.secs st
  if s.2 then s
  else
    let p := readParams d c.params s.1
    if p.2 then p
    else match whole p.1 with
      | .ok => p
      | .refuse => ({ p.1 with base := { p.1.base with problems := p.1.base.problems ++ [.whole] } }, false)
      | .raise => (p.1, true)

/-- `_read_commit` (config 643-687). -/
def readCommit (w : Config.World) (c : Decl) (d : Data) (whole : St → Config.Verdict) (st : St) : St × Bool :=
  let r := Config.readVars w (get d) c.vars st.base
  if r.2 then ({ st with base := r.1 }, true)
  else readRest c d whole { st with base := r.1 }

/-- An object whose list of problems was replaced (config 577-579, 631-633). -/
def St.withProblems (st : St) (l : List Config.Problem) : St := { st with base := { st.base with problems := l } }

/-- `Config.read_string` (config 548-590); the flag tells that an exception comes out. -/
def readString (w : Config.World) (c : Decl) (whole : St → Config.Verdict) (text : Str) (st : St) : St × Bool :=
  match IniText.read IniText.noData text with
  | (_, some .attribute) => (st.withProblems [], true)
  | (d, e) => readCommit w c d whole (st.withProblems (if e.isSome then [.syntax] else []))

/-- `Config.read` (config 603-641) for the contents of the files that exist. -/
def read (w : Config.World) (c : Decl) (whole : St → Config.Verdict) (files : List Str) (st : St) : St × Bool :=
  match IniText.readFiles files IniText.noData with
  | (_, some _) => (st.withProblems [], true)
  | (d, none) => readCommit w c d whole (st.withProblems [])

/-! ## Writing -/

/-- What comes out of `get_parser_obj`: `AttributeError` (`Unset` has no items) or `ValueError`.
(config 508-546) -/
inductive Fault
  | unset
  | value
deriving DecidableEq, Repr

/-- `if not parser.has_section(name): parser.add_section(name)` (config 536-537, 542-543): `DEFAULT` cannot be
added. -/
def addSection (s : Str) (d : Config.Data) : Except Fault Config.Data :=
  if s ∈ d.sections then .ok d
  else if s = DEFAULT then .error .value
  else .ok { d with sections := d.sections ++ [s] }

/-- Where `parser.set` puts an option: with an empty name it is `DEFAULT`. (Standard library, used in config 539
and 545.) -/
def home (s : Str) : Str := if s = [] then DEFAULT else s

/-- The loops that set options (config 538-539, 544-545). -/
def setAll (s : Str) : Dict → Config.Data → Except Fault Config.Data
  | [], d => .ok d
  | (o, v) :: l, d =>
    if settable v then setAll s l { d with opts := Config.storeOpt (home s, o) v d.opts }
    else .error .value

/-- One section with its options (config 536-539, 542-545). -/
def putSection (s : Str) (l : Dict) (d : Config.Data) : Except Fault Config.Data :=
  (addSection s d).bind (setAll s l)

/-- The loop over sections (config 534-539). -/
def putSections (st : St) : List Str → Config.Data → Except Fault Config.Data
  | [], d => .ok d
  | n :: ns, d =>
    match st.sec n with
    | none => (addSection n d).bind fun _ => .error .unset
    | some l => (putSection n l d).bind (putSections st ns)

/-- The loop over the items of a parametric section (config 541-545). -/
def putParam (n : Str) : List (Str × Dict) → Config.Data → Except Fault Config.Data
  | [], d => .ok d
  | (p, l) :: ps, d => (putSection (n ++ ':' :: p) l d).bind (putParam n ps)

/-- The loop over parametric sections (config 540-545). -/
def putParams (st : St) : List Str → Config.Data → Except Fault Config.Data
  | [], d => .ok d
  | n :: ns, d =>
    match st.param n with
    | none => .error .unset
    | some l => (putParam n l d).bind (putParams st ns)

/-- `get_parser_obj` (config 508-546). -/
def parserObj (pr : Config.Printer) (c : Decl) (st : St) : Except Fault Config.Data :=
  match Config.toParser pr st.base c.vars { sections := [], opts := [] } with
  | none => .error .value
  | some d => (putSections st c.secs d).bind (putParams st c.params)

/-- `Config.write` (config 591-601). -/
def write (pr : Config.Printer) (c : Decl) (st : St) : Except Fault Str :=
  (parserObj pr c st).map fun d => IniText.write (IniText.ofConfig d)

end Verif.Sections
