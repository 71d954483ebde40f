import Verif.Model.Restart

/-!
# Configuration

Model of `Variable` and `Config` (plainbox/impl/secure/config.py, "config").

The text of a configuration file is parsed by `configparser`; here a parser is the function that its
method `get` computes, so statements about reading hold for all texts.  Validators are arbitrary
functions that accept, refuse or raise.  Left out: changing a list in place, classes that inherit
variables, the names of the files read.
-/

namespace Verif.Config

open Verif.Restart (Str split settable joinSp)

/-- `Variable._KIND_CHOICE` (config 120). -/
inductive Kind
  | bool | int | float | str | list
deriving DecidableEq, Repr

/-- Values, `Unset` (config 83-98) included. A floating point number is a token here. -/
inductive Val
  | unset
  | none
  | bool (b : Bool)
  | int (i : Int)
  | float (f : Nat)
  | str (s : Str)
  | list (l : List Str)
deriving DecidableEq, Repr

/-- What a validator does with a value. (`IValidator.__call__`, config 750-762.) -/
inductive Verdict
  | ok
  | refuse
  | raise
deriving DecidableEq, Repr

/-- A validator; `unset` is the mark of `understands_Unset` (config 101-112), `notUnset` tells that it is a
`NotUnsetValidator`. -/
structure Validator where
  unset : Bool
  notUnset : Bool
  check : Val → Verdict

/-- `isinstance(value, kind)`; booleans are integers. (config 765-776) -/
def isKind : Kind → Val → Bool
  | .bool, .bool _ => true
  | .int, .int _ => true
  | .int, .bool _ => true
  | .float, .float _ => true
  | .str, .str _ => true
  | .list, .list _ => true
  | _, _ => false

/-- `KindValidator` (config 765-777). -/
def kindValidator (k : Kind) : Validator :=
  { unset := false, notUnset := false, check := fun v => if isKind k v then .ok else .refuse }

/-- A `Variable` (config 115-233). -/
structure Var where
  sec : Str
  name : Str
  kind : Kind
  default : Val
  validators : List Validator

/-- `Variable.__init__` (config 122-152): where the validator of the kind goes. -/
def mkVar (sec name : Str) (kind : Kind) (default : Val) (vs : List Validator) : Var :=
  { sec := sec, name := name, kind := kind, default := default,
    validators := match vs with
      | [] => [kindValidator kind]
      | v :: l => if v.notUnset then v :: kindValidator kind :: l else kindValidator kind :: v :: l }

/-- `Variable.mangled_name` (config 192-198). -/
def Var.key (v : Var) : Str := v.sec ++ "__".toList ++ v.name

/-- `Variable.validate` (config 154-175): the first verdict that is not good. -/
def validate : List Validator → Val → Verdict
  | [], _ => .ok
  | f :: l, v =>
    if v = .unset ∧ f.unset = false then validate l v
    else match f.check v with
      | .ok => validate l v
      | r => r

/-- What was noticed while reading: a refused value, a refused configuration, a syntax error.
(`problem_list`, config 479-484, filled in 548-685.) -/
inductive Problem
  | value (key : Str) (v : Val)
  | whole
  | syntax
deriving DecidableEq, Repr

/-- A `Config` object: `_var`, `_problem_list`. (config 469-476) -/
structure St where
  vars : List (Str × Val)
  problems : List Problem

/-- `dict[key]`. (config 687-691) -/
def find (k : Str) : List (Str × Val) → Option Val
  | [] => Option.none
  | (j, v) :: d => if j = k then some v else find k d

/-- `dict[key] = value`. (config 693-697) -/
def store (k : Str) (v : Val) : List (Str × Val) → List (Str × Val)
  | [] => [(k, v)]
  | (j, w) :: d => if j = k then (j, v) :: d else (j, w) :: store k v d

/-- `del dict[key]`. (config 699-703) -/
def remove (k : Str) (d : List (Str × Val)) : List (Str × Val) := d.filter fun e => e.1 ≠ k

/-- `Variable.__get__` (config 238-249). -/
def Var.get (x : Var) (st : St) : Val := (find x.key st.vars).getD x.default

/-- `Variable.__set__` (config 251-260); the verdict tells which exception is raised, if any. -/
def Var.set (x : Var) (v : Val) (st : St) : St × Verdict :=
  match validate x.validators v with
  | .ok => ({ st with vars := store x.key v st.vars }, .ok)
  | r => (st, r)

/-- `Variable.__delete__` (config 262-266); the flag tells that `KeyError` is raised. -/
def Var.del (x : Var) (st : St) : St × Bool :=
  match find x.key st.vars with
  | Option.none => (st, true)
  | some _ => ({ st with vars := remove x.key st.vars }, false)

/-- What `parser.get(section, option)` gives: `NoSectionError` or `NoOptionError`, another error
(of interpolation), or a text, or `None` for an option without a value. (Standard library, used in config 643-685.) -/
inductive Got
  | missing
  | error
  | value (s : Option Str)
deriving DecidableEq, Repr

/-- `parser.get` as a function of section and option (config 643-685). -/
abbrev Parser := Str → Str → Got

/-- Reading numbers, as `int` and `float` do.
(Standard library, used through `getint` and `getfloat` in config 643-685.) -/
structure World where
  readInt : Str → Option Int
  readFloat : Str → Option Nat

/-- `RawConfigParser.BOOLEAN_STATES`, for a text in lower case.
(Standard library, used through `getboolean` in config 643-685.) -/
def readBool (s : Str) : Option Bool :=
  if s = "1".toList ∨ s = "yes".toList ∨ s = "true".toList ∨ s = "on".toList then some true
  else if s = "0".toList ∨ s = "no".toList ∨ s = "false".toList ∨ s = "off".toList then some false
  else Option.none

/-- `str.lower()`, ASCII only. (Standard library, used through `getboolean` in config 643-685.) -/
def lower (s : Str) : Str := s.map Char.toLower

/-- `getlist` (config 441-450). -/
def readList (s : Str) : Option (List Str) := split (s.map fun c => if c = ',' then ' ' else c)

/-- The reader for a kind (config 645-651); `none` is an exception (`ValueError`, or `TypeError` or
`AttributeError` when there is no value). -/
def readKind (w : World) : Kind → Option Str → Option Val
  | .str, some s => some (.str s)
  | .str, Option.none => some .none
  | .bool, some s => (readBool (lower s)).map .bool
  | .int, some s => (w.readInt s).map .int
  | .float, some s => (w.readFloat s).map .float
  | .list, some s => (readList s).map .list
  | _, Option.none => Option.none

/-- Access to a variable in the configuration (config 656-660). -/
def readVar (w : World) (p : Parser) (x : Var) : Option Val :=
  match p x.sec x.name with
  | .missing => some x.default
  | .error => Option.none
  | .value s => readKind w x.kind s

/-- The loop over variables (config 653-665); the flag tells that an exception comes out. -/
def readVars (w : World) (p : Parser) : List Var → St → St × Bool
  | [], st => (st, false)
  | x :: xs, st =>
    match readVar w p x with
    | Option.none => (st, true)
    | some v =>
      match (x.set v st).2 with
      | .ok => readVars w p xs (x.set v st).1
      | .refuse => readVars w p xs { st with problems := st.problems ++ [.value x.key v] }
      | .raise => (st, true)

/-- `_read_commit` (config 643-685). Sections are stored apart and cannot be refused; `secFail` tells that
reading one raises (an error of interpolation); `whole` is `validate_whole`, where a refusal is a
`ValidationError`, which the callers record. -/
def readCommit (w : World) (xs : List Var) (p : Parser) (secFail : Bool) (whole : St → Verdict) (st : St) :
    St × Bool :=
  let r := readVars w p xs st
  if r.2 then r
  else if secFail then (r.1, true)
  else match whole r.1 with
    | .ok => (r.1, false)
    | .refuse => ({ r.1 with problems := r.1.problems ++ [.whole] }, false)
    | .raise => (r.1, true)

/-- What a caller can do with a configuration object. (config 238-266, 548-641) -/
inductive Op
  | assign (x : Var) (v : Val)
  | delete (x : Var)
  /-- `read_string` (config 548-589): the parser after the text was parsed, and whether parsing raised
  `configparser.Error` -/
  | readString (syntaxError : Bool) (p : Parser) (secFail : Bool)
  /-- `read` (config 603-641) -/
  | read (syntaxError : Bool) (p : Parser) (secFail : Bool)

/-- One operation; the flag tells that an exception comes out. (config 238-266, 548-641) -/
def step (w : World) (xs : List Var) (whole : St → Verdict) : Op → St → St × Bool
  | .assign x v, st => ((x.set v st).1, (x.set v st).2 ≠ .ok)
  | .delete x, st => x.del st
  | .readString syn p f, st =>
    readCommit w xs p f whole { st with problems := if syn then [.syntax] else [] }
  | .read syn p f, st =>
    -- `parser.read` is not inside a `try`
    if syn then ({ st with problems := [] }, true)
    else readCommit w xs p f whole { st with problems := [] }

/-- A history, with exceptions caught by the caller. (Any use of the object; no counterpart in the code.) -/
def run (w : World) (xs : List Var) (whole : St → Verdict) : List Op → St → St
  | [], st => st
  | o :: os, st => run w xs whole os (step w xs whole o st).1

/-- `Config.__init__` (config 469-476). -/
def init : St := { vars := [], problems := [] }

/-! ## Writing -/

/-- Printing numbers, as `str` does. (`str(value)`, config 508-546.) -/
structure Printer where
  showInt : Int → Str
  showFloat : Nat → Str

/-- `str(value)`, after `', '.join(value)` for lists (config 530-533); only values of the right kind. -/
def showVal (pr : Printer) : Val → Str
  | .unset => "unset".toList
  | .none => "None".toList
  | .bool true => "True".toList
  | .bool false => "False".toList
  | .int i => pr.showInt i
  | .float f => pr.showFloat f
  | .str s => s
  | .list l => List.flatten (List.intersperse ", ".toList l)

/-- The data of a parser: sections and options. `DEFAULT` always exists.
(`ConfigParser`, standard library, as used in config 508-546.) -/
structure Data where
  sections : List Str
  opts : List ((Str × Str) × Str)

/-- `DEFAULTSECT` of `configparser`, the section of variables without one (config 122-152, 508-546). -/
def DEFAULT : Str := "DEFAULT".toList

/-- Look up an option (standard library, used in config 508-546). -/
def findOpt (k : Str × Str) : List ((Str × Str) × Str) → Option Str
  | [] => Option.none
  | (j, v) :: d => if j = k then some v else findOpt k d

/-- Set an option (standard library, used in config 508-546). -/
def storeOpt (k : Str × Str) (v : Str) : List ((Str × Str) × Str) → List ((Str × Str) × Str)
  | [] => [(k, v)]
  | (j, w) :: d => if j = k then (j, v) :: d else (j, w) :: storeOpt k v d

/-- The variables in `get_parser_obj` (config 523-533); `none` is the `ValueError` of `set`. -/
def toParser (pr : Printer) (st : St) : List Var → Data → Option Data
  | [], d => some d
  | x :: xs, d =>
    let d := if x.sec ∈ d.sections ∨ x.sec = DEFAULT then d
             else { d with sections := d.sections ++ [x.sec] }
    if x.get st = .unset then toParser pr st xs d
    else if settable (showVal pr (x.get st)) then
      toParser pr st xs { d with opts := storeOpt (x.sec, x.name) (showVal pr (x.get st)) d.opts }
    else Option.none

/-- Interpolation on reading: a doubled percent sign is one, other uses of it are errors (references to
other options are not modelled). (Standard library, behind `parser.get` in config 643-685.) -/
def interp : Str → Option Str
  | [] => some []
  | [c] => if c = '%' then Option.none else some [c]
  | c :: d :: s =>
    if c = '%' then if d = '%' then (interp s).map ('%' :: ·) else Option.none
    else (interp (d :: s)).map (c :: ·)

/-- `ConfigParser.get`: the section must exist, `DEFAULT` is behind every section.
(Standard library, behind `parser.get` in config 643-685.) -/
def Data.get (d : Data) : Parser := fun sec opt =>
  if sec = DEFAULT ∨ sec ∈ d.sections then
    match (findOpt (sec, opt) d.opts).or (findOpt (DEFAULT, opt) d.opts) with
    | Option.none => .missing
    | some v => match interp v with
      | Option.none => .error
      | some s => .value (some s)
  else .missing

end Verif.Config
