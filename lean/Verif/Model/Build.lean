import Verif.Model.Locate
import Verif.Model.Restart
import Verif.Model.Sort

/-!
# Building the programs of a provider

Models `BuildCommand` and `CleanCommand` in `plainbox/provider_manager.py` ("manager" below), lines 593-809, and the build systems in
`plainbox/impl/buildsystems.py` ("systems"), with the functions of the standard library that they use.

Simplifications: files are looked at with functions; in a class of characters a range that ends before it begins matches nothing (there is
an error in the code); that commands cannot be started and that directories cannot be made is left out.
-/

namespace Verif.Build

open Verif.Path (Str join dirname basename)

/-! ## `fnmatch` and `glob` -/

/-- The parts of a pattern of `fnmatch`. (standard library, behind systems 75) -/
inductive Tok
  | star
  | any
  | lit (c : Char)
  | cls (neg : Bool) (ranges : List (Char × Char))
deriving DecidableEq

/-- The text up to the next `]` and the text after it. (standard library, `fnmatch.translate`, behind systems 75) -/
def toBracket : Str → Option (Str × Str)
  | [] => none
  | ']' :: p => some ([], p)
  | c :: p => (toBracket p).map fun r => (c :: r.1, r.2)

/-- The inside of a class: whether it is negated, its text and what follows. (standard library, `fnmatch.translate`, behind systems 75) -/
def closing (p : Str) : Option (Bool × Str × Str) :=
  let neg := p.head? = some '!'
  let q := if neg then p.tail else p
  let first := q.head? = some ']'
  let r := if first then q.tail else q
  (toBracket r).map fun x => (neg, (if first then ']' :: x.1 else x.1), x.2)

/-- The characters of a class. (standard library, `re`, behind systems 75) -/
def ranges : Str → List (Char × Char)
  | a :: '-' :: b :: r => (a, b) :: ranges r
  | a :: r => (a, a) :: ranges r
  | [] => []

/-- `fnmatch.translate`; the number bounds the steps. (standard library, behind systems 75) -/
def tokens : Nat → Str → List Tok
  | 0, _ => []
  | _, [] => []
  | n + 1, c :: p =>
    if c = '*' then .star :: tokens n p
    else if c = '?' then .any :: tokens n p
    else if c = '[' then
      match closing p with
      | none => .lit '[' :: tokens n p
      | some (neg, body, rest) => .cls neg (ranges body) :: tokens n rest
    else .lit c :: tokens n p

/-- All ends of a text. (used for `*` of `fnmatch`, behind systems 75) -/
def ends : Str → List Str
  | [] => [[]]
  | c :: s => (c :: s) :: ends s

/-- Whether a text matches. (standard library, `re`, behind systems 75) -/
def matches' : List Tok → Str → Bool
  | [], s => s.isEmpty
  | .star :: t, s => (ends s).any (matches' t)
  | .any :: t, s => match s with
    | [] => false
    | _ :: s => matches' t s
  | .lit c :: t, s => match s with
    | [] => false
    | x :: s => x == c && matches' t s
  | .cls neg rs :: t, s => match s with
    | [] => false
    | x :: s => (neg != rs.any fun r => decide (r.1 ≤ x ∧ x ≤ r.2)) && matches' t s

/-- `fnmatch.fnmatch(name, pattern)`. (standard library, behind systems 75) -/
def fnmatch (name pattern : Str) : Bool := matches' (tokens pattern.length pattern) name

/-- What the program finds: files, names in a directory (none if it is no directory), things of any kind and directories.
(systems 41-45, 60, 75; manager 697) -/
structure Disk where
  isfile : Str → Bool
  names : Str → List Str
  lexists : Str → Bool
  isdir : Str → Bool

/-- `glob.has_magic`. (standard library, behind systems 75) -/
def magic (p : Str) : Bool := p.any fun c => c == '*' || c == '?' || c == '['

/-- `glob.glob1`. (standard library, behind systems 75) -/
def glob1 (w : Disk) (d pattern : Str) : List Str :=
  (if pattern.head? = some '.' then w.names d else (w.names d).filter fun n => n.head? != some '.').filter (fnmatch · pattern)

/-- `glob.glob0`. (standard library, behind systems 75) -/
def glob0 (w : Disk) (d b : Str) : List Str :=
  if b = [] then (if w.isdir d then [b] else []) else if w.lexists (join d b) then [b] else []

/-- `glob.glob`; the number bounds the depth. (standard library, used in systems 75) -/
def glob (w : Disk) : Nat → Str → List Str
  | 0, _ => []
  | n + 1, p =>
    if !magic p then (if w.lexists p then [p] else [])
    else if dirname p = [] then glob1 w ['.'] (basename p)
    else
      (if dirname p ≠ p ∧ magic (dirname p) = true then glob w n (dirname p) else [dirname p]).flatMap fun d =>
        (if magic (basename p) then glob1 w d (basename p) else glob0 w d (basename p)).map (join d)

/-! ## The build systems -/

/-- The build systems, systems 32-80; setup.py 94-98. -/
inductive System
  | make
  | go
  | autotools
deriving DecidableEq

/-- `probe`, systems 37-45, 59-62 and 74-77. -/
def System.probe (w : Disk) (src : Str) : System → Int
  | .make =>
    if w.isfile (join src "configure".toList) then 0
    else if w.isfile (join src "Makefile".toList) then 90
    else 0
  | .autotools => if w.isfile (join src "configure".toList) then 90 else 0
  | .go => if glob w (src ++ "/*.go".toList).length (src ++ "/*.go".toList) ≠ [] then 50 else 0

/-- `get_build_command`, systems 47-51, 64-66 and 79-80; `none` is `ValueError`. -/
def System.command (cwd src build : Str) : System → Option Str
  | .make =>
    (Locate.relpath cwd src build).bind fun a => (Locate.relpath cwd (join src "Makefile".toList) build).map fun b =>
      "VPATH=".toList ++ Restart.quote a ++ " make -f ".toList ++ Restart.quote b
  | .autotools => (Locate.relpath cwd src build).map fun a => Restart.quote a ++ "/configure && make".toList
  | .go => (Locate.relpath cwd src build).map fun a => "go build ".toList ++ a ++ "/*.go".toList

/-! ## The commands -/

/-- What may be raised: there is no build system, a path is empty, there is no command to run. (manager 640, systems 48-51, manager 703-704
and 806-807) -/
inductive Err
  | index
  | value
  | type
deriving DecidableEq

/-- The best build system and its score, manager 638-640. -/
def best {α : Type} (scores : List (α × Int)) : Except Err (α × Int) :=
  match (Sort.sortBy (fun a b => decide (a.2 ≤ b.2)) scores).getLast? with
  | none => .error .index
  | some x => .ok x

/-- `src_dir`, manager 650-655. -/
def srcDir (location : Str) : Str := join location "src".toList

/-- `build_bin_dir`, manager 657-662. -/
def buildDir (location : Str) : Str := join (join location "build".toList) "bin".toList

/-- `guess_build_command`, manager 621-648, with the build systems that are installed. -/
def guess (w : Disk) (cwd location : Str) (systems : List System) : Except Err (Option Str) :=
  match best (systems.map fun s => (s, s.probe w (srcDir location))) with
  | .error e => .error e
  | .ok (s, score) =>
    if score = 0 then .ok none
    else match s.command cwd (srcDir location) (buildDir location) with
      | none => .error .value
      | some c => .ok (some c)

/-- `build_cmd`, manager 611-619, with the keyword of `setup()`. -/
def buildCmd (w : Disk) (cwd location : Str) (systems : List System) (keyword : Option Str) : Except Err (Option Str) :=
  match keyword with
  | none => guess w cwd location systems
  | some c => .ok (some c)

/-- What the commands do: make a directory with those above it, run a command of the shell in a directory with an environment.
(manager 698, 703-704, 806-807) -/
inductive Event
  | makedirs (d : Str)
  | call (command : Str) (cwd : Str) (env : List (Str × Str))
deriving DecidableEq

/-- `env[key] = value`. (manager 700-702, 803-805) -/
def setEnv (k v : Str) (env : List (Str × Str)) : List (Str × Str) := (k, v) :: env.filter fun x => x.1 != k

/-- `BuildCommand.invoked`, manager 678-706: what is done and the status; the disk is looked at again after the directory was made. -/
def build (w w' : Disk) (cwd location : Str) (systems : List System) (keyword : Option Str) (env : List (Str × Str))
    (exit : Str → Int) : List Event × Except Err Int :=
  match buildCmd w cwd location systems keyword with
  | .error e => ([], .error e)
  | .ok none => ([], .ok 0)
  | .ok (some _) =>
    let made := if w.isdir (buildDir location) then [] else [.makedirs (buildDir location)]
    match Locate.relpath cwd (srcDir location) (buildDir location) with
    | none => (made, .error .value)
    | some rel =>
      match buildCmd w' cwd location systems keyword with
      | .error e => (made, .error e)
      | .ok none => (made, .error .type)
      | .ok (some c) => (made ++ [.call c (buildDir location) (setEnv "PLAINBOX_SRC_DIR".toList rel env)], .ok (exit c))

/-- `clean_cmd`, manager 760-765; the keyword may be `None`. -/
def cleanCmd (keyword : Option (Option Str)) : Option Str := keyword.getD (some "rm -rf build/bin".toList)

/-- `CleanCommand.invoked`, manager 788-809. -/
def clean (cwd location : Str) (keyword : Option (Option Str)) (env : List (Str × Str)) (exit : Str → Int) :
    List Event × Except Err Int :=
  match Locate.relpath cwd (srcDir location) location with
  | none => ([], .error .value)
  | some rel =>
    match cleanCmd keyword with
    | none => ([], .error .type)
    | some c => ([.call c location (setEnv "PLAINBOX_SRC_DIR".toList rel env)], .ok (exit c))

end Verif.Build
