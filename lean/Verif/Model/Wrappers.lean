import Verif.Model.Help
import Verif.Model.RFC822

/-!
# Deprecated and public functions

Models `deprecated`, `public` and `_get_doc_margin` (`plainbox/impl/__init__.py`, "impl"), and `_textwrap_indent`
(`plainbox/impl/_textwrap.py`, "textwrap").

A call of a function changes a state and ends with a value or with an exception. Simplified: lines end with a line feed only
(`str.splitlines` also knows others); the filters for warnings are a function that tells whether a warning is raised as an
exception; importing a module has no effect; a module has functions only.
-/

namespace Verif.Wrappers

open Verif.Text (splitOn joinWith linesKeep strip)

/-- Texts. (standard library) -/
abbrev Str := List Char

/-- How a call ends. (impl 99, 178-179) -/
inductive Out (V : Type)
  | ret (v : V)
  | exc (e : Str)
deriving DecidableEq, Repr

/-- A function: `__name__`, `__doc__`, and what a call does. (impl 97-101, 163-179) -/
structure Func (S A V : Type) where
  name : Str
  doc : Option Str
  call : S → A → S × Out V

/-- `_get_doc_margin`, impl 39-50. -/
def docMargin (doc : Str) : Nat :=
  match (splitOn '\n' (Help.expandTabs 0 doc)).tail.foldl Help.narrow none with
  | none => 0
  | some m => m

/-- `_textwrap_indent` with the predicate that is the default, textwrap 79-94. -/
def indentText (text pre : Str) : Str :=
  (linesKeep text).flatMap fun l => if strip l = [] then l else pre ++ l

/-- `textwrap.dedent`. (standard library; impl 174) -/
def dedentText (t : Str) : Str := joinWith '\n' (RFC822.dedent (splitOn '\n' t))

/-- The indentation that is used, impl 165-169. -/
def indentOf (doc : Option Str) : Str :=
  match doc with
  | none => List.replicate 4 ' '
  | some d => List.replicate (docMargin d) ' '

/-- The documentation of the function that is deprecated, impl 165-174. -/
def deprecatedDoc (version : Str) (explanation : Option Str) (doc : Option Str) : Str :=
  let indent := indentOf doc
  let start := match doc with
    | none => []
    | some d => d ++ indent ++ ['\n']
  let base := start ++ indent ++ ".. deprecated:: ".toList ++ version
  match explanation with
  | none => base
  | some e => base ++ indentText (dedentText e) (indent ++ indent)

/-- The message of the warning, impl 163-164. -/
def message (name version : Str) : Str := name ++ " is deprecated since version ".toList ++ version

/-- The state with the warnings so far: `filter` tells which exception a warning is, if it is one. (impl 178) -/
structure World (S : Type) where
  state : S
  warnings : List Str

/-- `deprecated(version, explanation)(func)`, impl 136-182; `none` for `SyntaxError` if the version is not a text. -/
def deprecated {S A V : Type} (filter : Str → Option Str) (version : Option Str) (explanation : Option Str) (f : Func S A V) :
    Option (Func (World S) A V) :=
  match version with
  | none => none
  | some v =>
    some {
      name := f.name
      doc := some (deprecatedDoc v explanation f.doc)
      call := fun w a =>
        let w := { w with warnings := w.warnings ++ [message f.name v] }
        match filter (message f.name v) with
        | some e => (w, .exc e)
        | none => let (s, o) := f.call w.state a; ({ w with state := s }, o) }

/-- Why `public` fails: `ImportError`, `NotImplementedError` with its message, `TypeError` from `None += ...`.
(impl 90, 94-95, 101) -/
inductive NotPublic
  | importError
  | notImplemented (text : Str)
  | typeError
deriving DecidableEq, Repr

/-- `import_path.split(":", 1)` with the name of the shim if there is no colon, impl 85-88. -/
def splitPath (path shim : Str) : Str × Str :=
  match path.dropWhile (· ≠ ':') with
  | [] => (path, shim)
  | _ :: r => (path.takeWhile (· ≠ ':'), r)

/-- The documentation of a public function, impl 101-131. -/
def publicDoc (path name : Str) (introduced deprecated : Option Str) (doc : Str) (implDoc : Option Str) : Str :=
  doc ++ "\n    This function is a part of the public API\n    The private implementation is in ".toList ++ path ++
    ":".toList ++ name ++
    (match introduced with
      | none => "\n    This function was introduced in the initial version of plainbox".toList
      | some v => "\n    This function was introduced in version: ".toList ++ v) ++
    (match deprecated with
      | none => []
      | some v => "    warn:\n        This function is deprecated\n        It will be removed in version: ".toList ++ v) ++
    (match implDoc with
      | none => []
      | some d => "    Additional documentation from the private implementation:".toList ++ d)

/-- `public(import_path, introduced, deprecated)(shim)`, impl 53-133; `modules` is what can be imported. -/
def makePublic {S A V : Type} (modules : Str → Option (Str → Option (Func S A V))) (path : Str)
    (introduced deprecated : Option Str) (shim : Func S A V) : Except NotPublic (Func S A V) :=
  let (moduleName, funcName) := splitPath path shim.name
  match modules moduleName with
  | none => .error .importError
  | some attrs =>
    match attrs funcName with
    | none => .error (.notImplemented (moduleName ++ ".".toList ++ funcName ++ " does not exist".toList))
    | some impl =>
      match shim.doc with
      | none => .error .typeError
      | some doc => .ok ⟨shim.name, some (publicDoc path shim.name introduced deprecated doc impl.doc), impl.call⟩

end Verif.Wrappers
