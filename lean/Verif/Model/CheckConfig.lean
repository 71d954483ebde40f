import Verif.Model.Sections
import Verif.Model.Sort

/-! # Checking the configuration

Models `plainbox check-config`: `CheckConfigInvocation.run` (`plainbox/impl/commands/inv_check_config.py`, "check"),
`Config.get` (`plainbox/impl/secure/config.py`, "config") and the class `PlainBoxConfig`
(`plainbox/impl/applogic.py`, "applogic").

The object that is read is that of `Verif/Model/Sections.lean`. Simplified: a file that exists can be read and decoded;
texts are not translated; how values are printed and what the messages of problems are is given; a value that spans
several lines is one entry of the output here. -/

namespace Verif.CheckConfig

open Verif.Restart (Str)
open Verif.Config (Val Var Problem World Verdict)
open Verif.Sections (Decl Dict)

/-- How values are printed (`str`), and the name of the variable and the message of a problem. (check 47-49, 61-64) -/
structure Texts where
  val : Val → Str
  about : Problem → Str
  message : Problem → Str

/-- The list of files, check 38-43; `parser.read` returns the names of those that it could open (config 636). -/
def fileLines (names read : List Str) : List Str :=
  names.map fun n => if n ∈ read then " - ".toList ++ n else " - ".toList ++ n ++ " (not present)".toList

/-- The list of variables, check 44-49. -/
def variableLines (t : Texts) (st : Config.St) (xs : List Var) : List Str :=
  xs.flatMap fun x => ["   [".toList ++ x.sec ++ "]".toList, "   ".toList ++ x.name ++ "=".toList ++ t.val (x.get st)]

/-- `sorted(section_value.items())`, check 55; a dictionary has each key once. -/
def sortedItems (l : Dict) : Dict := Sort.sortBy (fun a b => Sort.strLe a.1 b.1) l

/-- The list of sections, check 50-56; `Unset` and an empty dictionary are false. -/
def sectionLines (st : Sections.St) (ns : List Str) : List Str :=
  ns.flatMap fun n => ("   [".toList ++ n ++ "]".toList) ::
    match st.sec n with
    | none => []
    | some l => (sortedItems l).map fun e => "   ".toList ++ e.1 ++ "=".toList ++ e.2

/-- One problem, check 60-64. -/
def problemLine (t : Texts) : Problem → Str
  | .syntax => " - ".toList ++ t.message .syntax
  | p => " - variable ".toList ++ t.about p ++ ": ".toList ++ t.message p

/-- The problems, check 57-66. -/
def problemLines (t : Texts) : List Problem → List Str
  | [] => ["No validation problems found".toList]
  | ps => "Problems:".toList :: ps.map (problemLine t)

/-- `CheckConfigInvocation.run`, check 36-67, with `Config.get`, config 494-506: the lines that are printed and the exit
code, or `none` if an exception comes out. -/
def check (t : Texts) (w : World) (c : Decl) (whole : Sections.St → Verdict) (names : List Str)
    (disk : Str → Option Str) : Option (List Str × Nat) :=
  let r := Sections.read w c whole (names.filterMap disk) Sections.init
  if r.2 then none
  else some
    ("Configuration files:".toList :: fileLines names (names.filter fun n => (disk n).isSome) ++
      "Variables:".toList :: variableLines t r.1.base c.vars ++
      "Sections:".toList :: sectionLines r.1 c.secs ++
      problemLines t r.1.base.problems,
     if r.1.base.problems.length = 0 then 0 else 1)

/-- `PlainBoxConfig`, applogic 83-97: one section and no variables. -/
def plainbox : Decl := ⟨[], ["environment".toList], []⟩

/-- `Config.validate_whole`, config 723-733: `PlainBoxConfig` does not have its own. -/
def noCheck : Sections.St → Verdict := fun _ => .ok

end Verif.CheckConfig
