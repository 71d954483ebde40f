import Verif.Model.Install
import Verif.Model.IniText

/-!
# The text of the provider file

`Model/Install.lean` keeps the data of the parser in the provider file.  Here they are the text that
`config_obj.write(stream)` makes of them, and loading reads that text.
-/

namespace Verif.Install

open Verif.Config Verif.Definition

/-- The text in the provider file: `_get_provider_config_obj(...).write(stream)`.
(provider_manager.py 295-300, 381-387) -/
def fileText (fs : FS) (filename : Str) : Option Str :=
  match fs filename with
  | some (.defn d) => some (IniText.write (IniText.ofConfig d))
  | _ => none

/-- `Provider1PlugIn(filename, text)`: `read_string` on the text; an `AttributeError` of the parser comes out,
a `configparser.Error` is recorded. (`secure/providers/v1.py` 1506-1542; `secure/config.py` 548-590) -/
def plugInText (w : World) (isDir : Str → Bool) (e : Env) (filename text : Str) : Made :=
  match IniText.read IniText.noData text with
  | (_, some .attribute) => .raises
  | (d, x) => plugIn w isDir e filename x.isSome d.get

/-- The loader opens the file as text, which translates the ends of lines, and makes the plug-in.
(`secure/plugins.py` 540-566; `secure/providers/v1.py` 1506-1542) -/
def loadText (w : World) (e : Env) (fs : FS) (filename : Str) : Option Made :=
  (fileText fs filename).map fun t => plugInText w (isDir fs) e filename (IniText.universal t)

end Verif.Install
