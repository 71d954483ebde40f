import Verif.Model.Text

/-!
# The system information in the spreadsheet

Models the sheet "System Info" of `XLSXSessionStateExporter` (`impl/exporter/xlsx.py` 207-373).

Simplifications: formats, widths and the folding of rows are left out; writing a cell always succeeds and
keeps the text (xlsxwriter makes links and formulas of some texts).  `\w` and `\d` are the characters of
ASCII, which is what lspci prints.  The division of the memory size is exact, as it is in Python below 2⁵³
bytes.
-/

namespace Verif.Sysinfo

open Verif.Text

/-- Text. (xlsx 207-373) -/
abbrev Str := List Char

/-- A resource: its attributes. (exporter/__init__.py 216-228) -/
abbrev Rec := List (Str × Str)

/-- `resource.get(name)`. (xlsx 207-316) -/
def Rec.find (r : Rec) (k : String) : Option Str := r.lookup k.toList

/-- What the exporter is given: the lists in `resource_map`, if they are there, and the text of
`lspci_attachment` in `attachment_map`, if that is there; `some none` is one that is not UTF-8. (xlsx 207-270) -/
structure Data where
  dmi : Option (List Rec)
  cpuinfo : Option (List Rec)
  meminfo : Option (List Rec)
  device : Option (List Rec)
  package : Option (List Rec)
  lspci : Option (Option Str)

/-- Exceptions. (xlsx 225, 231, 262) -/
inductive Exc
  | key | unicode | value
deriving DecidableEq

/-! ## Patterns -/

/-- `\w`. (xlsx 232-252) -/
def isWord (c : Char) : Bool := c.isAlphanum || c == '_'

/-- A text that is there literally, and what follows. (xlsx 232-259) -/
def literal : Str → Str → Option Str
  | [], s => some s
  | c :: k, d :: s => if c = d then literal k s else none
  | _ :: _, [] => none

/-- `\s\[\w+:\w+]`: what follows. (xlsx 236-252) -/
def idTail : Str → Option Str
  | w :: '[' :: s =>
    if isSpace w then
      match s.takeWhile isWord, s.dropWhile isWord with
      | _ :: _, ':' :: s =>
        match s.takeWhile isWord, s.dropWhile isWord with
        | _ :: _, ']' :: s => some s
        | _, _ => none
      | _, _ => none
    else none
  | _ => none

/-- `\sLPC`: what follows. (xlsx 232) -/
def lpcTail : Str → Option Str
  | w :: s => if isSpace w then literal "LPC".toList s else none
  | [] => none

/-- `(?P<name>.*?)` and the end of the pattern: the name and what follows. (xlsx 232-252) -/
def lazyTo (tail : Str → Option Str) (s : Str) : Option (Str × Str) :=
  match tail s with
  | some r => some ([], r)
  | none =>
    match s with
    | [] => none
    | c :: s => if c = '\n' then none else (lazyTo tail s).map fun x => (c :: x.1, x.2)

/-- `:\s` here and the rest of the pattern. (xlsx 232-252) -/
def colonHere (tail : Str → Option Str) (c : Char) (s : Str) : Option (Str × Str) :=
  match s with
  | w :: s => if c = ':' ∧ isSpace w = true then lazyTo tail s else none
  | [] => none

/-- `.*?:\s` and the rest of the pattern. (xlsx 232-252) -/
def afterColon (tail : Str → Option Str) (s : Str) : Option (Str × Str) :=
  match s with
  | [] => none
  | c :: s =>
    match colonHere tail c s with
    | some x => some x
    | none => if c = '\n' then none else afterColon tail s

/-- The pattern at one place. (xlsx 232-252) -/
def matchAt (key : Str) (tail : Str → Option Str) (s : Str) : Option (Str × Str) :=
  (literal key s).bind (afterColon tail)

/-- `re.finditer`: the names, with at most `fuel` steps. (xlsx 248-253) -/
def finditer {α : Type} (m : Str → Option (α × Str)) : Nat → Str → List α
  | 0, _ => []
  | _ + 1, [] => []
  | fuel + 1, c :: s =>
    match m (c :: s) with
    | some (x, r) => x :: finditer m fuel r
    | none => finditer m fuel s

/-- `re.search`. (xlsx 232-247) -/
def search {α : Type} (m : Str → Option (α × Str)) (s : Str) : Option α :=
  match s with
  | [] => (m []).map (·.1)
  | c :: s =>
    match m (c :: s) with
    | some (x, _) => some x
    | none => search m s

/-- ` prefetchable\) \[size=(?P<vram>\d+)M\]`: the number and what follows. (xlsx 255-257) -/
def sizeTail (s : Str) : Option (Nat × Str) :=
  (literal " prefetchable) [size=".toList s).bind fun s =>
    match s.takeWhile Char.isDigit with
    | [] => none
    | ds => (literal "M]".toList (s.dropWhile Char.isDigit)).map fun r => (Nat.ofDigitChars 10 ds 0, r)

/-- `.+` and the end of the pattern: the longest text for `.+`. (xlsx 255-257) -/
def greedy (s : Str) : Option (Nat × Str) :=
  match s with
  | [] => none
  | c :: s =>
    if c = '\n' then none
    else
      match greedy s with
      | some x => some x
      | none => sizeTail s

/-- The pattern for memory at one place. (xlsx 255-257) -/
def memoryAt (s : Str) : Option (Nat × Str) := (literal "Memory".toList s).bind greedy

/-! ## The facts -/

/-- `hw_info`. (xlsx 208) -/
abbrev Info := List (Str × Str)

/-- `defaultdict(lambda: 'NA')[key]`. (xlsx 208) -/
def Info.at (h : Info) (k : String) : Str :=
  match h.lookup k.toList with
  | some v => v
  | none => "NA".toList

/-- `'{}'.format(resource.get(name))`. (xlsx 212-222) -/
def shown : Option Str → Str
  | some s => s
  | none => "None".toList

/-- `if result: hw_info[key] = result.pop()`. (xlsx 216-229, 263-264) -/
def popTo (key : Str) (result : List Str) (h : Info) : Info :=
  match result.getLast? with
  | some v => (key, v) :: h
  | none => h

/-- The platform and the BIOS (209-223). -/
def dmiInfo (dmi : List Rec) (h : Info) : Info :=
  popTo "bios".toList
    ((dmi.filter fun i => i.find "category" = some "BIOS".toList).map fun i => shown (i.find "version"))
    (popTo "platform".toList
      ((dmi.filter fun i => i.find "category" = some "SYSTEM".toList).map fun i =>
        shown (i.find "vendor") ++ ' ' :: (shown (i.find "product") ++ " (".toList ++ shown (i.find "version") ++
          ")".toList)) h)

/-- `'{} x {}'.format(i['model'], i['count'])` (226). -/
def processor (i : Rec) : Except Exc Str :=
  match i.find "model", i.find "count" with
  | some m, some c => .ok (m ++ " x ".toList ++ c)
  | _, _ => .error .key

/-- Python's rounding to the nearest, ties to even, of `a / b`. (`format(…, '.1f')`, xlsx 262) -/
def round (a b : Nat) : Nat :=
  if 2 * (a % b) < b then a / b
  else if 2 * (a % b) = b ∧ (a / b) % 2 = 0 then a / b
  else a / b + 1

/-- `'{} GiB'.format(format(n / 1073741824, '.1f'))` (262). -/
def gib (n : Int) : Str :=
  (if n < 0 then ['-'] else []) ++ Nat.toDigits 10 (round (10 * n.natAbs) 1073741824 / 10) ++
    '.' :: (Nat.toDigits 10 (round (10 * n.natAbs) 1073741824 % 10) ++ " GiB".toList)

/-- The size of the memory (262-263); `int` is `int(text)`, `none` is `ValueError`. -/
def memory (int : Str → Option Int) (i : Rec) : Except Exc Str :=
  match i.find "total" with
  | none => .error .key
  | some t =>
    match int t with
    | none => .error .value
    | some n => .ok (gib n)

/-- `if match: hw_info[key] = match.group(key)`. (xlsx 233-247) -/
def found (key : Str) (m : Option Str) (h : Info) : Info :=
  match m with
  | some v => (key, v) :: h
  | none => h

/-- `enumerate(…, start=1)` over the video devices (248-253). -/
def videos : Nat → List Str → Info → Info
  | _, [], h => h
  | i, v :: l, h => videos (i + 1) l (("video".toList ++ Nat.toDigits 10 i, v) :: h)

/-- What is found in the text of lspci (231-259). -/
def lspciInfo (t : Str) (h : Info) : Info :=
  let h := found "chipset".toList (search (matchAt "ISA bridge".toList lpcTail) t) h
  let h := found "audio".toList (search (matchAt "Audio device".toList idTail) t) h
  let h := found "nic".toList (search (matchAt "Ethernet controller".toList idTail) t) h
  let h := found "wireless".toList (search (matchAt "Network controller".toList idTail) t) h
  let h := videos 1 (finditer (matchAt "VGA compatible controller".toList idTail) t.length t) h
  let vram := (finditer memoryAt t.length t).sum
  if vram ≠ 0 then ("vram".toList, Nat.toDigits 10 vram ++ " MiB".toList) :: h else h

/-- `_get_bluetooth_product_or_path` (291-316). -/
def bluetooth : List Rec → Option Str
  | [] => none
  | r :: l =>
    if r.find "category" ≠ some "BLUETOOTH".toList then bluetooth l
    else
      match r.find "product", r.find "path" with
      | some p, _ => some p
      | none, some p => some p
      | none, none => bluetooth l

/-- `if bluetooth: hw_info['bluetooth'] = bluetooth` (267-269). -/
def bluetoothInfo (l : List Rec) (h : Info) : Info :=
  match bluetooth l with
  | some (c :: s) => ("bluetooth".toList, c :: s) :: h
  | _ => h

/-- `_hw_collection` (207-270). -/
def collect (int : Str → Option Int) (d : Data) : Except Exc Info := do
  let h := dmiInfo (d.dmi.getD []) []
  let cpus ← (d.cpuinfo.getD []).mapM processor
  let h := popTo "processors".toList cpus h
  let h ← match d.lspci with
    | none => Except.ok h
    | some none => .error .unicode
    | some (some t) => .ok (lspciInfo t h)
  let mems ← (d.meminfo.getD []).mapM (memory int)
  let h := popTo "memory".toList mems h
  pure (bluetoothInfo (d.device.getD []) h)

/-- A cell that is written: row, column, text. (xlsx 318-373) -/
abbrev Cell := Nat × Nat × Str

/-- The rows of the table: row, title, key. (xlsx 323-352) -/
def rows : List (Nat × String × String) :=
  [(5, "Platform Name", "platform"), (7, "BIOS", "bios"), (8, "Processors", "processors"),
   (9, "Chipset", "chipset"), (10, "Memory", "memory"), (11, "Video (on board)", "video1"),
   (12, "Video (add-on)", "video2"), (13, "Video memory", "vram"), (14, "Audio", "audio"), (15, "NIC", "nic"),
   (16, "Wireless", "wireless"), (17, "Bluetooth", "bluetooth")]

/-- The loop over the packages (361-366). -/
def packageRows : Nat → List Rec → List Cell
  | _, [] => []
  | i, p :: l =>
    (22 + i, 1, (p.find "name").getD []) :: (22 + i, 2, (p.find "version").getD []) :: packageRows (i + 1) l

/-- The table of packages (353-373). -/
def packages (tr : Str → Str) : Option (List Rec) → List Cell
  | none => []
  | some l => (19, 1, tr "Packages Installed".toList) :: (21, 1, tr "Name".toList) :: (21, 2, tr "Version".toList) ::
      packageRows 0 l

/-- `write_systeminfo` (318-373): the cells in the order in which they are written, or the exception. -/
def systemInfo (tr : Str → Str) (int : Str → Option Int) (d : Data) : Except Exc (List Cell) :=
  match collect int d with
  | .error x => .error x
  | .ok h => .ok ((rows.flatMap fun r => [(r.1, 1, tr r.2.1.toList), (r.1, 2, h.at r.2.2)]) ++ packages tr d.package)

/-- What a cell of the sheet has in the end: the last write counts. (xlsx 318-373) -/
def cell (cells : List Cell) (row col : Nat) : Option Str :=
  (cells.reverse.find? fun c => c.1 = row ∧ c.2.1 = col).map fun c => c.2.2

end Verif.Sysinfo
