import Verif.Model.Packaging

/-!
# Devices

Models `LocalDevice` in `plainbox/impl/device.py` ("device" below), lines 58-205, and `DeviceInvocation.run` in
`plainbox/impl/commands/inv_device.py` ("inv").

Simplifications: messages are not translated; what is logged is left out.
-/

namespace Verif.Cookie

open Verif.Packaging (Str osRelease osGet)

/-- What the code asks of the machine: `sys.platform` (device 94-99), the text of `/etc/os-release` or `none` if it cannot be read or
decoded (device 50-51, 114-119), what the two programs print or `none` if they cannot be run or fail (device 173-175, 190-192), and
`os.uname().machine` (device 201). -/
structure Machine where
  platform : Str
  osFile : Option Str
  dpkg : Option Str
  rpm : Option Str
  uname : Str
deriving DecidableEq

/-- How a call ends: with a value, or with `AttributeError`. (device 128: the method is named `_arch_linux_uname`) -/
inductive Result (α : Type)
  | value (a : α)
  | attributeError
deriving DecidableEq

/-- `_cookie_linux_common`, device 137-156. -/
def cookie (os : List (Str × Str)) (arch : Str) : Str :=
  "local://localhost/?os=".toList ++ "linux".toList ++ "&id=".toList ++ (osGet os "ID".toList).getD "Linux".toList ++
    "&version_id=".toList ++ (osGet os "VERSION_ID".toList).getD [] ++ "&arch=".toList ++ arch

/-- The loop over the probes, device 120-128; both programs print the name, which is stripped (device 173-175, 190-192). -/
def arch (m : Machine) : Result Str :=
  match m.dpkg with
  | some out => .value (Text.strip out)
  | none =>
    match m.rpm with
    | some out => .value (Text.strip out)
    | none => .attributeError

/-- `_discover_linux`, device 102-130. -/
def discoverLinux (m : Machine) : Result (List Str) :=
  match m.osFile.bind osRelease with
  | none => .value []
  | some os =>
    match arch m with
    | .value a => .value [cookie os a]
    | .attributeError => .attributeError

/-- `discover`, device 80-99 and `_discover_windows`, device 132-134. -/
def discover (m : Machine) : Result (List Str) :=
  if m.platform = "linux".toList ∨ m.platform = "linux2".toList then discoverLinux m
  else if m.platform = "win32".toList then .value ["local://localhost/?os=win32".toList]
  else .value []

/-- `DeviceInvocation.run`: the line that is printed. (inv 39-45) -/
def run (m : Machine) : Result Str :=
  match discover m with
  | .value (c :: _) => .value c
  | .value [] => .value "No supported devices detected?".toList
  | .attributeError => .attributeError

end Verif.Cookie
