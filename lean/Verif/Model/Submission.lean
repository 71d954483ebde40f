import Verif.Model.Junit
import Verif.Model.IOLog
import Verif.Model.Where

/-! # The JSON report

Models the template of the exporter `json` (`plainbox/impl/providers/exporters/data/checkbox.json`, "checkbox.json") as
rendered by `Jinja2SessionStateExporter`, and its filters (`plainbox/impl/exporter/jinja2.py`, "jinja2").

Simplified: the state of a job is what the template takes from it; how Jinja2 makes lower case is a parameter. The filter
`indent` is that of the versions of Jinja2 of the time; later ones leave empty lines as they are. -/

namespace Verif.Submission

open Verif.Checksum (Str)
open Verif.Session (Outcome)
open Verif.Junit (escape)

/-- A resource: what `Resource` holds. (plainbox/impl/resource.py 80-128) -/
abbrev Res := List (Str × Str)

/-- What the template takes from the state of a job. (checkbox.json 39-47, 54, 58) -/
structure Job where
  id : Str
  plugin : Str
  summary : Str
  status : Str
  category : Str
  outcome : Outcome
  comments : Option Str
  log : Str
  attachment : Str
deriving DecidableEq, Repr

/-- What the template takes from the state of the session. (checkbox.json 2-4) -/
structure State where
  resources : List (Str × List Res)
  jobs : List Job
deriving DecidableEq, Repr

/-- The namespace of the certification programme. (checkbox.json 1; jinja2 45) -/
def ns : Str := "com.canonical.certification::".toList

/-- `do_strip_ns`, jinja2 48-58; the value is marked as safe. -/
def stripNs (id : Str) : Str := escape (if ns.isPrefixOf id then id.drop ns.length else id)

/-- `json.dumps` of a text or `None`. (jinja2 128) -/
def jsonify : Option Str → Str
  | none => "null".toList
  | some s => IOLog.jsonStr s

/-- An attribute of a resource that is inserted: nothing if there is none. (checkbox.json 9-12, 75, 79, 84-85) -/
def get (r : Res) (k : Str) : Str := (r.lookup k).getD []

/-- `hexr_mapping`, plainbox/impl/result.py 113-186. -/
def hexr : Outcome → Str
  | .none => "none".toList
  | .pass => "pass".toList
  | .fail => "fail".toList
  | .skip => "skip".toList
  | .notSupported => "skip".toList
  | .notImplemented => "skip".toList
  | .undecided => "skip".toList
  | .crash => "fail".toList

/-- The rounds of a loop, with commas between them. (checkbox.json 13, 24, 26, 34, 50, 92) -/
def listed : List Str → Str
  | [] => []
  | [x] => x
  | x :: y :: l => x ++ ',' :: listed (y :: l)

/-- White space at the beginning of a line. (checkbox.json 7, 10) -/
def margin (n : Nat) : Str := '\n' :: List.replicate n ' '

/-- A line with a key and a text, both inserted. (checkbox.json 11, 24, 34, 92) -/
def line (n : Nat) (k v : Str) : Str :=
  margin n ++ '"' :: (escape k ++ "\": \"".toList ++ escape v ++ ['"'])

/-- `resource|sort`: keys in the order of their lower case forms. (checkbox.json 23, 33, 91) -/
def sortKeys (lower : Str → Str) (r : Res) : Res := Sort.sortBy (fun a b => Sort.strLe (lower a.1) (lower b.1)) r

/-- The packages. (checkbox.json 6-16) -/
def packages (s : State) : Str :=
  match s.resources.lookup (ns ++ "package".toList) with
  | none => []
  | some rs =>
    margin 4 ++ "\"packages\": [".toList
      ++ listed ((rs.filter fun r => !(get r "name".toList).isEmpty).map fun r =>
        margin 8 ++ '{' :: (line 12 "name".toList (get r "name".toList) ++ ','
          :: (line 12 "version".toList (get r "version".toList) ++ margin 8 ++ ['}'])))
      ++ margin 4 ++ "],".toList

/-- The snap packages. (checkbox.json 17-29) -/
def snaps (lower : Str → Str) (s : State) : Str :=
  match s.resources.lookup (ns ++ "snap".toList) with
  | none => []
  | some rs =>
    margin 4 ++ "\"snap-packages\": [".toList
      ++ listed ((rs.filter fun r => !(get r "name".toList).isEmpty).map fun r =>
        margin 8 ++ '{' :: (line 12 "name".toList (get r "name".toList) ++ ','
          :: (listed ((sortKeys lower (r.filter fun kv => kv.1 ≠ "name".toList)).map fun kv => line 12 kv.1 kv.2)
            ++ margin 8 ++ ['}'])))
      ++ margin 4 ++ "],".toList

/-- The first resource of a job. (checkbox.json 30-31, 73-74, 77-78, 81-82, 88-89) -/
def first (s : State) (name : Str) : Option Res := (s.resources.lookup (ns ++ name)).bind List.head?

/-- The distribution. (checkbox.json 30-37) -/
def distribution (lower : Str → Str) (s : State) : Str :=
  match first s "lsb".toList with
  | none => []
  | some r =>
    margin 4 ++ "\"distribution\": {".toList ++ listed ((sortKeys lower r).map fun kv => line 8 kv.1 kv.2)
      ++ margin 4 ++ "},".toList

/-- The jobs that are reported, in order. (checkbox.json 39) -/
def shown (lower : Str → Str) (s : State) : List Job :=
  (Sort.sortBy (fun a b => Sort.strLe (lower a.id) (lower b.id)) s.jobs).filter fun j =>
    j.outcome ≠ .none && !["resource".toList, "attachment".toList].contains j.plugin

/-- A key that is in the template, and a value. (checkbox.json 41-49) -/
def member (n : Nat) (k : String) (v : Str) : Str := margin n ++ '"' :: (k.toList ++ "\": ".toList ++ v)

/-- A text that is inserted between quotes. (checkbox.json 41-45) -/
def quoted (v : Str) : Str := '"' :: (v ++ ['"'])

/-- One result. (checkbox.json 40-50) -/
def result (j : Job) : Str :=
  margin 8 ++ '{' :: (listed [
    member 12 "id" (quoted (stripNs j.id)),
    member 12 "name" (quoted (escape j.summary)),
    member 12 "certification_status" (quoted (escape j.status)),
    member 12 "category" (quoted (escape j.category)),
    member 12 "status" (quoted (escape (hexr j.outcome))),
    member 12 "comments" (jsonify j.comments),
    member 12 "io_log" (jsonify (some j.log)),
    member 12 "type" "\"test\"".toList,
    member 12 "project" "\"certification\"".toList] ++ margin 8 ++ ['}'])

/-- The results. (checkbox.json 38-52) -/
def results (lower : Str → Str) (s : State) : Str :=
  margin 4 ++ "\"results\": [".toList ++ listed ((shown lower s).map result) ++ margin 4 ++ [']']

/-- The job of that name. (checkbox.json 53, 57, 61, 65, 69, 96, 100, 104, 108) -/
def job (s : State) (name : Str) : Option Job := s.jobs.find? fun j => j.id = ns ++ name

/-- `text | indent(n, false)`. (library; checkbox.json 55, 59, 63, 67, 71, 102, 106) -/
def indent (n : Nat) (text : Str) : Str := (margin n).intercalate (Where.splitLines text)

/-- A member with what a job wrote, if the job has an outcome that will do.
(checkbox.json 53-72, 96-107) -/
def attached (s : State) (name : String) (ok : Outcome → Bool) (key : String) (value : Str → Str) : Str :=
  match job s name.toList with
  | none => []
  | some j => if ok j.outcome then ',' :: member 4 key (value j.attachment) else []

/-- A member with something from the first resource of a job. (checkbox.json 73-95) -/
def told (s : State) (name key : String) (value : Res → Str) : Str :=
  match first s name.toList with
  | none => []
  | some r => ',' :: member 4 key (value r)

/-- Has the job an outcome? (checkbox.json 53, 57, 61, 65, 69, 96, 108) -/
def any (o : Outcome) : Bool := o ≠ .none

/-- The build stamp. (checkbox.json 108-113) -/
def buildstamp (s : State) : Str :=
  match job s "info/buildstamp".toList with
  | none => []
  | some j =>
    if any j.outcome then
      ',' :: (match Where.splitLines (Text.rstrip j.attachment) with
        | [_, x] => member 4 "buildstamp" (jsonify (some x))
        | _ => [])
    else []

/-- The report. (checkbox.json 1-114) -/
def render (lower : Str → Str) (s : State) : Str :=
  '{' :: (packages s ++ snaps lower s ++ distribution lower s ++ results lower s
    ++ attached s "dkms_info_json" any "dkms_info" (indent 4)
    ++ attached s "udev_json" any "devices" (indent 4)
    ++ attached s "raw_devices_dmi_json" any "raw-devices-dmi" (indent 4)
    ++ attached s "modprobe_json" any "modprobe-info" (indent 4)
    ++ attached s "lspci_standard_config_json" any "pci_subsystem_id" (indent 4)
    ++ told s "uname" "kernel" (fun r => quoted (escape (get r "release".toList)))
    ++ told s "dpkg" "architecture" (fun r => quoted (escape (get r "architecture".toList)))
    ++ told s "meminfo" "memory" (fun r => '{' :: (listed [
        member 8 "swap" (escape (get r "swap".toList)),
        member 8 "total" (escape (get r "total".toList))] ++ margin 4 ++ ['}']))
    ++ told s "cpuinfo" "processor" (fun r =>
        '{' :: (listed ((sortKeys lower r).map fun kv => line 8 kv.1 kv.2) ++ margin 4 ++ ['}']))
    ++ attached s "kernel_cmdline_attachment" any "kernel-cmdline" (fun t => jsonify (some (Text.strip t)))
    ++ attached s "dell_bto_xml_attachment_json" (· = .pass) "bto-info" (indent 8)
    ++ attached s "recovery_info_attachment_json" (· = .pass) "image-version" (indent 8)
    ++ buildstamp s ++ margin 0 ++ ['}'])

end Verif.Submission
