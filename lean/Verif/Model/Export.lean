import Verif.Model.IOLog

/-!
# Exported session data

Models `SessionStateExporterBase` of `plainbox/impl/exporter/__init__.py`: option strings and
`get_session_data_subset`.

Simplifications: durations are integers (only whether they are zero matters); translated texts
(`tr_summary`, `tr_name`) are the texts themselves; resource data is a parameter type; a log that
cannot be read is not modelled (`get_io_log` is a list of records).
-/

namespace Verif.Export

open Verif.IOLog (b64enc)

/-- Texts, as lists of characters (exporter/__init__.py 101-334). -/
abbrev Str := List Char

/-- Data of log records and attachments (exporter/__init__.py 305-334). -/
abbrev Bytes := List (Fin 256)

/-! ## Options -/

/-- Value of an option in `_option_dict` (114-118): `True` or the text after the equal sign. -/
inductive Val
  | yes
  | text (s : Str)
  deriving DecidableEq, Repr

/-- Python truth of an option value (used at 153). -/
def Val.truthy : Val → Bool
  | .yes => true
  | .text s => !s.isEmpty

/-- `option_string.split("=", 1)` (110, 124) and the choice of the value (114-117): the text before
the first equal sign and `True` or the text after it. -/
def splitOption : Str → Str × Val
  | [] => ([], .yes)
  | c :: r =>
    if c = '=' then ([], .text r)
    else (c :: (splitOption r).1, (splitOption r).2)

/-- `self._option_dict` (exporter/__init__.py 101-132). -/
abbrev Dict := List (Str × Val)

/-- Item assignment of a dictionary (118, 132). -/
def setItem (k : Str) (v : Val) : Dict → Dict
  | [] => [(k, v)]
  | (k', v') :: d => if k' = k then (k, v) :: d else (k', v') :: setItem k v d

/-- One of the two loops of `__init__` (106-118, 120-132); the error is the `ValueError` with the
unsupported option. -/
def addOptions (supported : List Str) : List Str → Dict → Except Str Dict
  | [], d => .ok d
  | s :: ss, d =>
    if (splitOption s).1 ∈ supported then
      addOptions supported ss (setItem (splitOption s).1 (splitOption s).2 d)
    else .error (splitOption s).1

/-- `__init__` (101-132); `unit` is the `option_list` of the exporter unit. -/
def mkOptions (supported : List Str) (options : Option (List Str)) (unit : Option (List Str)) :
    Except Str Dict :=
  match addOptions supported (options.getD []) [] with
  | .error e => .error e
  | .ok d =>
    match unit with
    | none => .ok d
    | some us => addOptions supported us d

/-- `option in self._option_list` (145-153): the keys with a true value; the sorting does not matter
for membership. -/
def enabled (d : Dict) (k : Str) : Bool :=
  d.any (fun p => p.1 == k && p.2.truthy)

/-- Option name (72). -/
def withIOLog : Str := "with-io-log".toList
/-- Option name (73). -/
def squashIOLog : Str := "squash-io-log".toList
/-- Option name (74). -/
def flattenIOLog : Str := "flatten-io-log".toList
/-- Option name (75). -/
def withRunList : Str := "with-run-list".toList
/-- Option name (76). -/
def withJobList : Str := "with-job-list".toList
/-- Same text as the previous one (77). -/
def withDesiredJobList : Str := "with-job-list".toList
/-- Option name (78). -/
def withResourceMap : Str := "with-resource-map".toList
/-- Option name (79). -/
def withJobDefs : Str := "with-job-defs".toList
/-- Option name (80). -/
def withAttachments : Str := "with-attachments".toList
/-- Option name (81). -/
def withComments : Str := "with-comments".toList
/-- Option name (82). -/
def withJobHash : Str := "with-job-hash".toList
/-- Option name (83). -/
def withCategoryMap : Str := "with-category-map".toList
/-- Option name (84). -/
def withCertificationStatus : Str := "with-certification-status".toList

/-- `SUPPORTED_OPTION_LIST` (86-99). -/
def supportedOptions : List Str :=
  [withIOLog, squashIOLog, flattenIOLog, withRunList, withJobList, withResourceMap, withJobDefs,
    withAttachments, withComments, withJobHash, withCategoryMap, withCertificationStatus]

/-! ## Session -/

/-- `IOLogRecord`: delay, stream name and data. (exporter/__init__.py 314-334; `IOLogRecord` is in result.py 77.) -/
structure Rec where
  delay : Int
  stream : Str
  data : Bytes
  deriving DecidableEq, Repr

/-- What the exporter reads of a job state, its job and its result (247-302). -/
structure JobState where
  id : Str
  summary : Str
  category : Str
  outcome : Option Str
  duration : Option Int
  comments : Option Str
  checksum : Str
  plugin : Option Str
  requires : Option Str
  depends : Option Str
  command : Option Str
  description : Option Str
  log : List Rec
  certification : Str
  deriving DecidableEq, Repr

/-- A unit of kind category or another one (237-239). -/
structure UnitRec where
  isCategory : Bool
  id : Str
  name : Str
  deriving DecidableEq, Repr

/-- What the exporter reads of the session state (208-247). -/
structure Session (R : Type) where
  jobList : List Str
  runList : List Str
  desired : List Str
  resources : List (Str × List R)
  units : List UnitRec
  states : List JobState

/-! ## Report -/

/-- Exported log (289-297). -/
inductive LogOut
  | squashed (l : List Str)
  | flat (s : Str)
  | raw (l : List (Int × Str × Str))
  deriving DecidableEq, Repr

/-- Value of a field of a result. (exporter/__init__.py 194-303) -/
inductive Field
  | str (s : Str)
  | null
  | num (n : Int)
  | log (l : LogOut)
  deriving DecidableEq, Repr

/-- Keys of a result (251-301). -/
inductive Key
  | summary | categoryId | outcome | executionDuration | comments | hash
  | plugin | requires | depends | command | description
  | ioLog | certificationStatus
  deriving DecidableEq, Repr

/-- The data of one result (exporter/__init__.py 220-303). -/
abbrev Entry := List (Key × Field)

/-- `_squash_io_log` (313-319). -/
def squash (l : List Rec) : List Str := l.map (fun r => b64enc r.data)

/-- `_flatten_io_log` (321-327). -/
def flatten (l : List Rec) : Str := b64enc (l.map (·.data)).flatten

/-- `_io_log` (329-334). -/
def rawLog (l : List Rec) : List (Int × Str × Str) :=
  l.map (fun r => (r.delay, r.stream, b64enc r.data))

/-- `_build_attachment_map` (305-311). -/
def attachment (l : List Rec) : Str :=
  b64enc ((l.filter (fun r => r.stream == "stdout".toList)).map (·.data)).flatten

/-- `getattr(job, prop)` of the definition, left out when false (268-277). -/
def def1 (k : Key) : Option Str → Entry
  | some (c :: r) => [(k, .str (c :: r))]
  | _ => []

/-- `execution_duration`, left out when false (255-257). -/
def durField : Option Int → Entry
  | some n => if n = 0 then [] else [(.executionDuration, .num n)]
  | none => []

/-- `comments`, which may be `None` (258-260). -/
def commentsField : Option Str → Field
  | some c => .str c
  | none => .null

/-- The test of line 280. -/
def isAttachment (s : JobState) : Bool := s.plugin == some "attachment".toList

/-- One round of the loop over the job states (250-302) for a job with an outcome.  The keys are
assigned once each, so that the ordered dictionary is the list of the assignments. -/
def entry (d : Dict) (s : JobState) (outcome : Str) : Entry :=
  [(.summary, .str s.summary), (.categoryId, .str s.category), (.outcome, .str outcome)] ++
  durField s.duration ++
  (if enabled d withComments then [(.comments, commentsField s.comments)] else []) ++
  (if enabled d withJobHash then [(.hash, .str s.checksum)] else []) ++
  (if enabled d withJobDefs then
    def1 .plugin s.plugin ++ def1 .requires s.requires ++ def1 .depends s.depends ++
      def1 .command s.command ++ def1 .description s.description else []) ++
  (if isAttachment s then []
   else
    (if enabled d withIOLog then
      [(.ioLog, .log (if enabled d squashIOLog then .squashed (squash s.log)
        else if enabled d flattenIOLog then .flat (flatten s.log)
        else .raw (rawLog s.log)))] else []) ++
    (if enabled d withCertificationStatus then
      [(.certificationStatus, .str s.certification)] else []))

/-- The returned data (205-303); `none` where the key is missing. -/
structure Data (R : Type) where
  jobList : Option (List Str)
  runList : Option (List Str)
  desiredJobList : Option (List Str)
  resourceMap : Option (List (Str × List R))
  attachmentMap : Option (List (Str × Str))
  categoryMap : Option (List (Str × Str))
  resultMap : List (Str × Entry)

/-- Item assignment in the order-preserving dictionaries of the report. (exporter/__init__.py 194-311) -/
def put {V : Type} (k : Str) (v : V) : List (Str × V) → List (Str × V)
  | [] => [(k, v)]
  | (k', v') :: d => if k' = k then (k, v) :: d else (k', v') :: put k v d

/-- `com.canonical.plainbox::uncategorised` (244). -/
def uncategorised : Str := "com.canonical.plainbox::uncategorised".toList

/-- The comprehension over the units (236-241). -/
def categoryStep (wanted : List Str) (m : List (Str × Str)) (u : UnitRec) : List (Str × Str) :=
  if u.isCategory && wanted.contains u.id then put u.id u.name m else m

/-- `category_map` (232-246). -/
def categoryMap {R : Type} (s : Session R) : List (Str × Str) :=
  if (s.states.map (·.category)).contains uncategorised then
    put uncategorised "Uncategorised".toList
      (s.units.foldl (categoryStep (s.states.map (·.category))) [])
  else s.units.foldl (categoryStep (s.states.map (·.category))) []

/-- One job state in the loop (247-302). -/
def resultStep (d : Dict) (m : List (Str × Entry)) (s : JobState) : List (Str × Entry) :=
  match s.outcome with
  | none => m
  | some o => put s.id (entry d s o) m

/-- `result_map` (247-302). -/
def resultMap (d : Dict) (states : List JobState) : List (Str × Entry) :=
  states.foldl (resultStep d) []

/-- The attachment of one job state in the loop (248-249, 280-283). -/
def attachStep (m : List (Str × Str)) (s : JobState) : List (Str × Str) :=
  match s.outcome with
  | none => m
  | some _ => if isAttachment s then put s.id (attachment s.log) m else m

/-- The attachments collected by the same loop (280-283). -/
def attachmentMap (states : List JobState) : List (Str × Str) :=
  states.foldl attachStep []

/-- `get_session_data_subset` (194-303). -/
def subset {R : Type} (d : Dict) (s : Session R) : Data R :=
  { jobList := if enabled d withJobList then some s.jobList else none
    runList := if enabled d withRunList then some s.runList else none
    desiredJobList := if enabled d withDesiredJobList then some s.desired else none
    resourceMap := if enabled d withResourceMap then some s.resources else none
    attachmentMap := if enabled d withAttachments then some (attachmentMap s.states) else none
    categoryMap := if enabled d withCategoryMap then some (categoryMap s) else none
    resultMap := resultMap d s.states }

/-! ## Archive members -/

/-- `str.replace(old, new)` as used in exporter/tar.py 120: leftmost occurrences, not overlapping. -/
def replaceAll (old new : Str) (fuel : Nat) (s : Str) : Str :=
  match fuel with
  | 0 => s
  | fuel + 1 =>
    match s with
    | [] => []
    | c :: r =>
      if old.isPrefixOf (c :: r) then new ++ replaceAll old new fuel ((c :: r).drop old.length)
      else c :: replaceAll old new fuel r

/-- `os.path.basename`: the part after the last slash. (Standard library, used in exporter/__init__.py 305-311.) -/
def basename (p : Str) : Str := (p.reverse.takeWhile (· != '/')).reverse

/-- First part of `os.path.splitext` for a name without a slash: the last dot and what follows are
cut off unless only dots precede it. (Standard library, used in exporter/__init__.py 305-311.) -/
def splitextRoot (n : Str) : Str :=
  let tail := n.reverse.takeWhile (· != '.')
  if tail.length = n.length then n
  else
    let root := n.take (n.length - tail.length - 1)
    if root.all (· == '.') then n else root

/-- One job in the archive: its id for reference, whether it is an attachment job and the log file
name, absent for results in memory (tar.py 113-118, 121-123). -/
structure Member where
  isAttachment : Bool
  record : Option Str
  deriving DecidableEq, Repr

/-- One round of the inner loop (tar.py 119-129): the file and its name in the archive; `present`
tells whether a file exists and is not empty. -/
def memberOf (present : Str → Bool) (isAttachment : Bool) (rec std : Str) : Option (Str × Str) :=
  if present (replaceAll "record.gz".toList std rec.length rec) then
    some (replaceAll "record.gz".toList std rec.length rec,
      (if isAttachment then "attachment_files".toList else "test_output".toList) ++ '/' ::
        (if std = "stdout".toList then
          splitextRoot (basename (replaceAll "record.gz".toList std rec.length rec))
        else basename (replaceAll "record.gz".toList std rec.length rec)))
  else none

/-- The files added for one job (tar.py 113-129). -/
def membersOf (present : Str → Bool) (m : Member) : List (Str × Str) :=
  match m.record with
  | none => []
  | some rec =>
    ["stdout".toList, "stderr".toList].filterMap (memberOf present m.isAttachment rec)

/-- All log files in the archive, in the order of the job states (tar.py 113-129). -/
def members (present : Str → Bool) (ms : List Member) : List (Str × Str) :=
  ms.flatMap (membersOf present)

end Verif.Export
