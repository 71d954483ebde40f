import Verif.Model.Junit
import Verif.Props.Stats
import Verif.Props.Checksum
import Verif.Lemmas.Sort

/-! # C100: the JUnit report

The specification is a reader of XML documents, written from the recommendation and not from the template, and what a reader
of the report takes from the elements. The reader is stricter than the recommendation: names are made of ASCII letters,
values stand in double quotes, there are no comments, and `>` must be written as a reference. -/

namespace Verif.Junit

set_option linter.unusedSimpArgs false

open Verif.Checksum (Str)
open Verif.Session (Outcome)

/-! ## Specification -/

/-- A character that may stand in a document (XML 1.0, production 2). (specification) -/
def xmlChar (c : Char) : Bool :=
  c == '\t' || c == '\n' || c == '\r' || (0x20 ≤ c.toNat && c.toNat ≤ 0xD7FF) || (0xE000 ≤ c.toNat && c.toNat ≤ 0xFFFD)
    || 0x10000 ≤ c.toNat

/-- White space (production 3). (specification) -/
def white (c : Char) : Bool := c == ' ' || c == '\t' || c == '\n' || c == '\r'

/-- A letter. (specification) -/
def letter (c : Char) : Bool := ('a' ≤ c && c ≤ 'z') || ('A' ≤ c && c ≤ 'Z')

/-- What is found in a document. (specification) -/
inductive Event
  | start (n : Str) (as : List (Str × Str))
  | stop (n : Str)
  | text (t : Str)
deriving DecidableEq, Repr

/-- Where the reader is. (specification) -/
inductive Mode
  | text (t : Str)
  | ref (t e : Str)
  | opened
  | name (n : Str)
  | inside (n : Str) (as : List (Str × Str))
  | attr (n : Str) (as : List (Str × Str)) (a : Str)
  | equals (n : Str) (as : List (Str × Str)) (a : Str)
  | value (n : Str) (as : List (Str × Str)) (a v : Str)
  | valueRef (n : Str) (as : List (Str × Str)) (a v e : Str)
  | after (n : Str) (as : List (Str × Str))
  | slash (n : Str) (as : List (Str × Str))
  | close (n : Str)
deriving DecidableEq, Repr

/-- What a reference stands for (productions 66 and 68). (specification) -/
def entity (e : Str) : Option Char :=
  if e = "amp".toList then some '&'
  else if e = "lt".toList then some '<'
  else if e = "gt".toList then some '>'
  else if e = "quot".toList then some '"'
  else if e = "apos".toList then some '\''
  else
    match e with
    | '#' :: d :: ds =>
      if (d :: ds).all Char.isDigit then some (Char.ofNat ((d :: ds).foldl (fun a c => 10 * a + (c.toNat - 48)) 0)) else none
    | _ => none

/-- Text that was read, unless there is none. (specification) -/
def flush (t : Str) (acc : List Event) : List Event := if t.isEmpty then acc else .text t :: acc

/-- Read one character; events are gathered backwards. (specification) -/
def step : Mode × List Event → Char → Option (Mode × List Event)
  | (.text t, acc), c =>
    if c = '<' then some (.opened, flush t acc)
    else if c = '&' then some (.ref t [], acc)
    else if c = '>' then none
    else some (.text (t ++ [c]), acc)
  | (.ref t e, acc), c =>
    if c = ';' then (entity e).map fun d => (.text (t ++ [d]), acc) else some (.ref t (e ++ [c]), acc)
  | (.opened, acc), c =>
    if c = '/' then some (.close [], acc) else if letter c then some (.name [c], acc) else none
  | (.name n, acc), c =>
    if letter c then some (.name (n ++ [c]), acc)
    else if white c then some (.inside n [], acc)
    else if c = '>' then some (.text [], .start n [] :: acc)
    else if c = '/' then some (.slash n [], acc)
    else none
  | (.inside n as, acc), c =>
    if white c then some (.inside n as, acc)
    else if c = '>' then some (.text [], .start n as :: acc)
    else if c = '/' then some (.slash n as, acc)
    else if letter c then some (.attr n as [c], acc)
    else none
  | (.attr n as a, acc), c =>
    if letter c then some (.attr n as (a ++ [c]), acc)
    else if c = '=' then (if as.any (fun p => p.1 == a) then none else some (.equals n as a, acc))
    else none
  | (.equals n as a, acc), c => if c = '"' then some (.value n as a [], acc) else none
  | (.value n as a v, acc), c =>
    if c = '"' then some (.after n (as ++ [(a, v)]), acc)
    else if c = '<' then none
    else if c = '&' then some (.valueRef n as a v [], acc)
    else if white c then some (.value n as a (v ++ [' ']), acc)
    else some (.value n as a (v ++ [c]), acc)
  | (.valueRef n as a v e, acc), c =>
    if c = ';' then (entity e).map fun d => (.value n as a (v ++ [d]), acc) else some (.valueRef n as a v (e ++ [c]), acc)
  | (.after n as, acc), c =>
    if white c then some (.inside n as, acc)
    else if c = '>' then some (.text [], .start n as :: acc)
    else if c = '/' then some (.slash n as, acc)
    else none
  | (.slash n as, acc), c => if c = '>' then some (.text [], .stop n :: .start n as :: acc) else none
  | (.close n, acc), c =>
    if letter c then some (.close (n ++ [c]), acc)
    else if c = '>' && !n.isEmpty then some (.text [], .stop n :: acc)
    else none

/-- Read a text. (specification) -/
def run (st : Mode × List Event) : Str → Option (Mode × List Event)
  | [] => some st
  | c :: l =>
    match step st c with
    | none => none
    | some st' => run st' l

/-- One element, its parts closed in the right order, and nothing but white space around it. (specification) -/
def nested : Bool → List Str → List Event → Bool
  | seen, [], [] => seen
  | _, _ :: _, [] => false
  | seen, [], .start n _ :: l => !seen && nested true [n] l
  | seen, m :: stack, .start n _ :: l => nested seen (n :: m :: stack) l
  | seen, m :: stack, .stop n :: l => m == n && nested seen stack l
  | _, [], .stop _ :: _ => false
  | seen, [], .text t :: l => t.all white && nested seen [] l
  | seen, m :: stack, .text _ :: l => nested seen (m :: stack) l

/-- Ends of lines are read as one character (section 2.11). (specification) -/
def lineEnds : Str → Str
  | [] => []
  | '\r' :: '\n' :: l => '\n' :: lineEnds l
  | '\r' :: l => '\n' :: lineEnds l
  | c :: l => c :: lineEnds l

/-- The declaration at the start. (specification) -/
def prolog : Str := "<?xml version=\"1.0\" encoding=\"UTF-8\"?>".toList

/-- What a document has, or `none` if it is not a document. (specification) -/
def readDoc (t : Str) : Option (List Event) :=
  if t.all xmlChar && prolog.isPrefixOf t then
    match run (.text [], []) (lineEnds (t.drop prolog.length)) with
    | some (.text u, acc) => if nested false [] (flush u acc).reverse then some (flush u acc).reverse else none
    | _ => none
  else none

/-- What a case says of a job. (specification) -/
inductive Said
  | passed
  | skipped
  | failed (log : Str)
  | broken (log : Str)
deriving DecidableEq, Repr

/-- A test case as a reader of the report sees it. (specification) -/
structure Case where
  classname : Option Str
  name : Option Str
  time : Option Str
  said : Said
deriving DecidableEq, Repr

/-- What follows the start of a test case. (specification) -/
def saidBy : List Event → Said
  | .start n _ :: .text t :: _ =>
    if n = "failure".toList then .failed t else if n = "error".toList then .broken t else .passed
  | .start n _ :: _ => if n = "skipped".toList then .skipped else .passed
  | _ => .passed

/-- The test cases of a document. (specification) -/
def casesOf : List Event → List Case
  | [] => []
  | .start n as :: l =>
    if n = "testcase".toList then
      ⟨as.lookup "classname".toList, as.lookup "name".toList, as.lookup "time".toList, saidBy l⟩ :: casesOf l
    else casesOf l
  | _ :: l => casesOf l

/-- An attribute of the outermost element. (specification) -/
def total (a : Str) : List Event → Option Str
  | .start _ as :: _ => as.lookup a
  | _ :: l => total a l
  | [] => none

/-- Characters that are read as they are inside of elements. (specification) -/
def Clean (s : Str) : Prop := ∀ c ∈ s, xmlChar c = true ∧ c ≠ '\r'

/-- Characters that are read as they are inside of values. (specification) -/
def Even (s : Str) : Prop := Clean s ∧ '\t' ∉ s ∧ '\n' ∉ s

/-- What the report should say of a job. (specification) -/
def expected (i : Item) : Case :=
  ⟨some i.id, some i.id, some (i.duration.getD "None".toList),
    match i.outcome with
    | .fail => .failed ("\n      ".toList ++ i.log ++ "\n      ".toList)
    | .crash => .broken ("\n      ".toList ++ i.log ++ "\n      ".toList)
    | .skip | .notSupported => .skipped
    | _ => .passed⟩

/-! ## The reader on pieces of the report -/

theorem run_append (st : Mode × List Event) (a b : Str) : run st (a ++ b) = (run st a).bind (run · b) := by
  induction a generalizing st with
  | nil => rfl
  | cons c a ih =>
    simp only [List.cons_append, run]
    cases step st c with
    | none => rfl
    | some st' => exact ih st'

theorem run_text_escape (acc : List Event) (s t : Str) : run (.text t, acc) (escape s) = some (.text (t ++ s), acc) := by
  induction s generalizing t with
  | nil => simp [escape, run]
  | cons c s ih =>
    have h : run (.text t, acc) (escapeChar c) = some (.text (t ++ [c]), acc) := by
      unfold escapeChar
      by_cases h1 : c = '&'
      · subst h1; rfl
      by_cases h2 : c = '>'
      · subst h2; rfl
      by_cases h3 : c = '<'
      · subst h3; rfl
      by_cases h4 : c = '\''
      · subst h4; rfl
      by_cases h5 : c = '"'
      · subst h5; rfl
      simp [h1, h2, h3, h4, h5, run, step]
    rw [show escape (c :: s) = escapeChar c ++ escape s from rfl, run_append, h]
    simp only [Option.bind_some]
    rw [ih, List.append_assoc]; rfl

theorem run_value_escape (n : Str) (as : List (Str × Str)) (a : Str) (acc : List Event) (s v : Str)
    (hs : '\t' ∉ s ∧ '\n' ∉ s ∧ '\r' ∉ s) :
    run (.value n as a v, acc) (escape s) = some (.value n as a (v ++ s), acc) := by
  induction s generalizing v with
  | nil => simp [escape, run]
  | cons c s ih =>
    have h : run (.value n as a v, acc) (escapeChar c) = some (.value n as a (v ++ [c]), acc) := by
      unfold escapeChar
      by_cases h1 : c = '&'
      · subst h1; rfl
      by_cases h2 : c = '>'
      · subst h2; rfl
      by_cases h3 : c = '<'
      · subst h3; rfl
      by_cases h4 : c = '\''
      · subst h4; rfl
      by_cases h5 : c = '"'
      · subst h5; rfl
      simp only [h1, h2, h3, h4, h5, run, step, if_false]
      by_cases h6 : c = ' '
      · subst h6; rfl
      · have hw : white c = false := by
          simp only [List.mem_cons, not_or] at hs
          simp [white, h6, Ne.symm hs.1.1, Ne.symm hs.2.1.1, Ne.symm hs.2.2.1]
        simp [hw]
    rw [show escape (c :: s) = escapeChar c ++ escape s from rfl, run_append, h]
    simp only [Option.bind_some]
    rw [ih, List.append_assoc]
    · rfl
    · simp only [List.mem_cons, not_or] at hs
      exact ⟨hs.1.2, hs.2.1.2, hs.2.2.2⟩

theorem run_value_number (n : Str) (as : List (Str × Str)) (a : Str) (acc : List Event) (k : Nat) :
    run (.value n as a [], acc) (number k) = some (.value n as a (number k), acc) := by
  have hd : ∀ c ∈ number k, c.isDigit = true := fun c hc => Nat.isDigit_of_mem_toDigits (by decide) (by decide) hc
  have he : escape (number k) = number k := by
    generalize number k = l at hd
    induction l with
    | nil => rfl
    | cons c l ih =>
      have hc := hd c (by simp)
      have : escapeChar c = [c] := by
        unfold escapeChar
        rw [if_neg (by rintro rfl; exact absurd hc (by decide)), if_neg (by rintro rfl; exact absurd hc (by decide)),
          if_neg (by rintro rfl; exact absurd hc (by decide)), if_neg (by rintro rfl; exact absurd hc (by decide)),
          if_neg (by rintro rfl; exact absurd hc (by decide))]
      rw [show escape (c :: l) = escapeChar c ++ escape l from rfl, this, ih fun c h => hd c (by simp [h])]
      rfl
  have := run_value_escape n as a acc (number k) [] ⟨fun h => absurd (hd _ h) (by decide),
    fun h => absurd (hd _ h) (by decide), fun h => absurd (hd _ h) (by decide)⟩
  rw [he] at this
  exact this

/-- What is read inside of a test case. -/
def bodyEvents (i : Item) : List Event :=
  if i.outcome = .skip ∨ i.outcome = .notSupported then [.start "skipped".toList [], .stop "skipped".toList]
  else if i.outcome = .fail then
    [.start "failure".toList [("type".toList, [])], .text ("\n      ".toList ++ i.log ++ "\n      ".toList),
      .stop "failure".toList]
  else if i.outcome = .crash then
    [.start "error".toList [("type".toList, [])], .text ("\n      ".toList ++ i.log ++ "\n      ".toList),
      .stop "error".toList]
  else []

/-- The attributes of a test case. -/
def attrs (i : Item) : List (Str × Str) :=
  [("classname".toList, i.id), ("name".toList, i.id), ("time".toList, durationText i.duration)]

/-- What is read of a job. -/
def events (i : Item) : List Event :=
  if i.outcome = .none then []
  else [.text "\n    ".toList, .start "testcase".toList (attrs i)] ++ bodyEvents i
    ++ [.text "\n    ".toList, .stop "testcase".toList]

theorem run_log (acc : List Event) (s : Str) (tail : Str) (n : Str)
    (h : ∀ t acc, run (.text t, acc) ("\n      ".toList ++ tail) =
      some (.text [], .stop n :: flush (t ++ "\n      ".toList) acc)) :
    run (.text [], acc) ("\n      ".toList ++ escape s ++ ("\n      ".toList ++ tail)) =
      some (.text [], .stop n :: .text ("\n      ".toList ++ s ++ "\n      ".toList) :: acc) := by
  rw [run_append, run_append]
  rw [show run (.text [], acc) "\n      ".toList = some (.text "\n      ".toList, acc) from rfl]
  simp only [Option.bind_some]
  rw [run_text_escape]
  simp only [Option.bind_some]
  rw [h]
  unfold flush
  rw [if_neg (by simp)]

theorem run_body (i : Item) (acc : List Event) :
    run (.text [], acc) (body i) = some (.text [], (bodyEvents i).reverse ++ acc) := by
  unfold body bodyEvents
  by_cases h1 : i.outcome = .skip ∨ i.outcome = .notSupported
  · rw [if_pos h1, if_pos h1]; rfl
  rw [if_neg h1, if_neg h1]
  by_cases h2 : i.outcome = .fail
  · rw [if_pos h2, if_pos h2]
    rw [show ("<failure type=\"\">\n      ".toList ++ escape i.log ++ "\n      </failure>".toList : Str) =
      "<failure type=\"\">".toList ++ ("\n      ".toList ++ escape i.log ++ ("\n      ".toList ++ "</failure>".toList)) from by
        rw [show "<failure type=\"\">\n      ".toList = "<failure type=\"\">".toList ++ "\n      ".toList from by decide,
          show "\n      </failure>".toList = "\n      ".toList ++ "</failure>".toList from by decide]
        simp only [List.append_assoc]]
    rw [run_append, show run (.text [], acc) "<failure type=\"\">".toList =
      some (.text [], .start "failure".toList [("type".toList, [])] :: acc) from rfl]
    simp only [Option.bind_some]
    rw [run_log _ i.log "</failure>".toList "failure".toList (fun t acc => by
      rw [run_append, show run (.text t, acc) "\n      ".toList =
        run (.text t, acc) (escape "\n      ".toList) from rfl, run_text_escape]
      rfl)]
    rfl
  rw [if_neg h2, if_neg h2]
  by_cases h3 : i.outcome = .crash
  · rw [if_pos h3, if_pos h3]
    rw [show ("<error type=\"\">\n      ".toList ++ escape i.log ++ "\n      </error>".toList : Str) =
      "<error type=\"\">".toList ++ ("\n      ".toList ++ escape i.log ++ ("\n      ".toList ++ "</error>".toList)) from by
        rw [show "<error type=\"\">\n      ".toList = "<error type=\"\">".toList ++ "\n      ".toList from by decide,
          show "\n      </error>".toList = "\n      ".toList ++ "</error>".toList from by decide]
        simp only [List.append_assoc]]
    rw [run_append, show run (.text [], acc) "<error type=\"\">".toList =
      some (.text [], .start "error".toList [("type".toList, [])] :: acc) from rfl]
    simp only [Option.bind_some]
    rw [run_log _ i.log "</error>".toList "error".toList (fun t acc => by
      rw [run_append, show run (.text t, acc) "\n      ".toList =
        run (.text t, acc) (escape "\n      ".toList) from rfl, run_text_escape]
      rfl)]
    rfl
  · rw [if_neg h3, if_neg h3]; rfl

theorem Even.plain {s : Str} (h : Even s) : '\t' ∉ s ∧ '\n' ∉ s ∧ '\r' ∉ s :=
  ⟨h.2.1, h.2.2, fun hr => (h.1 _ hr).2 rfl⟩

/-- The texts of a job that are read as they are. (specification) -/
def Fine (i : Item) : Prop := Even i.id ∧ Even (i.duration.getD "None".toList) ∧ Clean i.log

theorem run_one (i : Item) (hf : i.outcome ≠ .none → Fine i) (acc : List Event) :
    run (.text [], acc) (one i) = some (.text [], (events i).reverse ++ acc) := by
  unfold one events
  by_cases h0 : i.outcome = .none
  · rw [if_pos h0, if_pos h0]; rfl
  obtain ⟨hid, hd, _⟩ := hf h0
  rw [if_neg h0, if_neg h0]
  rw [run_append, run_append, run_append, run_append, run_append, run_append, run_append, run_append]
  rw [show run (.text [], acc) "\n    <testcase classname=\"".toList =
    some (.value "testcase".toList [] "classname".toList [], .text "\n    ".toList :: acc) from rfl]
  simp only [Option.bind_some]
  rw [run_value_escape _ _ _ _ _ _ hid.plain]
  simp only [Option.bind_some, List.nil_append]
  rw [show ∀ v acc, run (.value "testcase".toList [] "classname".toList v, acc) "\" name=\"".toList =
    some (.value "testcase".toList [("classname".toList, v)] "name".toList [], acc) from fun _ _ => rfl]
  simp only [Option.bind_some]
  rw [run_value_escape _ _ _ _ _ _ hid.plain]
  simp only [Option.bind_some, List.nil_append]
  rw [show ∀ v w acc, run (.value "testcase".toList [("classname".toList, w)] "name".toList v, acc) "\" time=\"".toList =
    some (.value "testcase".toList [("classname".toList, w), ("name".toList, v)] "time".toList [], acc) from
      fun _ _ _ => rfl]
  simp only [Option.bind_some]
  rw [run_value_escape _ _ _ _ _ _ (show Even (durationText i.duration) from hd).plain]
  simp only [Option.bind_some, List.nil_append]
  rw [show ∀ v w x acc, run (.value "testcase".toList [("classname".toList, w), ("name".toList, v)] "time".toList x, acc)
    "\">".toList = some (.text [], .start "testcase".toList [("classname".toList, w), ("name".toList, v),
      ("time".toList, x)] :: acc) from fun _ _ _ _ => rfl]
  simp only [Option.bind_some]
  rw [run_body]
  simp only [Option.bind_some]
  rw [show ∀ acc, run (.text [], acc) "\n    </testcase>".toList =
    some (.text [], .stop "testcase".toList :: .text "\n    ".toList :: acc) from fun _ => rfl]
  simp [attrs]

theorem run_all (l : List Item) (hf : ∀ i ∈ l, i.outcome ≠ .none → Fine i) (acc : List Event) :
    run (.text [], acc) (l.flatMap one) = some (.text [], (l.flatMap events).reverse ++ acc) := by
  induction l generalizing acc with
  | nil => rfl
  | cons i l ih =>
    simp only [List.flatMap_cons]
    rw [run_append, run_one i (hf i (by simp)), Option.bind_some, ih fun j hj => hf j (by simp [hj])]
    simp

theorem nested_events (i : Item) (l : List Event) :
    nested true ["testsuites".toList] (events i ++ l) = nested true ["testsuites".toList] l := by
  unfold events bodyEvents
  cases i.outcome <;> simp [nested]

theorem nested_all (k : List Item) (l : List Event) :
    nested true ["testsuites".toList] (k.flatMap events ++ l) = nested true ["testsuites".toList] l := by
  induction k with
  | nil => rfl
  | cons i k ih => rw [List.flatMap_cons, List.append_assoc, nested_events, ih]

theorem cases_start (n : Str) (as : List (Str × Str)) (l : List Event) : casesOf (.start n as :: l) =
    if n = "testcase".toList then
      ⟨as.lookup "classname".toList, as.lookup "name".toList, as.lookup "time".toList, saidBy l⟩ :: casesOf l
    else casesOf l := rfl

theorem cases_text (t : Str) (l : List Event) : casesOf (.text t :: l) = casesOf l := rfl

theorem cases_stop (t : Str) (l : List Event) : casesOf (.stop t :: l) = casesOf l := rfl

theorem said_text (t : Str) (l : List Event) : saidBy (.text t :: l) = .passed := rfl

theorem said_start (n : Str) (as : List (Str × Str)) (t : Str) (l : List Event) : saidBy (.start n as :: .text t :: l) =
    if n = "failure".toList then .failed t else if n = "error".toList then .broken t else .passed := rfl

theorem said_stop (n : Str) (as : List (Str × Str)) (t : Str) (l : List Event) : saidBy (.start n as :: .stop t :: l) =
    if n = "skipped".toList then .skipped else .passed := rfl

theorem cases_case (i : Item) (l : List Event) : casesOf (.start "testcase".toList (attrs i) :: l) =
    ⟨some i.id, some i.id, some (i.duration.getD "None".toList), saidBy l⟩ :: casesOf l := by
  rw [cases_start, if_pos rfl]; rfl

theorem cases_events (i : Item) (l : List Event) :
    casesOf (events i ++ l) = (if i.outcome = .none then [] else [expected i]) ++ casesOf l := by
  by_cases h0 : i.outcome = .none
  · unfold events; rw [if_pos h0, if_pos h0]; rfl
  rw [if_neg h0]
  unfold events
  rw [if_neg h0]
  simp only [List.append_assoc, List.cons_append, List.nil_append]
  rw [cases_text, cases_case]
  unfold bodyEvents
  by_cases h1 : i.outcome = .skip ∨ i.outcome = .notSupported
  · rw [if_pos h1]
    have he : expected i = ⟨some i.id, some i.id, some (i.duration.getD "None".toList), .skipped⟩ := by
      unfold expected; rcases h1 with h1 | h1 <;> rw [h1]
    simp only [List.cons_append, List.nil_append]
    rw [said_stop, if_pos rfl, cases_start, if_neg (by decide), cases_stop, cases_text, cases_stop, he]
  rw [if_neg h1]
  by_cases h2 : i.outcome = .fail
  · rw [if_pos h2]
    have he : expected i = ⟨some i.id, some i.id, some (i.duration.getD "None".toList),
        .failed ("\n      ".toList ++ i.log ++ "\n      ".toList)⟩ := by
      unfold expected; rw [h2]
    simp only [List.cons_append, List.nil_append]
    rw [said_start, if_pos rfl, cases_start, if_neg (by decide), cases_text, cases_stop, cases_text, cases_stop, he]
  rw [if_neg h2]
  by_cases h3 : i.outcome = .crash
  · rw [if_pos h3]
    have he : expected i = ⟨some i.id, some i.id, some (i.duration.getD "None".toList),
        .broken ("\n      ".toList ++ i.log ++ "\n      ".toList)⟩ := by
      unfold expected; rw [h3]
    simp only [List.cons_append, List.nil_append]
    rw [said_start, if_neg (by decide), if_pos rfl, cases_start, if_neg (by decide), cases_text, cases_stop, cases_text,
      cases_stop, he]
  rw [if_neg h3]
  have he : expected i = ⟨some i.id, some i.id, some (i.duration.getD "None".toList), .passed⟩ := by
    unfold expected
    cases ho : i.outcome <;> simp_all
  simp only [List.nil_append]
  rw [said_text, cases_text, cases_stop, he]

theorem cases_all (k : List Item) (l : List Event) :
    casesOf (k.flatMap events ++ l) = (k.filter fun i => i.outcome ≠ .none).map expected ++ casesOf l := by
  induction k with
  | nil => rfl
  | cons i k ih =>
    rw [List.flatMap_cons, List.append_assoc, cases_events, ih]
    by_cases h : i.outcome = .none
    · simp [h]
    · simp [h]

/-! ## The whole report -/

theorem clean_append {a b : Str} (ha : Clean a) (hb : Clean b) : Clean (a ++ b) := by
  intro c hc
  rcases List.mem_append.1 hc with h | h
  · exact ha c h
  · exact hb c h

theorem clean_escape {s : Str} (h : Clean s) : Clean (escape s) := by
  intro c hc
  obtain ⟨d, hd, hc⟩ := List.mem_flatMap.1 hc
  have key : ∀ l : Str, (∀ x ∈ l, xmlChar x = true ∧ x ≠ '\r') → c ∈ l → xmlChar c = true ∧ c ≠ '\r' := fun l h => h c
  unfold escapeChar at hc
  by_cases h1 : d = '&'
  · rw [if_pos h1] at hc; exact key _ (by decide) hc
  rw [if_neg h1] at hc
  by_cases h2 : d = '>'
  · rw [if_pos h2] at hc; exact key _ (by decide) hc
  rw [if_neg h2] at hc
  by_cases h3 : d = '<'
  · rw [if_pos h3] at hc; exact key _ (by decide) hc
  rw [if_neg h3] at hc
  by_cases h4 : d = '\''
  · rw [if_pos h4] at hc; exact key _ (by decide) hc
  rw [if_neg h4] at hc
  by_cases h5 : d = '"'
  · rw [if_pos h5] at hc; exact key _ (by decide) hc
  rw [if_neg h5] at hc
  rw [List.mem_singleton.1 hc]
  exact h d hd

theorem digit_clean {c : Char} (h : c.isDigit = true) : xmlChar c = true ∧ c ≠ '\r' := by
  have h48 : 48 ≤ c.toNat ∧ c.toNat ≤ 57 := by
    simp only [Char.isDigit, Bool.and_eq_true, decide_eq_true_eq] at h
    exact ⟨h.1, h.2⟩
  refine ⟨?_, by rintro rfl; exact absurd h48.1 (by decide)⟩
  unfold xmlChar
  have : (0x20 ≤ c.toNat && c.toNat ≤ 0xD7FF) = true := by
    simp only [Bool.and_eq_true, decide_eq_true_eq]; omega
  simp [this]

theorem clean_number (k : Nat) : Clean (number k) := fun _ hc =>
  digit_clean (Nat.isDigit_of_mem_toDigits (by decide) (by decide) hc)

theorem clean_body {i : Item} (h : Clean i.log) : Clean (body i) := by
  unfold body
  split
  · intro c; revert c; decide
  split
  · exact clean_append (clean_append (by intro c; revert c; decide) (clean_escape h)) (by intro c; revert c; decide)
  split
  · exact clean_append (clean_append (by intro c; revert c; decide) (clean_escape h)) (by intro c; revert c; decide)
  · intro c hc; cases hc

theorem clean_one {i : Item} (hf : i.outcome ≠ .none → Fine i) : Clean (one i) := by
  unfold one
  by_cases h0 : i.outcome = .none
  · rw [if_pos h0]; intro c hc; cases hc
  rw [if_neg h0]
  obtain ⟨hid, hd, hl⟩ := hf h0
  have l1 : Clean "\n    <testcase classname=\"".toList := by intro c; revert c; decide
  have l2 : Clean "\" name=\"".toList := by intro c; revert c; decide
  have l3 : Clean "\" time=\"".toList := by intro c; revert c; decide
  have l4 : Clean "\">".toList := by intro c; revert c; decide
  have l5 : Clean "\n    </testcase>".toList := by intro c; revert c; decide
  have hd' : Clean (durationText i.duration) := hd.1
  exact clean_append (clean_append (clean_append (clean_append (clean_append (clean_append (clean_append (clean_append l1
    (clean_escape hid.1)) l2) (clean_escape hid.1)) l3) (clean_escape hd')) l4) (clean_body hl)) l5

theorem clean_all {l : List Item} (hf : ∀ i ∈ l, i.outcome ≠ .none → Fine i) : Clean (l.flatMap one) := by
  intro c hc
  obtain ⟨i, hi, hc⟩ := List.mem_flatMap.1 hc
  exact clean_one (hf i hi) c hc

theorem lineEnds_clean {s : Str} (h : Clean s) : lineEnds s = s := by
  induction s with
  | nil => rfl
  | cons c s ih =>
    have hc : c ≠ '\r' := (h c (by simp)).2
    have ih := ih fun d hd => h d (by simp [hd])
    rw [lineEnds.eq_def]
    split
    · rename_i e; cases e
    · rename_i e; injection e with e _; exact absurd e hc
    · rename_i e; injection e with e _; exact absurd e hc
    · rename_i e; injection e with e1 e2; subst e1; subst e2; rw [ih]

/-- The report after the declaration. -/
def rest (lower : Str → Str) (items : List Item) : Str :=
  "\n  <testsuites failures=\"".toList ++ number (stat items .fail)
    ++ "\" name=\"\" tests=\"".toList ++ number (stat items .pass)
    ++ "\" skipped=\"".toList ++ number (stat items .skip + stat items .notSupported)
    ++ "\" errors=\"".toList ++ number (stat items .crash) ++ "\">".toList
    ++ (sorted lower items).flatMap one ++ "\n  </testsuites>".toList

theorem render_rest (lower : Str → Str) (items : List Item) : render lower items = prolog ++ rest lower items := by
  unfold render rest
  rw [show "<?xml version=\"1.0\" encoding=\"UTF-8\"?>\n  <testsuites failures=\"".toList =
    prolog ++ "\n  <testsuites failures=\"".toList from by decide]
  simp only [List.append_assoc]

/-- What is read of the start of the outermost element. -/
def head (items : List Item) : List (Str × Str) :=
  [("failures".toList, number (stat items .fail)), ("name".toList, []), ("tests".toList, number (stat items .pass)),
    ("skipped".toList, number (stat items .skip + stat items .notSupported)), ("errors".toList, number (stat items .crash))]

/-- What is read of the report. -/
def allEvents (lower : Str → Str) (items : List Item) : List Event :=
  [.text "\n  ".toList, .start "testsuites".toList (head items)] ++ ((sorted lower items).flatMap events
    ++ [.text "\n  ".toList, .stop "testsuites".toList])

theorem run_rest (lower : Str → Str) (items : List Item) (hf : ∀ i ∈ sorted lower items, i.outcome ≠ .none → Fine i) :
    run (.text [], []) (rest lower items) = some (.text [], (allEvents lower items).reverse) := by
  unfold rest
  rw [run_append, run_append, run_append, run_append, run_append, run_append, run_append, run_append, run_append, run_append]
  rw [show run (.text [], []) "\n  <testsuites failures=\"".toList =
    some (.value "testsuites".toList [] "failures".toList [], [.text "\n  ".toList]) from rfl]
  simp only [Option.bind_some]
  rw [run_value_number]
  simp only [Option.bind_some]
  rw [show ∀ v acc, run (.value "testsuites".toList [] "failures".toList v, acc) "\" name=\"\" tests=\"".toList =
    some (.value "testsuites".toList [("failures".toList, v), ("name".toList, [])] "tests".toList [], acc) from
      fun _ _ => rfl]
  simp only [Option.bind_some]
  rw [run_value_number]
  simp only [Option.bind_some]
  rw [show ∀ v w acc, run (.value "testsuites".toList [("failures".toList, v), ("name".toList, [])] "tests".toList w, acc)
    "\" skipped=\"".toList = some (.value "testsuites".toList [("failures".toList, v), ("name".toList, []),
      ("tests".toList, w)] "skipped".toList [], acc) from fun _ _ _ => rfl]
  simp only [Option.bind_some]
  rw [run_value_number]
  simp only [Option.bind_some]
  rw [show ∀ v w x acc, run (.value "testsuites".toList [("failures".toList, v), ("name".toList, []), ("tests".toList, w)]
    "skipped".toList x, acc) "\" errors=\"".toList = some (.value "testsuites".toList [("failures".toList, v),
      ("name".toList, []), ("tests".toList, w), ("skipped".toList, x)] "errors".toList [], acc) from fun _ _ _ _ => rfl]
  simp only [Option.bind_some]
  rw [run_value_number]
  simp only [Option.bind_some]
  rw [show ∀ v w x y acc, run (.value "testsuites".toList [("failures".toList, v), ("name".toList, []), ("tests".toList, w),
    ("skipped".toList, x)] "errors".toList y, acc) "\">".toList = some (.text [], .start "testsuites".toList
      [("failures".toList, v), ("name".toList, []), ("tests".toList, w), ("skipped".toList, x), ("errors".toList, y)] :: acc)
      from fun _ _ _ _ _ => rfl]
  simp only [Option.bind_some]
  rw [run_all _ hf]
  simp only [Option.bind_some]
  rw [show ∀ acc, run (.text [], acc) "\n  </testsuites>".toList =
    some (.text [], .stop "testsuites".toList :: .text "\n  ".toList :: acc) from fun _ => rfl]
  simp [allEvents, head]

theorem clean_rest (lower : Str → Str) (items : List Item) (hf : ∀ i ∈ sorted lower items, i.outcome ≠ .none → Fine i) :
    Clean (rest lower items) := by
  have l1 : Clean "\n  <testsuites failures=\"".toList := by intro c; revert c; decide
  have l2 : Clean "\" name=\"\" tests=\"".toList := by intro c; revert c; decide
  have l3 : Clean "\" skipped=\"".toList := by intro c; revert c; decide
  have l4 : Clean "\" errors=\"".toList := by intro c; revert c; decide
  have l5 : Clean "\">".toList := by intro c; revert c; decide
  have l6 : Clean "\n  </testsuites>".toList := by intro c; revert c; decide
  exact clean_append (clean_append (clean_append (clean_append (clean_append (clean_append (clean_append (clean_append
    (clean_append (clean_append l1 (clean_number _)) l2) (clean_number _)) l3) (clean_number _)) l4) (clean_number _)) l5)
    (clean_all hf)) l6

theorem mem_sorted {lower : Str → Str} {items : List Item} {i : Item} : i ∈ sorted lower items ↔ i ∈ items :=
  (Sort.sortBy_perm items).mem_iff

theorem read_render (lower : Str → Str) (items : List Item) (hf : ∀ i ∈ items, i.outcome ≠ .none → Fine i) :
    readDoc (render lower items) = some (allEvents lower items) := by
  have hf' : ∀ i ∈ sorted lower items, i.outcome ≠ .none → Fine i := fun i hi => hf i (mem_sorted.1 hi)
  have hc := clean_rest lower items hf'
  have hp : prolog.all xmlChar = true := by decide
  unfold readDoc
  rw [render_rest, List.drop_left, lineEnds_clean hc, run_rest _ _ hf']
  have h1 : ((prolog ++ rest lower items).all xmlChar && prolog.isPrefixOf (prolog ++ rest lower items)) = true := by
    simp only [List.all_append, hp, Bool.true_and, Bool.and_eq_true, List.all_eq_true]
    exact ⟨fun c h => (hc c h).1, by simp⟩
  rw [if_pos h1]
  simp only [flush, List.isEmpty_nil, if_true, List.reverse_reverse]
  have h2 : nested false [] (allEvents lower items) = true := by
    unfold allEvents
    simp only [List.cons_append, List.nil_append, nested, Bool.not_false, Bool.true_and]
    rw [nested_all]
    simp [nested, white]
  rw [if_pos h2]

theorem stat_eq (items : List Item) (o : Outcome) (ho : o ≠ .none) : stat items o = items.countP fun i => i.outcome = o := by
  unfold stat
  rw [(Stats.C11_outcome_stats _).1 o ho]
  simp only [Stats.countOf, List.countP_map]
  rfl

/-- Whether a case says that the job failed. (specification) -/
def Said.isFailed : Said → Bool
  | .failed _ => true
  | _ => false

/-- Whether a case says that the job was broken. (specification) -/
def Said.isBroken : Said → Bool
  | .broken _ => true
  | _ => false

theorem count_cases (items : List Item) (p : Said → Bool) (q : Outcome → Bool)
    (h : ∀ i : Item, i.outcome ≠ .none → p (expected i).said = q i.outcome) (h0 : q .none = false) (lower : Str → Str) :
    (((sorted lower items).filter fun i => i.outcome ≠ .none).map expected).countP (fun c => p c.said) =
      items.countP fun i => q i.outcome := by
  rw [List.countP_map, List.countP_filter, (show (sorted lower items).Perm items from Sort.sortBy_perm items).countP_eq]
  apply List.countP_congr
  intro i _
  by_cases hn : i.outcome = .none
  · simp [hn, h0]
  · simp [hn, h i hn]

/-- The report is an XML document in which each job with an outcome has one case, in the order of the ids, with the id, the
duration and what happened, and the log of a job that failed or crashed; the totals of failures, errors and skipped jobs
are the numbers of such cases. It holds for texts without carriage returns and characters that XML does not allow, and ids
on one line. -/
theorem C100_reads_partial (lower : Str → Str) (items : List Item) (hf : ∀ i ∈ items, i.outcome ≠ .none → Fine i) :
    ∃ es, readDoc (render lower items) = some es ∧
      casesOf es = ((sorted lower items).filter fun i => i.outcome ≠ .none).map expected ∧
      total "failures".toList es = some (number ((casesOf es).countP fun c => c.said.isFailed)) ∧
      total "errors".toList es = some (number ((casesOf es).countP fun c => c.said.isBroken)) ∧
      total "skipped".toList es = some (number ((casesOf es).countP fun c => c.said = .skipped)) ∧
      total "tests".toList es = some (number (items.countP fun i => i.outcome = .pass)) := by
  have hcs : casesOf (allEvents lower items) = ((sorted lower items).filter fun i => i.outcome ≠ .none).map expected := by
    unfold allEvents
    simp only [List.cons_append, List.nil_append]
    rw [cases_text, cases_start, if_neg (by decide), cases_all]
    simp only [casesOf, List.append_nil]
  refine ⟨_, read_render lower items hf, hcs, ?_, ?_, ?_, ?_⟩
  · rw [hcs, count_cases items Said.isFailed (fun o => o = .fail) (fun i _ => ?_) (by decide)]
    · exact congrArg (fun k => some (number k)) (stat_eq items .fail (by decide))
    · cases h : i.outcome <;> simp [expected, h, Said.isFailed]
  · rw [hcs, count_cases items Said.isBroken (fun o => o = .crash) (fun i _ => ?_) (by decide)]
    · exact congrArg (fun k => some (number k)) (stat_eq items .crash (by decide))
    · cases h : i.outcome <;> simp [expected, h, Said.isBroken]
  · rw [hcs, count_cases items (fun s => decide (s = .skipped)) (fun o => o = .skip || o = .notSupported) (fun i _ => ?_)
      (by decide)]
    · have hadd : (items.countP fun i => decide (i.outcome = .skip) || decide (i.outcome = .notSupported)) =
          stat items .skip + stat items .notSupported := by
        rw [stat_eq _ _ (by decide), stat_eq _ _ (by decide)]
        induction items with
        | nil => rfl
        | cons i l ih =>
          simp only [List.countP_cons]
          rw [ih fun j hj => hf j (by simp [hj])]
          · cases i.outcome <;> simp <;> omega
          · unfold allEvents
            simp only [List.cons_append, List.nil_append]
            rw [cases_text, cases_start, if_neg (by decide), cases_all]
            simp only [casesOf, List.append_nil]
      rw [hadd]; rfl
    · cases h : i.outcome <;> simp [expected, h]
  · exact congrArg (fun k => some (number k)) (stat_eq items .pass (by decide))

/-- Every job with an outcome has exactly one case, and the cases come in the order of the ids in lower case. -/
theorem C100_order (lower : Str → Str) (items : List Item) :
    (((sorted lower items).filter fun i => i.outcome ≠ .none).map expected).Perm
      ((items.filter fun i => i.outcome ≠ .none).map expected) ∧
    (sorted lower items).Pairwise fun a b => Sort.strLe (lower a.id) (lower b.id) = true :=
  ⟨((Sort.sortBy_perm items).filter _).map _, Sort.sortBy_sorted
    (le := fun a b : Item => Sort.strLe (lower a.id) (lower b.id)) (fun _ _ => Sort.strLe_total _ _)
    (fun _ _ _ => Sort.strLe_trans _ _ _) items⟩

/-- A session with a passed, a failed and a skipped job. -/
def demo : List Item :=
  [⟨"ns::b".toList, .fail, some "1.5".toList, "a < b & \"c\"\n".toList⟩, ⟨"ns::A".toList, .pass, some "0.1".toList, []⟩,
    ⟨"ns::c".toList, .notSupported, none, []⟩, ⟨"ns::d".toList, .none, none, []⟩]

example : ∀ i ∈ demo, i.outcome ≠ .none → Fine i := by
  intro i hi _
  have h : ∀ s : Str, (s.all fun c => xmlChar c && c != '\r') = true → Clean s := fun s h c hc => by
    have := List.all_eq_true.1 h c hc
    simpa using this
  simp only [demo, List.mem_cons, List.not_mem_nil, or_false] at hi
  rcases hi with rfl | rfl | rfl | rfl <;>
    exact ⟨⟨h _ (by decide), by decide, by decide⟩, ⟨h _ (by decide), by decide, by decide⟩, h _ (by decide)⟩

example : (readDoc (render (·.map Char.toLower) demo)).map casesOf = some
    [⟨some "ns::A".toList, some "ns::A".toList, some "0.1".toList, .passed⟩,
      ⟨some "ns::b".toList, some "ns::b".toList, some "1.5".toList,
        .failed "\n      a < b & \"c\"\n\n      ".toList⟩,
      ⟨some "ns::c".toList, some "ns::c".toList, some "None".toList, .skipped⟩] := by
  decide +kernel

/-- The attribute `tests` is the number of cases only if every job with an outcome passed: it counts the jobs that passed. -/
theorem C100_tests_violated (lower : Str → Str) (items : List Item) (hf : ∀ i ∈ items, i.outcome ≠ .none → Fine i) :
    ∃ es, readDoc (render lower items) = some es ∧
      (total "tests".toList es = some (number (casesOf es).length) ↔
        ∀ i ∈ items, i.outcome ≠ .none → i.outcome = .pass) := by
  obtain ⟨es, hr, hc, h1, h2, h3, ht⟩ := C100_reads_partial lower items hf
  refine ⟨es, hr, ?_⟩
  have hlen : (casesOf es).length = items.countP fun i => decide (i.outcome ≠ .none) := by
    rw [hc, List.length_map, ← List.countP_eq_length_filter,
      (show (sorted lower items).Perm items from Sort.sortBy_perm items).countP_eq]
  rw [ht, hlen]
  have hk : ∀ l : List Item, (l.countP fun i => decide (i.outcome = .pass)) ≤ l.countP fun i => decide (i.outcome ≠ .none) := by
    intro l
    apply List.countP_mono_left
    intro i _ h
    simp only [decide_eq_true_eq] at h ⊢
    rw [h]; decide
  constructor
  · intro h0
    have h := Checksum.digits_inj (Option.some.inj h0)
    clear h0 h1 h2 h3 ht hlen hc hr hf
    induction items with
    | nil => intro i hi; cases hi
    | cons j l ih =>
      simp only [List.countP_cons] at h
      have := hk l
      intro i hi hne
      rcases List.mem_cons.1 hi with rfl | hi
      · by_cases hp : i.outcome = .pass
        · exact hp
        · rw [if_neg (by simpa using hp), if_pos (by simpa using hne)] at h
          omega
      · refine ih ?_ i hi hne
        by_cases hp : j.outcome = .pass
        · rw [if_pos (by simpa using hp), if_pos (by simp [hp])] at h
          omega
        · rw [if_neg (by simpa using hp)] at h
          split at h <;> omega
  · intro h
    have : (items.countP fun i => decide (i.outcome = .pass)) = items.countP fun i => decide (i.outcome ≠ .none) := by
      apply List.countP_congr
      intro i hi
      simp only [decide_eq_true_eq]
      exact ⟨fun h => by rw [h]; decide, h i hi⟩
    rw [this]

/-- A job that is not implemented, or whose outcome nobody decided, is shown as one that passed. -/
theorem C100_shown_violated (i : Item) (h : i.outcome = .notImplemented ∨ i.outcome = .undecided) (hf : Fine i)
    (lower : Str → Str) :
    (readDoc (render lower [i])).map (fun es => (casesOf es).map (·.said)) = some [.passed] := by
  obtain ⟨es, hr, hc, _⟩ := C100_reads_partial lower [i] (fun j hj _ => by rw [List.mem_singleton.1 hj]; exact hf)
  rw [hr, Option.map_some, hc]
  rcases h with h | h <;> simp [sorted, Sort.sortBy, Sort.insertBy, h, expected]

example : Fine ⟨"a".toList, .undecided, none, "log".toList⟩ := by
  have h : ∀ s : Str, (s.all fun c => xmlChar c && c != '\r') = true → Clean s := fun s h c hc => by
    have := List.all_eq_true.1 h c hc
    simpa using this
  exact ⟨⟨h _ (by decide), by decide, by decide⟩, ⟨h _ (by decide), by decide, by decide⟩, h _ (by decide)⟩

/-- The report is not a document if the log of a job that failed or crashed has a character that XML does not allow. -/
theorem C100_character_violated (lower : Str → Str) (items : List Item) (i : Item) (hi : i ∈ items)
    (ho : i.outcome = .fail ∨ i.outcome = .crash) (c : Char) (hc : c ∈ i.log) (hx : xmlChar c = false) :
    readDoc (render lower items) = none := by
  have he : c ∈ escape i.log := by
    refine List.mem_flatMap.2 ⟨c, hc, ?_⟩
    unfold escapeChar
    rw [if_neg (by rintro rfl; exact absurd hx (by decide)), if_neg (by rintro rfl; exact absurd hx (by decide)),
      if_neg (by rintro rfl; exact absurd hx (by decide)), if_neg (by rintro rfl; exact absurd hx (by decide)),
      if_neg (by rintro rfl; exact absurd hx (by decide))]
    exact List.mem_singleton.2 rfl
  have hb : c ∈ body i := by
    unfold body
    rcases ho with ho | ho
    · rw [if_neg (by rw [ho]; decide), if_pos ho]
      exact List.mem_append_left _ (List.mem_append_right _ he)
    · rw [if_neg (by rw [ho]; decide), if_neg (by rw [ho]; decide), if_pos ho]
      exact List.mem_append_left _ (List.mem_append_right _ he)
  have h1 : c ∈ one i := by
    unfold one
    rw [if_neg (by rcases ho with ho | ho <;> rw [ho] <;> decide)]
    exact List.mem_append_left _ (List.mem_append_right _ hb)
  have hr : c ∈ render lower items := by
    unfold render
    exact List.mem_append_left _ (List.mem_append_right _ (List.mem_flatMap.2 ⟨i, mem_sorted.2 hi, h1⟩))
  unfold readDoc
  rw [if_neg]
  intro h
  rw [Bool.and_eq_true] at h
  have := List.all_eq_true.1 h.1 c hr
  rw [hx] at this
  cases this

/-- The vertical tab stays in the text of a log. -/
example : xmlChar '\x0b' = false := by decide

/-- A carriage return in a log is read as the end of a line. -/
theorem C100_return_violated :
    (readDoc (render id [⟨"a".toList, .fail, none, "50%\r100%".toList⟩])).map casesOf =
      some [⟨some "a".toList, some "a".toList, some "None".toList, .failed "\n      50%\n100%\n      ".toList⟩] := by
  decide +kernel

end Verif.Junit
