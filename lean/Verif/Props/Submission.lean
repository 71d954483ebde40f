import Verif.Lemmas.Submission
import Verif.Props.Where
import Verif.Props.Junit
import Verif.Lemmas.Sort

/-! # C102: what the JSON report says

The specification is the reader of JSON of `Lemmas/Submission.lean` and the relation `Tells`, which says what is under each key of
the object that is read. -/

namespace Verif.Submission

open Verif.Checksum (Str)
open Verif.Session (Outcome)
open Verif.Text (isSpace)
open Verif.Where (boundary)

/-! ## Specification -/

/-- The namespace of the certification programme. -/
def programme : Str := "com.canonical.certification::".toList

/-- An identifier without the namespace, if it is in it. -/
def bare (id : Str) : Str := (programme.isPrefixOf? id).getD id

/-- The jobs that have results in the report. -/
def Reported (j : Job) : Prop :=
  j.outcome ≠ .none ∧ j.plugin ≠ "resource".toList ∧ j.plugin ≠ "attachment".toList

instance (j : Job) : Decidable (Reported j) := by unfold Reported; infer_instance

/-- The words for outcomes. -/
def statusWord : Outcome → String
  | .pass => "pass"
  | .fail | .crash => "fail"
  | .none => "none"
  | _ => "skip"

/-- What a resource has under a key; empty if it has nothing. -/
def field (r : Res) (k : String) : Str := (r.lookup k.toList).getD []

/-- A value or `null`. -/
def orNull : Option Str → Json
  | none => .null
  | some t => .str t

/-- What the report says about a result, with texts as `e` has them. -/
def resultOf (e : Str → Str) (j : Job) : Json :=
  .obj [("id".toList, .str (e (bare j.id))), ("name".toList, .str (e j.summary)),
    ("certification_status".toList, .str (e j.status)), ("category".toList, .str (e j.category)),
    ("status".toList, .str (statusWord j.outcome).toList), ("comments".toList, orNull j.comments),
    ("io_log".toList, .str j.log), ("type".toList, .str "test".toList), ("project".toList, .str "certification".toList)]

/-- Keys and values of a resource. -/
def pairs (e : Str → Str) (r : Res) : List (Str × Json) := r.map fun kv => (e kv.1, .str (e kv.2))

/-- The same in the order of the lower case keys. -/
def Arranged (lower : Str → Str) (r r' : Res) : Prop :=
  r'.Perm r ∧ r'.Pairwise fun a b => Sort.strLe (lower a.1) (lower b.1) = true

/-- The job of the certification programme with that name. -/
def find (s : State) (name : String) : Option Job := s.jobs.find? fun j => j.id = programme ++ name.toList

/-- The resources of the certification programme of that name. -/
def found (s : State) (name : String) : Option (List Res) := s.resources.lookup (programme ++ name.toList)

/-- The first of them. -/
def foundFirst (s : State) (name : String) : Option Res := (found s name).bind List.head?

/-- The document that a job has written. -/
def document (s : State) (name : String) (ok : Outcome → Bool) : Option Json :=
  (find s name).bind fun j => if ok j.outcome then readJson j.attachment else none

/-- A text without white space around it. -/
def Stripped (t x : Str) : Prop :=
  ∃ a b, t = a ++ x ++ b ∧ (∀ c ∈ a ++ b, isSpace c = true) ∧ (∀ c, x.head? = some c → isSpace c = false)
    ∧ ∀ c, x.getLast? = some c → isSpace c = false

/-- A text of two lines, with the second one. -/
def TwoLines (t x : Str) : Prop :=
  ∃ a w, t = a ++ '\n' :: (x ++ w) ∧ (∀ c ∈ a ++ x, boundary c = false) ∧ (∀ c ∈ w, isSpace c = true)
    ∧ ∃ c, x.getLast? = some c ∧ isSpace c = false

/-- What the object tells about the session, with texts as `e` has them. -/
structure Tells (e lower : Str → Str) (s : State) (m : List (Str × Json)) : Prop where
  keys : (m.map (·.1)).Nodup
  results : ∃ l : List Job, l.Perm (s.jobs.filter fun j => decide (Reported j))
    ∧ (l.Pairwise fun a b => Sort.strLe (lower a.id) (lower b.id) = true)
    ∧ m.lookup "results".toList = some (.arr (l.map (resultOf e)))
  packages : m.lookup "packages".toList = (found s "package").map fun rs =>
    .arr ((rs.filter fun r => decide (field r "name" ≠ [])).map fun r =>
      .obj [("name".toList, .str (e (field r "name"))), ("version".toList, .str (e (field r "version")))])
  snaps : ∃ ord : Res → Res, (∀ r, Arranged lower r (ord r)) ∧
    m.lookup "snap-packages".toList = (found s "snap").map fun rs =>
      .arr ((rs.filter fun r => decide (field r "name" ≠ [])).map fun r =>
        .obj (("name".toList, .str (e (field r "name"))) :: pairs e (ord (r.filter fun kv => decide (kv.1 ≠ "name".toList)))))
  distribution : ∃ ord : Res → Res, (∀ r, Arranged lower r (ord r)) ∧
    m.lookup "distribution".toList = (foundFirst s "lsb").map fun r => .obj (pairs e (ord r))
  dkms : m.lookup "dkms_info".toList = document s "dkms_info_json" (· ≠ .none)
  devices : m.lookup "devices".toList = document s "udev_json" (· ≠ .none)
  dmi : m.lookup "raw-devices-dmi".toList = document s "raw_devices_dmi_json" (· ≠ .none)
  modprobe : m.lookup "modprobe-info".toList = document s "modprobe_json" (· ≠ .none)
  pci : m.lookup "pci_subsystem_id".toList = document s "lspci_standard_config_json" (· ≠ .none)
  kernel : m.lookup "kernel".toList = (foundFirst s "uname").map fun r => .str (e (field r "release"))
  architecture : m.lookup "architecture".toList = (foundFirst s "dpkg").map fun r => .str (e (field r "architecture"))
  memory : m.lookup "memory".toList = (foundFirst s "meminfo").map fun r =>
    .obj [("swap".toList, .num (field r "swap")), ("total".toList, .num (field r "total"))]
  processor : ∃ ord : Res → Res, (∀ r, Arranged lower r (ord r)) ∧
    m.lookup "processor".toList = (foundFirst s "cpuinfo").map fun r => .obj (pairs e (ord r))
  cmdline : ∃ x : Str → Str, (∀ t, Stripped t (x t)) ∧
    m.lookup "kernel-cmdline".toList = (find s "kernel_cmdline_attachment").bind fun j =>
      if j.outcome ≠ .none then some (.str (x j.attachment)) else none
  bto : m.lookup "bto-info".toList = document s "dell_bto_xml_attachment_json" (· = .pass)
  image : m.lookup "image-version".toList = document s "recovery_info_attachment_json" (· = .pass)
  stamp : ∃ x : Str → Str, (∀ t y, TwoLines t y → x t = y) ∧
    m.lookup "buildstamp".toList = (find s "info/buildstamp").bind fun j =>
      if j.outcome ≠ .none then some (.str (x j.attachment)) else none

/-- The texts of the session that the report puts between quotes. -/
inductive Told (s : State) : Str → Prop
  | result {j : Job} {t : Str} : j ∈ s.jobs → Reported j → t ∈ [bare j.id, j.summary, j.status, j.category] → Told s t
  | package {rs : List Res} {r : Res} {k : String} : found s "package" = some rs → r ∈ rs → field r "name" ≠ [] →
      k = "name" ∨ k = "version" → Told s (field r k)
  | snap {rs : List Res} {r : Res} {kv : Str × Str} {t : Str} : found s "snap" = some rs → r ∈ rs → field r "name" ≠ [] →
      kv ∈ r → t = kv.1 ∨ t = kv.2 → Told s t
  | pair {name : String} {r : Res} {kv : Str × Str} {t : Str} : name = "lsb" ∨ name = "cpuinfo" → foundFirst s name = some r →
      kv ∈ r → t = kv.1 ∨ t = kv.2 → Told s t
  | kernel {r : Res} : foundFirst s "uname" = some r → Told s (field r "release")
  | architecture {r : Res} : foundFirst s "dpkg" = some r → Told s (field r "architecture")

/-- A text that is JSON, and remains so when its lines are indented. -/
def Good (t : Str) : Prop := (∃ v, readJson t = some v) ∧ ∀ c ∈ t, ¬ Odd c

/-- What the report needs apart from the texts: the documents are JSON, the amounts of memory are numbers, snaps that have a name
have something else, and the build stamp is two lines. -/
structure Fit (s : State) : Prop where
  documents : ∀ name ∈ ["dkms_info_json", "udev_json", "raw_devices_dmi_json", "modprobe_json", "lspci_standard_config_json"],
    ∀ j, find s name = some j → j.outcome ≠ .none → Good j.attachment
  passed : ∀ name ∈ ["dell_bto_xml_attachment_json", "recovery_info_attachment_json"],
    ∀ j, find s name = some j → j.outcome = .pass → Good j.attachment
  memory : ∀ r, foundFirst s "meminfo" = some r → Numeral (field r "swap") ∧ Numeral (field r "total")
  snaps : ∀ rs, found s "snap" = some rs → ∀ r ∈ rs, field r "name" ≠ [] → ∃ kv ∈ r, kv.1 ≠ "name".toList
  stamp : ∀ j, find s "info/buildstamp" = some j → j.outcome ≠ .none → ∃ x, TwoLines j.attachment x

/-- Text as in HTML. -/
def entities (t : Str) : Str := t.flatMap fun
  | '&' => "&amp;".toList
  | '<' => "&lt;".toList
  | '>' => "&gt;".toList
  | '\'' => "&#39;".toList
  | '"' => "&#34;".toList
  | c => [c]

/-! ## Lemmas -/

/-- The report puts the text between quotes as `e` has it. -/
def Ok (e : Str → Str) (t : Str) : Prop := Junit.escape t = e t ∧ ∀ c ∈ Junit.escape t, Free c

theorem escape_plain {t : Str} (h : ∀ c ∈ t, c ≠ '&' ∧ c ≠ '<' ∧ c ≠ '>' ∧ c ≠ '\'' ∧ c ≠ '"') : Junit.escape t = t := by
  induction t with
  | nil => rfl
  | cons c t ih =>
    have hc := h c List.mem_cons_self
    have he : Junit.escapeChar c = [c] := by
      unfold Junit.escapeChar
      rw [if_neg hc.1, if_neg hc.2.2.1, if_neg hc.2.1, if_neg hc.2.2.2.1, if_neg hc.2.2.2.2]
    rw [show Junit.escape (c :: t) = Junit.escapeChar c ++ Junit.escape t from rfl, he,
      ih fun d hd => h d (List.mem_cons_of_mem _ hd)]
    rfl

theorem escapeChar_eq (c : Char) : Junit.escapeChar c = (match c with
    | '&' => "&amp;".toList
    | '<' => "&lt;".toList
    | '>' => "&gt;".toList
    | '\'' => "&#39;".toList
    | '"' => "&#34;".toList
    | c => [c]) := by
  unfold Junit.escapeChar
  split
  · next h => subst h; rfl
  · split
    · next h => subst h; rfl
    · split
      · next h => subst h; rfl
      · split
        · next h => subst h; rfl
        · split
          · next h => subst h; rfl
          · split <;> first | contradiction | rfl

theorem escape_entities (t : Str) : Junit.escape t = entities t := by
  unfold Junit.escape entities
  congr 1
  funext c
  exact escapeChar_eq c

theorem free_escape {t : Str} (h : ∀ c ∈ t, 0x20 ≤ c.toNat ∧ c ≠ '\\') : ∀ c ∈ Junit.escape t, Free c := by
  intro c hc
  unfold Junit.escape at hc
  rw [List.mem_flatMap] at hc
  obtain ⟨d, hd, hc⟩ := hc
  have hl : ∀ l : Str, (l.all fun c => decide (0x20 ≤ c.toNat ∧ c ≠ '"' ∧ c ≠ '\\')) = true → c ∈ l → Free c := by
    intro l h1 h2
    have := List.all_eq_true.1 h1 c h2
    rwa [decide_eq_true_iff] at this
  unfold Junit.escapeChar at hc
  split at hc
  · exact hl _ (by decide) hc
  · split at hc
    · exact hl _ (by decide) hc
    · split at hc
      · exact hl _ (by decide) hc
      · split at hc
        · exact hl _ (by decide) hc
        · split at hc
          · exact hl _ (by decide) hc
          · next h' =>
            rw [List.mem_singleton] at hc
            subst hc
            exact ⟨(h c hd).1, h', (h c hd).2⟩

theorem ok_entities {t : Str} (h : ∀ c ∈ t, 0x20 ≤ c.toNat ∧ c ≠ '\\') : Ok entities t :=
  ⟨escape_entities t, free_escape h⟩

/-- A member with a key of the template. -/
theorem member_value {n : Nat} {k : String} {v : Str} {j : Json} (hk : ∀ c ∈ k.toList, Free c)
    (hv : ∀ fs, Gets ⟨.idle, fs, .value false⟩ v (put j fs)) : Member (member n k v) k.toList j := by
  rw [member_eq]
  exact member_entry hk hv

theorem free_of {k : Str} (h : (k.all fun c => decide (0x20 ≤ c.toNat ∧ c ≠ '"' ∧ c ≠ '\\')) = true) : ∀ c ∈ k, Free c := by
  intro c hc
  have := List.all_eq_true.1 h c hc
  rwa [decide_eq_true_iff] at this

theorem member_text {e : Str → Str} {n : Nat} {k : String} {t : Str} (hk : ∀ c ∈ k.toList, Free c) (h : Ok e t) :
    Member (member n k (quoted (Junit.escape t))) k.toList (.str (e t)) := by
  refine member_value hk fun fs => ?_
  rw [← h.1]
  exact value_quoted _ h.2 fs false

theorem line_text {e : Str → Str} {n : Nat} {k v : Str} (hk : Ok e k) (h : Ok e v) : Member (line n k v) (e k) (.str (e v)) := by
  rw [line_eq, ← hk.1, ← h.1]
  exact member_entry hk.2 fun fs => value_quoted _ h.2 fs false

/-- A line whose key is in the template. -/
theorem line_key {e : Str → Str} {n : Nat} {k v : Str} (hk : ∀ c ∈ k, Free c) (he : Junit.escape k = k) (h : Ok e v) :
    Member (line n k v) k (.str (e v)) := by
  rw [line_eq, he, ← h.1]
  exact member_entry hk fun fs => value_quoted _ h.2 fs false

/-- Some members, each of them with a comma after it. -/
def Front (s : Str) (ms : List (Str × Json)) : Prop :=
  ∀ fs l e, ∃ e', run ⟨.idle, fs, .key l e⟩ s = some ⟨.idle, fs, .key (l ++ ms) e'⟩

theorem front_nil : Front [] [] := fun fs l e => ⟨e, by rw [List.append_nil]; rfl⟩

theorem front_append {s t : Str} {ms ns : List (Str × Json)} (h : Front s ms) (h' : Front t ns) : Front (s ++ t) (ms ++ ns) := by
  intro fs l e
  obtain ⟨e1, h1⟩ := h fs l e
  obtain ⟨e2, h2⟩ := h' fs (l ++ ms) e1
  exact ⟨e2, by rw [run_append, h1, Option.bind_some, h2, List.append_assoc]⟩

theorem front_member {s k : Str} {v : Json} (h : Member s k v) : Front (s ++ [',']) [(k, v)] := by
  intro fs l e
  refine ⟨false, ?_⟩
  rw [h fs l e ',' [] (Or.inr (Or.inl rfl)), run_cons (step_sign (r := ⟨.idle, fs, .key (l ++ [(k, v)]) false⟩)
    (by decide) (by decide) (by decide) rfl)]
  rfl

/-- Some members, each of them with a comma before it. -/
def Back (s : Str) (ms : List (Str × Json)) : Prop :=
  (s = [] ∨ ∃ t, s = ',' :: t) ∧ ∀ fs l, Gets ⟨.idle, fs, .more l⟩ s ⟨.idle, fs, .more (l ++ ms)⟩

theorem back_nil : Back [] [] := ⟨Or.inl rfl, fun fs l => by rw [List.append_nil]; exact fun _ _ _ => rfl⟩

theorem gets_trans {r r' r'' : Reader} {s t : Str} (h : Gets r s r') (ht : t = [] ∨ ∃ u, t = ',' :: u) (h' : Gets r' t r'') :
    Gets r (s ++ t) r'' := by
  rcases ht with rfl | ⟨u, rfl⟩
  · intro d u hd
    rw [List.append_nil, h d u hd]
    exact h' d u hd
  · exact gets_gets h (Or.inr (Or.inl rfl)) h'

theorem back_append {s t : Str} {ms ns : List (Str × Json)} (h : Back s ms) (h' : Back t ns) : Back (s ++ t) (ms ++ ns) := by
  refine ⟨?_, fun fs l => ?_⟩
  · rcases h.1 with rfl | ⟨u, rfl⟩
    · exact h'.1
    · exact Or.inr ⟨_, rfl⟩
  · rw [← List.append_assoc]
    exact gets_trans (h.2 fs l) h'.1 (h'.2 fs (l ++ ms))

theorem back_member {s k : Str} {v : Json} (h : Member s k v) : Back (',' :: s) [(k, v)] := by
  refine ⟨Or.inr ⟨_, rfl⟩, fun fs l d t hd => ?_⟩
  rw [List.cons_append, run_cons (step_sign (r := ⟨.idle, fs, .key l false⟩) (by decide) (by decide) (by decide) rfl)]
  exact h fs l false d t hd

/-- A member that may be there. -/
def one (k : String) (v : Option Json) : List (Str × Json) := (v.map (k.toList, ·)).toList

/-- The members that are there. -/
def gather (parts : List (String × Option Json)) : List (Str × Json) := parts.flatMap fun p => one p.1 p.2

theorem gather_keys (parts : List (String × Option Json)) :
    ((gather parts).map (·.1)).Sublist (parts.map fun p => p.1.toList) := by
  induction parts with
  | nil => exact .slnil
  | cons p parts ih =>
    obtain ⟨k, v⟩ := p
    rw [show gather ((k, v) :: parts) = one k v ++ gather parts from rfl, List.map_append, List.map_cons]
    cases v with
    | none => exact ih.cons _
    | some v => exact ih.cons_cons _

theorem toList_inj {a b : String} (h : a.toList = b.toList) : a = b := by
  have := congrArg String.ofList h
  simpa using this

theorem nodup_toList {l : List String} (h : l.Nodup) : (l.map String.toList).Nodup :=
  List.pairwise_map.2 (h.imp fun hn he => hn (toList_inj he))

theorem gather_nodup {parts : List (String × Option Json)} (h : (parts.map (·.1)).Nodup) : ((gather parts).map (·.1)).Nodup := by
  refine (gather_keys parts).nodup ?_
  have := nodup_toList h
  rwa [List.map_map] at this

theorem lookup_gather {parts : List (String × Option Json)} (hn : (parts.map (·.1)).Nodup) {k : String} {v : Option Json}
    (h : (k, v) ∈ parts) : (gather parts).lookup k.toList = v := by
  induction parts with
  | nil => cases h
  | cons p parts ih =>
    obtain ⟨k', v'⟩ := p
    rw [List.map_cons, List.nodup_cons] at hn
    rw [show gather ((k', v') :: parts) = one k' v' ++ gather parts from rfl, List.lookup_append]
    rcases List.mem_cons.1 h with he | hin
    · cases he
      cases v with
      | some v => simp [one]
      | none =>
        show (none : Option Json).or _ = none
        rw [Option.none_or]
        rw [List.lookup_eq_none_iff]
        intro p hp
        have : p.1 ∈ parts.map fun p => p.1.toList := (gather_keys parts).subset (List.mem_map_of_mem hp)
        obtain ⟨q, hq, he⟩ := List.mem_map.1 this
        simp only [bne_iff_ne, ne_eq]
        intro h'
        have h3 : k = q.1 := toList_inj (h'.trans he.symm)
        exact hn.1 (List.mem_map.2 ⟨q, hq, h3.symm⟩)
    · have hk : k ≠ k' := by
        rintro rfl
        exact hn.1 (List.mem_map.2 ⟨(k, v), hin, rfl⟩)
      have : (one k' v').lookup k.toList = none := by
        cases v' with
        | none => rfl
        | some v' =>
          have : (k.toList == k'.toList) = false := by
            rw [beq_eq_false_iff_ne]
            exact fun h => hk (toList_inj h)
          simp [one, List.lookup, this]
      rw [this, Option.none_or]
      exact ih hn.2 hin

/-- The whole report from its parts. -/
theorem read_parts {front res back : Str} {ms ns : List (Str × Json)} {k : Str} {v : Json} (hf : Front front ms)
    (hr : Member res k v) (hb : Back back ns) :
    readJson ('{' :: (front ++ res ++ back ++ margin 0 ++ ['}'])) = some (.obj (ms ++ [(k, v)] ++ ns)) := by
  have ho : step start '{' = some ⟨.idle, [], .key [] true⟩ := step_sign (by decide) (by decide) (by decide) rfl
  obtain ⟨e, h1⟩ := hf [] [] true
  have h2 : run ⟨.idle, [], .key ([] ++ ms) e⟩ (res ++ back ++ '\n' :: ['}']) =
      some (put (.obj (ms ++ [(k, v)] ++ ns)) []) := by
    refine gets_end (gets_trans (hr [] ([] ++ ms) e) hb.1 (hb.2 [] _)) (Or.inl rfl) ?_
    rw [run_cons (step_white (by decide)), run_cons (step_sign (by decide) (by decide) (by decide) rfl), List.nil_append]
    rfl
  have h3 : run start ('{' :: (front ++ res ++ back ++ margin 0 ++ ['}'])) = some (put (.obj (ms ++ [(k, v)] ++ ns)) []) := by
    rw [run_cons ho, show front ++ res ++ back ++ margin 0 ++ ['}'] = front ++ (res ++ back ++ '\n' :: ['}']) from by
      simp [margin], run_append, h1, Option.bind_some, h2]
  unfold readJson
  rw [run_append, h3, Option.bind_some]
  rfl

/-! ### The parts -/

theorem programme_eq : ns = programme := rfl

theorem get_eq (r : Res) (k : String) : get r k.toList = field r k := rfl

theorem first_eq (s : State) (name : String) : first s name.toList = foundFirst s name := rfl

theorem job_eq (s : State) (name : String) : job s name.toList = find s name := rfl

theorem stripNs_eq (id : Str) : stripNs id = Junit.escape (bare id) := by
  unfold stripNs bare
  rw [programme_eq]
  congr 1
  generalize programme = p
  induction p generalizing id with
  | nil => simp [List.isPrefixOf, List.isPrefixOf?]
  | cons c p ih =>
    cases id with
    | nil => simp [List.isPrefixOf, List.isPrefixOf?]
    | cons d id =>
      by_cases h : c = d
      · subst h
        have := ih id
        simp only [List.isPrefixOf, List.isPrefixOf?, beq_self_eq_true, Bool.true_and, if_true, List.length_cons, List.drop_succ_cons]
        by_cases hp : p.isPrefixOf id = true
        · rw [if_pos hp] at this ⊢
          cases hq : p.isPrefixOf? id with
          | some r => rw [hq] at this; exact this
          | none =>
            obtain ⟨r, hr⟩ := List.isPrefixOf_iff_prefix.1 hp
            have := List.isPrefixOf?_eq_some_iff_append_eq.2 hr
            rw [hq] at this
            cases this
        · rw [if_neg hp] at this ⊢
          cases hq : p.isPrefixOf? id with
          | none => rfl
          | some r =>
            rw [List.isPrefixOf?_eq_some_iff_append_eq] at hq
            exact absurd (List.isPrefixOf_iff_prefix.2 ⟨r, hq⟩) hp
      · simp [List.isPrefixOf, List.isPrefixOf?, h]

theorem hexr_eq (o : Outcome) : hexr o = (statusWord o).toList := by cases o <;> rfl

theorem arranged_sortKeys (lower : Str → Str) (r : Res) : Arranged lower r (sortKeys lower r) :=
  ⟨Sort.sortBy_perm r, Sort.sortBy_sorted (le := fun a b => Sort.strLe (lower a.1) (lower b.1)) (fun _ _ => Sort.strLe_total _ _)
    (fun _ _ _ => Sort.strLe_trans _ _ _) r⟩

theorem value_jsonify (t : Option Str) : Value (jsonify t) (orNull t) := by
  cases t with
  | none => exact value_null
  | some t => exact value_jsonStr t

theorem value_result {e : Str → Str} {j : Job} (h : ∀ t ∈ [bare j.id, j.summary, j.status, j.category], Ok e t) :
    Value (result j) (resultOf e j) := by
  refine value_margin 8 ?_
  have hs : Ok e (bare j.id) := h _ (by simp)
  have := value_object (n := 8) (pieces := [
    (member 12 "id" (quoted (stripNs j.id)), "id".toList, .str (e (bare j.id))),
    (member 12 "name" (quoted (Junit.escape j.summary)), "name".toList, .str (e j.summary)),
    (member 12 "certification_status" (quoted (Junit.escape j.status)), "certification_status".toList, .str (e j.status)),
    (member 12 "category" (quoted (Junit.escape j.category)), "category".toList, .str (e j.category)),
    (member 12 "status" (quoted (Junit.escape (hexr j.outcome))), "status".toList, .str (statusWord j.outcome).toList),
    (member 12 "comments" (jsonify j.comments), "comments".toList, orNull j.comments),
    (member 12 "io_log" (jsonify (some j.log)), "io_log".toList, .str j.log),
    (member 12 "type" "\"test\"".toList, "type".toList, .str "test".toList),
    (member 12 "project" "\"certification\"".toList, "project".toList, .str "certification".toList)]) ?_
  · exact this
  · intro p hp
    simp only [List.mem_cons, List.not_mem_nil, or_false] at hp
    rcases hp with rfl | rfl | rfl | rfl | rfl | rfl | rfl | rfl | rfl
    · dsimp only; rw [stripNs_eq]; exact member_text (free_of (by decide)) hs
    · exact member_text (free_of (by decide)) (h _ (by simp))
    · exact member_text (free_of (by decide)) (h _ (by simp))
    · exact member_text (free_of (by decide)) (h _ (by simp))
    · have : Junit.escape (hexr j.outcome) = (statusWord j.outcome).toList ∧
          ∀ c ∈ (statusWord j.outcome).toList, Free c := by
        cases j.outcome <;> exact ⟨by decide, free_of (by decide)⟩
      dsimp only
      rw [this.1]
      exact member_value (free_of (by decide)) fun fs => value_quoted _ this.2 fs false
    · exact member_value (free_of (by decide)) fun fs => value_jsonify _ fs false
    · exact member_value (free_of (by decide)) fun fs => value_jsonStr _ fs false
    · exact member_value (free_of (by decide)) fun fs => value_quoted "test".toList (free_of (by decide)) fs false
    · exact member_value (free_of (by decide)) fun fs => value_quoted "certification".toList (free_of (by decide)) fs false

theorem section_eq (k : String) (o c : Char) (x : Str) :
    margin 4 ++ ('"' :: (k.toList ++ ['"', ':', ' ', o])) ++ x ++ margin 4 ++ [c, ','] =
      entry 4 k.toList (o :: (x ++ margin 4 ++ [c])) ++ [','] := by
  simp [entry, quoted]

theorem front_section {k : String} {o c : Char} {x : Str} {v : Json} (hk : ∀ c ∈ k.toList, Free c)
    (h : Value (o :: (x ++ margin 4 ++ [c])) v) :
    Front (margin 4 ++ ('"' :: (k.toList ++ ['"', ':', ' ', o])) ++ x ++ margin 4 ++ [c, ',']) [(k.toList, v)] := by
  rw [section_eq]
  exact front_member (member_entry hk fun fs => h fs false)

theorem members_lines {e : Str → Str} {n : Nat} {r : Res} (h : ∀ kv ∈ r, Ok e kv.1 ∧ Ok e kv.2) :
    ∀ p ∈ r.map (fun kv => (line n kv.1 kv.2, e kv.1, Json.str (e kv.2))), Member p.1 p.2.1 p.2.2 := by
  intro p hp
  obtain ⟨kv, hkv, rfl⟩ := List.mem_map.1 hp
  exact line_text (h kv hkv).1 (h kv hkv).2

theorem value_pairs {e lower : Str → Str} {n : Nat} {r : Res} (h : ∀ kv ∈ r, Ok e kv.1 ∧ Ok e kv.2) :
    Value ('{' :: (listed ((sortKeys lower r).map fun kv => line n kv.1 kv.2) ++ margin 4 ++ ['}']))
      (.obj (pairs e (sortKeys lower r))) := by
  have := value_object 4 (members_lines (n := n) (r := sortKeys lower r) fun kv hkv =>
    h kv ((arranged_sortKeys lower r).1.subset hkv))
  simpa only [List.map_map, Function.comp_def, pairs] using this

theorem filter_named (rs : List Res) :
    (rs.filter fun r => !(get r "name".toList).isEmpty) = rs.filter fun r => decide (field r "name" ≠ []) := by
  congr 1
  funext r
  rw [get_eq]
  cases field r "name" <;> rfl

theorem front_packages {e : Str → Str} {s : State}
    (h : ∀ rs, found s "package" = some rs → ∀ r ∈ rs, field r "name" ≠ [] → Ok e (field r "name") ∧ Ok e (field r "version")) :
    Front (packages s) (one "packages" ((found s "package").map fun rs =>
      .arr ((rs.filter fun r => decide (field r "name" ≠ [])).map fun r =>
        .obj [("name".toList, .str (e (field r "name"))), ("version".toList, .str (e (field r "version")))]))) := by
  unfold packages
  have he : s.resources.lookup (ns ++ "package".toList) = found s "package" := rfl
  rw [he]
  cases hr : found s "package" with
  | none => exact front_nil
  | some rs =>
    dsimp only
    rw [filter_named]
    refine front_section (k := "packages") (o := '[') (c := ']') (free_of (by decide)) ?_
    have := value_array (n := 4) (pieces := (rs.filter fun r => decide (field r "name" ≠ [])).map fun r =>
      (margin 8 ++ '{' :: (line 12 "name".toList (get r "name".toList) ++ ','
          :: (line 12 "version".toList (get r "version".toList) ++ margin 8 ++ ['}'])),
        Json.obj [("name".toList, .str (e (field r "name"))), ("version".toList, .str (e (field r "version")))])) ?_
    · simpa only [List.map_map, Function.comp_def] using this
    · intro p hp
      obtain ⟨r, hm, rfl⟩ := List.mem_map.1 hp
      rw [List.mem_filter, decide_eq_true_iff] at hm
      have ho := h rs hr r hm.1 hm.2
      refine value_margin 8 ?_
      have := value_object (n := 8) (pieces := [
        (line 12 "name".toList (get r "name".toList), "name".toList, .str (e (field r "name"))),
        (line 12 "version".toList (get r "version".toList), "version".toList, .str (e (field r "version")))]) ?_
      · simpa only [List.map_cons, List.map_nil, listed, List.append_assoc, List.cons_append] using this
      · intro p hp
        simp only [List.mem_cons, List.not_mem_nil, or_false] at hp
        rcases hp with rfl | rfl
        · exact line_key (free_of (by decide)) (by decide) ho.1
        · exact line_key (free_of (by decide)) (by decide) ho.2

theorem listed_cons {x : Str} {l : List Str} (h : l ≠ []) : listed (x :: l) = x ++ ',' :: listed l := by
  cases l with
  | nil => exact absurd rfl h
  | cons y l => rfl

theorem front_snaps {e lower : Str → Str} {s : State}
    (h : ∀ rs, found s "snap" = some rs → ∀ r ∈ rs, field r "name" ≠ [] →
      Ok e (field r "name") ∧ (∀ kv ∈ r, Ok e kv.1 ∧ Ok e kv.2) ∧ ∃ kv ∈ r, kv.1 ≠ "name".toList) :
    Front (snaps lower s) (one "snap-packages" ((found s "snap").map fun rs =>
      .arr ((rs.filter fun r => decide (field r "name" ≠ [])).map fun r =>
        .obj (("name".toList, .str (e (field r "name"))) ::
          pairs e (sortKeys lower (r.filter fun kv => decide (kv.1 ≠ "name".toList))))))) := by
  unfold snaps
  have he : s.resources.lookup (ns ++ "snap".toList) = found s "snap" := rfl
  rw [he]
  cases hr : found s "snap" with
  | none => exact front_nil
  | some rs =>
    dsimp only
    rw [filter_named]
    refine front_section (k := "snap-packages") (o := '[') (c := ']') (free_of (by decide)) ?_
    have := value_array (n := 4) (pieces := (rs.filter fun r => decide (field r "name" ≠ [])).map fun r =>
      (margin 8 ++ '{' :: (line 12 "name".toList (get r "name".toList) ++ ','
          :: (listed ((sortKeys lower (r.filter fun kv => kv.1 ≠ "name".toList)).map fun kv => line 12 kv.1 kv.2)
            ++ margin 8 ++ ['}'])),
        Json.obj (("name".toList, .str (e (field r "name"))) ::
          pairs e (sortKeys lower (r.filter fun kv => decide (kv.1 ≠ "name".toList)))))) ?_
    · simpa only [List.map_map, Function.comp_def] using this
    · intro p hp
      obtain ⟨r, hm, rfl⟩ := List.mem_map.1 hp
      rw [List.mem_filter, decide_eq_true_iff] at hm
      obtain ⟨h1, h2, kv, hkv, hne⟩ := h rs hr r hm.1 hm.2
      refine value_margin 8 ?_
      have hsub : ∀ kv ∈ sortKeys lower (r.filter fun kv => decide (kv.1 ≠ "name".toList)), Ok e kv.1 ∧ Ok e kv.2 :=
        fun kv hkv => h2 kv (List.mem_filter.1 ((arranged_sortKeys lower _).1.subset hkv)).1
      have hnn : (sortKeys lower (r.filter fun kv => decide (kv.1 ≠ "name".toList))).map (fun kv => line 12 kv.1 kv.2) ≠ [] := by
        intro h0
        rw [List.map_eq_nil_iff] at h0
        have : kv ∈ sortKeys lower (r.filter fun kv => decide (kv.1 ≠ "name".toList)) :=
          (arranged_sortKeys lower _).1.symm.subset (List.mem_filter.2 ⟨hkv, decide_eq_true hne⟩)
        rw [h0] at this
        cases this
      have := value_object (n := 8) (pieces :=
        (line 12 "name".toList (get r "name".toList), "name".toList, .str (e (field r "name"))) ::
          (sortKeys lower (r.filter fun kv => decide (kv.1 ≠ "name".toList))).map fun kv =>
            (line 12 kv.1 kv.2, e kv.1, Json.str (e kv.2))) ?_
      · rw [List.map_cons, List.map_map] at this
        rw [listed_cons (by simpa only [Function.comp_def] using hnn)] at this
        simpa only [List.map_cons, List.map_map, Function.comp_def, List.append_assoc, List.cons_append, pairs] using this
      · intro p hp
        rcases List.mem_cons.1 hp with rfl | hp
        · exact line_key (free_of (by decide)) (by decide) h1
        · exact members_lines hsub p hp

theorem front_distribution {e lower : Str → Str} {s : State}
    (h : ∀ r, foundFirst s "lsb" = some r → ∀ kv ∈ r, Ok e kv.1 ∧ Ok e kv.2) :
    Front (distribution lower s) (one "distribution" ((foundFirst s "lsb").map fun r => .obj (pairs e (sortKeys lower r)))) := by
  unfold distribution
  rw [first_eq]
  cases hr : foundFirst s "lsb" with
  | none => exact front_nil
  | some r =>
    exact front_section (k := "distribution") (o := '{') (c := '}') (free_of (by decide)) (value_pairs (h r hr))

theorem member_results {e lower : Str → Str} {s : State}
    (h : ∀ j ∈ s.jobs, Reported j → ∀ t ∈ [bare j.id, j.summary, j.status, j.category], Ok e t) :
    Member (results lower s) "results".toList (.arr ((shown lower s).map (resultOf e))) := by
  unfold results
  rw [show margin 4 ++ "\"results\": [".toList ++ listed ((shown lower s).map result) ++ margin 4 ++ [']'] =
    entry 4 "results".toList ('[' :: (listed ((shown lower s).map result) ++ margin 4 ++ [']'])) from by simp [entry, quoted]]
  refine member_entry (free_of (by decide)) fun fs => ?_
  have := value_array (n := 4) (pieces := (shown lower s).map fun j => (result j, resultOf e j)) ?_
  · simpa only [List.map_map, Function.comp_def] using this fs false
  · intro p hp
    obtain ⟨j, hj, rfl⟩ := List.mem_map.1 hp
    unfold shown at hj
    rw [List.mem_filter] at hj
    refine value_result (h j ((Sort.sortBy_perm _).subset hj.1) ?_)
    have := hj.2
    simp only [ne_eq, Bool.and_eq_true, decide_eq_true_eq, Bool.not_eq_true', List.contains_eq_mem, List.mem_cons,
      List.not_mem_nil, or_false, decide_eq_false_iff_not, not_or] at this
    exact this

theorem shown_spec (lower : Str → Str) (s : State) :
    (shown lower s).Perm (s.jobs.filter fun j => decide (Reported j)) ∧
      (shown lower s).Pairwise fun a b => Sort.strLe (lower a.id) (lower b.id) = true := by
  unfold shown
  have hf : (fun j : Job => j.outcome ≠ .none && !["resource".toList, "attachment".toList].contains j.plugin) =
      fun j => decide (Reported j) := by
    funext j
    rw [Bool.eq_iff_iff]
    simp only [ne_eq, Bool.and_eq_true, decide_eq_true_eq, Bool.not_eq_true', List.contains_eq_mem, List.mem_cons,
      List.not_mem_nil, or_false, decide_eq_false_iff_not, not_or]
    exact Iff.rfl
  rw [hf]
  refine ⟨(Sort.sortBy_perm _).filter _, ?_⟩
  exact (Sort.sortBy_sorted (le := fun a b => Sort.strLe (lower a.id) (lower b.id)) (fun _ _ => Sort.strLe_total _ _)
    (fun _ _ _ => Sort.strLe_trans _ _ _) s.jobs).sublist
    List.filter_sublist

theorem back_attached {s : State} {name key : String} {ok : Outcome → Bool} {value : Str → Str} {f : Str → Json}
    (hk : ∀ c ∈ key.toList, Free c)
    (h : ∀ j, find s name = some j → ok j.outcome = true → ∀ fs, Gets ⟨.idle, fs, .value false⟩ (value j.attachment) (put (f j.attachment) fs)) :
    Back (attached s name ok key value) (one key ((find s name).bind fun j => if ok j.outcome then some (f j.attachment) else none)) := by
  unfold attached
  rw [job_eq]
  cases hr : find s name with
  | none => exact back_nil
  | some j =>
    dsimp only [Option.bind_some]
    cases ho : ok j.outcome with
    | false => exact back_nil
    | true => exact back_member (member_value hk (h j hr ho))

theorem back_document {s : State} {name key : String} {ok : Outcome → Bool} {n : Nat} (hk : ∀ c ∈ key.toList, Free c)
    (h : ∀ j, find s name = some j → ok j.outcome = true → Good j.attachment) :
    Back (attached s name ok key (indent n)) (one key (document s name ok)) := by
  have := back_attached (s := s) (name := name) (ok := ok) (value := indent n)
    (f := fun t => (readJson t).getD .null) hk fun j hj ho fs => by
      obtain ⟨⟨v, hv⟩, hodd⟩ := h j hj ho
      rw [hv]
      exact value_document (readJson_indent n hodd hv) fs
  rw [show document s name ok = (find s name).bind fun j =>
    if ok j.outcome then some ((readJson j.attachment).getD .null) else none from ?_]
  · exact this
  · unfold document
    cases hr : find s name with
    | none => rfl
    | some j =>
      dsimp only [Option.bind_some]
      cases ho : ok j.outcome with
      | false => rfl
      | true =>
        obtain ⟨⟨v, hv⟩, _⟩ := h j hr ho
        rw [hv]
        rfl

theorem back_told {s : State} {name key : String} {value : Res → Str} {f : Res → Json} (hk : ∀ c ∈ key.toList, Free c)
    (h : ∀ r, foundFirst s name = some r → Value (value r) (f r)) :
    Back (told s name key value) (one key ((foundFirst s name).map f)) := by
  unfold told
  rw [first_eq]
  cases hr : foundFirst s name with
  | none => exact back_nil
  | some r => exact back_member (member_value hk fun fs => h r hr fs false)

theorem stripped_strip (t : Str) : Stripped t (Text.strip t) := by
  have hl : ∀ l : Str, ∃ a, l = a ++ Text.lstrip l ∧ ∀ c ∈ a, isSpace c = true := fun l =>
    ⟨l.takeWhile isSpace, (List.takeWhile_append_dropWhile).symm, fun c hc => by
      have := List.all_takeWhile (p := isSpace) (l := l)
      rw [List.all_eq_true] at this
      exact this c hc⟩
  obtain ⟨a, ha, ha'⟩ := hl t
  obtain ⟨b, hb, hb'⟩ := hl (Text.lstrip t).reverse
  have he : Text.lstrip t = Text.strip t ++ b.reverse := by
    have := congrArg List.reverse hb
    rw [List.reverse_reverse, List.reverse_append] at this
    exact this
  refine ⟨a, b.reverse, by rw [List.append_assoc, ← he, ← ha], ?_, ?_, ?_⟩
  · intro c hc
    rcases List.mem_append.1 hc with hc | hc
    · exact ha' c hc
    · exact hb' c (List.mem_reverse.1 hc)
  · have := (Text.strip_eq_self (l := Text.strip t)).1 (Text.strip_idem t)
    exact this.1
  · have := (Text.strip_eq_self (l := Text.strip t)).1 (Text.strip_idem t)
    exact this.2

theorem stamp_lines {t x : Str} (h : TwoLines t x) : ∃ a, Where.splitLines (Text.rstrip t) = [a, x] := by
  obtain ⟨a, w, rfl, hb, hw, c, hc, hs⟩ := h
  have hx : Text.rstrip (a ++ '\n' :: (x ++ w)) = a ++ '\n' :: x := by
    rw [show a ++ '\n' :: (x ++ w) = (a ++ '\n' :: x) ++ w from by simp, Text.rstrip_append_space hw]
    refine Text.rstrip_eq_self.2 fun d hd => ?_
    rw [List.getLast?_append, List.getLast?_cons, hc] at hd
    simp only [Option.getD_some, Option.some_or, Option.some.injEq] at hd
    rw [← hd]
    exact hs
  refine ⟨a, ?_⟩
  simp only [Where.boundary_eq] at hb
  rw [hx, Where.splitLines_cons fun d hd => hb d (List.mem_append_left _ hd),
    Where.splitLines_one (fun d hd => hb d (List.mem_append_right _ hd)) (by rintro rfl; cases hc)]

/-- The second line. -/
def second (t : Str) : Str :=
  match Where.splitLines (Text.rstrip t) with
  | [_, x] => x
  | _ => []

theorem second_eq {t x : Str} (h : TwoLines t x) : second t = x := by
  obtain ⟨a, ha⟩ := stamp_lines h
  rw [second, ha]

theorem back_buildstamp {s : State} (h : ∀ j, find s "info/buildstamp" = some j → j.outcome ≠ .none → ∃ x, TwoLines j.attachment x) :
    Back (buildstamp s) (one "buildstamp" ((find s "info/buildstamp").bind fun j =>
      if j.outcome ≠ .none then some (.str (second j.attachment)) else none)) := by
  unfold buildstamp
  rw [job_eq]
  cases hr : find s "info/buildstamp" with
  | none => exact back_nil
  | some j =>
    dsimp only [Option.bind_some]
    by_cases ho : j.outcome = .none
    · rw [if_neg (by rw [any, ho]; decide), if_neg (by rw [ho]; decide)]
      exact back_nil
    · rw [if_pos (by rw [any, decide_eq_true_iff]; exact ho), if_pos ho]
      obtain ⟨x, hx⟩ := h j hr ho
      obtain ⟨a, ha⟩ := stamp_lines hx
      rw [second_eq hx, ha]
      exact back_member (member_value (free_of (by decide)) fun fs => value_jsonStr x fs false)

theorem mem_of_lookup {r : Res} {k v : Str} (h : r.lookup k = some v) : (k, v) ∈ r := by
  induction r with
  | nil => cases h
  | cons p r ih =>
    obtain ⟨k', v'⟩ := p
    rw [List.lookup_cons] at h
    by_cases hk : k = k'
    · subst hk
      rw [beq_self_eq_true] at h
      cases h
      exact List.mem_cons_self
    · rw [beq_eq_false_iff_ne.2 hk] at h
      exact List.mem_cons_of_mem _ (ih h)

theorem numeral_escape {t : Str} (h : Numeral t) : Junit.escape t = t := by
  refine escape_plain fun c hc => ?_
  have := h.2.1 c hc
  refine ⟨?_, ?_, ?_, ?_, ?_⟩ <;> (rintro rfl; revert this; decide)

/-- The keys of the report. -/
def keyNames : List String := ["packages", "snap-packages", "distribution", "results", "dkms_info", "devices", "raw-devices-dmi",
  "modprobe-info", "pci_subsystem_id", "kernel", "architecture", "memory", "processor", "kernel-cmdline", "bto-info",
  "image-version", "buildstamp"]

theorem keys_nodup : keyNames.Nodup := by decide

theorem reads_with {e lower : Str → Str} {s : State} (he : ∀ t, Told s t → Ok e t) (hf : Fit s) :
    ∃ m, readJson (render lower s) = some (.obj m) ∧ Tells e lower s m := by
  have h1 := front_packages (e := e) (s := s) fun rs hrs r hr hn =>
    ⟨he _ (.package hrs hr hn (Or.inl rfl)), he _ (.package hrs hr hn (Or.inr rfl))⟩
  have h2 := front_snaps (e := e) (lower := lower) (s := s) fun rs hrs r hr hn => by
    refine ⟨?_, fun kv hkv => ⟨he _ (.snap hrs hr hn hkv (Or.inl rfl)), he _ (.snap hrs hr hn hkv (Or.inr rfl))⟩,
      hf.snaps rs hrs r hr hn⟩
    cases hl : r.lookup "name".toList with
    | none => exact absurd (by rw [field, hl]; rfl) hn
    | some v =>
      refine he _ (.snap hrs hr hn (mem_of_lookup hl) (Or.inr ?_))
      rw [field, hl]
      rfl
  have h3 := front_distribution (e := e) (lower := lower) (s := s) fun r hr kv hkv =>
    ⟨he _ (.pair (Or.inl rfl) hr hkv (Or.inl rfl)), he _ (.pair (Or.inl rfl) hr hkv (Or.inr rfl))⟩
  have h4 := member_results (e := e) (lower := lower) (s := s) fun j hj hr t ht => he t (.result hj hr ht)
  have d : ∀ name ∈ ["dkms_info_json", "udev_json", "raw_devices_dmi_json", "modprobe_json", "lspci_standard_config_json"],
      ∀ j, find s name = some j → any j.outcome = true → Good j.attachment := fun name hn j hj ho =>
    hf.documents name hn j hj (by rw [any, decide_eq_true_iff] at ho; exact ho)
  have p : ∀ name ∈ ["dell_bto_xml_attachment_json", "recovery_info_attachment_json"],
      ∀ j, find s name = some j → decide (j.outcome = .pass) = true → Good j.attachment := fun name hn j hj ho =>
    hf.passed name hn j hj (by rw [decide_eq_true_iff] at ho; exact ho)
  have b1 := back_document (key := "dkms_info") (n := 4) (free_of (by decide)) (d "dkms_info_json" (by simp))
  have b2 := back_document (key := "devices") (n := 4) (free_of (by decide)) (d "udev_json" (by simp))
  have b3 := back_document (key := "raw-devices-dmi") (n := 4) (free_of (by decide)) (d "raw_devices_dmi_json" (by simp))
  have b4 := back_document (key := "modprobe-info") (n := 4) (free_of (by decide)) (d "modprobe_json" (by simp))
  have b5 := back_document (key := "pci_subsystem_id") (n := 4) (free_of (by decide)) (d "lspci_standard_config_json" (by simp))
  have b6 := back_told (s := s) (name := "uname") (key := "kernel")
    (value := fun r => quoted (Junit.escape (get r "release".toList))) (f := fun r => .str (e (field r "release")))
    (free_of (by decide)) fun r hr => by
      have := he _ (.kernel hr)
      rw [← this.1]
      exact value_quoted _ this.2
  have b7 := back_told (s := s) (name := "dpkg") (key := "architecture")
    (value := fun r => quoted (Junit.escape (get r "architecture".toList))) (f := fun r => .str (e (field r "architecture")))
    (free_of (by decide)) fun r hr => by
      have := he _ (.architecture hr)
      rw [← this.1]
      exact value_quoted _ this.2
  have b8 := back_told (s := s) (name := "meminfo") (key := "memory")
    (value := fun r => '{' :: (listed [
        member 8 "swap" (Junit.escape (get r "swap".toList)),
        member 8 "total" (Junit.escape (get r "total".toList))] ++ margin 4 ++ ['}']))
    (f := fun r => .obj [("swap".toList, .num (field r "swap")), ("total".toList, .num (field r "total"))])
    (free_of (by decide)) fun r hr => by
      have hm := hf.memory r hr
      rw [get_eq, get_eq, numeral_escape hm.1, numeral_escape hm.2]
      refine value_object (n := 4) (pieces := [
        (member 8 "swap" (field r "swap"), "swap".toList, .num (field r "swap")),
        (member 8 "total" (field r "total"), "total".toList, .num (field r "total"))]) fun p hp => ?_
      simp only [List.mem_cons, List.not_mem_nil, or_false] at hp
      rcases hp with rfl | rfl
      · exact member_value (free_of (by decide)) fun fs => value_numeral hm.1 fs false
      · exact member_value (free_of (by decide)) fun fs => value_numeral hm.2 fs false
  have b9 := back_told (s := s) (name := "cpuinfo") (key := "processor")
    (value := fun r => '{' :: (listed ((sortKeys lower r).map fun kv => line 8 kv.1 kv.2) ++ margin 4 ++ ['}']))
    (f := fun r => .obj (pairs e (sortKeys lower r))) (free_of (by decide)) fun r hr =>
      value_pairs fun kv hkv =>
        ⟨he _ (.pair (Or.inr rfl) hr hkv (Or.inl rfl)), he _ (.pair (Or.inr rfl) hr hkv (Or.inr rfl))⟩
  have b10 := back_attached (s := s) (name := "kernel_cmdline_attachment") (key := "kernel-cmdline") (ok := any)
    (value := fun t => jsonify (some (Text.strip t))) (f := fun t => .str (Text.strip t)) (free_of (by decide))
    fun j _ _ fs => value_jsonStr _ fs false
  have b11 := back_document (key := "bto-info") (n := 8) (ok := (· = .pass)) (free_of (by decide))
    (p "dell_bto_xml_attachment_json" (by simp))
  have b12 := back_document (key := "image-version") (n := 8) (ok := (· = .pass)) (free_of (by decide))
    (p "recovery_info_attachment_json" (by simp))
  have b13 := back_buildstamp hf.stamp
  have hr := read_parts (front_append (front_append h1 h2) h3) h4
    (back_append b1 (back_append b2 (back_append b3 (back_append b4 (back_append b5 (back_append b6 (back_append b7
      (back_append b8 (back_append b9 (back_append b10 (back_append b11 (back_append b12 b13))))))))))))
  refine ⟨gather [
    ("packages", (found s "package").map fun rs =>
      .arr ((rs.filter fun r => decide (field r "name" ≠ [])).map fun r =>
        .obj [("name".toList, .str (e (field r "name"))), ("version".toList, .str (e (field r "version")))])),
    ("snap-packages", (found s "snap").map fun rs =>
      .arr ((rs.filter fun r => decide (field r "name" ≠ [])).map fun r =>
        .obj (("name".toList, .str (e (field r "name"))) ::
          pairs e (sortKeys lower (r.filter fun kv => decide (kv.1 ≠ "name".toList)))))),
    ("distribution", (foundFirst s "lsb").map fun r => .obj (pairs e (sortKeys lower r))),
    ("results", some (.arr ((shown lower s).map (resultOf e)))),
    ("dkms_info", document s "dkms_info_json" any),
    ("devices", document s "udev_json" any),
    ("raw-devices-dmi", document s "raw_devices_dmi_json" any),
    ("modprobe-info", document s "modprobe_json" any),
    ("pci_subsystem_id", document s "lspci_standard_config_json" any),
    ("kernel", (foundFirst s "uname").map fun r => .str (e (field r "release"))),
    ("architecture", (foundFirst s "dpkg").map fun r => .str (e (field r "architecture"))),
    ("memory", (foundFirst s "meminfo").map fun r =>
      .obj [("swap".toList, .num (field r "swap")), ("total".toList, .num (field r "total"))]),
    ("processor", (foundFirst s "cpuinfo").map fun r => .obj (pairs e (sortKeys lower r))),
    ("kernel-cmdline", (find s "kernel_cmdline_attachment").bind fun j =>
      if any j.outcome then some (.str (Text.strip j.attachment)) else none),
    ("bto-info", document s "dell_bto_xml_attachment_json" (· = .pass)),
    ("image-version", document s "recovery_info_attachment_json" (· = .pass)),
    ("buildstamp", (find s "info/buildstamp").bind fun j =>
      if j.outcome ≠ .none then some (.str (second j.attachment)) else none)],
    Eq.trans (congrArg readJson (by simp only [render, List.append_assoc])) (hr.trans (congrArg (fun m => some (Json.obj m)) ?_)), ?_⟩
  · simp only [gather, List.flatMap_cons, List.flatMap_nil, List.append_assoc, List.append_nil]
    rfl
  constructor
  · exact gather_nodup keys_nodup
  · exact ⟨shown lower s, (shown_spec lower s).1, (shown_spec lower s).2,
      lookup_gather (by exact keys_nodup) (List.mem_of_getElem? (i := 3) rfl)⟩
  · exact lookup_gather (by exact keys_nodup) (List.mem_of_getElem? (i := 0) rfl)
  · exact ⟨sortKeys lower, arranged_sortKeys lower, lookup_gather (by exact keys_nodup) (List.mem_of_getElem? (i := 1) rfl)⟩
  · exact ⟨sortKeys lower, arranged_sortKeys lower, lookup_gather (by exact keys_nodup) (List.mem_of_getElem? (i := 2) rfl)⟩
  · exact lookup_gather (by exact keys_nodup) (List.mem_of_getElem? (i := 4) rfl)
  · exact lookup_gather (by exact keys_nodup) (List.mem_of_getElem? (i := 5) rfl)
  · exact lookup_gather (by exact keys_nodup) (List.mem_of_getElem? (i := 6) rfl)
  · exact lookup_gather (by exact keys_nodup) (List.mem_of_getElem? (i := 7) rfl)
  · exact lookup_gather (by exact keys_nodup) (List.mem_of_getElem? (i := 8) rfl)
  · exact lookup_gather (by exact keys_nodup) (List.mem_of_getElem? (i := 9) rfl)
  · exact lookup_gather (by exact keys_nodup) (List.mem_of_getElem? (i := 10) rfl)
  · exact lookup_gather (by exact keys_nodup) (List.mem_of_getElem? (i := 11) rfl)
  · exact ⟨sortKeys lower, arranged_sortKeys lower, lookup_gather (by exact keys_nodup) (List.mem_of_getElem? (i := 12) rfl)⟩
  · refine ⟨Text.strip, stripped_strip, (lookup_gather (by exact keys_nodup) (List.mem_of_getElem? (i := 13) rfl)).trans ?_⟩
    cases find s "kernel_cmdline_attachment" with
    | none => rfl
    | some j =>
      dsimp only [Option.bind_some]
      by_cases ho : j.outcome = .none
      · rw [if_neg (by rw [any, ho]; decide), if_neg (by rw [ho]; decide)]
      · rw [if_pos (by rw [any, decide_eq_true_iff]; exact ho), if_pos ho]
  · exact lookup_gather (by exact keys_nodup) (List.mem_of_getElem? (i := 14) rfl)
  · exact lookup_gather (by exact keys_nodup) (List.mem_of_getElem? (i := 15) rfl)
  · exact ⟨second, fun _ _ h => second_eq h, lookup_gather (by exact keys_nodup) (List.mem_of_getElem? (i := 16) rfl)⟩

/-! ## Theorems -/

/-- **C102** If the texts have no control characters, backslashes, quotes, apostrophes, ampersands or angle brackets, then the
report is JSON, and it tells what the session has: results of the jobs that ran, with identifier, summary, status, category,
comments and log, and what the jobs and resources of the certification programme say about the machine. Missing: other texts
(`C102_entities_partial`, `C102_backslash_violated`), attachments that are not JSON (`C102_attachment_violated`), snaps with only
a name (`C102_snap_violated`), build stamps of other forms (`C102_stamp_violated`). -/
theorem C102_reads_partial {lower : Str → Str} {s : State}
    (ht : ∀ t, Told s t → ∀ c ∈ t, 0x20 ≤ c.toNat ∧ c ∉ ['\\', '"', '\'', '&', '<', '>']) (hf : Fit s) :
    ∃ m, readJson (render lower s) = some (.obj m) ∧ Tells id lower s m := by
  refine reads_with (fun t h => ?_) hf
  have h1 := escape_plain (t := t) fun c hc => by
    have := (ht t h c hc).2
    simp only [List.mem_cons, List.not_mem_nil, or_false, not_or] at this
    exact ⟨this.2.2.2.1, this.2.2.2.2.1, this.2.2.2.2.2, this.2.2.1, this.2.1⟩
  refine ⟨h1, ?_⟩
  exact free_escape fun c hc => ⟨(ht t h c hc).1, fun h' => (ht t h c hc).2 (by rw [h']; exact List.mem_cons_self)⟩

/-- **C102** The same with quotes, apostrophes, ampersands and angle brackets, which the report has as in HTML. -/
theorem C102_entities_partial {lower : Str → Str} {s : State}
    (ht : ∀ t, Told s t → ∀ c ∈ t, 0x20 ≤ c.toNat ∧ c ≠ '\\') (hf : Fit s) :
    ∃ m, readJson (render lower s) = some (.obj m) ∧ Tells entities lower s m :=
  reads_with (fun t h => ok_entities (ht t h)) hf

/-! ## Examples -/

/-- All texts that the report puts between quotes, for examples. -/
def texts (s : State) : List Str :=
  (s.jobs.filter fun j => decide (Reported j)).flatMap (fun j => [bare j.id, j.summary, j.status, j.category])
    ++ ((found s "package").getD []).flatMap (fun r => [field r "name", field r "version"])
    ++ ((found s "snap").getD []).flatMap (fun r => r.flatMap fun kv => [kv.1, kv.2])
    ++ ["lsb", "cpuinfo"].flatMap (fun n => ((foundFirst s n).getD []).flatMap fun kv => [kv.1, kv.2])
    ++ ((foundFirst s "uname").toList.map fun r => field r "release")
    ++ ((foundFirst s "dpkg").toList.map fun r => field r "architecture")

theorem told_texts {s : State} {t : Str} (h : Told s t) : t ∈ texts s := by
  unfold texts
  simp only [List.mem_append, List.mem_flatMap, List.mem_filter, decide_eq_true_eq, List.mem_map]
  cases h with
  | result hj hr ht => exact Or.inl (Or.inl (Or.inl (Or.inl (Or.inl ⟨_, ⟨hj, hr⟩, ht⟩))))
  | @package rs r k hrs hr hn hk =>
    refine Or.inl (Or.inl (Or.inl (Or.inl (Or.inr ⟨r, ?_, ?_⟩))))
    · rw [hrs]; exact hr
    · rcases hk with rfl | rfl <;> simp
  | @snap rs r kv t hrs hr hn hkv ht =>
    refine Or.inl (Or.inl (Or.inl (Or.inr ⟨r, ?_, kv, hkv, ?_⟩)))
    · rw [hrs]; exact hr
    · rcases ht with rfl | rfl <;> simp
  | @pair name r kv t hn hr hkv ht =>
    refine Or.inl (Or.inl (Or.inr ⟨name, ?_, kv, ?_, ?_⟩))
    · rcases hn with rfl | rfl <;> simp
    · rw [hr]; exact hkv
    · rcases ht with rfl | rfl <;> simp
  | @kernel r hr => exact Or.inl (Or.inr ⟨r, by rw [hr]; simp, rfl⟩)
  | @architecture r hr => exact Or.inr ⟨r, by rw [hr]; simp, rfl⟩

/-- An attachment of the certification programme. -/
def attach (name text : String) : Job :=
  ⟨programme ++ name.toList, "attachment".toList, [], [], [], .pass, none, [], text.toList⟩

/-- A test. -/
def test (id summary : String) (o : Outcome) : Job :=
  ⟨id.toList, "shell".toList, summary.toList, "blocker".toList, "disk".toList, o, some "hm \"ok\"\n".toList,
    "50%\n".toList, []⟩

/-- A resource. -/
def res (name : String) (rs : List (List (String × String))) : Str × List Res :=
  (programme ++ name.toList, rs.map fun r => r.map fun kv => (kv.1.toList, kv.2.toList))

/-- A session with something of everything. -/
def demo : State where
  resources := [res "package" [[("name", "bash"), ("version", "4.3")], [("version", "0")]],
    res "snap" [[("revision", "7"), ("name", "core"), ("channel", "stable")]],
    res "lsb" [[("release", "16.04"), ("codename", "xenial")]],
    res "uname" [[("release", "4.4.0")]], res "dpkg" [[("architecture", "amd64")]],
    res "meminfo" [[("swap", "0"), ("total", "8589934592")]],
    res "cpuinfo" [[("type", "GenuineIntel"), ("count", "4")]]]
  jobs := [test "com.canonical.certification::disk/a" "Read a disk" .crash, test "local::b" "Not run" .none,
    attach "udev_json" "{\"a\":\r\n [1, true]}\n", attach "kernel_cmdline_attachment" " quiet splash\n",
    attach "info/buildstamp" "somerville\n2016-01 x\n\n", attach "dell_bto_xml_attachment_json" "[]"]

example : ∀ t, Told demo t → ∀ c ∈ t, 0x20 ≤ c.toNat ∧ c ∉ ['\\', '"', '\'', '&', '<', '>'] := by
  have : ((texts demo).all fun t => t.all fun c => decide (0x20 ≤ c.toNat ∧ c ∉ ['\\', '"', '\'', '&', '<', '>'])) = true := by
    decide +kernel
  intro t ht c hc
  have h1 := List.all_eq_true.1 (List.all_eq_true.1 this t (told_texts ht)) c hc
  rwa [decide_eq_true_iff] at h1

theorem good_of {t : Str} (h : (readJson t).isSome = true) (ho : (t.all fun c => decide (c.toNat < 0x80)) = true) : Good t := by
  refine ⟨Option.isSome_iff_exists.1 h, fun c hc => ?_⟩
  have := List.all_eq_true.1 ho c hc
  rw [decide_eq_true_iff] at this
  unfold Odd
  omega

example : Fit demo := by
  have none_of : ∀ {name : String}, (find demo name).isNone = true → ∀ {j : Job} {P : Prop}, find demo name = some j → P := by
    intro name h j P hj
    rw [hj] at h
    cases h
  constructor
  · intro name hn j hj _
    simp only [List.mem_cons, List.not_mem_nil, or_false] at hn
    rcases hn with rfl | rfl | rfl | rfl | rfl
    · exact none_of (by decide +kernel) hj
    · rw [show find demo "udev_json" = some (attach "udev_json" "{\"a\":\r\n [1, true]}\n") from by decide +kernel] at hj
      cases hj
      exact good_of (by decide +kernel) (by decide +kernel)
    · exact none_of (by decide +kernel) hj
    · exact none_of (by decide +kernel) hj
    · exact none_of (by decide +kernel) hj
  · intro name hn j hj _
    simp only [List.mem_cons, List.not_mem_nil, or_false] at hn
    rcases hn with rfl | rfl
    · rw [show find demo "dell_bto_xml_attachment_json" = some (attach "dell_bto_xml_attachment_json" "[]") from
        by decide +kernel] at hj
      cases hj
      exact good_of (by decide +kernel) (by decide +kernel)
    · exact none_of (by decide +kernel) hj
  · intro r hr
    rw [show foundFirst demo "meminfo" = some [("swap".toList, "0".toList), ("total".toList, "8589934592".toList)] from
      by decide +kernel] at hr
    cases hr
    exact ⟨⟨by decide, by decide, by decide⟩, ⟨by decide, by decide, by decide⟩⟩
  · intro rs hrs r hr _
    rw [show found demo "snap" = some [[("revision".toList, "7".toList), ("name".toList, "core".toList),
      ("channel".toList, "stable".toList)]] from by decide +kernel] at hrs
    cases hrs
    rw [List.mem_singleton] at hr
    subst hr
    exact ⟨_, List.mem_cons_self, by decide⟩
  · intro j hj _
    rw [show find demo "info/buildstamp" = some (attach "info/buildstamp" "somerville\n2016-01 x\n\n") from by decide +kernel] at hj
    cases hj
    exact ⟨"2016-01 x".toList, "somerville".toList, "\n\n".toList, by decide, by decide, by decide, 'x', by decide, by decide⟩

example : (readJson (render id demo)).isSome = true := by decide +kernel

/-! ## Violations -/

/-- The name of the only result in a report that has nothing else. -/
def onlyName : Option Json → Option Str
  | some (.obj [(_, .arr [.obj (_ :: (_, .str n) :: _)])]) => some n
  | _ => none

/-- **C102 (violated)** The summary `R & D` is reported as `R &amp; D`. -/
theorem C102_entity_violated :
    onlyName (readJson (render id ⟨[], [test "a::b" "R & D" .pass]⟩)) = some "R &amp; D".toList := by decide +kernel

/-- **C102 (violated)** With a backslash in a summary, or a newline in a resource, the report is not JSON. -/
theorem C102_backslash_violated :
    (readJson (render id ⟨[], [test "a::b" "Mount C:\\data" .pass]⟩)).isNone = true ∧
      (readJson (render id ⟨[res "lsb" [[("description", "a\nb")]]], []⟩)).isNone = true := by
  constructor <;> decide +kernel

/-- **C102 (violated)** With an attachment that is empty, as that of a job that printed something that is not UTF-8, the report is
not JSON. Nor is it with one that is JSON but has the line separator U+2028 in a text. -/
theorem C102_attachment_violated :
    (readJson (render id ⟨[], [attach "udev_json" ""]⟩)).isNone = true ∧
      (readJson "[\"a\u2028b\"]".toList).isSome = true ∧
      (readJson (render id ⟨[], [attach "udev_json" "[\"a\u2028b\"]"]⟩)).isNone = true := by
  refine ⟨?_, ?_, ?_⟩ <;> decide +kernel

/-- **C102 (violated)** With a snap of which only the name is known, the report is not JSON. -/
theorem C102_snap_violated : (readJson (render id ⟨[res "snap" [[("name", "core")]]], []⟩)).isNone = true := by decide +kernel

/-- **C102 (violated)** With a build stamp that is not two lines, the report is not JSON. -/
theorem C102_stamp_violated : (readJson (render id ⟨[], [attach "info/buildstamp" "somerville\n"]⟩)).isNone = true := by
  decide +kernel

/-- **C102 (violated)** With a memory resource without an amount of swap, the report is not JSON. -/
theorem C102_memory_violated : (readJson (render id ⟨[res "meminfo" [[("total", "1")]]], []⟩)).isNone = true := by
  decide +kernel

end Verif.Submission
