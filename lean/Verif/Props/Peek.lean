import Verif.Model.Peek
import Verif.Props.IOLog
import Verif.Props.ResumeJson

/-! # C89: details of stored sessions -/

namespace Verif.Peek

open Verif.ResumeJson (Str Json Exc Envelope PyType validate item validateKey strings strOf listOf versionOf)

attribute [-instance] List.instBEq

/-! ## Specification -/

/-- The same details; flags are a set. -/
def Same (a b : Meta) : Prop :=
  a.title = b.title ∧ (∀ f, f ∈ a.flags ↔ f ∈ b.flags) ∧ a.running = b.running ∧ a.blob = b.blob ∧ a.appId = b.appId

/-- The details that the format keeps. -/
def kept (version : Nat) (m : Meta) : Meta :=
  { m with
    blob := if version = 1 then none else m.blob
    appId := if version ≤ 2 then none else m.appId }

/-- The data of the stored session can be read and has these details. -/
def Holds (J : Type) (s : Stored) (m : Meta) : Prop := ∃ d, s.loaded = .data d ∧ peek (J := J) d = .ok m

/-- The file is there, and it is either complete or so bad that it is reported as corrupted. -/
def Sound (s : Stored) : Prop := s.loaded ≠ .oserror ∧ s.loaded ≠ .data .truncated ∧ s.loaded ≠ .data .damaged

/-! ## Lemmas -/

section
variable {J : Type}

theorem strings_map : ∀ l : List Str, strings (J := J) (l.map Json.str) = .ok l
  | [] => rfl
  | s :: l => by
    simp [strings, validate, ResumeJson.isInstance, strings_map l, strOf]

theorem text_ok (t : Option Str) : validate (J := J) (textJson t) .str true = .ok (textJson t) := by
  cases t <;> simp [textJson, validate, ResumeJson.isInstance]

theorem text_str (t : Option Str) : strOf (textJson t) = t := by
  cases t <;> simp [textJson, strOf]

private theorem key {l : List (Str × Json)} {k : Str} {v : Json} (h : l.lookup k = some v) (ty : PyType) (n : Bool) :
    validateKey (J := J) (.obj l) k ty n = validate v ty n := by
  simp [validateKey, item, h]

private def entries (sorted : List Str → List Str) (version : Nat) (m : Meta) : List (Str × Json) :=
  [("title".toList, textJson m.title), ("flags".toList, .arr ((sorted m.flags).map .str)),
      ("running_job_name".toList, textJson m.running)] ++
    (if version < 2 then [] else [("app_blob".toList, match m.blob with
      | none => .null
      | some b => .str (IOLog.b64enc b))]) ++
    (if version < 3 then [] else [("app_id".toList, textJson m.appId)])

private theorem write_eq (sorted : List Str → List Str) (version : Nat) (m : Meta) :
    writeMeta sorted version m = .obj (entries sorted version m) := rfl

private theorem restore1_write (sorted : List Str → List Str) (version : Nat) (m base : Meta) (sr : List (Str × Json))
    (h : sr.lookup "metadata".toList = some (writeMeta sorted version m)) :
    restore1 (J := J) base (.obj sr) =
      .ok { base with title := m.title, flags := sorted m.flags, running := m.running } := by
  have e1 : (entries sorted version m).lookup "title".toList = some (textJson m.title) := rfl
  have e2 : (entries sorted version m).lookup "flags".toList = some (.arr ((sorted m.flags).map .str)) := rfl
  have e3 : (entries sorted version m).lookup "running_job_name".toList = some (textJson m.running) := rfl
  unfold restore1
  rw [key h, write_eq]
  simp only [validate, ResumeJson.isInstance, if_true]
  rw [key e1, text_ok m.title]
  simp only
  rw [key e2]
  simp only [validate, ResumeJson.isInstance, if_true, listOf]
  rw [strings_map]
  simp only
  rw [key e3, text_ok m.running]
  simp only [text_str m.title, text_str m.running]

private theorem restore2_write (sorted : List Str → List Str) (version : Nat) (hv : 2 ≤ version) (m base : Meta)
    (sr : List (Str × Json)) (h : sr.lookup "metadata".toList = some (writeMeta sorted version m)) :
    restore2 (J := J) base (.obj sr) =
      .ok { base with title := m.title, flags := sorted m.flags, running := m.running, blob := m.blob } := by
  have e : (entries sorted version m).lookup "app_blob".toList = some (match m.blob with
      | none => .null
      | some b => .str (IOLog.b64enc b)) := by
    have : ¬ version < 2 := by omega
    simp only [entries, if_neg this]
    rfl
  unfold restore2
  rw [restore1_write sorted version m base sr h]
  simp only
  rw [key h, write_eq]
  simp only [validate, ResumeJson.isInstance, if_true]
  rw [key e]
  cases hb : m.blob with
  | none => simp [validate, strOf]
  | some b => simp [validate, ResumeJson.isInstance, strOf, IOLog.b64_round]

private theorem restore3_write (sorted : List Str → List Str) (version : Nat) (hv : 3 ≤ version) (m base : Meta)
    (sr : List (Str × Json)) (h : sr.lookup "metadata".toList = some (writeMeta sorted version m)) :
    restore3 (J := J) base (.obj sr) = .ok { m with flags := sorted m.flags } := by
  have e : (entries sorted version m).lookup "app_id".toList = some (textJson m.appId) := by
    have h2 : ¬ version < 2 := by omega
    have h3 : ¬ version < 3 := by omega
    simp only [entries, if_neg h2, if_neg h3]
    rfl
  unfold restore3
  rw [restore2_write sorted version (by omega) m base sr h]
  simp only
  rw [key h, write_eq]
  simp only [validate, ResumeJson.isInstance, if_true]
  rw [key e, text_ok m.appId]
  simp only [text_str m.appId]

theorem restore_write (sorted : List Str → List Str) (version : Nat) (m : Meta)
    (sr : List (Str × Json)) (h1 : 1 ≤ version) (h : sr.lookup "metadata".toList = some (writeMeta sorted version m)) :
    restore (J := J) version (.obj sr) = .ok { kept version m with flags := sorted m.flags } := by
  unfold restore
  by_cases h2 : version < 2
  · have : version = 1 := by omega
    subst this
    rw [if_pos h2, restore1_write sorted 1 m fresh sr h]
    rfl
  · rw [if_neg h2]
    by_cases h3 : version < 3
    · have : version = 2 := by omega
      subst this
      rw [if_pos h3, restore2_write sorted 2 (by omega) m fresh sr h]
      rfl
    · rw [if_neg h3, restore3_write sorted version (by omega) m fresh sr h]
      have e1 : version ≠ 1 := by omega
      have e2 : ¬ version ≤ 2 := by omega
      simp [kept, e1, e2]

/-- Restoring the meta-data fails exactly when resuming finds something wrong with it. -/
theorem restore_metadata (version : Nat) (sr : Json) :
    (restore (J := J) version sr).map (fun _ => ()) = ResumeJson.metadata version sr := by
  unfold restore restore3 restore2 restore1 ResumeJson.metadata
  cases h1 : validateKey (J := J) sr "metadata".toList .dict false with
  | error e => by_cases a : version < 2 <;> by_cases b : version < 3 <;> simp [a, b, Except.map]
  | ok d =>
    simp only
    cases validateKey (J := J) d "title".toList .str true with
    | error e => by_cases a : version < 2 <;> by_cases b : version < 3 <;> simp [a, b, Except.map]
    | ok t =>
      simp only
      cases validateKey (J := J) d "flags".toList .list false with
      | error e => by_cases a : version < 2 <;> by_cases b : version < 3 <;> simp [a, b, Except.map]
      | ok fl =>
        simp only
        cases strings (J := J) (listOf fl) with
        | error e => by_cases a : version < 2 <;> by_cases b : version < 3 <;> simp [a, b, Except.map]
        | ok flags =>
          simp only
          cases validateKey (J := J) d "running_job_name".toList .str true with
          | error e => by_cases a : version < 2 <;> by_cases b : version < 3 <;> simp [a, b, Except.map]
          | ok r =>
            simp only
            by_cases a : version < 2
            · simp [a, Except.map]
            · simp only [if_neg a]
              cases validateKey (J := J) d "app_blob".toList .str true with
              | error e => by_cases b : version < 3 <;> simp [b, Except.map]
              | ok bl =>
                simp only
                cases strOf bl with
                | none =>
                  by_cases b : version < 3
                  · simp [b, Except.map]
                  · simp only [if_neg b, if_true]
                    cases validateKey (J := J) d "app_id".toList .str true <;> simp [Except.map]
                | some t =>
                  simp only
                  have hx : IOLog.b64dec t = none ∨ ∃ x, IOLog.b64dec t = some x := by
                    cases IOLog.b64dec t <;> simp
                  rcases hx with hx | ⟨x, hx⟩
                  · by_cases b : version < 3 <;> simp [b, hx, Except.map]
                  · by_cases b : version < 3
                    · simp [b, hx, Except.map]
                    · simp only [if_neg b, hx, Option.isSome_some, if_true]
                      cases validateKey (J := J) d "app_id".toList .str true <;> simp [Except.map]

theorem validate_error {v : Json} {ty : PyType} {n : Bool} {e : Exc J} (h : validate v ty n = .error e) :
    e = .corrupted := by
  unfold validate at h
  split at h
  · split at h <;> cases h; rfl
  · split at h <;> cases h; rfl

theorem item_error {o : Json} {k : Str} {e : Exc J} (h : item o k = .error e) : e = .corrupted := by
  unfold item at h
  split at h
  · split at h <;> cases h; rfl
  · cases h; rfl

theorem validateKey_error {o : Json} {k : Str} {ty : PyType} {n : Bool} {e : Exc J}
    (h : validateKey o k ty n = .error e) : e = .corrupted := by
  unfold validateKey at h
  split at h
  · next he => cases h; exact item_error he
  · exact validate_error h

theorem strings_error : ∀ {l : List Json} {e : Exc J}, strings l = .error e → e = .corrupted
  | [], e, h => by cases h
  | v :: vs, e, h => by
    unfold strings at h
    split at h
    · next he => cases h; exact validate_error he
    · split at h
      · next he => cases h; exact strings_error he
      · cases h

theorem restore1_error {m : Meta} {sr : Json} {e : Exc J} (h : restore1 m sr = .error e) : e = .corrupted := by
  unfold restore1 at h
  split at h
  · next he => cases h; exact validateKey_error he
  split at h
  · next he => cases h; exact validateKey_error he
  split at h
  · next he => cases h; exact validateKey_error he
  split at h
  · next he => cases h; exact strings_error he
  split at h
  · next he => cases h; exact validateKey_error he
  · cases h

theorem restore2_error {m : Meta} {sr : Json} {e : Exc J} (h : restore2 m sr = .error e) : e = .corrupted := by
  unfold restore2 at h
  split at h
  · next he => cases h; exact restore1_error he
  split at h
  · next he => cases h; exact validateKey_error he
  split at h
  · next he => cases h; exact validateKey_error he
  split at h
  · cases h
  · split at h
    · cases h; rfl
    · cases h

theorem restore_error {n : Nat} {sr : Json} {e : Exc J} (h : restore n sr = .error e) : e = .corrupted := by
  unfold restore at h
  split at h
  · exact restore1_error h
  split at h
  · exact restore2_error h
  unfold restore3 at h
  split at h
  · next he => cases h; exact restore2_error he
  split at h
  · next he => cases h; exact validateKey_error he
  split at h
  · next he => cases h; exact validateKey_error he
  · cases h

theorem peekJson_error {v : Json} {e : Exc J} (h : peekJson v = .error e) : e = .corrupted ∨ e = .incompatibleSession := by
  unfold peekJson at h
  split at h
  · next he => cases h; exact .inl (validate_error he)
  split at h
  · next he => cases h; exact .inl (item_error he)
  · cases h; exact .inl rfl
  · split at h
    · cases h; exact .inr rfl
    · split at h
      · next he => cases h; exact .inl (validateKey_error he)
      · exact .inl (restore_error h)

theorem sound_error {s : Stored} {d : Envelope} {e : Exc J} (hs : Sound s) (hd : s.loaded = .data d)
    (h : peek d = .error e) : isResumeError e = true := by
  cases d with
  | badGzip => cases h; rfl
  | truncated => exact absurd hd hs.2.1
  | damaged => exact absurd hd hs.2.2
  | badUtf8 => cases h; rfl
  | badJson => cases h; rfl
  | json v =>
    rcases peekJson_error h with rfl | rfl <;> rfl

theorem scan_sound {keep : Meta → Bool} : ∀ {l : List Stored}, (∀ s ∈ l, Sound s) →
    (scan (J := J) keep l).2 = none ∧
    ∀ x, x ∈ (scan (J := J) keep l).1 ↔ ∃ s ∈ l, s.id = x.1 ∧ Holds J s x.2 ∧ keep x.2 = true
  | [], _ => by simp [scan]
  | s :: l, h => by
    obtain ⟨h1, h2⟩ := scan_sound (keep := keep) (l := l) fun x hx => h x (List.mem_cons_of_mem _ hx)
    have hs := h s List.mem_cons_self
    have skip : (∀ m, ¬ (Holds J s m ∧ keep m = true)) → scan (J := J) keep (s :: l) = scan keep l →
        (scan (J := J) keep (s :: l)).2 = none ∧ ∀ x, x ∈ (scan (J := J) keep (s :: l)).1 ↔
          ∃ t ∈ s :: l, t.id = x.1 ∧ Holds J t x.2 ∧ keep x.2 = true := by
      intro hn he
      rw [he]
      refine ⟨h1, fun x => ?_⟩
      rw [h2]
      constructor
      · rintro ⟨t, ht, hx⟩; exact ⟨t, List.mem_cons_of_mem _ ht, hx⟩
      · rintro ⟨t, ht, hi, hx⟩
        rcases List.mem_cons.1 ht with rfl | ht
        · exact absurd hx (hn _)
        · exact ⟨t, ht, hi, hx⟩
    cases hl : s.loaded with
    | oserror => exact absurd hl hs.1
    | empty =>
      refine skip ?_ (by simp [scan, hl])
      rintro m ⟨⟨d, hd, -⟩, -⟩
      rw [hl] at hd
      cases hd
    | data d =>
      cases hp : peek (J := J) d with
      | error e =>
        have := sound_error hs hl hp
        refine skip ?_ (by simp [scan, hl, hp, this])
        rintro m ⟨⟨d', hd, hm⟩, -⟩
        rw [hl] at hd
        cases hd
        rw [hp] at hm
        cases hm
      | ok m =>
        cases hk : keep m with
        | false =>
          refine skip ?_ (by simp [scan, hl, hp, hk])
          rintro m' ⟨⟨d', hd, hm⟩, hk'⟩
          rw [hl] at hd
          cases hd
          rw [hp] at hm
          cases hm
          rw [hk] at hk'
          cases hk'
        | true =>
          have he : scan (J := J) keep (s :: l) = ((s.id, m) :: (scan (J := J) keep l).1, (scan keep l).2) := by
            simp [scan, hl, hp, hk]
          rw [he]
          refine ⟨h1, fun x => ?_⟩
          rw [List.mem_cons, h2]
          constructor
          · rintro (rfl | ⟨t, ht, hx⟩)
            · exact ⟨s, List.mem_cons_self, rfl, ⟨d, hl, hp⟩, hk⟩
            · exact ⟨t, List.mem_cons_of_mem _ ht, hx⟩
          · rintro ⟨t, ht, hi, ⟨d', hd, hm⟩, hx⟩
            rcases List.mem_cons.1 ht with rfl | ht
            · rw [hl] at hd
              cases hd
              rw [hp] at hm
              left
              cases x
              simp only [Except.ok.injEq] at hm hi
              rw [hi, hm]
            · exact .inr ⟨t, ht, hi, ⟨d', hd, hm⟩, hx⟩

theorem scan_sublist {keep : Meta → Bool} : ∀ l : List Stored,
    ((scan (J := J) keep l).1.map Prod.fst).Sublist (l.map Stored.id)
  | [] => by simp [scan]
  | s :: l => by
    have ih := scan_sublist (keep := keep) l
    unfold scan
    split
    · exact List.nil_sublist _
    · exact ih.cons _
    · split
      · split
        · exact ih.cons _
        · exact List.nil_sublist _
      · split
        · exact ih.cons_cons _
        · exact ih.cons _

end

/-! ## Theorems -/

section
variable {J E R : Type}

/-- Details that were saved are read back, by each format that keeps them; the one in use, 6, keeps all of them. -/
theorem C89_saved {sorted : List Str → List Str} (hs : ∀ l f, f ∈ sorted l ↔ f ∈ l) (version : Nat)
    (hv : 1 ≤ version ∧ version ≤ 6) (jobs results desired mandatory : Json) (m : Meta) :
    ∃ m', peek (J := J) (.json (writeDoc sorted version jobs results desired mandatory m)) = .ok m' ∧
      Same m' (kept version m) ∧ (version = 6 → Same m' m) := by
  have hver : versionOf (.int (version : Int)) = some version := by
    have : (1 : Int) ≤ version ∧ (version : Int) ≤ 6 := by omega
    simp [versionOf, this]
  have hp : peek (J := J) (.json (writeDoc sorted version jobs results desired mandatory m)) =
      .ok { kept version m with flags := sorted m.flags } := by
    simp only [peek, peekJson, writeDoc, validate, ResumeJson.isInstance, if_true, item]
    have e1 : ∀ (a b : Json), ([("version".toList, a), ("session".toList, b)] : List (Str × Json)).lookup "version".toList
        = some a := fun _ _ => rfl
    have e2 : ∀ (a b : Json), ([("version".toList, a), ("session".toList, b)] : List (Str × Json)).lookup "session".toList
        = some b := fun _ _ => rfl
    rw [e1]
    simp only [hver, validateKey, item]
    rw [e2]
    simp only [validate, ResumeJson.isInstance, if_true]
    exact restore_write sorted version m _ hv.1 rfl
  refine ⟨_, hp, ⟨rfl, fun f => ?_, rfl, rfl, rfl⟩, fun h => ?_⟩
  · exact hs _ _
  · subst h
    exact ⟨rfl, fun f => hs _ _, rfl, rfl, rfl⟩

/-- The details of a session that can be resumed can be read without resuming it. -/
theorem C89_resumable [DecidableEq J] [DecidableEq E] [DecidableEq R] (c : ResumeJson.Cfg J R) (sem : Session.Sem J Str E R) (sortIds : List Str → List Str)
    (base : List J) (d : Envelope) (s : Session.Session J Str E R) (h : ResumeJson.resume c sem sortIds base d = .ok s) :
    ∃ m, peek (J := J) d = .ok m := by
  cases d with
  | json v =>
    simp only [ResumeJson.resume, ResumeJson.resumeJson] at h
    simp only [peek, peekJson]
    split at h
    · cases h
    · next o ho =>
      split at h
      · cases h
      · cases h
      · next ver hne hver =>
        rw [ho]
        simp only [hver]
        split at h
        · cases h
        · next n hn =>
          split at h
          · cases h
          · next sr hsr =>
            have hnull : ver ≠ .null := by rintro rfl; exact hne rfl
            have hm : ∃ m, restore (J := J) n sr = .ok m := by
              have hb := restore_metadata (J := J) n sr
              unfold ResumeJson.build at h
              split at h
              · cases h
              split at h
              · cases h
              split at h
              · cases h
              · next hmeta =>
                rw [hmeta] at hb
                cases hr : restore (J := J) n sr with
                | error e => rw [hr] at hb; cases hb
                | ok m => exact ⟨m, rfl⟩
            obtain ⟨m, hm⟩ := hm
            refine ⟨m, ?_⟩
            cases ver with
            | null => exact absurd rfl hnull
            | _ => simp only [hn, hsr, hm]
  | _ => cases h

/-- Data that cannot be read is reported as a corrupted or an incompatible session. Partial: unless it is truncated
or damaged compressed data. -/
theorem C89_refused_partial (d : Envelope) (e : Exc J) (h : peek d = .error e) (h1 : d ≠ .truncated) (h2 : d ≠ .damaged) :
    e = .corrupted ∨ e = .incompatibleSession := by
  cases d with
  | badGzip => cases h; exact .inl rfl
  | truncated => exact absurd rfl h1
  | damaged => exact absurd rfl h2
  | badUtf8 => cases h; exact .inl rfl
  | badJson => cases h; exact .inl rfl
  | json v => exact peekJson_error h

/-- `plainbox run` offers the unfinished sessions with the same title and application, in the order of the repository,
and no bad session hides them. Partial: files that cannot be opened, and truncated or damaged ones. -/
theorem C89_run_partial (appId title : Str) {l : List Stored} (h : ∀ s ∈ l, Sound s) :
    ∃ found, resumeCandidates (J := J) appId title l = .ok found ∧ found.Sublist (l.map Stored.id) ∧
      ∀ i, i ∈ found ↔ ∃ s ∈ l, s.id = i ∧ ∃ m, Holds J s m ∧ m.appId = some appId ∧ m.title = some title ∧
        "incomplete".toList ∈ m.flags := by
  obtain ⟨h1, h2⟩ := scan_sound (J := J) (keep := fun m => decide (m.appId = some appId) &&
    (decide (m.title = some title) && m.flags.contains "incomplete".toList)) h
  have h3 := scan_sublist (J := J) (keep := fun m => decide (m.appId = some appId) &&
    (decide (m.title = some title) && m.flags.contains "incomplete".toList)) l
  unfold resumeCandidates
  generalize scan (J := J) _ l = r at *
  obtain ⟨found, e⟩ := r
  cases h1
  refine ⟨_, rfl, h3, fun i => ?_⟩
  rw [List.mem_map]
  constructor
  · rintro ⟨x, hx, rfl⟩
    obtain ⟨s, hs, hi, hh, hk⟩ := (h2 x).1 hx
    simp only [Bool.and_eq_true, decide_eq_true_eq, List.contains_iff_mem] at hk
    exact ⟨s, hs, hi, x.2, hh, hk⟩
  · rintro ⟨s, hs, hi, m, hh, hk⟩
    refine ⟨(i, m), (h2 (i, m)).2 ⟨s, hs, hi, hh, ?_⟩, rfl⟩
    simp only [Bool.and_eq_true, decide_eq_true_eq, List.contains_iff_mem]
    exact hk

/-- `get_resumable_sessions` yields the unfinished sessions of the application. Partial as above. -/
theorem C89_resume_partial (appId : Option Str) {l : List Stored} (h : ∀ s ∈ l, Sound s) :
    (resumable (J := J) appId l).2 = none ∧ ∀ i m, (i, m) ∈ (resumable (J := J) appId l).1 ↔
      ∃ s ∈ l, s.id = i ∧ Holds J s m ∧ m.appId = appId ∧ "incomplete".toList ∈ m.flags := by
  obtain ⟨h1, h2⟩ := scan_sound (J := J) (keep := fun m => decide (m.appId = appId) &&
    m.flags.contains "incomplete".toList) h
  refine ⟨h1, fun i m => ?_⟩
  rw [resumable, h2]
  simp only [Bool.and_eq_true, decide_eq_true_eq, List.contains_iff_mem]

/-- `get_old_sessions` yields the sessions of the application with one of the flags, or with no flag if that is
allowed. Partial as above. -/
theorem C89_old_partial (appId : Option Str) (fs : List Str) (allowNone : Bool) {l : List Stored}
    (h : ∀ s ∈ l, Sound s) :
    (oldSessions (J := J) appId fs allowNone l).2 = none ∧
    ∀ i m, (i, m) ∈ (oldSessions (J := J) appId fs allowNone l).1 ↔
      ∃ s ∈ l, s.id = i ∧ Holds J s m ∧ m.appId = appId ∧
        ((allowNone = true ∧ ∀ f, f ∉ m.flags) ∨ ∃ f ∈ m.flags, f ∈ fs) := by
  obtain ⟨h1, h2⟩ := scan_sound (J := J) (keep := fun m => decide (m.appId = appId) &&
    ((allowNone && m.flags.isEmpty) || m.flags.any fun f => fs.contains f)) h
  refine ⟨h1, fun i m => ?_⟩
  rw [oldSessions, h2]
  simp only [Bool.and_eq_true, Bool.or_eq_true, decide_eq_true_eq, List.isEmpty_iff, List.any_eq_true,
    List.contains_iff_mem, List.eq_nil_iff_forall_not_mem]

/-- The first session that cannot be read ends the list with its exception: the ones after it are not shown. -/
theorem C89_list_stops (pre post : List Stored) (s : Stored) (h : ∀ s ∈ pre, s.loaded = .empty ∨ ∃ m, Holds J s m) :
    (s.loaded = .oserror → listSessions (J := J) (pre ++ s :: post) = ((listSessions (J := J) pre).1, some .oserror)) ∧
    ∀ d e, s.loaded = .data d → peek (J := J) d = .error e →
      listSessions (J := J) (pre ++ s :: post) = ((listSessions (J := J) pre).1, some (.peek e)) := by
  induction pre with
  | nil =>
    refine ⟨fun hs => ?_, fun d e hs hp => ?_⟩
    · simp [listSessions, hs]
    · simp [listSessions, hs, hp]
  | cons x pre ih =>
    obtain ⟨i1, i2⟩ := ih fun y hy => h y (List.mem_cons_of_mem _ hy)
    rcases h x List.mem_cons_self with hl | ⟨m, d, hl, hp⟩
    · refine ⟨fun hs => ?_, fun d e hs hp => ?_⟩
      · simp [listSessions, hl, i1 hs]
      · simp [listSessions, hl, i2 d e hs hp]
    · refine ⟨fun hs => ?_, fun d e hs hp' => ?_⟩
      · simp [listSessions, hl, hp, i1 hs]
      · simp [listSessions, hl, hp, i2 d e hs hp']

/-- `plainbox session list` shows every session. Partial: only if each of them can be read or was not saved yet. -/
theorem C89_list_partial {l : List Stored} (h : ∀ s ∈ l, s.loaded = .empty ∨ ∃ m, Holds J s m) :
    (listSessions (J := J) l).2 = none ∧ (listSessions (J := J) l).1.map Prod.fst = l.map Stored.id ∧
      ∀ i m, (i, some m) ∈ (listSessions (J := J) l).1 ↔ ∃ s ∈ l, s.id = i ∧ Holds J s m := by
  induction l with
  | nil => simp [listSessions]
  | cons s l ih =>
    obtain ⟨i1, i2, i3⟩ := ih fun x hx => h x (List.mem_cons_of_mem _ hx)
    rcases h s List.mem_cons_self with hl | ⟨m, d, hl, hp⟩
    · have he : listSessions (J := J) (s :: l) = ((s.id, none) :: (listSessions (J := J) l).1, (listSessions l).2) := by
        simp [listSessions, hl]
      rw [he]
      refine ⟨i1, by simp [i2], fun i m => ?_⟩
      simp only [List.mem_cons, Prod.mk.injEq, reduceCtorEq, and_false, false_or]
      rw [i3]
      constructor
      · rintro ⟨t, ht, hx⟩; exact ⟨t, .inr ht, hx⟩
      · rintro ⟨t, rfl | ht, hi, d, hd, hx⟩
        · rw [hl] at hd; cases hd
        · exact ⟨t, ht, hi, d, hd, hx⟩
    · have he : listSessions (J := J) (s :: l) = ((s.id, some m) :: (listSessions (J := J) l).1, (listSessions l).2) := by
        simp [listSessions, hl, hp]
      rw [he]
      refine ⟨i1, by simp [i2], fun i m' => ?_⟩
      simp only [List.mem_cons, Prod.mk.injEq, Option.some.injEq]
      rw [i3]
      constructor
      · rintro (⟨rfl, rfl⟩ | ⟨t, ht, hx⟩)
        · exact ⟨s, .inl rfl, rfl, d, hl, hp⟩
        · exact ⟨t, .inr ht, hx⟩
      · rintro ⟨t, rfl | ht, hi, d', hd, hx⟩
        · rw [hl] at hd
          cases hd
          rw [hp] at hx
          cases hx
          exact .inl ⟨hi.symm, rfl⟩
        · exact .inr ⟨t, ht, hi, d', hd, hx⟩

/-- `plainbox session remove` removes the sessions that were named and no other. -/
theorem C89_remove (ids : List Str) {l : List Stored} (h : (l.map Stored.id).Nodup) :
    (removeSessions ids l).1 = l.filter (fun s => decide (s.id ∉ ids)) ∧
      (removeSessions ids l).2.map Prod.fst = ids ∧
      (ids.Nodup → (removeSessions ids l).2 = ids.map fun i => (i, decide (i ∈ l.map Stored.id))) := by
  induction ids generalizing l with
  | nil => simp [removeSessions]
  | cons i ids ih =>
    unfold removeSessions
    split
    · next hf =>
      obtain ⟨h1, h2, h3⟩ := ih h
      have hno : ∀ s ∈ l, s.id ≠ i := fun s hs => by simpa using List.find?_eq_none.1 hf s hs
      refine ⟨?_, by simp [h2], fun hn => ?_⟩
      · rw [h1]
        apply List.filter_congr
        intro s hs
        simp [hno s hs]
      · rw [h3 (List.nodup_cons.1 hn).2]
        simpa using hno
    · next hf =>
      have hsub : (l.eraseP fun s => decide (s.id = i)).Sublist l := List.eraseP_sublist
      have he : (l.eraseP fun s => decide (s.id = i)) = l.filter fun s => decide (s.id ≠ i) := by
        clear ih hf hsub
        induction l with
        | nil => rfl
        | cons s l ihl =>
          simp only [List.map_cons, List.nodup_cons] at h
          by_cases hs : s.id = i
          · rw [List.eraseP_cons_of_pos (by simpa using hs), List.filter_cons_of_neg (by simp [hs])]
            rw [List.filter_eq_self.2]
            intro t ht
            have : t.id ≠ i := by
              rintro rfl
              exact h.1 (hs ▸ List.mem_map.2 ⟨t, ht, rfl⟩)
            simpa using this
          · rw [List.eraseP_cons_of_neg (by simpa using hs), List.filter_cons_of_pos (by simp [hs]), ihl h.2]
      obtain ⟨h1, h2, h3⟩ := ih (l := l.eraseP fun s => decide (s.id = i)) (h.sublist (hsub.map _))
      dsimp only
      refine ⟨?_, by simp [h2], fun hn => ?_⟩
      · rw [h1, he, List.filter_filter]
        apply List.filter_congr
        intro s _
        by_cases a : s.id = i <;> by_cases b : s.id ∈ ids <;> simp [a, b]
      · obtain ⟨hi, hn⟩ := List.nodup_cons.1 hn
        rw [h3 hn, List.map_cons]
        have hin : i ∈ l.map Stored.id :=
          List.mem_map.2 ⟨_, List.mem_of_find?_eq_some hf, by simpa using List.find?_some hf⟩
        congr 1
        · simp only [hin, decide_true]
        · apply List.map_congr_left
          intro j hj
          have hne : j ≠ i := by rintro rfl; exact hi hj
          rw [he]
          congr 1
          rw [decide_eq_decide]
          simp only [List.mem_map, List.mem_filter, decide_eq_true_eq]
          constructor
          · rintro ⟨a, ⟨ha, -⟩, rfl⟩; exact ⟨a, ha, rfl⟩
          · rintro ⟨a, ha, rfl⟩; exact ⟨a, ⟨ha, hne⟩, rfl⟩

end

/-! ## Disagreements -/

section

/-- An unfinished session of the application `app`. -/
def exMeta : Meta := ⟨some "plan".toList, ["incomplete".toList, "submitted".toList], some "a::job".toList,
  some [104, 105], some "app".toList⟩

/-- It, as saved. -/
def exDoc : Json := writeDoc List.reverse 6 (.obj []) (.obj []) (.arr []) (.arr []) exMeta

/-- A repository: a file cut short (a full disk, a power failure) before two good sessions. -/
def exStored : List Stored := [⟨"s1".toList, .data (.json exDoc)⟩, ⟨"s2".toList, .data .truncated⟩,
  ⟨"s3".toList, .data (.json exDoc)⟩]

/-- The claim for `plainbox run`: a session it cannot read never hides one it can. -/
def Offers (l : List Stored) : Prop :=
  ∃ found, resumeCandidates (J := Nat) "app".toList "plan".toList l = .ok found ∧
    ∀ s ∈ l, ∀ m, Holds Nat s m → m.appId = some "app".toList → m.title = some "plan".toList →
      "incomplete".toList ∈ m.flags → s.id ∈ found

/-- It does: one truncated file ends the command with `EOFError`. -/
theorem C89_truncated_violated : ¬ ∀ l, Offers l := by
  intro h
  obtain ⟨found, hf, -⟩ := h exStored
  have : resumeCandidates (J := Nat) "app".toList "plan".toList exStored = .error (.peek .eofError) := by
    decide +kernel
  rw [this] at hf
  cases hf

/-- So does one whose compressed data are damaged, with the exception of the decompressor. -/
theorem C89_damaged_violated : ¬ ∀ l, (∀ s ∈ l, s.loaded ≠ .data .truncated ∧ s.loaded ≠ .oserror) → Offers l := by
  intro h
  obtain ⟨found, hf, -⟩ := h [⟨"s1".toList, .data (.json exDoc)⟩, ⟨"s2".toList, .data .damaged⟩] (by
    intro s hs
    simp only [List.mem_cons, List.not_mem_nil, or_false] at hs
    rcases hs with rfl | rfl <;> simp)
  have : resumeCandidates (J := Nat) "app".toList "plan".toList
      [⟨"s1".toList, .data (.json exDoc)⟩, ⟨"s2".toList, .data .damaged⟩] = .error (.peek .zlibError) := by decide +kernel
  rw [this] at hf
  cases hf

/-- So does a session that cannot be opened. -/
theorem C89_unreadable_violated : ¬ ∀ l, (∀ s ∈ l, s.loaded ≠ .data .truncated) → Offers l := by
  intro h
  obtain ⟨found, hf, -⟩ := h [⟨"s1".toList, .data (.json exDoc)⟩, ⟨"s2".toList, .oserror⟩] (by
    intro s hs
    simp only [List.mem_cons, List.not_mem_nil, or_false] at hs
    rcases hs with rfl | rfl <;> simp)
  have : resumeCandidates (J := Nat) "app".toList "plan".toList
      [⟨"s1".toList, .data (.json exDoc)⟩, ⟨"s2".toList, .oserror⟩] = .error .oserror := by decide +kernel
  rw [this] at hf
  cases hf

/-- The generator of the assistant yields the sessions before the truncated one, then raises. -/
theorem C89_resume_violated : ¬ ∀ (l : List Stored) (s : Stored) (m : Meta), s ∈ l → Holds Nat s m →
    m.appId = some "app".toList → "incomplete".toList ∈ m.flags →
    (s.id, m) ∈ (resumable (J := Nat) (some "app".toList) l).1 := by
  intro h
  have hp : peek (J := Nat) (.json exDoc) = .ok { exMeta with flags := exMeta.flags.reverse } := by decide +kernel
  have := h exStored ⟨"s3".toList, .data (.json exDoc)⟩ _ (by simp [exStored]) ⟨_, rfl, hp⟩ rfl (by simp [exMeta])
  have he : (resumable (J := Nat) (some "app".toList) exStored).1 =
    [("s1".toList, { exMeta with flags := exMeta.flags.reverse })] := by decide +kernel
  rw [he] at this
  simp at this

/-- `plainbox session list` stops at a corrupted session, although such a session is a reported error everywhere else. -/
theorem C89_list_violated : ¬ ∀ l : List Stored, (∀ s ∈ l, Sound s) →
    (listSessions (J := Nat) l).1.map Prod.fst = l.map Stored.id := by
  intro h
  have := h [⟨"s1".toList, .data .badJson⟩, ⟨"s2".toList, .data (.json exDoc)⟩] (by
    intro s hs
    simp only [List.mem_cons, List.not_mem_nil, or_false] at hs
    rcases hs with rfl | rfl <;> exact ⟨nofun, nofun, nofun⟩)
  exact absurd this (by decide +kernel)

end

/-! ## The hypotheses are met -/

example : peek (J := Nat) (.json exDoc) = .ok { exMeta with flags := exMeta.flags.reverse } := by decide +kernel
example : ∃ m', peek (J := Nat) (.json exDoc) = .ok m' ∧ Same m' (kept 6 exMeta) ∧ (6 = 6 → Same m' exMeta) :=
  C89_saved (by simp) 6 (by decide) _ _ _ _ _
/-- Format 1 keeps neither the data of the application nor its name. -/
example : peek (J := Nat) (.json (writeDoc id 1 (.obj []) (.obj []) (.arr []) (.arr []) exMeta)) =
    .ok { exMeta with blob := none, appId := none } := by decide +kernel
example : ∀ s ∈ [(⟨"s1".toList, .data .badJson⟩ : Stored), ⟨"s2".toList, .data (.json exDoc)⟩, ⟨"s3".toList, .empty⟩],
    Sound s := by
  intro s hs
  simp only [List.mem_cons, List.not_mem_nil, or_false] at hs
  rcases hs with rfl | rfl | rfl <;> exact ⟨nofun, nofun, nofun⟩
example : resumeCandidates (J := Nat) "app".toList "plan".toList [⟨"s1".toList, .data .badJson⟩,
    ⟨"s2".toList, .data (.json exDoc)⟩, ⟨"s3".toList, .empty⟩] = .ok ["s2".toList] := by decide +kernel
example : (oldSessions (J := Nat) (some "app".toList) ["submitted".toList] false
    [⟨"s1".toList, .data .badGzip⟩, ⟨"s2".toList, .data (.json exDoc)⟩]).1.map Prod.fst = ["s2".toList] := by
  decide +kernel
example : (oldSessions (J := Nat) (some "app".toList) ["bootstrapping".toList] true
    [⟨"s2".toList, .data (.json exDoc)⟩]).1 = [] := by decide +kernel
example : peek (J := Nat) (.json (.obj [("version".toList, .int 7)])) = .error .incompatibleSession := by decide +kernel
example : peek (J := Nat) (.json (.obj [("session".toList, .obj [])])) = .error .corrupted := by decide +kernel
/-- Naming a session that does not exist is printed; the others are removed, and the command succeeds. -/
example : (removeSessions ["s9".toList, "s1".toList] exStored).2 = [("s9".toList, false), ("s1".toList, true)] ∧
    ((removeSessions ["s9".toList, "s1".toList] exStored).1.map Stored.id) = ["s2".toList, "s3".toList] := by
  decide +kernel
example : (exStored.map Stored.id).Nodup := by decide +kernel

/-- The session resumed here has a job that another one generated. -/
example : (∃ s, ResumeJson.resume ResumeJson.yCfg ResumeJson.ySem (fun l => l.dedup) [ResumeJson.yr]
      (.json (ResumeJson.yDoc (.int 6) [(['g'], .str ['g']), (['r'], .str ['r'])]
        [(['r'], .arr [ResumeJson.yResult [[103]]])] [.str ['g']])) = .ok s) ∧
    peek (J := Nat) (.json (ResumeJson.yDoc (.int 6) [(['g'], .str ['g']), (['r'], .str ['r'])]
        [(['r'], .arr [ResumeJson.yResult [[103]]])] [.str ['g']])) = .ok fresh := by
  refine ⟨?_, by decide +kernel⟩
  have h : ResumeJson.yRun [ResumeJson.yr] ResumeJson.yCfg (ResumeJson.yDoc (.int 6) [(['g'], .str ['g']),
    (['r'], .str ['r'])] [(['r'], .arr [ResumeJson.yResult [[103]]])] [.str ['g']]) =
    .ok ([['r'], ['g']], [['g']]) := by decide +kernel
  unfold ResumeJson.yRun at h
  split at h
  · cases h
  · next s hs => exact ⟨s, hs⟩

end Verif.Peek
