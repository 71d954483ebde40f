import Verif.Props.ResumeJson
import Mathlib.Data.List.Dedup

/-!
# C23: which documents are accepted, and what of a comment is shown

* `C23_result_exact`: which results are read, and as what; `C23_metadata_exact`: which metadata.
* `C23_accepted`: an accepted document is well-formed in every part.
* `C23_unread`: a result without outcome is replayed without its log.
* `C19_shown`: escape sequences in comments, and only they, are left out.
-/

set_option linter.unusedSectionVars false

namespace Verif.ResumeJson

open Verif.Session Verif.Suspend

attribute [-instance] List.instBEq

variable {J E R : Type} [DecidableEq J] [DecidableEq E] [DecidableEq R]

/-! ## Specification of documents -/

/-- The value is an object that has the key with the given value. -/
def Has (o : Json) (k : String) (v : Json) : Prop := ∃ l, o = .obj l ∧ l.lookup k.toList = some v

/-- Text or `null`. -/
inductive IsText : Json → Option Str → Prop
  | null : IsText .null none
  | text (s : Str) : IsText (.str s) (some s)

/-- An integer or `null`; a Boolean counts as 0 or 1. -/
inductive IsInt : Json → Option Int → Prop
  | null : IsInt .null none
  | int (n : Int) : IsInt (.int n) (some n)
  | yes : IsInt (.bool true) (some 1)
  | no : IsInt (.bool false) (some 0)

/-- A float or `null`. -/
inductive IsFloat : Json → Option Num → Prop
  | null : IsFloat .null none
  | float (x : Fl) : IsFloat (.float x) (some (.fl x))

/-- An outcome. -/
inductive IsOutcome : Json → Outcome → Prop
  | none : IsOutcome .null .none
  | pass : IsOutcome (.str "pass".toList) .pass
  | fail : IsOutcome (.str "fail".toList) .fail
  | skip : IsOutcome (.str "skip".toList) .skip
  | notSupported : IsOutcome (.str "not-supported".toList) .notSupported
  | notImplemented : IsOutcome (.str "not-implemented".toList) .notImplemented
  | undecided : IsOutcome (.str "undecided".toList) .undecided
  | crash : IsOutcome (.str "crash".toList) .crash

/-- A record: a delay that is not negative, a stream and the data in base64. -/
inductive IsRec : Json → LogRec → Prop
  | mk (x : Fl) (t : Str) (bs : List (Fin 256)) (stream : String) (more : List Json)
      (h1 : x.neg = false) (h2 : stream = "stdout" ∨ stream = "stderr") (h3 : IOLog.b64dec t = some bs) :
      IsRec (.arr (.float x :: .str stream.toList :: .str t :: more)) ⟨.fl x, stream.toList, bs⟩

/-- Records, one by one. -/
inductive AreRecs : List Json → List LogRec → Prop
  | nil : AreRecs [] []
  | cons {v r vs rs} : IsRec v r → AreRecs vs rs → AreRecs (v :: vs) (r :: rs)

/-- A result with its log inside. -/
structure IsMem (o : Json) (r : JRes) : Prop where
  outcome : ∃ v, Has o "outcome" v ∧ IsOutcome v r.outcome
  comments : ∃ v, Has o "comments" v ∧ IsText v r.comments
  returnCode : ∃ v, Has o "return_code" v ∧ IsInt v r.returnCode
  duration : ∃ v, Has o "execution_duration" v ∧ IsFloat v r.duration
  log : ∃ vs rs, Has o "io_log" (.arr vs) ∧ AreRecs vs rs ∧ r.log = .mem rs

/-- A result with its log in a file. -/
structure IsDisk (o : Json) (r : JRes) : Prop where
  outcome : ∃ v, Has o "outcome" v ∧ IsOutcome v r.outcome
  comments : ∃ v, Has o "comments" v ∧ IsText v r.comments
  returnCode : ∃ v, Has o "return_code" v ∧ IsInt v r.returnCode
  duration : ∃ v, Has o "execution_duration" v ∧ IsFloat v r.duration
  log : ∃ t name, Has o "io_log_filename" (.str t) ∧ r.log = .disk name

/-- The metadata. -/
structure IsMetadata (n : Nat) (m : Json) : Prop where
  title : ∃ v t, Has m "title" v ∧ IsText v t
  flags : ∃ fs : List Str, Has m "flags" (.arr (fs.map .str))
  running : ∃ v t, Has m "running_job_name" v ∧ IsText v t
  blob : 2 ≤ n → ∃ v t, Has m "app_blob" v ∧ IsText v t ∧ ∀ b, t = some b → (IOLog.b64dec b).isSome
  app : 3 ≤ n → ∃ v t, Has m "app_id" v ∧ IsText v t

/-! ## Reading the parts -/

theorem validateKey_iff (o w : Json) (k : String) (ty : PyType) (nl : Bool) :
    validateKey (J := J) o k.toList ty nl = .ok w ↔
      Has o k w ∧ ((w = .null ∧ nl = true) ∨ isInstance w ty = true) := by
  unfold validateKey item Has
  cases o with
  | obj l =>
    simp only [Json.obj.injEq, exists_eq_left']
    cases hl : l.lookup k.toList with
    | none => simp
    | some v =>
      simp only [Option.some.injEq]
      unfold validate
      cases v <;> simp only <;> (try split) <;>
        first
        | (constructor
           · intro h; cases h; simp_all
           · rintro ⟨rfl, h⟩; simp_all)
        | (constructor
           · intro h; cases h
           · rintro ⟨rfl, h⟩; simp_all [isInstance])
  | _ => simp

theorem text_iff (w : Json) : ((w = .null ∧ true = true) ∨ isInstance w .str = true) ↔ IsText w (strOf w) := by
  cases w <;> simp [isInstance, strOf] <;> first | (intro h; cases h) | constructor

theorem text_eq {w : Json} {t : Option Str} (h : IsText w t) : strOf w = t := by cases h <;> rfl

theorem int_iff (w : Json) : ((w = .null ∧ true = true) ∨ isInstance w .int = true) ↔ IsInt w (intOf w) := by
  cases w with
  | bool b => cases b <;> simp [isInstance, intOf] <;> constructor
  | null => exact ⟨fun _ => .null, fun _ => .inl ⟨rfl, rfl⟩⟩
  | int n => exact ⟨fun _ => .int n, fun _ => .inr rfl⟩
  | _ => simp [isInstance]; intro h; cases h

theorem int_eq {w : Json} {t : Option Int} (h : IsInt w t) : intOf w = t := by cases h <;> rfl

theorem float_iff (w : Json) :
    ((w = .null ∧ true = true) ∨ isInstance w .float = true) ↔ IsFloat w (durationOf w) := by
  cases w <;> simp [isInstance, durationOf] <;> first | (intro h; cases h) | constructor

theorem float_eq {w : Json} {t : Option Num} (h : IsFloat w t) : durationOf w = t := by cases h <;> rfl

theorem outcome_iff (o : Json) (oc : Outcome) :
    buildOutcome (J := J) o = .ok oc ↔ ∃ v, Has o "outcome" v ∧ IsOutcome v oc := by
  unfold buildOutcome
  cases hv : validateKey (J := J) o "outcome".toList .str true with
  | error e =>
    simp only [reduceCtorEq, false_iff]
    rintro ⟨v, h1, h2⟩
    have := (validateKey_iff (J := J) o v "outcome" .str true).2 ⟨h1, by cases h2 <;> simp [isInstance]⟩
    rw [hv] at this; cases this
  | ok w =>
    have hw := (validateKey_iff (J := J) o w "outcome" .str true).1 hv
    have hu : ∀ v, Has o "outcome" v → v = w := by
      rintro v ⟨l, rfl, h⟩
      obtain ⟨⟨l', e, h'⟩, -⟩ := hw
      cases e
      rw [h] at h'; cases h'; rfl
    have key : (match strOf w with
        | none => (.ok .none : Except (Exc J) Outcome)
        | some s => match outcomeNames.lookup s with
          | some oc => .ok oc
          | none => .error .corrupted) = .ok oc ↔ IsOutcome w oc := by
      have ht := (text_iff w).1 hw.2
      generalize strOf w = t at ht
      cases ht with
      | null => constructor
                · intro h; cases h; constructor
                · intro h; cases h; rfl
      | text s =>
        dsimp only
        constructor
        · intro h
          split at h
          · rename_i oc' hl
            cases h
            simp only [outcomeNames, List.lookup_cons] at hl
            repeat' split at hl
            all_goals first
              | (rename_i hb; cases hl
                 have := eq_of_beq hb
                 subst this
                 constructor)
              | cases hl
          · cases h
        · intro h
          cases h <;> rfl
    refine Iff.trans (b := IsOutcome w oc) key ?_
    exact ⟨fun h => ⟨w, hw.1, h⟩, fun ⟨v, h1, h2⟩ => hu v h1 ▸ h2⟩

theorem validateIdx_iff (l : List Json) (i : Nat) (ty : PyType) (w : Json) :
    validateIdx (J := J) l i ty = .ok w ↔ l[i]? = some w ∧ isInstance w ty = true := by
  unfold validateIdx validate
  cases l[i]? with
  | none => simp
  | some v =>
    simp only [Option.some.injEq]
    cases v <;> simp only <;> (try split) <;>
      first
      | (constructor
         · intro h; cases h; simp_all
         · rintro ⟨rfl, h⟩; simp_all)
      | (constructor
         · intro h; cases h
         · rintro ⟨rfl, h⟩; simp_all [isInstance])

theorem rec_iff (v : Json) (r : LogRec) : buildRec (J := J) v = .ok r ↔ IsRec v r := by
  constructor
  · intro h
    unfold buildRec at h
    split at h
    · cases h
    rename_i w hw
    have := validate_eq hw
    subst this
    split at h
    · cases h
    rename_i d hd
    obtain ⟨d1, d2⟩ := (validateIdx_iff _ _ _ _).1 hd
    split at h
    · rename_i x
      split at h
      · cases h
      rename_i hneg
      split at h
      · cases h
      rename_i st hst
      obtain ⟨s1, s2⟩ := (validateIdx_iff _ _ _ _).1 hst
      dsimp only at h
      split at h
      · cases h
      rename_i hstream
      split at h
      · cases h
      rename_i data hdata
      obtain ⟨t1, t2⟩ := (validateIdx_iff _ _ _ _).1 hdata
      split at h
      · cases h
      rename_i bs hbs
      cases h
      cases w <;> simp only [listOf, List.getElem?_nil, reduceCtorEq] at d1 s1 t1
      rename_i l
      cases st <;> simp [isInstance] at s2
      cases data <;> simp [isInstance] at t2
      rename_i st t
      simp only [strOf, Option.getD_some] at hstream hbs ⊢
      match l, d1, s1, t1 with
      | a :: b :: c :: more, d1, s1, t1 =>
        simp at d1 s1 t1
        subst d1 s1 t1
        have : st = "stdout".toList ∨ st = "stderr".toList := by
          by_cases h : st = "stdout".toList
          · exact .inl h
          · exact .inr (Decidable.not_not.1 fun h' => hstream ⟨h, h'⟩)
        rcases this with rfl | rfl
        · exact .mk x t bs "stdout" more (by simpa using hneg) (.inl rfl) hbs
        · exact .mk x t bs "stderr" more (by simpa using hneg) (.inr rfl) hbs
    · cases h
  · intro h
    cases h with
    | mk x t bs stream more h1 h2 h3 =>
      have hst : ¬ (stream.toList ≠ "stdout".toList ∧ stream.toList ≠ "stderr".toList) := by
        rcases h2 with rfl | rfl
        · exact fun h => h.1 rfl
        · exact fun h => h.2 rfl
      have e1 : validateIdx (J := J) (.float x :: .str stream.toList :: .str t :: more) 0 .float = .ok (.float x) := rfl
      have e2 : validateIdx (J := J) (.float x :: .str stream.toList :: .str t :: more) 1 .str =
        .ok (.str stream.toList) := rfl
      have e3 : validateIdx (J := J) (.float x :: .str stream.toList :: .str t :: more) 2 .str =
        .ok (.str t) := rfl
      have e0 : validate (J := J) (.arr (.float x :: .str stream.toList :: .str t :: more)) .list false =
        .ok (.arr (.float x :: .str stream.toList :: .str t :: more)) := rfl
      simp only [buildRec, e0, listOf, e1, e2, e3, strOf, Option.getD_some, h1, h3, Bool.false_eq_true, if_false]
      rw [if_neg hst]

theorem recs_iff (vs : List Json) (rs : List LogRec) : buildRecs (J := J) vs = .ok rs ↔ AreRecs vs rs := by
  induction vs generalizing rs with
  | nil =>
    constructor
    · intro h; cases h; constructor
    · intro h; cases h; rfl
  | cons v vs ih =>
    constructor
    · intro h
      unfold buildRecs at h
      split at h
      · cases h
      rename_i r hr
      split at h
      · cases h
      rename_i rs' hrs
      cases h
      exact .cons ((rec_iff v r).1 hr) ((ih rs').1 hrs)
    · intro h
      cases h with
      | cons h1 h2 => simp only [buildRecs, (rec_iff (J := J) v _).2 h1, (ih _).2 h2]

theorem key_text (o v : Json) (k : String) :
    validateKey (J := J) o k.toList .str true = .ok v ↔ Has o k v ∧ IsText v (strOf v) := by
  rw [validateKey_iff]
  exact and_congr_right fun _ => text_iff v

theorem key_int (o v : Json) (k : String) :
    validateKey (J := J) o k.toList .int true = .ok v ↔ Has o k v ∧ IsInt v (intOf v) := by
  rw [validateKey_iff]
  exact and_congr_right fun _ => int_iff v

theorem key_float (o v : Json) (k : String) :
    validateKey (J := J) o k.toList .float true = .ok v ↔ Has o k v ∧ IsFloat v (durationOf v) := by
  rw [validateKey_iff]
  exact and_congr_right fun _ => float_iff v

theorem key_list (o v : Json) (k : String) :
    validateKey (J := J) o k.toList .list false = .ok v ↔ ∃ l, v = .arr l ∧ Has o k (.arr l) := by
  rw [validateKey_iff]
  constructor
  · rintro ⟨h1, h2⟩
    cases v <;> simp [isInstance] at h2
    exact ⟨_, rfl, h1⟩
  · rintro ⟨l, rfl, h⟩
    exact ⟨h, .inr rfl⟩

/-- **C23, results**: a result that holds its log is read exactly if it is an object with an outcome (`null`
or one of the seven names), comments (text or `null`), a return code (integer or `null`), a duration
(float or `null`) and a list of records, each with a delay that is not negative, one of the two streams and
base64 data; and it is read as these values. -/
theorem C23_result_exact (c : Cfg J R) (n : Nat) (o : Json) (r : JRes)
    (h : (objOf o).lookup "io_log_filename".toList = none) : buildRes c n o = .ok r ↔ IsMem o r := by
  constructor
  · intro hb
    unfold buildRes at hb
    split at hb
    · cases hb
    rename_i oc hoc
    split at hb
    · cases hb
    rename_i cm hcm
    split at hb
    · cases hb
    rename_i rc hrc
    split at hb
    · cases hb
    rename_i du hdu
    dsimp only at hb
    rw [if_neg (by rw [h]; simp)] at hb
    split at hb
    · cases hb
    rename_i l hl
    split at hb
    · cases hb
    rename_i rs hrs
    cases hb
    obtain ⟨l', rfl, hl'⟩ := (key_list _ _ _).1 hl
    have h1 := (outcome_iff o oc).1 hoc
    have h2 := (key_text o cm "comments").1 hcm
    have h3 := (key_int o rc "return_code").1 hrc
    have h4 := (key_float o du "execution_duration").1 hdu
    exact ⟨h1, ⟨cm, h2.1, h2.2⟩, ⟨rc, h3.1, h3.2⟩, ⟨du, h4.1, h4.2⟩, l', rs, hl', (recs_iff _ _).1 hrs, rfl⟩
  · rintro ⟨h1, ⟨cm, h2, h2'⟩, ⟨rc, h3, h3'⟩, ⟨du, h4, h4'⟩, l, rs, h5, h6, h7⟩
    have e2 := text_eq h2'
    have e3 := int_eq h3'
    have e4 := float_eq h4'
    have f1 := (outcome_iff (J := J) o r.outcome).2 h1
    have f2 := (key_text (J := J) o cm "comments").2 ⟨h2, by rw [e2]; exact h2'⟩
    have f3 := (key_int (J := J) o rc "return_code").2 ⟨h3, by rw [e3]; exact h3'⟩
    have f4 := (key_float (J := J) o du "execution_duration").2 ⟨h4, by rw [e4]; exact h4'⟩
    have f5 := (key_list (J := J) o _ "io_log").2 ⟨l, rfl, h5⟩
    have f6 := (recs_iff (J := J) l rs).2 h6
    unfold buildRes
    simp only [f1, f2, f3, f4, f5]
    rw [if_neg (by rw [h]; simp)]
    simp only [listOf, f6, e2, e3, e4]
    cases r
    simp only at h7
    rw [h7]

/-- Results that are read with their log in a file. -/
theorem result_disk (c : Cfg J R) (n : Nat) (o : Json) (r : JRes)
    (h : (objOf o).lookup "io_log_filename".toList ≠ none) (hb : buildRes c n o = .ok r) : IsDisk o r := by
  unfold buildRes at hb
  split at hb
  · cases hb
  rename_i oc hoc
  split at hb
  · cases hb
  rename_i cm hcm
  split at hb
  · cases hb
  rename_i rc hrc
  split at hb
  · cases hb
  rename_i du hdu
  dsimp only at hb
  rw [if_pos (by rw [Option.isSome_iff_ne_none]; exact h)] at hb
  split at hb
  · cases hb
  rename_i nm hnm
  split at hb
  · cases hb
  rename_i nm' hnm'
  cases hb
  have h1 := (outcome_iff o oc).1 hoc
  have h2 := (key_text o cm "comments").1 hcm
  have h3 := (key_int o rc "return_code").1 hrc
  have h4 := (key_float o du "execution_duration").1 hdu
  refine ⟨h1, ⟨cm, h2.1, h2.2⟩, ⟨rc, h3.1, h3.2⟩, ⟨du, h4.1, h4.2⟩, ?_⟩
  unfold loadFilename at hnm
  split at hnm
  · cases hnm
  rename_i w hw
  obtain ⟨w1, w2⟩ := (validateKey_iff (J := J) o w "io_log_filename" .str false).1 hw
  cases w <;> simp [isInstance] at w2
  exact ⟨_, _, w1, rfl⟩

theorem strings_iff (vs : List Json) : ∀ l, strings (J := J) vs = .ok l ↔ vs = l.map .str := by
  induction vs with
  | nil => intro l; cases l <;> simp [strings]
  | cons v vs ih =>
    intro l
    unfold strings
    cases v <;> simp only [validate, isInstance, Bool.false_eq_true, if_false, if_true, reduceCtorEq]
    case str s =>
      cases hs : strings (J := J) vs with
      | error e =>
        simp only [reduceCtorEq, false_iff]
        intro h
        cases l with
        | nil => cases h
        | cons a l =>
          simp only [List.map_cons, List.cons.injEq] at h
          rw [(ih l).2 h.2] at hs; cases hs
      | ok l' =>
        simp only [strOf, Option.getD_some, Except.ok.injEq]
        have := (ih l').1 hs
        constructor
        · rintro rfl; rw [this]; rfl
        · intro h
          cases l with
          | nil => cases h
          | cons a l =>
            simp only [List.map_cons, List.cons.injEq, Json.str.injEq] at h
            have h2 := (ih l).2 h.2
            rw [hs] at h2; cases h2
            rw [h.1]
    all_goals
      simp only [false_iff]
      intro h
      cases l <;> simp at h

/-- **C23, metadata**: the metadata is accepted exactly if it is an object with a title, flags, the name of
the running job and, depending on the version, base64 data and a name of the application. -/
theorem C23_metadata_exact (n : Nat) (sr : Json) :
    metadata (J := J) n sr = .ok () ↔ ∃ l, Has sr "metadata" (.obj l) ∧ IsMetadata n (.obj l) := by
  constructor
  · intro h
    unfold metadata at h
    split at h
    · cases h
    rename_i m hm
    obtain ⟨m1, m2⟩ := (validateKey_iff (J := J) sr m "metadata" .dict false).1 hm
    cases m <;> simp [isInstance] at m2
    rename_i l
    refine ⟨l, m1, ?_⟩
    split at h
    · cases h
    rename_i ti hti
    split at h
    · cases h
    rename_i fl hfl
    split at h
    · cases h
    rename_i fs hfs
    split at h
    · cases h
    rename_i ru hru
    have h1 := (key_text _ ti "title").1 hti
    obtain ⟨fl', rfl, h2⟩ := (key_list _ _ _).1 hfl
    have h3 := (key_text _ ru "running_job_name").1 hru
    have h4 := (strings_iff fl' fs).1 hfs
    rw [h4] at h2
    by_cases v2 : n < 2
    · exact ⟨⟨ti, _, h1⟩, ⟨fs, h2⟩, ⟨ru, _, h3⟩, fun _ => by omega, fun _ => by omega⟩
    rw [if_neg v2] at h
    split at h
    · cases h
    rename_i bl hbl
    have h5 := (key_text _ bl "app_blob").1 hbl
    have hrest : (∀ b, strOf bl = some b → (IOLog.b64dec b).isSome = true) ∧
        (if n < 3 then .ok () else
          match validateKey (J := J) (.obj l) "app_id".toList .str true with
          | .error e => .error e
          | .ok _ => .ok () : Except (Exc J) Unit) = .ok () := by
      dsimp only at h
      cases hbs : strOf bl with
      | none =>
        rw [hbs] at h
        exact ⟨by simp, h⟩
      | some b =>
        rw [hbs] at h
        dsimp only at h
        by_cases hd : (IOLog.b64dec b).isSome = true
        · rw [if_pos hd] at h
          exact ⟨by intro b' e; cases e; exact hd, h⟩
        · rw [if_neg hd] at h; cases h
    obtain ⟨hblob, h⟩ := hrest
    by_cases v3 : n < 3
    · exact ⟨⟨ti, _, h1⟩, ⟨fs, h2⟩, ⟨ru, _, h3⟩, fun _ => ⟨bl, _, h5.1, h5.2, hblob⟩, fun _ => by omega⟩
    rw [if_neg v3] at h
    split at h
    · cases h
    rename_i ap hap
    have h6 := (key_text _ ap "app_id").1 hap
    exact ⟨⟨ti, _, h1⟩, ⟨fs, h2⟩, ⟨ru, _, h3⟩, fun _ => ⟨bl, _, h5.1, h5.2, hblob⟩, fun _ => ⟨ap, _, h6⟩⟩
  · rintro ⟨l, hl, ⟨ti, t, h1, h1'⟩, ⟨fs, h2⟩, ⟨ru, t3, h3, h3'⟩, h5, h6⟩
    have f0 := (validateKey_iff (J := J) sr _ "metadata" .dict false).2 ⟨hl, .inr rfl⟩
    have f1 := (key_text (J := J) _ ti "title").2 ⟨h1, by rw [text_eq h1']; exact h1'⟩
    have f2 := (key_list (J := J) _ _ "flags").2 ⟨_, rfl, h2⟩
    have f3 := (key_text (J := J) _ ru "running_job_name").2 ⟨h3, by rw [text_eq h3']; exact h3'⟩
    have f4 := (strings_iff (J := J) (fs.map .str) fs).2 rfl
    unfold metadata
    simp only [f0, f1, f2, f3, listOf, f4]
    by_cases v2 : n < 2
    · rw [if_pos v2]
    rw [if_neg v2]
    obtain ⟨bl, t5, h5, h5', hb⟩ := h5 (by omega)
    have f5 := (key_text (J := J) _ bl "app_blob").2 ⟨h5, by rw [text_eq h5']; exact h5'⟩
    simp only [f5]
    rw [if_pos (by
      cases h5' with
      | null => rfl
      | text s => exact hb s rfl)]
    by_cases v3 : n < 3
    · rw [if_pos v3]
    rw [if_neg v3]
    obtain ⟨ap, t6, h6, h6'⟩ := h6 (by omega)
    have f6 := (key_text (J := J) _ ap "app_id").2 ⟨h6, by rw [text_eq h6']; exact h6'⟩
    simp only [f6]

/-! ## Accepted documents -/

/-- What the document says about a job id fits the jobs that can exist. -/
def Fits (c : Cfg J R) (sem : Sem J Str E R) (U : List J) (jobs results : Json) (i : Str) : Prop :=
  (∃ ck j, (objOf jobs).lookup i = some (.str ck) ∧ j ∈ U ∧ sem.id j = i ∧
    (c.ignoreChecksums = true ∨ c.cks j = ck)) ∧
  ∀ x, (objOf results).lookup i = some x → ∃ rs, x = .arr rs ∧ ∀ v ∈ rs, ∃ r, IsMem v r ∨ IsDisk v r

theorem buildAll_well (c : Cfg J R) (n : Nat) : ∀ (vs : List Json) (rs : List JRes),
    buildAll c n vs = .ok rs → ∀ v ∈ vs, ∃ r, IsMem v r ∨ IsDisk v r := by
  intro vs
  induction vs with
  | nil => intro _ _ v hv; cases hv
  | cons w vs ih =>
    intro rs h v hv
    unfold buildAll at h
    split at h
    · cases h
    rename_i o ho
    have := validate_eq ho
    subst this
    split at h
    · cases h
    rename_i r hr
    split at h
    · cases h
    rename_i rs' hrs
    rcases List.mem_cons.1 hv with rfl | hv
    · refine ⟨r, ?_⟩
      by_cases hf : (objOf v).lookup "io_log_filename".toList = none
      · exact .inl ((C23_result_exact c n v r hf).1 hr)
      · exact .inr (result_disk c n v r hf hr)
    · exact ih rs' hrs v hv

theorem key_any (o w : Json) (i : Str) (ty : PyType) (nl : Bool)
    (h : validateKey (J := J) o i ty nl = .ok w) : (objOf o).lookup i = some w ∧
      ((w = .null ∧ nl = true) ∨ isInstance w ty = true) := by
  have := (validateKey_iff (J := J) o w (String.ofList i) ty nl).1 (by simpa using h)
  obtain ⟨⟨l, rfl, hl⟩, h2⟩ := this
  exact ⟨by simpa [objOf] using hl, h2⟩

theorem processJob_fits {c : Cfg J R} {sem : Sem J Str E R} {U : List J} (n : Nat) {jobs results : Json}
    {s s' : Session J Str E R} (h : Proc sem U s) {i : Str}
    (hp : processJob c sem n jobs results s i = .done s') : Fits c sem U jobs results i := by
  unfold processJob at hp
  split at hp
  · cases hp
  rename_i ck hck
  obtain ⟨c1, c2⟩ := key_any _ _ _ _ _ hck
  cases ck <;> simp [isInstance] at c2
  rename_i ck
  split at hp
  · cases hp
  rename_i q hq
  obtain ⟨a, b⟩ := h.book.lookup_job hq
  split at hp
  · cases hp
  rename_i hc
  have hfit : c.ignoreChecksums = true ∨ c.cks q.job = ck := by
    simp only [strOf, Bool.and_eq_true, decide_eq_true_eq, Bool.not_eq_true', not_and, Bool.not_eq_false,
      ne_eq, Option.some.injEq] at hc
    by_cases he : c.cks q.job = ck
    · exact .inr he
    · exact .inl (hc he)
  refine ⟨⟨ck, q.job, c1, h.sub _ a, b, hfit⟩, ?_⟩
  intro x hx
  rw [if_neg (by rw [b, hx]; simp)] at hp
  split at hp
  · cases hp
  rename_i v hv
  obtain ⟨v1, v2⟩ := key_any _ _ _ _ _ hv
  rw [hx] at v1
  cases v1
  split at hp
  · cases hp
  rename_i hnn
  cases x <;> simp [isInstance] at v2
  · exact absurd rfl hnn
  rename_i rs
  split at hp
  · cases hp
  rename_i rs' hrs
  exact ⟨rs, rfl, buildAll_well c n rs rs' hrs⟩

theorem pass_fits {c : Cfg J R} {sem : Sem J Str E R} {base U : List J} {loc : Str}
    (hU : Universe sem base U) (hlog : ∀ r, r.outcome ≠ .none → (c.records r).isSome)
    (hl : c.location = some loc) (n : Nat) (jobs : Json) {results : Json} (hn : NoNull results) :
    ∀ (is : List Str) {s s' : Session J Str E R} {left : List Str}, Proc sem U s →
    pass c sem n jobs results is s = .ok (s', left) → ∀ i ∈ is, i ∈ left ∨ Fits c sem U jobs results i := by
  intro is
  induction is with
  | nil => intro _ _ _ _ _ i hi; cases hi
  | cons k is ih =>
    intro s s' left h hp i hi
    have h1 := processJob_proc hU hlog hl n jobs hn h k
    unfold pass at hp
    cases hq : processJob c sem n jobs results s k with
    | raised e => rw [hq] at hp; cases hp
    | done s1 =>
      rw [hq] at hp h1
      rcases List.mem_cons.1 hi with rfl | hi
      · exact .inr (processJob_fits n h hq)
      · exact ih h1 hp i hi
    | keyError s1 =>
      rw [hq] at hp h1
      dsimp only at hp
      split at hp
      · cases hp
      rename_i s2 l2 h2
      cases hp
      rcases List.mem_cons.1 hi with rfl | hi
      · exact .inl (by simp)
      · rcases ih (s := s1) h1 h2 i hi with hm | hm
        · exact .inl (by simp [hm])
        · exact .inr hm

theorem rounds_fits {c : Cfg J R} {sem : Sem J Str E R} {base U : List J} {loc : Str}
    (hU : Universe sem base U) (hlog : ∀ r, r.outcome ≠ .none → (c.records r).isSome)
    (hl : c.location = some loc) (v : Nat) (jobs : Json) {results : Json} (hn : NoNull results) :
    ∀ (n : Nat) (left : List Str) {s s' : Session J Str E R}, Proc sem U s →
    rounds c sem v jobs results n left s = .ok s' → ∀ i ∈ left, Fits c sem U jobs results i := by
  intro n
  induction n with
  | zero =>
    intro left s s' _ hr i hi
    cases left with
    | nil => cases hi
    | cons => cases hr
  | succ n ih =>
    intro left s s' h hr i hi
    cases left with
    | nil => cases hi
    | cons k is =>
      unfold rounds at hr
      split at hr
      · cases hr
      rename_i s1 l1 h1
      split at hr
      · rcases pass_fits hU hlog hl v jobs hn _ h h1 i hi with hm | hm
        · exact ih l1 ((pass_proc hU hlog hl v jobs hn _ h).2 _ _ h1) hr i hm
        · exact hm
      · cases hr

theorem nodup_map_inj {α β : Type} {f : α → β} {l : List α} (h : (l.map f).Nodup) {a b : α} (ha : a ∈ l)
    (hb : b ∈ l) (e : f a = f b) : a = b := by
  induction l with
  | nil => cases ha
  | cons x l ih =>
    simp only [List.map_cons, List.nodup_cons, List.mem_map, not_exists, not_and] at h
    rcases List.mem_cons.1 ha with ha' | ha' <;> rcases List.mem_cons.1 hb with hb' | hb'
    · rw [ha', hb']
    · exact absurd (ha' ▸ e.symm) (h.1 b hb')
    · exact absurd (hb' ▸ e) (h.1 a ha')
    · exact ih h.2 ha' hb'

/-- Version numbers as they may appear. -/
inductive IsVersion : Json → Nat → Prop
  | int (n : Nat) : 1 ≤ n → n ≤ 6 → IsVersion (.int n) n
  | yes : IsVersion (.bool true) 1
  | whole (x : Fl) (n : Nat) : x.whole = some (n : Int) → 1 ≤ n → n ≤ 6 → IsVersion (.float x) n

theorem version_is {v : Json} {n : Nat} (h : versionOf v = some n) : IsVersion v n := by
  cases v with
  | int k =>
    simp only [versionOf] at h
    split at h
    · rename_i hk
      cases h
      have : k = (k.toNat : Int) := by omega
      rw [this]
      exact .int _ (by omega) (by omega)
    · cases h
  | bool b => cases b <;> cases h; exact .yes
  | float x =>
    simp only [versionOf] at h
    split at h
    · rename_i k hk
      split at h
      · cases h
        exact .whole x _ (by rw [hk]; congr 1; omega) (by omega) (by omega)
      · cases h
    · cases h
  | _ => cases h

/-- A document that deserves to be accepted: a supported version, metadata as specified, an entry in `jobs`
for every job with results, known jobs with the recorded checksums, and results as specified. -/
def WellFormed (c : Cfg J R) (sem : Sem J Str E R) (U : List J) (v : Json) (jobs : Json) : Prop :=
  ∃ ver n sr m results, Has v "version" ver ∧ IsVersion ver n ∧ Has v "session" sr ∧
    Has sr "metadata" m ∧ IsMetadata n m ∧ Has sr "jobs" jobs ∧ Has sr "results" results ∧
    ∀ i, i ∈ (objOf jobs).map Prod.fst ++ (objOf results).map Prod.fst → Fits c sem U jobs results i

/-- **C23, acceptance**: a document is resumed only if it is well-formed in every part, under the provisos
of `C23_json_partial`; and no job of the resumed session differs from the one the document was made with:
where the document has a checksum for it, it is the checksum of the job. -/
theorem C23_accepted {c : Cfg J R} {sem : Sem J Str E R} (hwf : sem.WF) {base U : List J}
    {loc : Str} (hU : Universe sem base U) (hlog : ∀ r, r.outcome ≠ .none → (c.records r).isSome)
    (hl : c.location = some loc) (sortIds : List Str → List Str) (hs : ∀ l i, i ∈ l → i ∈ sortIds l) (v : Json)
    (hn : NoNullResults v) (s : Session J Str E R)
    (h : resume c sem sortIds base (.json v) = .ok s) :
    ∃ jobs, WellFormed c sem U v jobs ∧ (c.ignoreChecksums = false →
      ∀ j ∈ s.jobs, ∀ x, (objOf jobs).lookup (sem.id j) = some x → x = .str (c.cks j)) := by
  simp only [resume, resumeJson] at h
  split at h
  · cases h
  rename_i o ho
  have := validate_eq ho
  subst this
  have hobj : ∃ l, o = .obj l := by
    cases o <;> simp [validate, isInstance] at ho
    exact ⟨_, rfl⟩
  obtain ⟨l, rfl⟩ := hobj
  split at h
  · cases h
  · cases h
  rename_i ver _ hver
  split at h
  · cases h
  rename_i n hn'
  split at h
  · cases h
  rename_i sr hsr
  have hsr' := (validateKey_iff (J := J) _ sr "session" .dict false).1 hsr
  have hnull : ∀ rs, (objOf sr).lookup "results".toList = some rs → NoNull rs := by
    intro rs hrs
    exact hn sr rs (validateKey_eq hsr) hrs
  have hgood := (build_good hwf hU hlog hl sortIds n hnull).2 s h
  obtain ⟨r, hr, hrU⟩ := dedupLoop_in hU.uniq (base.length + 1) base (by omega) hU.baseSub
  have hc : construct sem base =
      .ok ⟨r, base, r.map (fun j => (sem.id j, JobState.new j)), [], [], [], []⟩ := by
    simp only [construct, hr]
  have hlive := construct_live hc
  unfold build at h
  rw [hc] at h
  dsimp only at h
  split at h
  · cases h
  rename_i s1 hs1
  split at h
  · cases h
  rename_i hmeta
  obtain ⟨m, hm1, hm2⟩ := (C23_metadata_exact (J := J) n sr).1 hmeta
  unfold restoreResults at hs1
  split at hs1
  · cases hs1
  rename_i jobs hjobs
  split at hs1
  · cases hs1
  rename_i results hresults
  have hj' := (validateKey_iff (J := J) _ jobs "jobs" .dict false).1 hjobs
  have hr' := (validateKey_iff (J := J) _ results "results" .dict false).1 hresults
  have hnr : NoNull results := by
    apply hnull
    obtain ⟨⟨l, rfl, hl⟩, -⟩ := hr'
    exact hl
  obtain ⟨s2, h2, p2⟩ := addBase_proc hU base
    (s := ⟨r, base, r.map (fun j => (sem.id j, JobState.new j)), [], [], [], []⟩)
    ⟨hlive.book, rfl, hrU, rfl⟩ hU.baseSub
  rw [h2] at hs1
  dsimp only at hs1
  split at hs1
  · cases hs1
  rename_i s3 left h3
  have hfits : ∀ i, i ∈ (objOf jobs).map Prod.fst ++ (objOf results).map Prod.fst →
      Fits c sem U jobs results i := by
    intro i hi
    rcases pass_fits hU hlog hl n jobs hnr _ p2 h3 i (hs _ _ hi) with hm | hm
    · exact rounds_fits hU hlog hl n jobs hnr _ _ ((pass_proc hU hlog hl n jobs hnr _ p2).2 _ _ h3) hs1 i hm
    · exact hm
  refine ⟨jobs, ⟨ver, n, sr, _, results, ⟨l, rfl, ?_⟩, version_is hn', hsr'.1, hm1, hm2, hj'.1, hr'.1, hfits⟩, ?_⟩
  · unfold item at hver
    dsimp only at hver
    split at hver
    · rename_i w hw
      cases hver
      exact hw
    · cases hver
  · intro hig j hj x hx
    have hmem : sem.id j ∈ (objOf jobs).map Prod.fst := by
      exact List.mem_map_of_mem (f := Prod.fst) (lookup_mem hx)
    obtain ⟨⟨ck, k, e1, e2, e3, e4⟩, -⟩ := hfits (sem.id j) (by simp only [List.mem_append]; exact .inl hmem)
    rw [hx] at e1
    cases e1
    have : k = j := nodup_map_inj hU.uniq e2 (hgood.2.2.1 j hj) e3
    subst this
    rcases e4 with e4 | e4
    · rw [hig] at e4; cases e4
    · rw [e4]

/-- The document of the examples above is accepted, so it is well-formed. -/
example : ∃ jobs, WellFormed yCfg ySem [yr, yg, yh]
    (yDoc (.int 6) [(['g'], .str ['g']), (['r'], .str ['r'])] [(['r'], .arr [yResult [[103]]])] [.str ['g']])
    jobs := by
  have hok : ∃ s, resume yCfg ySem (fun l => l.dedup) [yr] (.json (yDoc (.int 6)
      [(['g'], .str ['g']), (['r'], .str ['r'])] [(['r'], .arr [yResult [[103]]])] [.str ['g']])) = .ok s := by
    cases hr : resume yCfg ySem (fun l => l.dedup) [yr] (.json (yDoc (.int 6)
      [(['g'], .str ['g']), (['r'], .str ['r'])] [(['r'], .arr [yResult [[103]]])] [.str ['g']])) with
    | ok s => exact ⟨s, rfl⟩
    | error e =>
      have h1 : yRun [yr] yCfg (yDoc (.int 6) [(['g'], .str ['g']), (['r'], .str ['r'])]
        [(['r'], .arr [yResult [[103]]])] [.str ['g']]) = .ok ([['r'], ['g']], [['g']]) := by decide +kernel
      unfold yRun at h1
      rw [hr] at h1
      cases h1
  obtain ⟨s, hs⟩ := hok
  obtain ⟨jobs, hj, -⟩ := C23_accepted ySem_wf y_universe
    (by intro r _; show (yRecords r).isSome = true; unfold yRecords; split <;> rfl) rfl _
    (fun l i hi => List.mem_dedup.2 hi) _ (by
      intro sr rs h1 h2 i hi
      simp only [yDoc, objOf] at h1
      have e1 : ([("version".toList, Json.int 6), ("session".toList, Json.obj [("jobs".toList, .obj
          [(['g'], .str ['g']), (['r'], .str ['r'])]), ("results".toList, .obj [(['r'], .arr [yResult [[103]]])]),
          ("metadata".toList, .obj [("title".toList, .null), ("flags".toList, .arr []),
            ("running_job_name".toList, .null), ("app_blob".toList, .null), ("app_id".toList, .null)]),
          ("mandatory_job_list".toList, .arr []), ("desired_job_list".toList, .arr [.str ['g']])])] :
          List (Str × Json)).lookup "session".toList = some _ := rfl
      rw [e1] at h1
      cases h1
      cases h2
      simp only [objOf, List.lookup_cons, List.lookup_nil] at hi
      split at hi <;> cases hi) s hs
  exact ⟨jobs, hj⟩

/-- **C23**: a result without outcome is replayed without reading its log, even if it cannot be read. -/
theorem C23_unread (c : Cfg J R) (sem : Sem J Str E R) (j : J) (r : JRes) (s : Session J Str E R)
    (h : r.outcome = .none) : replay c sem j [r] s ≠ .raised .logError := by
  simp only [replay, h]
  rw [if_neg (by simp)]
  split <;> simp

example : yRun [yr] { yCfg with records := fun _ => none }
    (yDoc (.int 6) [(['r'], .str ['r'])] [(['r'], .arr [.obj [("outcome".toList, .null),
      ("comments".toList, .null), ("return_code".toList, .bool true), ("execution_duration".toList, .null),
      ("io_log_filename".toList, .str ['x'])]])] []) = .ok ([['r']], []) := by decide +kernel

/-! ## Comments -/

/-- An escape sequence (ECMA-48): an introducer, parameter bytes, intermediate bytes, a final byte. -/
inductive Esc : Str → Prop
  | mk (intro params inter : Str) (fin : Char) : (intro = [Char.ofNat 0x9b] ∨ intro = [Char.ofNat 0x1b, '[']) →
      (∀ c ∈ params, 0x30 ≤ c.toNat ∧ c.toNat ≤ 0x3f) → (∀ c ∈ inter, 0x20 ≤ c.toNat ∧ c.toNat ≤ 0x2f) →
      0x40 ≤ fin.toNat → fin.toNat ≤ 0x7e → Esc (intro ++ params ++ inter ++ [fin])

/-- Text without the characters that introduce an escape sequence. -/
def Plain (p : Str) : Prop := ∀ c ∈ p, c.toNat ≠ 0x1b ∧ c.toNat ≠ 0x9b

theorem dropWhile_through {α : Type} (p : α → Bool) : ∀ (l : List α) (x : α) (r : List α),
    (∀ a ∈ l, p a = true) → p x = false → (l ++ x :: r).dropWhile p = x :: r := by
  intro l
  induction l with
  | nil => intro x r _ h; simp [h]
  | cons a l ih =>
    intro x r h1 h2
    rw [List.cons_append, List.dropWhile_cons_of_pos (h1 a (by simp))]
    exact ih x r (fun b hb => h1 b (by simp [hb])) h2

/-- The part of `ansiMatch` after the introducer. -/
theorem afterIntro (params inter : Str) (fin : Char) (rest : Str)
    (h2 : ∀ c ∈ params, 0x30 ≤ c.toNat ∧ c.toNat ≤ 0x3f) (h3 : ∀ c ∈ inter, 0x20 ≤ c.toNat ∧ c.toNat ≤ 0x2f)
    (h4 : 0x40 ≤ fin.toNat) (h5 : fin.toNat ≤ 0x7e) :
    ((params ++ inter ++ fin :: rest).dropWhile fun c => 0x30 ≤ c.toNat && c.toNat ≤ 0x3f).dropWhile
      (fun c => 0x20 ≤ c.toNat && c.toNat ≤ 0x2f) = fin :: rest := by
  have e1 : (params ++ inter ++ fin :: rest).dropWhile (fun c => 0x30 ≤ c.toNat && c.toNat ≤ 0x3f) =
      inter ++ fin :: rest := by
    cases inter with
    | nil =>
      rw [List.append_nil]
      refine dropWhile_through _ params fin rest ?_ ?_
      · intro c hc; simpa using h2 c hc
      · simp; omega
    | cons x inter =>
      have := h3 x (by simp)
      rw [List.append_assoc, List.cons_append]
      refine dropWhile_through _ params x _ ?_ ?_
      · intro c hc; simpa using h2 c hc
      · simp; omega
  rw [e1]
  refine dropWhile_through _ inter fin rest ?_ ?_
  · intro c hc; simpa using h3 c hc
  · simp; omega

theorem ansiMatch_esc {e : Str} (h : Esc e) (rest : Str) : ansiMatch (e ++ rest) = some rest := by
  cases h with
  | mk intro params inter fin h1 h2 h3 h4 h5 =>
    have key := afterIntro params inter fin rest h2 h3 h4 h5
    rcases h1 with rfl | rfl
    · have : ([Char.ofNat 0x9b] ++ params ++ inter ++ [fin] ++ rest : Str) =
        Char.ofNat 0x9b :: (params ++ inter ++ fin :: rest) := by simp
      rw [this]
      unfold ansiMatch
      have hc : (Char.ofNat 0x9b).toNat = 0x9b := by decide
      simp only [hc, if_true]
      rw [key]
      simp [h4, h5]
    · have : ([Char.ofNat 0x1b, '['] ++ params ++ inter ++ [fin] ++ rest : Str) =
        Char.ofNat 0x1b :: '[' :: (params ++ inter ++ fin :: rest) := by simp
      rw [this]
      unfold ansiMatch
      have hc : (Char.ofNat 0x1b).toNat = 0x1b := by decide
      simp only [hc, show ¬ (0x1b = 0x9b) by decide, if_false, and_self, if_true]
      rw [key]
      simp [h4, h5]

theorem takeWhile_append_dropWhile' {α : Type} (p : α → Bool) (l : List α) :
    l = l.takeWhile p ++ l.dropWhile p := (List.takeWhile_append_dropWhile).symm

theorem mem_takeWhile' {α : Type} (p : α → Bool) (l : List α) (x : α) (h : x ∈ l.takeWhile p) : p x = true := by
  induction l with
  | nil => cases h
  | cons a l ih =>
    rw [List.takeWhile_cons] at h
    split at h
    · rcases List.mem_cons.1 h with rfl | h
      · assumption
      · exact ih h
    · cases h

theorem esc_of_body (intro b r : Str) (c : Char)
    (hi : intro = [Char.ofNat 0x9b] ∨ intro = [Char.ofNat 0x1b, '['])
    (hb : (b.dropWhile fun c => 0x30 ≤ c.toNat && c.toNat ≤ 0x3f).dropWhile
      (fun c => 0x20 ≤ c.toNat && c.toNat ≤ 0x2f) = c :: r) (h1 : 0x40 ≤ c.toNat) (h2 : c.toNat ≤ 0x7e) :
    ∃ e, Esc e ∧ intro ++ b = e ++ r := by
  have e1 := takeWhile_append_dropWhile' (fun c : Char => decide (0x30 ≤ c.toNat) && decide (c.toNat ≤ 0x3f)) b
  have e2 := takeWhile_append_dropWhile' (fun c : Char => decide (0x20 ≤ c.toNat) && decide (c.toNat ≤ 0x2f))
    (b.dropWhile fun c => 0x30 ≤ c.toNat && c.toNat ≤ 0x3f)
  rw [hb] at e2
  refine ⟨_, .mk intro (b.takeWhile fun c => 0x30 ≤ c.toNat && c.toNat ≤ 0x3f) ((b.dropWhile fun c =>
    0x30 ≤ c.toNat && c.toNat ≤ 0x3f).takeWhile fun c => 0x20 ≤ c.toNat && c.toNat ≤ 0x2f) c hi ?_ ?_ h1 h2, ?_⟩
  · intro x hx; simpa using mem_takeWhile' _ _ _ hx
  · intro x hx; simpa using mem_takeWhile' _ _ _ hx
  · rw [e2] at e1
    conv => lhs; rw [e1]
    simp

theorem esc_of_match {s rest : Str} (h : ansiMatch s = some rest) : ∃ e, Esc e ∧ s = e ++ rest := by
  unfold ansiMatch at h
  cases s with
  | nil => cases h
  | cons c r =>
    dsimp only at h
    by_cases h9 : c.toNat = 0x9b
    · rw [if_pos h9] at h
      dsimp only at h
      split at h
      · rename_i d r' hd
        split at h
        · rename_i hf
          cases h
          have : c = Char.ofNat 0x9b := by rw [← h9, Char.ofNat_toNat]
          subst this
          exact esc_of_body [Char.ofNat 0x9b] r rest d (.inl rfl) hd hf.1 hf.2
        · cases h
      · cases h
    · rw [if_neg h9] at h
      cases r with
      | nil => cases h
      | cons d r =>
        dsimp only at h
        by_cases hb : c.toNat = 0x1b ∧ d = '['
        · rw [if_pos hb] at h
          dsimp only at h
          split at h
          · rename_i d' r' hd
            split at h
            · rename_i hf
              cases h
              have : c = Char.ofNat 0x1b := by rw [← hb.1, Char.ofNat_toNat]
              subst this
              rw [hb.2]
              exact esc_of_body [Char.ofNat 0x1b, '['] r rest d' (.inr rfl) hd hf.1 hf.2
            · cases h
          · cases h
        · rw [if_neg hb] at h; cases h

theorem esc_length {e : Str} (h : Esc e) : 0 < e.length := by cases h; simp; omega

theorem ansiMatch_plain (c : Char) (r : Str) (h : c.toNat ≠ 0x1b ∧ c.toNat ≠ 0x9b) :
    ansiMatch (c :: r) = none := by
  cases hm : ansiMatch (c :: r) with
  | none => rfl
  | some rest =>
    obtain ⟨e, he, heq⟩ := esc_of_match hm
    cases he with
    | mk intro params inter fin h1 =>
      rcases h1 with rfl | rfl
      · simp only [List.cons_append, List.cons.injEq] at heq
        exact absurd (by rw [heq.1]; decide) h.2
      · simp only [List.cons_append, List.cons.injEq] at heq
        exact absurd (by rw [heq.1]; decide) h.1

/-- **C19, comments**: of comments that consist of plain text and escape sequences in any order, all the
plain text is shown, in order, and none of the escape sequences. -/
theorem C19_shown (parts : List (Str × Str)) (last : Str) (h : ∀ p ∈ parts, Plain p.1 ∧ Esc p.2)
    (hl : Plain last) : sanitize (parts.flatMap (fun p => p.1 ++ p.2) ++ last) = parts.flatMap (·.1) ++ last := by
  have plain : ∀ (p : Str), Plain p → ∀ (n : Nat) (s : Str), p.length + s.length ≤ n →
      sanitizeF n (p ++ s) = p ++ sanitizeF (n - p.length) s := by
    intro p
    induction p with
    | nil => intro _ n s _; simp
    | cons c p ih =>
      intro hp n s hn
      cases n with
      | zero => simp at hn
      | succ n =>
        rw [List.cons_append, sanitizeF, ansiMatch_plain c _ (hp c (by simp))]
        dsimp only
        rw [ih (fun x hx => hp x (by simp [hx])) n s (by simp at hn; omega)]
        simp
  have nil : ∀ n, sanitizeF n [] = [] := by intro n; cases n <;> rfl
  have main : ∀ (n : Nat), (parts.flatMap (fun p => p.1 ++ p.2) ++ last).length ≤ n →
      sanitizeF n (parts.flatMap (fun p => p.1 ++ p.2) ++ last) = parts.flatMap (·.1) ++ last := by
    induction parts with
    | nil =>
      intro n hn
      have := plain last hl n [] (by simpa using hn)
      simpa [nil] using this
    | cons p parts ih =>
      intro n hn
      obtain ⟨hp, he⟩ := h p (by simp)
      simp only [List.flatMap_cons, List.append_assoc, List.length_append] at hn ⊢
      rw [plain p.1 hp n _ (by simp only [List.length_append]; omega)]
      congr 1
      have hpos := esc_length he
      obtain ⟨k, hk⟩ : ∃ k, n - p.1.length = k + 1 := ⟨n - p.1.length - 1, by omega⟩
      rw [hk]
      have hne : ∃ c r, p.2 = c :: r := by
        cases hc : p.2 with
        | nil => rw [hc] at hpos; simp at hpos
        | cons c r => exact ⟨c, r, rfl⟩
      obtain ⟨c, r, hc⟩ := hne
      have hm := ansiMatch_esc he (parts.flatMap (fun p => p.1 ++ p.2) ++ last)
      rw [hc, List.cons_append] at hm ⊢
      rw [sanitizeF, hm]
      dsimp only
      refine ih (fun q hq => h q (by simp [hq])) k ?_
      simp only [List.length_append]; omega
  exact main _ (Nat.le_refl _)

example : sanitize ("a".toList ++ [Char.ofNat 0x1b, '[', '1', ';', '3', 'm'] ++ "bc".toList ++
    [Char.ofNat 0x9b, 'K'] ++ "d".toList) = "abcd".toList := by decide +kernel

theorem sanitizeF_length (n : Nat) : ∀ s, (sanitizeF n s).length ≤ s.length := by
  induction n with
  | zero => intro s; simp [sanitizeF]
  | succ n ih =>
    intro s
    cases s with
    | nil => simp [sanitizeF]
    | cons c r =>
      rw [sanitizeF]
      split
      · rename_i rest hm
        obtain ⟨e, he, heq⟩ := esc_of_match hm
        rw [heq, List.length_append]
        have := ih rest; omega
      · simp only [List.length_cons]; have := ih r; omega

/-- **C19, comments**: comments are shown unchanged exactly if no escape sequence occurs in them. -/
theorem C19_unchanged (s : Str) : sanitize s = s ↔ ∀ pre e post, s = pre ++ e ++ post → ¬ Esc e := by
  have main : ∀ n s, s.length ≤ n → (sanitizeF n s = s ↔ ∀ pre e post, s = pre ++ e ++ post → ¬ Esc e) := by
    intro n
    induction n with
    | zero =>
      intro s hs
      have : s = [] := List.length_eq_zero_iff.1 (by omega)
      subst this
      refine ⟨fun _ pre e post h he => ?_, fun _ => rfl⟩
      have := esc_length he
      have h := congrArg List.length h
      simp at h
      omega
    | succ n ih =>
      intro s hs
      cases s with
      | nil =>
        refine ⟨fun _ pre e post h he => ?_, fun _ => rfl⟩
        have := esc_length he
        have h := congrArg List.length h
        simp at h
        omega
      | cons c r =>
        rw [sanitizeF]
        cases hm : ansiMatch (c :: r) with
        | some rest =>
          obtain ⟨e, he, heq⟩ := esc_of_match hm
          dsimp only
          constructor
          · intro h
            have h1 := sanitizeF_length n rest
            have h2 := congrArg List.length h
            have h3 := congrArg List.length heq
            have h4 := esc_length he
            simp only [List.length_append] at h3
            omega
          · intro h
            exact absurd he (h [] e rest (by simpa using heq))
        | none =>
          dsimp only
          simp only [List.cons.injEq, true_and]
          rw [ih r (by simp at hs; omega)]
          constructor
          · intro h pre e post heq he
            cases pre with
            | nil =>
              rw [List.nil_append] at heq
              rw [heq, ansiMatch_esc he] at hm
              cases hm
            | cons x pre =>
              simp only [List.cons_append, List.cons.injEq] at heq
              exact h pre e post heq.2 he
          · intro h pre e post heq
            exact h (c :: pre) e post (by rw [heq]; rfl)
  exact main _ _ (Nat.le_refl _)

example : sanitize "[31m".toList = "[31m".toList := by decide +kernel

end Verif.ResumeJson
