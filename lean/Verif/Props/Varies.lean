import Verif.Model.Varies
import Verif.Props.Template

/-! # C93: what validating a template tells about the units made from it -/

namespace Verif.Varies

open Verif.Checksum (Str PVal)
open Verif.Template

set_option linter.unusedSimpArgs false

variable {P O : Type}

/-! ## Specification -/

/-- Fields that must be the same in all jobs made from a template. -/
def fixedFields : List Str :=
  (["plugin", "flags", "user", "environ", "estimated_duration", "shell", "imports", "category_id", "qml_file",
    "certification_status", "auto_retry", "unit"] : List String).map String.toList

/-- A format string that mentions just one parameter, as it is, perhaps several times or not at all. -/
def Only (k : Str) (ps : List FPiece) : Prop := ∀ p ∈ ps, ∀ n cv s, p = .field n cv s → n = k ∧ cv = none ∧ s = none

/-- The text with a value in the place of every field. -/
def glue (v : Str) (ps : List FPiece) : Str :=
  (ps.map fun p => match p with
    | .text s => s
    | .field _ _ _ => v).flatten

/-! ## Lemmas: format strings -/

/-- The fields among the pieces. -/
def flds : List Piece → List (Str × Str) := List.filterMap fun p => match p with
  | .ch _ => none
  | .fld n _ s => some (n, s)

/-- The state without conversions. -/
def forget : PState → FState
  | .lit => .lit
  | .opened => .opened
  | .closed => .closed
  | .name n => .name n
  | .bracket n => .bracket n
  | .conv n => .conv n
  | .afterConv n _ => .afterConv n
  | .spec n _ s k => .spec n s k

theorem flds_append (a b : List Piece) : flds (a ++ b) = flds a ++ flds b := by simp [flds]

theorem pname_forget (n : Str) (c : Char) (out : List Piece) :
    nameStep n c (flds out) = (pname n c out).map fun x => (forget x.1, flds x.2) := by
  unfold nameStep pname
  repeat' split
  all_goals simp [forget, flds_append, flds]

theorem pstep_forget (st : PState × List Piece) (c : Char) :
    fstep (forget st.1, flds st.2) c = (pstep st c).map fun x => (forget x.1, flds x.2) := by
  obtain ⟨st, out⟩ := st
  cases st with
  | name n => exact pname_forget n c out
  | opened =>
    simp only [forget, fstep, pstep]
    split
    · simp [forget, flds_append, flds]
    · exact pname_forget [] c out
  | _ =>
    simp only [forget, fstep, pstep]
    repeat' split
    all_goals simp [forget, flds_append, flds]

theorem prun_forget (t : Str) : ∀ st : PState × List Piece,
    frun (forget st.1, flds st.2) t = (prun st t).map fun x => (forget x.1, flds x.2) := by
  induction t with
  | nil => intro st; rfl
  | cons c t ih =>
    intro st
    rw [frun, prun, pstep_forget]
    cases pstep st c with
    | none => rfl
    | some st' => exact ih st'

theorem pieces_fields (t : Str) : parseFormat t = (pieces t).map flds := by
  unfold parseFormat pieces
  have := prun_forget t (.lit, [])
  simp only [forget] at this
  rw [show (FState.lit, ([] : List (Str × Str))) = (FState.lit, flds []) from rfl, this]
  cases h : prun (.lit, []) t with
  | none => rfl
  | some x =>
    obtain ⟨st, out⟩ := x
    cases st <;> rfl

theorem prun_append (st : PState × List Piece) (a b : Str) :
    prun st (a ++ b) = (prun st a).bind fun st => prun st b := by
  induction a generalizing st with
  | nil => rfl
  | cons c a ih =>
    simp only [List.cons_append, prun]
    cases pstep st c with
    | none => rfl
    | some st' => exact ih st'

theorem prun_text (s : Str) (out : List Piece) :
    prun (.lit, out) (FPiece.text s).src = some (.lit, out ++ s.map .ch) := by
  induction s generalizing out with
  | nil => simp [FPiece.src, prun]
  | cons c s ih =>
    have : (FPiece.text (c :: s)).src = (if c = '{' ∨ c = '}' then [c, c] else [c]) ++
        (FPiece.text s).src := by simp [FPiece.src]
    rw [this, prun_append]
    have h1 : prun (.lit, out) (if c = '{' ∨ c = '}' then [c, c] else [c]) = some (.lit, out ++ [.ch c]) := by
      by_cases ho : c = '{'
      · subst ho; rfl
      · by_cases hc : c = '}'
        · subst hc; rfl
        · simp [ho, hc, prun, pstep]
    rw [h1, Option.bind_some, ih]
    simp

theorem prun_name (n m : Str) (out : List Piece) (h : ∀ c ∈ n, c ∉ ['{', '}', '[', ':', '!']) :
    prun (.name m, out) n = some (.name (m ++ n), out) := by
  induction n generalizing m with
  | nil => simp [prun]
  | cons c n ih =>
    have hc := h c (by simp)
    simp only [List.mem_cons, List.not_mem_nil, or_false, not_or] at hc
    simp only [prun, pstep, pname, hc, if_false, Option.bind_some]
    rw [ih _ (fun d hd => h d (by simp [hd]))]
    simp

/-- The pieces of a piece as written. -/
def toPieces : FPiece → List Piece
  | .text s => s.map .ch
  | .field n cv s => [.fld n cv (s.getD [])]

theorem prun_field (k : Str) (hk : ∀ c ∈ k, c ∉ ['{', '}', '[', ':', '!']) (out : List Piece) :
    prun (.lit, out) (FPiece.field k none none).src = some (.lit, out ++ [.fld k none []]) := by
  simp only [FPiece.src, convSrc, specSrc, List.nil_append, prun, pstep, if_true, Option.bind_some]
  cases k with
  | nil => rfl
  | cons c k =>
    have hc := hk c (by simp)
    simp only [List.mem_cons, List.not_mem_nil, or_false, not_or] at hc
    simp only [List.cons_append, prun, pstep, pname, hc, if_false, Option.bind_some, List.nil_append]
    rw [prun_append, prun_name k _ out (fun x hx => hk x (by simp [hx])), Option.bind_some]
    rfl

theorem pieces_src {k : Str} (hk : ∀ c ∈ k, c ∉ ['{', '}', '[', ':', '!']) {ps : List FPiece} (h : Only k ps) :
    pieces (ps.map FPiece.src).flatten = some (ps.map toPieces).flatten := by
  have : ∀ (ps : List FPiece) (out : List Piece), Only k ps →
      prun (.lit, out) (ps.map FPiece.src).flatten = some (.lit, out ++ (ps.map toPieces).flatten) := by
    intro ps
    induction ps with
    | nil => intro out _; simp [prun]
    | cons p ps ih =>
      intro out h
      have h1 : prun (.lit, out) p.src = some (.lit, out ++ toPieces p) := by
        cases p with
        | text s => exact prun_text s out
        | field n cv s =>
          obtain ⟨rfl, rfl, rfl⟩ := h (.field n cv s) (by simp) n cv s rfl
          exact prun_field n hk out
      simp only [List.map_cons, List.flatten_cons]
      rw [prun_append, h1, Option.bind_some, ih _ (fun q hq => h q (by simp [hq]))]
      simp
  unfold pieces
  rw [this ps [] h]
  simp

theorem vformat_append (lib : Lib) (params : List (Str × PVal)) (a b : List Piece) :
    vformat lib params (a ++ b) = (vformat lib params a).bind fun x => (vformat lib params b).map (x ++ ·) := by
  induction a with
  | nil => simp [vformat]
  | cons p a ih =>
    cases p with
    | ch c =>
      rw [List.cons_append, vformat, vformat, ih]
      cases vformat lib params a <;> cases vformat lib params b <;> simp
    | fld n cv s =>
      rw [List.cons_append, vformat, vformat, ih]
      cases (if cv = none ∧ s = [] ∧ isPlain n = true then (params.lookup n).map showVal
        else lib.other n cv s params) <;> cases vformat lib params a <;> cases vformat lib params b <;> simp

theorem vformat_const (lib : Lib) (ps : List Piece) (h : flds ps = []) :
    ∃ v, ∀ params, vformat lib params ps = some v := by
  induction ps with
  | nil => exact ⟨[], fun _ => rfl⟩
  | cons p ps ih =>
    cases p with
    | ch c =>
      obtain ⟨v, hv⟩ := ih (by simpa [flds] using h)
      exact ⟨c :: v, fun params => by rw [vformat, hv]; rfl⟩
    | fld n cv s => simp [flds] at h

theorem vformat_only (lib : Lib) {k : Str} (hk : isPlain k = true) {params : List (Str × PVal)} {v : PVal}
    (hv : params.lookup k = some v) {ps : List FPiece} (h : Only k ps) :
    vformat lib params (ps.map toPieces).flatten = some (glue (showVal v) ps) := by
  induction ps with
  | nil => rfl
  | cons p ps ih =>
    rw [List.map_cons, List.flatten_cons, vformat_append, ih (fun q hq => h q (by simp [hq]))]
    cases p with
    | text s =>
      have : vformat lib params (toPieces (.text s)) = some s := by
        clear h ih
        show vformat lib params (s.map Piece.ch) = some s
        induction s with
        | nil => rfl
        | cons c s ih => rw [List.map_cons, vformat, ih]; rfl
      rw [this]
      simp [glue]
    | field n cv s =>
      obtain ⟨rfl, rfl, rfl⟩ := h (.field n cv s) (by simp) n cv s rfl
      simp [toPieces, vformat, hk, hv, glue]

theorem glue_length (v : Str) (ps : List FPiece) :
    (glue v ps).length = (glue [] ps).length + ((ps.filterMap fun p => match p with
      | .text _ => none
      | .field n _ _ => some n).length) * v.length := by
  induction ps with
  | nil => simp [glue]
  | cons p ps ih =>
    cases p with
    | text s => simp [glue] at ih ⊢; omega
    | field n cv s => simp [glue, Nat.add_mul] at ih ⊢; omega

theorem glue_inj {ps : List FPiece} (hf : ∃ n cv s, FPiece.field n cv s ∈ ps) {v w : Str}
    (h : glue v ps = glue w ps) : v = w := by
  have hlen : v.length = w.length := by
    have h1 := congrArg List.length h
    rw [glue_length v, glue_length w] at h1
    have : 0 < (ps.filterMap fun p => match p with
      | .text _ => none
      | .field n _ _ => some n).length := by
      obtain ⟨n, cv, s, hm⟩ := hf
      refine List.length_pos_of_mem (a := n) (List.mem_filterMap.2 ⟨_, hm, rfl⟩)
    exact Nat.eq_of_mul_eq_mul_left this (by omega)
  induction ps with
  | nil => obtain ⟨_, _, _, hm⟩ := hf; cases hm
  | cons p ps ih =>
    cases p with
    | text s =>
      simp only [glue, List.map_cons, List.flatten_cons, List.append_cancel_left_eq] at h
      refine ih ?_ h
      obtain ⟨n, cv, s', hm⟩ := hf
      rcases List.mem_cons.1 hm with hm | hm
      · cases hm
      · exact ⟨n, cv, s', hm⟩
    | field n cv s =>
      simp only [glue, List.map_cons, List.flatten_cons] at h
      exact (List.append_inj h hlen).1

theorem mem_of_lookup {l : List (Str × Str)} {k v : Str} (h : l.lookup k = some v) : (k, v) ∈ l := by
  induction l with
  | nil => cases h
  | cons x l ih =>
    rw [List.lookup_cons] at h
    by_cases hk : (k == x.1) = true
    · rw [hk] at h
      have : k = x.1 := by simpa using hk
      cases h
      rw [this]
      simp
    · simp only [Bool.not_eq_true] at hk
      rw [hk] at h
      exact List.mem_cons_of_mem _ (ih h)

/-! ## Lemmas: validation -/

theorem reports_nil {lib : Lib} {u : Inst P O} {is : List Issue} (h : reports lib u is = some []) : is = [] := by
  cases is with
  | nil => rfl
  | cons i is =>
    rw [reports] at h
    unfold report at h
    split at h
    · cases hr : reports lib u is <;> rw [hr] at h <;> simp at h
    · cases hp : partialId lib u with
      | none => rw [hp] at h; simp at h
      | some d => cases hr : reports lib u is <;> rw [hp, hr] at h <;> simp at h

theorem report_nil {lib : Lib} {u : Inst P O} {i : Issue} : report lib u i ≠ some [] := by
  unfold report
  split
  · simp
  · cases partialId lib u <;> simp

theorem checkRules_nil {lib : Lib} {u : Inst P O} {rs : List Rule} (h : checkRules lib u rs = some []) :
    ∀ r ∈ rs, checkRule lib u r = some [] := by
  induction rs with
  | nil => simp
  | cons r rs ih =>
    rw [checkRules] at h
    cases h1 : checkRule lib u r with
    | none => rw [h1] at h; simp at h
    | some a =>
      cases h2 : checkRules lib u rs with
      | none => rw [h1, h2] at h; simp at h
      | some b =>
        rw [h1, h2] at h
        simp at h
        intro r' hr'
        rcases List.mem_cons.1 hr' with rfl | hr'
        · rw [h1, h.1]
        · exact ih (by rw [h2, h.2]) r' hr'

theorem checkRule_nil {lib : Lib} {u : Inst P O} {r : Rule} (h : checkRule lib u r = some []) :
    (r.plain = true → checkUntranslatable lib u r.field = some []) ∧
    (if r.variant then checkVariant lib u r.field else checkInvariant lib u r.field) = some [] := by
  unfold checkRule at h
  generalize hb : (if r.variant then checkVariant lib u r.field else checkInvariant lib u r.field) = b at h ⊢
  generalize ha : (if r.plain then checkUntranslatable lib u r.field else some []) = a at h
  cases a with
  | none => simp at h
  | some a =>
    cases b with
    | none => simp at h
    | some b =>
      simp at h
      refine ⟨fun hp => ?_, by rw [h.2]⟩
      rw [if_pos hp] at ha
      rw [ha, h.1]

theorem checkTemplate_nil {lib : Lib} {upper : Str → Str} {t : Tmpl P O}
    (h : checkTemplate lib upper t = some ([], [])) :
    ∃ names cls u0, accessedAll lib.jinja (engine t.data) t.data = some names ∧
      clsOf (templateUnit t.data) = some cls ∧ instantiateOne lib.jinja t cls (fake upper names) 0 = .ok u0 ∧
      ∀ r ∈ rules cls, checkRule lib u0 r = some [] := by
  unfold checkTemplate at h
  cases h1 : accessedAll lib.jinja (engine t.data) t.data with
  | none => rw [h1] at h; simp at h
  | some names =>
    rw [h1] at h
    simp only at h
    cases h2 : clsOf (templateUnit t.data) with
    | none => rw [h2] at h; simp at h
    | some cls =>
      rw [h2] at h
      simp only at h
      cases h3 : instantiateOne lib.jinja t cls (fake upper names) 0 with
      | error e => rw [h3] at h; simp at h
      | ok u0 =>
        rw [h3] at h
        simp only at h
        cases h4 : checkRules lib u0 (rules cls) with
        | none => rw [h4] at h; simp at h
        | some is =>
          rw [h4] at h
          simp at h
          rw [h] at h4
          exact ⟨names, cls, u0, rfl, rfl, h3, checkRules_nil h4⟩

theorem same_data {jinja : Str → Option (List Str)} {t : Tmpl P O} {cls cls' : Cls} {r r' : Res} {i i' : Nat}
    {u u' : Inst P O} (h : MadeFrom jinja t cls r i u) (h' : MadeFrom jinja t cls' r' i' u') (k : Str) :
    u.data.lookup k = u'.data.lookup k := by rw [h.data, h'.data]

theorem made_engine {jinja : Str → Option (List Str)} {t : Tmpl P O} {cls : Cls} {r : Res} {i : Nat}
    {u : Inst P O} (h : MadeFrom jinja t cls r i u) : engine u.data = engine t.data := by
  conv => lhs; unfold engine
  rw [h.data, if_neg (by decide), if_pos rfl]
  rfl

/-- Every unit of `instantiate_all` is made from an accepted resource. -/
theorem all_made {jinja : Str → Option (List Str)} {filter : Option (Res → FOut)} {t : Tmpl P O} {rs : List Res}
    {us : List (Inst P O)} (h : instantiateAll jinja filter t rs = .ok us) :
    ∀ u ∈ us, ∃ cls r i, MadeFrom jinja t cls r i u := by
  intro u hu
  obtain ⟨cls, hc, hl, hm⟩ := C35_instantiate jinja filter t rs us h
  obtain ⟨i, hi, rfl⟩ := List.mem_iff_getElem.1 hu
  have : i < (rs.filter fun r => decide (Accepts filter r)).length := by omega
  exact ⟨cls, _, _, hm i _ _ (List.getElem?_eq_getElem this) (List.getElem?_eq_getElem hi)⟩

theorem marked_field {jinja : Str → Option (List Str)} {t : Tmpl P O} {cls : Cls} {r : Res} {i : Nat}
    {u : Inst P O} (h : MadeFrom jinja t cls r i u) (f : Str) : u.data.lookup ('_' :: f) = t.data.lookup ('_' :: f) := by
  rw [h.data, if_neg (by simp), if_neg (by simp)]
  rw [if_neg]
  simp [List.isPrefixOf]

/-! ## C93 -/

/-- **C93, part 1.** When nothing is found in a template of jobs, then each field that must not vary has the same value,
that can be read, in all jobs that are ever made from it. (The field is not marked for translation: see
`C93_marked_violated`.) -/
theorem C93_fixed (lib : Lib) (upper : Str → Str) (t : Tmpl P O) (h : checkTemplate lib upper t = some ([], []))
    (hc : clsOf (templateUnit t.data) = some .job) (he : engine t.data ≠ "jinja2".toList) (f : Str)
    (hf : f ∈ fixedFields) (hm : t.data.lookup ('_' :: f) = none) :
    ∃ v, ∀ filter rs us, instantiateAll lib.jinja filter t rs = .ok us → ∀ u ∈ us, recordValue lib u f = some v := by
  obtain ⟨names, cls, u0, _, hcls, hu0, hr⟩ := checkTemplate_nil h
  rw [hc] at hcls
  cases hcls
  have hm0 := one_made hu0
  have hinv : checkInvariant lib u0 f = some [] := by
    have : ∀ f ∈ fixedFields, ∃ r ∈ rules .job, r.field = f ∧ r.variant = false := by decide +kernel
    have := this f hf
    obtain ⟨r, hr1, rfl, hr3⟩ := this
    have := (checkRule_nil (hr r hr1)).2
    rwa [hr3, if_neg (by simp)] at this
  unfold checkInvariant at hinv
  have hkey : ∀ filter rs us, instantiateAll lib.jinja filter t rs = .ok us → ∀ u ∈ us,
      u.data.lookup ('_' :: f) = none ∧ u.data.lookup f = u0.data.lookup f ∧ engine u.data = engine t.data := by
    intro filter rs us hus u hu
    obtain ⟨cls, r, i, hmu⟩ := all_made hus u hu
    exact ⟨by rw [marked_field hmu, hm], same_data hmu hm0 f, made_engine hmu⟩
  cases hv : u0.data.lookup f with
  | none =>
    refine ⟨none, fun filter rs us hus u hu => ?_⟩
    obtain ⟨h1, h2, h3⟩ := hkey filter rs us hus u hu
    unfold recordValue
    rw [h1, h2, hv]
    rfl
  | some text =>
    rw [hv] at hinv
    simp only [accessed, made_engine hm0, if_neg he, pieces_fields] at hinv
    cases hp : pieces text with
    | none => rw [hp] at hinv; simp at hinv
    | some ps =>
      rw [hp] at hinv
      simp only [Option.map_some, Option.bind_some] at hinv
      have hfl : flds ps = [] := by
        by_cases hz : ((flds ps).map (·.1)).isEmpty = true
        · simpa using hz
        · rw [if_neg hz] at hinv
          exact absurd hinv report_nil
      obtain ⟨v, hv'⟩ := vformat_const lib ps hfl
      refine ⟨some v, fun filter rs us hus u hu => ?_⟩
      obtain ⟨h1, h2, h3⟩ := hkey filter rs us hus u hu
      unfold recordValue insert
      simp only [h1, h2, hv, h3, if_neg he, Option.none_or, Option.some_or]
      simp [hp, hv']

/-- The fields of jobs that must not be translated. (specification) -/
def plainFields : List Str :=
  (["plugin", "flags", "user", "environ", "estimated_duration", "shell", "imports", "category_id", "qml_file",
    "certification_status", "auto_retry", "unit", "id", "name"] : List String).map String.toList

theorem pieces_plain {s : Str} (h : '{' ∉ s ∧ '}' ∉ s) : pieces s = some (s.map .ch) := by
  have : ∀ (s : Str) (out : List Piece), '{' ∉ s ∧ '}' ∉ s → prun (.lit, out) s = some (.lit, out ++ s.map .ch) := by
    intro s
    induction s with
    | nil => intro out _; simp [prun]
    | cons c s ih =>
      intro out h
      simp only [List.mem_cons, not_or] at h
      simp only [prun, pstep, if_neg (Ne.symm h.1.1), if_neg (Ne.symm h.2.1), Option.bind_some]
      rw [ih _ ⟨h.1.2, h.2.2⟩]
      simp
  unfold pieces
  rw [this s [] h]
  rfl

theorem vformat_plain (lib : Lib) (params : List (Str × PVal)) (s : Str) : vformat lib params (s.map .ch) = some s := by
  induction s with
  | nil => rfl
  | cons c s ih => rw [List.map_cons, vformat, ih]; rfl

/-- **C93, part 4.** When nothing is found in a template of jobs, no field that must not be translated is marked for
translation with a text that has no parameters. -/
theorem C93_plain (lib : Lib) (upper : Str → Str) (t : Tmpl P O) (h : checkTemplate lib upper t = some ([], []))
    (hc : clsOf (templateUnit t.data) = some .job) (he : engine t.data ≠ "jinja2".toList) (f : Str)
    (hf : f ∈ plainFields) (s : Str) (hm : t.data.lookup ('_' :: f) = some s) (hs : '{' ∉ s ∧ '}' ∉ s) : s = [] := by
  obtain ⟨names, cls, u0, _, hcls, hu0, hr⟩ := checkTemplate_nil h
  rw [hc] at hcls
  cases hcls
  have hm0 := one_made hu0
  have hun : checkUntranslatable lib u0 f = some [] := by
    have : ∀ f ∈ plainFields, ∃ r ∈ rules .job, r.field = f ∧ r.plain = true := by decide +kernel
    obtain ⟨r, hr1, rfl, hr3⟩ := this f hf
    exact (checkRule_nil (hr r hr1)).1 hr3
  have hl : u0.data.lookup ('_' :: f) = some s := by rw [marked_field hm0, hm]
  have hv : recordValue lib u0 f = some (some s) := by
    unfold recordValue insert
    simp only [hl, Option.some_or, made_engine hm0, if_neg he]
    rw [pieces_plain hs, Option.bind_some, vformat_plain]
    rfl
  unfold checkUntranslatable at hun
  rw [hv, Option.bind_some] at hun
  by_cases hz : s = []
  · exact hz
  · rw [if_pos ⟨by simp, by simpa using hz, by rw [hl]; rfl⟩] at hun
    exact absurd hun report_nil

/-- Of a template about which nothing is found, the identifier mentions a parameter. -/
theorem id_mentions {lib : Lib} {upper : Str → Str} {t : Tmpl P O} (h : checkTemplate lib upper t = some ([], []))
    (hc : clsOf (templateUnit t.data) = some .job) (he : engine t.data ≠ "jinja2".toList) {text : Str}
    (hid : t.data.lookup "id".toList = some text) : ∃ fs, parseFormat text = some fs ∧ fs ≠ [] := by
  obtain ⟨names, cls, u0, _, hcls, hu0, hr⟩ := checkTemplate_nil h
  rw [hc] at hcls
  cases hcls
  have hm0 := one_made hu0
  have hvar : checkVariant lib u0 "id".toList = some [] := by
    have : ∃ r ∈ rules .job, r.field = "id".toList ∧ r.variant = true := by decide +kernel
    obtain ⟨r, hr1, hr2, hr3⟩ := this
    have := (checkRule_nil (hr r hr1)).2
    rwa [hr2, hr3, if_pos rfl] at this
  unfold checkVariant at hvar
  have hlk : u0.data.lookup "id".toList = some text := by
    rw [hm0.data, if_neg (by decide), if_neg (by decide), if_neg (by decide), hid]
  rw [hlk] at hvar
  simp only [accessed, made_engine hm0, if_neg he] at hvar
  cases hp : parseFormat text with
  | none => rw [hp] at hvar; simp at hvar
  | some fs =>
    refine ⟨fs, rfl, ?_⟩
    rintro rfl
    rw [hp] at hvar
    have := reports_nil hvar
    simp at this

/-- The identifier of a job, when it mentions one parameter. -/
theorem id_value {lib : Lib} {t : Tmpl P O} (he : engine t.data ≠ "jinja2".toList) {k : Str} {ps : List FPiece}
    (hid : t.data.lookup "id".toList = some (ps.map FPiece.src).flatten) (hmk : t.data.lookup "_id".toList = none)
    (hk : isPlain k = true) (hb : ∀ c ∈ k, c ∉ ['{', '}', '[', ':', '!']) (ho : Only k ps)
    {cls : Cls} {r : Res} {i : Nat} {u : Inst P O} (hu : MadeFrom lib.jinja t cls r i u) {v : PVal}
    (hv : u.params.lookup k = some v) : recordValue lib u "id".toList = some (some (glue (showVal v) ps)) := by
  have h1 : u.data.lookup "id".toList = some (ps.map FPiece.src).flatten := by
    rw [hu.data, if_neg (by decide), if_neg (by decide), if_neg (by decide), hid]
  have h2 : u.data.lookup ('_' :: "id".toList) = none := by rw [marked_field hu]; exact hmk
  unfold recordValue insert
  simp only [h1, h2, made_engine hu, if_neg he, Option.none_or, Option.some_or]
  simp [pieces_src hb ho, vformat_only lib hk hv ho]

theorem flds_of_fields {ps : List FPiece} (h : flds (ps.map toPieces).flatten ≠ []) :
    ∃ n cv s, FPiece.field n cv s ∈ ps := by
  induction ps with
  | nil => simp [flds] at h
  | cons p ps ih =>
    cases p with
    | field n cv s => exact ⟨n, cv, s, by simp⟩
    | text s =>
      rw [List.map_cons, List.flatten_cons, flds_append] at h
      have : flds (toPieces (.text s)) = [] := by
        simp [toPieces, flds, List.filterMap_eq_nil_iff]
      rw [this, List.nil_append] at h
      obtain ⟨n, cv, s', hm⟩ := ih h
      exact ⟨n, cv, s', by simp [hm]⟩

theorem id_mentioned {lib : Lib} {upper : Str → Str} {t : Tmpl P O} (h : checkTemplate lib upper t = some ([], []))
    (hc : clsOf (templateUnit t.data) = some .job) (he : engine t.data ≠ "jinja2".toList) {k : Str} {ps : List FPiece}
    (hid : t.data.lookup "id".toList = some (ps.map FPiece.src).flatten)
    (hb : ∀ c ∈ k, c ∉ ['{', '}', '[', ':', '!']) (ho : Only k ps) :
    (∃ n cv s, FPiece.field n cv s ∈ ps) ∧ ∃ ks, accessed lib.jinja (engine t.data) (ps.map FPiece.src).flatten = some ks ∧
      k ∈ ks := by
  obtain ⟨fs, h1, h2⟩ := id_mentions h hc he hid
  rw [pieces_fields, pieces_src hb ho] at h1
  simp only [Option.map_some, Option.some.injEq] at h1
  obtain ⟨n, cv, s, hm⟩ := flds_of_fields (ps := ps) (by rw [h1]; exact h2)
  refine ⟨⟨n, cv, s, hm⟩, ?_⟩
  obtain ⟨rfl, rfl, rfl⟩ := ho _ hm _ _ _ rfl
  refine ⟨fs.map (·.1), ?_, ?_⟩
  · rw [accessed, if_neg he, pieces_fields, pieces_src hb ho]
    simp [h1]
  · rw [← h1]
    refine List.mem_map.2 ⟨(n, []), ?_, rfl⟩
    refine List.mem_filterMap.2 ⟨.fld n none [], ?_, rfl⟩
    exact List.mem_flatten.2 ⟨_, List.mem_map_of_mem hm, by simp [toPieces]⟩

/-- **C93, part 2.** When nothing is found in a template of jobs whose identifier mentions one attribute of the resource
plainly, then jobs made from resources that have that attribute have identifiers, and these are equal just when the
attributes are. (With two attributes they may be equal otherwise: see `C93_distinct_violated`.) -/
theorem C93_distinct_partial (lib : Lib) (upper : Str → Str) (t : Tmpl P O)
    (h : checkTemplate lib upper t = some ([], [])) (hc : clsOf (templateUnit t.data) = some .job)
    (he : engine t.data ≠ "jinja2".toList) (k : Str) (hk : isPlain k = true) (hx : k ≠ "__index__".toList)
    (hb : ∀ c ∈ k, c ∉ ['{', '}', '[', ':', '!']) (ps : List FPiece) (ho : Only k ps)
    (hid : t.data.lookup "id".toList = some (ps.map FPiece.src).flatten) (hmk : t.data.lookup "_id".toList = none)
    (filter : Option (Res → FOut)) (rs : List Res) (us : List (Inst P O))
    (hus : instantiateAll lib.jinja filter t rs = .ok us) (i j : Nat) (r r' : Res) (u u' : Inst P O)
    (hr : (rs.filter fun r => decide (Accepts filter r))[i]? = some r) (hu : us[i]? = some u)
    (hr' : (rs.filter fun r => decide (Accepts filter r))[j]? = some r') (hu' : us[j]? = some u') (v v' : Str)
    (hv : r.lookup k = some v) (hv' : r'.lookup k = some v') :
    ∃ a b, recordValue lib u "id".toList = some (some a) ∧ recordValue lib u' "id".toList = some (some b) ∧
      (a = b ↔ v = v') := by
  obtain ⟨cls, _, _, hmade⟩ := C35_instantiate lib.jinja filter t rs us hus
  have hmu := hmade i r u hr hu
  have hmu' := hmade j r' u' hr' hu'
  obtain ⟨hfield, ks, hks, hkk⟩ := id_mentioned h hc he hid hb ho
  have key : ∀ r i u, MadeFrom lib.jinja t cls r i u → u.params.lookup k = (r.lookup k).map .str := by
    intro r i u hm
    refine hm.supplied k hx ⟨("id".toList, (ps.map FPiece.src).flatten), ?_, ks, ?_, hkk⟩
    · refine mem_of_lookup ?_
      rw [hm.data, if_neg (by decide), if_neg (by decide), if_neg (by decide), hid]
    · exact hks
  refine ⟨_, _, id_value he hid hmk hk hb ho hmu (by rw [key r _ u hmu, hv]; rfl),
    id_value he hid hmk hk hb ho hmu' (by rw [key r' _ u' hmu', hv']; rfl), ?_⟩
  constructor
  · exact fun e => glue_inj hfield e
  · intro e
    rw [e]

/-- **C93, part 3.** When nothing is found in a template of jobs whose identifier mentions only the number, then all jobs
have different identifiers. -/
theorem C93_numbered (lib : Lib) (upper : Str → Str) (t : Tmpl P O)
    (h : checkTemplate lib upper t = some ([], [])) (hc : clsOf (templateUnit t.data) = some .job)
    (he : engine t.data ≠ "jinja2".toList) (ps : List FPiece) (ho : Only "__index__".toList ps)
    (hid : t.data.lookup "id".toList = some (ps.map FPiece.src).flatten) (hmk : t.data.lookup "_id".toList = none)
    (filter : Option (Res → FOut)) (rs : List Res) (us : List (Inst P O))
    (hus : instantiateAll lib.jinja filter t rs = .ok us) (i j : Nat) (u u' : Inst P O)
    (hu : us[i]? = some u) (hu' : us[j]? = some u') :
    ∃ a b, recordValue lib u "id".toList = some (some a) ∧ recordValue lib u' "id".toList = some (some b) ∧
      (a = b ↔ i = j) := by
  obtain ⟨cls, _, hl, hmade⟩ := C35_instantiate lib.jinja filter t rs us hus
  have get : ∀ i u, us[i]? = some u → ∃ r, MadeFrom lib.jinja t cls r (i + 1) u := by
    intro i u hu
    obtain ⟨hi, -⟩ := List.getElem?_eq_some_iff.1 hu
    exact ⟨_, hmade i _ u (List.getElem?_eq_getElem (by omega)) hu⟩
  obtain ⟨r, hmu⟩ := get i u hu
  obtain ⟨r', hmu'⟩ := get j u' hu'
  have hb : ∀ c ∈ "__index__".toList, c ∉ ['{', '}', '[', ':', '!'] := by decide +kernel
  obtain ⟨hfield, -⟩ := id_mentioned h hc he hid hb ho
  refine ⟨_, _, id_value he hid hmk (by decide +kernel) hb ho hmu hmu.index,
    id_value he hid hmk (by decide +kernel) hb ho hmu' hmu'.index, ?_⟩
  constructor
  · intro e
    have := Checksum.digits_inj (glue_inj hfield e)
    omega
  · intro e
    rw [e]

/-! ## Examples -/

/-- A library that knows no other fields and no jinja2. -/
def exLib : Lib := ⟨fun _ _ _ _ => none, fun _ => none, fun _ _ => none⟩

/-- A template with these fields. -/
def exTmpl (fields : List (String × String)) : Tmpl Unit Unit :=
  ⟨fields.map fun f => (f.1.toList, f.2.toList), fields.map fun f => (f.1.toList, f.2.toList), (), ()⟩

/-- A resource with these attributes. -/
def exRes (fields : List (String × String)) : Res := fields.map fun f => (f.1.toList, f.2.toList)

/-- A field of all the units made. -/
def column (t : Tmpl Unit Unit) (rs : List Res) (f : String) : List (Option (Option Str)) :=
  match instantiateAll exLib.jinja none t rs with
  | .ok us => us.map fun u => recordValue exLib u f.toList
  | .error _ => []

/-- A template of jobs. -/
def diskTmpl : Tmpl Unit Unit :=
  exTmpl [("template-resource", "disk"), ("id", "disk/{{{name}}}-{name}"), ("plugin", "shell"), ("command", "x {path}"),
    ("flags", "a{{}}")]

example : checkTemplate exLib id diskTmpl = some ([], []) := by decide +kernel

example : column diskTmpl [exRes [("name", "sda"), ("path", "p")], exRes [("name", "sdb"), ("path", "p")]] "id" =
    [some (some "disk/{sda}-sda".toList), some (some "disk/{sdb}-sdb".toList)] := by decide +kernel

example (us : List (Inst Unit Unit)) (rs : List Res) (h : instantiateAll exLib.jinja none diskTmpl rs = .ok us) :
    ∃ v, ∀ u ∈ us, recordValue exLib u "flags".toList = some v := by
  obtain ⟨v, hv⟩ := C93_fixed exLib id diskTmpl (by decide +kernel) (by decide +kernel) (by decide +kernel) "flags".toList
    (by decide +kernel) (by decide +kernel)
  exact ⟨v, hv none rs us h⟩

example (us : List (Inst Unit Unit)) (u u' : Inst Unit Unit)
    (h : instantiateAll exLib.jinja none diskTmpl [exRes [("name", "sda")], exRes [("name", "sdb")]] = .ok us)
    (hu : us[0]? = some u) (hu' : us[1]? = some u') :
    ∃ a b, recordValue exLib u "id".toList = some (some a) ∧ recordValue exLib u' "id".toList = some (some b) ∧ a ≠ b := by
  obtain ⟨a, b, h1, h2, h3⟩ := C93_distinct_partial exLib id diskTmpl (by decide +kernel) (by decide +kernel)
    (by decide +kernel) "name".toList (by decide +kernel) (by decide +kernel) (by decide +kernel)
    [.text "disk/{".toList, .field "name".toList none none, .text "}-".toList, .field "name".toList none none]
    (by
      intro p hp n cv s e
      simp only [List.mem_cons, List.not_mem_nil, or_false] at hp
      rcases hp with rfl | rfl | rfl | rfl <;> cases e <;> exact ⟨rfl, rfl, rfl⟩)
    (by decide +kernel) (by decide +kernel) none _ us h 0 1 _ _ u u' (by simp [Accepts]; rfl) hu
    (by simp [Accepts]; rfl) hu' "sda".toList "sdb".toList (by decide +kernel) (by decide +kernel)
  exact ⟨a, b, h1, h2, fun e => absurd (h3.1 e) (by decide +kernel)⟩

/-- A template of jobs whose identifiers have numbers. -/
def numTmpl : Tmpl Unit Unit :=
  exTmpl [("template-resource", "disk"), ("id", "disk-{__index__}"), ("plugin", "shell")]

example (us : List (Inst Unit Unit)) (rs : List Res) (h : instantiateAll exLib.jinja none numTmpl rs = .ok us) (i j : Nat)
    (u u' : Inst Unit Unit) (hu : us[i]? = some u) (hu' : us[j]? = some u') :
    ∃ a b, recordValue exLib u "id".toList = some (some a) ∧ recordValue exLib u' "id".toList = some (some b) ∧
      (a = b ↔ i = j) :=
  C93_numbered exLib id numTmpl (by decide +kernel) (by decide +kernel) (by decide +kernel)
    [.text "disk-".toList, .field "__index__".toList none none]
    (by
      intro p hp n cv s e
      simp only [List.mem_cons, List.not_mem_nil, or_false] at hp
      rcases hp with rfl | rfl <;> cases e <;> exact ⟨rfl, rfl, rfl⟩)
    (by decide +kernel) (by decide +kernel) none rs us h i j u u' hu hu'

/-! ## Where it fails -/

/-- A field that must not be translated and is marked is reported. -/
example : checkTemplate exLib id (exTmpl [("id", "{a}"), ("_plugin", "shell")]) = some ([.marked "plugin".toList], []) := by
  decide +kernel

/-- An empty one is not. -/
example : checkTemplate exLib id (exTmpl [("id", "{a}"), ("plugin", "shell"), ("_user", "")]) = some ([], []) := by
  decide +kernel

/-- Different values of two attributes can give the same identifier. -/
theorem C93_distinct_violated :
    checkTemplate exLib id (exTmpl [("id", "{a}{b}"), ("plugin", "shell")]) = some ([], []) ∧
    column (exTmpl [("id", "{a}{b}"), ("plugin", "shell")])
      [exRes [("a", "x"), ("b", "yz")], exRes [("a", "xy"), ("b", "z")]] "id" =
        [some (some "xyz".toList), some (some "xyz".toList)] := by decide +kernel

/-- Whether a field varies is not looked at when it is marked for translation: a summary that must vary may then be the
same for all jobs. -/
theorem C93_marked_violated :
    checkTemplate exLib id (exTmpl [("id", "{a}"), ("summary", "disk")]) = some ([.constant "summary".toList], []) ∧
    checkTemplate exLib id (exTmpl [("id", "{a}"), ("_summary", "disk")]) = some ([], []) ∧
    column (exTmpl [("id", "{a}"), ("_summary", "disk")]) [exRes [("a", "x")], exRes [("a", "y")]] "summary" =
      [some (some "disk".toList), some (some "disk".toList)] := by decide +kernel

/-- That no unit can be made from a template gets into the list of the validator, but is not yielded. -/
theorem C93_unable_violated :
    checkTemplate exLib id (exTmpl [("template-unit", "test plan"), ("id", "{a}")]) = some ([], [.unable]) ∧
    checkTemplate exLib id (exTmpl [("template-unit", "jobs"), ("id", "{a}")]) = some ([], [.unable]) ∧
    instantiateAll exLib.jinja none (exTmpl [("template-unit", "test plan"), ("id", "{a}")]) [exRes [("a", "x")]] =
      .error .assertionError ∧
    instantiateAll exLib.jinja none (exTmpl [("template-unit", "jobs"), ("id", "{a}")]) [exRes [("a", "x")]] =
      .error .keyError := by decide +kernel

/-- A brace in a field that is only about the template ends the validation with an exception, although units can be made
from it. -/
theorem C93_filter_violated :
    checkTemplate exLib id (exTmpl [("template-filter", "disk.name != '{'"), ("id", "{a}")]) = none ∧
    column (exTmpl [("template-filter", "disk.name != '{'"), ("id", "{a}")]) [exRes [("a", "x")]] "id" =
      [some (some "x".toList)] := by decide +kernel

theorem checkRules_all {lib : Lib} {u : Inst P O} {rs : List Rule} {is : List Issue} (h : checkRules lib u rs = some is) :
    ∀ r ∈ rs, ∃ a, checkRule lib u r = some a := by
  induction rs generalizing is with
  | nil => simp
  | cons r rs ih =>
    rw [checkRules] at h
    cases h1 : checkRule lib u r with
    | none => rw [h1] at h; simp at h
    | some a =>
      cases h2 : checkRules lib u rs with
      | none => rw [h1, h2] at h; simp at h
      | some b =>
        intro r' hr'
        rcases List.mem_cons.1 hr' with rfl | hr'
        · exact ⟨a, h1⟩
        · exact ih h2 r' hr'

/-- That the identifier of a job mentions an attribute which its resource does not have is never reported: reading the
identifier ends the validation with an exception. -/
theorem C93_unknown_violated (lib : Lib) (u : Inst P O) (h : recordValue lib u "id".toList = none) :
    checkRules lib u (rules .job) = none := by
  cases hc : checkRules lib u (rules .job) with
  | none => rfl
  | some is =>
    obtain ⟨a, ha⟩ := checkRules_all hc ⟨"id".toList, true, true⟩ (by simp [rules])
    unfold checkRule checkUntranslatable at ha
    simp only [h] at ha
    simp at ha

example : ∃ u, instantiateAll exLib.jinja none (exTmpl [("id", "{a}")]) [exRes [("b", "x")]] = .ok [u] ∧
    recordValue exLib u "id".toList = none :=
  ⟨⟨.job, exRes [("id", "{a}"), ("template-engine", "default"), ("unit", "job")],
    .rawData (exRes [("id", "{a}"), ("template-engine", "default"), ("unit", "job")]), .origin (), .provider (),
    [("__index__".toList, .num 1)]⟩, by decide +kernel⟩

end Verif.Varies
