import Verif.Model.Sheet
import Verif.Lemmas.Sort

/-!
# C75: the spreadsheet report shows the results

`C75_complete`: when a report can be made at all; `C75_rows_partial`: what it shows; `C75_once`: every job
once; `C75_totals`: the totals; `C75_log`, `C75_cells`: the texts; `C75_attachments`: the sheet of log files.
`C75_unknown_category_violated`, `C75_clash_violated`, `C75_binary_violated`, `C75_outcome_violated`,
`C75_again_violated`, `C75_crash_violated`, `C75_local_violated`: what goes wrong.
-/

set_option linter.unusedSimpArgs false

namespace Verif.Sheet

open Verif.Sort

/-! ## Specification -/

/-- The name of the category of a job. -/
def nameOf (categories : List (Str × Str)) (e : Entry) : Option Str := get e.category categories

/-- The jobs of a category. -/
def ofCat (categories : List (Str × Str)) (entries : List (Str × Entry)) (name : Str) : List (Str × Entry) :=
  entries.filter fun e => nameOf categories e.2 == some name

/-- Failed if a job failed, else passed if a job passed, else skipped. -/
def statusSpec (outs : List Outcome) : Outcome :=
  if .fail ∈ outs then .fail else if .pass ∈ outs then .pass else .skip

/-- What a row shows. -/
inductive Content
  | category (name : Str) (status : Outcome)
  | job (id summary : Str) (outcome : Outcome) (certification log comments : Str)
  deriving DecidableEq, Repr

def Row.content : Row → Content
  | .category _ n s => .category n s
  | .job _ i s o c l m => .job i s o c l m

def Row.line : Row → Nat
  | .category l _ _ => l
  | .job l _ _ _ _ _ _ => l

/-- The job a row is of. -/
def Row.jobId : Row → Option Str
  | .category _ _ _ => none
  | .job _ i _ _ _ _ _ => some i

/-- The outcome a row of a job shows. -/
def Row.jobOutcome : Row → Option Outcome
  | .category _ _ _ => none
  | .job _ _ _ o _ _ _ => some o

def isLocal (e : Entry) : Prop := e.plugin = some "local".toList

instance (e : Entry) : Decidable (isLocal e) := inferInstanceAs (Decidable (_ = _))

/-- What is shown of a job. -/
def jobContent (id : Str) (e : Entry) : Content :=
  .job id e.summary e.outcome (certCell e.certification) ((logCell e).getD []) (commentCell e.comments)

/-- In strictly ascending order. -/
def Ascending (l : List Str) : Prop := l.Pairwise fun a b => strLe a b = true ∧ a ≠ b

/-- The conditions for a report. -/
structure Good (categories : List (Str × Str)) (entries : List (Str × Entry)) : Prop where
  known : ∀ e ∈ entries, ∃ n, nameOf categories e.2 = some n
  apart : ∀ e ∈ entries, ∀ e' ∈ entries, nameOf categories e'.2 ≠ some e.1
  plugin : ∀ e ∈ entries, e.2.plugin ≠ none
  outcome : ∀ e ∈ entries, ¬ isLocal e.2 → e.2.outcome.known = true
  text : ∀ e ∈ entries, ¬ isLocal e.2 → logCell e.2 ≠ none

/-! ## Lemmas -/

theorem flatMap_ext {A B : Type} {f g : A → List B} {l : List A} (h : ∀ a ∈ l, f a = g a) :
    l.flatMap f = l.flatMap g := by
  induction l with
  | nil => rfl
  | cons a l ih =>
    rw [List.flatMap_cons, List.flatMap_cons, h a List.mem_cons_self,
      ih fun b hb => h b (List.mem_cons_of_mem _ hb)]

theorem filterMap_ext {A B : Type} {f g : A → Option B} {l : List A} (h : ∀ a ∈ l, f a = g a) :
    l.filterMap f = l.filterMap g := by
  induction l with
  | nil => rfl
  | cons a l ih =>
    rw [List.filterMap_cons, List.filterMap_cons, h a List.mem_cons_self,
      ih fun b hb => h b (List.mem_cons_of_mem _ hb)]

theorem get_mem {V : Type} {k : Str} {v : V} {d : List (Str × V)} (h : get k d = some v) : (k, v) ∈ d := by
  induction d with
  | nil => cases h
  | cons e d ih =>
    rw [get] at h
    by_cases hk : e.1 = k
    · rw [if_pos hk] at h
      cases h
      rw [← hk]
      exact List.mem_cons_self
    · rw [if_neg hk] at h
      exact List.mem_cons_of_mem _ (ih h)

theorem get_of_mem {V : Type} {d : List (Str × V)} (hn : (d.map (·.1)).Nodup) {e : Str × V} (he : e ∈ d) :
    get e.1 d = some e.2 := by
  induction d with
  | nil => exact absurd he List.not_mem_nil
  | cons x d ih =>
    rw [List.map_cons, List.nodup_cons] at hn
    rw [get]
    rcases List.mem_cons.mp he with rfl | he
    · rw [if_pos rfl]
    · rw [if_neg (fun h : x.1 = e.1 => hn.1 (by rw [h]; exact List.mem_map_of_mem he)), ih hn.2 he]

theorem get_none {V : Type} {k : Str} {d : List (Str × V)} : get k d = none ↔ k ∉ d.map (·.1) := by
  induction d with
  | nil => exact ⟨fun _ => List.not_mem_nil, fun _ => rfl⟩
  | cons x d ih =>
    rw [get, List.map_cons, List.mem_cons]
    by_cases h : x.1 = k
    · rw [if_pos h]
      exact ⟨fun h' => (by cases h'), fun h' => absurd (Or.inl h.symm) h'⟩
    · rw [if_neg h, ih]
      exact ⟨fun h' h'' => h''.elim (fun e => h e.symm) h', fun h' h'' => h' (Or.inr h'')⟩

theorem get_cons_eq {V : Type} {k : Str} {e : Str × V} {d : List (Str × V)} (h : e.1 = k) :
    get k (e :: d) = some e.2 := by rw [get, if_pos h]

theorem get_cons_ne {V : Type} {k : Str} {e : Str × V} {d : List (Str × V)} (h : e.1 ≠ k) :
    get k (e :: d) = get k d := by rw [get, if_neg h]

theorem status_snoc (outs : List Outcome) (o : Outcome) :
    childStatus (if outs = [] then none else some (statusSpec outs)) o = some (statusSpec (outs ++ [o])) := by
  by_cases h0 : outs = []
  · rw [if_pos h0, h0]
    unfold childStatus statusSpec
    cases o <;> simp
  · rw [if_neg h0]
    unfold childStatus statusSpec
    simp only [List.mem_append, List.mem_singleton]
    by_cases h1 : Outcome.fail ∈ outs <;> by_cases h2 : Outcome.pass ∈ outs <;>
      by_cases h3 : o = .fail <;> by_cases h4 : o = .pass <;>
      simp [h1, h2, h3, h4, eq_comm]

/-- What `_tree` has for a category after the jobs `done`. -/
def catOf (categories : List (Str × Str)) (done : List (Str × Entry)) (name : Str) : Option Cat :=
  if ofCat categories done name = [] then none
  else some ⟨some (statusSpec ((ofCat categories done name).map (·.2.outcome))),
    (ofCat categories done name).map (·.1)⟩

theorem catOf_nil {categories : List (Str × Str)} {done : List (Str × Entry)} {name : Str}
    (h : ofCat categories done name = []) : catOf categories done name = none := if_pos h

theorem catOf_ne {categories : List (Str × Str)} {done l : List (Str × Entry)} {name : Str}
    (hl : ofCat categories done name = l) (h : l ≠ []) :
    catOf categories done name = some ⟨some (statusSpec (l.map (·.2.outcome))), l.map (·.1)⟩ := by
  subst hl
  exact if_neg h

theorem addJob_keys (name id : Str) (o : Outcome) (t : List (Str × Cat)) :
    (addJob name id o t).map (·.1) = if name ∈ t.map (·.1) then t.map (·.1) else t.map (·.1) ++ [name] := by
  induction t with
  | nil => rfl
  | cons e t ih =>
    rw [addJob]
    by_cases h : e.1 = name
    · rw [if_pos h, List.map_cons, List.map_cons, if_pos (by rw [h]; exact List.mem_cons_self), h]
    · rw [if_neg h, List.map_cons, ih, List.map_cons]
      by_cases hm : name ∈ t.map (·.1)
      · rw [if_pos hm, if_pos (List.mem_cons_of_mem _ hm)]
      · rw [if_neg hm, if_neg]
        · rfl
        · intro hm'
          rcases List.mem_cons.mp hm' with e' | hm'
          · exact h e'.symm
          · exact hm hm'

theorem addJob_get (name id : Str) (o : Outcome) (t : List (Str × Cat)) (k : Str) :
    get k (addJob name id o t) =
      if k = name then
        some ⟨childStatus ((get name t).bind (·.status)) o, ((get name t).map (·.jobs)).getD [] ++ [id]⟩
      else get k t := by
  induction t with
  | nil =>
    unfold addJob
    by_cases h : k = name
    · subst h; rw [if_pos rfl]; exact get_cons_eq rfl
    · rw [get_cons_ne (Ne.symm h), if_neg h]
  | cons e t ih =>
    rw [addJob]
    by_cases he : e.1 = name
    · rw [if_pos he]
      by_cases h : k = name
      · subst h
        rw [if_pos rfl, get_cons_eq he]
        exact get_cons_eq rfl
      · rw [get_cons_ne (Ne.symm h), if_neg h, get_cons_ne (fun h' => h (h'.symm.trans he))]
    · rw [if_neg he]
      by_cases hk : e.1 = k
      · rw [get_cons_eq hk, if_neg (fun h' => he (hk.trans h')), get_cons_eq hk]
      · rw [get_cons_ne hk, ih, get_cons_ne he, get_cons_ne hk]

theorem ofCat_snoc (categories : List (Str × Str)) (done : List (Str × Entry)) (e : Str × Entry) (k : Str) :
    ofCat categories (done ++ [e]) k =
      if nameOf categories e.2 = some k then ofCat categories done k ++ [e] else ofCat categories done k := by
  unfold ofCat
  rw [List.filter_append, List.filter_cons]
  by_cases h : nameOf categories e.2 = some k
  · rw [if_pos h, if_pos (by simpa using h)]; rfl
  · rw [if_neg h, if_neg (by simpa using h)]; simp

theorem tree_spec (categories : List (Str × Str)) : ∀ (rest done : List (Str × Entry)) (t : List (Str × Cat)),
    (t.map (·.1)).Nodup → (∀ k, get k t = catOf categories done k) →
    (tree categories rest t = none ∧ ∃ e ∈ rest, nameOf categories e.2 = none) ∨
    ((∀ e ∈ rest, ∃ n, nameOf categories e.2 = some n) ∧
      ∃ t', tree categories rest t = some t' ∧ (t'.map (·.1)).Nodup ∧
        ∀ k, get k t' = catOf categories (done ++ rest) k)
  | [], done, t, hn, hg => by
    refine Or.inr ⟨fun e he => absurd he List.not_mem_nil, t, rfl, hn, ?_⟩
    rw [List.append_nil]
    exact hg
  | e :: rest, done, t, hn, hg => by
    rw [tree]
    cases hc : get e.2.category categories with
    | none => exact Or.inl ⟨rfl, e, List.mem_cons_self, hc⟩
    | some name =>
      dsimp only
      have hn' : ((addJob name e.1 e.2.outcome t).map (·.1)).Nodup := by
        rw [addJob_keys]
        by_cases hm : name ∈ t.map (·.1)
        · rw [if_pos hm]; exact hn
        · rw [if_neg hm]
          exact List.nodup_append.mpr ⟨hn, by simp, fun a ha b hb => by
            rw [List.mem_singleton.mp hb]; exact fun h => hm (h ▸ ha)⟩
      have hg' : ∀ k, get k (addJob name e.1 e.2.outcome t) = catOf categories (done ++ [e]) k := by
        intro k
        rw [addJob_get]
        have hne : nameOf categories e.2 = some name := hc
        by_cases hk : k = name
        · subst hk
          have hsn : ofCat categories (done ++ [e]) k = ofCat categories done k ++ [e] := by
            rw [ofCat_snoc, if_pos hne]
          rw [if_pos rfl, hg, catOf_ne hsn (by simp)]
          have := status_snoc ((ofCat categories done k).map (·.2.outcome)) e.2.outcome
          by_cases h0 : ofCat categories done k = []
          · rw [catOf_nil h0, h0]
            rw [h0, List.map_nil, if_pos rfl] at this
            show some (Cat.mk (childStatus none e.2.outcome) [e.1]) = _
            rw [this]
            rfl
          · rw [catOf_ne rfl h0]
            rw [if_neg (by simpa using h0)] at this
            show some (Cat.mk (childStatus (some _) e.2.outcome) (_ ++ [e.1])) = _
            rw [this, List.map_append, List.map_append]
            rfl
        · rw [if_neg hk, hg]
          have hsn : ofCat categories (done ++ [e]) k = ofCat categories done k := by
            rw [ofCat_snoc, if_neg]
            rw [hne]
            exact fun h => hk (Option.some.inj h).symm
          unfold catOf
          rw [hsn]
      rcases tree_spec categories rest (done ++ [e]) _ hn' hg' with ⟨h1, x, hx, h2⟩ | ⟨h1, t', h2, h3, h4⟩
      · exact Or.inl ⟨h1, x, List.mem_cons_of_mem _ hx, h2⟩
      · refine Or.inr ⟨?_, t', h2, h3, ?_⟩
        · intro x hx
          rcases List.mem_cons.mp hx with rfl | hx
          · exact ⟨name, hc⟩
          · exact h1 x hx
        · intro k
          rw [h4 k, List.append_assoc]
          rfl

/-- The condition for the row of a job. -/
def JobOk (entries : List (Str × Entry)) (cats : List (Str × Cat)) (id : Str) : Prop :=
  get id cats = none ∧ ∃ e p, get id entries = some e ∧ e.plugin = some p ∧
    (p ≠ "local".toList → e.outcome.known = true ∧ logCell e ≠ none)

/-- What is shown of a job, nothing for local jobs. -/
def shown (entries : List (Str × Entry)) (id : Str) : Option Content :=
  match get id entries with
  | none => none
  | some e => if isLocal e then none else some (jobContent id e)

/-- One step: rows and numbers. -/
structure Step (s s' : State) (cs : List Content) : Prop where
  rows : ∃ rs, s'.rows = s.rows ++ rs ∧ rs.map Row.content = cs ∧
    rs.map Row.line = List.range' (s.line + 1) rs.length ∧
    s'.line = s.line + rs.length ∧
    s'.totals = (rs.filterMap Row.jobOutcome).foldl (fun t o => count o t) s.totals

theorem Step.refl (s : State) : Step s s [] := ⟨⟨[], by simp, rfl, rfl, rfl, rfl⟩⟩

theorem Step.trans {s s' s'' : State} {cs cs' : List Content} (h : Step s s' cs) (h' : Step s' s'' cs') :
    Step s s'' (cs ++ cs') := by
  obtain ⟨rs, h1, h2, h3, h4, h5⟩ := h.rows
  obtain ⟨rs', h1', h2', h3', h4', h5'⟩ := h'.rows
  refine ⟨⟨rs ++ rs', ?_, ?_, ?_, ?_, ?_⟩⟩
  · rw [h1', h1, List.append_assoc]
  · rw [List.map_append, h2, h2']
  · rw [List.map_append, h3, h3', h4, List.length_append, ← List.range'_append_1,
      show s.line + rs.length + 1 = s.line + 1 + rs.length by omega]
  · rw [h4', h4, List.length_append]; omega
  · rw [h5', h5, List.filterMap_append, List.foldl_append]

theorem writeJob_ok {entries : List (Str × Entry)} {cats : List (Str × Cat)}
    (hc : ∀ id c, get id cats = some c → c.status ≠ none) (id : Str) (s : State) :
    (JobOk entries cats id ∧ ∃ s', writeJob entries cats id s = .ok s' ∧ Step s s' (shown entries id).toList) ∨
    (¬ JobOk entries cats id ∧ ∃ e, writeJob entries cats id s = .error e) := by
  unfold writeJob
  cases h1 : get id cats with
  | some c =>
    dsimp only
    rw [if_neg (hc id c h1)]
    exact Or.inr ⟨fun h => (by rw [h.1] at h1; cases h1), _, rfl⟩
  | none =>
    dsimp only
    cases h2 : get id entries with
    | none => exact Or.inr ⟨fun ⟨_, e, _, h, _⟩ => (by rw [h2] at h; cases h), _, rfl⟩
    | some e =>
      dsimp only
      cases h3 : e.plugin with
      | none =>
        refine Or.inr ⟨?_, _, rfl⟩
        rintro ⟨_, e', p, h, hp, _⟩
        rw [h2] at h
        cases h
        rw [h3] at hp
        cases hp
      | some p =>
        dsimp only
        by_cases h4 : p = "local".toList
        · rw [if_pos h4]
          refine Or.inl ⟨⟨h1, e, p, h2, h3, fun h => absurd h4 h⟩, s, rfl, ?_⟩
          unfold shown
          rw [h2]
          dsimp only
          rw [if_pos (show isLocal e by unfold isLocal; rw [h3, h4])]
          exact Step.refl s
        · rw [if_neg h4]
          have hnl : ¬ isLocal e := by
            unfold isLocal
            rw [h3]
            exact fun h => h4 (Option.some.inj h)
          by_cases h5 : e.outcome.known = false
          · rw [if_pos h5]
            refine Or.inr ⟨?_, _, rfl⟩
            rintro ⟨_, e', p', h, hp, hq⟩
            rw [h2] at h
            cases h
            rw [h3] at hp
            cases hp
            rw [(hq h4).1] at h5
            cases h5
          · rw [if_neg h5]
            cases h6 : logCell e with
            | none =>
              refine Or.inr ⟨?_, _, rfl⟩
              rintro ⟨_, e', p', h, hp, hq⟩
              rw [h2] at h
              cases h
              rw [h3] at hp
              cases hp
              exact (hq h4).2 h6
            | some log =>
              refine Or.inl ⟨⟨h1, e, p, h2, h3, fun _ => ⟨by simpa using h5, by rw [h6]; simp⟩⟩, _, rfl, ?_⟩
              unfold shown
              rw [h2]
              dsimp only
              rw [if_neg hnl]
              refine ⟨⟨[_], rfl, ?_, rfl, rfl, rfl⟩⟩
              show [Content.job _ _ _ _ _ _] = [jobContent id e]
              unfold jobContent
              rw [h6]
              rfl

theorem writeJobs_ok {entries : List (Str × Entry)} {cats : List (Str × Cat)}
    (hc : ∀ id c, get id cats = some c → c.status ≠ none) : ∀ (ids : List Str) (s : State),
    ((∀ id ∈ ids, JobOk entries cats id) ∧
      ∃ s', writeJobs entries cats ids s = .ok s' ∧ Step s s' (ids.filterMap (shown entries))) ∨
    ((∃ id ∈ ids, ¬ JobOk entries cats id) ∧ ∃ e, writeJobs entries cats ids s = .error e)
  | [], s => Or.inl ⟨fun _ h => absurd h List.not_mem_nil, s, rfl, Step.refl s⟩
  | id :: ids, s => by
    rw [writeJobs]
    rcases writeJob_ok hc id s with ⟨h1, s', h2, h3⟩ | ⟨h1, e, h2⟩
    · rw [h2]
      dsimp only
      rcases writeJobs_ok hc ids s' with ⟨h4, s'', h5, h6⟩ | ⟨⟨x, hx, h4⟩, e, h5⟩
      · refine Or.inl ⟨?_, s'', h5, ?_⟩
        · intro x hx
          rcases List.mem_cons.mp hx with rfl | hx
          · exact h1
          · exact h4 x hx
        · have := h3.trans h6
          rw [List.filterMap_cons]
          cases hs : shown entries id with
          | none => rw [hs] at this; exact this
          | some c => rw [hs] at this; exact this
      · exact Or.inr ⟨⟨x, List.mem_cons_of_mem _ hx, h4⟩, e, h5⟩
    · rw [h2]
      exact Or.inr ⟨⟨id, List.mem_cons_self, h1⟩, e, rfl⟩

theorem statusSpec_known (outs : List Outcome) : (statusSpec outs).known = true := by
  unfold statusSpec
  split
  · rfl
  · split <;> rfl

/-- The rows of a category. -/
def block (entries : List (Str × Entry)) (e : Str × Cat) : List Content :=
  .category e.1 (e.2.status.getD .skip) :: (sortBy jobLe e.2.jobs).filterMap (shown entries)

theorem writeCats_ok {entries : List (Str × Entry)} {cats : List (Str × Cat)}
    (hc : ∀ id c, get id cats = some c → c.status ≠ none) : ∀ (es : List (Str × Cat)) (s : State),
    (∀ e ∈ es, e.2.jobs ≠ [] ∧ ∃ st, e.2.status = some st ∧ st.known = true) →
    ((∀ e ∈ es, ∀ id ∈ e.2.jobs, JobOk entries cats id) ∧
      ∃ s', writeCats entries cats es s = .ok s' ∧ Step s s' (es.flatMap (block entries))) ∨
    ((∃ e ∈ es, ∃ id ∈ e.2.jobs, ¬ JobOk entries cats id) ∧ ∃ e, writeCats entries cats es s = .error e)
  | [], s, _ => Or.inl ⟨fun _ h => absurd h List.not_mem_nil, s, rfl, Step.refl s⟩
  | e :: es, s, he => by
    obtain ⟨hj, st, hst, hk⟩ := he e List.mem_cons_self
    rw [writeCats]
    have hw : writeCat entries cats e s = writeJobs entries cats (sortBy jobLe e.2.jobs)
        ⟨s.line + 1, s.rows ++ [.category (s.line + 1) e.1 st], s.totals⟩ := by
      unfold writeCat
      rw [hst]
      dsimp only
      rw [if_neg hj, if_neg (by rw [hk]; simp)]
    rw [hw]
    have h0 : Step s ⟨s.line + 1, s.rows ++ [.category (s.line + 1) e.1 st], s.totals⟩
        [.category e.1 (e.2.status.getD .skip)] := by
      refine ⟨⟨[_], rfl, ?_, rfl, rfl, rfl⟩⟩
      rw [hst]
      rfl
    have hmem : ∀ id, id ∈ sortBy jobLe e.2.jobs ↔ id ∈ e.2.jobs := fun id => (sortBy_perm _).mem_iff
    rcases writeJobs_ok hc (sortBy jobLe e.2.jobs)
      ⟨s.line + 1, s.rows ++ [.category (s.line + 1) e.1 st], s.totals⟩ with ⟨h1, s', h2, h3⟩ | ⟨⟨x, hx, h1⟩, er, h2⟩
    · rw [h2]
      dsimp only
      rcases writeCats_ok hc es s' fun x hx => he x (List.mem_cons_of_mem _ hx) with
        ⟨h4, s'', h5, h6⟩ | ⟨⟨x, hx, h4⟩, er, h5⟩
      · refine Or.inl ⟨?_, s'', h5, ?_⟩
        · intro x hx
          rcases List.mem_cons.mp hx with rfl | hx
          · exact fun id hid => h1 id ((hmem id).mpr hid)
          · exact h4 x hx
        · rw [List.flatMap_cons]
          exact (h0.trans h3).trans h6
      · exact Or.inr ⟨⟨x, List.mem_cons_of_mem _ hx, h4⟩, er, h5⟩
    · rw [h2]
      exact Or.inr ⟨⟨e, List.mem_cons_self, x, (hmem x).mp hx, h1⟩, er, rfl⟩

theorem mem_ofCat {categories : List (Str × Str)} {entries : List (Str × Entry)} {name : Str}
    {e : Str × Entry} : e ∈ ofCat categories entries name ↔ e ∈ entries ∧ nameOf categories e.2 = some name := by
  unfold ofCat
  rw [List.mem_filter]
  simp

theorem catOf_some {categories : List (Str × Str)} {entries : List (Str × Entry)} {name : Str} {c : Cat}
    (h : catOf categories entries name = some c) :
    c.status = some (statusSpec ((ofCat categories entries name).map (·.2.outcome))) ∧
    c.jobs = (ofCat categories entries name).map (·.1) ∧ ofCat categories entries name ≠ [] := by
  unfold catOf at h
  by_cases h0 : ofCat categories entries name = []
  · rw [if_pos h0] at h; cases h
  · rw [if_neg h0] at h
    cases h
    exact ⟨rfl, rfl, h0⟩

theorem jobLe_eq (a b : Str) : jobLe a b = strLe a b := by
  unfold jobLe
  rw [strLe, if_neg (Nat.lt_irrefl _), if_pos rfl]

theorem sortJobs_ascending {ids : List Str} (hn : ids.Nodup) : Ascending (sortBy jobLe ids) := by
  have h1 := sortBy_sorted (le := jobLe) (fun a b => by rw [jobLe_eq, jobLe_eq]; exact strLe_total a b)
    (fun a b c => by rw [jobLe_eq, jobLe_eq, jobLe_eq]; exact strLe_trans a b c) ids
  have h2 : (sortBy jobLe ids).Nodup := (sortBy_perm ids).nodup_iff.mpr hn
  exact (h1.and h2).imp fun {a b} h => ⟨by rw [← jobLe_eq]; exact h.1, h.2⟩

theorem sortCats_ascending {cats : List (Str × Cat)} (hj : ∀ e ∈ cats, e.2.jobs ≠ [])
    (hn : (cats.map (·.1)).Nodup) : Ascending ((sortBy catLe cats).map (·.1)) := by
  have h1 := sortBy_sorted (le := catLe) (fun a b => strLe_total _ _) (fun a b c => strLe_trans _ _ _) cats
  have hp := sortBy_perm (le := catLe) cats
  have h2 : ((sortBy catLe cats).map (·.1)).Nodup := (hp.map _).nodup_iff.mpr hn
  unfold Ascending
  rw [List.pairwise_map]
  have h2' : (sortBy catLe cats).Pairwise fun a b => a.1 ≠ b.1 := List.pairwise_map.mp h2
  refine (h1.and h2').imp_of_mem ?_
  intro a b ha hb h
  refine ⟨?_, h.2⟩
  have h3 := h.1
  unfold catLe catKey at h3
  rw [if_neg (hj a (hp.mem_iff.mp ha)), if_neg (hj b (hp.mem_iff.mp hb)), strLe,
    if_neg (Nat.lt_irrefl _), if_pos rfl] at h3
  exact h3

/-! ## What is shown -/

/-- All about a report: whether there is one, and its rows. -/
theorem dump_spec (categories : List (Str × Str)) {entries : List (Str × Entry)}
    (hn : (entries.map (·.1)).Nodup) (t : Totals) :
    (Good categories entries ∧ ∃ (names : List Str) (ids : Str → List Str) (rows : List Row),
      dump categories entries t
        = .ok (rows, (rows.filterMap Row.jobOutcome).foldl (fun t o => count o t) t) ∧
      Ascending names ∧ (∀ n, n ∈ names ↔ ∃ e ∈ entries, nameOf categories e.2 = some n) ∧
      (∀ n, Ascending (ids n) ∧ ∀ id, id ∈ ids n ↔ ∃ e, (id, e) ∈ entries ∧ nameOf categories e = some n) ∧
      rows.map Row.line = List.range' 6 rows.length ∧
      rows.map Row.content = names.flatMap fun n =>
        .category n (statusSpec ((ofCat categories entries n).map (·.2.outcome))) ::
          (ids n).filterMap (shown entries)) ∨
    (¬ Good categories entries ∧ ∃ e, dump categories entries t = .error e) := by
  unfold dump
  rcases tree_spec categories entries [] [] List.nodup_nil (fun k => rfl) with
    ⟨h1, e, he, h2⟩ | ⟨hknown, cats, hcats, hkeys, hget⟩
  · rw [h1]
    refine Or.inr ⟨fun hg => ?_, _, rfl⟩
    obtain ⟨n, hn⟩ := hg.known e he
    rw [h2] at hn
    cases hn
  rw [hcats]
  dsimp only
  rw [List.nil_append] at hget
  have hcat : ∀ e ∈ cats, catOf categories entries e.1 = some e.2 := fun e he => by
    rw [← hget, get_of_mem hkeys he]
  have hstat : ∀ id c, get id cats = some c → c.status ≠ none := by
    intro id c h
    rw [(catOf_some ((hget id).symm.trans h)).1]
    simp
  have hform : ∀ e ∈ sortBy catLe cats, e.2.jobs ≠ [] ∧ ∃ st, e.2.status = some st ∧ st.known = true := by
    intro e he
    have he : e ∈ cats := (sortBy_perm _).mem_iff.mp he
    obtain ⟨h1, h2, h3⟩ := catOf_some (hcat e he)
    refine ⟨by rw [h2]; simpa using h3, _, h1, statusSpec_known _⟩
  have hnames : ∀ n, n ∈ cats.map (·.1) ↔ ∃ e ∈ entries, nameOf categories e.2 = some n := by
    intro n
    constructor
    · intro hm
      obtain ⟨e, he, rfl⟩ := List.mem_map.mp hm
      obtain ⟨x, hx⟩ := List.exists_mem_of_ne_nil _ (catOf_some (hcat e he)).2.2
      exact ⟨x, mem_ofCat.mp hx⟩
    · rintro ⟨e, he, hne⟩
      refine Decidable.by_contra fun hm => ?_
      have h1 := get_none.mpr hm
      rw [hget] at h1
      unfold catOf at h1
      rw [if_neg (fun h0 => by
        have hx : e ∈ ofCat categories entries n := mem_ofCat.mpr ⟨he, hne⟩
        rw [h0] at hx
        exact List.not_mem_nil hx)] at h1
      cases h1
  have hgood : (∀ e ∈ sortBy catLe cats, ∀ id ∈ e.2.jobs, JobOk entries cats id) ↔ Good categories entries := by
    have hjobs : (∀ e ∈ sortBy catLe cats, ∀ id ∈ e.2.jobs, JobOk entries cats id) ↔
        ∀ e ∈ entries, JobOk entries cats e.1 := by
      constructor
      · intro h e he
        obtain ⟨n, hne⟩ := hknown e he
        obtain ⟨c, hc, hc1⟩ := List.mem_map.mp ((hnames n).mpr ⟨e, he, hne⟩)
        refine h c ((sortBy_perm _).mem_iff.mpr hc) e.1 ?_
        rw [(catOf_some (hcat c hc)).2.1]
        exact List.mem_map_of_mem (mem_ofCat.mpr ⟨he, by rw [hc1]; exact hne⟩)
      · intro h e he id hid
        have he : e ∈ cats := (sortBy_perm _).mem_iff.mp he
        rw [(catOf_some (hcat e he)).2.1] at hid
        obtain ⟨x, hx, rfl⟩ := List.mem_map.mp hid
        exact h x (mem_ofCat.mp hx).1
    rw [hjobs]
    constructor
    · intro h
      have hok : ∀ e ∈ entries, get e.1 cats = none ∧ ∃ p, e.2.plugin = some p ∧
          (p ≠ "local".toList → e.2.outcome.known = true ∧ logCell e.2 ≠ none) := by
        intro e he
        obtain ⟨h1, e', p, h2, h3⟩ := h e he
        rw [get_of_mem hn he] at h2
        cases h2
        exact ⟨h1, p, h3⟩
      have hnl : ∀ {e : Entry} {p : Str}, e.plugin = some p → ¬ isLocal e → p ≠ "local".toList := by
        intro e p hp hl hpl
        exact hl (show e.plugin = _ by rw [hp, hpl])
      refine ⟨hknown, ?_, ?_, ?_, ?_⟩
      · intro e he e' he' hne
        exact get_none.mp (hok e he).1 ((hnames e.1).mpr ⟨e', he', hne⟩)
      · intro e he hp
        obtain ⟨_, p, h2, _⟩ := hok e he
        rw [hp] at h2
        cases h2
      · intro e he hl
        obtain ⟨_, p, h2, h3⟩ := hok e he
        exact (h3 (hnl h2 hl)).1
      · intro e he hl
        obtain ⟨_, p, h2, h3⟩ := hok e he
        exact (h3 (hnl h2 hl)).2
    · intro hg e he
      refine ⟨get_none.mpr fun hm => ?_, ?_⟩
      · obtain ⟨e', he', hne⟩ := (hnames e.1).mp hm
        exact hg.apart e he e' he' hne
      · cases hp : e.2.plugin with
        | none => exact absurd hp (hg.plugin e he)
        | some p =>
          refine ⟨e.2, p, get_of_mem hn he, hp, fun hpl => ?_⟩
          have hl : ¬ isLocal e.2 := by
            unfold isLocal
            rw [hp]
            exact fun h => hpl (Option.some.inj h)
          exact ⟨hg.outcome e he hl, hg.text e he hl⟩
  rcases writeCats_ok hstat (sortBy catLe cats) ⟨5, [], t⟩ hform with ⟨h1, s', h2, h3⟩ | ⟨⟨e, he, id, hid, h1⟩, er, h2⟩
  · rw [h2]
    dsimp only
    refine Or.inl ⟨hgood.mp h1, (sortBy catLe cats).map (·.1),
      fun n => sortBy jobLe ((ofCat categories entries n).map (·.1)), s'.rows, ?_, ?_, ?_, ?_, ?_, ?_⟩
    · obtain ⟨rs, h4, _, _, _, h5⟩ := h3.rows
      rw [h5, h4]
      rfl
    · exact sortCats_ascending (fun e he => (hform e ((sortBy_perm _).mem_iff.mpr he)).1) hkeys
    · intro n
      rw [((sortBy_perm cats).map _).mem_iff]
      exact hnames n
    · intro n
      have hsub : ((ofCat categories entries n).map (·.1)).Nodup :=
        hn.sublist (List.Sublist.map _ List.filter_sublist)
      refine ⟨sortJobs_ascending hsub, fun id => ?_⟩
      rw [(sortBy_perm _).mem_iff, List.mem_map]
      constructor
      · rintro ⟨e, he, rfl⟩
        exact ⟨e.2, (mem_ofCat.mp he).1, (mem_ofCat.mp he).2⟩
      · rintro ⟨e, he, hne⟩
        exact ⟨(id, e), mem_ofCat.mpr ⟨he, hne⟩, rfl⟩
    · obtain ⟨rs, h4, _, h5, _, _⟩ := h3.rows
      rw [h4]
      exact h5
    · obtain ⟨rs, h4, h5, _, _, _⟩ := h3.rows
      rw [h4, List.nil_append, h5, List.flatMap_map]
      refine flatMap_ext fun e he => ?_
      have he : e ∈ cats := (sortBy_perm _).mem_iff.mp he
      obtain ⟨h6, h7, _⟩ := catOf_some (hcat e he)
      unfold block
      rw [h6, h7]
      rfl
  · rw [h2]
    refine Or.inr ⟨fun hg => h1 ?_, er, rfl⟩
    exact hgood.mpr hg e he id hid

/-- `C75_complete`: a report is made exactly if every category is known, no job has the name of a category as
its identifier, and every job has a plugin and, if it is not local, a known outcome and a log that is text (or
is not shown). -/
theorem C75_complete (categories : List (Str × Str)) {entries : List (Str × Entry)}
    (hn : (entries.map (·.1)).Nodup) (t : Totals) :
    (∃ r, dump categories entries t = .ok r) ↔ Good categories entries := by
  rcases dump_spec categories hn t with ⟨hg, _, _, rows, h, _⟩ | ⟨hg, e, h⟩
  · exact ⟨fun _ => hg, fun _ => ⟨_, h⟩⟩
  · refine ⟨fun ⟨r, hr⟩ => ?_, fun h => absurd h hg⟩
    rw [h] at hr
    cases hr

/-- `C75_rows_partial`: the rows are numbered consecutively; there is one for each category name in
alphabetical order, with the status of its jobs (failed if one failed, else passed if one passed, else
skipped), followed by the jobs of the category in the order of their identifiers, except for local jobs.
(Missing: reports that are not made, see `C75_complete`, and what the status hides, see
`C75_crash_violated` and `C75_local_violated`.) -/
theorem C75_rows_partial {categories : List (Str × Str)} {entries : List (Str × Entry)}
    (hn : (entries.map (·.1)).Nodup) (hg : Good categories entries) (t : Totals) :
    ∃ (names : List Str) (ids : Str → List Str) (rows : List Row) (t' : Totals),
      dump categories entries t = .ok (rows, t') ∧
      Ascending names ∧ (∀ n, n ∈ names ↔ ∃ e ∈ entries, nameOf categories e.2 = some n) ∧
      (∀ n, Ascending (ids n) ∧ ∀ id, id ∈ ids n ↔ ∃ e, (id, e) ∈ entries ∧ nameOf categories e = some n) ∧
      rows.map Row.line = List.range' 6 rows.length ∧
      rows.map Row.content = names.flatMap fun n =>
        .category n (statusSpec ((ofCat categories entries n).map (·.2.outcome))) ::
          (ids n).filterMap (shown entries) := by
  rcases dump_spec categories hn t with ⟨_, names, ids, rows, h⟩ | ⟨hg', _⟩
  · exact ⟨names, ids, rows, _, h⟩
  · exact absurd hg hg'

theorem ascending_nodup {l : List Str} (h : Ascending l) : l.Nodup := h.imp fun h => h.2

def Content.jobId : Content → Option Str
  | .category _ _ => none
  | .job i _ _ _ _ _ => some i

theorem shown_id {entries : List (Str × Entry)} {id i : Str} {c : Content} (h : shown entries id = some c)
    (hi : c.jobId = some i) : i = id := by
  unfold shown at h
  cases hg : get id entries with
  | none => rw [hg] at h; cases h
  | some e =>
    rw [hg] at h
    dsimp only at h
    by_cases hl : isLocal e
    · rw [if_pos hl] at h; cases h
    · rw [if_neg hl] at h
      cases h
      exact (Option.some.inj hi).symm

open Classical in
/-- `C75_once`: every job that is not local has exactly one row, and it shows its summary, outcome,
certification status, log and comments. -/
theorem C75_once {categories : List (Str × Str)} {entries : List (Str × Entry)}
    (hn : (entries.map (·.1)).Nodup) {t t' : Totals} {rows : List Row}
    (h : dump categories entries t = .ok (rows, t')) :
    (rows.filterMap Row.jobId).Nodup ∧
    (∀ id, id ∈ rows.filterMap Row.jobId ↔ ∃ e, (id, e) ∈ entries ∧ ¬ isLocal e) ∧
    (∀ e ∈ entries, ¬ isLocal e.2 → jobContent e.1 e.2 ∈ rows.map Row.content) := by
  have hg : Good categories entries := (C75_complete categories hn t).mp ⟨_, h⟩
  obtain ⟨names, ids, rows', t'', h', hnames, hmem, hids, _, hrows⟩ := C75_rows_partial hn hg t
  rw [h] at h'
  cases h'
  have hjid : rows.filterMap Row.jobId = (rows.map Row.content).filterMap Content.jobId := by
    rw [List.filterMap_map]
    refine filterMap_ext fun r _ => ?_
    cases r <;> rfl
  have hsh : ∀ id, (shown entries id).bind Content.jobId =
      if (∃ e, (id, e) ∈ entries ∧ ¬ isLocal e) then some id else none := by
    intro id
    unfold shown
    cases hge : get id entries with
    | none =>
      rw [if_neg]
      · rfl
      · rintro ⟨e, he, _⟩
        rw [get_of_mem hn he] at hge
        cases hge
    | some e =>
      dsimp only
      by_cases hl : isLocal e
      · rw [if_pos hl, if_neg]
        · rfl
        · rintro ⟨e', he', hl'⟩
          have := get_of_mem hn he'
          rw [hge] at this
          cases this
          exact hl' hl
      · rw [if_neg hl, if_pos ⟨e, get_mem hge, hl⟩]
        rfl
  have hflat : (rows.map Row.content).filterMap Content.jobId =
      names.flatMap fun n => (ids n).filterMap fun id => (shown entries id).bind Content.jobId := by
    rw [hrows, List.filterMap_flatMap]
    refine flatMap_ext fun n _ => ?_
    rw [List.filterMap_cons]
    show (List.filterMap Content.jobId _) = _
    rw [List.filterMap_filterMap]
  have hsub : ∀ n id, id ∈ (ids n).filterMap (fun id => (shown entries id).bind Content.jobId) ↔
      ∃ e, (id, e) ∈ entries ∧ nameOf categories e = some n ∧ ¬ isLocal e := by
    intro n id
    rw [List.mem_filterMap]
    constructor
    · rintro ⟨x, hx, he⟩
      rw [hsh] at he
      split at he
      · rename_i hex
        cases he
        obtain ⟨e, he1, he2⟩ := hex
        obtain ⟨e', he3, he4⟩ := ((hids n).2 id).mp hx
        have h1 := get_of_mem hn he1
        have h2 := get_of_mem hn he3
        rw [h1] at h2
        cases h2
        exact ⟨e, he1, he4, he2⟩
      · cases he
    · rintro ⟨e, he, hne, hl⟩
      exact ⟨id, ((hids n).2 id).mpr ⟨e, he, hne⟩, by rw [hsh, if_pos ⟨e, he, hl⟩]⟩
  refine ⟨?_, ?_, ?_⟩
  · rw [hjid, hflat]
    unfold List.Nodup
    rw [List.pairwise_flatMap]
    refine ⟨fun n _ => ?_, ?_⟩
    · refine List.Pairwise.filterMap _ ?_ (ascending_nodup (hids n).1)
      intro a a' haa b hb b' hb'
      rw [hsh] at hb hb'
      split at hb <;> split at hb' <;> cases hb <;> cases hb'
      exact haa
    · refine (ascending_nodup hnames).imp ?_
      intro a b hab x hx y hy hxy
      obtain ⟨e, he1, he2, _⟩ := (hsub a x).mp hx
      obtain ⟨e', he1', he2', _⟩ := (hsub b y).mp hy
      subst hxy
      have h1 := get_of_mem hn he1
      have h2 := get_of_mem hn he1'
      rw [h1] at h2
      cases h2
      rw [he2] at he2'
      exact hab (Option.some.inj he2')
  · intro id
    rw [hjid, hflat, List.mem_flatMap]
    constructor
    · rintro ⟨n, _, hx⟩
      obtain ⟨e, he1, _, he3⟩ := (hsub n id).mp hx
      exact ⟨e, he1, he3⟩
    · rintro ⟨e, he, hl⟩
      obtain ⟨n, hne⟩ := hg.known _ he
      exact ⟨n, (hmem n).mpr ⟨_, he, hne⟩, (hsub n id).mpr ⟨e, he, hne, hl⟩⟩
  · intro e he hl
    rw [hrows, List.mem_flatMap]
    obtain ⟨n, hne⟩ := hg.known _ he
    refine ⟨n, (hmem n).mpr ⟨_, he, hne⟩, List.mem_cons_of_mem _ (List.mem_filterMap.mpr ⟨e.1, ?_, ?_⟩)⟩
    · exact ((hids n).2 e.1).mpr ⟨e.2, he, hne⟩
    · unfold shown
      rw [get_of_mem hn he]
      exact if_neg hl

theorem foldl_count (os : List Outcome) (t : Totals) :
    os.foldl (fun t o => count o t) t = ⟨t.total + os.length, t.pass + os.count .pass, t.fail + os.count .fail,
      t.skip + os.countP fun o => o != .pass && o != .fail⟩ := by
  induction os generalizing t with
  | nil => rfl
  | cons o os ih =>
    rw [List.foldl_cons, ih]
    unfold count
    cases o <;> simp <;> omega

theorem outcomes_length (rows : List Row) :
    (rows.filterMap Row.jobOutcome).length = (rows.filterMap Row.jobId).length := by
  induction rows with
  | nil => rfl
  | cons r rows ih => cases r <;> simp [List.filterMap_cons, Row.jobOutcome, Row.jobId, ih]

theorem outcomes_sum (os : List Outcome) :
    os.length = os.count .pass + os.count .fail + os.countP fun o => o != .pass && o != .fail := by
  induction os with
  | nil => rfl
  | cons o os ih => cases o <;> simp <;> omega

/-- `C75_totals`: the totals of an exporter that is used once are the numbers of rows of jobs, of those that
passed, of those that failed, and of the others; they add up. -/
theorem C75_totals {categories : List (Str × Str)} {entries : List (Str × Entry)}
    (hn : (entries.map (·.1)).Nodup) {t' : Totals} {rows : List Row}
    (h : dump categories entries fresh = .ok (rows, t')) :
    t'.total = (rows.filterMap Row.jobId).length ∧
    t'.pass = (rows.filterMap Row.jobOutcome).count .pass ∧
    t'.fail = (rows.filterMap Row.jobOutcome).count .fail ∧
    t'.total = t'.pass + t'.fail + t'.skip := by
  rcases dump_spec categories hn fresh with ⟨_, _, _, rows', h', _⟩ | ⟨_, e, h'⟩
  · rw [h] at h'
    cases h'
    have hlen := outcomes_length rows
    rw [foldl_count]
    refine ⟨?_, ?_, ?_, ?_⟩
    · rw [← hlen]; simp [fresh]
    · simp [fresh]
    · simp [fresh]
    · simp only [fresh, Nat.zero_add]
      exact outcomes_sum _
  · rw [h] at h'
    cases h'

/-- `C75_again_violated`: an exporter that is used twice doubles the totals of the second report. -/
theorem C75_again_violated {categories : List (Str × Str)} {entries : List (Str × Entry)}
    (hn : (entries.map (·.1)).Nodup) {t' : Totals} {rows : List Row}
    (h : dump categories entries fresh = .ok (rows, t')) :
    dump categories entries t' = .ok (rows, ⟨t'.total + t'.total, t'.pass + t'.pass, t'.fail + t'.fail,
      t'.skip + t'.skip⟩) := by
  rcases dump_spec categories hn fresh with ⟨hg, n1, i1, rows', h', ha1, hm1, hi1, hl1, hr1⟩ | ⟨_, e, h'⟩
  · rw [h] at h'
    cases h'
    -- the rows do not depend on the totals
    have key : ∀ (t : Totals), ∃ t', dump categories entries t = .ok (rows, t') := by
      intro t
      have hw1 : ∀ (cats : List (Str × Cat)) (id : Str) (l : Nat) (rs : List Row) (t1 t2 : Totals) (l' : Nat)
          (rs' : List Row) (t1' : Totals), writeJob entries cats id ⟨l, rs, t1⟩ = .ok ⟨l', rs', t1'⟩ →
          ∃ t2', writeJob entries cats id ⟨l, rs, t2⟩ = .ok ⟨l', rs', t2'⟩ := by
        intro cats id l rs t1 t2 l' rs' t1' hw
        unfold writeJob at hw ⊢
        cases h1 : get id cats with
        | some c =>
          rw [h1] at hw
          dsimp only at hw ⊢
          by_cases hs : c.status = none
          · rw [if_pos hs] at hw ⊢
            cases hw
            exact ⟨t2, rfl⟩
          · rw [if_neg hs] at hw; cases hw
        | none =>
          rw [h1] at hw
          dsimp only at hw ⊢
          cases h2 : get id entries with
          | none => rw [h2] at hw; cases hw
          | some e =>
            rw [h2] at hw
            dsimp only at hw ⊢
            cases h3 : e.plugin with
            | none => rw [h3] at hw; cases hw
            | some p =>
              rw [h3] at hw
              dsimp only at hw ⊢
              by_cases h4 : p = "local".toList
              · rw [if_pos h4] at hw ⊢
                cases hw
                exact ⟨t2, rfl⟩
              · rw [if_neg h4] at hw ⊢
                by_cases h5 : e.outcome.known = false
                · rw [if_pos h5] at hw; cases hw
                · rw [if_neg h5] at hw ⊢
                  cases h6 : logCell e with
                  | none => rw [h6] at hw; cases hw
                  | some log =>
                    rw [h6] at hw
                    cases hw
                    exact ⟨_, rfl⟩
      have hw2 : ∀ (cats : List (Str × Cat)) (ids : List Str) (l : Nat) (rs : List Row) (t1 t2 : Totals) (l' : Nat)
          (rs' : List Row) (t1' : Totals), writeJobs entries cats ids ⟨l, rs, t1⟩ = .ok ⟨l', rs', t1'⟩ →
          ∃ t2', writeJobs entries cats ids ⟨l, rs, t2⟩ = .ok ⟨l', rs', t2'⟩ := by
        intro cats ids
        induction ids with
        | nil =>
          intro l rs t1 t2 l' rs' t1' hw
          cases hw
          exact ⟨t2, rfl⟩
        | cons id ids ih =>
          intro l rs t1 t2 l' rs' t1' hw
          rw [writeJobs] at hw
          cases hj : writeJob entries cats id ⟨l, rs, t1⟩ with
          | error e => rw [hj] at hw; cases hw
          | ok s1 =>
            rw [hj] at hw
            obtain ⟨l1, rs1, t1''⟩ := s1
            obtain ⟨t2'', h2⟩ := hw1 cats id l rs t1 t2 l1 rs1 t1'' hj
            obtain ⟨t2', h3⟩ := ih l1 rs1 t1'' t2'' l' rs' t1' hw
            exact ⟨t2', by rw [writeJobs, h2]; exact h3⟩
      have hw3 : ∀ (cats es : List (Str × Cat)) (l : Nat) (rs : List Row) (t1 t2 : Totals) (l' : Nat)
          (rs' : List Row) (t1' : Totals), writeCats entries cats es ⟨l, rs, t1⟩ = .ok ⟨l', rs', t1'⟩ →
          ∃ t2', writeCats entries cats es ⟨l, rs, t2⟩ = .ok ⟨l', rs', t2'⟩ := by
        intro cats es
        induction es with
        | nil =>
          intro l rs t1 t2 l' rs' t1' hw
          cases hw
          exact ⟨t2, rfl⟩
        | cons e es ih =>
          intro l rs t1 t2 l' rs' t1' hw
          rw [writeCats] at hw
          cases hj : writeCat entries cats e ⟨l, rs, t1⟩ with
          | error e => rw [hj] at hw; cases hw
          | ok s1 =>
            rw [hj] at hw
            obtain ⟨l1, rs1, t1''⟩ := s1
            have : ∃ t2'', writeCat entries cats e ⟨l, rs, t2⟩ = .ok ⟨l1, rs1, t2''⟩ := by
              unfold writeCat at hj ⊢
              cases hst : e.2.status with
              | none =>
                rw [hst] at hj
                cases hj
                exact ⟨t2, rfl⟩
              | some st =>
                rw [hst] at hj
                dsimp only at hj ⊢
                by_cases hjn : e.2.jobs = []
                · rw [if_pos hjn] at hj; cases hj
                · rw [if_neg hjn] at hj ⊢
                  by_cases hk : st.known = false
                  · rw [if_pos hk] at hj; cases hj
                  · rw [if_neg hk] at hj ⊢
                    exact hw2 cats _ _ _ t1 t2 l1 rs1 t1'' hj
            obtain ⟨t2'', h2⟩ := this
            obtain ⟨t2', h3⟩ := ih l1 rs1 t1'' t2'' l' rs' t1' hw
            exact ⟨t2', by rw [writeCats, h2]; exact h3⟩
      unfold dump at h ⊢
      cases htr : tree categories entries [] with
      | none => rw [htr] at h; cases h
      | some cats =>
        rw [htr] at h
        dsimp only at h ⊢
        cases hw : writeCats entries cats (sortBy catLe cats) ⟨5, [], fresh⟩ with
        | error e => rw [hw] at h; cases h
        | ok s =>
          rw [hw] at h
          obtain ⟨l, rs, ts⟩ := s
          obtain ⟨t2', h2⟩ := hw3 cats _ 5 [] fresh t l rs ts hw
          rw [h2]
          have hrs : rs = rows := (Prod.mk.inj (Except.ok.inj h)).1
          rw [hrs]
          exact ⟨t2', rfl⟩
    generalize hos : (rows.filterMap Row.jobOutcome).foldl (fun t o => count o t) fresh = t1 at h ⊢
    obtain ⟨t2, h2⟩ := key t1
    rcases dump_spec categories hn t1 with ⟨_, _, _, rows2, h3, _⟩ | ⟨_, e, h3⟩
    · rw [h2] at h3
      cases h3
      rw [h2, foldl_count]
      rw [foldl_count] at hos
      rw [← hos]
      simp [fresh]
    · rw [h2] at h3
      cases h3
  · rw [h] at h'
    cases h'

/-! ## Texts -/

theorem splitLines_ne_nil {s : Str} (h : s ≠ []) : splitLines s ≠ [] := by
  cases s with
  | nil => exact absurd rfl h
  | cons c s =>
    unfold splitLines
    by_cases hc : c = '\n'
    · rw [if_pos hc]; exact List.cons_ne_nil _ _
    · rw [if_neg hc]; cases splitLines s <;> exact List.cons_ne_nil _ _

theorem splitLines_other {c : Char} (hc : c ≠ '\n') {s l : Str} {ls : List Str} (h : splitLines s = l :: ls) :
    splitLines (c :: s) = (c :: l) :: ls := by
  rw [splitLines, if_neg hc, h]

theorem splitLines_plain {l : Str} (h : '\n' ∉ l) (h0 : l ≠ []) : splitLines l = [l] := by
  induction l with
  | nil => exact absurd rfl h0
  | cons c l ih =>
    have hc : c ≠ '\n' := fun e => h (e ▸ List.mem_cons_self)
    by_cases hl : l = []
    · rw [hl, splitLines, if_neg hc]; rfl
    · exact splitLines_other hc (ih (fun hm => h (List.mem_cons_of_mem _ hm)) hl)

theorem splitLines_append {l s : Str} (h : '\n' ∉ l) : splitLines (l ++ '\n' :: s) = l :: splitLines s := by
  induction l with
  | nil => show splitLines ('\n' :: s) = _; rw [splitLines, if_pos rfl]
  | cons c l ih =>
    exact splitLines_other (fun e => h (e ▸ List.mem_cons_self)) (ih fun hm => h (List.mem_cons_of_mem _ hm))

theorem splitLines_join : ∀ {ls : List Str}, (∀ l ∈ ls, '\n' ∉ l) → (∀ l, ls.getLast? = some l → l ≠ []) →
    splitLines (joinLines ls) = ls
  | [], _, _ => rfl
  | [l], h, h' => splitLines_plain (h l List.mem_cons_self) (h' l rfl)
  | l :: m :: ls, h, h' => by
    show splitLines (l ++ '\n' :: joinLines (m :: ls)) = _
    rw [splitLines_append (h l List.mem_cons_self),
      splitLines_join (fun x hx => h x (List.mem_cons_of_mem _ hx)) fun x hx => h' x (by
        rw [List.getLast?_cons_cons]; exact hx)]

/-- `C75_log`: a log of the lines `ls`, followed by white space, is shown without the white space; of more
than three lines the first three are shown, and `[...]`. -/
theorem C75_log {ls : List Str} (hls : ∀ l ∈ ls, '\n' ∉ l) {w : Str} (hw : ∀ c ∈ w, Text.isSpace c = true)
    {l : Str} {c : Char} (hlast : ls.getLast? = some (l ++ [c])) (hc : Text.isSpace c = false) {e : Entry}
    (he : e.log = some (joinLines ls ++ w)) {p : Str} (hp : e.plugin = some p)
    (hp1 : p ≠ "resource".toList) (hp2 : p ≠ "attachment".toList) :
    logCell e = some (if ls.length ≤ 3 then joinLines ls else joinLines (ls.take 3 ++ ["[...]".toList])) := by
  have hend : ∀ (ls : List Str), ls.getLast? = some (l ++ [c]) → ∃ s, joinLines ls = s ++ [c] := by
    intro ls
    induction ls with
    | nil => intro h; cases h
    | cons x xs ih =>
      intro h
      cases xs with
      | nil =>
        cases h
        exact ⟨l, rfl⟩
      | cons y ys =>
        rw [List.getLast?_cons_cons] at h
        obtain ⟨s, hs⟩ := ih h
        refine ⟨x ++ '\n' :: s, ?_⟩
        show x ++ '\n' :: joinLines (y :: ys) = _
        rw [hs]
        simp
  obtain ⟨s, hs⟩ := hend ls hlast
  have hstrip : Text.rstrip (joinLines ls ++ w) = joinLines ls := by
    unfold Text.rstrip
    rw [List.reverse_append, List.dropWhile_append_of_pos (by
      intro a ha
      exact hw a (List.mem_reverse.mp ha)), hs, List.reverse_append]
    show (List.dropWhile Text.isSpace (c :: s.reverse)).reverse = _
    rw [List.dropWhile_cons_of_neg (by rw [hc]; exact Bool.false_ne_true)]
    simp
  have hsplit : splitLines (joinLines ls) = ls := splitLines_join hls fun x hx => by
    rw [hlast] at hx
    cases hx
    simp
  unfold logCell
  rw [if_neg (by
    rw [hp]
    rintro (h | h)
    · exact hp1 (Option.some.inj h)
    · exact hp2 (Option.some.inj h)), he]
  cases hj : joinLines ls ++ w with
  | nil =>
    rw [hs] at hj
    simp at hj
  | cons a b =>
    dsimp only
    rw [← hj, hstrip, hsplit]
    have hne : ls ≠ [] := by
      intro h
      rw [h] at hlast
      cases hlast
    have hpos : 0 < ls.length := List.length_pos_iff.mpr hne
    by_cases h3 : ls.length ≤ 3
    · rw [if_pos h3, if_neg (by omega)]
    · rw [if_neg h3, if_pos (by omega)]
      have : ∀ ms : List Str, ms ≠ [] → joinLines (ms ++ ["[...]".toList]) = joinLines ms ++ "\n[...]".toList := by
        intro ms
        induction ms with
        | nil => exact fun h => absurd rfl h
        | cons x xs ih =>
          intro _
          cases xs with
          | nil => rfl
          | cons y ys =>
            have := ih (List.cons_ne_nil _ _)
            show x ++ '\n' :: joinLines ((y :: ys) ++ ["[...]".toList]) = _
            rw [this]
            show _ = (x ++ '\n' :: joinLines (y :: ys)) ++ _
            rw [List.append_assoc]
            rfl
      rw [this (ls.take 3) (by
        intro h
        rw [List.take_eq_nil_iff] at h
        rcases h with h | h
        · cases h
        · exact hne h)]

/-- `C75_cells`: resources and attachments have no log in this sheet; an empty log and missing comments are a
blank; comments are shown without the white space at their end; an unspecified certification status is not
shown, every other one is. -/
theorem C75_cells (e : Entry) :
    (e.plugin = some "resource".toList ∨ e.plugin = some "attachment".toList → logCell e = some [' ']) ∧
    (e.log = some [] → logCell e = some [' ']) ∧
    (commentCell none = [' '] ∧ commentCell (some []) = [' ']) ∧
    (∀ s c w, Text.isSpace c = false → (∀ x ∈ w, Text.isSpace x = true) →
      commentCell (some (s ++ [c] ++ w)) = s ++ [c]) ∧
    (certCell none = [] ∧ certCell (some "unspecified".toList) = [] ∧
      ∀ s, s ≠ "unspecified".toList → certCell (some s) = s) := by
  refine ⟨fun h => ?_, fun h => ?_, ⟨rfl, rfl⟩, ?_, rfl, rfl, fun s h => if_neg h⟩
  · unfold logCell
    rw [if_pos h]
    rfl
  · unfold logCell
    rw [h]
    by_cases hp : e.plugin = some "resource".toList ∨ e.plugin = some "attachment".toList
    · rw [if_pos hp]; rfl
    · rw [if_neg hp]; rfl
  · intro s c w hc hw
    have : commentCell (some (s ++ [c] ++ w)) = Text.rstrip (s ++ [c] ++ w) := by
      cases h : s ++ [c] ++ w with
      | nil => simp at h
      | cons a b => rfl
    rw [this]
    unfold Text.rstrip
    rw [List.reverse_append, List.dropWhile_append_of_pos (by
      intro a ha
      exact hw a (List.mem_reverse.mp ha)), List.reverse_append]
    show (List.dropWhile Text.isSpace (c :: s.reverse)).reverse = _
    rw [List.dropWhile_cons_of_neg (by rw [hc]; exact Bool.false_ne_true)]
    simp

theorem textRows_spec (i : Nat) (ls : List Str) :
    (textRows i ls).map (·.1) = List.range' i ls.length ∧ (textRows i ls).map (·.2) = ls := by
  induction ls generalizing i with
  | nil => exact ⟨rfl, rfl⟩
  | cons l ls ih =>
    rw [textRows, List.map_cons, List.map_cons, (ih (i + 1)).1, (ih (i + 1)).2]
    exact ⟨rfl, rfl⟩

/-- `C75_attachments`: the sheet of log files has the name and the lines of every text attachment, in order;
no cell is written twice, and there is an empty row before the lines and after them. -/
theorem C75_attachments (i : Nat) (as : List (Str × Option Str)) :
    ((attachments i as).map (·.1)).Pairwise (· < ·) ∧
    (∀ r ∈ (attachments i as).map (·.1), i ≤ r) ∧
    (attachments i as).map (·.2) = as.flatMap fun a => match a.2 with
      | none => []
      | some text => a.1 :: splitLines text := by
  induction as generalizing i with
  | nil => exact ⟨List.Pairwise.nil, fun r hr => absurd hr List.not_mem_nil, rfl⟩
  | cons a as ih =>
    obtain ⟨name, text⟩ := a
    cases text with
    | none => exact ih i
    | some text =>
      rw [attachments]
      obtain ⟨h1, h2, h3⟩ := ih (i + 1 + ((splitLines text).length + 1) + 1)
      obtain ⟨t1, t2⟩ := textRows_spec (i + 2) (splitLines text)
      have hmem : ∀ r ∈ (textRows (i + 2) (splitLines text)).map (·.1), i + 2 ≤ r ∧
          r < i + 2 + (splitLines text).length := by
        intro r hr
        rw [t1, List.mem_range'_1] at hr
        exact hr
      refine ⟨?_, ?_, ?_⟩
      · rw [List.map_append, List.map_cons, List.cons_append, List.pairwise_cons]
        refine ⟨?_, ?_⟩
        · intro r hr
          rcases List.mem_append.mp hr with hr | hr
          · have := hmem r hr; dsimp only; omega
          · have := h2 r hr; dsimp only; omega
        · rw [List.pairwise_append]
          refine ⟨by rw [t1]; exact List.pairwise_lt_range', h1, ?_⟩
          intro a ha b hb
          have := hmem a ha
          have := h2 b hb
          omega
      · intro r hr
        rw [List.map_append, List.map_cons, List.cons_append] at hr
        rcases List.mem_cons.mp hr with hr | hr
        · rw [hr]; exact Nat.le_refl _
        · rcases List.mem_append.mp hr with hr | hr
          · have := hmem r hr; omega
          · have := h2 r hr; omega
      · rw [List.map_append, List.map_cons, t2, h3, List.flatMap_cons]

/-! ## What goes wrong -/

/-- `C75_unknown_category_violated`: one job of a category that is not loaded is enough that there is no
report, whatever the other results are. -/
theorem C75_unknown_category_violated {categories : List (Str × Str)} {entries : List (Str × Entry)}
    (hn : (entries.map (·.1)).Nodup) {e : Str × Entry} (he : e ∈ entries)
    (h : ∀ n, (e.2.category, n) ∉ categories) (t : Totals) :
    ¬ ∃ r, dump categories entries t = .ok r := by
  rw [C75_complete categories hn t]
  intro hg
  obtain ⟨n, hn⟩ := hg.known e he
  exact h n (get_mem hn)

/-- `C75_clash_violated`: so is a job whose identifier is the name of a category of a job. -/
theorem C75_clash_violated {categories : List (Str × Str)} {entries : List (Str × Entry)}
    (hn : (entries.map (·.1)).Nodup) {e e' : Str × Entry} (he : e ∈ entries) (he' : e' ∈ entries)
    (h : nameOf categories e'.2 = some e.1) (t : Totals) : ¬ ∃ r, dump categories entries t = .ok r := by
  rw [C75_complete categories hn t]
  exact fun hg => hg.apart e he e' he' h

/-- `C75_binary_violated`: so is a log that is not text, of a job of a common kind. -/
theorem C75_binary_violated {categories : List (Str × Str)} {entries : List (Str × Entry)}
    (hn : (entries.map (·.1)).Nodup) {e : Str × Entry} (he : e ∈ entries) (h : e.2.log = none)
    (hp : e.2.plugin = some "shell".toList) (t : Totals) : ¬ ∃ r, dump categories entries t = .ok r := by
  rw [C75_complete categories hn t]
  intro hg
  refine hg.text e he ?_ ?_
  · unfold isLocal
    rw [hp]
    exact fun h => absurd (Option.some.inj h) (by decide +kernel)
  · unfold logCell
    rw [hp, h, if_neg]
    rintro (h | h) <;> exact absurd (Option.some.inj h) (by decide +kernel)

/-- `C75_outcome_violated`: so is an outcome that is not one of the known ones, as qml jobs can have. -/
theorem C75_outcome_violated {categories : List (Str × Str)} {entries : List (Str × Entry)}
    (hn : (entries.map (·.1)).Nodup) {e : Str × Entry} (he : e ∈ entries) {s : Str}
    (h : e.2.outcome = .other s) (hl : ¬ isLocal e.2) (t : Totals) :
    ¬ ∃ r, dump categories entries t = .ok r := by
  rw [C75_complete categories hn t]
  intro hg
  have := hg.outcome e he hl
  rw [h] at this
  cases this

/-- A job of the category `c`. -/
def jobIn (summary : String) (o : Outcome) (plugin : String) : Entry :=
  ⟨summary.toList, "c".toList, o, some plugin.toList, some [], none, none⟩

/-- `C75_crash_violated`: a category in which a job crashed is shown as passed, and the job is counted as
skipped. -/
theorem C75_crash_violated :
    dump [("c".toList, "Disks".toList)]
      [("a".toList, jobIn "A" .crash "shell"), ("b".toList, jobIn "B" .pass "shell")] fresh
    = .ok ([.category 6 "Disks".toList .pass, .job 7 "a".toList "A".toList .crash [] [' '] [' '],
        .job 8 "b".toList "B".toList .pass [] [' '] [' ']], ⟨2, 1, 0, 1⟩) := by decide +kernel

/-- `C75_local_violated`: a category can be shown as failed though no job that is shown failed. -/
theorem C75_local_violated :
    dump [("c".toList, "Disks".toList)]
      [("a".toList, jobIn "A" .fail "local"), ("b".toList, jobIn "B" .pass "shell")] fresh
    = .ok ([.category 6 "Disks".toList .fail, .job 7 "b".toList "B".toList .pass [] [' '] [' ']],
        ⟨1, 1, 0, 0⟩) := by decide +kernel

/-! ## Examples -/

/-- Two categories, three jobs. -/
example : dump [("c".toList, "Disks".toList), ("d".toList, "Audio".toList)]
    [("z".toList, jobIn "Z" .skip "shell"), ("b".toList, jobIn "B" .fail "manual"),
      ("y".toList, ⟨"Y".toList, "d".toList, .pass, some "shell".toList, some "1\n2\n3\n4\n".toList,
        some "fine\n".toList, some "blocker".toList⟩)] fresh
    = .ok ([.category 6 "Audio".toList .pass,
        .job 7 "y".toList "Y".toList .pass "blocker".toList "1\n2\n3\n[...]".toList "fine".toList,
        .category 8 "Disks".toList .fail,
        .job 9 "b".toList "B".toList .fail [] [' '] [' '],
        .job 10 "z".toList "Z".toList .skip [] [' '] [' ']], ⟨3, 1, 1, 1⟩) := by decide +kernel

example : attachments 4 [("a".toList, some "1\n2".toList), ("b".toList, none), ("c".toList, some "3\n".toList)]
    = [(4, "a".toList), (6, "1".toList), (7, "2".toList), (9, "c".toList), (11, "3".toList)] := by decide +kernel

/-- The conditions of `C75_rows_partial`. -/
example : Good [("c".toList, "Disks".toList)]
    [("a".toList, jobIn "A" .crash "shell"), ("b".toList, jobIn "B" .pass "shell")] :=
  (C75_complete _ (by decide +kernel) fresh).mp ⟨_, C75_crash_violated⟩

/-- `C75_log` for a log of four lines. -/
example : logCell { jobIn "A" .pass "shell" with
      log := some "a\nb\nc\nd\n \n".toList } = some "a\nb\nc\n[...]".toList := by
  have h := C75_log (ls := ["a".toList, "b".toList, "c".toList, "d".toList]) (w := "\n \n".toList) (l := [])
    (c := 'd') (p := "shell".toList) (e := { jobIn "A" .pass "shell" with
      log := some "a\nb\nc\nd\n \n".toList })
    (by decide +kernel) (by decide +kernel) (by decide +kernel) (by decide +kernel) (by decide +kernel) rfl
    (by decide +kernel) (by decide +kernel)
  rw [h]
  decide +kernel

/-- The identifier of a job is the name of a category. -/
example : dump [("c".toList, "Disks".toList)] [("Disks".toList, jobIn "A" .pass "shell")] fresh
    = .error .key := by decide +kernel

end Verif.Sheet
