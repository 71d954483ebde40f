import Verif.Model.Export
import Verif.Props.IOLog
import Mathlib.Data.List.Nodup
import Mathlib.Data.List.Induction

/-!
# C62: exported session data, C63: members of a submission archive

* `C62_options`, `C62_refused`: which options are in force.
* `C62_results`, `C62_fields_partial`, `C62_log`, `C62_attachment`: the jobs in the report
  and what is said of them.
* `C62_parts`, `C62_categories`: the other parts.
* `C62_violated`: the certification status of attachment jobs and durations of zero are left out.
* `C63_members`, `C63_distinct_partial`, `C63_violated`.
-/

set_option linter.unusedSectionVars false

namespace Verif.Export

open Verif.IOLog (b64enc b64dec)

/-! ## Options -/

/-- The option string `s` gives the option `k` the value `v`: either `k` alone, or `k`, an equal sign
and the value. -/
def Says (s k : Str) (v : Val) : Prop :=
  '=' ∉ k ∧ ((v = .yes ∧ s = k) ∨ ∃ t, v = .text t ∧ s = k ++ '=' :: t)

/-- The option `k` is in force after the strings `all`: the last string about it gives it a value
that is not empty. -/
def InForce (all : List Str) (k : Str) : Prop :=
  ∃ pre s post v, all = pre ++ s :: post ∧ Says s k v ∧ v ≠ .text [] ∧
    ∀ s' ∈ post, ∀ v', ¬ Says s' k v'

theorem says_split (s : Str) : Says s (splitOption s).1 (splitOption s).2 := by
  induction s with
  | nil => exact ⟨by simp [splitOption], .inl ⟨rfl, rfl⟩⟩
  | cons c r ih =>
    simp only [splitOption]
    split
    · rename_i h; subst h
      exact ⟨by simp, .inr ⟨r, rfl, rfl⟩⟩
    · rename_i h
      obtain ⟨hn, h2⟩ := ih
      refine ⟨by simp [hn, Ne.symm h], ?_⟩
      rcases h2 with ⟨hv, hs⟩ | ⟨t, hv, hs⟩
      · exact .inl ⟨hv, by simp only [List.cons.injEq, true_and]; exact hs⟩
      · exact .inr ⟨t, hv, by simp only [List.cons_append, List.cons.injEq, true_and]; exact hs⟩

theorem split_says {s k : Str} {v : Val} (h : Says s k v) : splitOption s = (k, v) := by
  obtain ⟨hn, h⟩ := h
  induction k generalizing s with
  | nil =>
    rcases h with ⟨hv, hs⟩ | ⟨t, hv, hs⟩ <;> subst hv hs <;> simp [splitOption]
  | cons c k ih =>
    have hc : c ≠ '=' := by rintro rfl; simp at hn
    have hk : '=' ∉ k := fun hh => hn (List.mem_cons_of_mem _ hh)
    rcases h with ⟨hv, hs⟩ | ⟨t, hv, hs⟩
    · subst hv hs
      simp only [splitOption, if_neg hc, ih hk (.inl ⟨rfl, rfl⟩)]
    · subst hv hs
      simp only [List.cons_append, splitOption, if_neg hc, ih hk (.inr ⟨t, rfl, rfl⟩)]

/-- Keys of a dictionary occur once. -/
theorem setItem_keys (k : Str) (v : Val) (d : Dict) :
    (setItem k v d).map (·.1) = if k ∈ d.map (·.1) then d.map (·.1) else d.map (·.1) ++ [k] := by
  induction d with
  | nil => simp [setItem]
  | cons p d ih =>
    obtain ⟨k', v'⟩ := p
    simp only [setItem]
    split
    · rename_i h; subst h; simp
    · rename_i h
      simp only [List.map_cons, ih, List.mem_cons, Ne.symm h, false_or]
      split <;> simp_all

theorem setItem_mem {k : Str} {v : Val} {d : Dict} (hd : (d.map (·.1)).Nodup) (k' : Str) (v' : Val) :
    (k', v') ∈ setItem k v d ↔ (k' = k ∧ v' = v) ∨ (k' ≠ k ∧ (k', v') ∈ d) := by
  induction d with
  | nil => simp [setItem]
  | cons p d ih =>
    obtain ⟨a, b⟩ := p
    simp only [List.map_cons, List.nodup_cons] at hd
    simp only [setItem]
    split
    · rename_i h; subst h
      simp only [List.mem_cons, Prod.mk.injEq]
      constructor
      · rintro (h | h)
        · exact .inl h
        · refine .inr ⟨?_, .inr h⟩
          rintro rfl
          exact hd.1 (List.mem_map.mpr ⟨_, h, rfl⟩)
      · rintro (h | ⟨h1, h2 | h2⟩)
        · exact .inl h
        · exact absurd h2.1 h1
        · exact .inr h2
    · rename_i h
      simp only [List.mem_cons, Prod.mk.injEq, ih hd.2]
      constructor
      · rintro (⟨rfl, rfl⟩ | h2 | h2)
        · exact .inr ⟨h, .inl ⟨rfl, rfl⟩⟩
        · exact .inl h2
        · exact .inr ⟨h2.1, .inr h2.2⟩
      · rintro (h2 | ⟨h1, h2 | h2⟩)
        · exact .inr (.inl h2)
        · exact .inl h2
        · exact .inr (.inr ⟨h1, h2⟩)

/-- The dictionary after the strings `all`: every option with the value of the last string about
it. -/
def Reflects (all : List Str) (d : Dict) : Prop :=
  (d.map (·.1)).Nodup ∧ ∀ k v, (k, v) ∈ d ↔
    ∃ pre s post, all = pre ++ s :: post ∧ Says s k v ∧ ∀ s' ∈ post, ∀ v', ¬ Says s' k v'

theorem reflects_nil : Reflects [] [] := by
  refine ⟨by simp, fun k v => ?_⟩
  simp

theorem reflects_snoc {all : List Str} {d : Dict} (h : Reflects all d) (s : Str) :
    Reflects (all ++ [s]) (setItem (splitOption s).1 (splitOption s).2 d) := by
  obtain ⟨hn, hm⟩ := h
  have hs := says_split s
  constructor
  · rw [setItem_keys]
    split
    · exact hn
    · rename_i hk
      rw [List.nodup_append]
      refine ⟨hn, by simp, ?_⟩
      intro a ha b hb
      simp only [List.mem_singleton] at hb
      rintro rfl
      exact hk (hb ▸ ha)
  · intro k v
    rw [setItem_mem hn]
    constructor
    · rintro (⟨rfl, rfl⟩ | ⟨hk, hmem⟩)
      · exact ⟨all, s, [], rfl, hs, by simp⟩
      · obtain ⟨pre, s', post, e, h1, h2⟩ := (hm k v).mp hmem
        refine ⟨pre, s', post ++ [s], by simp [e], h1, ?_⟩
        intro s'' hs'' v' hv'
        rcases List.mem_append.mp hs'' with h3 | h3
        · exact h2 _ h3 _ hv'
        · simp only [List.mem_singleton] at h3
          subst h3
          exact hk (by rw [split_says hv'])
    · rintro ⟨pre, s', post, e, h1, h2⟩
      rcases List.eq_nil_or_concat post with rfl | ⟨post', x, rfl⟩
      · have e2 := List.append_inj' e (by simp)
        simp only [List.cons.injEq, and_true] at e2
        obtain ⟨_, rfl⟩ := e2
        rw [split_says h1]
        exact .inl ⟨rfl, rfl⟩
      · have e2 : all ++ [s] = (pre ++ s' :: post') ++ [x] := by rw [e]; simp
        have e3 := List.append_inj' e2 (by simp)
        simp only [List.cons.injEq, and_true] at e3
        obtain ⟨e3, rfl⟩ := e3
        refine .inr ⟨?_, (hm k v).mpr ⟨pre, s', post', e3, h1, fun a ha => h2 a (by simp [ha])⟩⟩
        rintro rfl
        exact h2 s (by simp) _ hs

theorem addOptions_spec (sup : List Str) (ss all : List Str) (d : Dict) (h : Reflects all d) :
    (∀ d', addOptions sup ss d = .ok d' → Reflects (all ++ ss) d' ∧
      ∀ s ∈ ss, ∃ k v, Says s k v ∧ k ∈ sup) ∧
    (∀ e, addOptions sup ss d = .error e → ∃ pre s post v, ss = pre ++ s :: post ∧ Says s e v ∧
      e ∉ sup ∧ ∀ s' ∈ pre, ∃ k v, Says s' k v ∧ k ∈ sup) := by
  induction ss generalizing all d with
  | nil =>
    constructor
    · intro d' hd
      simp only [addOptions, Except.ok.injEq] at hd
      subst hd
      exact ⟨by simpa using h, by simp⟩
    · intro e he; simp [addOptions] at he
  | cons s ss ih =>
    simp only [addOptions]
    split
    · rename_i hk
      obtain ⟨h1, h2⟩ := ih (all ++ [s]) _ (reflects_snoc h s)
      constructor
      · intro d' hd
        obtain ⟨ha, hb⟩ := h1 d' hd
        refine ⟨by simpa using ha, ?_⟩
        intro s' hs'
        rcases List.mem_cons.mp hs' with rfl | hs'
        · exact ⟨_, _, says_split _, hk⟩
        · exact hb s' hs'
      · intro e he
        obtain ⟨pre, s', post, v, e1, e2, e3, e4⟩ := h2 e he
        refine ⟨s :: pre, s', post, v, by simp [e1], e2, e3, ?_⟩
        intro s'' hs''
        rcases List.mem_cons.mp hs'' with rfl | hs''
        · exact ⟨_, _, says_split _, hk⟩
        · exact e4 s'' hs''
    · rename_i hk
      constructor
      · intro d' hd; simp at hd
      · intro e he
        simp only [Except.error.injEq] at he
        subst he
        exact ⟨[], s, ss, _, rfl, says_split _, hk, by simp⟩

theorem enabled_reflects {all : List Str} {d : Dict} (h : Reflects all d) (k : Str) :
    enabled d k = true ↔ InForce all k := by
  simp only [enabled, List.any_eq_true, Bool.and_eq_true, beq_iff_eq, Prod.exists]
  constructor
  · rintro ⟨a, v, hm, rfl, hv⟩
    obtain ⟨pre, s, post, e, h1, h2⟩ := (h.2 a v).mp hm
    refine ⟨pre, s, post, v, e, h1, ?_, h2⟩
    rintro rfl
    simp [Val.truthy] at hv
  · rintro ⟨pre, s, post, v, e, h1, hv, h2⟩
    refine ⟨k, v, (h.2 k v).mpr ⟨pre, s, post, e, h1, h2⟩, rfl, ?_⟩
    cases v with
    | yes => rfl
    | text t =>
      cases t with
      | nil => exact absurd rfl hv
      | cons c r => rfl

theorem mkOptions_ok {sup : List Str} {os us : Option (List Str)} {d : Dict}
    (h : mkOptions sup os us = .ok d) :
    Reflects (os.getD [] ++ us.getD []) d ∧
      ∀ s ∈ os.getD [] ++ us.getD [], ∃ k v, Says s k v ∧ k ∈ sup := by
  simp only [mkOptions] at h
  obtain ⟨h1, _⟩ := addOptions_spec sup (os.getD []) [] [] reflects_nil
  cases ha : addOptions sup (os.getD []) [] with
  | error e => rw [ha] at h; simp at h
  | ok d1 =>
    rw [ha] at h
    obtain ⟨hr, hs⟩ := h1 d1 ha
    simp only [List.nil_append] at hr
    cases us with
    | none =>
      simp only [Except.ok.injEq] at h
      subst h
      simp only [Option.getD_none, List.append_nil]
      exact ⟨hr, hs⟩
    | some us =>
      simp only at h
      obtain ⟨h2, _⟩ := addOptions_spec sup us _ d1 hr
      obtain ⟨hr2, hs2⟩ := h2 d h
      refine ⟨hr2, ?_⟩
      intro s hm
      rcases List.mem_append.mp hm with hm | hm
      · exact hs s hm
      · exact hs2 s hm

/-- **C62**: an exporter that could be made has in force exactly the options whose last mention, in
the strings of the caller followed by those of the exporter unit, has a value; `get_option_value`
is the value of the last mention. -/
theorem C62_options {sup : List Str} {os us : Option (List Str)} {d : Dict}
    (h : mkOptions sup os us = .ok d) (k : Str) :
    (enabled d k = true ↔ InForce (os.getD [] ++ us.getD []) k) ∧
    (∀ v, (k, v) ∈ d ↔ ∃ pre s post, os.getD [] ++ us.getD [] = pre ++ s :: post ∧ Says s k v ∧
      ∀ s' ∈ post, ∀ v', ¬ Says s' k v') :=
  ⟨enabled_reflects (mkOptions_ok h).1 k, fun v => (mkOptions_ok h).1.2 k v⟩

/-- **C62**: making an exporter fails exactly when some string is about an option that is not
supported, and then names the first such option. -/
theorem C62_refused (sup : List Str) (os us : Option (List Str)) (e : Str) :
    mkOptions sup os us = .error e ↔
      ∃ pre s post v, os.getD [] ++ us.getD [] = pre ++ s :: post ∧ Says s e v ∧ e ∉ sup ∧
        ∀ s' ∈ pre, ∃ k v, Says s' k v ∧ k ∈ sup := by
  have key : ∀ e, mkOptions sup os us = .error e →
      ∃ pre s post v, os.getD [] ++ us.getD [] = pre ++ s :: post ∧ Says s e v ∧ e ∉ sup ∧
        ∀ s' ∈ pre, ∃ k v, Says s' k v ∧ k ∈ sup := by
    intro e h
    simp only [mkOptions] at h
    obtain ⟨h1, h1'⟩ := addOptions_spec sup (os.getD []) [] [] reflects_nil
    cases ha : addOptions sup (os.getD []) [] with
    | error e' =>
      rw [ha] at h
      simp only [Except.error.injEq] at h
      subst h
      obtain ⟨pre, s, post, v, e1, e2, e3, e4⟩ := h1' e' ha
      exact ⟨pre, s, post ++ us.getD [], v, by simp [e1], e2, e3, e4⟩
    | ok d1 =>
      rw [ha] at h
      obtain ⟨hr, hs⟩ := h1 d1 ha
      cases us with
      | none => simp at h
      | some us =>
        simp only at h
        obtain ⟨_, h2⟩ := addOptions_spec sup us _ d1 hr
        obtain ⟨pre, s, post, v, e1, e2, e3, e4⟩ := h2 e h
        refine ⟨os.getD [] ++ pre, s, post, v, by simp [e1], e2, e3, ?_⟩
        intro s' hs'
        rcases List.mem_append.mp hs' with hm | hm
        · exact hs s' hm
        · exact e4 s' hm
  refine ⟨key e, ?_⟩
  rintro ⟨pre, s, post, v, e1, e2, e3, e4⟩
  have uniq : ∀ {s k k' v v'}, Says s k v → Says s k' v' → k = k' := by
    intro s k k' v v' h1 h2
    have a := split_says h1
    have b := split_says h2
    rw [a] at b
    exact (Prod.mk.inj b).1
  cases hm : mkOptions sup os us with
  | ok d =>
    obtain ⟨k, v', hk, hk'⟩ := (mkOptions_ok hm).2 s (by rw [e1]; simp)
    exact absurd (uniq hk e2 ▸ hk') e3
  | error e' =>
    obtain ⟨pre', s', post', v', f1, f2, f3, f4⟩ := key e' hm
    rw [e1] at f1
    rcases List.append_eq_append_iff.mp f1 with ⟨a, ha, hb⟩ | ⟨a, ha, hb⟩
    · cases a with
      | nil =>
        simp only [List.nil_append, List.cons.injEq] at hb
        obtain ⟨rfl, _⟩ := hb
        rw [uniq e2 f2]
      | cons x a =>
        simp only [List.cons_append, List.cons.injEq] at hb
        obtain ⟨rfl, _⟩ := hb
        obtain ⟨k, v, hk, hk'⟩ := f4 s (by rw [ha]; simp)
        exact absurd (uniq hk e2 ▸ hk') e3
    · cases a with
      | nil =>
        simp only [List.nil_append, List.cons.injEq] at hb
        obtain ⟨rfl, _⟩ := hb
        rw [uniq e2 f2]
      | cons x a =>
        simp only [List.cons_append, List.cons.injEq] at hb
        obtain ⟨rfl, _⟩ := hb
        obtain ⟨k, v, hk, hk'⟩ := e4 s' (by rw [ha]; simp)
        exact absurd (uniq hk f2 ▸ hk') f3

/-- The caller asks for the log and the comments, the unit turns comments off. -/
example :
    (mkOptions supportedOptions (some ["with-io-log".toList, "with-comments".toList])
      (some ["with-comments=".toList, "squash-io-log=yes".toList])).map
        (fun d => (enabled d withIOLog, enabled d withComments, enabled d squashIOLog,
          enabled d withJobHash)) = .ok (true, false, true, false) := by decide +kernel

example : mkOptions supportedOptions (some ["with-io-log".toList, "colour=red".toList])
    (some ["smell".toList]) = .error "colour".toList := by decide +kernel

/-! ## Results -/

theorem put_keys {V : Type} (k : Str) (v : V) (d : List (Str × V)) :
    (put k v d).map (·.1) = if k ∈ d.map (·.1) then d.map (·.1) else d.map (·.1) ++ [k] := by
  induction d with
  | nil => simp [put]
  | cons p d ih =>
    obtain ⟨k', v'⟩ := p
    simp only [put]
    split
    · rename_i h; subst h; simp
    · rename_i h
      simp only [List.map_cons, ih, List.mem_cons, Ne.symm h, false_or]
      split <;> simp_all

theorem put_new {V : Type} {k : Str} (v : V) {d : List (Str × V)} (h : k ∉ d.map (·.1)) :
    put k v d = d ++ [(k, v)] := by
  induction d with
  | nil => rfl
  | cons p d ih =>
    obtain ⟨k', v'⟩ := p
    simp only [List.map_cons, List.mem_cons, not_or] at h
    simp only [put, if_neg (Ne.symm h.1), ih h.2, List.cons_append]

theorem put_mem {V : Type} {k : Str} {v : V} {d : List (Str × V)} (hd : (d.map (·.1)).Nodup)
    (k' : Str) (v' : V) :
    (k', v') ∈ put k v d ↔ (k' = k ∧ v' = v) ∨ (k' ≠ k ∧ (k', v') ∈ d) := by
  induction d with
  | nil => simp [put]
  | cons p d ih =>
    obtain ⟨a, b⟩ := p
    simp only [List.map_cons, List.nodup_cons] at hd
    simp only [put]
    split
    · rename_i h; subst h
      simp only [List.mem_cons, Prod.mk.injEq]
      constructor
      · rintro (h | h)
        · exact .inl h
        · refine .inr ⟨?_, .inr h⟩
          rintro rfl
          exact hd.1 (List.mem_map.mpr ⟨_, h, rfl⟩)
      · rintro (h | ⟨h1, h2 | h2⟩)
        · exact .inl h
        · exact absurd h2.1 h1
        · exact .inr h2
    · rename_i h
      simp only [List.mem_cons, Prod.mk.injEq, ih hd.2]
      constructor
      · rintro (⟨rfl, rfl⟩ | h2 | h2)
        · exact .inr ⟨h, .inl ⟨rfl, rfl⟩⟩
        · exact .inl h2
        · exact .inr ⟨h2.1, .inr h2.2⟩
      · rintro (h2 | ⟨h1, h2 | h2⟩)
        · exact .inr (.inl h2)
        · exact .inl h2
        · exact .inr (.inr ⟨h1, h2⟩)

theorem put_nodup {V : Type} {k : Str} {v : V} {d : List (Str × V)} (hd : (d.map (·.1)).Nodup) :
    ((put k v d).map (·.1)).Nodup := by
  rw [put_keys]
  split
  · exact hd
  · rename_i hk
    rw [List.nodup_append]
    refine ⟨hd, by simp, ?_⟩
    intro a ha b hb
    simp only [List.mem_singleton] at hb
    rintro rfl
    exact hk (hb ▸ ha)

theorem resultMap_aux (d : Dict) (l : List JobState) (m : List (Str × Entry))
    (hn : (m.map (·.1) ++ l.map (·.id)).Nodup) :
    l.foldl (resultStep d) m =
      m ++ l.filterMap (fun s => s.outcome.map (fun o => (s.id, entry d s o))) := by
  induction l generalizing m with
  | nil => simp
  | cons s l ih =>
    simp only [List.foldl_cons]
    simp only [List.map_cons] at hn
    cases ho : s.outcome with
    | none =>
      rw [show resultStep d m s = m by simp [resultStep, ho]]
      rw [ih _ (by
        refine List.Nodup.sublist ?_ hn
        exact List.Sublist.append_left (List.sublist_cons_self _ _) _)]
      simp [ho]
    | some o =>
      have hk : s.id ∉ m.map (·.1) := by
        intro hmem
        exact (List.nodup_append.mp hn).2.2 _ hmem _ (by simp) rfl
      rw [show resultStep d m s = put s.id (entry d s o) m by simp [resultStep, ho]]
      rw [put_new _ hk, ih _ (by simpa using hn)]
      simp [ho]

theorem resultMap_eq (d : Dict) (l : List JobState) (hn : (l.map (·.id)).Nodup) :
    resultMap d l = l.filterMap (fun s => s.outcome.map (fun o => (s.id, entry d s o))) := by
  have := resultMap_aux d l [] (by simpa using hn)
  simpa [resultMap] using this

theorem filterMap_outcome_ids (d : Dict) (l : List JobState) :
    (l.filterMap (fun s => s.outcome.map (fun o => (s.id, entry d s o)))).map (·.1) =
      (l.filter (fun s => s.outcome.isSome)).map (·.id) := by
  induction l with
  | nil => rfl
  | cons s l ih =>
    cases ho : s.outcome <;> simp [ho, ih]

/-- The job is an attachment job. -/
def IsAttachment (s : JobState) : Prop := s.plugin = some "attachment".toList

theorem isAttachment_iff (s : JobState) : isAttachment s = true ↔ IsAttachment s := by
  simp only [isAttachment, IsAttachment, beq_iff_eq]

/-- Text that is there and not empty. -/
def Text (v : Option Str) (t : Str) : Prop := v = some t ∧ t ≠ []

/-- The parts of a result the options ask for, as the documentation has it. -/
inductive Asked (on : Str → Prop) (s : JobState) : Key → Prop
  | summary : Asked on s .summary
  | category : Asked on s .categoryId
  | outcome : Asked on s .outcome
  | duration {n} (h : s.duration = some n) : Asked on s .executionDuration
  | comments (h : on "with-comments".toList) : Asked on s .comments
  | hash (h : on "with-job-hash".toList) : Asked on s .hash
  | plugin {t} (h : on "with-job-defs".toList) (ht : Text s.plugin t) : Asked on s .plugin
  | requires {t} (h : on "with-job-defs".toList) (ht : Text s.requires t) : Asked on s .requires
  | depends {t} (h : on "with-job-defs".toList) (ht : Text s.depends t) : Asked on s .depends
  | command {t} (h : on "with-job-defs".toList) (ht : Text s.command t) : Asked on s .command
  | description {t} (h : on "with-job-defs".toList) (ht : Text s.description t) :
      Asked on s .description
  | log (h : on "with-io-log".toList) (ha : ¬ IsAttachment s) : Asked on s .ioLog
  | certification (h : on "with-certification-status".toList) : Asked on s .certificationStatus

/-- A field tells the truth about the job. -/
inductive Right (on : Str → Prop) (s : JobState) : Key → Field → Prop
  | summary : Right on s .summary (.str s.summary)
  | category : Right on s .categoryId (.str s.category)
  | outcome {o} (h : s.outcome = some o) : Right on s .outcome (.str o)
  | duration {n} (h : s.duration = some n) : Right on s .executionDuration (.num n)
  | comments {c} (h : s.comments = some c) : Right on s .comments (.str c)
  | noComments (h : s.comments = none) : Right on s .comments .null
  | hash : Right on s .hash (.str s.checksum)
  | plugin {t} (h : s.plugin = some t) : Right on s .plugin (.str t)
  | requires {t} (h : s.requires = some t) : Right on s .requires (.str t)
  | depends {t} (h : s.depends = some t) : Right on s .depends (.str t)
  | command {t} (h : s.command = some t) : Right on s .command (.str t)
  | description {t} (h : s.description = some t) : Right on s .description (.str t)
  | squashed {l} (ho : on "squash-io-log".toList)
      (h : l.map b64dec = s.log.map (fun r => some r.data)) :
      Right on s .ioLog (.log (.squashed l))
  | flat {t} (hn : ¬ on "squash-io-log".toList) (ho : on "flatten-io-log".toList)
      (h : b64dec t = some (s.log.map (·.data)).flatten) : Right on s .ioLog (.log (.flat t))
  | raw {l} (hn : ¬ on "squash-io-log".toList) (hf : ¬ on "flatten-io-log".toList)
      (h : l.map (fun p => (p.1, p.2.1, b64dec p.2.2)) =
        s.log.map (fun r => (r.delay, r.stream, some r.data))) : Right on s .ioLog (.log (.raw l))
  | certification : Right on s .certificationStatus (.str s.certification)

/-- **C62**: exported logs can be decoded: squashed logs to the data of every record, flattened logs
to the data of all records, raw logs to the records. -/
theorem C62_log (l : List Rec) :
    (squash l).map b64dec = l.map (fun r => some r.data) ∧
    b64dec (flatten l) = some (l.map (·.data)).flatten ∧
    (rawLog l).map (fun p => (p.1, p.2.1, b64dec p.2.2)) =
      l.map (fun r => (r.delay, r.stream, some r.data)) := by
  refine ⟨?_, ?_, ?_⟩
  · simp [squash, IOLog.b64_round]
  · simp [flatten, IOLog.b64_round]
  · simp [rawLog, IOLog.b64_round]

example : (squash [⟨0, "stdout".toList, [104, 105]⟩, ⟨2, "stderr".toList, [33]⟩]).map b64dec =
    [some [104, 105], some [33]] := by decide +kernel

/-- **C62**: what is decoded from an attachment is what the job wrote to its standard output. -/
theorem C62_attachment (l : List Rec) :
    b64dec (attachment l) =
      some ((l.filter (fun r => r.stream = "stdout".toList)).flatMap (·.data)) := by
  simp only [attachment, IOLog.b64_round, List.flatMap, beq_eq_decide]

example : b64dec (attachment [⟨0, "stdout".toList, [104, 105]⟩, ⟨2, "stderr".toList, [33]⟩,
    ⟨3, "stdout".toList, [10]⟩]) = some [104, 105, 10] := by decide +kernel

theorem def1_mem (k k' : Key) (v : Option Str) (f : Field) :
    (k', f) ∈ def1 k v ↔ ∃ t, Text v t ∧ k' = k ∧ f = .str t := by
  unfold def1 Text
  rcases v with _ | _ | ⟨c, r⟩
  · simp
  · simp
  · simp

theorem entry_mem (d : Dict) (s : JobState) (o : Str) (k : Key) (f : Field) :
    (k, f) ∈ entry d s o ↔
      ((k = .summary ∧ f = .str s.summary) ∨ (k = .categoryId ∧ f = .str s.category) ∨
       (k = .outcome ∧ f = .str o)) ∨
      (∃ n, s.duration = some n ∧ n ≠ 0 ∧ k = .executionDuration ∧ f = .num n) ∨
      (enabled d withComments = true ∧ k = .comments ∧
        f = commentsField s.comments) ∨
      (enabled d withJobHash = true ∧ k = .hash ∧ f = .str s.checksum) ∨
      (enabled d withJobDefs = true ∧ ((∃ t, Text s.plugin t ∧ k = .plugin ∧ f = .str t) ∨
        (∃ t, Text s.requires t ∧ k = .requires ∧ f = .str t) ∨
        (∃ t, Text s.depends t ∧ k = .depends ∧ f = .str t) ∨
        (∃ t, Text s.command t ∧ k = .command ∧ f = .str t) ∨
        (∃ t, Text s.description t ∧ k = .description ∧ f = .str t))) ∨
      (¬ IsAttachment s ∧ ((enabled d withIOLog = true ∧ k = .ioLog ∧
        f = .log (if enabled d squashIOLog then .squashed (squash s.log)
          else if enabled d flattenIOLog then .flat (flatten s.log)
          else .raw (rawLog s.log))) ∨
        (enabled d withCertificationStatus = true ∧ k = .certificationStatus ∧
          f = .str s.certification))) := by
  have hd : ∀ (v : Option Int), (k, f) ∈ durField v ↔
      ∃ n, v = some n ∧ n ≠ 0 ∧ k = .executionDuration ∧ f = .num n := by
    rintro (_ | n)
    · simp [durField]
    · by_cases h : n = 0 <;> simp [durField, h]
  have hite : ∀ (b : Bool) (l : Entry), (k, f) ∈ (if b = true then l else []) ↔
      b = true ∧ (k, f) ∈ l := by
    intro b l; cases b <;> simp
  have hatt : ∀ (l : Entry), (k, f) ∈ (if isAttachment s = true then [] else l) ↔
      ¬ IsAttachment s ∧ (k, f) ∈ l := by
    intro l
    rw [← isAttachment_iff]
    split <;> simp_all
  unfold entry
  simp only [List.mem_append, hd, hite, hatt, def1_mem, List.mem_cons,
    Prod.mk.injEq, List.not_mem_nil, or_false, or_assoc]

/-- **C62**: a job is in the report exactly when it has an outcome; jobs come in the order
of the session, and each has its own entry. -/
theorem C62_results {R : Type} (d : Dict) (s : Session R) (hn : (s.states.map (·.id)).Nodup) :
    (subset d s).resultMap.map (·.1) = (s.states.filter (fun j => j.outcome.isSome)).map (·.id) ∧
    (∀ id e, (id, e) ∈ (subset d s).resultMap ↔
      ∃ j ∈ s.states, ∃ o, j.outcome = some o ∧ j.id = id ∧ e = entry d j o) := by
  constructor
  · simp only [subset, resultMap_eq d _ hn, filterMap_outcome_ids]
  · intro id e
    simp only [subset, resultMap_eq d _ hn, List.mem_filterMap, Option.map_eq_some_iff,
      Prod.mk.injEq]
    constructor
    · rintro ⟨j, hj, o, ho, rfl, rfl⟩
      exact ⟨j, hj, o, ho, rfl, rfl⟩
    · rintro ⟨j, hj, o, ho, rfl, rfl⟩
      exact ⟨j, hj, o, ho, rfl, rfl⟩

/-- **C62 (partial)**: the entry of a job holds every part that was asked for, except that the
certification status of attachment jobs and durations of zero are missing; it holds nothing else,
no key twice, and everything in it is true of the job. -/
theorem C62_fields_partial {os us : Option (List Str)} {d : Dict}
    (h : mkOptions supportedOptions os us = .ok d) (s : JobState) (o : Str)
    (ho : s.outcome = some o) :
    (∀ k, (∃ f, (k, f) ∈ entry d s o) ↔ Asked (InForce (os.getD [] ++ us.getD [])) s k ∧
      ¬ (k = .certificationStatus ∧ IsAttachment s) ∧
      ¬ (k = .executionDuration ∧ s.duration = some 0)) ∧
    (∀ k f, (k, f) ∈ entry d s o → Right (InForce (os.getD [] ++ us.getD [])) s k f) ∧
    ((entry d s o).map (·.1)).Nodup := by
  have on : ∀ k, enabled d k = true ↔ InForce (os.getD [] ++ us.getD []) k :=
    fun k => (C62_options h k).1
  generalize InForce (os.getD [] ++ us.getD []) = inf at on
  obtain ⟨hl1, hl2, hl3⟩ := C62_log s.log
  refine ⟨?_, ?_, ?_⟩
  · intro k
    constructor
    · rintro ⟨f, hf⟩
      rw [entry_mem] at hf
      rcases hf with (⟨rfl, _⟩ | ⟨rfl, _⟩ | ⟨rfl, _⟩) | ⟨n, hn, hz, rfl, _⟩ | ⟨he, rfl, _⟩ |
        ⟨he, rfl, _⟩ | ⟨he, ⟨t, ht, rfl, _⟩ | ⟨t, ht, rfl, _⟩ | ⟨t, ht, rfl, _⟩ | ⟨t, ht, rfl, _⟩ |
        ⟨t, ht, rfl, _⟩⟩ | ⟨ha, ⟨he, rfl, _⟩ | ⟨he, rfl, _⟩⟩
      · exact ⟨.summary, by simp, by simp⟩
      · exact ⟨.category, by simp, by simp⟩
      · exact ⟨.outcome, by simp, by simp⟩
      · exact ⟨.duration hn, by simp, by simp [hn, hz]⟩
      · exact ⟨.comments ((on _).mp he), by simp, by simp⟩
      · exact ⟨.hash ((on _).mp he), by simp, by simp⟩
      · exact ⟨.plugin ((on _).mp he) ht, by simp, by simp⟩
      · exact ⟨.requires ((on _).mp he) ht, by simp, by simp⟩
      · exact ⟨.depends ((on _).mp he) ht, by simp, by simp⟩
      · exact ⟨.command ((on _).mp he) ht, by simp, by simp⟩
      · exact ⟨.description ((on _).mp he) ht, by simp, by simp⟩
      · exact ⟨.log ((on _).mp he) ha, by simp, by simp⟩
      · exact ⟨.certification ((on _).mp he), by simp [ha], by simp⟩
    · rintro ⟨hk, hc, hz⟩
      simp only [entry_mem]
      cases hk with
      | summary => exact ⟨_, .inl (.inl ⟨rfl, rfl⟩)⟩
      | category => exact ⟨_, .inl (.inr (.inl ⟨rfl, rfl⟩))⟩
      | outcome => exact ⟨_, .inl (.inr (.inr ⟨rfl, rfl⟩))⟩
      | duration hn =>
        rename_i n
        refine ⟨_, .inr (.inl ⟨n, hn, ?_, rfl, rfl⟩)⟩
        rintro rfl
        exact hz ⟨rfl, hn⟩
      | comments he => exact ⟨_, .inr (.inr (.inl ⟨(on _).mpr he, rfl, rfl⟩))⟩
      | hash he => exact ⟨_, .inr (.inr (.inr (.inl ⟨(on _).mpr he, rfl, rfl⟩)))⟩
      | plugin he ht =>
        exact ⟨_, .inr (.inr (.inr (.inr (.inl ⟨(on _).mpr he, .inl ⟨_, ht, rfl, rfl⟩⟩))))⟩
      | requires he ht =>
        exact ⟨_, .inr (.inr (.inr (.inr (.inl ⟨(on _).mpr he, .inr (.inl ⟨_, ht, rfl, rfl⟩)⟩))))⟩
      | depends he ht =>
        exact ⟨_, .inr (.inr (.inr (.inr (.inl
          ⟨(on _).mpr he, .inr (.inr (.inl ⟨_, ht, rfl, rfl⟩))⟩))))⟩
      | command he ht =>
        exact ⟨_, .inr (.inr (.inr (.inr (.inl
          ⟨(on _).mpr he, .inr (.inr (.inr (.inl ⟨_, ht, rfl, rfl⟩)))⟩))))⟩
      | description he ht =>
        exact ⟨_, .inr (.inr (.inr (.inr (.inl
          ⟨(on _).mpr he, .inr (.inr (.inr (.inr ⟨_, ht, rfl, rfl⟩)))⟩))))⟩
      | log he ha =>
        exact ⟨_, .inr (.inr (.inr (.inr (.inr ⟨ha, .inl ⟨(on _).mpr he, rfl, rfl⟩⟩))))⟩
      | certification he =>
        exact ⟨_, .inr (.inr (.inr (.inr (.inr
          ⟨fun ha => hc ⟨rfl, ha⟩, .inr ⟨(on _).mpr he, rfl, rfl⟩⟩))))⟩
  · intro k f hf
    rw [entry_mem] at hf
    rcases hf with (⟨rfl, rfl⟩ | ⟨rfl, rfl⟩ | ⟨rfl, rfl⟩) | ⟨n, hn, hz, rfl, rfl⟩ | ⟨he, rfl, rfl⟩ |
      ⟨he, rfl, rfl⟩ | ⟨he, ⟨t, ht, rfl, rfl⟩ | ⟨t, ht, rfl, rfl⟩ | ⟨t, ht, rfl, rfl⟩ |
      ⟨t, ht, rfl, rfl⟩ | ⟨t, ht, rfl, rfl⟩⟩ | ⟨ha, ⟨he, rfl, rfl⟩ | ⟨he, rfl, rfl⟩⟩
    · exact .summary
    · exact .category
    · exact .outcome ho
    · exact .duration hn
    · cases hc : s.comments with
      | none => exact .noComments hc
      | some c => exact .comments hc
    · exact .hash
    · exact .plugin ht.1
    · exact .requires ht.1
    · exact .depends ht.1
    · exact .command ht.1
    · exact .description ht.1
    · by_cases h1 : enabled d squashIOLog = true
      · rw [if_pos h1]
        exact .squashed ((on _).mp h1) hl1
      · rw [if_neg h1]
        by_cases h2 : enabled d flattenIOLog = true
        · rw [if_pos h2]
          exact .flat (fun hh => h1 ((on _).mpr hh)) ((on _).mp h2) hl2
        · rw [if_neg h2]
          exact .raw (fun hh => h1 ((on _).mpr hh)) (fun hh => h2 ((on _).mpr hh)) hl3
    · exact .certification
  · have hdef : ∀ k v, ((def1 k v).map (·.1)).Sublist [k] := by
      intro k v
      rcases v with _ | _ | ⟨c, r⟩ <;> simp [def1]
    have hdur : ((durField s.duration).map (·.1)).Sublist [.executionDuration] := by
      cases s.duration with
      | none => simp [durField]
      | some n => by_cases h0 : n = 0 <;> simp [durField, h0]
    have hsub : ((entry d s o).map (·.1)).Sublist
        [.summary, .categoryId, .outcome, .executionDuration, .comments, .hash, .plugin, .requires,
          .depends, .command, .description, .ioLog, .certificationStatus] := by
      unfold entry
      simp only [List.map_append]
      have e : ([Key.summary, .categoryId, .outcome, .executionDuration, .comments, .hash, .plugin,
          .requires, .depends, .command, .description, .ioLog, .certificationStatus] : List Key) =
        ((((([.summary, .categoryId, .outcome] ++ [.executionDuration]) ++ [.comments]) ++ [.hash]) ++
          ((([.plugin] ++ [.requires] ++ [.depends]) ++ [.command]) ++ [.description])) ++
          ([.ioLog] ++ [.certificationStatus])) := rfl
      rw [e]
      refine .append (.append (.append (.append (.append ?_ ?_) ?_) ?_) ?_) ?_
      · simp
      · exact hdur
      · split <;> simp
      · split <;> simp
      · split
        · simp only [List.map_append]
          refine .append (.append (.append (.append ?_ ?_) ?_) ?_) ?_ <;>
            exact hdef _ _
        · simp
      · split
        · simp
        · simp only [List.map_append]
          refine .append ?_ ?_ <;> (split <;> simp)
    exact hsub.nodup (by decide)

def exJob : JobState :=
  { id := "n::a".toList, summary := "A".toList, category := "n::c".toList,
    outcome := some "pass".toList, duration := some 3, comments := none, checksum := "ff".toList,
    plugin := some "shell".toList, requires := none, depends := some [], command := some "x".toList,
    description := none, log := [⟨0, "stdout".toList, [104, 105]⟩],
    certification := "blocker".toList }

def exSession (states : List JobState) : Session Nat :=
  { jobList := [], runList := [], desired := [], resources := [],
    units := [⟨true, "n::c".toList, "C".toList⟩, ⟨true, "n::d".toList, "D".toList⟩,
      ⟨false, "n::c".toList, "E".toList⟩],
    states := states }

/-- A job with an outcome and a report with log and definition. -/
example :
    (mkOptions supportedOptions (some ["with-io-log".toList, "with-job-defs".toList,
      "flatten-io-log".toList]) none).map (fun d => (entry d exJob "pass".toList).map (·.1)) =
    .ok [.summary, .categoryId, .outcome, .executionDuration, .plugin, .command, .ioLog] := by
  decide +kernel

example : ((mkOptions supportedOptions (some ["with-comments".toList]) none).map (fun d =>
    (subset d (exSession [exJob, { exJob with id := "n::b".toList, outcome := none }])).resultMap.map
        (·.1))) = .ok ["n::a".toList] := by decide +kernel

/-- **C62** is violated: an attachment job has no certification status in the report though it was
asked for, and a job that took no time has no duration. -/
theorem C62_violated :
    ∃ (d : Dict) (s s' : JobState),
      mkOptions supportedOptions (some ["with-certification-status".toList]) none = .ok d ∧
      Asked (InForce ["with-certification-status".toList]) s .certificationStatus ∧
      (∀ f, (Key.certificationStatus, f) ∉ entry d s "pass".toList) ∧
      Asked (InForce ["with-certification-status".toList]) s' .executionDuration ∧
      (∀ f, (Key.executionDuration, f) ∉ entry d s' "pass".toList) := by
  refine ⟨[(withCertificationStatus, .yes)], { exJob with plugin := some "attachment".toList },
    { exJob with duration := some 0 }, by decide +kernel, ?_, ?_, ?_, ?_⟩
  · refine .certification ⟨[], _, [], .yes, rfl, ⟨by decide +kernel, .inl ⟨rfl, rfl⟩⟩, by simp, by simp⟩
  · intro f hf
    rw [entry_mem] at hf
    simp [IsAttachment] at hf
  · exact .duration (n := 0) rfl
  · intro f hf
    rw [entry_mem] at hf
    simp at hf

/-! ## Other parts of the report -/

theorem attachmentMap_aux (l : List JobState) (m : List (Str × Str))
    (hm : (m.map (·.1) ++ l.map (·.id)).Nodup) :
    l.foldl attachStep m = m ++ (l.filter (fun j => j.outcome.isSome && isAttachment j)).map
      (fun j => (j.id, attachment j.log)) := by
  induction l generalizing m with
  | nil => simp
  | cons s l ih =>
    simp only [List.map_cons] at hm
    have hsub : (m.map (·.1) ++ l.map (·.id)).Nodup :=
      List.Nodup.sublist (List.Sublist.append_left (List.sublist_cons_self _ _) _) hm
    simp only [List.foldl_cons]
    by_cases hp : (s.outcome.isSome && isAttachment s) = true
    · have hk : s.id ∉ m.map (·.1) := by
        intro hmem
        exact (List.nodup_append.mp hm).2.2 _ hmem _ (by simp) rfl
      have e : attachStep m s = put s.id (attachment s.log) m := by
        cases ho : s.outcome <;> simp_all [attachStep]
      rw [e, put_new _ hk, ih _ (by simpa using hm), List.filter_cons, if_pos hp]
      simp
    · have e : attachStep m s = m := by
        cases ho : s.outcome <;> simp_all [attachStep]
      rw [e, ih _ hsub, List.filter_cons, if_neg hp]

theorem attachmentMap_eq (l : List JobState) (hn : (l.map (·.id)).Nodup) :
    attachmentMap l = (l.filter (fun j => j.outcome.isSome && isAttachment j)).map
      (fun j => (j.id, attachment j.log)) := by
  have := attachmentMap_aux l [] (by simpa using hn)
  rwa [List.nil_append] at this

/-- **C62**: the lists, resources, attachments and categories are in the report exactly when asked
for, and are those of the session. -/
theorem C62_parts {R : Type} {os us : Option (List Str)} {d : Dict}
    (h : mkOptions supportedOptions os us = .ok d) (s : Session R)
    (hn : (s.states.map (·.id)).Nodup) :
    let on := InForce (os.getD [] ++ us.getD [])
    let r := subset d s
    (∀ l, r.jobList = some l ↔ on "with-job-list".toList ∧ l = s.jobList) ∧
    (∀ l, r.desiredJobList = some l ↔ on "with-job-list".toList ∧ l = s.desired) ∧
    (∀ l, r.runList = some l ↔ on "with-run-list".toList ∧ l = s.runList) ∧
    (∀ l, r.resourceMap = some l ↔ on "with-resource-map".toList ∧ l = s.resources) ∧
    (r.categoryMap.isSome ↔ on "with-category-map".toList) ∧
    (r.attachmentMap.isSome ↔ on "with-attachments".toList) ∧
    (∀ m, r.attachmentMap = some m →
      m.map (·.1) = (s.states.filter
        (fun j => j.outcome.isSome && j.plugin == some "attachment".toList)).map (·.id) ∧
      ∀ id t, (id, t) ∈ m → ∃ j ∈ s.states, j.id = id ∧ j.outcome.isSome ∧ IsAttachment j ∧
        b64dec t = some ((j.log.filter (fun r => r.stream = "stdout".toList)).flatMap (·.data))) := by
  intro on r
  have hon : ∀ k, enabled d k = true ↔ on k := fun k => (C62_options h k).1
  have ite_some : ∀ {T : Type} (k : Str) (a l : T),
      ((if enabled d k = true then some a else none) = some l) ↔ on k ∧ l = a := by
    intro T k a l
    rw [← hon]
    by_cases hk : enabled d k = true
    · simp only [hk, if_true, true_and, Option.some.injEq]; exact eq_comm
    · simp [hk]
  have ite_isSome : ∀ {T : Type} (k : Str) (a : T),
      ((if enabled d k = true then some a else none : Option T).isSome = true) ↔ on k := by
    intro T k a
    rw [← hon]
    by_cases hk : enabled d k = true
    · simp only [hk, if_true, Option.isSome_some]
    · simp [hk]
  refine ⟨ite_some _ _, ite_some _ _, ite_some _ _, ite_some _ _, ite_isSome _ _,
    ite_isSome _ _, ?_⟩
  intro m hm
  obtain ⟨_, rfl⟩ := (ite_some _ _ _).mp hm
  rw [attachmentMap_eq _ hn]
  refine ⟨by rw [List.map_map]; rfl, ?_⟩
  intro id t ht
  obtain ⟨j, hj, hjt⟩ := List.mem_map.mp ht
  simp only [Prod.mk.injEq] at hjt
  obtain ⟨rfl, rfl⟩ := hjt
  obtain ⟨hj1, hj2⟩ := List.mem_filter.mp hj
  simp only [Bool.and_eq_true] at hj2
  exact ⟨j, hj1, rfl, hj2.1, (isAttachment_iff _).mp hj2.2, C62_attachment _⟩

/-- The attachment of the job is in the report. -/
example : ((mkOptions supportedOptions (some ["with-attachments".toList]) none).map (fun d =>
    (subset d (exSession [{ exJob with plugin := some "attachment".toList }])).attachmentMap)) =
    .ok (some [("n::a".toList, "aGk=".toList)]) := by decide +kernel

theorem categories_fold (wanted : List Str) (us : List UnitRec) :
    let m := us.foldl (categoryStep wanted) []
    (m.map (·.1)).Nodup ∧ ∀ c n, (c, n) ∈ m ↔ c ∈ wanted ∧
      ∃ pre u post, us = pre ++ u :: post ∧ u.isCategory = true ∧ u.id = c ∧ u.name = n ∧
        ∀ u' ∈ post, ¬ (u'.isCategory = true ∧ u'.id = c) := by
  induction us using List.reverseRecOn with
  | nil => simp
  | append_singleton us u ih =>
    simp only [List.foldl_append, List.foldl_cons, List.foldl_nil]
    generalize hm : us.foldl (categoryStep wanted) [] = m
    simp only [hm] at ih
    unfold categoryStep
    obtain ⟨hn, hmem⟩ := ih
    have old : ∀ c n, c ∈ wanted → ¬ (u.isCategory = true ∧ u.id = c) →
        ((∃ pre u1 post, us ++ [u] = pre ++ u1 :: post ∧ u1.isCategory = true ∧ u1.id = c ∧
          u1.name = n ∧ ∀ u' ∈ post, ¬ (u'.isCategory = true ∧ u'.id = c)) ↔ (c, n) ∈ m) := by
      intro c n hc hne
      rw [hmem]
      constructor
      · rintro ⟨pre, u1, post, e, h1, h2, h3, h4⟩
        refine ⟨hc, ?_⟩
        rcases List.eq_nil_or_concat post with rfl | ⟨post', x, rfl⟩
        · have e2 := List.append_inj' e (by simp)
          simp only [List.cons.injEq, and_true] at e2
          obtain ⟨_, rfl⟩ := e2
          exact absurd ⟨h1, h2⟩ hne
        · have e2 : us ++ [u] = (pre ++ u1 :: post') ++ [x] := by rw [e]; simp
          have e3 := List.append_inj' e2 (by simp)
          exact ⟨pre, u1, post', e3.1, h1, h2, h3, fun a ha => h4 a (by simp [ha])⟩
      · rintro ⟨_, pre, u1, post, e, h1, h2, h3, h4⟩
        refine ⟨pre, u1, post ++ [u], by simp [e], h1, h2, h3, ?_⟩
        intro u' hu'
        rcases List.mem_append.mp hu' with hh | hh
        · exact h4 u' hh
        · simp only [List.mem_singleton] at hh
          subst hh
          exact hne
    split
    · rename_i hc
      simp only [Bool.and_eq_true, List.contains_iff_mem] at hc
      refine ⟨put_nodup hn, ?_⟩
      intro c n
      rw [put_mem hn]
      by_cases hcu : c = u.id
      · subst hcu
        simp only [true_and, ne_eq, not_true_eq_false, false_and, or_false]
        constructor
        · rintro rfl
          exact ⟨hc.2, us, u, [], rfl, hc.1, rfl, rfl, by simp⟩
        · rintro ⟨_, pre, u1, post, e, h1, h2, h3, h4⟩
          rcases List.eq_nil_or_concat post with rfl | ⟨post', x, rfl⟩
          · have e2 := List.append_inj' e (by simp)
            simp only [List.cons.injEq, and_true] at e2
            obtain ⟨_, rfl⟩ := e2
            exact h3.symm
          · have e2 : us ++ [u] = (pre ++ u1 :: post') ++ [x] := by rw [e]; simp
            have e3 := List.append_inj' e2 (by simp)
            simp only [List.cons.injEq, and_true] at e3
            obtain ⟨_, rfl⟩ := e3
            exact absurd ⟨hc.1, rfl⟩ (h4 u (by simp))
      · simp only [hcu, false_and, ne_eq, not_false_eq_true, true_and, false_or]
        constructor
        · intro h
          exact ⟨((hmem c n).mp h).1,
            (old c n ((hmem c n).mp h).1 (fun hh => hcu hh.2.symm)).mpr h⟩
        · rintro ⟨h1, h2⟩
          exact (old c n h1 (fun hh => hcu hh.2.symm)).mp h2
    · rename_i hc
      simp only [Bool.and_eq_true, List.contains_iff_mem, not_and] at hc
      refine ⟨hn, ?_⟩
      intro c n
      constructor
      · intro h
        have hw := ((hmem c n).mp h).1
        exact ⟨hw, (old c n hw (fun hh => hc hh.1 (hh.2 ▸ hw))).mpr h⟩
      · rintro ⟨h1, h2⟩
        exact (old c n h1 (fun hh => hc hh.1 (hh.2 ▸ h1))).mp h2

/-- **C62**: the category map names exactly the categories of jobs of the session that have a
category unit (the last one of that id), and the built-in one where some job is in it. -/
theorem C62_categories {R : Type} (s : Session R) :
    ((categoryMap s).map (·.1)).Nodup ∧
    ∀ c n, (c, n) ∈ categoryMap s ↔ (∃ j ∈ s.states, j.category = c) ∧
      ((c = "com.canonical.plainbox::uncategorised".toList ∧ n = "Uncategorised".toList) ∨
       (c ≠ "com.canonical.plainbox::uncategorised".toList ∧
        ∃ pre u post, s.units = pre ++ u :: post ∧ u.isCategory = true ∧ u.id = c ∧ u.name = n ∧
          ∀ u' ∈ post, ¬ (u'.isCategory = true ∧ u'.id = c))) := by
  have hw : ∀ c, c ∈ s.states.map (·.category) ↔ ∃ j ∈ s.states, j.category = c := by
    intro c; simp
  obtain ⟨hn, hm⟩ := categories_fold (s.states.map (·.category)) s.units
  rw [show "com.canonical.plainbox::uncategorised".toList = uncategorised from rfl]
  unfold categoryMap
  generalize s.units.foldl (categoryStep (s.states.map (·.category))) [] = m at hn hm
  generalize "Uncategorised".toList = N
  split
  · rename_i hc
    rw [List.contains_iff_mem] at hc
    refine ⟨put_nodup hn, fun c n => ?_⟩
    rw [put_mem hn, hm, ← hw]
    by_cases hcu : c = uncategorised
    · subst hcu; simp [hc]
    · simp [hcu]
  · rename_i hc
    rw [List.contains_iff_mem] at hc
    refine ⟨hn, fun c n => ?_⟩
    rw [hm, ← hw]
    by_cases hcu : c = uncategorised
    · subst hcu
      simp only [hc, false_and]
    · simp [hcu]

/-- One of two category units is wanted, and the built-in one. -/
example : categoryMap (exSession [exJob, { exJob with category := uncategorised }]) =
    [("n::c".toList, "C".toList), (uncategorised, "Uncategorised".toList)] := by decide +kernel

/-! ## C63: archive members -/

theorem takeWhile_all {p : Char → Bool} {l : Str} (h : ∀ c ∈ l, p c = true) :
    l.takeWhile p = l := by
  induction l with
  | nil => rfl
  | cons c l ih =>
    rw [List.takeWhile_cons_of_pos (h c (by simp)), ih (fun a ha => h a (by simp [ha]))]

/-- Cutting off an extension. -/
theorem splitextRoot_ext (root ext : Str) (he : '.' ∉ ext) (hr : ∃ c ∈ root, c ≠ '.') :
    splitextRoot (root ++ '.' :: ext) = root := by
  have ht : (root ++ '.' :: ext).reverse.takeWhile (· != '.') = ext.reverse := by
    rw [List.reverse_append, List.reverse_cons, List.append_assoc, List.takeWhile_append]
    have h0 : ext.reverse.takeWhile (· != '.') = ext.reverse := by
      apply takeWhile_all
      intro c hc
      simp only [bne_iff_ne, ne_eq]
      rintro rfl
      exact he (List.mem_reverse.mp hc)
    rw [h0]
    simp
  unfold splitextRoot
  simp only [ht]
  have e1 : ¬ (ext.reverse.length = (root ++ '.' :: ext).length) := by simp; omega
  rw [if_neg e1]
  have e2 : (root ++ '.' :: ext).take ((root ++ '.' :: ext).length - ext.reverse.length - 1) =
      root := by
    have : (root ++ '.' :: ext).length - ext.reverse.length - 1 = root.length := by simp; omega
    rw [this]
    simp
  rw [e2]
  have e3 : ¬ (root.all (· == '.') = true) := by
    obtain ⟨c, hc, hne⟩ := hr
    rw [List.all_eq_true]
    intro h
    simpa [hne] using h c hc
  rw [if_neg e3]

theorem basename_join (dir name : Str) (h : '/' ∉ name) : basename (dir ++ '/' :: name) = name := by
  unfold basename
  rw [List.reverse_append, List.reverse_cons, List.append_assoc, List.takeWhile_append]
  have h0 : name.reverse.takeWhile (· != '/') = name.reverse := by
    apply takeWhile_all
    intro c hc
    simp only [bne_iff_ne, ne_eq]
    rintro rfl
    exact h (List.mem_reverse.mp hc)
  rw [h0]
  simp

/-- No occurrence of `record.gz` starts in `p` when followed by `record.gz`. -/
theorem no_border {p : Str} (h : ¬ "record.gz".toList <:+: p) (hp : p ≠ []) :
    ¬ "record.gz".toList <+: p ++ "record.gz".toList := by
  intro hpre
  by_cases hl : "record.gz".toList.length ≤ p.length
  · exact h ((List.prefix_of_prefix_length_le hpre (List.prefix_append _ _) hl).isInfix)
  · have hp2 : p = "record.gz".toList.take p.length := by
      have := List.prefix_of_prefix_length_le (List.prefix_append p _) hpre (by omega)
      exact List.prefix_iff_eq_take.mp this
    have hlen : p.length < 9 := by
      have : "record.gz".toList.length = 9 := by decide +kernel
      omega
    have hpos : 0 < p.length := List.length_pos_iff.mpr hp
    rw [hp2] at hpre
    generalize p.length = n at hlen hpos hpre
    revert hpre
    have : ∀ n < 9, 0 < n → ¬ "record.gz".toList <+: "record.gz".toList.take n ++ "record.gz".toList := by
      decide +kernel
    exact this n hlen hpos

theorem replaceAll_end (std p : Str) (h : ¬ "record.gz".toList <:+: p) (fuel : Nat)
    (hf : (p ++ "record.gz".toList).length ≤ fuel) :
    replaceAll "record.gz".toList std fuel (p ++ "record.gz".toList) = p ++ std := by
  induction p generalizing fuel with
  | nil =>
    cases fuel with
    | zero => exact absurd hf (by decide +kernel)
    | succ fuel =>
      rw [List.nil_append, List.nil_append]
      have : "record.gz".toList = 'r' :: "ecord.gz".toList := by decide +kernel
      rw [this]
      unfold replaceAll
      simp only
      rw [if_pos (by decide +kernel)]
      have e : List.drop ('r' :: "ecord.gz".toList).length ('r' :: "ecord.gz".toList) = [] := by
        decide +kernel
      rw [e]
      cases fuel <;> simp [replaceAll]
  | cons c p ih =>
    cases fuel with
    | zero => simp at hf
    | succ fuel =>
      have hb := no_border h (by simp)
      rw [List.cons_append] at hb ⊢
      unfold replaceAll
      simp only
      rw [if_neg (by rwa [List.isPrefixOf_iff_prefix])]
      rw [ih (fun hh => h (hh.trans (List.suffix_cons _ _).isInfix)) fuel (by
        simp only [List.cons_append, List.length_cons] at hf; omega)]
      rfl

/-- A log file as the runner names it: directory, slug and `.record.gz`. -/
structure Log where
  isAttachment : Bool
  dir : Str
  slug : Str
  deriving DecidableEq

/-- File names of the runner: the slug is a file name with something but dots in it, and
`record.gz` is only at the end. -/
def Log.Ok (l : Log) : Prop :=
  '/' ∉ l.slug ∧ (∃ c ∈ l.slug, c ≠ '.') ∧
    ¬ "record.gz".toList <:+: (l.dir ++ '/' :: l.slug ++ ['.'])

def Log.member (l : Log) : Member :=
  ⟨l.isAttachment, some (l.dir ++ '/' :: l.slug ++ ".record.gz".toList)⟩

def Log.file (l : Log) (std : Str) : Str := l.dir ++ '/' :: l.slug ++ '.' :: std

def Log.folder (l : Log) : Str :=
  if l.isAttachment then "attachment_files".toList else "test_output".toList

/-- **C63**: the archive has, for every job with a log file, its standard output under the slug of
the job and its error output under the slug followed by `.stderr`, each if there is any, and
nothing else; attachments are in a folder of their own. -/
theorem C63_members (present : Str → Bool) (l : Log) (h : l.Ok) :
    membersOf present l.member =
      (if present (l.file "stdout".toList) then
        [(l.file "stdout".toList, l.folder ++ '/' :: l.slug)] else []) ++
      (if present (l.file "stderr".toList) then
        [(l.file "stderr".toList, l.folder ++ '/' :: (l.slug ++ ".stderr".toList))] else []) := by
  obtain ⟨h1, h2, h3⟩ := h
  have hrep : ∀ std, replaceAll "record.gz".toList std
      (l.dir ++ '/' :: l.slug ++ ".record.gz".toList).length
      (l.dir ++ '/' :: l.slug ++ ".record.gz".toList) = l.file std := by
    intro std
    have e : l.dir ++ '/' :: l.slug ++ ".record.gz".toList =
        (l.dir ++ '/' :: l.slug ++ ['.']) ++ "record.gz".toList := by
      have : ".record.gz".toList = '.' :: "record.gz".toList := by decide +kernel
      rw [this]; simp
    rw [e, replaceAll_end std _ h3 _ (Nat.le_refl _)]
    simp [Log.file]
  have hb1 : basename (l.file "stdout".toList) = l.slug ++ '.' :: "stdout".toList := by
    rw [Log.file, List.append_assoc, List.cons_append]
    exact basename_join _ _ (by simp only [List.mem_append, h1, false_or]; decide +kernel)
  have hb2 : basename (l.file "stderr".toList) = l.slug ++ '.' :: "stderr".toList := by
    rw [Log.file, List.append_assoc, List.cons_append]
    exact basename_join _ _ (by simp only [List.mem_append, h1, false_or]; decide +kernel)
  have hs := splitextRoot_ext l.slug "stdout".toList (by decide +kernel) h2
  have hne : ¬ ("stderr".toList = "stdout".toList) := by decide +kernel
  have hstd : ".stderr".toList = '.' :: "stderr".toList := by decide +kernel
  have m1 : memberOf present l.isAttachment (l.dir ++ '/' :: l.slug ++ ".record.gz".toList)
      "stdout".toList = if present (l.file "stdout".toList) then
        some (l.file "stdout".toList, l.folder ++ '/' :: l.slug) else none := by
    unfold memberOf
    rw [hrep, if_pos rfl, hb1, hs]
    rfl
  have m2 : memberOf present l.isAttachment (l.dir ++ '/' :: l.slug ++ ".record.gz".toList)
      "stderr".toList = if present (l.file "stderr".toList) then
        some (l.file "stderr".toList, l.folder ++ '/' :: (l.slug ++ ".stderr".toList)) else none := by
    unfold memberOf
    rw [hrep, if_neg hne, hb2, hstd]
    rfl
  unfold membersOf Log.member
  simp only [List.filterMap_cons, List.filterMap_nil, m1, m2]
  cases present (l.file "stdout".toList) <;> cases present (l.file "stderr".toList) <;> rfl

def exLogA : Log := ⟨false, "/s/io-logs".toList, "n__a".toList⟩
def exLogB : Log := ⟨false, "/s/io-logs".toList, "n__a.stderr".toList⟩
def exLogC : Log := ⟨true, "/s/io-logs".toList, "n__dmesg".toList⟩

theorem exLog_ok : exLogA.Ok ∧ exLogB.Ok ∧ exLogC.Ok := by
  unfold Log.Ok
  refine ⟨⟨by decide +kernel, ⟨'n', by decide +kernel, by decide⟩, by decide +kernel⟩,
    ⟨by decide +kernel, ⟨'n', by decide +kernel, by decide⟩, by decide +kernel⟩,
    ⟨by decide +kernel, ⟨'n', by decide +kernel, by decide⟩, by decide +kernel⟩⟩

example : members (fun f => f ≠ "/s/io-logs/n__dmesg.stderr".toList) [exLogA.member, exLogC.member]
    = [("/s/io-logs/n__a.stdout".toList, "test_output/n__a".toList),
       ("/s/io-logs/n__a.stderr".toList, "test_output/n__a.stderr".toList),
       ("/s/io-logs/n__dmesg.stdout".toList, "attachment_files/n__dmesg".toList)] := by
  decide +kernel

theorem folder_split {l l' : Log} {a b : Str} (h : l.folder ++ '/' :: a = l'.folder ++ '/' :: b) :
    l.isAttachment = l'.isAttachment ∧ a = b := by
  unfold Log.folder at h
  have e1 : "attachment_files".toList = 'a' :: "ttachment_files".toList := by decide +kernel
  have e2 : "test_output".toList = 't' :: "est_output".toList := by decide +kernel
  cases ha : l.isAttachment <;> cases hb : l'.isAttachment <;> rw [ha, hb] at h
  · simp only [Bool.false_eq_true, if_false, List.append_cancel_left_eq, List.cons.injEq,
      true_and] at h
    exact ⟨rfl, h⟩
  · simp only [Bool.false_eq_true, if_false, if_true] at h
    rw [e1, e2] at h
    simp only [List.cons_append, List.cons.injEq] at h
    exact absurd h.1 (by decide)
  · simp only [Bool.false_eq_true, if_false, if_true] at h
    rw [e1, e2] at h
    simp only [List.cons_append, List.cons.injEq] at h
    exact absurd h.1 (by decide)
  · simp only [if_true, List.append_cancel_left_eq, List.cons.injEq, true_and] at h
    exact ⟨rfl, h⟩

/-- The archive name `n` is used for the log `l`. -/
def Uses (present : Str → Bool) (l : Log) (n : Str) : Prop :=
  ∃ f, (f, n) ∈ membersOf present l.member

/-- Output of `a` and error output of `b` get the same name. -/
def Clash (present : Str → Bool) (a b : Log) : Prop :=
  a.isAttachment = b.isAttachment ∧ a.slug = b.slug ++ ".stderr".toList ∧
    present (a.file "stdout".toList) = true ∧ present (b.file "stderr".toList) = true

theorem uses_iff (present : Str → Bool) (l : Log) (h : l.Ok) (n : Str) :
    Uses present l n ↔
      (present (l.file "stdout".toList) = true ∧ n = l.folder ++ '/' :: l.slug) ∨
      (present (l.file "stderr".toList) = true ∧
        n = l.folder ++ '/' :: (l.slug ++ ".stderr".toList)) := by
  unfold Uses
  rw [C63_members present l h]
  cases present (l.file "stdout".toList) <;> cases present (l.file "stderr".toList) <;>
    simp only [Bool.false_eq_true, if_true, if_false, List.append_nil, List.nil_append,
      List.mem_singleton, List.mem_append, List.not_mem_nil, Prod.mk.injEq, false_and, true_and,
      exists_const, or_false, false_or, exists_or, exists_eq_left]

/-- **C63**: two logs with different slugs share a name in the archive exactly when the slug of one
is that of the other followed by `.stderr`, and both files are there. -/
theorem C63_clash (present : Str → Bool) (a b : Log) (ha : a.Ok) (hb : b.Ok)
    (hne : a.slug ≠ b.slug) :
    (∃ n, Uses present a n ∧ Uses present b n) ↔ Clash present a b ∨ Clash present b a := by
  simp only [uses_iff present _ ha, uses_iff present _ hb]
  constructor
  · rintro ⟨n, ⟨p1, e1⟩ | ⟨p1, e1⟩, ⟨p2, e2⟩ | ⟨p2, e2⟩⟩ <;> rw [e1] at e2 <;>
      obtain ⟨f, e⟩ := folder_split e2
    · exact absurd e hne
    · exact .inl ⟨f, e, p1, p2⟩
    · exact .inr ⟨f.symm, e.symm, p2, p1⟩
    · exact absurd (List.append_cancel_right e) hne
  · rintro (⟨f, e, p1, p2⟩ | ⟨f, e, p1, p2⟩)
    · refine ⟨_, .inl ⟨p1, rfl⟩, .inr ⟨p2, ?_⟩⟩
      rw [e, Log.folder, Log.folder, f]
    · refine ⟨_, .inr ⟨p2, rfl⟩, .inl ⟨p1, ?_⟩⟩
      rw [e, Log.folder, Log.folder, f]

theorem nodup_one (present : Str → Bool) (l : Log) (h : l.Ok) :
    ((membersOf present l.member).map (·.2)).Nodup := by
  rw [C63_members present l h]
  have hne : l.folder ++ '/' :: l.slug ≠ l.folder ++ '/' :: (l.slug ++ ".stderr".toList) := by
    intro e
    have := congrArg List.length (folder_split e).2
    rw [List.length_append, show ".stderr".toList.length = 7 by decide +kernel] at this
    omega
  cases present (l.file "stdout".toList) <;> cases present (l.file "stderr".toList) <;>
    simp only [Bool.false_eq_true, if_true, if_false, List.append_nil, List.nil_append,
      List.map_cons, List.map_nil, List.nodup_nil, List.nodup_singleton, List.cons_append]
  simp only [List.nodup_cons, List.mem_singleton, hne, List.not_mem_nil, not_false_eq_true,
    List.nodup_nil, and_self]

/-- **C63 (partial)**: no two files get the same name in the archive if the slugs are different and
no slug is that of another job followed by `.stderr`.  What is missing: the last condition. -/
theorem C63_distinct_partial (present : Str → Bool) (ls : List Log) (hok : ∀ l ∈ ls, l.Ok)
    (hs : (ls.map (·.slug)).Nodup)
    (hc : ∀ a ∈ ls, ∀ b ∈ ls, a.slug ≠ b.slug ++ ".stderr".toList) :
    ((members present (ls.map Log.member)).map (·.2)).Nodup := by
  induction ls with
  | nil => simp [members]
  | cons l ls ih =>
    simp only [List.map_cons, List.nodup_cons] at hs
    have ih' := ih (fun a ha => hok a (by simp [ha])) hs.2
      (fun a ha b hb => hc a (by simp [ha]) b (by simp [hb]))
    have e : members present ((l :: ls).map Log.member) =
        membersOf present l.member ++ members present (ls.map Log.member) := by
      simp [members]
    rw [e, List.map_append, List.nodup_append]
    refine ⟨nodup_one present l (hok l (by simp)), ih', ?_⟩
    intro x hx y hy
    rintro rfl
    obtain ⟨⟨f, n⟩, hf, rfl⟩ := List.mem_map.mp hx
    obtain ⟨⟨f', n'⟩, hf', hn'⟩ := List.mem_map.mp hy
    simp only at hn'
    subst hn'
    simp only [members, List.mem_flatMap, List.mem_map] at hf'
    obtain ⟨m, ⟨l', hl', rfl⟩, hf'⟩ := hf'
    have hne : l.slug ≠ l'.slug := by
      intro hh
      exact hs.1 (List.mem_map.mpr ⟨l', hl', hh.symm⟩)
    rcases (C63_clash present l l' (hok l (by simp)) (hok l' (by simp [hl'])) hne).mp
      ⟨n', ⟨f, hf⟩, ⟨f', hf'⟩⟩ with h | h
    · exact hc l (by simp) l' (by simp [hl']) h.2.1
    · exact hc l' (by simp [hl']) l (by simp) h.2.1

example : (∀ l ∈ [exLogA, exLogC], l.Ok) ∧ (([exLogA, exLogC].map (·.slug)).Nodup) ∧
    (∀ a ∈ [exLogA, exLogC], ∀ b ∈ [exLogA, exLogC], a.slug ≠ b.slug ++ ".stderr".toList) := by
  refine ⟨?_, by decide +kernel, by decide +kernel⟩
  intro l hl
  rcases List.mem_cons.mp hl with rfl | hl
  · exact exLog_ok.1
  · rw [List.mem_singleton.mp hl]; exact exLog_ok.2.2

/-- **C63** is violated: the error output of `n__a` and the output of `n__a.stderr` are both called
`test_output/n__a.stderr`. -/
theorem C63_violated :
    exLogA.Ok ∧ exLogB.Ok ∧ exLogA.slug ≠ exLogB.slug ∧
    ¬ ((members (fun _ => true) [exLogA.member, exLogB.member]).map (·.2)).Nodup :=
  ⟨exLog_ok.1, exLog_ok.2.1, by decide +kernel, by decide +kernel⟩

end Verif.Export
