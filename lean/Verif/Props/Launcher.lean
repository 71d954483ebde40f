import Verif.Model.Launcher
import Verif.Lemmas.Assoc
import Verif.Lemmas.Sort

/-!
# C45: the trusted launcher

* `C45_known`: every program the launcher executes is the command of a known job whose checksum was
  asked for, with any arguments.  `C45_unknown`: if there is none, no target is executed.
* `C45_environment`: the parser gets back, from the arguments the controller makes, the environment the
  controller wanted to pass.
* `C45_end_to_end`: the launcher started by the controller executes the command of the first known job
  with that checksum, in its own environment changed by the wanted one.
* `C45_dash_violated`: names that begin with a dash.
* `C37_env_program`: the same for the controllers that use env(1).
-/

namespace Verif.Launcher
open Verif
open Verif.Checksum (Str dictSet sortItems)
open Verif.Assoc (lk_cons lookup_dictSet nodup_dictSet perm_of_lookup)

/-! ## Specification -/

/-- Names of variables that the arguments can carry: no `=`, and not beginning with a dash. -/
def GoodName (k : Str) : Prop := '=' ∉ k ∧ dashed k = false

/-- A dictionary of such variables. -/
structure GoodEnv (env : Env) : Prop where
  nodup : (env.map (·.1)).Nodup
  names : ∀ kv ∈ env, GoodName kv.1

/-- The value of a variable in an environment changed by another. -/
def Changed (os : Env) (env : Env) (k : Str) : Option Str := (env.lookup k).or (os.lookup k)

/-! ## Lemmas -/

theorem splitEq_nameValue (kv : Str × Str) (h : '=' ∉ kv.1) : splitEq (nameValue kv) = some kv := by
  obtain ⟨k, v⟩ := kv
  induction k with
  | nil => simp [nameValue, splitEq]
  | cons c k ih =>
    simp only [List.mem_cons, not_or] at h
    have := ih h.2
    simp only [nameValue] at this
    simp [nameValue, splitEq, Ne.symm h.1, this]

theorem dashed_nameValue (kv : Str × Str) (h : dashed kv.1 = false) : dashed (nameValue kv) = false := by
  obtain ⟨k, v⟩ := kv
  cases k with
  | nil => simp [nameValue, dashed]
  | cons c k =>
    simp only [nameValue, List.cons_append]
    by_cases hc : c = '-'
    · subst hc; simp [dashed] at h
    · unfold dashed; split
      · rename_i heq; cases heq; exact absurd rfl hc
      · rfl

/-- A list of assignments, applied in order. -/
def assign (items : Env) (l : Env) : Env := l.foldl (fun e kv => dictSet kv.1 kv.2 e) items

theorem lookup_assign (l items : Env) (hn : (l.map (·.1)).Nodup) (k : Str) :
    (assign items l).lookup k = Changed items l k := by
  induction l generalizing items with
  | nil => simp [assign, Changed]
  | cons x l ih =>
    simp only [List.map_cons, List.nodup_cons] at hn
    show (assign (dictSet x.1 x.2 items) l).lookup k = _
    rw [ih _ hn.2]
    unfold Changed
    rw [lk_cons, lookup_dictSet]
    by_cases h : k = x.1
    · have hnone : l.lookup k = none := by
        cases hl : l.lookup k with
        | none => rfl
        | some v =>
          exfalso
          apply hn.1
          rw [← h]
          obtain ⟨l1, l2, hsplit, _⟩ := List.lookup_eq_some_iff.1 hl
          rw [hsplit]; simp
      rw [hnone, if_pos h, if_pos h]; rfl
    · rw [if_neg h, if_neg h]

/-- The values of variables do not depend on the order of a dictionary. -/
theorem lookup_perm {l l' : Env} (hp : l.Perm l') (hn : (l.map (·.1)).Nodup) (k : Str) :
    l.lookup k = l'.lookup k := by
  have hmem : ∀ (l : Env), (l.map (·.1)).Nodup → ∀ v, l.lookup k = some v ↔ (k, v) ∈ l := by
    intro l hn v
    induction l with
    | nil => simp
    | cons x l ih =>
      simp only [List.map_cons, List.nodup_cons] at hn
      rw [lk_cons]
      by_cases h : k = x.1
      · rw [if_pos h]
        constructor
        · intro e; rw [h, ← Option.some.inj e]; simp
        · intro e
          rcases List.mem_cons.1 e with e | e
          · rw [← e]
          · exact absurd (List.mem_map.2 ⟨_, e, h⟩) hn.1
      · rw [if_neg h, ih hn.2]
        constructor
        · exact List.mem_cons_of_mem _
        · intro e
          rcases List.mem_cons.1 e with e | e
          · exact absurd (congrArg Prod.fst e) h
          · exact e
  have hn' : (l'.map (·.1)).Nodup := (hp.map (·.1)).nodup_iff.1 hn
  have : ∀ v, l.lookup k = some v ↔ l'.lookup k = some v := by
    intro v; rw [hmem l hn, hmem l' hn', hp.mem_iff]
  cases h : l.lookup k with
  | some v => exact ((this v).1 h).symm
  | none =>
    cases h' : l'.lookup k with
    | none => rfl
    | some v => rw [(this v).2 h'] at h; cases h

theorem sortItems_good (env : Env) (h : GoodEnv env) : GoodEnv (sortItems env) := by
  have hp : (sortItems env).Perm env := Sort.sortBy_perm env
  exact ⟨(hp.map (·.1)).nodup_iff.2 h.nodup, fun kv hkv => h.names kv (hp.mem_iff.1 hkv)⟩

theorem lookup_sortItems (env : Env) (h : GoodEnv env) (k : Str) :
    (sortItems env).lookup k = env.lookup k :=
  lookup_perm (Sort.sortBy_perm env) (sortItems_good env h).nodup k

/-- The next argument, if any, begins with a dash. -/
def Dashes (rest : List Str) : Prop := ∀ a, rest.head? = some a → dashed a = true

theorem take_one (v : Str) (hv : dashed v = false) (rest : List Str) (hr : Dashes rest) :
    (v :: rest).takeWhile (fun v => !dashed v) = [v] := by
  rw [List.takeWhile_cons]
  simp only [hv, Bool.not_false, if_true, List.cons.injEq, true_and]
  cases rest with
  | nil => rfl
  | cons a as => rw [List.takeWhile_cons]; simp [hr a rfl]

theorem update_one (items : Option Env) (kv : Str × Str) (h : '=' ∉ kv.1) :
    update items [nameValue kv] = .ok (dictSet kv.1 kv.2 (items.getD [])) := by
  simp only [update, List.foldlM_cons, List.foldlM_nil, splitEq_nameValue kv h]
  rfl

theorem parse_T_one (fuel : Nat) (ns : Ns) (kv : Str × Str) (hk : GoodName kv.1) (rest : List Str)
    (hr : Dashes rest) :
    parseLoop (fuel + 1) ns ("-T".toList :: nameValue kv :: rest) =
      parseLoop fuel { ns with targetEnv := some (dictSet kv.1 kv.2 (ns.targetEnv.getD [])) } rest := by
  rw [parseLoop, if_neg (by decide), if_neg (by decide), if_neg (by decide), if_pos (by decide)]
  simp only [take_one _ (dashed_nameValue kv hk.2) rest hr, update_one _ _ hk.1, List.cons_ne_self,
    List.length_singleton, List.drop_one, List.tail_cons]
  rw [if_neg (by simp)]

theorem parse_G_one (fuel : Nat) (ns : Ns) (kv : Str × Str) (hk : GoodName kv.1) (rest : List Str)
    (hr : Dashes rest) :
    parseLoop (fuel + 1) ns ("-G".toList :: nameValue kv :: rest) =
      parseLoop fuel { ns with generatorEnv := some (dictSet kv.1 kv.2 (ns.generatorEnv.getD [])) }
        rest := by
  rw [parseLoop, if_neg (by decide), if_neg (by decide), if_neg (by decide), if_neg (by decide),
    if_pos (by decide)]
  simp only [take_one _ (dashed_nameValue kv hk.2) rest hr, update_one _ _ hk.1, List.cons_ne_self,
    List.length_singleton, List.drop_one, List.tail_cons]
  rw [if_neg (by simp)]

/-- What a run of options for variables leaves. -/
def collected (old : Option Env) (l : Env) : Option Env :=
  if l = [] then old else some (assign (old.getD []) l)

theorem collected_cons (old : Option Env) (kv : Str × Str) (l : Env) :
    collected (some (dictSet kv.1 kv.2 (old.getD []))) l = collected old (kv :: l) := by
  unfold collected
  cases l with
  | nil => simp [assign]
  | cons x l => simp [assign]

theorem dashes_opt (opt : Str) (ho : dashed opt = true) (l : Env) (rest : List Str) (hr : Dashes rest) :
    Dashes ((l.flatMap fun kv => [opt, nameValue kv]) ++ rest) := by
  cases l with
  | nil => simpa using hr
  | cons x l => intro a ha; simp at ha; rw [← ha]; exact ho

/-- Parsing a run of options for variables. -/
theorem parse_T (l : Env) (hl : ∀ kv ∈ l, GoodName kv.1) (fuel : Nat) (ns : Ns) (rest : List Str)
    (hr : Dashes rest) :
    parseLoop (fuel + l.length) ns ((l.flatMap fun kv => ["-T".toList, nameValue kv]) ++ rest) =
      parseLoop fuel { ns with targetEnv := collected ns.targetEnv l } rest := by
  induction l generalizing ns with
  | nil => simp [collected]
  | cons x l ih =>
    have := ih (fun kv h => hl kv (List.mem_cons_of_mem _ h))
      { ns with targetEnv := some (dictSet x.1 x.2 (ns.targetEnv.getD [])) }
    simp only [collected_cons] at this
    simp only [List.flatMap_cons, List.cons_append, List.nil_append, List.length_cons]
    rw [← Nat.add_assoc, parse_T_one _ _ _ (hl x List.mem_cons_self) _
      (dashes_opt "-T".toList (by decide) l rest hr), this]

/-- Parsing a run of options for variables of the generator. -/
theorem parse_G (l : Env) (hl : ∀ kv ∈ l, GoodName kv.1) (fuel : Nat) (ns : Ns) (rest : List Str)
    (hr : Dashes rest) :
    parseLoop (fuel + l.length) ns ((l.flatMap fun kv => ["-G".toList, nameValue kv]) ++ rest) =
      parseLoop fuel { ns with generatorEnv := collected ns.generatorEnv l } rest := by
  induction l generalizing ns with
  | nil => simp [collected]
  | cons x l ih =>
    have := ih (fun kv h => hl kv (List.mem_cons_of_mem _ h))
      { ns with generatorEnv := some (dictSet x.1 x.2 (ns.generatorEnv.getD [])) }
    simp only [collected_cons] at this
    simp only [List.flatMap_cons, List.cons_append, List.nil_append, List.length_cons]
    rw [← Nat.add_assoc, parse_G_one _ _ _ (hl x List.mem_cons_self) _
      (dashes_opt "-G".toList (by decide) l rest hr), this]

theorem flatMap_length (opt : Str) (l : Env) :
    (l.flatMap fun kv => [opt, nameValue kv]).length = l.length + l.length := by
  induction l with
  | nil => rfl
  | cons x l ih => simp only [List.flatMap_cons, List.length_append, List.length_cons, List.length_nil, ih]; omega

theorem parse_target (fuel : Nat) (ns : Ns) (c : Str) (hc : dashed c = false) (hw : ns.warmup = false)
    (rest : List Str) : parseLoop (fuel + 1) ns ("--target".toList :: c :: rest) =
      parseLoop fuel { ns with target := some c } rest := by
  rw [parseLoop, if_neg (by decide), if_pos (by decide)]
  simp [hc, hw]

theorem parse_generator (fuel : Nat) (ns : Ns) (c : Str) (hc : dashed c = false)
    (rest : List Str) : parseLoop (fuel + 1) ns ("--generator".toList :: c :: rest) =
      parseLoop fuel { ns with generator := some c } rest := by
  rw [parseLoop, if_neg (by decide), if_neg (by decide), if_pos (by decide)]
  simp [hc]

theorem parse_tail (fuel : Nat) (ns : Ns) (c : Str) (hc : dashed c = false) (hw : ns.warmup = false)
    (env : Env) (he : GoodEnv env) (hf : 1 + env.length ≤ fuel) :
    parseLoop fuel ns (["--target".toList, c] ++ envOptions "-T".toList env) =
      .ok { ns with target := some c, targetEnv := collected ns.targetEnv (sortItems env) } := by
  obtain ⟨f, rfl⟩ := Nat.exists_eq_add_of_le hf
  have hlen : (sortItems env).length = env.length := (Sort.sortBy_perm env).length_eq
  rw [show 1 + env.length + f = (f + (sortItems env).length) + 1 by omega, List.cons_append,
    List.cons_append, parse_target _ ns c hc hw, List.nil_append]
  have := parse_T (sortItems env) (sortItems_good env he).names f { ns with target := some c } []
    (by simp [Dashes])
  rw [List.append_nil] at this
  unfold envOptions
  rw [this]
  cases f <;> simp [parseLoop]

/-- The arguments of the controller are parsed as intended. -/
theorem parse_args (via : Option (Str × Env)) (c : Str) (env : Env) (hc : dashed c = false)
    (he : GoodEnv env) (hv : ∀ g e, via = some (g, e) → dashed g = false ∧ GoodEnv e) :
    parseArgs (ptl1Args via c env) = .ok { target := some c, targetEnv := collected none (sortItems env), generator := via.map (·.1), generatorEnv := (via.map (·.2)).elim none fun e => collected none (sortItems e) } := by
  unfold parseArgs ptl1Args
  cases via with
  | none =>
    rw [List.nil_append, parse_tail _ {} c hc rfl env he (by
      simp only [envOptions, List.length_append, flatMap_length, List.length_cons, List.length_nil]
      have : (sortItems env).length = env.length := (Sort.sortBy_perm env).length_eq
      omega)]
    rfl
  | some ge =>
    obtain ⟨g, e⟩ := ge
    obtain ⟨hg, hge⟩ := hv g e rfl
    have hl : (sortItems env).length = env.length := (Sort.sortBy_perm env).length_eq
    have hl' : (sortItems e).length = e.length := (Sort.sortBy_perm e).length_eq
    generalize hN : (["--generator".toList, g] ++ envOptions "-G".toList e ++ ["--target".toList, c]
      ++ envOptions "-T".toList env).length = N
    have hN' : 2 + 2 * e.length + 2 + 2 * env.length = N := by
      rw [← hN]
      simp only [envOptions, List.length_append, flatMap_length, List.length_cons, List.length_nil]
      omega
    obtain ⟨f, hf⟩ : ∃ f, N = (f + (sortItems e).length) + 1 ∧ 1 + env.length ≤ f :=
      ⟨N - 1 - e.length, by omega, by omega⟩
    rw [hf.1]
    simp only [List.cons_append, List.nil_append, List.append_assoc]
    rw [parse_generator _ {} g hg]
    unfold envOptions
    rw [parse_G (sortItems e) (sortItems_good e hge).names f _ _ (by
      intro a ha; simp at ha; rw [← ha]; decide)]
    have := parse_tail f { generator := some g, generatorEnv := collected none (sortItems e) } c hc rfl env he
      hf.2
    unfold envOptions at this
    simp only [List.cons_append, List.nil_append] at this
    exact this

/-- What the parser collected gives every variable the wanted value. -/
theorem collected_lookup (env : Env) (he : GoodEnv env) (k : Str) :
    ((collected none (sortItems env)).getD []).lookup k = env.lookup k := by
  rw [← lookup_sortItems env he k]
  unfold collected
  split
  · rename_i h; rw [h]; rfl
  · show (assign [] (sortItems env)).lookup k = _
    rw [lookup_assign _ _ (sortItems_good env he).nodup]
    simp [Changed]

/-! ## The properties -/

/-- **C45**: the environment reconstructed from the arguments equals the one the controller wanted to
pass, for the target and for the generator. -/
theorem C45_environment (via : Option (Str × Env)) (c : Str) (env : Env) (hc : dashed c = false)
    (he : GoodEnv env) (hv : ∀ g e, via = some (g, e) → dashed g = false ∧ GoodEnv e) :
    ∃ ns, parseArgs (ptl1Args via c env) = .ok ns ∧ ns.target = some c ∧ ns.warmup = false ∧
      (∀ k, (ns.targetEnv.getD []).lookup k = env.lookup k) ∧
      ns.generator = via.map (·.1) ∧
      ∀ g e, via = some (g, e) → ∀ k, (ns.generatorEnv.getD []).lookup k = e.lookup k := by
  refine ⟨_, parse_args via c env hc he hv, rfl, rfl, collected_lookup env he, rfl, ?_⟩
  rintro g e rfl k
  exact collected_lookup e (hv g e rfl).2 k

theorem modifyEnv_lookup (os : Env) (env : Env) (he : GoodEnv env) (k : Str) :
    (modifyEnv os (collected none (sortItems env))).lookup k = Changed os env k := by
  have hs := sortItems_good env he
  have hc : ∀ l : Env, (l.map (·.1)).Nodup → (∀ k, l.lookup k = env.lookup k) →
      (assign os l).lookup k = Changed os env k := by
    intro l hn hl
    rw [lookup_assign _ _ hn]; unfold Changed; rw [hl k]
  unfold collected
  split
  · rename_i h
    have : env.lookup k = none := by rw [← lookup_sortItems env he k, h]; rfl
    simp [modifyEnv, Changed, this]
  · show (assign os (assign [] (sortItems env))).lookup k = _
    apply hc
    · have : ∀ (l a : Env), (a.map (·.1)).Nodup → ((assign a l).map (·.1)).Nodup := by
        intro l
        induction l with
        | nil => intro a ha; exact ha
        | cons x l ih => intro a ha; exact ih _ (nodup_dictSet _ _ _ ha)
      exact this _ _ (by simp)
    · intro k'
      rw [lookup_assign _ _ hs.nodup, ← lookup_sortItems env he k']
      simp [Changed]

/-- The jobs the launcher may know when it looks for the target: those of the providers, those of a
session with all providers, and those made by the generator that was asked for. -/
def Known (w : World) (ns : Ns) (j : Job) : Prop :=
  j ∈ w.jobs ∨ j ∈ w.siblings ∨
    ∃ g gj l, ns.generator = some g ∧ gj ∈ w.jobs ∧ gj.checksum = g ∧
      w.generate gj ns.generatorEnv = some l ∧ j ∈ l

theorem findJob_some {l : List Job} {c : Str} {j : Job} (h : findJob l c = some j) :
    j ∈ l ∧ j.checksum = c :=
  ⟨List.mem_of_find?_eq_some h, by simpa using List.find?_some h⟩

/-- **C45**: with any arguments, every program the launcher executes is the command of a known job
that has the checksum of the target, or of a job of a provider that has the checksum of the
generator. -/
theorem C45_known (w : World) (args : List Str) (r : Run) (hr : r ∈ (main w args).runs) :
    ∃ ns, parseArgs args = .ok ns ∧ ∃ j : Job, r.argv = [j.shell, "-c".toList, j.command] ∧
      ((Known w ns j ∧ ns.target = some j.checksum ∧ r.env = modifyEnv w.os ns.targetEnv) ∨
        (j ∈ w.jobs ∧ ns.generator = some j.checksum ∧ r.env = modifyEnv w.os ns.generatorEnv)) := by
  unfold main at hr
  cases hp : parseArgs args with
  | error u => simp [hp] at hr
  | ok ns =>
    refine ⟨ns, rfl, ?_⟩
    simp only [hp, mainNs] at hr
    have last : ∀ (runs : List Run) (jobs : List Job), (∀ j ∈ jobs, Known w ns j) →
        r ∈ (match ns.target.bind (findJob jobs) with
          | none => (⟨runs, .unknownJob⟩ : Out)
          | some j => ⟨runs ++ [runOf w.os j ns.targetEnv], .returned⟩).runs →
        r ∈ runs ∨ ∃ j : Job, r.argv = [j.shell, "-c".toList, j.command] ∧ Known w ns j ∧
          ns.target = some j.checksum ∧ r.env = modifyEnv w.os ns.targetEnv := by
      intro runs jobs hk h
      cases hb : ns.target.bind (findJob jobs) with
      | none => rw [hb] at h; exact .inl h
      | some j =>
        rw [hb] at h
        rcases List.mem_append.1 h with h | h
        · exact .inl h
        · obtain ⟨c, h1, h2⟩ := Option.bind_eq_some_iff.1 hb
          obtain ⟨h3, h4⟩ := findJob_some h2
          rw [List.mem_singleton] at h
          subst h
          exact .inr ⟨j, rfl, hk j h3, by rw [h1, h4], rfl⟩
    have plain : ∀ j ∈ w.jobs ++ w.siblings, Known w ns j := by
      intro j hj
      rcases List.mem_append.1 hj with h | h
      · exact .inl h
      · exact .inr (.inl h)
    split at hr
    · simp at hr
    · split at hr
      · rcases last _ _ plain hr with h | ⟨j, h1, h2⟩
        · simp at h
        · exact ⟨j, h1, .inl h2⟩
      · rcases last _ _ plain hr with h | ⟨j, h1, h2⟩
        · simp at h
        · exact ⟨j, h1, .inl h2⟩
      · rename_i g _ hg
        cases hf : findJob w.jobs g with
        | none => simp [hf] at hr
        | some gj =>
          obtain ⟨h3, h4⟩ := findJob_some hf
          have hgen : r = runOf w.os gj ns.generatorEnv → ∃ j : Job,
              r.argv = [j.shell, "-c".toList, j.command] ∧
              ((Known w ns j ∧ ns.target = some j.checksum ∧ r.env = modifyEnv w.os ns.targetEnv) ∨
              (j ∈ w.jobs ∧ ns.generator = some j.checksum ∧
                r.env = modifyEnv w.os ns.generatorEnv)) := by
            rintro rfl
            exact ⟨gj, rfl, .inr ⟨h3, by rw [hg, h4], rfl⟩⟩
          simp only [hf] at hr
          cases hl : w.generate gj ns.generatorEnv with
          | none =>
            simp only [hl, List.mem_singleton] at hr
            exact hgen hr
          | some l =>
            simp only [hl] at hr
            rcases last _ _ (by
              intro j hj
              simp only [List.mem_append] at hj
              rcases hj with (h | h) | h
              · exact .inl h
              · exact .inr (.inr ⟨g, gj, l, hg, h3, h4, hl, h⟩)
              · exact .inr (.inl h)) hr with h | ⟨j, h1, h2⟩
            · exact hgen (List.mem_singleton.1 h)
            · exact ⟨j, h1, .inl h2⟩

/-- **C45**: when no known job has the checksum of the target, no program is executed except the
generator, and the launcher does not report success. -/
theorem C45_unknown (w : World) (args : List Str) (ns : Ns) (hp : parseArgs args = .ok ns)
    (hw : ns.warmup = false) (hu : ∀ j, Known w ns j → ns.target ≠ some j.checksum) :
    (main w args).ended ≠ .returned ∧ ∀ r ∈ (main w args).runs, ∃ j ∈ w.jobs,
      ns.generator = some j.checksum ∧ r = runOf w.os j ns.generatorEnv := by
  have hruns : ∀ r ∈ (main w args).runs, ∃ j ∈ w.jobs,
      ns.generator = some j.checksum ∧ r = runOf w.os j ns.generatorEnv := by
    intro r hr
    obtain ⟨ns', hp', j, h1, h2⟩ := C45_known w args r hr
    rw [hp] at hp'
    cases hp'
    rcases h2 with ⟨hk, ht, _⟩ | ⟨hj, hg, he⟩
    · exact absurd ht (hu j hk)
    · exact ⟨j, hj, hg, by rw [runOf, ← he, ← h1]⟩
  refine ⟨?_, hruns⟩
  intro hret
  have hfind : ∀ jobs : List Job, (∀ j ∈ jobs, Known w ns j) → ns.target.bind (findJob jobs) = none := by
    intro jobs hk
    cases hb : ns.target.bind (findJob jobs) with
    | none => rfl
    | some j =>
      obtain ⟨c, h1, h2⟩ := Option.bind_eq_some_iff.1 hb
      obtain ⟨h3, h4⟩ := findJob_some h2
      exact absurd (by rw [h1, h4]) (hu j (hk j h3))
  have hplain := hfind (w.jobs ++ w.siblings) (by
    intro j hj
    rcases List.mem_append.1 hj with h | h
    · exact .inl h
    · exact .inr (.inl h))
  simp only [main, hp, mainNs, hw, Bool.false_eq_true, if_false, hplain] at hret
  split at hret
  · simp at hret
  · simp at hret
  · rename_i g _ hg
    cases hf : findJob w.jobs g with
    | none => simp [hf] at hret
    | some gj =>
      obtain ⟨h3, h4⟩ := findJob_some hf
      simp only [hf] at hret
      cases hl : w.generate gj ns.generatorEnv with
      | none => simp [hl] at hret
      | some l =>
        simp only [hl] at hret
        rw [hfind _ (by
          intro j hj
          simp only [List.mem_append] at hj
          rcases hj with (h | h) | h
          · exact .inl h
          · exact .inr (.inr ⟨g, gj, l, hg, h3, h4, hl, h⟩)
          · exact .inr (.inl h))] at hret
        simp at hret

/-- **C45**, from end to end: when the controller asks for a job of a provider or session, the launcher
executes exactly one program, the command of a known job with the checksum, and every variable has
the wanted value, or, when the controller did not mention it, the value it has for the launcher. -/
theorem C45_end_to_end (w : World) (j : Job) (env : Env) (hj : j ∈ w.jobs ++ w.siblings)
    (hc : dashed j.checksum = false) (he : GoodEnv env)
    (huniq : ∀ j' ∈ w.jobs ++ w.siblings, j'.checksum = j.checksum → j' = j) :
    ∃ r, main w (ptl1Args none j.checksum env) = ⟨[r], .returned⟩ ∧
      r.argv = [j.shell, "-c".toList, j.command] ∧ ∀ k, r.env.lookup k = Changed w.os env k := by
  have hp := parse_args none j.checksum env hc he (by rintro g e ⟨⟩)
  have hf : findJob (w.jobs ++ w.siblings) j.checksum = some j := by
    cases hf : findJob (w.jobs ++ w.siblings) j.checksum with
    | none =>
      have := List.find?_eq_none.1 hf j hj
      simp at this
    | some j' =>
      obtain ⟨h1, h2⟩ := findJob_some hf
      rw [huniq j' h1 h2]
  refine ⟨runOf w.os j (collected none (sortItems env)), ?_, rfl, fun k => modifyEnv_lookup w.os env he k⟩
  simp [main, hp, mainNs, hf]

/-- **C37** for the controllers that use env(1): the program executed is the shell with the command, and
every variable has the wanted value or the one it had before. -/
theorem C37_env_program (os env : Env) (j : Job) (he : GoodEnv env) (hs : '=' ∉ j.shell) :
    ∃ r, envProgram os (envArgs j env) = some r ∧ r.argv = [j.shell, "-c".toList, j.command] ∧
      ∀ k, r.env.lookup k = Changed os env k := by
  have hsplit : ∀ s : Str, '=' ∉ s → splitEq s = none := by
    intro s
    induction s with
    | nil => intro _; rfl
    | cons c s ih =>
      intro h
      simp only [List.mem_cons, not_or] at h
      simp [splitEq, Ne.symm h.1, ih h.2]
  have hmain : ∀ (l : Env) (os : Env), (∀ kv ∈ l, GoodName kv.1) →
      envProgram os (l.map nameValue ++ [j.shell, "-c".toList, j.command]) =
        some ⟨[j.shell, "-c".toList, j.command], assign os l⟩ := by
    intro l
    induction l with
    | nil => intro os _; simp [envProgram, hsplit _ hs, assign]
    | cons x l ih =>
      intro os hl
      rw [List.map_cons, List.cons_append, envProgram,
        splitEq_nameValue x (hl x List.mem_cons_self).1]
      exact ih _ fun kv h => hl kv (List.mem_cons_of_mem _ h)
  have hsort := sortItems_good env he
  refine ⟨_, hmain _ os hsort.names, rfl, fun k => ?_⟩
  simp only
  rw [lookup_assign _ _ hsort.nodup]
  unfold Changed
  rw [lookup_sortItems env he k]

/-- **C45** does not hold for names that begin with a dash: the argument is not taken for a value. -/
theorem C45_dash_violated : ∃ env : Env, (env.map (·.1)).Nodup ∧ (∀ kv ∈ env, '=' ∉ kv.1) ∧
    parseArgs (ptl1Args none "abc".toList env) = .error .expectedArgument :=
  ⟨[("-x".toList, "1".toList)], by decide +kernel, by decide +kernel, by decide +kernel⟩

/-! ## Concrete cases -/

/-- A job. -/
def demoJob : Job := ⟨"abc".toList, "bash".toList, "id".toList⟩

/-- A launcher that knows it. -/
def demoWorld : World := ⟨[("A".toList, "0".toList)], [demoJob], fun _ _ => none, []⟩

/-- Values may contain `=` and be empty. -/
def demoEnv : Env := [("X".toList, "a=b".toList), ("A".toList, [])]

example : GoodEnv demoEnv := ⟨by decide +kernel, by simp only [GoodName]; decide +kernel⟩

example : ptl1Args none "abc".toList demoEnv = ["--target".toList, "abc".toList, "-T".toList,
    "A=".toList, "-T".toList, "X=a=b".toList] := by decide +kernel

example : main demoWorld (ptl1Args none "abc".toList demoEnv) =
    ⟨[⟨["bash".toList, "-c".toList, "id".toList],
      [("A".toList, []), ("X".toList, "a=b".toList)]⟩], .returned⟩ := by decide +kernel

example : main demoWorld (ptl1Args none "zzz".toList []) = ⟨[], .unknownJob⟩ := by decide +kernel

end Verif.Launcher
