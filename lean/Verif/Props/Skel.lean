import Verif.Model.Skel
import Verif.Props.Definition

/-!
# C149: new providers

The specification is a table of what a new provider has. A file system is a tree: what is in a directory is below one.
-/

namespace Verif.Skel

/-! ## Specification -/

/-- Everything that exists is in a directory; the place where the command is run is one. -/
structure Tree (fs : FS) : Prop where
  root : fs [] = some .dir
  above : ∀ p x, (fs (p ++ [x])).isSome → fs p = some .dir

/-- What a new provider has, below its directory: all that is there, with whether it is executable. -/
inductive Kind
  | directory | plain | script | setup
deriving DecidableEq

def wanted (emptyOnly : Bool) : List (List String × Kind) :=
  ([], .directory) :: (["manage.py"], .setup) ::
  if emptyOnly then [] else
    [(["units"], .directory), (["data"], .directory), (["bin"], .directory), (["po"], .directory),
     (["README.md"], .plain), ([".gitignore"], .plain), ([".bzrignore"], .plain),
     (["units", "examples-trivial.pxu"], .plain), (["units", "examples-normal.pxu"], .plain),
     (["units", "examples-intermediate.pxu"], .plain), (["po", "POTFILES.in"], .plain),
     (["data", "README.md"], .plain), (["data", "example.dat"], .plain),
     (["bin", "README.md"], .plain), (["bin", "custom-executable"], .script)]

/-- How `manage.py` ends: the call that gives the name, a description and the domain for translations. -/
def setupLines (name domain : Str) : List Str :=
  ["setup(".toList] ++
  ["    name='".toList ++ name ++ "',".toList] ++
  ["    version=\"1.0\",".toList] ++
  ["    description=N_(\"The ".toList ++ name ++ " provider\"),".toList] ++
  ["    gettext_domain=\"".toList ++ domain ++ "\",".toList] ++
  [")".toList]

/-- How it looks in the file system. -/
def node (name domain : Str) : Kind → Node
  | .directory => .dir
  | .plain => .file none false
  | .script => .file none true
  | .setup => .file (some (setupLines name domain)) true

/-! ## Making things -/

theorem make_other {fs : FS} {p q : Path} {n : Node} (h : q ≠ p) : (make fs p n).2 q = fs q := by
  unfold make
  split <;> simp [h]

/-- Where a thing is, below the directory, and what it is. -/
def rel : Thing → Path
  | .dir n => [n]
  | .file none n _ _ => [n]
  | .file (some d) n _ _ => [d, n]

def made (name domain : Str) : Thing → Node
  | .dir _ => .dir
  | .file _ _ x filled => .file (if filled then some (manageLines name domain) else none) x

theorem instantiate_eq (t : Thing) (root : Path) (name domain : Str) (fs : FS) :
    t.instantiate root name domain fs =
      if (fs (root ++ rel t)).isSome then (some (.inTheWay (root ++ rel t)), fs) else make fs (root ++ rel t) (made name domain t) := by
  cases t with
  | dir n => rfl
  | file parent n x filled => cases parent <;> rfl

/-- What exists stays as it is. -/
theorem keep_thing (t : Thing) (root : Path) (name domain : Str) (fs : FS) (q : Path) (h : (fs q).isSome) :
    (t.instantiate root name domain fs).2 q = fs q := by
  rw [instantiate_eq]
  split
  · rfl
  · rename_i hn
    exact make_other (fun e => hn (e ▸ h))

theorem keep_all (ts : List Thing) (root : Path) (name domain : Str) (fs : FS) (q : Path) (h : (fs q).isSome) :
    (instantiateAll root name domain ts fs).2 q = fs q := by
  induction ts generalizing fs with
  | nil => rfl
  | cons t ts ih =>
    have hk := keep_thing t root name domain fs q h
    unfold instantiateAll
    split
    · rename_i fs' he
      rw [he] at hk
      dsimp only at hk
      rw [ih fs' (by rw [hk]; exact h), hk]
    · rename_i e fs' he
      rw [he] at hk
      exact hk

/-- **C149_kept**: nothing that exists is changed or removed, however the command ends. -/
theorem C149_kept (emptyOnly : Bool) (name : Str) (fs : FS) (q : Path) (n : Node) (h : fs q = some n) :
    (run emptyOnly name fs).2 q = some n := by
  have hq : (fs q).isSome := by simp [h]
  have key : ∀ ts, (instantiate ts name (domainOf name) fs).2 q = some n := by
    intro ts
    unfold instantiate makeDir
    by_cases hx : (fs [name]).isSome
    · simp [hx, h]
    · have hk : (make fs [name] .dir).2 q = fs q := make_other (fun e => hx (e ▸ hq))
      rw [if_neg hx]
      split
      · rename_i e fs' he
        rw [he] at hk
        exact hk.trans h
      · rename_i fs' he
        rw [he] at hk
        dsimp only at hk
        rw [keep_all _ _ _ _ _ _ (by rw [hk]; exact hq), hk, h]
  unfold run
  split
  · have := key (if emptyOnly then empty else full)
    split
    · rename_i fs' he; rw [he] at this; exact this
    · rename_i p fs' he; rw [he] at this; exact this
    · rename_i p fs' he; rw [he] at this; exact this
  · exact h

def isDir : Thing → Bool
  | .dir _ => true
  | .file .. => false

/-- Whether each thing has a place of its own, in a directory that was made before. -/
def Ready : List (Path × Bool) → List Thing → Bool
  | _, [] => true
  | before, t :: ts =>
    !(before.any fun b => b.1 = rel t) && before.any (fun b => b.1 = (rel t).dropLast && b.2) &&
    Ready (before ++ [(rel t, isDir t)]) ts

/-- What was made so far. -/
def table (name domain : Str) (ts : List Thing) : List (Path × Node) := ([], .dir) :: ts.map fun t => (rel t, made name domain t)

/-- The file system after some things were made in a new directory. -/
structure Made (top name domain : Str) (fs : FS) (done : List Thing) (fs' : FS) : Prop where
  inside : ∀ r n, (r, n) ∈ table name domain done → fs' (top :: r) = some n
  nothing : ∀ r, (∀ n, (r, n) ∉ table name domain done) → fs' (top :: r) = none
  outside : ∀ q, q.head? ≠ some top → fs' q = fs q

theorem rel_ne (t : Thing) : rel t ≠ [] := by
  cases t with
  | dir n => simp [rel]
  | file p n x f => cases p <;> simp [rel]

theorem all_made (top name domain : Str) (fs : FS) (ts : List Thing) : ∀ (done : List Thing) (fs' : FS),
    Made top name domain fs done fs' →
    Ready (([], true) :: done.map fun t => (rel t, isDir t)) ts = true →
    ∃ fs'', instantiateAll [top] name domain ts fs' = (none, fs'') ∧ Made top name domain fs (done ++ ts) fs'' := by
  induction ts with
  | nil => intro done fs' hm _; exact ⟨fs', rfl, by simpa using hm⟩
  | cons t ts ih =>
    intro done fs' hm hr
    rw [Ready, Bool.and_eq_true, Bool.and_eq_true] at hr
    obtain ⟨⟨h1, h2⟩, h3⟩ := hr
    have hnew : ∀ n, (rel t, n) ∉ table name domain done := by
      intro n hn
      have h1 : ¬ (((([], true) : Path × Bool) :: done.map fun t => (rel t, isDir t)).any
          fun b => b.1 = rel t) = true := by simpa using h1
      apply h1
      rw [List.any_eq_true]
      rcases List.mem_cons.mp hn with e | hn
      · exact absurd (congrArg Prod.fst e) (rel_ne t)
      · obtain ⟨u, hu, e⟩ := List.mem_map.mp hn
        exact ⟨(rel u, _), List.mem_cons_of_mem _ (List.mem_map.mpr ⟨u, hu, rfl⟩), by
          simpa using congrArg Prod.fst e⟩
    have hnone : fs' (top :: rel t) = none := hm.nothing _ hnew
    have hdir : fs' (top :: (rel t).dropLast) = some .dir := by
      rw [List.any_eq_true] at h2
      obtain ⟨b, hb, hp⟩ := h2
      rw [Bool.and_eq_true, decide_eq_true_eq] at hp
      rcases List.mem_cons.mp hb with rfl | hb
      · rw [← hp.1]
        exact hm.inside _ _ (List.mem_cons_self ..)
      · obtain ⟨u, hu, rfl⟩ := List.mem_map.mp hb
        rw [← hp.1]
        refine hm.inside _ _ (List.mem_cons_of_mem _ (List.mem_map.mpr ⟨u, hu, ?_⟩))
        cases u with
        | dir n => rfl
        | file p n x f => exact absurd hp.2 (by simp [isDir])
    have hdl : (top :: rel t).dropLast = top :: (rel t).dropLast := by
      cases hrt : rel t with
      | nil => exact absurd hrt (rel_ne t)
      | cons a b => rfl
    have hstep : t.instantiate [top] name domain fs' =
        (none, fun q => if q = top :: rel t then some (made name domain t) else fs' q) := by
      rw [instantiate_eq]
      show (if (fs' (top :: rel t)).isSome then _ else make fs' (top :: rel t) _) = _
      rw [hnone]
      simp only [Option.isSome_none, Bool.false_eq_true, if_false, make, hdl, hdir, if_true]
    have hm' : Made top name domain fs (done ++ [t]) (fun q => if q = top :: rel t then some (made name domain t) else fs' q) := by
      have htab : ∀ x, x ∈ table name domain (done ++ [t]) ↔ x ∈ table name domain done ∨ x = (rel t, made name domain t) := by
        intro x
        simp only [table, List.map_append, List.mem_cons, List.mem_append, List.map_cons, List.map_nil, List.not_mem_nil, or_false]
        rw [or_assoc]
      refine ⟨fun r n hn => ?_, fun r hn => ?_, fun q hq => ?_⟩
      · rcases (htab _).mp hn with h | h
        · have : r ≠ rel t := fun e => hnew n (e ▸ h)
          rw [if_neg (by simpa using this)]
          exact hm.inside r n h
        · cases h
          rw [if_pos rfl]
      · have : r ≠ rel t := fun e => hn (made name domain t) ((htab _).mpr (.inr (by rw [e])))
        rw [if_neg (by simpa using this)]
        exact hm.nothing r (fun n h => hn n ((htab _).mpr (.inl h)))
      · have : q ≠ top :: rel t := fun e => hq (by rw [e]; rfl)
        rw [if_neg this]
        exact hm.outside q hq
    obtain ⟨fs'', e, hf⟩ := ih (done ++ [t]) _ hm' (by simpa using h3)
    refine ⟨fs'', ?_, by simpa using hf⟩
    rw [instantiateAll, hstep]
    exact e

theorem below_none {fs : FS} (ht : Tree fs) {top : Str} (h : fs [top] = none) (r : Path) : fs (top :: r) = none := by
  have : ∀ r : List Str, fs (top :: r.reverse) = none := by
    intro r
    induction r with
    | nil => exact h
    | cons x r ih =>
      cases he : fs (top :: (x :: r).reverse) with
      | none => rfl
      | some n =>
        have := ht.above (top :: r.reverse) x (by rw [List.reverse_cons] at he; simp [he])
        rw [ih] at this
        cases this
  simpa using this r.reverse

theorem ready_full : Ready [([], true)] full = true := by decide
theorem ready_empty : Ready [([], true)] empty = true := by decide

theorem lines_eq (name domain : Str) : manageLines name domain = setupLines name domain := rfl

/-- What the table has is what is wanted, as paths of lists of characters. -/
theorem table_eq (emptyOnly : Bool) (name domain : Str) (r : Path) (n : Node) :
    (r, n) ∈ table name domain (if emptyOnly then empty else full) ↔
    ∃ w ∈ wanted emptyOnly, r = w.1.map String.toList ∧ n = node name domain w.2 := by
  unfold table made
  rw [lines_eq]
  cases emptyOnly with
  | true =>
    simp [empty, wanted, rel, node]
  | false =>
    simp only [full, empty, wanted, rel, node, Bool.false_eq_true, if_false, List.map_cons, List.map_nil,
      List.cons_append, List.nil_append, List.mem_cons, List.not_mem_nil, or_false, Prod.mk.injEq, exists_eq_or_imp, exists_eq_left,
      if_true]
    grind

/-- **C149_created**: if the name is accepted and there is nothing of that name, everything that a provider has is made below a
directory of that name, and nothing else there or elsewhere. -/
theorem C149_created (emptyOnly : Bool) (name : Str) (fs : FS) (ht : Tree fs) (hn : Rx.accepts Definition.iqnRx name = true)
    (h : fs [name] = none) :
    (run emptyOnly name fs).1 = .done ∧
    (∀ w ∈ wanted emptyOnly, (run emptyOnly name fs).2 (name :: w.1.map String.toList) = some (node name (domainOf name) w.2)) ∧
    (∀ r, (∀ w ∈ wanted emptyOnly, r ≠ w.1.map String.toList) → (run emptyOnly name fs).2 (name :: r) = none) ∧
    (∀ q, q.head? ≠ some name → (run emptyOnly name fs).2 q = fs q) := by
  have hmk : makeDir fs [name] = (none, fun q => if q = [name] then some .dir else fs q) := by
    simp [makeDir, make, h, ht.root]
  have hm0 : Made name name (domainOf name) fs [] (fun q => if q = [name] then some .dir else fs q) := by
    refine ⟨fun r n hx => ?_, fun r hx => ?_, fun q hq => ?_⟩
    · simp [table] at hx
      simp [hx.1, hx.2]
    · have : r ≠ [] := fun e => hx .dir (by simp [table, e])
      simp [this, below_none ht h r]
    · have : q ≠ [name] := fun e => hq (by rw [e]; rfl)
      simp [this]
  have hr : Ready [([], true)] (if emptyOnly then empty else full) = true := by
    cases emptyOnly
    · exact ready_full
    · exact ready_empty
  obtain ⟨fs'', e, hf⟩ := all_made name name (domainOf name) fs (if emptyOnly then empty else full) [] _ hm0 (by simpa using hr)
  have hrun : run emptyOnly name fs = (.done, fs'') := by
    simp only [run, hn, if_true, instantiate, hmk, e]
  rw [hrun]
  rw [List.nil_append] at hf
  refine ⟨rfl, fun w hw => ?_, fun r hr => ?_, hf.outside⟩
  · exact hf.inside _ _ ((table_eq ..).mpr ⟨w, hw, rfl, rfl⟩)
  · refine hf.nothing r (fun n hx => ?_)
    obtain ⟨w, hw, e, _⟩ := (table_eq ..).mp hx
    exact hr w hw e

/-- **C149_refused**: if there is something of that name it is refused, or the name is, and nothing is changed. -/
theorem C149_refused (emptyOnly : Bool) (name : Str) (fs : FS) (h : (fs [name]).isSome ∨ Rx.accepts Definition.iqnRx name = false) :
    ((run emptyOnly name fs).1 = .refused [name] ∨ (run emptyOnly name fs).1 = .badName) ∧ (run emptyOnly name fs).2 = fs := by
  cases hn : Rx.accepts Definition.iqnRx name with
  | false => simp [run, hn]
  | true =>
    have hx := h.resolve_right (by simp [hn])
    simp [run, hn, instantiate, makeDir, hx]

/-! ## Names -/

theorem nameChar_sep {c : Char} (h : Definition.NameChar c) : c ≠ '.' ∧ c ≠ ':' ∧ c ≠ '_' ∧ c ≠ '{' ∧ c ≠ '}' ∧ c ≠ '/' := by
  refine ⟨?_, ?_, ?_, ?_, ?_, ?_⟩ <;> rintro rfl <;> revert h <;>
    simp [Definition.NameChar, Definition.Lower, Definition.Digit] <;> decide

theorem label_chars {s : Str} (h : Definition.Label s) : ∀ c ∈ s, Definition.NameChar c := by
  obtain ⟨c, r, rfl, hc, hr⟩ := h
  intro d hd
  rcases List.mem_cons.mp hd with rfl | hd
  · exact .inl hc
  · exact hr d hd

/-- A name is a part without colons, a colon, and a part without dots and colons. -/
theorem iqn_parts {s : Str} (h : Definition.IsIQN s) : ∃ a b, s = a ++ ':' :: b ∧ (∀ c ∈ a, c = '.' ∨ Definition.NameChar c) ∧
    ∀ c ∈ b, Definition.NameChar c := by
  obtain ⟨y, f, ls, i, hy, hf, _, hl, hi, rfl⟩ := h
  refine ⟨y ++ (f ++ (ls.map ('.' :: ·)).flatten), i, by simp, ?_, label_chars hi⟩
  intro c hc
  rcases List.mem_append.mp hc with hc | hc
  · rcases hy with rfl | ⟨d1, d2, d3, d4, rfl, h1, h2, h3, h4⟩
    · simp at hc
    · simp only [List.mem_cons, List.not_mem_nil, or_false] at hc
      rcases hc with rfl | rfl | rfl | rfl | rfl
      · exact .inr (.inr (.inl h1))
      · exact .inr (.inr (.inl h2))
      · exact .inr (.inr (.inl h3))
      · exact .inr (.inr (.inl h4))
      · exact .inl rfl
  · rcases List.mem_append.mp hc with hc | hc
    · exact .inr (label_chars hf c hc)
    · obtain ⟨l, hl', hc⟩ := List.mem_flatten.mp hc
      obtain ⟨m, hm, rfl⟩ := List.mem_map.mp hl'
      rcases List.mem_cons.mp hc with rfl | hc
      · exact .inl rfl
      · exact .inr (label_chars (hl m hm) c hc)

/-- **C149_name**: names that are accepted have no slash and nothing that could be filled in. -/
theorem C149_name (name : Str) (h : Rx.accepts Definition.iqnRx name = true) : '/' ∉ name ∧ '{' ∉ name ∧ '}' ∉ name ∧ '_' ∉ name := by
  have key : ∀ s, Definition.IsIQN s → ∀ c ∈ s, c ≠ '_' ∧ c ≠ '{' ∧ c ≠ '}' ∧ c ≠ '/' := by
    intro s hs c hc
    obtain ⟨a, b, rfl, ha, hb⟩ := iqn_parts hs
    rcases List.mem_append.mp hc with hc | hc
    · rcases ha c hc with rfl | hn
      · decide
      · exact (nameChar_sep hn).2.2
    · rcases List.mem_cons.mp hc with rfl | hc
      · decide
      · exact (nameChar_sep (hb c hc)).2.2
  have all : ∀ c ∈ name, c ≠ '_' ∧ c ≠ '{' ∧ c ≠ '}' ∧ c ≠ '/' := by
    rw [Definition.C67_iqn] at h
    rcases h with h | ⟨x, rfl, h⟩
    · exact key _ h
    · intro c hc
      rcases List.mem_append.mp hc with hc | hc
      · exact key _ h c hc
      · rw [List.mem_singleton] at hc
        subst hc
        decide
  exact ⟨fun hc => (all _ hc).2.2.2 rfl, fun hc => (all _ hc).2.1 rfl, fun hc => (all _ hc).2.2.1 rfl, fun hc => (all _ hc).1 rfl⟩

theorem map_inj_on {f : Char → Char} : ∀ {a b : Str}, (∀ c ∈ a, ∀ d ∈ b, f c = f d → c = d) → a.map f = b.map f → a = b
  | [], [], _, _ => rfl
  | [], _ :: _, _, h => by simp at h
  | _ :: _, [], _, h => by simp at h
  | c :: a, d :: b, hf, h => by
    simp only [List.map_cons, List.cons.injEq] at h
    rw [hf c (List.mem_cons_self ..) d (List.mem_cons_self ..) h.1,
      map_inj_on (fun c hc d hd => hf c (List.mem_cons_of_mem _ hc) d (List.mem_cons_of_mem _ hd)) h.2]

/-- Splitting at the last underscore. -/
theorem last_split {a a' b b' : Str} (hb : '_' ∉ b) (hb' : '_' ∉ b') (h : a ++ '_' :: b = a' ++ '_' :: b') : a = a' ∧ b = b' := by
  have h' := congrArg List.reverse h
  simp only [List.reverse_append, List.reverse_cons, List.append_assoc, List.singleton_append] at h'
  have key : ∀ (x x' y y' : Str), '_' ∉ x → '_' ∉ x' → x ++ '_' :: y = x' ++ '_' :: y' → x = x' ∧ y = y' := by
    intro x
    induction x with
    | nil =>
      intro x' y y' _ hx' e
      cases x' with
      | nil => simpa using e
      | cons c x' => simp at e; exact absurd (e.1 ▸ List.mem_cons_self ..) hx'
    | cons c x ih =>
      intro x' y y' hx hx' e
      cases x' with
      | nil => simp at e; exact absurd (e.1 ▸ List.mem_cons_self ..) hx
      | cons d x' =>
        simp only [List.cons_append, List.cons.injEq] at e
        rw [List.mem_cons, not_or] at hx hx'
        obtain ⟨h1, h2⟩ := ih x' y y' hx.2 hx'.2 e.2
        exact ⟨by rw [e.1, h1], h2⟩
  obtain ⟨h1, h2⟩ := key _ _ _ _ (by simpa using hb) (by simpa using hb') h'
  exact ⟨List.reverse_inj.mp h2, List.reverse_inj.mp h1⟩

/-- **C149_domain**: different names have different domains for translations. -/
theorem C149_domain (s t : Str) (hs : Definition.IsIQN s) (ht : Definition.IsIQN t) (h : domainOf s = domainOf t) : s = t := by
  obtain ⟨a, b, rfl, ha, hb⟩ := iqn_parts hs
  obtain ⟨c, d, rfl, hc, hd⟩ := iqn_parts ht
  have same : ∀ {b : Str}, (∀ x ∈ b, Definition.NameChar x) → domainOf b = b := by
    intro b hb
    unfold domainOf
    have : b.map (fun c => if c = '.' ∨ c = ':' then '_' else c) = b.map id :=
      List.map_congr_left fun x hx => by
        have := nameChar_sep (hb x hx)
        simp [this.1, this.2.1]
    rw [this, List.map_id]
  have hm : ∀ (a b : Str), domainOf (a ++ ':' :: b) = domainOf a ++ '_' :: domainOf b := by
    intro a b; simp [domainOf]
  rw [hm, hm, same hb, same hd] at h
  obtain ⟨h1, h2⟩ := last_split (fun hx => (nameChar_sep (hb _ hx)).2.2.1 rfl) (fun hx => (nameChar_sep (hd _ hx)).2.2.1 rfl) h
  rw [h2, map_inj_on (fun x hx y hy hxy => ?_) h1]
  rcases ha x hx with rfl | hnx <;> rcases hc y hy with rfl | hny
  · rfl
  · have := nameChar_sep hny
    simp [this.1, this.2.1] at hxy
    exact absurd hxy.symm this.2.2.1
  · have := nameChar_sep hnx
    simp [this.1, this.2.1] at hxy
    exact absurd hxy this.2.2.1
  · have h1 := nameChar_sep hnx
    have h2 := nameChar_sep hny
    simpa [h1.1, h1.2.1, h2.1, h2.2.1] using hxy

/-- **C149_domain_chars**: the domain is the name with an underscore for each dot and colon. -/
theorem C149_domain_chars (s : Str) : (domainOf s).length = s.length ∧ '.' ∉ domainOf s ∧ ':' ∉ domainOf s ∧
    ∀ (i : Nat) (c : Char), s[i]? = some c → (domainOf s)[i]? = some (if c ∈ ['.', ':'] then '_' else c) := by
  refine ⟨by simp [domainOf], ?_, ?_, fun i c h => ?_⟩
  · intro h
    obtain ⟨c, _, e⟩ := List.mem_map.mp h
    by_cases hc : c = '.' ∨ c = ':'
    · rw [if_pos hc] at e; exact absurd e (by decide)
    · rw [if_neg hc] at e; exact hc (.inl e)
  · intro h
    obtain ⟨c, _, e⟩ := List.mem_map.mp h
    by_cases hc : c = '.' ∨ c = ':'
    · rw [if_pos hc] at e; exact absurd e (by decide)
    · rw [if_neg hc] at e; exact hc (.inr e)
  · simp [domainOf, h]

/-- A name that ends with a newline is accepted, and breaks a text in `manage.py`. -/
theorem C149_newline_violated : Rx.accepts Definition.iqnRx "2013.com.example:x\n".toList = true ∧
    "    description=N_(\"The 2013.com.example:x\n provider\"),".toList ∈
      manageLines "2013.com.example:x\n".toList (domainOf "2013.com.example:x\n".toList) := by decide +kernel

/-- **C149_potfiles_violated**: `POTFILES.in` of a new provider names files that are not there: the files with units have other names.
Only `manage.py` is there. -/
theorem C149_potfiles_violated (name : Str) (fs : FS) (ht : Tree fs) (hn : Rx.accepts Definition.iqnRx name = true)
    (h : fs [name] = none) (p : Path) (hp : p ∈ potFiles) :
    (run false name fs).2 (name :: p) = none ↔ p ≠ ["manage.py".toList] := by
  obtain ⟨_, hw, hno, _⟩ := C149_created false name fs ht hn h
  constructor
  · rintro e rfl
    have := hw (["manage.py"], .setup) (by simp [wanted])
    rw [List.map_cons, List.map_nil] at this
    rw [this] at e
    cases e
  · intro hm
    refine hno p ?_
    have : p ∈ potFiles → p ≠ ["manage.py".toList] → ∀ w ∈ wanted false, p ≠ w.1.map String.toList := by
      intro hp hm
      simp only [potFiles, List.mem_cons, List.not_mem_nil, or_false] at hp
      rcases hp with rfl | rfl | rfl | rfl
      · decide
      · decide
      · decide
      · exact absurd rfl hm
    exact this hp hm

/-- A directory with a file in it. -/
def sample : FS := fun p => if p = [] then some .dir else if p = ["notes".toList] then some (.file none false) else none

example : Rx.accepts Definition.iqnRx "2013.com.example:x".toList = true ∧ sample ["2013.com.example:x".toList] = none ∧
    (run false "2013.com.example:x".toList sample).2 ["2013.com.example:x".toList, "bin".toList, "custom-executable".toList] =
      some (.file none true) ∧
    (run true "2013.com.example:x".toList sample).2 ["2013.com.example:x".toList, "bin".toList] = none ∧
    domainOf "2013.com.example:x".toList = "2013_com_example_x".toList := by decide +kernel
example : Tree sample := by
  refine ⟨rfl, fun p x h => ?_⟩
  by_cases hp : p = []
  · subst hp; rfl
  · exfalso
    have h1 : p ++ [x] ≠ [] := by simp
    have h2 : p ++ [x] ≠ ["notes".toList] := by
      intro e
      have := congrArg List.length e
      cases p with
      | nil => exact hp rfl
      | cons a b => simp at this
    have : sample (p ++ [x]) = none := by rw [sample, if_neg h1, if_neg h2]
    simp [this] at h

end Verif.Skel
