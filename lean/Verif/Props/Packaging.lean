import Verif.Model.Packaging
import Verif.Lemmas.Text

/-!
# C70: packaging meta-data applies to the right system

* `C70_os_release`: every assignment in an os-release file written in one of the three usual styles is read
  back as it was meant, the last one for a name counting.
* `C70_applies`: a unit contributes exactly when it names this system (and its version, if it names one) or,
  without naming a version, the system this one is like.
* `C70_relations`: the dependencies read from a field are its pieces between commas, line breaks being
  blanks; a list of dependencies joined in any usual way is read back.
* `C70_run_partial`: a run on Debian appends to the variables of each marked package, and of no other, lines
  from which exactly the mentions of the contributing units can be read, in order.
* `C70_refused`: when a run is refused, and that nothing is then written.
* `C70_last_resort_violated`, `C70_like_violated`, `C70_comment_violated`, `C70_version_violated`,
  `C70_twice_violated`: where the code does something else than it says.
-/

namespace Verif.Packaging

open Verif.Text

/-! ## Reading os-release -/

/-- A character that stands for itself outside quotes. -/
def Plain (c : Char) : Prop :=
  Restart.isWs c = false ∧ c ≠ '\\' ∧ c ≠ '\'' ∧ c ≠ '"'

/-- A value between double quotes: double quotes and backslashes have a backslash before them. -/
def escapeD : Str → Str
  | [] => []
  | c :: s => if c = '"' ∨ c = '\\' then '\\' :: c :: escapeD s else c :: escapeD s

/-- A line of an os-release file. -/
inductive Line : Str → List (Str × Str) → Prop where
  /-- an empty line -/
  | blank (w : Str) (hw : ∀ c ∈ w, c = ' ' ∨ c = '\t' ∨ c = '\r') : Line w []
  /-- `KEY=value` -/
  | bare (k v : Str) (hk : ∀ c ∈ k, Plain c ∧ c ≠ '=') (hv : ∀ c ∈ v, Plain c) :
      Line (k ++ '=' :: v) [(k, v)]
  /-- `KEY="value"` -/
  | double (k v : Str) (hk : ∀ c ∈ k, Plain c ∧ c ≠ '=') :
      Line (k ++ '=' :: '"' :: (escapeD v ++ ['"'])) [(k, v)]
  /-- `KEY='value'` -/
  | single (k v : Str) (hk : ∀ c ∈ k, Plain c ∧ c ≠ '=') (hv : '\'' ∉ v) :
      Line (k ++ '=' :: '\'' :: (v ++ ['\''])) [(k, v)]

/-- The text of an os-release file, with its assignments. -/
inductive OsFile : Str → List (Str × Str) → Prop where
  | nil : OsFile [] []
  | line {l t : Str} {a b : List (Str × Str)} : Line l a → OsFile t b → OsFile (l ++ '\n' :: t) (a ++ b)

theorem plain_eq : Plain '=' := by unfold Plain; decide

theorem lex_plain {s : Str} (h : ∀ c ∈ s, Plain c) (rest tok : Str) (q : Bool) :
    Restart.lex (s ++ rest) .word tok q = Restart.lex rest .word (tok ++ s) q := by
  induction s generalizing tok with
  | nil => simp
  | cons c s ih =>
    obtain ⟨h1, h2, h3, h4⟩ := h c (by simp)
    rw [List.cons_append, Restart.lex, if_neg (by simp [h1]), if_neg (by simp [h3, h4]), if_neg h2,
      ih fun d hd => h d (by simp [hd])]
    simp

theorem lex_first {c : Char} (h : Plain c) (rest : Str) :
    Restart.lex (c :: rest) .ws [] false = Restart.lex rest .word [c] false := by
  obtain ⟨h1, h2, h3, h4⟩ := h
  rw [Restart.lex, if_neg (by simp [h1]), if_neg h2, if_neg (by simp [h3, h4])]

theorem lex_start {k : Str} (h : ∀ c ∈ k, Plain c ∧ c ≠ '=') (rest : Str) :
    Restart.lex (k ++ '=' :: rest) .ws [] false = Restart.lex rest .word (k ++ ['=']) false := by
  cases k with
  | nil => exact lex_first plain_eq rest
  | cons c k =>
    rw [List.cons_append, lex_first (h c (by simp)).1,
      show k ++ '=' :: rest = (k ++ ['=']) ++ rest by simp, lex_plain]
    · rfl
    · intro d hd
      rcases List.mem_append.mp hd with hd | hd
      · exact (h d (by simp [hd])).1
      · rw [List.mem_singleton.mp hd]; exact plain_eq

theorem lex_double (v rest tok : Str) (q : Bool) :
    Restart.lex (escapeD v ++ '"' :: rest) (.quote '"') tok q = Restart.lex rest .word (tok ++ v) true := by
  induction v generalizing tok q with
  | nil => simp [escapeD, Restart.lex]
  | cons c v ih =>
    rw [escapeD]
    by_cases hc : c = '"' ∨ c = '\\'
    · rw [if_pos hc, List.cons_append, List.cons_append, Restart.lex, if_neg (by decide),
        if_pos (by decide), Restart.lex, if_neg (by rcases hc with rfl | rfl <;> decide), ih]
      simp
    · rw [not_or] at hc
      rw [if_neg (by simp [hc.1, hc.2]), List.cons_append, Restart.lex, if_neg hc.1,
        if_neg (by simp [hc.2]), ih]
      simp

theorem lex_single {v : Str} (h : '\'' ∉ v) (rest tok : Str) (q : Bool) :
    Restart.lex (v ++ '\'' :: rest) (.quote '\'') tok q = Restart.lex rest .word (tok ++ v) true := by
  induction v generalizing tok q with
  | nil => simp [Restart.lex]
  | cons c v ih =>
    simp only [List.mem_cons, not_or] at h
    rw [List.cons_append, Restart.lex, if_neg (Ne.symm h.1), if_neg (by simp), ih h.2]
    simp

theorem lex_end {tok : Str} (h : tok ≠ []) (q : Bool) (rest : Str) :
    Restart.lex ('\n' :: rest) .word tok q = (Restart.lex rest .ws [] false).map (tok :: ·) := by
  rw [Restart.lex, if_pos (by decide), if_pos (Or.inl h)]

theorem lex_blank {w : Str} (h : ∀ c ∈ w, c = ' ' ∨ c = '\t' ∨ c = '\r') (rest : Str) :
    Restart.lex (w ++ '\n' :: rest) .ws [] false = Restart.lex rest .ws [] false := by
  induction w with
  | nil => rw [List.nil_append, Restart.lex, if_pos (by decide), if_neg (by simp)]
  | cons c w ih =>
    rw [List.cons_append, Restart.lex, if_pos (by rcases h c (by simp) with rfl | rfl | rfl <;> decide),
      if_neg (by simp)]
    exact ih fun d hd => h d (by simp [hd])

theorem splitEq_key {k : Str} (h : ∀ c ∈ k, Plain c ∧ c ≠ '=') (v : Str) :
    Launcher.splitEq (k ++ '=' :: v) = some (k, v) := by
  induction k with
  | nil => simp [Launcher.splitEq]
  | cons c k ih =>
    rw [List.cons_append, Launcher.splitEq, if_neg (h c (by simp)).2, ih fun d hd => h d (by simp [hd])]
    rfl

theorem lex_line {l : Str} {a : List (Str × Str)} (h : Line l a) (rest : Str) :
    Restart.lex (l ++ '\n' :: rest) .ws [] false =
      (Restart.lex rest .ws [] false).map (a.map (fun p => p.1 ++ '=' :: p.2) ++ ·) := by
  cases h with
  | blank _ hw => rw [lex_blank hw]; simp
  | bare k v hk hv =>
    rw [show k ++ '=' :: v ++ '\n' :: rest = k ++ '=' :: (v ++ '\n' :: rest) by simp, lex_start hk,
      lex_plain hv, lex_end (by simp)]
    simp
  | double k v hk =>
    rw [show k ++ '=' :: '"' :: (escapeD v ++ ['"']) ++ '\n' :: rest =
      k ++ '=' :: ('"' :: (escapeD v ++ '"' :: '\n' :: rest)) by simp, lex_start hk, Restart.lex,
      if_neg (by decide), if_pos (by decide), lex_double, lex_end (by simp)]
    simp
  | single k v hk hv =>
    rw [show k ++ '=' :: '\'' :: (v ++ ['\'']) ++ '\n' :: rest =
      k ++ '=' :: ('\'' :: (v ++ '\'' :: '\n' :: rest)) by simp, lex_start hk, Restart.lex,
      if_neg (by decide), if_pos (by decide), lex_single hv, lex_end (by simp)]
    simp

theorem line_keys {l : Str} {a : List (Str × Str)} (h : Line l a) :
    ∀ p ∈ a, ∀ c ∈ p.1, Plain c ∧ c ≠ '=' := by
  cases h <;> simp_all

theorem mapM_entries : ∀ (a : List (Str × Str)), (∀ p ∈ a, ∀ c ∈ p.1, Plain c ∧ c ≠ '=') →
    (a.map fun p => p.1 ++ '=' :: p.2).mapM Launcher.splitEq = some a
  | [], _ => rfl
  | p :: a, h => by
    rw [List.map_cons, List.mapM_cons, splitEq_key (h p (by simp)),
      mapM_entries a fun q hq => h q (by simp [hq])]
    rfl

theorem osFile_lex {t : Str} {a : List (Str × Str)} (h : OsFile t a) :
    Restart.lex t .ws [] false = some (a.map fun p => p.1 ++ '=' :: p.2) ∧
      ∀ p ∈ a, ∀ c ∈ p.1, Plain c ∧ c ≠ '=' := by
  induction h with
  | nil => simp [Restart.lex]
  | line hl _ ih =>
    rw [lex_line hl, ih.1]
    refine ⟨by simp, fun p hp => ?_⟩
    rcases List.mem_append.mp hp with hp | hp
    · exact line_keys hl p hp
    · exact ih.2 p hp

theorem osGet_cons (p : Str × Str) (os : List (Str × Str)) (k : Str) :
    osGet (p :: os) k = (osGet os k).or (if k = p.1 then some p.2 else none) := by
  unfold osGet
  rw [List.reverse_cons, List.lookup_append]
  congr 1
  rw [List.lookup_cons]
  by_cases h : k = p.1
  · simp [h]
  · have : (k == p.1) = false := by simpa using h
    rw [this, if_neg h]; rfl

/-- **C70**, os-release.  A file of empty lines and assignments, each with a plain value, a value between
double quotes or a value between single quotes, is read as the assignments it has; the value for a name is
that of the last assignment to it. -/
theorem C70_os_release {text : Str} {a : List (Str × Str)} (h : OsFile text a) :
    osRelease text = some a ∧
      ∀ k v, osGet a k = some v ↔ ∃ b c, a = b ++ (k, v) :: c ∧ ∀ p ∈ c, p.1 ≠ k := by
  refine ⟨?_, ?_⟩
  · unfold osRelease Restart.split
    rw [(osFile_lex h).1]
    exact mapM_entries a (osFile_lex h).2
  · intro k v
    clear h
    induction a with
    | nil => simp [osGet]
    | cons p a ih =>
      rw [osGet_cons]
      cases hg : osGet a k with
      | some w =>
        rw [hg] at ih
        have hw : ∃ b c, a = b ++ (k, w) :: c ∧ ∀ p ∈ c, p.1 ≠ k := by
          by_cases e : v = w
          · subst e; exact ih.mp rfl
          · clear ih
            exact Classical.byContradiction fun hn => by
              have : ∀ (l : List (Str × Str)), osGet l k = some w →
                  ∃ b c, l = b ++ (k, w) :: c ∧ ∀ p ∈ c, p.1 ≠ k := by
                intro l
                induction l with
                | nil => simp [osGet]
                | cons q l ihl =>
                  rw [osGet_cons]
                  cases hl : osGet l k with
                  | some x =>
                    intro hx
                    rw [Option.some_or] at hx
                    obtain ⟨b, c, hbc, hc⟩ := ihl (hl.trans hx)
                    exact ⟨q :: b, c, by rw [hbc]; rfl, hc⟩
                  | none =>
                    intro hx
                    rw [Option.none_or] at hx
                    by_cases hk : k = q.1
                    · rw [if_pos hk] at hx
                      refine ⟨[], l, ?_, fun p hp hpk => ?_⟩
                      · rw [List.nil_append, hk]; injection hx with hx; rw [← hx]
                      · unfold osGet at hl
                        rw [List.lookup_eq_none_iff] at hl
                        have := hl p (by simpa using hp)
                        simp [hpk] at this
                    · rw [if_neg hk] at hx; cases hx
              exact hn (this a hg)
        rw [Option.some_or]
        constructor
        · intro e
          injection e with e; subst e
          obtain ⟨b, c, hbc, hc⟩ := hw
          exact ⟨p :: b, c, by rw [hbc]; rfl, hc⟩
        · rintro ⟨b, c, hbc, hc⟩
          cases b with
          | nil =>
            injection hbc with _ hbc
            obtain ⟨b', c', hbc', _⟩ := hw
            exact absurd rfl (hc (k, w) (by rw [← hbc, hbc']; simp))
          | cons q b =>
            injection hbc with _ hbc
            exact ih.mpr ⟨b, c, hbc, hc⟩
      | none =>
        rw [Option.none_or]
        have hno : ∀ q ∈ a, q.1 ≠ k := by
          intro q hq e
          unfold osGet at hg
          rw [List.lookup_eq_none_iff] at hg
          have := hg q (by simpa using hq)
          simp [e] at this
        constructor
        · intro e
          by_cases hk : k = p.1
          · rw [if_pos hk] at e
            injection e with e
            exact ⟨[], a, by rw [List.nil_append, hk, ← e], hno⟩
          · rw [if_neg hk] at e; cases e
        · rintro ⟨b, c, hbc, hc⟩
          cases b with
          | nil =>
            injection hbc with hp _
            rw [hp, if_pos rfl]
          | cons q b =>
            injection hbc with _ hbc
            exact absurd rfl (hno (k, v) (by rw [hbc]; simp))

/-- A file with an empty line, all three styles and a quote in a value. -/
example : osRelease "ID=debian\n\nNAME=\"A \\\"B\\\"\"\nID_LIKE='x y'\n".toList =
    some [("ID".toList, "debian".toList), ("NAME".toList, "A \"B\"".toList),
      ("ID_LIKE".toList, "x y".toList)] := by decide +kernel

example : OsFile "ID=debian\n\nNAME=\"A \\\"B\\\"\"\nID_LIKE='x y'\n".toList
    [("ID".toList, "debian".toList), ("NAME".toList, "A \"B\"".toList), ("ID_LIKE".toList, "x y".toList)] :=
  .line (l := "ID=debian".toList) (.bare "ID".toList "debian".toList (by unfold Plain; decide +kernel)
      (by unfold Plain; decide +kernel))
    (.line (l := []) (a := []) (.blank [] (by simp))
      (.line (l := "NAME=\"A \\\"B\\\"\"".toList)
        (.double "NAME".toList "A \"B\"".toList (by unfold Plain; decide +kernel))
        (.line (l := "ID_LIKE='x y'".toList)
          (.single "ID_LIKE".toList "x y".toList (by unfold Plain; decide +kernel) (by decide +kernel))
          .nil)))

/-! ## Which units contribute -/

/-- The unit names this system, and this version of it if it names a version. -/
def NamesSystem (os : List (Str × Str)) (u : PUnit) : Prop :=
  ∃ i, osGet os "ID".toList = some i ∧ u.value "os-id".toList = some i ∧
    ∀ v, u.value "os-version-id".toList = some v → osGet os "VERSION_ID".toList = some v

/-- The unit names, without a version, the system this one is like. -/
def NamesLike (os : List (Str × Str)) (u : PUnit) : Prop :=
  ∃ i, osGet os "ID_LIKE".toList = some i ∧ u.value "os-id".toList = some i ∧
    u.value "os-version-id".toList = none

/-- The unit takes part. -/
def Contributes (os : List (Str × Str)) (u : PUnit) : Prop :=
  u.kind = "packaging meta-data".toList ∧ (NamesSystem os u ∨ NamesLike os u)

theorem C70_applies (os : List (Str × Str)) (u : PUnit) : isApplicable os u = true ↔ Contributes os u := by
  unfold isApplicable Contributes NamesSystem NamesLike strategyIdVersion strategyId strategyIdLike
    PUnit.osId PUnit.osVersion packagingKind
  generalize u.kind = k
  generalize "packaging meta-data".toList = pk
  generalize osGet os "ID".toList = a
  generalize osGet os "VERSION_ID".toList = b
  generalize osGet os "ID_LIKE".toList = c
  generalize u.value "os-id".toList = d
  generalize u.value "os-version-id".toList = e
  by_cases hk : k = pk
  · rw [if_neg (by simp [hk])]
    cases a <;> cases b <;> cases c <;> cases d <;> cases e <;> simp [hk] <;>
      (try (split <;> simp_all)) <;> (try grind)
  · simp [hk]

example : Contributes [("ID".toList, "debian".toList), ("VERSION_ID".toList, "8".toList)]
    ⟨"packaging meta-data".toList, [("os-id".toList, "debian".toList), ("os-version-id".toList, "8".toList)]⟩ ∧
    ¬ Contributes [("ID".toList, "debian".toList), ("VERSION_ID".toList, "9".toList)]
    ⟨"packaging meta-data".toList,
      [("os-id".toList, "debian".toList), ("os-version-id".toList, "8".toList)]⟩ := by
  rw [← C70_applies, ← C70_applies]; decide +kernel

/-! ## Which dependencies a field has -/

/-- The dependencies mentioned in a text: the pieces between commas, line breaks being blanks, without the
blanks around them and without the empty ones. -/
def mentions (v : Str) : List Str :=
  ((splitOn ',' (v.map fun c => if c = '\n' then ' ' else c)).map strip).filter (· ≠ [])

/-- What a unit mentions in a field. -/
def fieldMentions (u : PUnit) (field : Str) : List Str :=
  match u.value field with
  | none => []
  | some v => mentions v

/-- A dependency that can be written: no comma, no line break, no blanks around it, and not empty. -/
def Dep (d : Str) : Prop := ',' ∉ d ∧ '\n' ∉ d ∧ strip d = d ∧ d ≠ []

def dropSp (s : Str) : Str := s.dropWhile (· = ' ')

theorem strip_dropSp (s : Str) : strip (dropSp s) = strip s := by
  induction s with
  | nil => rfl
  | cons c s ih =>
    by_cases h : c = ' '
    · have h1 : dropSp (c :: s) = dropSp s := by unfold dropSp; rw [List.dropWhile_cons, if_pos (by simp [h])]
      have h2 : strip (c :: s) = strip s := by
        unfold strip lstrip; rw [List.dropWhile_cons, if_pos (by rw [h]; decide)]
      rw [h1, h2, ih]
    · unfold dropSp; rw [List.dropWhile_cons, if_neg (by simp [h])]

theorem splitRel_split : ∀ (s : Str) (b : Bool), ∃ p ps, splitOn ',' s = p :: ps ∧
    splitRel b s = (if b then dropSp p else p) :: ps.map dropSp
  | [], b => ⟨[], [], rfl, by cases b <;> rfl⟩
  | c :: s, b => by
    rw [splitRel, splitOn]
    by_cases h1 : b = true ∧ c = ' '
    · obtain ⟨p, ps, hs, hr⟩ := splitRel_split s true
      rw [if_pos h1, if_neg (by rw [h1.2]; decide), hs, hr]
      refine ⟨_, _, rfl, ?_⟩
      rw [if_pos h1.1, if_pos rfl]
      congr 1
      unfold dropSp
      rw [List.dropWhile_cons (x := c), if_pos (by simp [h1.2])]
    · rw [if_neg h1]
      by_cases h2 : c = ','
      · obtain ⟨p, ps, hs, hr⟩ := splitRel_split s true
        rw [if_pos h2, if_pos h2, hs, hr]
        refine ⟨_, _, rfl, ?_⟩
        cases b <;> rfl
      · obtain ⟨p, ps, hs, hr⟩ := splitRel_split s false
        rw [if_neg h2, if_neg h2, hs, hr]
        refine ⟨_, _, rfl, ?_⟩
        cases b with
        | false => rfl
        | true =>
          have h3 : c ≠ ' ' := fun e => h1 ⟨rfl, e⟩
          have h4 : dropSp (c :: p) = c :: p := by
            unfold dropSp; rw [List.dropWhile_cons, if_neg (by simp [h3])]
          rw [if_pos rfl, h4]
          rfl

theorem splitRel_strip (s : Str) : (splitRel false s).map strip = (splitOn ',' s).map strip := by
  obtain ⟨p, ps, hs, hr⟩ := splitRel_split s false
  rw [hs, hr, List.map_cons, List.map_cons, List.map_map]
  congr 1
  exact List.map_congr_left fun a _ => strip_dropSp a

theorem relList_eq (u : PUnit) (field : Str) : relList u field = fieldMentions u field := by
  unfold relList fieldMentions
  rw [splitRel_strip]
  cases u.value field with
  | none => rfl
  | some v => rfl

theorem strip_mem {s : Str} {c : Char} (h : c ∈ strip s) : c ∈ s := by
  unfold strip rstrip lstrip at h
  rw [List.mem_reverse] at h
  have := (List.dropWhile_sublist _).subset h
  rw [List.mem_reverse] at this
  exact (List.dropWhile_sublist _).subset this

theorem mentions_dep (v : Str) : ∀ d ∈ mentions v, Dep d := by
  intro d hd
  unfold mentions at hd
  rw [List.mem_filter, List.mem_map] at hd
  obtain ⟨⟨p, hp, rfl⟩, hne⟩ := hd
  refine ⟨fun h => split_parts_no_sep _ p hp (strip_mem h), fun h => ?_, strip_idem p, by simpa using hne⟩
  have hjoin := join_split ',' (v.map fun c => if c = '\n' then ' ' else c)
  have hmem : '\n' ∈ v.map fun c => if c = '\n' then ' ' else c := by
    rw [← hjoin]
    have : ∀ (l : List Str), p ∈ l → '\n' ∈ p → '\n' ∈ joinWith ',' l := by
      intro l
      induction l with
      | nil => simp
      | cons q l ih =>
        intro hp hn
        cases l with
        | nil => rw [List.mem_singleton] at hp; subst hp; exact hn
        | cons r l =>
          rw [joinWith_cons _ _ (by simp), List.mem_append]
          rcases List.mem_cons.mp hp with rfl | hp
          · exact .inl hn
          · exact .inr (List.mem_cons_of_mem _ (ih hp hn))
    exact this _ hp (strip_mem h)
  rw [List.mem_map] at hmem
  obtain ⟨c, _, hc⟩ := hmem
  by_cases h : c = '\n'
  · rw [if_pos h] at hc; exact absurd hc (by decide)
  · rw [if_neg h] at hc; exact h hc

theorem splitOn_comma (a b : Str) : splitOn ',' (a ++ ',' :: b) = splitOn ',' a ++ splitOn ',' b := by
  induction a with
  | nil => simp [splitOn]
  | cons c a ih =>
    rw [List.cons_append, splitOn, splitOn]
    by_cases h : c = ','
    · rw [if_pos h, if_pos h, ih]; rfl
    · rw [if_neg h, if_neg h, ih]
      cases hs : splitOn ',' a with
      | nil => exact absurd hs (splitOn_ne_nil _ _)
      | cons x xs => rfl

theorem mentions_comma (a b : Str) : mentions (a ++ ',' :: b) = mentions a ++ mentions b := by
  unfold mentions
  rw [List.map_append, List.map_cons, if_neg (by decide), splitOn_comma, List.map_append,
    List.filter_append]

theorem strip_around {w d w' : Str} (hw : ∀ c ∈ w, isSpace c = true) (hw' : ∀ c ∈ w', isSpace c = true) :
    strip (w ++ d ++ w') = strip d := by
  have h1 : lstrip (w ++ (d ++ w')) = lstrip (d ++ w') := by
    induction w with
    | nil => rfl
    | cons c w ih =>
      have hc : lstrip (c :: w ++ (d ++ w')) = lstrip (w ++ (d ++ w')) := by
        unfold lstrip; rw [List.cons_append, List.dropWhile_cons, if_pos (hw c (by simp))]
      rw [hc]
      exact ih fun e he => hw e (by simp [he])
  have h0 : strip (w ++ d ++ w') = rstrip (lstrip (w ++ (d ++ w'))) := by rw [List.append_assoc]; rfl
  rw [h0, h1]
  by_cases hd : ∀ c ∈ d, isSpace c = true
  · have h2 : strip (d ++ w') = [] := strip_eq_nil.mpr fun c hc => by
      rcases List.mem_append.mp hc with h | h
      · exact hd c h
      · exact hw' c h
    rw [show rstrip (lstrip (d ++ w')) = strip (d ++ w') from rfl, h2, strip_eq_nil.mpr hd]
  · rw [lstrip_append_of_not_all hd, rstrip_append_space hw']; rfl

/-- Blanks as they may be put around a comma. -/
def Blank (w : Str) : Prop := ∀ c ∈ w, c = ' ' ∨ c = '\n'

theorem mentions_one {w d w' : Str} (hw : Blank w) (hw' : Blank w') (hd : Dep d) :
    mentions (w ++ d ++ w') = [d] := by
  have hsp : ∀ {x : Str}, Blank x →
      ∀ c ∈ x.map (fun c => if c = '\n' then ' ' else c), isSpace c = true ∧ c ≠ ',' := by
    intro x hx c hc
    rw [List.mem_map] at hc
    obtain ⟨e, he, rfl⟩ := hc
    rcases hx e he with rfl | rfl <;> decide
  have hdm : d.map (fun c => if c = '\n' then ' ' else c) = d := by
    have h : d.map (fun c => if c = '\n' then ' ' else c) = d.map id :=
      List.map_congr_left fun c hc => if_neg fun (e : c = '\n') => hd.2.1 (e ▸ hc)
    rw [h, List.map_id]
  unfold mentions
  rw [List.map_append, List.map_append, hdm, split_no_sep, List.map_singleton,
    strip_around (fun c hc => (hsp hw c hc).1) (fun c hc => (hsp hw' c hc).1), hd.2.2.1, List.filter_cons,
    if_pos (by simpa using hd.2.2.2), List.filter_nil]
  intro h
  rcases List.mem_append.mp h with h | h
  · rcases List.mem_append.mp h with h | h
    · exact (hsp hw _ h).2 rfl
    · exact hd.1 h
  · exact (hsp hw' _ h).2 rfl

/-- A list of dependencies written with a comma after each but the last (which may have one), and any blanks
around them. -/
inductive DepText : Str → List Str → Prop where
  | nil {w : Str} : Blank w → DepText w []
  | last {w d w' : Str} : Blank w → Blank w' → Dep d → DepText (w ++ d ++ w') [d]
  | cons {w d w' t : Str} {ds : List Str} : Blank w → Blank w' → Dep d → DepText t ds →
      DepText (w ++ d ++ w' ++ ',' :: t) (d :: ds)

/-- **C70**, dependencies: what is read from a field is what the field mentions; a list of dependencies
written in any of the usual ways is read back, each once, in order; and whatever the field, what is read is
made of dependencies. -/
theorem C70_relations (u : PUnit) (field : Str) :
    relList u field = fieldMentions u field ∧
    (∀ v ds, u.value field = some v → DepText v ds → relList u field = ds) ∧
    ∀ d ∈ relList u field, Dep d := by
  refine ⟨relList_eq u field, ?_, ?_⟩
  · intro v ds hv h
    rw [relList_eq]
    unfold fieldMentions
    rw [hv]
    show mentions v = ds
    clear hv
    induction h with
    | @nil w hw =>
      unfold mentions
      have hsp : ∀ c ∈ w.map (fun c => if c = '\n' then ' ' else c), isSpace c = true ∧ c ≠ ',' := by
        intro c hc
        rw [List.mem_map] at hc
        obtain ⟨e, he, rfl⟩ := hc
        rcases hw e he with rfl | rfl <;> decide
      rw [split_no_sep fun h => (hsp _ h).2 rfl, List.map_singleton,
        strip_eq_nil.mpr fun c hc => (hsp c hc).1]
      rfl
    | last hw hw' hd => exact mentions_one hw hw' hd
    | cons hw hw' hd _ ih => rw [mentions_comma, mentions_one hw hw' hd, ih]; rfl
  · rw [relList_eq]
    unfold fieldMentions
    cases u.value field with
    | none => simp
    | some v => exact mentions_dep v

example : relList ⟨[], [("Depends".toList, "a (>= 1),\n b | c ,,d, ".toList)]⟩ "Depends".toList =
    ["a (>= 1)".toList, "b | c".toList, "d".toList] := by decide +kernel

example : DepText "a (>= 1),\n b | c ,d, ".toList ["a (>= 1)".toList, "b | c".toList, "d".toList] :=
  .cons (w := []) (d := "a (>= 1)".toList) (w' := []) (by simp [Blank]) (by simp [Blank])
    (by unfold Dep; decide +kernel)
    (.cons (w := "\n ".toList) (d := "b | c".toList) (w' := " ".toList) (by unfold Blank; decide +kernel)
      (by unfold Blank; decide +kernel) (by unfold Dep; decide +kernel)
      (.cons (w := []) (d := "d".toList) (w' := []) (by simp [Blank]) (by simp [Blank])
        (by unfold Dep; decide +kernel) (.nil (w := " ".toList) (by unfold Blank; decide +kernel))))

/-! ## A run -/

open Classical in
/-- Everything the contributing units mention in a field, in order. -/
noncomputable def allMentions (os : List (Str × Str)) (units : List PUnit) (field : Str) : List Str :=
  (units.filter fun u => decide (Contributes os u)).flatMap fun u => fieldMentions u field

/-- A text that has, for each of the names, the line `plainbox:name=value` where the value mentions exactly
those dependencies, or no line when there are none. -/
inductive Vars : List (Str × List Str) → Str → Prop where
  | nil : Vars [] []
  | none {name : Str} {rest : List (Str × List Str)} {t : Str} : Vars rest t → Vars ((name, []) :: rest) t
  | line {name v : Str} {ds : List Str} {rest : List (Str × List Str)} {t : Str} :
      ds ≠ [] → '\n' ∉ v → mentions v = ds → Vars rest t →
      Vars ((name, ds) :: rest) ("plainbox:".toList ++ name ++ ['='] ++ v ++ ['\n'] ++ t)

theorem inspect_spec (os : List (Str × Str)) (units : List PUnit) :
    inspectProvider os units =
      ⟨allMentions os units "Depends".toList, allMentions os units "Suggests".toList,
        allMentions os units "Recommends".toList⟩ := by
  classical
  have key : ∀ (us : List PUnit) (l : Lists),
      us.foldl (fun l u => if isApplicable os u then collect l u else l) l =
        ⟨l.depends ++ allMentions os us "Depends".toList, l.suggests ++ allMentions os us "Suggests".toList,
          l.recommends ++ allMentions os us "Recommends".toList⟩ := by
    intro us
    induction us with
    | nil => intro l; simp [allMentions]
    | cons u us ih =>
      intro l
      rw [List.foldl_cons, ih]
      by_cases h : isApplicable os u = true
      · have hc : ∀ f, allMentions os (u :: us) f = fieldMentions u f ++ allMentions os us f := by
          intro f
          unfold allMentions
          rw [List.filter_cons, if_pos (by simpa using (C70_applies os u).mp h)]
          rfl
        rw [if_pos h, hc, hc, hc]
        unfold collect
        simp only [relList_eq, List.append_assoc]
      · have hc : ∀ f, allMentions os (u :: us) f = allMentions os us f := by
          intro f
          unfold allMentions
          rw [List.filter_cons, if_neg (by simpa using mt (C70_applies os u).mpr h)]
        rw [if_neg h, hc, hc, hc]
  unfold inspectProvider
  rw [key]
  simp

theorem allMentions_dep {os : List (Str × Str)} {units : List PUnit} {f : Str} :
    ∀ d ∈ allMentions os units f, Dep d := by
  intro d hd
  unfold allMentions at hd
  rw [List.mem_flatMap] at hd
  obtain ⟨u, _, hu⟩ := hd
  rw [← relList_eq] at hu
  exact (C70_relations u f).2.2 d hu

theorem joinComma_spec : ∀ (ds : List Str), (∀ d ∈ ds, Dep d) → ds ≠ [] →
    mentions (joinComma ds) = ds ∧ '\n' ∉ joinComma ds
  | [], _, h => absurd rfl h
  | [d], hd, _ => by
    have h := mentions_one (w := []) (w' := []) (by simp [Blank]) (by simp [Blank]) (hd d (by simp))
    exact ⟨by simpa [joinComma] using h, (hd d (by simp)).2.1⟩
  | a :: b :: l, hd, _ => by
    have ih := joinComma_spec (b :: l) (fun d h => hd d (List.mem_cons_of_mem _ h)) (by simp)
    have ha := hd a (by simp)
    have h1 := mentions_one (w := []) (w' := []) (by simp [Blank]) (by simp [Blank]) ha
    have hb : mentions (' ' :: joinComma (b :: l)) = mentions (joinComma (b :: l)) := by
      unfold mentions
      rw [List.map_cons, if_neg (by decide), splitOn, if_neg (by decide)]
      cases hs : splitOn ',' ((joinComma (b :: l)).map fun c => if c = '\n' then ' ' else c) with
      | nil => exact absurd hs (splitOn_ne_nil _ _)
      | cons p ps =>
        have : strip (' ' :: p) = strip p := by
          unfold strip lstrip; rw [List.dropWhile_cons, if_pos (by decide)]
        simp only [List.map_cons, this]
    constructor
    · rw [joinComma, show a ++ [',', ' '] ++ joinComma (b :: l) = a ++ ',' :: (' ' :: joinComma (b :: l)) by simp,
        mentions_comma, hb, ih.1]
      simp only [List.nil_append, List.append_nil] at h1
      rw [h1]; rfl
    · rw [joinComma]
      simp only [List.mem_append, List.mem_cons, List.not_mem_nil, or_false, not_or]
      exact ⟨⟨ha.2.1, by decide, by decide⟩, ih.2⟩

theorem vars_step {name t : Str} {ds : List Str} {rest : List (Str × List Str)} (hd : ∀ d ∈ ds, Dep d)
    (h : Vars rest t) : Vars ((name, ds) :: rest) (varLine name ds ++ t) := by
  unfold varLine
  by_cases hne : ds ≠ []
  · rw [if_pos hne]
    have := joinComma_spec ds hd hne
    exact .line hne this.2 this.1 h
  · rw [if_neg hne]
    rw [Decidable.not_not] at hne
    subst hne
    exact .none h

theorem substvars_spec (os : List (Str × Str)) (units : List PUnit) :
    Vars [("Depends".toList, allMentions os units "Depends".toList),
      ("Suggests".toList, allMentions os units "Suggests".toList),
      ("Recommends".toList, allMentions os units "Recommends".toList)]
      (substvars (inspectProvider os units)) := by
  unfold substvars
  rw [inspect_spec]
  have := vars_step (name := "Depends".toList) (allMentions_dep (os := os) (units := units) (f := "Depends".toList))
    (vars_step (name := "Suggests".toList) (allMentions_dep (os := os) (units := units) (f := "Suggests".toList))
      (vars_step (name := "Recommends".toList)
        (allMentions_dep (os := os) (units := units) (f := "Recommends".toList)) .nil))
  simpa only [List.append_nil, List.append_assoc] using this

theorem write_fold (l : Lists) : ∀ (pkgs : List Str) (files : Files), pkgs.Nodup → ∀ p,
    (p ∉ pkgs → pkgs.foldl (write l) files p = files p) ∧
    (p ∈ pkgs → pkgs.foldl (write l) files p = some ((files p).getD [] ++ substvars l))
  | [], files, _, p => by simp
  | q :: pkgs, files, hnd, p => by
    rw [List.nodup_cons] at hnd
    have ih := write_fold l pkgs (write l files q) hnd.2 p
    rw [List.foldl_cons]
    constructor
    · intro h
      rw [List.mem_cons, not_or] at h
      rw [ih.1 h.2]
      unfold write
      rw [if_neg h.1]
    · intro h
      by_cases hq : p = q
      · subst hq
        rw [ih.1 hnd.1]
        unfold write
        rw [if_pos rfl]
      · rw [ih.2 ((List.mem_cons.mp h).resolve_left hq)]
        unfold write
        rw [if_neg hq]

/-- The package has a paragraph that says it is a provider. -/
def Marked (ps : List Para) (pkg : Str) : Prop :=
  ∃ p ∈ ps, p.package = some pkg ∧ p.flag = some "yes".toList

theorem mem_packages {ps : List Para} {pkg : Str} : pkg ∈ providerPackages ps ↔ Marked ps pkg := by
  unfold providerPackages Marked
  rw [List.mem_filterMap]
  constructor
  · rintro ⟨p, hp, h⟩
    by_cases hf : p.flag = some "yes".toList
    · rw [if_pos hf] at h; exact ⟨p, hp, h, hf⟩
    · rw [if_neg hf] at h; cases h
  · rintro ⟨p, hp, h1, h2⟩
    exact ⟨p, hp, by rw [if_pos h2]; exact h1⟩

/-- This is Debian, or like Debian. -/
def DebianLike (os : List (Str × Str)) : Prop :=
  osGet os "ID".toList = some "debian".toList ∨ osGet os "ID_LIKE".toList = some "debian".toList

/-- **C70**, a run (partial: "contributes" does not have units for similar systems as a last resort only, see
`C70_last_resort_violated`; nothing happens on systems like several others, see `C70_like_violated`; and a
second run writes the lines again, see `C70_twice_violated`).  On Linux, with an os-release file as above that
says Debian and a debian/control that has each package once and some provider, the run ends well; the variables
of each marked package have, after what was there, lines from which exactly the mentions of the contributing
units can be read; other files are not touched. -/
theorem C70_run_partial {text : Str} {os : List (Str × Str)} (ht : OsFile text os) (hd : DebianLike os)
    {ps : List Para} (hnd : (ps.filterMap Para.package).Nodup) (hp : ∃ pkg, Marked ps pkg)
    (units : List PUnit) (files : Files) :
    ∃ files', packagingCommand true text (.paras ps) units files = .done files' ∧
      (∀ pkg, ¬ Marked ps pkg → files' pkg = files pkg) ∧
      ∃ added, Vars [("Depends".toList, allMentions os units "Depends".toList),
          ("Suggests".toList, allMentions os units "Suggests".toList),
          ("Recommends".toList, allMentions os units "Recommends".toList)] added ∧
        ∀ pkg, Marked ps pkg → files' pkg = some ((files pkg).getD [] ++ added) := by
  have hnd' : (providerPackages ps).Nodup := by
    have hsub : ∀ (l : List Para), (providerPackages l).Sublist (l.filterMap Para.package) := by
      intro l
      induction l with
      | nil => exact .slnil
      | cons p l ih =>
        unfold providerPackages at ih ⊢
        cases hpk : p.package with
        | none =>
          have : (if p.flag = some "yes".toList then p.package else none) = none := by
            rw [hpk]; exact ite_self _
          rw [List.filterMap_cons_none (a := p) this, List.filterMap_cons_none hpk]
          exact ih
        | some x =>
          rw [List.filterMap_cons_some (f := Para.package) hpk]
          by_cases hf : p.flag = some "yes".toList
          · rw [List.filterMap_cons_some (a := p) (b := x) (by rw [if_pos hf]; exact hpk)]
            exact ih.cons_cons x
          · rw [List.filterMap_cons_none (a := p) (by rw [if_neg hf])]
            exact ih.cons x
    exact hnd.sublist (hsub ps)
  obtain ⟨pkg, hm⟩ := hp
  have hne : providerPackages ps ≠ [] := List.ne_nil_of_mem (mem_packages.mpr hm)
  refine ⟨(providerPackages ps).foldl (write (inspectProvider os units)) files, ?_, ?_, ?_⟩
  · unfold packagingCommand
    rw [if_pos rfl, (C70_os_release ht).1]
    dsimp only
    have : isDebian os = true := by
      unfold isDebian
      rw [Bool.or_eq_true, decide_eq_true_eq, decide_eq_true_eq]
      exact hd
    rw [if_pos this, debianRun, if_neg hne]
  · intro p hp
    exact (write_fold _ _ files hnd' p).1 (mt mem_packages.mp hp)
  · exact ⟨_, substvars_spec os units, fun p hp => (write_fold _ _ files hnd' p).2 (mem_packages.mpr hp)⟩

/-- A unit for Debian, one for Fedora. -/
def exampleUnits : List PUnit :=
  [⟨"packaging meta-data".toList, [("os-id".toList, "debian".toList), ("Depends".toList, "a, b".toList)]⟩,
   ⟨"packaging meta-data".toList, [("os-id".toList, "fedora".toList), ("Depends".toList, "c".toList)]⟩]

/-- What a run makes of one file. -/
def fileAfter (o : Outcome) (pkg : Str) : Option (Option Str) :=
  match o with
  | .done f => some (f pkg)
  | _ => none

example : fileAfter (packagingCommand true "ID=debian\n".toList
      (.paras [⟨none, none⟩, ⟨some "p".toList, some "yes".toList⟩, ⟨some "q".toList, none⟩]) exampleUnits
      fun _ => none) "p".toList = some (some "plainbox:Depends=a, b\n".toList) := by decide +kernel

/-- **C70**: when a run is refused: on Debian without a debian/control that can be read or without any marked
package; no file is then written.  A run on another system does nothing. -/
theorem C70_refused {text : Str} {os : List (Str × Str)} (ht : OsFile text os) (control : Control)
    (units : List PUnit) (files : Files) :
    (packagingCommand true text control units files = .refused ↔
      DebianLike os ∧ ∀ ps, control = .paras ps → ∀ pkg, ¬ Marked ps pkg) ∧
    (¬ DebianLike os → packagingCommand true text control units files = .done files) ∧
    packagingCommand false text control units files = .done files := by
  have hdeb : isDebian os = true ↔ DebianLike os := by
    unfold isDebian DebianLike
    rw [Bool.or_eq_true, decide_eq_true_eq, decide_eq_true_eq]
  have hrun : packagingCommand true text control units files =
      if isDebian os then debianRun os units files control else .done files := by
    unfold packagingCommand
    rw [if_pos rfl, (C70_os_release ht).1]
  refine ⟨?_, ?_, rfl⟩
  · rw [hrun]
    by_cases h : isDebian os = true
    · rw [if_pos h]
      cases control with
      | missing => exact ⟨fun _ => ⟨hdeb.mp h, fun _ e => by cases e⟩, fun _ => rfl⟩
      | unreadable => exact ⟨fun _ => ⟨hdeb.mp h, fun _ e => by cases e⟩, fun _ => rfl⟩
      | paras ps =>
        rw [debianRun]
        by_cases hp : providerPackages ps = []
        · rw [if_pos hp]
          refine ⟨fun _ => ⟨hdeb.mp h, fun _ e pkg hm => ?_⟩, fun _ => rfl⟩
          cases e
          have := mem_packages.mpr hm
          rw [hp] at this; cases this
        · rw [if_neg hp]
          refine ⟨(fun e => nomatch e), fun hn => ?_⟩
          obtain ⟨x, hx⟩ := List.exists_mem_of_ne_nil _ hp
          exact absurd (mem_packages.mp hx) (hn.2 ps rfl x)
    · rw [if_neg h]
      exact ⟨(fun e => nomatch e), fun hn => absurd (hdeb.mpr hn.1) h⟩
  · intro h
    rw [hrun, if_neg (mt hdeb.mp h)]

/-! ## Disagreements -/

/-- **C70** is violated: "The id_like match strategy is only used as a last resort", but on a derivative the
unit for the system it is like contributes beside the one for the derivative itself. -/
theorem C70_last_resort_violated :
    ∃ text os units, OsFile text os ∧ DebianLike os ∧ (∃ u ∈ units, Contributes os u ∧ NamesSystem os u) ∧
      ∃ u ∈ units, Contributes os u ∧ ¬ NamesSystem os u ∧
        fileAfter (packagingCommand true text (.paras [⟨some "p".toList, some "yes".toList⟩]) units
          fun _ => none) "p".toList = some (some "plainbox:Depends=old, new\n".toList) := by
  refine ⟨"ID=ubuntu\nID_LIKE=debian\n".toList,
    [("ID".toList, "ubuntu".toList), ("ID_LIKE".toList, "debian".toList)],
    [⟨"packaging meta-data".toList, [("os-id".toList, "debian".toList), ("Depends".toList, "old".toList)]⟩,
     ⟨"packaging meta-data".toList, [("os-id".toList, "ubuntu".toList), ("Depends".toList, "new".toList)]⟩],
    ?_, Or.inr (by decide +kernel), ⟨_, List.mem_cons_of_mem _ (List.mem_cons_self), ?_, ?_⟩,
    ⟨_, List.mem_cons_self, ?_, ?_, ?_⟩⟩
  · exact .line (l := "ID=ubuntu".toList) (.bare "ID".toList "ubuntu".toList
        (by unfold Plain; decide +kernel) (by unfold Plain; decide +kernel))
      (.line (l := "ID_LIKE=debian".toList) (.bare "ID_LIKE".toList "debian".toList
        (by unfold Plain; decide +kernel) (by unfold Plain; decide +kernel)) .nil)
  · rw [← C70_applies]; decide +kernel
  · refine ⟨"ubuntu".toList, by decide +kernel, by decide +kernel, fun v hv => ?_⟩
    rw [show PUnit.value _ "os-version-id".toList = none by decide +kernel] at hv
    cases hv
  · rw [← C70_applies]; decide +kernel
  · rintro ⟨i, h1, h2, _⟩
    have h3 := h1.symm.trans (show osGet _ "ID".toList = some "ubuntu".toList by decide +kernel)
    have h4 := h2.symm.trans (show PUnit.value _ "os-id".toList = some "debian".toList by decide +kernel)
    exact absurd (h3.symm.trans h4) (by decide +kernel)
  · decide +kernel

/-- **C70** is violated for a system like several others: os-release(5) has a list of words in `ID_LIKE`, the
code compares the whole text, so neither a unit for Debian nor the driver for Debian is used. -/
theorem C70_like_violated :
    (∃ u : PUnit, u = exampleUnits.head (by decide) ∧
      isApplicable [("ID".toList, "mint".toList), ("ID_LIKE".toList, "ubuntu debian".toList)] u = false) ∧
    fileAfter (packagingCommand true "ID=mint\nID_LIKE=\"ubuntu debian\"\n".toList
      (.paras [⟨some "p".toList, some "yes".toList⟩]) exampleUnits fun _ => none) "p".toList = some none :=
  ⟨⟨_, rfl, by decide +kernel⟩, by decide +kernel⟩

/-- **C70** is violated for an os-release file with a comment (os-release(5): lines beginning with `#` are
ignored): the words of the comment are taken for assignments, and the run ends with `ValueError`. -/
theorem C70_comment_violated (control : Control) (units : List PUnit) (files : Files) :
    packagingCommand true "# about this system\nID=debian\n".toList control units files = .valueError := by
  have : osRelease "# about this system\nID=debian\n".toList = none := by decide +kernel
  unfold packagingCommand
  rw [if_pos rfl, this]

/-- **C70** is violated for the example in the documentation of the module: the field it calls `os-version`
is not read (it is `os-version-id`), so the unit meant for Debian 8 contributes on Debian 9. -/
theorem C70_version_violated :
    fileAfter (packagingCommand true "ID=debian\nVERSION_ID=9\n".toList
      (.paras [⟨some "p".toList, some "yes".toList⟩])
      [⟨"packaging meta-data".toList, [("os-id".toList, "debian".toList), ("os-version".toList, "8".toList),
        ("Depends".toList, "libvirt-bin".toList)]⟩] fun _ => none) "p".toList =
      some (some "plainbox:Depends=libvirt-bin\n".toList) := by decide +kernel

/-- The files after a run, those given if it fails. -/
def filesAfter (files : Files) : Outcome → Files
  | .done f => f
  | _ => files

/-- **C70** is violated for a second run in the same tree: every variable is there twice. -/
theorem C70_twice_violated (files : Files) (h : files "p".toList = none) :
    let run := packagingCommand true "ID=debian\n".toList (.paras [⟨some "p".toList, some "yes".toList⟩])
      exampleUnits
    filesAfter files (run (filesAfter files (run files))) "p".toList =
      some "plainbox:Depends=a, b\nplainbox:Depends=a, b\n".toList := by
  have hos : osRelease "ID=debian\n".toList = some [("ID".toList, "debian".toList)] := by decide +kernel
  have hdeb : isDebian [("ID".toList, "debian".toList)] = true := by decide +kernel
  have hpk : providerPackages [⟨some "p".toList, some "yes".toList⟩] = ["p".toList] := by decide +kernel
  have hl : substvars (inspectProvider [("ID".toList, "debian".toList)] exampleUnits) =
      "plainbox:Depends=a, b\n".toList := by decide +kernel
  have hrun : ∀ f : Files, packagingCommand true "ID=debian\n".toList
      (.paras [⟨some "p".toList, some "yes".toList⟩]) exampleUnits f =
      .done (write (inspectProvider [("ID".toList, "debian".toList)] exampleUnits) f "p".toList) := by
    intro f
    unfold packagingCommand
    rw [if_pos rfl, hos]
    dsimp only
    rw [if_pos hdeb, debianRun, hpk, if_neg (by simp)]
    rfl
  dsimp only
  rw [hrun, hrun]
  unfold filesAfter write
  dsimp only
  rw [if_pos rfl, if_pos rfl, h, hl]
  decide +kernel

end Verif.Packaging
