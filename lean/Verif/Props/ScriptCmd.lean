import Verif.Model.ScriptCmd
import Verif.Props.Leftover
import Verif.Props.Stream
import Verif.Props.IniText
import Verif.Lemmas.Text

/-! # What `plainbox dev script` does (C140) -/

namespace Verif.ScriptCmd

open Verif.Path (Str)
open Verif.Leftover (Tree At Kind Open Proper Good Distinct spell leftovers relpath filenames below)
open Verif.Stream (encode)

/-! ## Specification -/

/-- A text and its lines; the last one may lack its line end. -/
def Lines (t : Str) (ls : List Str) : Prop :=
  (∀ l ∈ ls, '\n' ∉ l) ∧
  (t = (ls.map (· ++ ['\n'])).flatten ∨
    ∃ a b, ls = a ++ [b] ∧ b ≠ [] ∧ t = (a.map (· ++ ['\n'])).flatten ++ b)

/-- What is shown of one thing that was left behind. -/
def Shows (ascii : Str → Str) (name : Str) : Look → List Str → Prop
  | .dir, out => out = ["Leftover directory detected: ".toList ++ ascii name]
  | .other, out => out = ["Leftover thing detected: ".toList ++ ascii name]
  | .file bs, out => ∃ t ls, bs = encode t ∧ Lines (IniText.universal t) ls ∧
      out.length = ls.length + 1 ∧
      out[0]? = some ("Leftover file detected: ".toList ++ ascii name ++ ":".toList) ∧
      ∀ i (h : i < ls.length), out[i + 1]? =
        some ("  ".toList ++ name ++ ":".toList ++ (toString (Int.ofNat (i + 1))).toList ++ ": ".toList ++ ls[i])
  | .forbidden, _ => False

/-- The thing is a file, but not a text in UTF-8. -/
def Binary (k : Look) : Prop := ∃ bs, k = .file bs ∧ ∀ t, bs ≠ encode t

/-- The job that an id means: the first one that has it. -/
def First (jobs : List Job) (id : Str) (j : Job) : Prop :=
  ∃ a b, jobs = a ++ j :: b ∧ j.id = id ∧ ∀ x ∈ a, x.id ≠ id

/-! ## Lemmas -/

theorem getJob_none (jobs : List Job) (id : Str) : getJob jobs id = none ↔ ∀ j ∈ jobs, j.id ≠ id := by
  unfold getJob
  rw [List.head?_eq_none_iff, List.filter_eq_nil_iff]
  simp only [decide_eq_true_eq]
  exact ⟨fun h j hj e => h j hj e.symm, fun h j hj e => h j hj e.symm⟩

theorem getJob_first {jobs : List Job} {id : Str} {j : Job} (h : First jobs id j) : getJob jobs id = some j := by
  obtain ⟨a, b, rfl, rfl, ha⟩ := h
  have : a.filter (fun x => decide (j.id = x.id)) = [] := by
    rw [List.filter_eq_nil_iff]
    simp only [decide_eq_true_eq]
    exact fun x hx e => ha x hx e.symm
  simp [getJob, this]

theorem linesKeep_last {l : Str} (h : '\n' ∉ l) (hl : l ≠ []) : Text.linesKeep l = [l] := by
  induction l with
  | nil => exact absurd rfl hl
  | cons c l ih =>
    simp only [List.mem_cons, not_or] at h
    rw [Text.linesKeep, if_neg (Ne.symm h.1)]
    cases l with
    | nil => rfl
    | cons d l => rw [ih h.2 (by simp)]

theorem chomp_plain {l : Str} (h : '\n' ∉ l) : chomp l = l := by
  unfold chomp
  have : l.reverse.dropWhile (fun c => decide (c = '\n')) = l.reverse := by
    cases hr : l.reverse with
    | nil => rfl
    | cons c r =>
      have : c ∈ l := by rw [← List.mem_reverse, hr]; simp
      rw [List.dropWhile_cons, if_neg]
      simp only [decide_eq_true_eq]
      rintro rfl
      exact h this
  rw [this, List.reverse_reverse]

theorem chomp_line {l : Str} (h : '\n' ∉ l) : chomp (l ++ ['\n']) = l := by
  have := chomp_plain h
  unfold chomp at this ⊢
  rw [List.reverse_append]
  simpa using this

theorem split_exists (t : Str) : ∃ ls, Lines t ls ∧ (Text.linesKeep t).map chomp = ls := by
  induction hn : t.length using Nat.strongRecOn generalizing t with
  | _ n ih =>
    by_cases hnl : '\n' ∈ t
    · obtain ⟨l, r, hl, rfl⟩ : ∃ l r, '\n' ∉ l ∧ t = l ++ '\n' :: r := by
        obtain ⟨l, r, e, h⟩ := List.eq_append_cons_of_mem hnl
        exact ⟨l, r, h, e⟩
      obtain ⟨ls, ⟨h1, h2⟩, h3⟩ := ih r.length (by simp at hn; omega) r rfl
      refine ⟨l :: ls, ⟨?_, ?_⟩, ?_⟩
      · intro x hx
        rcases List.mem_cons.1 hx with rfl | hx
        · exact hl
        · exact h1 x hx
      · rcases h2 with rfl | ⟨a, b, rfl, hb, rfl⟩
        · exact .inl (by simp)
        · exact .inr ⟨l :: a, b, by simp, hb, by simp⟩
      · rw [Text.linesKeep_append hl, List.map_cons, chomp_line hl, h3]
    · cases t with
      | nil => exact ⟨[], ⟨by simp, .inl rfl⟩, rfl⟩
      | cons c t =>
        refine ⟨[c :: t], ⟨by simpa using hnl, .inr ⟨[], c :: t, rfl, by simp, rfl⟩⟩, ?_⟩
        rw [linesKeep_last hnl (by simp)]
        simp [chomp_plain hnl]

theorem numbered_length (name : Str) (n : Nat) (ls : List Str) : (numbered name n ls).length = ls.length := by
  induction ls generalizing n with
  | nil => rfl
  | cons l ls ih => simp [numbered, ih]

theorem numbered_get (name : Str) (n : Nat) (ls : List Str) (i : Nat) (h : i < ls.length) :
    (numbered name n ls)[i]? = some ("  ".toList ++ name ++ ":".toList ++ number (Int.ofNat (n + i)) ++ ": ".toList ++
      chomp ls[i]) := by
  induction ls generalizing n i with
  | nil => cases h
  | cons l ls ih =>
    cases i with
    | zero => rfl
    | succ i =>
      have := ih (n + 1) i (by simpa using h)
      rw [show n + 1 + i = n + (i + 1) by omega] at this
      simpa [numbered] using this

theorem binary_iff (bs : List Nat) : Stream.decode bs = none ↔ ∀ t, bs ≠ encode t := by
  constructor
  · rintro h t rfl
    rw [Stream.decode_encode] at h
    cases h
  · intro h
    cases hd : Stream.decode bs with
    | none => rfl
    | some t => exact absurd (Stream.encode_decode _ _ hd).symm (h t)

/-- What is displayed of one thing. -/
theorem display_cases (ascii : Str → Str) (cwd item : Str) (k : Look) :
    ((display ascii cwd item k).2 = none ∧ Shows ascii (relpath cwd item) k (display ascii cwd item k).1 ∧ ¬ Binary k ∧
      k ≠ .forbidden) ∨
    ((display ascii cwd item k).2 = some .unicode ∧ Binary k) ∨
    ((display ascii cwd item k).2 = some .permission ∧ k = .forbidden) := by
  cases k with
  | dir => exact .inl ⟨rfl, rfl, (fun ⟨_, e, _⟩ => by cases e), nofun⟩
  | other => exact .inl ⟨rfl, rfl, (fun ⟨_, e, _⟩ => by cases e), nofun⟩
  | forbidden => exact .inr (.inr ⟨rfl, rfl⟩)
  | file bs =>
    unfold display displayFile
    dsimp only
    cases hd : Stream.decode bs with
    | none => exact .inr (.inl ⟨rfl, bs, rfl, (binary_iff bs).1 hd⟩)
    | some t =>
      refine .inl ⟨rfl, ?_, ?_, nofun⟩
      · obtain ⟨ls, h1, h2⟩ := split_exists (IniText.universal t)
        have hlen : (Text.linesKeep (IniText.universal t)).length = ls.length := by rw [← h2, List.length_map]
        refine ⟨t, ls, (Stream.encode_decode _ _ hd).symm, h1, ?_, rfl, fun i hi => ?_⟩
        · rw [List.length_cons, numbered_length, hlen]
        · have hi' : i < (Text.linesKeep (IniText.universal t)).length := by omega
          rw [List.getElem?_cons_succ, numbered_get _ _ _ _ hi', Nat.add_comm 1 i]
          have : chomp (Text.linesKeep (IniText.universal t))[i] = ls[i] := by
            simp only [← h2, List.getElem_map]
          rw [this]
          rfl
      · rintro ⟨_, e, h⟩
        cases e
        exact h t (Stream.encode_decode _ _ hd).symm

theorem on_fine (ascii : Str → Str) (cwd : Str) (look : Str → Look) : ∀ items : List Str,
    (∀ x ∈ items, ¬ Binary (look x) ∧ look x ≠ .forbidden) →
    ∃ blocks, (onLeftovers ascii cwd look items) = (blocks.flatten, none) ∧
      List.Forall₂ (fun x b => Shows ascii (relpath cwd x) (look x) b) items blocks := by
  intro items
  induction items with
  | nil => intro _; exact ⟨[], rfl, .nil⟩
  | cons x items ih =>
    intro h
    obtain ⟨blocks, h1, h2⟩ := ih fun y hy => h y (by simp [hy])
    rcases display_cases ascii cwd x (look x) with ⟨g1, g2, -⟩ | ⟨-, g⟩ | ⟨-, g⟩
    · refine ⟨(display ascii cwd x (look x)).1 :: blocks, ?_, .cons g2 h2⟩
      rw [onLeftovers]
      cases hd : display ascii cwd x (look x) with
      | mk o e =>
        rw [hd] at g1
        cases g1
        simp [h1]
    · exact absurd g (h x (by simp)).1
    · exact absurd g (h x (by simp)).2

theorem on_none (ascii : Str → Str) (cwd : Str) (look : Str → Look) : ∀ items : List Str,
    (∀ x ∈ items, ¬ Binary (look x)) → (onLeftovers ascii cwd look items).2 ≠ some .unicode := by
  intro items
  induction items with
  | nil => intro _; nofun
  | cons x items ih =>
    intro h
    have := ih fun y hy => h y (by simp [hy])
    rw [onLeftovers]
    rcases display_cases ascii cwd x (look x) with ⟨g1, -⟩ | ⟨-, g⟩ | ⟨g1, -⟩
    · cases hd : display ascii cwd x (look x) with
      | mk o e => rw [hd] at g1; cases g1; exact this
    · exact absurd g (h x (by simp))
    · cases hd : display ascii cwd x (look x) with
      | mk o e => rw [hd] at g1; cases g1; nofun

theorem on_binary (ascii : Str → Str) (cwd : Str) (look : Str → Look) : ∀ items : List Str,
    (∀ x ∈ items, look x ≠ .forbidden) → (∃ x ∈ items, Binary (look x)) →
    (onLeftovers ascii cwd look items).2 = some .unicode := by
  intro items
  induction items with
  | nil => rintro _ ⟨_, h, _⟩; cases h
  | cons x items ih =>
    intro h hb
    rw [onLeftovers]
    rcases display_cases ascii cwd x (look x) with ⟨g1, -, g2, -⟩ | ⟨g1, -⟩ | ⟨-, g⟩
    · have := ih (fun y hy => h y (by simp [hy])) (by
        obtain ⟨y, hy, hyb⟩ := hb
        rcases List.mem_cons.1 hy with rfl | hy
        · exact absurd hyb g2
        · exact ⟨y, hy, hyb⟩)
      cases hd : display ascii cwd x (look x) with
      | mk o e => rw [hd] at g1; cases g1; exact this
    · cases hd : display ascii cwd x (look x) with
      | mk o e => rw [hd] at g1; cases g1; rfl
    · exact absurd g (h x (by simp))

theorem finish_eq (ascii : Str → Str) (r : Ran) : finish ascii r =
    ((onLeftovers ascii r.cwd r.look (leftovers r.cwd r.tree)).1,
      if (onLeftovers ascii r.cwd r.look (leftovers r.cwd r.tree)).2 = some .unicode then none
      else some (r.code.getD (-1))) := by
  unfold finish
  cases hl : leftovers r.cwd r.tree with
  | nil => rfl
  | cons x l =>
    simp only [List.isEmpty_cons, Bool.false_eq_true, if_false]
    cases (onLeftovers ascii r.cwd r.look (x :: l)).2 with
    | none => rfl
    | some e => cases e <;> rfl

theorem run_command {ascii : Str → Str} {exec : Job → Ran} {jobs : List Job} {id : Str} {j : Job} (hj : First jobs id j)
    {c : Str} (hc : j.command = some c) :
    run ascii exec jobs id =
      match finish ascii (exec j) with
      | (out, none) => ⟨out, [j], none⟩
      | (out, some code) => ⟨out ++ ["job ".toList ++ j.id ++ " returned ".toList ++ number code,
          "command: ".toList ++ c], [j], some code⟩ := by
  unfold run
  rw [getJob_first hj]
  dsimp only
  rw [hc]
  rfl

theorem forall_map {α β γ : Type} {R : β → γ → Prop} {f : α → β} : ∀ {l : List α} {m : List γ},
    List.Forall₂ R (l.map f) m → List.Forall₂ (fun a c => R (f a) c) l m := by
  intro l
  induction l with
  | nil => intro m h; cases h; exact .nil
  | cons a l ih =>
    intro m h
    cases h with
    | cons h1 h2 => exact .cons h1 (ih h2)

/-! ## C140 -/

/-- **C140**: if no job has the id, nothing is run and the exit code is 126. -/
theorem C140_no_job (ascii : Str → Str) (exec : Job → Ran) (jobs : List Job) (id : Str)
    (h : ∀ j ∈ jobs, j.id ≠ id) :
    (run ascii exec jobs id).code = some 126 ∧ (run ascii exec jobs id).ran = [] ∧
    "There is no job called ".toList ++ ascii id ∈ (run ascii exec jobs id).lines := by
  unfold run
  rw [(getJob_none jobs id).2 h]
  exact ⟨rfl, rfl, List.mem_cons_self⟩

/-- **C140**: if the first job that has the id has no command, nothing is run and the exit code is 125. -/
theorem C140_no_command (ascii : Str → Str) (exec : Job → Ran) {jobs : List Job} {id : Str} {j : Job}
    (hj : First jobs id j) (hc : j.command = none) :
    (run ascii exec jobs id).code = some 125 ∧ (run ascii exec jobs id).ran = [] := by
  unfold run
  rw [getJob_first hj]
  dsimp only
  rw [hc]
  exact ⟨rfl, rfl⟩

/-- **C140**: otherwise the command of that job is run, once, and of no other. The exit code is the return code of the command
(-1 if there was none) if all files that it left behind are texts; if one is not, and there is none that must not be read, an
exception comes out in place of the exit code. -/
theorem C140_code_partial (ascii : Str → Str) (exec : Job → Ran) {jobs : List Job} {id : Str} {j : Job}
    (hj : First jobs id j) {c : Str} (hc : j.command = some c) :
    (run ascii exec jobs id).ran = [j] ∧
    ((∀ x ∈ leftovers (exec j).cwd (exec j).tree, ¬ Binary ((exec j).look x)) →
      (run ascii exec jobs id).code =
        match (exec j).code with
        | none => some (-1)
        | some n => some n) ∧
    ((∀ x ∈ leftovers (exec j).cwd (exec j).tree, (exec j).look x ≠ .forbidden) →
      (∃ x ∈ leftovers (exec j).cwd (exec j).tree, Binary ((exec j).look x)) → (run ascii exec jobs id).code = none) := by
  rw [run_command hj hc, finish_eq]
  refine ⟨?_, fun h => ?_, fun h hb => ?_⟩
  · split <;> rfl
  · rw [if_neg (on_none _ _ _ _ h)]
    cases (exec j).code <;> rfl
  · rw [if_pos (on_binary _ _ _ _ h hb)]

/-- **C140**: if everything that was left behind can be shown, the output is one block for each thing that lies in the
temporary directory (other than links to directories, if all directories can be read), each once, then the return code and the
command. -/
theorem C140_lines_partial (ascii : Str → Str) (exec : Job → Ran) {jobs : List Job} {id : Str} {j : Job}
    (hj : First jobs id j) {c : Str} (hc : j.command = some c) (hg : Good (exec j).cwd) (hp : Proper (exec j).tree)
    (hs : ∀ p k, At (exec j).tree p k →
      ¬ Binary ((exec j).look ((exec j).cwd ++ '/' :: spell p)) ∧
      (exec j).look ((exec j).cwd ++ '/' :: spell p) ≠ .forbidden) :
    ∃ (ps : List (List Str)) (blocks : List (List Str)) (code : Int),
      (∀ p ∈ ps, ∃ k, At (exec j).tree p k) ∧
      (Open (exec j).tree → ∀ p k, At (exec j).tree p k → k ≠ .link → p ∈ ps) ∧
      (Distinct (exec j).tree → ps.Nodup) ∧
      List.Forall₂ (fun p b => Shows ascii (spell p) ((exec j).look ((exec j).cwd ++ '/' :: spell p)) b) ps blocks ∧
      (run ascii exec jobs id).code = some code ∧
      (run ascii exec jobs id).lines = blocks.flatten ++
        ["job ".toList ++ id ++ " returned ".toList ++ (toString code).toList, "command: ".toList ++ c] := by
  have hid : j.id = id := by obtain ⟨_, _, _, h, _⟩ := hj; exact h
  have hsp := Leftover.leftovers_spelled hg hp
  have hfine : ∀ x ∈ leftovers (exec j).cwd (exec j).tree,
      ¬ Binary ((exec j).look x) ∧ (exec j).look x ≠ .forbidden := by
    intro x hx
    obtain ⟨p, k, h1, rfl⟩ := Leftover.C98_sound hg hp x hx
    exact hs p k h1
  obtain ⟨blocks, h1, h2⟩ := on_fine ascii (exec j).cwd (exec j).look _ hfine
  refine ⟨((filenames (exec j).tree).map fun m => [m]) ++ below (exec j).tree, blocks, (exec j).code.getD (-1),
    ?_, ?_, ?_, ?_, ?_, ?_⟩
  · intro p hpm
    obtain ⟨k, hk⟩ := (Leftover.mem_below _ p).1 hpm
    exact ⟨k, (Leftover.seen_at hk).1⟩
  · intro ho p k h hk
    exact (Leftover.mem_below _ p).2 ⟨k, Leftover.at_seen h ho hk⟩
  · exact Leftover.nodup_below
  · rw [hsp] at h2
    have h3 := forall_map h2
    simp only [Leftover.relpath_of] at h3
    exact h3
  · rw [run_command hj hc, finish_eq, h1]
    rfl
  · rw [run_command hj hc, finish_eq, h1, ← hid]
    rfl

/-- **C140**: the numbered lines are those of the file as they are, if it has no carriage return. -/
theorem C140_newlines {t : Str} (h : '\r' ∉ t) {ls : List Str} : Lines (IniText.universal t) ls ↔ Lines t ls := by
  rw [IniText.universal_plain h]

/-! ## What does not hold -/

def exJobs : List Job := [⟨"a".toList, none⟩, ⟨"b".toList, some "true".toList⟩, ⟨"b".toList, some "false".toList⟩]

/-- A command that returns 0 and leaves two files. -/
def leaves (core log : Look) : Job → Ran := fun _ =>
  { code := some 0, cwd := Leftover.exCwd,
    tree := .file "core".toList (.file "log".toList .nil),
    look := fun x => if x = Leftover.exCwd ++ "/core".toList then core else log }

/-- **C140** does not hold for files that are not texts, such as a core dump: neither the return code nor the exit code is seen. -/
theorem C140_binary_violated :
    (run id (leaves (.file [255]) .other) exJobs "b".toList).code = none ∧
    (run id (leaves (.file [255]) .other) exJobs "b".toList).lines = ["Leftover file detected: core:".toList] := by
  decide +kernel

/-- **C140** does not hold for files that must not be read: what comes after them is not shown. -/
theorem C140_forbidden_violated :
    (run id (leaves .forbidden .other) exJobs "b".toList).lines =
      ["Leftover file detected: core:".toList, "job b returned 0".toList, "command: true".toList] := by decide +kernel

/-- **C140** does not hold for exit codes that the command itself returns: a job that does not exist and a command that was
run are not told apart by them. -/
theorem C140_same_code_violated : ∃ exec : Job → Ran,
    (run id exec exJobs "b".toList).code = (run id exec exJobs "c".toList).code ∧
    (run id exec exJobs "b".toList).ran ≠ (run id exec exJobs "c".toList).ran :=
  ⟨fun _ => { code := some 126, cwd := Leftover.exCwd, tree := .nil, look := fun _ => .other }, by decide +kernel⟩

/-! ## Examples -/

example : First exJobs "b".toList ⟨"b".toList, some "true".toList⟩ :=
  ⟨[⟨"a".toList, none⟩], [⟨"b".toList, some "false".toList⟩], rfl, rfl, by decide⟩

example : First exJobs "a".toList ⟨"a".toList, none⟩ := ⟨[], _, rfl, rfl, by simp⟩

example : ∀ j ∈ exJobs, j.id ≠ "c".toList := by decide

/-- The hypotheses of `C140_lines_partial` and of the first part of `C140_code_partial`. -/
example : let r := leaves (.file (encode "one\ntwo".toList)) .other ⟨"b".toList, some "true".toList⟩
    Good r.cwd ∧ Proper r.tree ∧ Open r.tree ∧ Distinct r.tree ∧
    ∀ x, ¬ Binary (r.look x) ∧ r.look x ≠ .forbidden := by
  have hp : ∀ p k, At (.file "core".toList (.file "log".toList .nil)) p k →
      (p = ["core".toList] ∨ p = ["log".toList]) ∧ k = .file := by
    intro p k h
    cases h with
    | file => exact ⟨.inl rfl, rfl⟩
    | restF _ _ h =>
      cases h with
      | file => exact ⟨.inr rfl, rfl⟩
      | restF _ _ h => cases h
  refine ⟨by unfold Good; decide +kernel, ?_, ?_, ?_, ?_⟩
  · intro p k h n hn
    rcases (hp p k h).1 with rfl | rfl <;> · simp only [List.mem_singleton] at hn; subst hn; decide
  · intro p b h
    cases (hp p _ h).2
  · simp only [leaves, Distinct, Leftover.names]; decide
  · intro x
    simp only [leaves]
    split
    · exact ⟨fun ⟨_, e, h⟩ => by cases e; exact h _ rfl, nofun⟩
    · exact ⟨fun ⟨_, e, _⟩ => (by cases e), nofun⟩

example : (run id (leaves (.file (encode "one\ntwo".toList)) .other) exJobs "b".toList).lines =
    ["Leftover file detected: core:", "  core:1: one", "  core:2: two", "Leftover thing detected: log",
      "job b returned 0", "command: true"].map String.toList := by decide +kernel

example : Lines "one\ntwo".toList ["one".toList, "two".toList] :=
  ⟨by decide, .inr ⟨["one".toList], "two".toList, rfl, by decide, by decide⟩⟩

end Verif.ScriptCmd
