import Verif.Model.Rx

/-!
# Languages of patterns
-/

namespace Verif.Rx

/-- The texts that a pattern without `$` matches completely. -/
inductive Lang : Rx → Str → Prop
  | eps : Lang .eps []
  | cls {p c} : p c = true → Lang (.cls p) [c]
  | seq {a b x y} : Lang a x → Lang b y → Lang (.seq a b) (x ++ y)
  | altl {a b x} : Lang a x → Lang (.alt a b) x
  | altr {a b x} : Lang b x → Lang (.alt a b) x
  | starNil {a} : Lang (.star a) []
  | starCons {a x y} : Lang a x → Lang (.star a) y → Lang (.star a) (x ++ y)

/-- The pattern has no `$`. -/
def NoEol : Rx → Prop
  | .eol => False
  | .seq a b => NoEol a ∧ NoEol b
  | .alt a b => NoEol a ∧ NoEol b
  | .star a => NoEol a
  | _ => True

theorem lang_eps {x : Str} : Lang .eps x ↔ x = [] :=
  ⟨fun h => by cases h; rfl, fun h => h ▸ .eps⟩

theorem lang_cls {p : Char → Bool} {x : Str} : Lang (.cls p) x ↔ ∃ c, p c = true ∧ x = [c] :=
  ⟨fun h => by cases h with | cls h => exact ⟨_, h, rfl⟩, fun ⟨_, h, e⟩ => e ▸ .cls h⟩

theorem lang_chr {c : Char} {x : Str} : Lang (chr c) x ↔ x = [c] := by
  rw [chr, lang_cls]
  constructor
  · rintro ⟨d, h, rfl⟩; rw [of_decide_eq_true h]
  · rintro rfl; exact ⟨c, decide_eq_true rfl, rfl⟩

theorem lang_seq {a b : Rx} {x : Str} : Lang (.seq a b) x ↔ ∃ y z, x = y ++ z ∧ Lang a y ∧ Lang b z :=
  ⟨fun h => by cases h with | seq h1 h2 => exact ⟨_, _, rfl, h1, h2⟩, fun ⟨_, _, e, h1, h2⟩ => e ▸ .seq h1 h2⟩

theorem lang_alt {a b : Rx} {x : Str} : Lang (.alt a b) x ↔ Lang a x ∨ Lang b x :=
  ⟨fun h => by cases h with | altl h => exact .inl h | altr h => exact .inr h,
   fun h => h.elim .altl .altr⟩

theorem lang_opt {a : Rx} {x : Str} : Lang (opt a) x ↔ Lang a x ∨ x = [] := by
  rw [opt, lang_alt, lang_eps]

/-- Repetition: a concatenation of matches. -/
theorem lang_star {a : Rx} {x : Str} : Lang (.star a) x ↔ ∃ l : List Str, x = l.flatten ∧ ∀ y ∈ l, Lang a y := by
  constructor
  · intro h
    generalize hr : Rx.star a = r at h
    induction h with
    | starNil => exact ⟨[], rfl, by simp⟩
    | @starCons b y z h1 _ _ ih =>
      cases hr
      obtain ⟨l, rfl, hl⟩ := ih rfl
      exact ⟨y :: l, rfl, fun w hw => (List.mem_cons.mp hw).elim (fun e => e ▸ h1) (hl w)⟩
    | eps => cases hr
    | cls _ => cases hr
    | seq _ _ => cases hr
    | altl _ => cases hr
    | altr _ => cases hr
  · rintro ⟨l, rfl, hl⟩
    induction l with
    | nil => exact .starNil
    | cons y l ih =>
      exact .starCons (hl y List.mem_cons_self) (ih fun z hz => hl z (List.mem_cons_of_mem _ hz))

/-- Repetition of a class of characters. -/
theorem lang_star_cls {p : Char → Bool} {x : Str} : Lang (.star (.cls p)) x ↔ ∀ c ∈ x, p c = true := by
  constructor
  · intro h
    obtain ⟨l, rfl, hl⟩ := lang_star.mp h
    intro c hc
    obtain ⟨y, hy, hcy⟩ := List.mem_flatten.mp hc
    obtain ⟨d, hd, rfl⟩ := lang_cls.mp (hl y hy)
    rw [List.mem_singleton.mp hcy]
    exact hd
  · intro h
    induction x with
    | nil => exact .starNil
    | cons c x ih =>
      exact .starCons (x := [c]) (.cls (h c List.mem_cons_self)) (ih fun d hd => h d (List.mem_cons_of_mem _ hd))

theorem lang_plus_cls {p : Char → Bool} {x : Str} :
    Lang (plus (.cls p)) x ↔ x ≠ [] ∧ ∀ c ∈ x, p c = true := by
  rw [plus, lang_seq]
  constructor
  · rintro ⟨y, z, rfl, h1, h2⟩
    obtain ⟨c, hc, rfl⟩ := lang_cls.mp h1
    refine ⟨by simp, fun d hd => ?_⟩
    rcases List.mem_cons.mp hd with rfl | hd
    · exact hc
    · exact lang_star_cls.mp h2 d hd
  · rintro ⟨hne, h⟩
    cases x with
    | nil => exact absurd rfl hne
    | cons c x =>
      exact ⟨[c], x, rfl, .cls (h c List.mem_cons_self),
        lang_star_cls.mpr fun d hd => h d (List.mem_cons_of_mem _ hd)⟩

/-- Repetition with enough fuel. -/
theorem mem_starRests {a : Rx} (ih : ∀ s t, t ∈ rests a s ↔ ∃ x, s = x ++ t ∧ Lang a x) :
    ∀ (n : Nat) (s t : Str), s.length ≤ n →
      (t ∈ starRests (rests a) n s ↔ ∃ x, s = x ++ t ∧ Lang (.star a) x) := by
  intro n
  induction n with
  | zero =>
    intro s t hn
    have : s = [] := List.length_eq_zero_iff.mp (Nat.le_zero.mp hn)
    subst this
    constructor
    · intro h
      rw [starRests, List.mem_singleton] at h
      subst h
      exact ⟨[], rfl, .starNil⟩
    · rintro ⟨x, e, _⟩
      have := (List.append_eq_nil_iff.mp e.symm).2
      subst this
      exact List.mem_singleton.mpr rfl
  | succ n ihn =>
    intro s t hn
    rw [starRests, List.mem_cons, List.mem_flatMap]
    constructor
    · rintro (rfl | ⟨u, hu, ht⟩)
      · exact ⟨[], rfl, .starNil⟩
      · by_cases hl : u.length < s.length
        · rw [if_pos hl] at ht
          obtain ⟨x, rfl, hx⟩ := (ih s u).mp hu
          obtain ⟨y, rfl, hy⟩ := (ihn u t (by omega)).mp ht
          exact ⟨x ++ y, by simp, .starCons hx hy⟩
        · rw [if_neg hl] at ht
          cases ht
    · rintro ⟨x, rfl, hx⟩
      obtain ⟨l, rfl, hl⟩ := lang_star.mp hx
      clear hx
      induction l with
      | nil => exact .inl rfl
      | cons y l ihl =>
        cases y with
        | nil => exact ihl (fun z hz => hl z (List.mem_cons_of_mem _ hz)) (by simpa using hn)
        | cons c y =>
          right
          refine ⟨l.flatten ++ t, (ih _ _).mpr ⟨c :: y, by simp, hl _ List.mem_cons_self⟩, ?_⟩
          have hlt : (l.flatten ++ t).length < (((c :: y) :: l).flatten ++ t).length := by
            simp only [List.flatten_cons, List.length_append, List.length_cons]
            omega
          rw [if_pos hlt]
          exact (ihn _ t (by omega)).mpr ⟨l.flatten, rfl,
            lang_star.mpr ⟨l, rfl, fun z hz => hl z (List.mem_cons_of_mem _ hz)⟩⟩

/-- Without `$`, matching leaves the text after a member of the language. -/
theorem mem_rests {r : Rx} (hr : NoEol r) : ∀ (s t : Str), t ∈ rests r s ↔ ∃ x, s = x ++ t ∧ Lang r x := by
  induction r with
  | eps =>
    intro s t
    rw [rests, List.mem_singleton]
    constructor
    · rintro rfl; exact ⟨[], rfl, .eps⟩
    · rintro ⟨x, rfl, h⟩; rw [lang_eps.mp h]; rfl
  | cls p =>
    intro s t
    cases s with
    | nil =>
      constructor
      · intro h; cases h
      · rintro ⟨x, e, h⟩
        obtain ⟨c, _, rfl⟩ := lang_cls.mp h
        cases e
    | cons c s =>
      show t ∈ (if p c then [s] else []) ↔ _
      constructor
      · intro h
        by_cases hp : p c = true
        · rw [if_pos hp, List.mem_singleton] at h
          subst h
          exact ⟨[c], rfl, .cls hp⟩
        · rw [if_neg hp] at h
          cases h
      · rintro ⟨x, e, h⟩
        obtain ⟨d, hd, rfl⟩ := lang_cls.mp h
        cases e
        rw [if_pos hd]
        exact List.mem_singleton.mpr rfl
  | seq a b iha ihb =>
    intro s t
    rw [rests, List.mem_flatMap]
    constructor
    · rintro ⟨u, hu, ht⟩
      obtain ⟨x, rfl, hx⟩ := (iha hr.1 s u).mp hu
      obtain ⟨y, rfl, hy⟩ := (ihb hr.2 u t).mp ht
      exact ⟨x ++ y, by simp, .seq hx hy⟩
    · rintro ⟨x, rfl, hx⟩
      obtain ⟨y, z, rfl, hy, hz⟩ := lang_seq.mp hx
      exact ⟨z ++ t, (iha hr.1 _ _).mpr ⟨y, by simp, hy⟩, (ihb hr.2 _ _).mpr ⟨z, rfl, hz⟩⟩
  | alt a b iha ihb =>
    intro s t
    rw [rests, List.mem_append, iha hr.1, ihb hr.2]
    constructor
    · rintro (⟨x, e, h⟩ | ⟨x, e, h⟩)
      · exact ⟨x, e, .altl h⟩
      · exact ⟨x, e, .altr h⟩
    · rintro ⟨x, e, h⟩
      exact (lang_alt.mp h).imp (fun h => ⟨x, e, h⟩) (fun h => ⟨x, e, h⟩)
  | star a iha =>
    intro s t
    exact mem_starRests (iha hr) s.length s t (Nat.le_refl _)
  | eol => exact hr.elim

/-- A pattern without `$` accepts the texts that begin with a member of the language. -/
theorem accepts_iff {r : Rx} (hr : NoEol r) (s : Str) : accepts r s = true ↔ ∃ x, x <+: s ∧ Lang r x := by
  unfold accepts
  rw [Bool.not_eq_true', List.isEmpty_eq_false_iff]
  constructor
  · intro h
    obtain ⟨t, ht⟩ := List.exists_mem_of_ne_nil _ h
    obtain ⟨x, rfl, hx⟩ := (mem_rests hr s t).mp ht
    exact ⟨x, List.prefix_append _ _, hx⟩
  · rintro ⟨x, ⟨t, rfl⟩, hx⟩
    exact List.ne_nil_of_mem ((mem_rests hr _ t).mpr ⟨x, rfl, hx⟩)

theorem accepts_alt (a b : Rx) (s : Str) : accepts (.alt a b) s = (accepts a s || accepts b s) := by
  simp only [accepts, rests]
  cases rests a s <;> cases rests b s <;> rfl

/-- Up to a newline at the end. -/
def Line (P : Str → Prop) (s : Str) : Prop := P s ∨ ∃ t, s = t ++ ['\n'] ∧ P t

/-- With `$` at the end a pattern accepts the members of the language, a newline may follow. -/
theorem accepts_eol {r : Rx} (hr : NoEol r) (s : Str) :
    accepts (.seq r .eol) s = true ↔ Line (Lang r) s := by
  unfold accepts
  rw [Bool.not_eq_true', List.isEmpty_eq_false_iff]
  constructor
  · intro h
    obtain ⟨t, ht⟩ := List.exists_mem_of_ne_nil _ h
    rw [rests, List.mem_flatMap] at ht
    obtain ⟨u, hu, ht⟩ := ht
    obtain ⟨x, rfl, hx⟩ := (mem_rests hr s u).mp hu
    by_cases hc : u = [] ∨ u = ['\n']
    · rcases hc with rfl | rfl
      · exact .inl (by simpa using hx)
      · exact .inr ⟨x, rfl, hx⟩
    · rw [rests] at ht
      dsimp only at ht
      rw [if_neg hc] at ht
      cases ht
  · rintro (h | ⟨t, rfl, h⟩)
    · refine List.ne_nil_of_mem (a := []) ?_
      rw [rests, List.mem_flatMap]
      exact ⟨[], (mem_rests hr _ _).mpr ⟨s, by simp, h⟩, by simp [rests]⟩
    · refine List.ne_nil_of_mem (a := ['\n']) ?_
      rw [rests, List.mem_flatMap]
      exact ⟨['\n'], (mem_rests hr _ _).mpr ⟨t, rfl, h⟩, by simp [rests]⟩

end Verif.Rx
