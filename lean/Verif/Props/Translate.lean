import Verif.Model.Translate

/-!
# C116: a translator gives the translations of the domain and the directory in force

What a program expects of `textdomain`, `bindtextdomain` and the functions that translate is written down below without any of the
translator's tables and caches: there are a domain and a directory for every domain, changed by the two functions; a message is looked up in
the catalogue of its domain in the directory bound now; with a context the key is the context, the character 4 and the message, and a
message without a translation is given back without the context.

The translator keeps to this as long as a domain is chosen before the first message without a domain is translated, a directory is bound
before its domain is used, and a setting of the past is not made again after another (`C116_partial`). It does not otherwise
(`C116_domain_violated`, `C116_stale_violated`, `C116_directory_violated`): the two functions have caches like the others. What holds of every
sequence of calls is that the same call always has the same answer (`C116_same`).
-/

namespace Verif.Translate

/-! ## Specification -/

/-- A domain and the directory of every domain. -/
structure Setup where
  domain : Str
  dir : Str → Option Str

/-- A new translator. -/
def Setup.start (d : Str) (dir : Option Str) : Setup := ⟨d, fun x => if x = d then dir else none⟩

/-- The settings after a call. -/
def Setup.after (S : Setup) : Call → Setup
  | .textdomain d => { S with domain := d }
  | .bindtextdomain d dir => { S with dir := fun x => if x = d then dir else S.dir x }
  | _ => S

/-- The settings after several calls. -/
def Setup.afterAll (S : Setup) (cs : List Call) : Setup := cs.foldl Setup.after S

/-- The translation of a key in a domain or else another text. -/
def Setup.one (S : Setup) (w : World) (d key other : Str) : Str :=
  match w d (S.dir d) with
  | none => other
  | some cat => (cat.one key).getD other

/-- The translation of a key for a number in a domain or else the first text for one and the second for others. -/
def Setup.many (S : Setup) (w : World) (d key : Str) (n : Int) (a b : Str) : Str :=
  match w d (S.dir d) with
  | none => if n = 1 then a else b
  | some cat => (cat.many key n).getD (if n = 1 then a else b)

/-- The key of a message with a context. -/
def inContext (c m : Str) : Str := c ++ ['\x04'] ++ m

/-- What a call has to give. -/
def Setup.answer (S : Setup) (w : World) : Call → Option Str
  | .gettext m => some (S.one w S.domain m m)
  | .ngettext a b n => some (S.many w S.domain a n a b)
  | .pgettext c m => some (S.one w S.domain (inContext c m) m)
  | .pngettext c a b n => some (S.many w S.domain (inContext c a) n a b)
  | .dgettext d m => some (S.one w d m m)
  | .dngettext d a b n => some (S.many w d a n a b)
  | .pdgettext c d m => some (S.one w d (inContext c m) m)
  | .pdngettext c d a b n => some (S.many w d (inContext c a) n a b)
  | .textdomain _ => none
  | .bindtextdomain _ _ => none

/-- What the calls of a sequence have to give. -/
def Setup.answers (S : Setup) (w : World) : List Call → List (Option Str)
  | [] => []
  | c :: cs => S.answer w c :: (S.after c).answers w cs

/-- The calls that translate without naming a domain. -/
def Unqualified : Call → Prop
  | .gettext _ => True
  | .ngettext _ _ _ => True
  | .pgettext _ _ => True
  | .pngettext _ _ _ _ => True
  | _ => False

/-- The domain a call looks at. -/
def Looks (S : Setup) (c : Call) (d : Str) : Prop :=
  match c with
  | .gettext _ => d = S.domain
  | .ngettext _ _ _ => d = S.domain
  | .pgettext _ _ => d = S.domain
  | .pngettext _ _ _ _ => d = S.domain
  | .dgettext x _ => d = x
  | .dngettext x _ _ _ => d = x
  | .pdgettext _ x _ => d = x
  | .pdngettext _ x _ _ _ => d = x
  | .textdomain _ => False
  | .bindtextdomain _ _ => False

/-- A domain was looked at by one of the calls. -/
def Used (S : Setup) (cs : List Call) (d : Str) : Prop := ∃ pre c post, cs = pre ++ c :: post ∧ Looks (S.afterAll pre) c d

/-- Settings are made in time: each changes nothing, or is new and precedes the calls that depend on it. -/
def InTime (S : Setup) (cs : List Call) : Prop :=
  ∀ pre c post, cs = pre ++ c :: post →
    (∀ d, c = .textdomain d → (S.afterAll pre).domain = d ∨ (c ∉ pre ∧ ∀ x ∈ pre, ¬ Unqualified x)) ∧
    (∀ d dir, c = .bindtextdomain d dir → (S.afterAll pre).dir d = dir ∨ (c ∉ pre ∧ ¬ Used S pre d))

/-- Translations do not have the character that separates contexts from messages. -/
def Honest (w : World) : Prop :=
  ∀ d dir cat, w d dir = some cat →
    (∀ m r, cat.one m = some r → '\x04' ∉ r) ∧ (∀ m n r, cat.many m n = some r → '\x04' ∉ r)

/-! ## Proofs -/

theorem glue (c m : Str) : contextualize c m = inContext c m := by
  simp [contextualize, inContext]

theorem glue_mem (c m : Str) : '\x04' ∈ inContext c m := by simp [inContext]

theorem glue_inj {c m m' : Str} (h : inContext c m = inContext c m') : m = m' := by
  unfold inContext at h
  exact List.append_cancel_left h

/-- The catalogue of a domain. -/
def theCatalog (w : World) (S : Setup) (d : Str) : Catalog := (w d (S.dir d)).getD Catalog.null

theorem one_eq (w : World) (S : Setup) (d m : Str) : (theCatalog w S d).gettext m = S.one w d m m := by
  unfold theCatalog Setup.one Catalog.gettext
  cases w d (S.dir d) <;> rfl

theorem many_eq (w : World) (S : Setup) (d a b : Str) (n : Int) :
    (theCatalog w S d).ngettext a b n = S.many w d a n a b := by
  unfold theCatalog Setup.many Catalog.ngettext
  cases w d (S.dir d) <;> rfl

theorem unless1_eq {w : World} (hw : Honest w) (S : Setup) (d c m : Str) :
    unless1 (contextualize c m) m (some (S.one w d (inContext c m) (inContext c m))) = some (S.one w d (inContext c m) m) := by
  rw [glue]
  unfold unless1 Setup.one
  cases hc : w d (S.dir d) with
  | none => simp
  | some cat =>
    cases hm : cat.one (inContext c m) with
    | none => simp [hm]
    | some r =>
      have hr := (hw d _ cat hc).1 _ r hm
      have hne : r ≠ inContext c m := fun e => hr (e ▸ glue_mem c m)
      simp [hm, hne]

theorem unless2_eq {w : World} (hw : Honest w) (S : Setup) (d c a b : Str) (n : Int) :
    unless2 (contextualize c a) (contextualize c b) a b
      (some (S.many w d (inContext c a) n (inContext c a) (inContext c b))) = some (S.many w d (inContext c a) n a b) := by
  rw [glue, glue]
  have plain : (if (some (if n = 1 then inContext c a else inContext c b)) = some (inContext c a) then some a
      else if (some (if n = 1 then inContext c a else inContext c b)) = some (inContext c b) then some b
      else some (if n = 1 then inContext c a else inContext c b)) = some (if n = 1 then a else b) := by
    by_cases h1 : n = 1
    · simp [h1]
    · by_cases h2 : inContext c b = inContext c a
      · have := glue_inj h2
        simp [h1, this]
      · simp [h1, h2]
  unfold unless2 Setup.many
  cases hc : w d (S.dir d) with
  | none => exact plain
  | some cat =>
    cases hm : cat.many (inContext c a) n with
    | none => simpa [hm] using plain
    | some r =>
      have hr := (hw d _ cat hc).2 _ n r hm
      have h1 : r ≠ inContext c a := fun e => hr (e ▸ glue_mem c a)
      have h2 : r ≠ inContext c b := fun e => hr (e ▸ glue_mem c b)
      simp [hm, h1, h2]

/-- The tables and caches agree with the settings, and tell only of domains that were used, of calls without a domain only if there were
some, and of settings that were made. -/
structure Agrees (w : World) (S : Setup) (U : Str → Prop) (Q : Prop) (K : Call → Prop) (s : State) : Prop where
  domain : s.domain = S.domain
  dirs : ∀ d, (s.dirs.lookup d).getD none = S.dir d
  tables : ∀ d c, s.translations.lookup d = some c → c = theCatalog w S d ∧ U d
  answers : ∀ c r, s.cache.lookup c = some r → r = S.answer w c ∧ (∀ d, Looks S c d → U d) ∧ (Unqualified c → Q)
  settings : ∀ c r, s.cache.lookup c = some r → (∃ d, c = .textdomain d) ∨ (∃ d dir, c = .bindtextdomain d dir) → K c

theorem Agrees.mono {w : World} {S : Setup} {U U' : Str → Prop} {Q Q' : Prop} {K K' : Call → Prop} {s : State}
    (h : Agrees w S U Q K s) (hU : ∀ d, U d → U' d) (hQ : Q → Q') (hK : ∀ c, K c → K' c) : Agrees w S U' Q' K' s :=
  ⟨h.domain, h.dirs, fun d c hc => ⟨(h.tables d c hc).1, hU _ (h.tables d c hc).2⟩,
    fun c r hr => ⟨(h.answers c r hr).1, fun d hd => hU _ ((h.answers c r hr).2.1 d hd), fun hu => hQ ((h.answers c r hr).2.2 hu)⟩,
    fun c r hr hc => hK _ (h.settings c r hr hc)⟩

theorem lookup_cons_some {α β : Type} [BEq α] [LawfulBEq α] {k x : α} {v r : β} {l : List (α × β)}
    (h : ((k, v) :: l).lookup x = some r) : (x = k ∧ r = v) ∨ (x ≠ k ∧ l.lookup x = some r) := by
  rw [List.lookup_cons] at h
  by_cases hx : x = k
  · subst hx
    rw [beq_self_eq_true] at h
    injection h with h
    exact Or.inl ⟨rfl, h.symm⟩
  · have : (x == k) = false := by simpa using hx
    rw [this] at h
    exact Or.inr ⟨hx, h⟩

theorem translation_agrees {w : World} {S : Setup} {U : Str → Prop} {Q : Prop} {K : Call → Prop} {s : State} {d : Str}
    (h : Agrees w S U Q K s) (hd : U d) :
    (getTranslation w d s).1 = theCatalog w S d ∧ Agrees w S U Q K (getTranslation w d s).2 := by
  unfold getTranslation
  cases hl : s.translations.lookup d with
  | some c => exact ⟨(h.tables d c hl).1, h⟩
  | none =>
    have e : (w d ((s.dirs.lookup d).getD none)).getD Catalog.null = theCatalog w S d := by rw [h.dirs]; rfl
    refine ⟨e, h.domain, h.dirs, ?_, h.answers, h.settings⟩
    intro x c hc
    rcases lookup_cons_some hc with ⟨rfl, rfl⟩ | ⟨-, hc⟩
    · exact ⟨e, hd⟩
    · exact h.tables x c hc

theorem cached_agrees {w : World} {S : Setup} {U : Str → Prop} {Q : Prop} {K : Call → Prop} {s : State} {c : Call}
    {f : State → Option Str × State} (h : Agrees w S U Q K s) (hU : ∀ d, Looks S c d → U d) (hQ : Unqualified c → Q)
    (hK : (∃ d, c = .textdomain d) ∨ (∃ d dir, c = .bindtextdomain d dir) → K c)
    (hf : (f s).1 = S.answer w c ∧ Agrees w S U Q K (f s).2) :
    (cached c f s).1 = S.answer w c ∧ Agrees w S U Q K (cached c f s).2 := by
  unfold cached
  cases hl : s.cache.lookup c with
  | some r => exact ⟨(h.answers c r hl).1, h⟩
  | none =>
    refine ⟨hf.1, hf.2.domain, hf.2.dirs, hf.2.tables, ?_, ?_⟩
    · intro x r hx
      rcases lookup_cons_some hx with ⟨rfl, rfl⟩ | ⟨-, hx⟩
      · exact ⟨hf.1, hU, hQ⟩
      · exact hf.2.answers x r hx
    · intro x r hx
      rcases lookup_cons_some hx with ⟨rfl, rfl⟩ | ⟨-, hx⟩
      · exact hK
      · exact hf.2.settings x r hx

theorem gettext_agrees {w : World} {S : Setup} {U : Str → Prop} {Q : Prop} {K : Call → Prop} {s : State} (m : Str)
    (h : Agrees w S U Q K s) (hU : U S.domain) (hQ : Q) :
    (gettext w m s).1 = some (S.one w S.domain m m) ∧ Agrees w S U Q K (gettext w m s).2 := by
  refine cached_agrees h (fun d e => (show d = S.domain from e) ▸ hU) (fun _ => hQ) (by simp) ?_
  dsimp only
  rw [h.domain]
  have := translation_agrees h hU
  exact ⟨by rw [this.1, one_eq]; rfl, this.2⟩

theorem ngettext_agrees {w : World} {S : Setup} {U : Str → Prop} {Q : Prop} {K : Call → Prop} {s : State} (a b : Str) (n : Int)
    (h : Agrees w S U Q K s) (hU : U S.domain) (hQ : Q) :
    (ngettext w a b n s).1 = some (S.many w S.domain a n a b) ∧ Agrees w S U Q K (ngettext w a b n s).2 := by
  refine cached_agrees h (fun d e => (show d = S.domain from e) ▸ hU) (fun _ => hQ) (by simp) ?_
  dsimp only
  rw [h.domain]
  have := translation_agrees h hU
  exact ⟨by rw [this.1, many_eq]; rfl, this.2⟩

/-- Calls that translate. -/
theorem translate_agrees {w : World} (hw : Honest w) {S : Setup} {U : Str → Prop} {Q : Prop} {K : Call → Prop} {s : State} {c : Call}
    (h : Agrees w S U Q K s) (hU : ∀ d, Looks S c d → U d) (hQ : Unqualified c → Q)
    (h1 : ∀ d, c ≠ .textdomain d) (h2 : ∀ d dir, c ≠ .bindtextdomain d dir) :
    (call w c s).1 = S.answer w c ∧ Agrees w S U Q K (call w c s).2 := by
  have hK : (∃ d, c = .textdomain d) ∨ (∃ d dir, c = .bindtextdomain d dir) → K c := by
    rintro (⟨d, e⟩ | ⟨d, dir, e⟩)
    · exact absurd e (h1 d)
    · exact absurd e (h2 d dir)
  cases c with
  | gettext m => exact gettext_agrees m h (hU _ rfl) (hQ trivial)
  | ngettext a b n => exact ngettext_agrees a b n h (hU _ rfl) (hQ trivial)
  | pgettext c m =>
    refine cached_agrees h hU hQ hK ?_
    have := gettext_agrees (contextualize c m) h (hU _ rfl) (hQ trivial)
    refine ⟨?_, this.2⟩
    dsimp only
    rw [this.1]
    have e := unless1_eq hw S S.domain c m
    rw [glue] at e ⊢
    exact e
  | pngettext c a b n =>
    refine cached_agrees h hU hQ hK ?_
    have := ngettext_agrees (contextualize c a) (contextualize c b) n h (hU _ rfl) (hQ trivial)
    refine ⟨?_, this.2⟩
    dsimp only
    rw [this.1]
    have e := unless2_eq hw S S.domain c a b n
    rw [glue, glue] at e ⊢
    exact e
  | dgettext d m =>
    refine cached_agrees h hU hQ hK ?_
    have := translation_agrees h (hU d rfl)
    exact ⟨by dsimp only; rw [this.1, one_eq]; rfl, this.2⟩
  | dngettext d a b n =>
    refine cached_agrees h hU hQ hK ?_
    have := translation_agrees h (hU d rfl)
    exact ⟨by dsimp only; rw [this.1, many_eq]; rfl, this.2⟩
  | pdgettext c d m =>
    refine cached_agrees h hU hQ hK ?_
    have := translation_agrees h (hU d rfl)
    refine ⟨?_, this.2⟩
    dsimp only
    rw [this.1, one_eq]
    have e := unless1_eq hw S d c m
    rw [glue] at e ⊢
    exact e
  | pdngettext c d a b n =>
    refine cached_agrees h hU hQ hK ?_
    have := translation_agrees h (hU d rfl)
    refine ⟨?_, this.2⟩
    dsimp only
    rw [this.1, many_eq]
    have e := unless2_eq hw S d c a b n
    rw [glue, glue] at e ⊢
    exact e
  | textdomain d => exact absurd rfl (h1 d)
  | bindtextdomain d dir => exact absurd rfl (h2 d dir)

/-- Answers depend on the domain and on the directories of the domains that are looked at. -/
theorem answer_congr (w : World) {S S' : Setup} {c : Call} (hd : Unqualified c → S'.domain = S.domain)
    (h : ∀ d, Looks S c d → S'.dir d = S.dir d) : S'.answer w c = S.answer w c ∧ ∀ d, Looks S' c d → Looks S c d := by
  cases c <;> simp_all [Setup.answer, Setup.one, Setup.many, Looks, Unqualified]

/-- New settings that no answer of the past depends on. -/
theorem change_agrees {w : World} {S S' : Setup} {U : Str → Prop} {Q : Prop} {K K' : Call → Prop} {s s' : State} {c : Call}
    (h : Agrees w S U Q K s) (hK : ∀ c, K c → K' c) (hc : K' c) (hnu : ¬ Unqualified c) (hno : ∀ d, ¬ Looks S' c d)
    (ha : S'.answer w c = none)
    (hQ : Q → S'.domain = S.domain) (hU : ∀ d, U d → S'.dir d = S.dir d) (ht : s'.translations = s.translations)
    (hdom : s'.domain = S'.domain) (hdir : ∀ d, (s'.dirs.lookup d).getD none = S'.dir d)
    (hcache : s'.cache = (c, none) :: s.cache) : Agrees w S' U Q K' s' := by
  refine ⟨hdom, hdir, ?_, ?_, ?_⟩
  · intro d cat hd
    rw [ht] at hd
    have := h.tables d cat hd
    refine ⟨?_, this.2⟩
    rw [this.1]
    unfold theCatalog
    rw [hU d this.2]
  · intro x r hx
    rw [hcache] at hx
    rcases lookup_cons_some hx with ⟨rfl, rfl⟩ | ⟨-, hx⟩
    · exact ⟨ha.symm, fun d hd => absurd hd (hno d), fun e => absurd e hnu⟩
    · have := h.answers x r hx
      have e := answer_congr w (S := S) (S' := S') (c := x) (fun u => hQ (this.2.2 u)) (fun d hd => hU d (this.2.1 d hd))
      exact ⟨this.1.trans e.1.symm, fun d hd => this.2.1 d (e.2 d hd), this.2.2⟩
  · intro x r hx hset
    rw [hcache] at hx
    rcases lookup_cons_some hx with ⟨rfl, rfl⟩ | ⟨-, hx⟩
    · exact hc
    · exact hK _ (h.settings x r hx hset)

theorem afterAll_snoc (S : Setup) (pre : List Call) (c : Call) : S.afterAll (pre ++ [c]) = (S.afterAll pre).after c := by
  simp [Setup.afterAll, List.foldl_append]

theorem used_mono {S : Setup} {pre : List Call} {c : Call} {d : Str} (h : Used S pre d) : Used S (pre ++ [c]) d := by
  obtain ⟨p, x, q, e, hl⟩ := h
  exact ⟨p, x, q ++ [c], by simp [e], hl⟩

theorem used_last {S : Setup} {pre : List Call} {c : Call} {d : Str} (h : Looks (S.afterAll pre) c d) : Used S (pre ++ [c]) d :=
  ⟨pre, c, [], rfl, h⟩

/-- The state after the calls `pre`. -/
def Holds (w : World) (S : Setup) (pre : List Call) (s : State) : Prop :=
  Agrees w (S.afterAll pre) (Used S pre) (∃ x ∈ pre, Unqualified x) (· ∈ pre) s

theorem step_holds {w : World} (hw : Honest w) {S : Setup} {pre : List Call} {c : Call} {s : State} (h : Holds w S pre s)
    (h1 : ∀ d, c = .textdomain d → (S.afterAll pre).domain = d ∨ (c ∉ pre ∧ ∀ x ∈ pre, ¬ Unqualified x))
    (h2 : ∀ d dir, c = .bindtextdomain d dir → (S.afterAll pre).dir d = dir ∨ (c ∉ pre ∧ ¬ Used S pre d)) :
    (call w c s).1 = (S.afterAll pre).answer w c ∧ Holds w S (pre ++ [c]) (call w c s).2 := by
  unfold Holds
  rw [afterAll_snoc]
  have hq : (∃ x ∈ pre, Unqualified x) → ∃ x ∈ pre ++ [c], Unqualified x := by
    rintro ⟨x, hx, u⟩
    exact ⟨x, by simp [hx], u⟩
  have hk : ∀ x, x ∈ pre → x ∈ pre ++ [c] := fun x hx => by simp [hx]
  have grown : Agrees w (S.afterAll pre) (Used S (pre ++ [c])) (∃ x ∈ pre ++ [c], Unqualified x) (· ∈ pre ++ [c]) s :=
    Agrees.mono h (fun _ => used_mono) hq hk
  by_cases ht : ∃ d, c = .textdomain d
  · obtain ⟨d, rfl⟩ := ht
    have h1 := h1 d rfl
    show (textdomain d s).1 = none ∧ Agrees w _ _ _ _ (textdomain d s).2
    unfold textdomain cached
    cases hl : s.cache.lookup (.textdomain d) with
    | some r =>
      have hmem := h.settings _ r hl (Or.inl ⟨d, rfl⟩)
      refine ⟨(h.answers _ r hl).1, ?_⟩
      have e : (S.afterAll pre).domain = d := h1.resolve_right fun x => x.1 hmem
      have : (S.afterAll pre).after (.textdomain d) = S.afterAll pre := by
        show { S.afterAll pre with domain := d } = S.afterAll pre
        rw [← e]
      rw [this]
      exact grown
    | none =>
      refine ⟨rfl, Agrees.mono (U := Used S pre) (Q := ∃ x ∈ pre, Unqualified x) (K := (· ∈ pre ++ [Call.textdomain d])) ?_
        (fun _ => used_mono) hq (fun _ hx => hx)⟩
      refine change_agrees h hk (by simp) (by simp [Unqualified]) (by simp [Looks]) rfl ?_ (fun _ _ => rfl) rfl rfl h.dirs rfl
      rintro ⟨x, hx, u⟩
      rcases h1 with e | e
      · exact e.symm
      · exact absurd u (e.2 x hx)
  · by_cases hb : ∃ d dir, c = .bindtextdomain d dir
    · obtain ⟨d, dir, rfl⟩ := hb
      have h2 := h2 d dir rfl
      show (bindtextdomain d dir s).1 = none ∧ Agrees w _ _ _ _ (bindtextdomain d dir s).2
      unfold bindtextdomain cached
      cases hl : s.cache.lookup (.bindtextdomain d dir) with
      | some r =>
        have hmem := h.settings _ r hl (Or.inr ⟨d, dir, rfl⟩)
        refine ⟨(h.answers _ r hl).1, ?_⟩
        have e : (S.afterAll pre).dir d = dir := h2.resolve_right fun x => x.1 hmem
        have : (S.afterAll pre).after (.bindtextdomain d dir) = S.afterAll pre := by
          show { S.afterAll pre with dir := fun x => if x = d then dir else (S.afterAll pre).dir x } = S.afterAll pre
          have : (fun x => if x = d then dir else (S.afterAll pre).dir x) = (S.afterAll pre).dir := by
            funext x
            by_cases hx : x = d
            · rw [if_pos hx, hx, e]
            · rw [if_neg hx]
          rw [this]
        rw [this]
        exact grown
      | none =>
        refine ⟨rfl, Agrees.mono (U := Used S pre) (Q := ∃ x ∈ pre, Unqualified x) (K := (· ∈ pre ++ [Call.bindtextdomain d dir])) ?_
          (fun _ => used_mono) hq (fun _ hx => hx)⟩
        refine change_agrees h hk (by simp) (by simp [Unqualified]) (by simp [Looks]) rfl (fun _ => rfl) ?_ rfl h.domain ?_ rfl
        · intro x hx
          show (if x = d then dir else (S.afterAll pre).dir x) = _
          by_cases hxd : x = d
          · rw [if_pos hxd]
            subst hxd
            rcases h2 with e | e
            · exact e.symm
            · exact absurd hx e.2
          · rw [if_neg hxd]
        · intro x
          show (List.lookup x ((d, dir) :: s.dirs)).getD none = if x = d then dir else (S.afterAll pre).dir x
          rw [List.lookup_cons]
          by_cases hxd : x = d
          · subst hxd
            simp
          · have : (x == d) = false := by simpa using hxd
            rw [this, if_neg hxd]
            exact h.dirs x
    · have hn1 : ∀ d, c ≠ .textdomain d := fun d e => ht ⟨d, e⟩
      have hn2 : ∀ d dir, c ≠ .bindtextdomain d dir := fun d dir e => hb ⟨d, dir, e⟩
      have : (S.afterAll pre).after c = S.afterAll pre := by
        cases c <;> first | rfl | exact absurd rfl (hn1 _) | exact absurd rfl (hn2 _ _)
      rw [this]
      exact translate_agrees hw grown (fun d => used_last) (fun u => ⟨c, by simp, u⟩) hn1 hn2

theorem run_holds {w : World} (hw : Honest w) {S : Setup} : ∀ (post pre : List Call) (s : State), Holds w S pre s →
    InTime S (pre ++ post) → run w post s = (S.afterAll pre).answers w post
  | [], _, _, _, _ => rfl
  | c :: post, pre, s, h, ht => by
    have := step_holds hw h (ht pre c post rfl).1 (ht pre c post rfl).2
    show (call w c s).1 :: run w post (call w c s).2 = (S.afterAll pre).answer w c :: ((S.afterAll pre).after c).answers w post
    rw [this.1, run_holds hw post (pre ++ [c]) _ this.2 (by simpa using ht), afterAll_snoc]

/-- **C116**: with settings made in time every call gives what the settings tell. (partial: see the violations) -/
theorem C116_partial (w : World) (hw : Honest w) (d : Str) (dir : Option Str) (cs : List Call) (h : InTime (Setup.start d dir) cs) :
    run w cs (State.init d dir) = (Setup.start d dir).answers w cs := by
  refine run_holds hw cs [] _ ?_ h
  refine ⟨rfl, ?_, ?_, ?_, ?_⟩
  · intro x
    show (List.lookup x [(d, dir)]).getD none = if x = d then dir else none
    rw [List.lookup_cons]
    by_cases hx : x = d
    · subst hx
      simp
    · have : (x == d) = false := by simpa using hx
      rw [this, if_neg hx]
      rfl
  · intro x c hx
    cases hx
  · intro x c hx
    cases hx
  · intro x c hx
    cases hx

/-! ### The same call, the same answer -/

theorem cached_keeps {c x : Call} {r : Option Str} {f : State → Option Str × State} {s : State} (h : s.cache.lookup x = some r)
    (hf : (f s).2.cache.lookup x = some r) : (cached c f s).2.cache.lookup x = some r := by
  unfold cached
  cases hl : s.cache.lookup c with
  | some v => exact h
  | none =>
    show List.lookup x ((c, (f s).1) :: (f s).2.cache) = some r
    rw [List.lookup_cons]
    by_cases hx : x = c
    · subst hx
      rw [hl] at h
      cases h
    · have : (x == c) = false := by simpa using hx
      rw [this]
      exact hf

theorem translation_cache (w : World) (d : Str) (s : State) : (getTranslation w d s).2.cache = s.cache := by
  unfold getTranslation
  cases s.translations.lookup d <;> rfl

theorem call_keeps (w : World) {c x : Call} {r : Option Str} {s : State} (h : s.cache.lookup x = some r) :
    (call w c s).2.cache.lookup x = some r := by
  cases c with
  | gettext m => exact cached_keeps h (by dsimp only; rw [translation_cache]; exact h)
  | ngettext a b n => exact cached_keeps h (by dsimp only; rw [translation_cache]; exact h)
  | pgettext c m =>
    refine cached_keeps h ?_
    exact cached_keeps h (by dsimp only; rw [translation_cache]; exact h)
  | pngettext c a b n =>
    refine cached_keeps h ?_
    exact cached_keeps h (by dsimp only; rw [translation_cache]; exact h)
  | dgettext d m => exact cached_keeps h (by dsimp only; rw [translation_cache]; exact h)
  | dngettext d a b n => exact cached_keeps h (by dsimp only; rw [translation_cache]; exact h)
  | pdgettext c d m => exact cached_keeps h (by dsimp only; rw [translation_cache]; exact h)
  | pdngettext c d a b n => exact cached_keeps h (by dsimp only; rw [translation_cache]; exact h)
  | textdomain d => exact cached_keeps h h
  | bindtextdomain d dir => exact cached_keeps h h

theorem cached_stores (c : Call) (f : State → Option Str × State) (s : State) :
    (cached c f s).2.cache.lookup c = some (cached c f s).1 := by
  unfold cached
  cases hl : s.cache.lookup c with
  | some v => exact hl
  | none => simp

theorem call_stores (w : World) (c : Call) (s : State) : (call w c s).2.cache.lookup c = some (call w c s).1 := by
  cases c <;> exact cached_stores _ _ _

theorem cached_hit {c : Call} {f : State → Option Str × State} {s : State} {r : Option Str} (h : s.cache.lookup c = some r) :
    (cached c f s).1 = r := by
  unfold cached
  rw [h]

theorem call_hit (w : World) {c : Call} {s : State} {r : Option Str} (h : s.cache.lookup c = some r) : (call w c s).1 = r := by
  cases c <;> exact cached_hit h

theorem run_hit (w : World) {c : Call} {r : Option Str} : ∀ (cs : List Call) (s : State) (i : Nat), s.cache.lookup c = some r →
    cs[i]? = some c → (run w cs s)[i]? = some r
  | [], _, _, _, h => by simp at h
  | x :: cs, s, 0, hs, h => by
    simp only [List.getElem?_cons_zero, Option.some.injEq] at h
    subst h
    simp [run, call_hit w hs]
  | x :: cs, s, i + 1, hs, h => by
    simp only [List.getElem?_cons_succ] at h
    simpa [run] using run_hit w cs (call w x s).2 i (call_keeps w hs) h

/-- **C116**: whatever is called in between, the same call has the same answer. -/
theorem C116_same (w : World) (s : State) (cs : List Call) (i j : Nat) (c : Call) (hi : cs[i]? = some c) (hj : cs[j]? = some c) :
    (run w cs s)[i]? = (run w cs s)[j]? := by
  induction cs generalizing s i j with
  | nil => simp at hi
  | cons x cs ih =>
    cases i with
    | zero =>
      simp only [List.getElem?_cons_zero, Option.some.injEq] at hi
      subst hi
      cases j with
      | zero => rfl
      | succ j =>
        simp only [List.getElem?_cons_succ] at hj
        simpa [run] using (run_hit w cs (call w x s).2 j (call_stores w x s) hj).symm
    | succ i =>
      cases j with
      | zero =>
        simp only [List.getElem?_cons_zero, Option.some.injEq] at hj
        subst hj
        simp only [List.getElem?_cons_succ] at hi
        simpa [run] using run_hit w cs (call w x s).2 i (call_stores w x s) hi
      | succ j =>
        simp only [List.getElem?_cons_succ] at hi hj
        simpa [run] using ih (call w x s).2 i j hi hj

/-! ### Examples and violations -/

/-- Catalogues that translate by writing down the domain and the directory, with and without a context. -/
def demo : World := fun d dir =>
  if d = "zz".toList ∨ '\x04' ∈ d ++ dir.getD [] then none
  else some ⟨fun m =>
      if m = "hi".toList then some (d ++ dir.getD []) else if m = inContext "menu".toList "hi".toList then some "HI".toList else none,
    fun m n => if m = "job".toList then some (d ++ (if n = 1 then ['1'] else ['*'])) else none⟩

theorem demo_honest : Honest demo := by
  intro d dir cat h
  unfold demo at h
  split at h
  · cases h
  · rename_i hne
    have hd : '\x04' ∉ d ++ dir.getD [] := fun e => hne (Or.inr e)
    injection h with h
    subst h
    constructor
    · intro m r hr
      dsimp only at hr
      split at hr
      · injection hr with hr
        subst hr
        exact hd
      · split at hr
        · injection hr with hr
          subst hr
          decide
        · cases hr
    · intro m n r hr
      dsimp only at hr
      split at hr
      · injection hr with hr
        subst hr
        have : '\x04' ∉ d := fun e => hd (List.mem_append_left _ e)
        split <;> simp [this]
      · cases hr

/-- The example's sequence: settings first, then messages with and without domains and contexts. -/
def demoCalls : List Call :=
  [.textdomain "app".toList, .bindtextdomain "app".toList (some "/a".toList), .gettext "hi".toList, .pgettext "menu".toList "hi".toList,
    .pgettext "file".toList "hi".toList, .bindtextdomain "d".toList (some "/d".toList), .dgettext "d".toList "hi".toList,
    .pngettext "c".toList "one".toList "some".toList 2, .ngettext "job".toList "jobs".toList 3, .dgettext "zz".toList "hi".toList]

/-- Nothing looks at a domain before the calls. -/
theorem not_used_nil (S : Setup) (d : Str) : ¬ Used S [] d := by
  rintro ⟨p, x, q, e, -⟩
  simp at e

theorem not_used_snoc {S : Setup} {pre : List Call} {c : Call} {d : Str} (h : ¬ Used S pre d) (hc : ¬ Looks (S.afterAll pre) c d) :
    ¬ Used S (pre ++ [c]) d := by
  rintro ⟨p, x, q, e, hl⟩
  rcases List.eq_nil_or_concat q with rfl | ⟨q', y, rfl⟩
  · have := List.append_inj' e rfl
    obtain ⟨rfl, e2⟩ := this
    injection e2 with e2
    subst e2
    exact hc hl
  · have e' : pre ++ [c] = (p ++ x :: q') ++ [y] := by simpa using e
    have := List.append_inj' e' rfl
    exact h ⟨p, x, q', this.1, hl⟩

theorem inTime_snoc {S : Setup} {cs : List Call} {c : Call} (h : InTime S cs)
    (h1 : ∀ d, c = .textdomain d → (S.afterAll cs).domain = d ∨ (c ∉ cs ∧ ∀ x ∈ cs, ¬ Unqualified x))
    (h2 : ∀ d dir, c = .bindtextdomain d dir → (S.afterAll cs).dir d = dir ∨ (c ∉ cs ∧ ¬ Used S cs d)) : InTime S (cs ++ [c]) := by
  intro pre x post e
  rcases List.eq_nil_or_concat post with rfl | ⟨q', y, rfl⟩
  · have := List.append_inj' e rfl
    obtain ⟨rfl, e2⟩ := this
    injection e2 with e2
    subst e2
    exact ⟨h1, h2⟩
  · have e' : cs ++ [c] = (pre ++ x :: q') ++ [y] := by simpa using e
    have := List.append_inj' e' rfl
    exact h pre x q' this.1

theorem inTime_nil (S : Setup) : InTime S [] := by
  intro pre x post e
  simp at e

theorem demo_inTime : InTime (Setup.start "p".toList none) demoCalls := by
  have h0 := inTime_nil (Setup.start "p".toList none)
  have h1 := inTime_snoc (c := .textdomain "app".toList) h0 (by simp) (by simp)
  have h2 := inTime_snoc (c := .bindtextdomain "app".toList (some "/a".toList)) h1 (by simp)
    (by rintro d dir e
        injection e with e1 e2
        subst e1
        exact Or.inr ⟨by simp, not_used_snoc (not_used_nil _ _) (by simp [Looks])⟩)
  have h3 := inTime_snoc (c := .gettext "hi".toList) h2 (by simp) (by simp)
  have h4 := inTime_snoc (c := .pgettext "menu".toList "hi".toList) h3 (by simp) (by simp)
  have h5 := inTime_snoc (c := .pgettext "file".toList "hi".toList) h4 (by simp) (by simp)
  have h6 := inTime_snoc (c := .bindtextdomain "d".toList (some "/d".toList)) h5 (by simp)
    (by rintro d dir e
        injection e with e1 e2
        subst e1
        refine Or.inr ⟨by decide +kernel, ?_⟩
        exact not_used_snoc (not_used_snoc (not_used_snoc (not_used_snoc (not_used_snoc (not_used_nil _ _) (by simp [Looks]))
          (by simp [Looks])) (by unfold Looks; decide +kernel)) (by unfold Looks; decide +kernel)) (by unfold Looks; decide +kernel))
  have h7 := inTime_snoc (c := .dgettext "d".toList "hi".toList) h6 (by simp) (by simp)
  have h8 := inTime_snoc (c := .pngettext "c".toList "one".toList "some".toList 2) h7 (by simp) (by simp)
  have h9 := inTime_snoc (c := .ngettext "job".toList "jobs".toList 3) h8 (by simp) (by simp)
  exact inTime_snoc (c := .dgettext "zz".toList "hi".toList) h9 (by simp) (by simp)

example : run demo demoCalls (State.init "p".toList none) =
    [none, none, some "app/a".toList, some "HI".toList, some "hi".toList, none, some "d/d".toList, some "some".toList,
      some "app*".toList, some "hi".toList] := by
  rw [C116_partial demo demo_honest _ _ _ demo_inTime]
  decide +kernel

/-- **C116 violated**: a domain that was chosen before is not chosen again. -/
theorem C116_domain_violated :
    run demo [.textdomain "a".toList, .textdomain "b".toList, .textdomain "a".toList, .gettext "hi".toList] (State.init "p".toList none) =
      [none, none, none, some "b".toList] ∧
    (Setup.start "p".toList none).answers demo
      [.textdomain "a".toList, .textdomain "b".toList, .textdomain "a".toList, .gettext "hi".toList] =
      [none, none, none, some "a".toList] := by
  decide +kernel

/-- **C116 violated**: a message keeps its translation in another domain. -/
theorem C116_stale_violated :
    run demo [.gettext "hi".toList, .textdomain "b".toList, .gettext "hi".toList] (State.init "p".toList none) =
      [some "p".toList, none, some "p".toList] ∧
    (Setup.start "p".toList none).answers demo [.gettext "hi".toList, .textdomain "b".toList, .gettext "hi".toList] =
      [some "p".toList, none, some "b".toList] := by
  decide +kernel

/-- **C116 violated**: a directory bound after the first use of its domain is not used, even for other messages. -/
theorem C116_directory_violated :
    run demo [.dgettext "d".toList "yo".toList, .bindtextdomain "d".toList (some "/x".toList), .dgettext "d".toList "hi".toList]
      (State.init "p".toList none) = [some "yo".toList, none, some "d".toList] ∧
    (Setup.start "p".toList none).answers demo
      [.dgettext "d".toList "yo".toList, .bindtextdomain "d".toList (some "/x".toList), .dgettext "d".toList "hi".toList] =
      [some "yo".toList, none, some "d/x".toList] := by
  decide +kernel

example : ([.gettext "hi".toList, .textdomain "b".toList, .gettext "hi".toList] : List Call)[0]? =
    [Call.gettext "hi".toList, .textdomain "b".toList, .gettext "hi".toList][2]? := rfl

end Verif.Translate
