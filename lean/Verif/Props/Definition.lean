import Verif.Model.Definition
import Verif.Lemmas.Rx
import Verif.Props.Config

/-!
# C67: accepted provider definitions

* `C67_iqn`, `C67_name`, `C67_version`, `C67_domain`: what the patterns accept.
* `C67_accepted`: which definitions are accepted.
* `C67_fields`: the attributes of an accepted provider.
* `C67_secure_partial`: which providers are secure.
* the disagreements.
-/

namespace Verif.Definition

open Verif.Config
open Verif.Rx (Rx chr opt plus words cat accepts Lang NoEol Line lang_seq lang_alt lang_opt lang_chr lang_cls
  lang_eps lang_star lang_star_cls lang_plus_cls accepts_iff accepts_eol accepts_alt)

/-! ## Specification of names -/

def Digit (c : Char) : Prop := '0' ≤ c ∧ c ≤ '9'
def Lower (c : Char) : Prop := 'a' ≤ c ∧ c ≤ 'z'
def NameChar (c : Char) : Prop := Lower c ∨ Digit c ∨ c = '-'

/-- A small letter, then small letters, digits and dashes. -/
def Label (s : Str) : Prop := ∃ c r, s = c :: r ∧ Lower c ∧ ∀ d ∈ r, NameChar d

/-- Four digits and a dot, or nothing. -/
def Year (s : Str) : Prop :=
  s = [] ∨ ∃ a b c d, s = [a, b, c, d, '.'] ∧ Digit a ∧ Digit b ∧ Digit c ∧ Digit d

/-- A full provider identifier: an optional year, at least two labels with dots between them, a colon, a
label. -/
def IsIQN (s : Str) : Prop := ∃ year first others ident, Year year ∧ Label first ∧ others ≠ [] ∧
  (∀ l ∈ others, Label l) ∧ Label ident ∧
  s = year ++ (first ++ ((others.map ('.' :: ·)).flatten ++ ':' :: ident))

/-- A simple name. -/
def Simple (s : Str) : Prop := s ≠ [] ∧ ∀ c ∈ s, NameChar c

theorem isDigit_iff {c : Char} : isDigit c = true ↔ Digit c := by simp [isDigit, Digit]
theorem isLower_iff {c : Char} : isLower c = true ↔ Lower c := by simp [isLower, Lower]
theorem isName_iff {c : Char} : isName c = true ↔ NameChar c := by
  simp [isName, NameChar, isDigit_iff, isLower_iff, or_assoc]

theorem lang_label {x : Str} : Lang labelRx x ↔ Label x := by
  rw [labelRx, lang_seq]
  constructor
  · rintro ⟨y, z, rfl, h1, h2⟩
    obtain ⟨c, hc, rfl⟩ := lang_cls.mp h1
    exact ⟨c, z, rfl, isLower_iff.mp hc, fun d hd => isName_iff.mp (lang_star_cls.mp h2 d hd)⟩
  · rintro ⟨c, r, rfl, hc, hr⟩
    exact ⟨[c], r, rfl, .cls (isLower_iff.mpr hc), lang_star_cls.mpr fun d hd => isName_iff.mpr (hr d hd)⟩

theorem lang_year {x : Str} : Lang yearRx x ↔ Year x := by
  rw [yearRx, lang_opt, Year, or_comm]
  apply or_congr_right
  simp only [cat, lang_seq, lang_cls, lang_chr]
  constructor
  · rintro ⟨_, _, rfl, ⟨a, ha, rfl⟩, _, _, rfl, ⟨b, hb, rfl⟩, _, _, rfl, ⟨c, hc, rfl⟩, _, _, rfl,
      ⟨d, hd, rfl⟩, rfl⟩
    exact ⟨a, b, c, d, rfl, isDigit_iff.mp ha, isDigit_iff.mp hb, isDigit_iff.mp hc, isDigit_iff.mp hd⟩
  · rintro ⟨a, b, c, d, rfl, ha, hb, hc, hd⟩
    exact ⟨[a], _, rfl, ⟨a, isDigit_iff.mpr ha, rfl⟩, [b], _, rfl, ⟨b, isDigit_iff.mpr hb, rfl⟩, [c], _, rfl,
      ⟨c, isDigit_iff.mpr hc, rfl⟩, [d], _, rfl, ⟨d, isDigit_iff.mpr hd, rfl⟩, rfl⟩

theorem lang_dotLabel {x : Str} : Lang (.seq (chr '.') labelRx) x ↔ ∃ l, Label l ∧ x = '.' :: l := by
  rw [lang_seq]
  constructor
  · rintro ⟨y, z, rfl, h1, h2⟩
    rw [lang_chr.mp h1]
    exact ⟨z, lang_label.mp h2, rfl⟩
  · rintro ⟨l, hl, rfl⟩
    exact ⟨['.'], l, rfl, lang_chr.mpr rfl, lang_label.mpr hl⟩

theorem lang_dots {x : Str} : Lang (.star (.seq (chr '.') labelRx)) x ↔
    ∃ ls : List Str, (∀ l ∈ ls, Label l) ∧ x = (ls.map ('.' :: ·)).flatten := by
  rw [lang_star]
  constructor
  · rintro ⟨l, rfl, hl⟩
    induction l with
    | nil => exact ⟨[], by simp, rfl⟩
    | cons y l ih =>
      obtain ⟨ls, h1, h2⟩ := ih fun z hz => hl z (List.mem_cons_of_mem _ hz)
      obtain ⟨a, ha, rfl⟩ := lang_dotLabel.mp (hl y List.mem_cons_self)
      refine ⟨a :: ls, fun z hz => (List.mem_cons.mp hz).elim (fun e => e ▸ ha) (h1 z), ?_⟩
      rw [List.flatten_cons, h2, List.map_cons, List.flatten_cons]
  · rintro ⟨ls, h, rfl⟩
    refine ⟨ls.map ('.' :: ·), rfl, fun y hy => ?_⟩
    obtain ⟨a, ha, rfl⟩ := List.mem_map.mp hy
    exact lang_dotLabel.mpr ⟨a, h a ha, rfl⟩

theorem lang_dots1 {x : Str} : Lang (plus (.seq (chr '.') labelRx)) x ↔
    ∃ ls : List Str, ls ≠ [] ∧ (∀ l ∈ ls, Label l) ∧ x = (ls.map ('.' :: ·)).flatten := by
  rw [plus, lang_seq]
  constructor
  · rintro ⟨y, z, rfl, h1, h2⟩
    obtain ⟨a, ha, rfl⟩ := lang_dotLabel.mp h1
    obtain ⟨ls, hl, rfl⟩ := lang_dots.mp h2
    exact ⟨a :: ls, by simp, fun z hz => (List.mem_cons.mp hz).elim (fun e => e ▸ ha) (hl z), by simp⟩
  · rintro ⟨ls, hne, hl, rfl⟩
    cases ls with
    | nil => exact absurd rfl hne
    | cons a ls =>
      exact ⟨'.' :: a, _, by simp, lang_dotLabel.mpr ⟨a, hl a List.mem_cons_self, rfl⟩,
        lang_dots.mpr ⟨ls, fun z hz => hl z (List.mem_cons_of_mem _ hz), rfl⟩⟩

theorem lang_iqn {x : Str} : Lang iqnBody x ↔ IsIQN x := by
  simp only [iqnBody, cat]
  rw [lang_seq]
  constructor
  · rintro ⟨y, _, rfl, h1, h⟩
    obtain ⟨f, _, rfl, h2, h⟩ := lang_seq.mp h
    obtain ⟨o, _, rfl, h3, h⟩ := lang_seq.mp h
    obtain ⟨k, i, rfl, h4, h5⟩ := lang_seq.mp h
    obtain ⟨ls, hne, hl, rfl⟩ := lang_dots1.mp h3
    rw [lang_chr.mp h4]
    exact ⟨y, f, ls, i, lang_year.mp h1, lang_label.mp h2, hne, hl, lang_label.mp h5, rfl⟩
  · rintro ⟨y, f, ls, i, h1, h2, hne, hl, h5, rfl⟩
    exact ⟨y, _, rfl, lang_year.mpr h1, lang_seq.mpr ⟨f, _, rfl, lang_label.mpr h2, lang_seq.mpr ⟨_, _, rfl,
      lang_dots1.mpr ⟨ls, hne, hl, rfl⟩, lang_seq.mpr ⟨[':'], i, rfl, lang_chr.mpr rfl, lang_label.mpr h5⟩⟩⟩⟩

theorem noEol_iqn : NoEol iqnBody := by
  simp [iqnBody, NoEol, cat, yearRx, labelRx, plus, opt, chr]

/-- **C67**: the validator of full identifiers accepts exactly those (a newline may follow). -/
theorem C67_iqn (s : Str) : accepts iqnRx s = true ↔ Line IsIQN s := by
  rw [iqnRx, accepts_eol noEol_iqn]
  unfold Line
  simp only [lang_iqn]

/-- **C67**, names: the validator accepts every text that *begins* with a full identifier, and simple
names. -/
theorem C67_name (s : Str) : accepts nameRx s = true ↔ (∃ x, x <+: s ∧ IsIQN x) ∨ Line Simple s := by
  have hn : NoEol (plus (.cls isName)) := ⟨trivial, trivial⟩
  rw [nameRx, accepts_alt, Bool.or_eq_true, accepts_iff noEol_iqn, accepts_eol hn]
  unfold Line Simple
  simp only [lang_iqn, lang_plus_cls, isName_iff]

/-- A full identifier, one without year, a simple name; not a lone domain. -/
example : accepts iqnRx "2013.com.canonical:checkbox-1".toList = true ∧
    accepts nameRx "com.canonical:checkbox".toList = true ∧ accepts nameRx "my-provider".toList = true ∧
    accepts nameRx "com.canonical".toList = false ∧ accepts iqnRx "canonical:x".toList = false := by
  decide +kernel

/-- The validator of versions accepts what begins with a digit, or with `v` and a digit. -/
theorem C67_version (s : Str) :
    accepts versionRx s = true ↔ ∃ d r, Digit d ∧ (s = d :: r ∨ s = 'v' :: d :: r) := by
  have hne : NoEol versionRx := by
    simp [versionRx, NoEol, cat, opt, chr, plus, sepRx, numRx, alnumRx, words, Rx.word]
  have num : ∀ {x}, Lang numRx x → ∃ d r, Digit d ∧ x = d :: r := by
    intro x h
    obtain ⟨h1, h2⟩ := lang_plus_cls.mp h
    cases x with
    | nil => exact absurd rfl h1
    | cons c x => exact ⟨c, x, isDigit_iff.mp (h2 c List.mem_cons_self), rfl⟩
  rw [accepts_iff hne]
  constructor
  · rintro ⟨x, ⟨t, rfl⟩, h⟩
    unfold versionRx at h
    obtain ⟨v, _, rfl, hv, h⟩ := lang_seq.mp h
    obtain ⟨m, _, rfl, hm, _⟩ := lang_seq.mp h
    obtain ⟨ep, _, rfl, he, hm⟩ := lang_seq.mp hm
    obtain ⟨rel, _, rfl, hr, _⟩ := lang_seq.mp hm
    obtain ⟨n, _, rfl, hn, _⟩ := lang_seq.mp hr
    obtain ⟨d, k, hd, rfl⟩ := num hn
    rcases lang_opt.mp he with he | rfl
    · obtain ⟨en, _, rfl, hen, _⟩ := lang_seq.mp he
      obtain ⟨d', k', hd', rfl⟩ := num hen
      rcases lang_opt.mp hv with hv | rfl
      · rw [lang_chr.mp hv]
        exact ⟨d', _, hd', .inr (by simp; rfl)⟩
      · exact ⟨d', _, hd', .inl (by simp; rfl)⟩
    · rcases lang_opt.mp hv with hv | rfl
      · rw [lang_chr.mp hv]
        exact ⟨d, _, hd, .inr (by simp; rfl)⟩
      · exact ⟨d, _, hd, .inl (by simp; rfl)⟩
  · rintro ⟨d, r, hd, h⟩
    have body : ∀ v, Lang (opt (chr 'v')) v → Lang versionRx (v ++ ([d] ++ [])) := by
      intro v hv
      unfold versionRx
      refine .seq hv (.seq ?_ (lang_opt.mpr (.inr rfl)))
      refine .seq (x := []) (y := [d]) (lang_opt.mpr (.inr rfl)) ?_
      refine .seq (x := [d]) (y := []) (.seq (x := [d]) (y := []) ?_ .starNil) ?_
      · exact lang_plus_cls.mpr ⟨by simp, by simpa [isDigit_iff] using hd⟩
      · exact .seq (x := []) (y := []) (lang_opt.mpr (.inr rfl))
          (.seq (x := []) (y := []) (lang_opt.mpr (.inr rfl)) (lang_opt.mpr (.inr rfl)))
    rcases h with rfl | rfl
    · exact ⟨_, ⟨r, rfl⟩, body [] (lang_opt.mpr (.inr rfl))⟩
    · exact ⟨_, ⟨r, rfl⟩, body ['v'] (lang_opt.mpr (.inl (lang_chr.mpr rfl)))⟩

/-- The validator of translation domains accepts what begins with a suitable character. -/
theorem C67_domain (s : Str) :
    accepts domainRx s = true ↔ ∃ c r, s = c :: r ∧ (Lower c ∨ Digit c ∨ c = '_' ∨ c = '-') := by
  rw [accepts_iff (r := domainRx) ⟨trivial, trivial⟩]
  have hc : ∀ c, (isLower c || isDigit c || decide (c = '_' ∨ c = '-')) = true ↔
      (Lower c ∨ Digit c ∨ c = '_' ∨ c = '-') := by
    intro c; simp [isDigit_iff, isLower_iff, or_assoc]
  constructor
  · rintro ⟨x, ⟨t, rfl⟩, h⟩
    obtain ⟨h1, h2⟩ := lang_plus_cls.mp h
    cases x with
    | nil => exact absurd rfl h1
    | cons c x => exact ⟨c, _, rfl, (hc c).mp (h2 c List.mem_cons_self)⟩
  · rintro ⟨c, r, rfl, h⟩
    exact ⟨[c], ⟨r, rfl⟩, lang_plus_cls.mpr ⟨by simp, by
      intro d hd; rw [List.mem_singleton.mp hd]; exact (hc c).mpr h⟩⟩

/-! ## Specification of definitions -/

/-- The definition says `option = s`. -/
def Says (p : Parser) (option : String) (s : Str) : Prop := p SEC option.toList = .value (some s)

/-- The definition does not mention the option. -/
def Silent (p : Parser) (option : String) : Prop := p SEC option.toList = .missing

/-- An absolute path of a directory. -/
def GoodDir (isDir : Str → Bool) (s : Str) : Prop := (∃ r, s = '/' :: r) ∧ isDir s = true

/-- The texts for yes, in small letters. -/
def yes : List Str := [['1'], ['y', 'e', 's'], ['t', 'r', 'u', 'e'], ['o', 'n']]

/-- The texts for no. -/
def no : List Str := [['0'], ['n', 'o'], ['f', 'a', 'l', 's', 'e'], ['o', 'f', 'f']]

/-- The definition says that the provider can be moved. -/
def Movable (p : Parser) : Prop := ∃ s, Says p "relocatable" s ∧ s.map Char.toLower ∈ yes

/-- A definition without fault. -/
structure WellFormed (isDir : Str → Bool) (filename : Str) (p : Parser) : Prop where
  movable : Silent p "relocatable" ∨ ∃ s, Says p "relocatable" s ∧ (s.map Char.toLower ∈ yes ∨ s.map Char.toLower ∈ no)
  name : ∃ s, Says p "name" s ∧ ((∃ x, x <+: s ∧ IsIQN x) ∨ Line Simple s)
  namesp : (∃ s, Says p "namespace" s ∧ s ≠ []) ∨ (Silent p "namespace" ∧ ∃ s, Says p "name" s ∧ Line IsIQN s)
  version : ∃ s, Says p "version" s ∧ ∃ d r, Digit d ∧ (s = d :: r ∨ s = 'v' :: d :: r)
  description : Silent p "description" ∨ ∃ s, Says p "description" s
  domain : Silent p "gettext_domain" ∨ ∃ s, Says p "gettext_domain" s ∧
    ∃ c r, s = c :: r ∧ (Lower c ∨ Digit c ∨ c = '_' ∨ c = '-')
  dirs : ∀ n ∈ ["location", "units_dir", "jobs_dir", "data_dir", "bin_dir", "locale_dir"],
    Silent p n ∨ ∃ s, Says p n s ∧ GoodDir isDir s
  place : Movable p → GoodDir isDir (Path.dirname filename)

/-! ## Values of variables -/

theorem readVar_str (w : World) (p : Parser) (n : String) (vs : List Validator) (v : Val) :
    (readVar w p (mkVar SEC n.toList .str .unset vs) = some v ∧ Valid (mkVar SEC n.toList .str .unset vs) v) ↔
    (Silent p n ∧ v = .unset ∧ Valid (mkVar SEC n.toList .str .unset vs) .unset) ∨
    (∃ s, Says p n s ∧ v = .str s ∧ Valid (mkVar SEC n.toList .str .unset vs) (.str s)) := by
  have hs : (mkVar SEC n.toList .str .unset vs).sec = SEC := rfl
  have hn : (mkVar SEC n.toList .str .unset vs).name = n.toList := rfl
  have hk : (mkVar SEC n.toList .str .unset vs).kind = .str := rfl
  have hd : (mkVar SEC n.toList .str .unset vs).default = .unset := rfl
  have hnone : ¬ Valid (mkVar SEC n.toList .str .unset vs) .none := by
    intro h
    rcases (C39_kind SEC n.toList .str .unset vs _).1 h with h | h <;> cases h
  generalize mkVar SEC n.toList .str .unset vs = x at *
  unfold readVar Silent Says
  rw [hs, hn, hk, hd]
  cases p SEC n.toList with
  | missing =>
    constructor
    · rintro ⟨h, h2⟩; cases h; exact .inl ⟨rfl, rfl, h2⟩
    · rintro (⟨_, rfl, h⟩ | ⟨s, h, _⟩)
      · exact ⟨rfl, h⟩
      · cases h
  | error =>
    constructor
    · rintro ⟨h, h2⟩; cases h
    · rintro (⟨h, _⟩ | ⟨s, h, _⟩) <;> cases h
  | value o =>
    cases o with
    | none =>
      constructor
      · rintro ⟨h, h2⟩; cases h; exact absurd h2 hnone
      · rintro (⟨h, _⟩ | ⟨s, h, _⟩) <;> cases h
    | some s =>
      constructor
      · rintro ⟨h, h2⟩; cases h; exact .inr ⟨s, rfl, rfl, h2⟩
      · rintro (⟨h, _⟩ | ⟨s', h, rfl, h2⟩)
        · cases h
        · cases h; exact ⟨rfl, h2⟩

theorem valid_dir (isDir : Str → Bool) (n : Str) :
    Valid (dirV isDir n) .unset ∧ ∀ s, Valid (dirV isDir n) (.str s) ↔ GoodDir isDir s := by
  refine ⟨?_, fun s => ?_⟩
  · simp [Valid, dirV, mkVar, notEmptyV, absoluteV, existingV, textV, kindValidator]
  · cases s with
    | nil => simp [Valid, dirV, mkVar, notEmptyV, absoluteV, existingV, textV, kindValidator, GoodDir]
    | cons c s =>
      simp only [Valid, dirV, mkVar, notEmptyV, absoluteV, existingV, textV, kindValidator, GoodDir]
      by_cases hc : c = '/' <;> simp [hc, isKind]

theorem valid_required (n : Str) (r : Rx) :
    ¬ Valid (mkVar SEC n .str .unset [notUnsetV, notEmptyV, patternV r]) .unset ∧
    ∀ s, Valid (mkVar SEC n .str .unset [notUnsetV, notEmptyV, patternV r]) (.str s) ↔
      s ≠ [] ∧ accepts r s = true := by
  refine ⟨?_, fun s => ?_⟩
  · simp [Valid, mkVar, notUnsetV]
  · simp [Valid, mkVar, notUnsetV, notEmptyV, patternV, textV, kindValidator, isKind]

theorem valid_namespace : Valid namespaceV .unset ∧ ∀ s, Valid namespaceV (.str s) ↔ s ≠ [] := by
  refine ⟨?_, fun s => ?_⟩ <;> simp [Valid, namespaceV, mkVar, notEmptyV, kindValidator, isKind]

theorem valid_description : Valid descriptionV .unset ∧ ∀ s, Valid descriptionV (.str s) := by
  refine ⟨?_, fun s => ?_⟩ <;> simp [Valid, descriptionV, mkVar, kindValidator, isKind]

theorem valid_domain : Valid domainV .unset ∧ ∀ s, Valid domainV (.str s) ↔ accepts domainRx s = true := by
  refine ⟨?_, fun s => ?_⟩ <;> simp [Valid, domainV, mkVar, patternV, textV, kindValidator, isKind]

theorem read_reloc (w : World) (p : Parser) (v : Val) :
    (readVar w p relocV = some v ∧ Valid relocV v) ↔
    (Silent p "relocatable" ∧ v = .unset) ∨
    (∃ s, Says p "relocatable" s ∧ ((s.map Char.toLower ∈ yes ∧ v = .bool true) ∨
      (s.map Char.toLower ∈ no ∧ v = .bool false))) := by
  have hu : Valid relocV .unset ∧ ∀ b, Valid relocV (.bool b) := by
    refine ⟨?_, fun b => ?_⟩ <;> simp [Valid, relocV, mkVar, kindValidator, isKind]
  show (readVar w p relocV = some v ∧ _) ↔ _
  have hread : readVar w p relocV = match p SEC "relocatable".toList with
    | .missing => some .unset
    | .error => none
    | .value s => readKind w .bool s := rfl
  rw [hread]
  unfold Silent Says
  cases p SEC "relocatable".toList with
  | missing =>
    constructor
    · rintro ⟨h, h2⟩; cases h; exact .inl ⟨rfl, rfl⟩
    · rintro (⟨_, rfl⟩ | ⟨s, h, _⟩)
      · exact ⟨rfl, hu.1⟩
      · cases h
  | error =>
    constructor
    · rintro ⟨h, h2⟩; cases h
    · rintro (⟨h, _⟩ | ⟨s, h, _⟩) <;> cases h
  | value o =>
    cases o with
    | none =>
      constructor
      · rintro ⟨h, h2⟩; cases h
      · rintro (⟨h, _⟩ | ⟨s, h, _⟩) <;> cases h
    | some s =>
      obtain ⟨t1, t2, t3⟩ := C39_truth w s
      constructor
      · rintro ⟨h, h2⟩
        refine .inr ⟨s, rfl, ?_⟩
        have h' : readKind w .bool (some s) = some v := h
        by_cases hy : s.map Char.toLower ∈ yes
        · have := t1.mpr hy
          rw [h'] at this
          cases this
          exact .inl ⟨hy, rfl⟩
        · by_cases hn : s.map Char.toLower ∈ no
          · have := t2.mpr hn
            rw [h'] at this
            cases this
            exact .inr ⟨hn, rfl⟩
          · have := t3.mpr (by
              intro hm
              rcases List.mem_append.mp (show _ ∈ yes ++ no from hm) with h | h
              · exact hy h
              · exact hn h)
            rw [h'] at this
            cases this
      · rintro (⟨h, _⟩ | ⟨s', h, h2⟩)
        · cases h
        · cases h
          rcases h2 with ⟨hy, rfl⟩ | ⟨hn, rfl⟩
          · exact ⟨t1.mpr hy, hu.2 true⟩
          · exact ⟨t2.mpr hn, hu.2 false⟩

/-! ## Reading -/

theorem keys (isDir : Str → Bool) : ((vars isDir).map Var.key).Nodup := by
  have : (vars isDir).map Var.key = (vars fun _ => false).map Var.key := rfl
  rw [this]
  decide +kernel

theorem distinct_of_keys : ∀ {xs : List Var}, (xs.map Var.key).Nodup → Distinct xs ∧ xs.Nodup := by
  intro xs
  induction xs with
  | nil => intro _; exact ⟨fun x hx => absurd hx (by simp), by simp⟩
  | cons x xs ih =>
    intro h
    rw [List.map_cons, List.nodup_cons] at h
    obtain ⟨h1, h2⟩ := ih h.2
    refine ⟨?_, List.nodup_cons.mpr ⟨fun hm => h.1 (List.mem_map_of_mem hm), h2⟩⟩
    intro a ha b hb e
    rcases List.mem_cons.mp ha with ea | ha' <;> rcases List.mem_cons.mp hb with eb | hb'
    · rw [ea, eb]
    · exact absurd (by rw [← ea, e]; exact List.mem_map_of_mem hb') h.1
    · exact absurd (by rw [← eb, ← e]; exact List.mem_map_of_mem ha') h.1
    · exact h1 a ha' b hb' e

/-- The state after reading the variables. -/
def readSt (w : World) (isDir : Str → Bool) (p : Parser) : St := (readVars w p (vars isDir) init).1

/-- Every value is readable and valid. -/
def AllValid (w : World) (isDir : Str → Bool) (p : Parser) : Prop :=
  ∀ x ∈ vars isDir, ∃ v, readVar w p x = some v ∧ Valid x v

theorem readVars_ok {w : World} {isDir : Str → Bool} {p : Parser} (h : AllValid w isDir p) :
    (readVars w p (vars isDir) init).2 = false := by
  cases hr : (readVars w p (vars isDir) init).2 with
  | false => rfl
  | true =>
    obtain ⟨x, hx, hb⟩ := (readVars_raises w p (vars isDir) init).mp hr
    obtain ⟨v, h1, h2⟩ := h x hx
    rcases hb with hb | ⟨u, hu, hb⟩
    · rw [h1] at hb; cases hb
    · rw [h1] at hu
      cases hu
      rw [(validate_ok x.validators v).mpr h2] at hb
      cases hb

theorem readSt_get {w : World} {isDir : Str → Bool} {p : Parser} (h : AllValid w isDir p) (x : Var)
    (hx : x ∈ vars isDir) : readVar w p x = some (x.get (readSt w isDir p)) ∧ Valid x (x.get (readSt w isDir p)) := by
  obtain ⟨hd, hn⟩ := distinct_of_keys (keys isDir)
  obtain ⟨v, h1, h2⟩ := C39_read w p (vars isDir) hd hn init (readVars_ok h) x hx
  obtain ⟨v', h1', h2'⟩ := h x hx
  rw [h1] at h1'
  cases h1'
  rcases h2 with ⟨_, e⟩ | ⟨hv, _⟩
  · exact ⟨by rw [readSt, e]; exact h1, by rw [readSt, e]; exact h2'⟩
  · exact absurd h2' hv

/-- Reading succeeds without problems exactly when the text has no syntax error, every value is valid and
the definition as a whole is. -/
theorem read_clean (w : World) (isDir : Str → Bool) (syn : Bool) (p : Parser) :
    ((step w (vars isDir) whole (.readString syn p false) init).2 = false ∧
     (step w (vars isDir) whole (.readString syn p false) init).1.problems = []) ↔
    (syn = false ∧ AllValid w isDir p ∧ whole (readSt w isDir p) = .ok) := by
  constructor
  · rintro ⟨h1, h2⟩
    rw [C39_problems w (vars isDir) whole syn p false init h1] at h2
    obtain ⟨h2, h3⟩ := List.append_eq_nil_iff.mp h2
    obtain ⟨h4, h5⟩ := List.append_eq_nil_iff.mp h2
    have hs : syn = false := by
      cases syn with
      | false => rfl
      | true => cases h4
    subst hs
    have hraise : ¬ ((∃ x ∈ vars isDir, Bad w p x) ∨ false = true ∨ whole (readSt w isDir p) = .raise) := by
      intro h
      have := (C39_raises_exact w (vars isDir) whole false p false init).1.mpr h
      rw [h1] at this
      cases this
    refine ⟨rfl, ?_, ?_⟩
    · intro x hx
      have hr := List.filterMap_eq_nil_iff.mp h5 x hx
      cases hv : readVar w p x with
      | none => exact absurd (Or.inl ⟨x, hx, Or.inl hv⟩) hraise
      | some v =>
        refine ⟨v, rfl, ?_⟩
        classical
        apply Classical.byContradiction
        intro hn
        rw [refused, hv, Option.bind_some, if_neg hn] at hr
        cases hr
    · have e : ({ init with problems := if (false : Bool) = true then [Problem.syntax] else [] } : St) = init := rfl
      rw [e] at h3
      cases hw : whole (readSt w isDir p) with
      | ok => rfl
      | refuse => rw [readSt] at hw; rw [hw, if_pos rfl] at h3; cases h3
      | raise => exact absurd (Or.inr (Or.inr hw)) hraise
  · rintro ⟨rfl, h2, h3⟩
    have e : step w (vars isDir) whole (.readString false p false) init = (readSt w isDir p, false) := by
      show readCommit w (vars isDir) p false whole init = _
      simp only [readCommit]
      rw [readVars_ok h2, if_neg (by decide), if_neg (by decide)]
      rw [readSt] at h3 ⊢
      rw [h3]
    rw [e]
    refine ⟨rfl, ?_⟩
    have := readVars_problems_exact w p (vars isDir) init (readVars_ok h2)
    rw [readSt, this]
    refine List.filterMap_eq_nil_iff.mpr fun x hx => ?_
    obtain ⟨v, h1, hv⟩ := h2 x hx
    rw [refused, h1, Option.bind_some, if_pos hv]

theorem read_clean_st (w : World) (isDir : Str → Bool) (p : Parser)
    (h2 : AllValid w isDir p) (h3 : whole (readSt w isDir p) = .ok) :
    step w (vars isDir) whole (.readString false p false) init = (readSt w isDir p, false) := by
  show readCommit w (vars isDir) p false whole init = _
  simp only [readCommit]
  rw [readVars_ok h2, if_neg (by decide), if_neg (by decide)]
  rw [readSt] at h3 ⊢
  rw [h3]

/-! ## Moving -/

theorem set_ok (x : Var) (v : Val) (st : St) (h : Valid x v) :
    x.set v st = ({ st with vars := store x.key v st.vars }, .ok) := by
  unfold Var.set
  rw [(validate_ok x.validators v).mpr h]

theorem reset_problems (isDir : Str → Bool) (st : St) : (reset isDir st).problems = st.problems := by
  unfold reset
  simp only [List.foldl_cons, List.foldl_nil]
  simp only [set_ok _ _ _ (valid_dir isDir _).1, unitsV, jobsV, dataV, binV, localeV]

theorem get_store (x y : Var) (v : Val) (st : St) :
    y.get { st with vars := store x.key v st.vars } = if y.key = x.key then v else y.get st := by
  unfold Var.get
  rw [find_store]
  by_cases h : y.key = x.key
  · rw [if_pos h, if_pos h]; rfl
  · rw [if_neg h, if_neg h]

theorem unset_get (y : Var) : ∀ (xs : List Var), (∀ x ∈ xs, Valid x .unset) → ∀ st : St,
    y.get (xs.foldl (fun st x => (x.set .unset st).1) st) =
      if y.key ∈ xs.map Var.key then .unset else y.get st := by
  intro xs
  induction xs with
  | nil => intro _ st; rfl
  | cons x xs ih =>
    intro h st
    rw [List.foldl_cons, ih (fun z hz => h z (List.mem_cons_of_mem _ hz)),
      set_ok x _ st (h x List.mem_cons_self), get_store, List.map_cons]
    by_cases h1 : y.key ∈ xs.map Var.key
    · rw [if_pos h1, if_pos (List.mem_cons_of_mem _ h1)]
    · rw [if_neg h1]
      by_cases h2 : y.key = x.key
      · rw [if_pos h2, if_pos (by rw [h2]; exact List.mem_cons_self)]
      · rw [if_neg h2, if_neg (by rw [List.mem_cons]; exact fun h => h.elim h2 h1)]

/-- The names of the directories that are reset. -/
def subDirs : List String := ["units_dir", "jobs_dir", "data_dir", "bin_dir", "locale_dir"]

theorem key_inj {a b : Str} : SEC ++ "__".toList ++ a = SEC ++ "__".toList ++ b ↔ a = b :=
  ⟨fun h => List.append_cancel_left h, fun h => by rw [h]⟩

/-- What moving does. -/
theorem relocate_iff (isDir : Str → Bool) (filename : Str) (st st' : St) :
    relocate isDir filename st = some st' →
    st'.problems = st.problems ∧
    ((truthy (relocV.get st) = false ∧ st' = st) ∨
     (truthy (relocV.get st) = true ∧ GoodDir isDir (Path.dirname filename) ∧
      (locationV isDir).get st' = .str (Path.dirname filename) ∧
      (∀ n ∈ subDirs, (dirV isDir n.toList).get st' = .unset) ∧
      ∀ y : Var, y.key ≠ (locationV isDir).key → (∀ n ∈ subDirs, y.key ≠ (dirV isDir n.toList).key) →
        y.get st' = y.get st)) := by
  intro h
  unfold relocate at h
  cases ht : truthy (relocV.get st) with
  | false =>
    rw [ht, if_neg (by decide)] at h
    cases h
    exact ⟨rfl, .inl ⟨rfl, rfl⟩⟩
  | true =>
    rw [ht, if_pos rfl] at h
    by_cases hg : GoodDir isDir (Path.dirname filename)
    · have hv : Valid (locationV isDir) (.str (Path.dirname filename)) :=
        ((valid_dir isDir "location".toList).2 _).mpr hg
      rw [set_ok _ _ _ hv] at h
      cases h
      refine ⟨by rw [reset_problems], .inr ⟨rfl, hg, ?_⟩⟩
      have hmap : [unitsV isDir, jobsV isDir, dataV isDir, binV isDir, localeV isDir].map Var.key =
          subDirs.map fun n => SEC ++ "__".toList ++ n.toList := rfl
      have hget : ∀ (y : Var) (st : St), y.get (reset isDir st) =
          if y.key ∈ subDirs.map (fun n => SEC ++ "__".toList ++ n.toList) then .unset else y.get st := by
        intro y st
        rw [← hmap]
        refine unset_get y _ ?_ st
        intro x hx
        simp only [List.mem_cons, List.not_mem_nil, or_false] at hx
        rcases hx with rfl | rfl | rfl | rfl | rfl <;> exact (valid_dir isDir _).1
      refine ⟨?_, ?_, ?_⟩
      · rw [hget, if_neg ?_, get_store, if_pos rfl]
        show ¬ (SEC ++ "__".toList ++ "location".toList) ∈ _
        decide +kernel
      · intro n hn
        rw [hget, if_pos]
        exact List.mem_map.mpr ⟨n, hn, rfl⟩
      · intro y hy hn
        rw [hget, if_neg, get_store, if_neg hy]
        intro hm
        obtain ⟨n, hn', e⟩ := List.mem_map.mp hm
        exact hn n hn' e.symm
    · have hv : ¬ Valid (locationV isDir) (.str (Path.dirname filename)) := fun h' =>
        hg (((valid_dir isDir "location".toList).2 _).mp h')
      have : ((locationV isDir).set (.str (Path.dirname filename)) st).2 ≠ .ok := by
        unfold Var.set
        cases hval : validate (locationV isDir).validators (.str (Path.dirname filename)) with
        | ok => exact absurd ((validate_ok _ _).mp hval) hv
        | refuse => simp
        | raise => simp
      cases hs : (locationV isDir).set (.str (Path.dirname filename)) st with
      | mk a b =>
        rw [hs] at h this
        cases b with
        | ok => exact absurd rfl this
        | refuse => cases h
        | raise => cases h

theorem relocate_isSome (isDir : Str → Bool) (filename : Str) (st : St)
    (h : truthy (relocV.get st) = true → GoodDir isDir (Path.dirname filename)) :
    ∃ st', relocate isDir filename st = some st' := by
  unfold relocate
  cases ht : truthy (relocV.get st) with
  | false => exact ⟨st, by rw [if_neg (by decide)]⟩
  | true =>
    have hv : Valid (locationV isDir) (.str (Path.dirname filename)) :=
      ((valid_dir isDir "location".toList).2 _).mpr (h ht)
    rw [if_pos rfl, set_ok _ _ _ hv]
    exact ⟨_, rfl⟩

/-! ## Accepting -/

theorem allValid_iff (w : World) (isDir : Str → Bool) (p : Parser) : AllValid w isDir p ↔
    (Silent p "relocatable" ∨ ∃ s, Says p "relocatable" s ∧
      (s.map Char.toLower ∈ yes ∨ s.map Char.toLower ∈ no)) ∧
    (∃ s, Says p "name" s ∧ ((∃ x, x <+: s ∧ IsIQN x) ∨ Line Simple s)) ∧
    (Silent p "namespace" ∨ ∃ s, Says p "namespace" s ∧ s ≠ []) ∧
    (∃ s, Says p "version" s ∧ ∃ d r, Digit d ∧ (s = d :: r ∨ s = 'v' :: d :: r)) ∧
    (Silent p "description" ∨ ∃ s, Says p "description" s) ∧
    (Silent p "gettext_domain" ∨ ∃ s, Says p "gettext_domain" s ∧
      ∃ c r, s = c :: r ∧ (Lower c ∨ Digit c ∨ c = '_' ∨ c = '-')) ∧
    (∀ n ∈ ["location", "units_dir", "jobs_dir", "data_dir", "bin_dir", "locale_dir"],
      Silent p n ∨ ∃ s, Says p n s ∧ GoodDir isDir s) := by
  have hdir : ∀ n : String, (∃ v, readVar w p (dirV isDir n.toList) = some v ∧ Valid (dirV isDir n.toList) v) ↔
      (Silent p n ∨ ∃ s, Says p n s ∧ GoodDir isDir s) := by
    intro n
    obtain ⟨v1, v2⟩ := valid_dir isDir n.toList
    unfold dirV at v1 v2 ⊢
    constructor
    · rintro ⟨v, h⟩
      rcases (readVar_str w p n _ v).mp h with ⟨h, _, _⟩ | ⟨s, h, _, h2⟩
      · exact .inl h
      · exact .inr ⟨s, h, (v2 s).mp h2⟩
    · rintro (h | ⟨s, h, h2⟩)
      · exact ⟨_, (readVar_str w p n _ _).mpr (.inl ⟨h, rfl, v1⟩)⟩
      · exact ⟨_, (readVar_str w p n _ _).mpr (.inr ⟨s, h, rfl, (v2 s).mpr h2⟩)⟩
  have hreq : ∀ (n : String) (r : Rx), (∃ v, readVar w p (mkVar SEC n.toList .str .unset [notUnsetV, notEmptyV, patternV r]) = some v ∧
        Valid (mkVar SEC n.toList .str .unset [notUnsetV, notEmptyV, patternV r]) v) ↔
      ∃ s, Says p n s ∧ s ≠ [] ∧ accepts r s = true := by
    intro n r
    obtain ⟨v1, v2⟩ := valid_required n.toList r
    constructor
    · rintro ⟨v, h⟩
      rcases (readVar_str w p n _ v).mp h with ⟨_, _, h⟩ | ⟨s, h, _, h2⟩
      · exact absurd h v1
      · exact ⟨s, h, (v2 s).mp h2⟩
    · rintro ⟨s, h, h2⟩
      exact ⟨_, (readVar_str w p n _ _).mpr (.inr ⟨s, h, rfl, (v2 s).mpr h2⟩)⟩
  have hopt : ∀ (n : String) (vs : List Validator) (P : Str → Prop),
      Valid (mkVar SEC n.toList .str .unset vs) .unset →
      (∀ s, Valid (mkVar SEC n.toList .str .unset vs) (.str s) ↔ P s) →
      ((∃ v, readVar w p (mkVar SEC n.toList .str .unset vs) = some v ∧
        Valid (mkVar SEC n.toList .str .unset vs) v) ↔ (Silent p n ∨ ∃ s, Says p n s ∧ P s)) := by
    intro n vs P v1 v2
    constructor
    · rintro ⟨v, h⟩
      rcases (readVar_str w p n _ v).mp h with ⟨h, _, _⟩ | ⟨s, h, _, h2⟩
      · exact .inl h
      · exact .inr ⟨s, h, (v2 s).mp h2⟩
    · rintro (h | ⟨s, h, h2⟩)
      · exact ⟨_, (readVar_str w p n _ _).mpr (.inl ⟨h, rfl, v1⟩)⟩
      · exact ⟨_, (readVar_str w p n _ _).mpr (.inr ⟨s, h, rfl, (v2 s).mpr h2⟩)⟩
  have hrel : (∃ v, readVar w p relocV = some v ∧ Valid relocV v) ↔
      (Silent p "relocatable" ∨ ∃ s, Says p "relocatable" s ∧
        (s.map Char.toLower ∈ yes ∨ s.map Char.toLower ∈ no)) := by
    constructor
    · rintro ⟨v, h⟩
      rcases (read_reloc w p v).mp h with ⟨h, _⟩ | ⟨s, h, ⟨h2, _⟩ | ⟨h2, _⟩⟩
      · exact .inl h
      · exact .inr ⟨s, h, .inl h2⟩
      · exact .inr ⟨s, h, .inr h2⟩
    · rintro (h | ⟨s, h, h2 | h2⟩)
      · exact ⟨_, (read_reloc w p _).mpr (.inl ⟨h, rfl⟩)⟩
      · exact ⟨_, (read_reloc w p _).mpr (.inr ⟨s, h, .inl ⟨h2, rfl⟩⟩)⟩
      · exact ⟨_, (read_reloc w p _).mpr (.inr ⟨s, h, .inr ⟨h2, rfl⟩⟩)⟩
  have hname := hreq "name" nameRx
  have hversion := hreq "version" versionRx
  have hns := hopt "namespace" [notEmptyV] _ valid_namespace.1 valid_namespace.2
  have hdesc := hopt "description" [] (fun _ => True) valid_description.1
    (fun s => ⟨fun _ => trivial, fun _ => valid_description.2 s⟩)
  have hdom := hopt "gettext_domain" [patternV domainRx] _ valid_domain.1 valid_domain.2
  have hname' : (∃ s, Says p "name" s ∧ s ≠ [] ∧ accepts nameRx s = true) ↔
      ∃ s, Says p "name" s ∧ ((∃ x, x <+: s ∧ IsIQN x) ∨ Line Simple s) := by
    have hne : accepts nameRx [] = false := by decide +kernel
    constructor
    · rintro ⟨s, h, _, h2⟩; exact ⟨s, h, (C67_name s).mp h2⟩
    · rintro ⟨s, h, h2⟩
      refine ⟨s, h, ?_, (C67_name s).mpr h2⟩
      rintro rfl
      rw [(C67_name []).mpr h2] at hne
      cases hne
  have hversion' : (∃ s, Says p "version" s ∧ s ≠ [] ∧ accepts versionRx s = true) ↔
      ∃ s, Says p "version" s ∧ ∃ d r, Digit d ∧ (s = d :: r ∨ s = 'v' :: d :: r) := by
    constructor
    · rintro ⟨s, h, _, h2⟩; exact ⟨s, h, (C67_version s).mp h2⟩
    · rintro ⟨s, h, h2⟩
      refine ⟨s, h, ?_, (C67_version s).mpr h2⟩
      rintro rfl
      obtain ⟨d, r, _, h | h⟩ := h2 <;> cases h
  have hdom' : (Silent p "gettext_domain" ∨ ∃ s, Says p "gettext_domain" s ∧ accepts domainRx s = true) ↔
      (Silent p "gettext_domain" ∨ ∃ s, Says p "gettext_domain" s ∧
      ∃ c r, s = c :: r ∧ (Lower c ∨ Digit c ∨ c = '_' ∨ c = '-')) := by
    apply or_congr_right
    constructor
    · rintro ⟨s, h, h2⟩; exact ⟨s, h, (C67_domain s).mp h2⟩
    · rintro ⟨s, h, h2⟩; exact ⟨s, h, (C67_domain s).mpr h2⟩
  have hall : AllValid w isDir p ↔
      (∃ v, readVar w p relocV = some v ∧ Valid relocV v) ∧
      (∃ v, readVar w p nameV = some v ∧ Valid nameV v) ∧
      (∃ v, readVar w p namespaceV = some v ∧ Valid namespaceV v) ∧
      (∃ v, readVar w p versionV = some v ∧ Valid versionV v) ∧
      (∃ v, readVar w p descriptionV = some v ∧ Valid descriptionV v) ∧
      (∃ v, readVar w p domainV = some v ∧ Valid domainV v) ∧
      (∀ n ∈ ["location", "units_dir", "jobs_dir", "data_dir", "bin_dir", "locale_dir"],
        ∃ v, readVar w p (dirV isDir n.toList) = some v ∧ Valid (dirV isDir n.toList) v) := by
    unfold AllValid vars locationV unitsV jobsV dataV binV localeV
    simp only [List.forall_mem_cons, List.not_mem_nil, false_imp_iff, implies_true, and_true]
    constructor
    · rintro ⟨a, b, c, d, e, f, g, h, i, j, k, l⟩
      exact ⟨a, c, d, e, f, g, b, h, i, j, k, l⟩
    · rintro ⟨a, c, d, e, f, g, b, h, i, j, k, l⟩
      exact ⟨a, b, c, d, e, f, g, h, i, j, k, l⟩
  rw [hall, hrel, ← hname', ← hversion', ← hdom', ← hname, ← hversion, ← hdom]
  have hdesc' : (∃ v, readVar w p descriptionV = some v ∧ Valid descriptionV v) ↔
      (Silent p "description" ∨ ∃ s, Says p "description" s) := by
    rw [show descriptionV = mkVar SEC "description".toList .str .unset [] from rfl, hdesc]
    simp only [and_true]
  rw [hdesc', ← hns]
  simp only [hdir]
  rfl

/-- What is known about the values after a clean read. -/
structure Vals (isDir : Str → Bool) (p : Parser) (st : St) : Prop where
  reloc : truthy (relocV.get st) = true ↔ Movable p
  name : ∃ s, nameV.get st = .str s ∧ Says p "name" s
  namesp : (Silent p "namespace" ∧ namespaceV.get st = .unset) ∨
    ∃ s, s ≠ [] ∧ Says p "namespace" s ∧ namespaceV.get st = .str s
  version : ∃ s, Says p "version" s ∧ versionV.get st = .str s
  description : (Silent p "description" ∧ descriptionV.get st = .unset) ∨
    ∃ s, Says p "description" s ∧ descriptionV.get st = .str s
  domain : (Silent p "gettext_domain" ∧ domainV.get st = .unset) ∨
    ∃ s, Says p "gettext_domain" s ∧ domainV.get st = .str s
  dirs : ∀ n ∈ ["location", "units_dir", "jobs_dir", "data_dir", "bin_dir", "locale_dir"],
    (Silent p n ∧ (dirV isDir n.toList).get st = .unset) ∨
    ∃ s, s ≠ [] ∧ Says p n s ∧ (dirV isDir n.toList).get st = .str s

theorem vals (w : World) (isDir : Str → Bool) (p : Parser) (h : AllValid w isDir p) :
    Vals isDir p (readSt w isDir p) := by
  have get := readSt_get h
  refine ⟨?_, ?_, ?_, ?_, ?_, ?_, ?_⟩
  · have := (read_reloc w p _).mp (get relocV (by simp [vars]))
    constructor
    · intro ht
      rcases this with ⟨_, e⟩ | ⟨s, hs, ⟨hy, _⟩ | ⟨_, e⟩⟩
      · rw [e] at ht; cases ht
      · exact ⟨s, hs, hy⟩
      · rw [e] at ht; cases ht
    · rintro ⟨s', hs', hy⟩
      rcases this with ⟨hsil, _⟩ | ⟨s, hs, ⟨_, e⟩ | ⟨hn, _⟩⟩
      · unfold Silent at hsil; unfold Says at hs'; rw [hsil] at hs'; cases hs'
      · rw [e]; rfl
      · have : s = s' := by unfold Says at hs hs'; rw [hs] at hs'; cases hs'; rfl
        subst this
        exfalso
        generalize s.map Char.toLower = t at hy hn
        simp only [yes, no, List.mem_cons, List.not_mem_nil, or_false] at hy hn
        rcases hy with rfl | rfl | rfl | rfl <;> simp at hn
  · rcases (readVar_str w p "name" _ _).mp (get nameV (by simp [vars])) with ⟨_, _, hv⟩ | ⟨s, hs, e, _⟩
    · exact absurd hv (valid_required "name".toList nameRx).1
    · exact ⟨s, e, hs⟩
  · rcases (readVar_str w p "namespace" _ _).mp (get namespaceV (by simp [vars])) with ⟨hs, e, _⟩ | ⟨s, hs, e, hv⟩
    · exact .inl ⟨hs, e⟩
    · exact .inr ⟨s, (valid_namespace.2 s).mp hv, hs, e⟩
  · rcases (readVar_str w p "version" _ _).mp (get versionV (by simp [vars])) with ⟨_, _, hv⟩ | ⟨s, hs, e, _⟩
    · exact absurd hv (valid_required "version".toList versionRx).1
    · exact ⟨s, hs, e⟩
  · rcases (readVar_str w p "description" _ _).mp (get descriptionV (by simp [vars])) with ⟨hs, e, _⟩ | ⟨s, hs, e, hv⟩
    · exact .inl ⟨hs, e⟩
    · exact .inr ⟨s, hs, e⟩
  · rcases (readVar_str w p "gettext_domain" _ _).mp (get domainV (by simp [vars])) with ⟨hs, e, _⟩ | ⟨s, hs, e, hv⟩
    · exact .inl ⟨hs, e⟩
    · exact .inr ⟨s, hs, e⟩
  · intro n hn
    have hm : dirV isDir n.toList ∈ vars isDir := by
      simp only [List.mem_cons, List.not_mem_nil, or_false] at hn
      rcases hn with rfl | rfl | rfl | rfl | rfl | rfl <;>
        simp [vars, locationV, unitsV, jobsV, dataV, binV, localeV]
    rcases (readVar_str w p n _ _).mp (get (dirV isDir n.toList) hm) with ⟨hs, e, _⟩ | ⟨s, hs, e, hv⟩
    · exact .inl ⟨hs, e⟩
    · refine .inr ⟨s, ?_, hs, e⟩
      obtain ⟨⟨r, hr⟩, _⟩ := ((valid_dir isDir n.toList).2 s).mp hv
      rw [hr]; simp

theorem whole_iff (isDir : Str → Bool) (p : Parser) (st : St) (v : Vals isDir p st) :
    whole st = .ok ↔
      (∃ s, Says p "namespace" s ∧ s ≠ []) ∨ (Silent p "namespace" ∧ ∃ s, Says p "name" s ∧ Line IsIQN s) := by
  unfold whole
  rcases v.namesp with ⟨hs, e⟩ | ⟨s, hne, hs, e⟩
  · rw [e, show truthy .unset = false from rfl, if_neg (by decide)]
    obtain ⟨n, en, hn⟩ := v.name
    rw [en]
    show (if accepts iqnRx n = true then Verdict.ok else .refuse) = .ok ↔ _
    constructor
    · intro h
      by_cases ha : accepts iqnRx n = true
      · exact .inr ⟨hs, n, hn, (C67_iqn n).mp ha⟩
      · rw [if_neg ha] at h; cases h
    · rintro (⟨s, h, _⟩ | ⟨_, s, h, hl⟩)
      · unfold Says at h; unfold Silent at hs; rw [hs] at h; cases h
      · have : s = n := by unfold Says at h hn; rw [hn] at h; cases h; rfl
        subst this
        rw [if_pos ((C67_iqn s).mpr hl)]
  · have ht : truthy (.str s) = true := by
      cases s with
      | nil => exact absurd rfl hne
      | cons => rfl
    rw [e, ht, if_pos rfl]
    exact ⟨fun _ => .inl ⟨s, hs, hne⟩, fun _ => rfl⟩

/-- What an accepted definition goes through. -/
theorem plugIn_ok (w : World) (isDir : Str → Bool) (e : Env) (filename : Str) (syn : Bool) (p : Parser)
    (pr : Provider) : plugIn w isDir e filename syn p = .ok pr ↔
    syn = false ∧ AllValid w isDir p ∧ whole (readSt w isDir p) = .ok ∧
    ∃ st', relocate isDir filename (readSt w isDir p) = some st' ∧
      fromDefinition isDir st' (decide (Path.dirname filename ∈ secureDirs e)) = some pr := by
  constructor
  · intro h
    unfold plugIn at h
    dsimp only at h
    cases h1 : (step w (vars isDir) whole (.readString syn p false) init).2 with
    | true => rw [h1, if_pos rfl] at h; cases h
    | false =>
      rw [h1, if_neg (by decide)] at h
      cases h2 : relocate isDir filename (step w (vars isDir) whole (.readString syn p false) init).1 with
      | none => rw [h2] at h; cases h
      | some st' =>
        rw [h2] at h
        dsimp only at h
        have hp := (relocate_iff isDir filename _ st' h2).1
        unfold finish at h
        cases h3 : st'.problems with
        | cons a l => rw [h3] at h; cases a <;> cases h
        | nil =>
          rw [h3] at h
          dsimp only at h
          obtain ⟨c1, c2, c3⟩ := (read_clean w isDir syn p).mp ⟨h1, by rw [← hp, h3]⟩
          subst c1
          rw [read_clean_st w isDir p c2 c3] at h2
          refine ⟨rfl, c2, c3, st', h2, ?_⟩
          cases h4 : fromDefinition isDir st' (decide (Path.dirname filename ∈ secureDirs e)) with
          | none => rw [h4] at h; cases h
          | some q => rw [h4] at h; cases h; rfl
  · rintro ⟨rfl, c2, c3, st', h2, h4⟩
    unfold plugIn
    dsimp only
    have hc := ((read_clean w isDir false p).mpr ⟨rfl, c2, c3⟩).2
    rw [read_clean_st w isDir p c2 c3] at hc ⊢
    dsimp only at hc ⊢
    rw [if_neg (by decide), h2]
    dsimp only
    have hp := (relocate_iff isDir filename _ st' h2).1
    unfold finish
    rw [hp, hc]
    dsimp only
    rw [h4]

theorem key_of (n : String) (k : Kind) (vs : List Validator) :
    (mkVar SEC n.toList k .unset vs).key = SEC ++ "__".toList ++ n.toList := rfl

theorem outside (n : String) (k : Kind) (vs : List Validator) (isDir : Str → Bool)
    (h : n ∉ "location" :: subDirs) :
    (mkVar SEC n.toList k .unset vs).key ≠ (locationV isDir).key ∧
    ∀ m ∈ subDirs, (mkVar SEC n.toList k .unset vs).key ≠ (dirV isDir m.toList).key := by
  constructor
  · intro e
    have e' : SEC ++ "__".toList ++ n.toList = SEC ++ "__".toList ++ "location".toList := e
    exact h (by rw [String.toList_inj.mp (key_inj.mp e')]; exact List.mem_cons_self)
  · intro m hm e
    have e' : SEC ++ "__".toList ++ n.toList = SEC ++ "__".toList ++ m.toList := e
    exact h (by rw [String.toList_inj.mp (key_inj.mp e')]; exact List.mem_cons_of_mem _ hm)

/-- **C67**: a definition is accepted if and only if its text has no syntax error and it is well formed.
Its name then is, or begins with, a full identifier, or it is a simple name with an explicit namespace. -/
theorem C67_accepted (w : World) (isDir : Str → Bool) (e : Env) (filename : Str) (syn : Bool) (p : Parser) :
    (∃ pr, plugIn w isDir e filename syn p = .ok pr) ↔ syn = false ∧ WellFormed isDir filename p := by
  constructor
  · rintro ⟨pr, h⟩
    obtain ⟨h1, h2, h3, st', h4, _⟩ := (plugIn_ok w isDir e filename syn p pr).mp h
    have v := vals w isDir p h2
    obtain ⟨a1, a2, a3, a4, a5, a6, a7⟩ := (allValid_iff w isDir p).mp h2
    refine ⟨h1, ⟨a1, a2, (whole_iff isDir p _ v).mp h3, a4, a5, a6, a7, fun hm => ?_⟩⟩
    rcases (relocate_iff isDir filename _ st' h4).2 with ⟨ht, _⟩ | ⟨_, hg, _⟩
    · rw [v.reloc.mpr hm] at ht; cases ht
    · exact hg
  · rintro ⟨h1, wf⟩
    have h2 : AllValid w isDir p := (allValid_iff w isDir p).mpr ⟨wf.movable, wf.name,
      wf.namesp.elim .inr (fun h => .inl h.1), wf.version, wf.description, wf.domain, wf.dirs⟩
    have v := vals w isDir p h2
    have h3 := (whole_iff isDir p _ v).mpr wf.namesp
    obtain ⟨st', h4⟩ := relocate_isSome isDir filename (readSt w isDir p)
      (fun ht => wf.place (v.reloc.mp ht))
    have hn : ∃ s, nameV.get st' = .str s := by
      obtain ⟨s, hs, _⟩ := v.name
      rcases (relocate_iff isDir filename _ st' h4).2 with ⟨_, e⟩ | ⟨_, _, _, _, ho⟩
      · exact ⟨s, by rw [e]; exact hs⟩
      · obtain ⟨o1, o2⟩ := outside "name" .str [notUnsetV, notEmptyV, patternV nameRx] isDir (by decide)
        exact ⟨s, by rw [ho nameV o1 o2]; exact hs⟩
    obtain ⟨s, hs⟩ := hn
    have : ∃ pr, fromDefinition isDir st' (decide (Path.dirname filename ∈ secureDirs e)) = some pr := by
      unfold fromDefinition
      rw [hs]
      exact ⟨_, rfl⟩
    obtain ⟨pr, hpr⟩ := this
    exact ⟨pr, (plugIn_ok w isDir e filename syn p pr).mpr ⟨h1, h2, h3, st', h4, hpr⟩⟩

/-! ## The attributes -/

/-- The base directory: where the definition is if the provider can be moved, else the one it says. -/
def Location (p : Parser) (filename : Str) (l : Option Str) : Prop :=
  (Movable p ∧ l = some (Path.dirname filename)) ∨
  (¬ Movable p ∧ ((∃ s, Says p "location" s ∧ l = some s) ∨ (Silent p "location" ∧ l = none)))

/-- A directory: the one the definition says, else the first of those implied by the base directory that
exists; what it says does not count if the provider can be moved. -/
def DirIs (isDir : Str → Bool) (p : Parser) (l : Option Str) (n : String) (places : List (List Str))
    (d : Option Str) : Prop :=
  (¬ Movable p ∧ ∃ s, Says p n s ∧ d = some s) ∨
  ((Movable p ∨ Silent p n) ∧
    d = l.bind fun b => (places.map fun subs => subs.foldl Path.join b).find? isDir)

theorem findSome_existing (isDir : Str → Bool) (b : Str) (places : List (List Str)) :
    (places.findSome? fun subs => existing isDir (some (subs.foldl Path.join b))) =
      (places.map fun subs => subs.foldl Path.join b).find? isDir := by
  induction places with
  | nil => rfl
  | cons a l ih =>
    rw [List.findSome?_cons, List.map_cons, List.find?_cons]
    cases h : isDir (a.foldl Path.join b) with
    | true => simp [existing, Option.filter, h]
    | false => simp only [existing, Option.filter, h]; exact ih

theorem effective_of (isDir : Str → Bool) (st : St) (x : Var) (places : List (List Str)) (l : Option Str)
    (hl : (locationV isDir).get st = match l with | some b => .str b | none => .unset)
    (hx : x.get st = .unset) :
    effective isDir st x places =
      l.bind fun b => (places.map fun subs => subs.foldl Path.join b).find? isDir := by
  unfold effective
  rw [hx]
  dsimp only
  cases l with
  | none =>
    have : ∀ subs, existing isDir (implicit isDir st subs) = none := by
      intro subs; unfold implicit; rw [hl]; rfl
    simp only [this]
    induction places with
    | nil => rfl
    | cons a l ih => rw [List.findSome?_cons]; exact ih
  | some b =>
    have : ∀ subs, implicit isDir st subs = some (subs.foldl Path.join b) := by
      intro subs; unfold implicit; rw [hl]
    simp only [this]
    exact findSome_existing isDir b places

theorem says_inj {p : Parser} {n : String} {a b : Str} (h : Says p n a) (h' : Says p n b) : a = b := by
  unfold Says at h h'
  rw [h] at h'
  cases h'
  rfl

theorem not_both {p : Parser} {n : String} {a : Str} (h : Says p n a) (h' : Silent p n) : False := by
  unfold Says at h
  unfold Silent at h'
  rw [h'] at h
  cases h

/-- A colon ends the namespace of a full identifier. -/
theorem beforeColon_spec : ∀ (s : Str), ':' ∈ s →
    ∃ rest, s = beforeColon s ++ ':' :: rest ∧ ':' ∉ beforeColon s := by
  intro s
  induction s with
  | nil => intro h; cases h
  | cons c s ih =>
    intro h
    unfold beforeColon at *
    by_cases hc : c = ':'
    · subst hc
      exact ⟨s, by simp, by simp⟩
    · obtain ⟨rest, e, hn⟩ := ih ((List.mem_cons.mp h).resolve_left fun e => hc e.symm)
      rw [List.takeWhile_cons_of_pos (by simpa using hc)]
      refine ⟨rest, by rw [List.cons_append, ← e], ?_⟩
      rw [List.mem_cons]
      rintro (h | h)
      · exact hc h.symm
      · exact hn h

theorem colon_mem {s : Str} (h : Line IsIQN s) : ':' ∈ s := by
  have : ∀ {t}, IsIQN t → ':' ∈ t := by
    rintro t ⟨y, f, o, i, _, _, _, _, _, rfl⟩
    simp
  rcases h with h | ⟨t, rfl, h⟩
  · exact this h
  · exact List.mem_append_left _ (this h)

/-- **C67**: the attributes of an accepted provider: its name; its namespace, which is the explicit one or
the part of the name before the colon; its directories; whether it is secure. -/
theorem C67_fields (w : World) (isDir : Str → Bool) (e : Env) (filename : Str) (syn : Bool) (p : Parser)
    (pr : Provider) (h : plugIn w isDir e filename syn p = .ok pr) :
    Says p "name" pr.name ∧
    ((Says p "namespace" pr.namesp ∧ pr.dedicated = true) ∨
     (Silent p "namespace" ∧ pr.dedicated = false ∧ Line IsIQN pr.name ∧
      ∃ rest, pr.name = pr.namesp ++ ':' :: rest ∧ ':' ∉ pr.namesp)) ∧
    (∃ s, Says p "version" s ∧ pr.version = .str s) ∧
    ((Silent p "description" ∧ pr.description = .unset) ∨
      ∃ s, Says p "description" s ∧ pr.description = .str s) ∧
    ((Silent p "gettext_domain" ∧ pr.domain = .none) ∨ ∃ s, Says p "gettext_domain" s ∧ pr.domain = .str s) ∧
    Location p filename pr.base ∧
    DirIs isDir p pr.base "units_dir" [["units".toList]] pr.units ∧
    DirIs isDir p pr.base "jobs_dir" [["jobs".toList]] pr.jobs ∧
    DirIs isDir p pr.base "data_dir" [["data".toList]] pr.data ∧
    DirIs isDir p pr.base "bin_dir" [["bin".toList]] pr.bin ∧
    DirIs isDir p pr.base "locale_dir" [["locale".toList], ["build".toList, "mo".toList]] pr.locale ∧
    (pr.secure = true ↔ Path.dirname filename ∈ secureDirs e) := by
  obtain ⟨_, h2, h3, st', h4, h5⟩ := (plugIn_ok w isDir e filename syn p pr).mp h
  have v := vals w isDir p h2
  have hw := (whole_iff isDir p _ v).mp h3
  generalize readSt w isDir p = st at v h4
  have hr := (relocate_iff isDir filename st st' h4).2
  -- the variables that moving does not touch
  have same : ∀ (n : String) (k : Kind) (vs : List Validator), n ∉ "location" :: subDirs →
      (mkVar SEC n.toList k .unset vs).get st' = (mkVar SEC n.toList k .unset vs).get st := by
    intro n k vs hn
    rcases hr with ⟨_, e⟩ | ⟨_, _, _, _, ho⟩
    · rw [e]
    · obtain ⟨o1, o2⟩ := outside n k vs isDir hn
      exact ho _ o1 o2
  have sname := same "name" .str [notUnsetV, notEmptyV, patternV nameRx] (by decide)
  have sns := same "namespace" .str [notEmptyV] (by decide)
  have sver := same "version" .str [notUnsetV, notEmptyV, patternV versionRx] (by decide)
  have sdesc := same "description" .str [] (by decide)
  have sdom := same "gettext_domain" .str [patternV domainRx] (by decide)
  change nameV.get st' = nameV.get st at sname
  change namespaceV.get st' = namespaceV.get st at sns
  change versionV.get st' = versionV.get st at sver
  change descriptionV.get st' = descriptionV.get st at sdesc
  change domainV.get st' = domainV.get st at sdom
  -- the location
  have hloc : ∃ l, Location p filename l ∧ (∀ b, l = some b → b ≠ []) ∧
      (locationV isDir).get st' = match l with | some b => .str b | none => .unset := by
    rcases hr with ⟨ht, e⟩ | ⟨ht, hg, hl, _⟩
    · have hm : ¬ Movable p := fun hm => by rw [v.reloc.mpr hm] at ht; cases ht
      rw [e]
      rcases v.dirs "location" (by simp) with ⟨hs, e2⟩ | ⟨s, hne, hs, e2⟩
      · exact ⟨none, .inr ⟨hm, .inr ⟨hs, rfl⟩⟩, by simp, e2⟩
      · exact ⟨some s, .inr ⟨hm, .inl ⟨s, hs, rfl⟩⟩, by intro b hb; cases hb; exact hne, e2⟩
    · refine ⟨some (Path.dirname filename), .inl ⟨v.reloc.mp ht, rfl⟩, ?_, hl⟩
      intro b hb
      cases hb
      obtain ⟨⟨r, hr⟩, _⟩ := hg
      rw [hr]
      simp
  obtain ⟨l, hL, hlne, hl⟩ := hloc
  have hdir : ∀ n ∈ subDirs, ∀ places,
      DirIs isDir p l n places (effective isDir st' (dirV isDir n.toList) places) := by
    intro n hn places
    have hn' : n ∈ ["location", "units_dir", "jobs_dir", "data_dir", "bin_dir", "locale_dir"] :=
      List.mem_cons_of_mem _ hn
    rcases hr with ⟨ht, e⟩ | ⟨ht, hg, _, hu, _⟩
    · have hm : ¬ Movable p := fun hm => by rw [v.reloc.mpr hm] at ht; cases ht
      rcases v.dirs n hn' with ⟨hs, e2⟩ | ⟨s, hne, hs, e2⟩
      · exact .inr ⟨.inr hs, effective_of isDir st' _ places l hl (by rw [e]; exact e2)⟩
      · refine .inl ⟨hm, s, hs, ?_⟩
        unfold effective
        rw [e, e2]
    · exact .inr ⟨.inl (v.reloc.mp ht), effective_of isDir st' _ places l hl (hu n hn)⟩
  obtain ⟨n, en, hn⟩ := v.name
  unfold fromDefinition at h5
  rw [sname, en] at h5
  dsimp only at h5
  have hbase : orNone ((locationV isDir).get st') = l := by
    rw [hl]
    cases l with
    | none => rfl
    | some b =>
      cases b with
      | nil => exact absurd rfl (hlne [] rfl)
      | cons => rfl
  have hpr := (Option.some.inj h5).symm
  subst hpr
  dsimp only
  rw [hbase, sns, sver, sdesc, sdom]
  refine ⟨hn, ?_, ?_, v.description, ?_, hL, hdir "units_dir" (by decide) _, hdir "jobs_dir" (by decide) _,
    hdir "data_dir" (by decide) _, hdir "bin_dir" (by decide) _, hdir "locale_dir" (by decide) _, ?_⟩
  · rcases v.namesp with ⟨hs, e2⟩ | ⟨s, hne, hs, e2⟩
    · rw [e2]
      rcases hw with ⟨s, hs', _⟩ | ⟨_, s, hs', hi⟩
      · exact (not_both hs' hs).elim
      · have := says_inj hs' hn
        subst this
        exact .inr ⟨hs, rfl, hi, beforeColon_spec s (colon_mem hi)⟩
    · rw [e2]
      cases s with
      | nil => exact absurd rfl hne
      | cons c s => exact .inl ⟨hs, rfl⟩
  · exact v.version
  · rcases v.domain with ⟨hs, e2⟩ | ⟨s, hs, e2⟩
    · rw [e2, if_pos rfl]; exact .inl ⟨hs, rfl⟩
    · rw [e2, if_neg (by simp)]; exact .inr ⟨s, hs, rfl⟩
  · exact decide_eq_true_iff

/-! ## Secure providers -/

/-- The directories of the administrator. -/
def adminDirs : List Str :=
  ["/usr/local/share/plainbox-providers-1".toList, "/usr/share/plainbox-providers-1".toList]

/-- Neither variable says anything. -/
def NoSnap (e : Env) : Prop := (e.snap = none ∨ e.snap = some []) ∧ (e.snapAppPath = none ∨ e.snapAppPath = some [])

/-- **C67**, partial: outside of a snap, an accepted provider is secure exactly when its definition is in a
directory of the administrator; `PROVIDERPATH` and `XDG_DATA_HOME` do not matter.  (With `SNAP` in the
environment see `C67_snap_violated`.) -/
theorem C67_secure_partial (w : World) (isDir : Str → Bool) (e : Env) (filename : Str) (syn : Bool)
    (p : Parser) (pr : Provider) (h : plugIn w isDir e filename syn p = .ok pr) (hs : NoSnap e) :
    pr.secure = true ↔ Path.dirname filename ∈ adminDirs := by
  rw [(C67_fields w isDir e filename syn p pr h).2.2.2.2.2.2.2.2.2.2.2]
  have : secureDirs e = adminDirs := by
    unfold secureDirs
    obtain ⟨h1, h2⟩ := hs
    rcases h1 with h1 | h1 <;> rcases h2 with h2 | h2 <;> rw [h1, h2] <;> rfl
  rw [this]

/-- **C67**: without `PROVIDERPATH` the directories searched are the secure ones and that of the user;
with it they are its parts. -/
theorem C67_search (e : Env) :
    (e.providerPath = none → searchDirs e = secureDirs e ++ [userDir e]) ∧
    (∀ dirs : List Str, dirs ≠ [] → (∀ d ∈ dirs, ':' ∉ d) →
      e.providerPath = some (dirs.intersperse [':']).flatten → searchDirs e = dirs) := by
  refine ⟨fun h => by rw [searchDirs, h], ?_⟩
  intro dirs hne hd h
  rw [searchDirs, h]
  dsimp only
  clear h
  have one : ∀ d : Str, ':' ∉ d → splitColon d = [d] := by
    intro d
    induction d with
    | nil => intro _; rfl
    | cons c d ih =>
      intro h
      rw [List.mem_cons, not_or] at h
      rw [splitColon, if_neg (fun e => h.1 e.symm), ih h.2]
  have two : ∀ (d rest : Str), ':' ∉ d → splitColon (d ++ ':' :: rest) = d :: splitColon rest := by
    intro d rest
    induction d with
    | nil => intro _; rw [List.nil_append, splitColon, if_pos rfl]
    | cons c d ih =>
      intro h
      rw [List.mem_cons, not_or] at h
      rw [List.cons_append, splitColon, if_neg (fun e => h.1 e.symm), ih h.2]
  induction dirs with
  | nil => exact absurd rfl hne
  | cons d dirs ih =>
    cases dirs with
    | nil =>
      show splitColon ([d].flatten) = [d]
      rw [List.flatten_cons, List.flatten_nil, List.append_nil]
      exact one d (hd d List.mem_cons_self)
    | cons d2 dirs =>
      have e1 : (List.intersperse [':'] (d :: d2 :: dirs)).flatten =
          d ++ ':' :: (List.intersperse [':'] (d2 :: dirs)).flatten := rfl
      rw [e1, two d _ (hd d List.mem_cons_self),
        ih (by simp) fun z hz => hd z (List.mem_cons_of_mem _ hz)]

/-! ## Examples and disagreements -/

/-- A parser that knows these options. -/
def exParser (opts : List (String × String)) : Parser := fun sec n =>
  if sec = SEC then
    match opts.find? (fun o => decide (o.1.toList = n)) with
    | some o => .value (some o.2.toList)
    | none => .missing
  else .missing

def exWorld : World := ⟨fun _ => none, fun _ => none⟩
def exEnv : Env := ⟨none, none, fun _ => none, none, "/home/u".toList, none⟩
def exIsDir (s : Str) : Bool :=
  decide (s ∈ ["/p".toList, "/p/units".toList, "/p/build/mo".toList, "/else".toList, "/q".toList])

def exGood : Parser := exParser [("name", "2013.com.example:test"), ("version", "1.0"),
  ("location", "/p"), ("bin_dir", "/else")]

def exProvider : Provider :=
  ⟨"2013.com.example:test".toList, "2013.com.example".toList, false, .str "1.0".toList, .unset, true, .none,
    some "/p/units".toList, none, none, some "/else".toList, some "/p/build/mo".toList, some "/p".toList⟩

/-- An accepted definition that uses explicit and implied directories. -/
example : plugIn exWorld exIsDir exEnv "/usr/share/plainbox-providers-1/x.provider".toList false exGood =
    .ok exProvider := by decide +kernel

/-- So it is well formed. -/
example : WellFormed exIsDir "/usr/share/plainbox-providers-1/x.provider".toList exGood :=
  ((C67_accepted exWorld exIsDir exEnv _ false exGood).mp ⟨exProvider, by decide +kernel⟩).2

/-- A provider that can be moved ignores `bin_dir`; one outside the directories of the administrator is
not secure. -/
example : plugIn exWorld exIsDir exEnv "/p/x.provider".toList false
      (exParser [("name", "test"), ("namespace", "ns"), ("version", "1"), ("relocatable", "Yes"),
        ("bin_dir", "/else")]) =
    .ok ⟨"test".toList, "ns".toList, true, .str "1".toList, .unset, false, .none, some "/p/units".toList, none,
      none, none, some "/p/build/mo".toList, some "/p".toList⟩ := by decide +kernel

/-- A simple name needs a namespace. -/
example : plugIn exWorld exIsDir exEnv "/p/x.provider".toList false
    (exParser [("name", "test"), ("version", "1")]) = .plugInError := by decide +kernel

/-- **C67** is violated by patterns that lack an anchor: with an explicit namespace any text may follow an
identifier in a name, and versions and translation domains are hardly checked. -/
theorem C67_name_violated :
    plugIn exWorld exIsDir exEnv "/p/x.provider".toList false
      (exParser [("name", "a.b:c / and: more"), ("namespace", "n s::"), ("version", "1 banana"),
        ("gettext_domain", "x/../y")]) =
    .ok ⟨"a.b:c / and: more".toList, "n s::".toList, true, .str "1 banana".toList, .unset, false,
      .str "x/../y".toList, none, none, none, none, none, none⟩ ∧
    ¬ Line IsIQN "a.b:c / and: more".toList ∧ ¬ Line Simple "a.b:c / and: more".toList := by
  refine ⟨by decide +kernel, ?_, ?_⟩
  · rw [← C67_iqn]; decide +kernel
  · rintro (⟨_, h⟩ | ⟨t, e, _, h⟩)
    · have := h ' ' (by decide +kernel)
      rcases this with ⟨h, _⟩ | ⟨h, _⟩ | h
      · exact absurd h (by decide)
      · exact absurd h (by decide)
      · exact absurd h (by decide)
    · have : ("a.b:c / and: more".toList).getLast? = some '\n' := by rw [e]; simp
      exact absurd this (by decide +kernel)

/-- **C67** is violated inside a snap, and by everyone who sets `SNAP`: providers in a directory of the
user's choice are secure, those of the administrator are not. -/
theorem C67_snap_violated (w : World) (isDir : Str → Bool) (e : Env) (syn : Bool) (p : Parser) (root : Str)
    (filename : Str) (pr : Provider) (h : plugIn w isDir e filename syn p = .ok pr) (hne : root ≠ [])
    (hs : e.snap = some root) (names : List Str)
    (hl : e.listDir (Path.join root "providers".toList) = some names) :
    pr.secure = true ↔ ∃ n ∈ names, Path.dirname filename = Path.join (Path.join root "providers".toList) n := by
  rw [(C67_fields w isDir e filename syn p pr h).2.2.2.2.2.2.2.2.2.2.2]
  have : secureDirs e = names.map fun n => Path.join (Path.join root "providers".toList) n := by
    unfold secureDirs
    rw [hs]
    cases root with
    | nil => exact absurd rfl hne
    | cons c s =>
      show (match e.listDir (Path.join (c :: s) "providers".toList) with
        | some l => l.map fun n => Path.join (Path.join (c :: s) "providers".toList) n
        | none => []) = _
      rw [hl]
  rw [this, List.mem_map]
  constructor
  · rintro ⟨n, hn, h⟩; exact ⟨n, hn, h.symm⟩
  · rintro ⟨n, hn, h⟩; exact ⟨n, hn, h.symm⟩

def exSnap : Env := ⟨some "/home/u".toList, none,
  fun d => if d = "/home/u/providers".toList then some ["x".toList] else none, none, "/home/u".toList, none⟩

example : (match plugIn exWorld exIsDir exSnap "/home/u/providers/x/x.provider".toList false exGood with
    | .ok pr => pr.secure
    | _ => false) = true ∧
    (match plugIn exWorld exIsDir exSnap "/usr/share/plainbox-providers-1/x.provider".toList false exGood with
    | .ok pr => !pr.secure
    | _ => false) = true := by decide +kernel

/-- **C67** is violated by definitions that are not refused but let another exception out: one without a
name (or with a refused name) and without a namespace, one with a syntax error, a relative path to a
definition that can be moved. -/
theorem C67_raises_violated :
    plugIn exWorld exIsDir exEnv "/p/x.provider".toList false (exParser [("version", "1")]) = .raises ∧
    plugIn exWorld exIsDir exEnv "/p/x.provider".toList false
      (exParser [("name", "UPPER"), ("version", "1")]) = .raises ∧
    plugIn exWorld exIsDir exEnv "/p/x.provider".toList true exGood = .raises ∧
    plugIn exWorld exIsDir exEnv "p/x.provider".toList false
      (exParser [("name", "a.b:c"), ("version", "1"), ("relocatable", "1")]) = .raises := by decide +kernel

end Verif.Definition
