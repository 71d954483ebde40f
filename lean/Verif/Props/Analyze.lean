import Verif.Model.Analyze
import Verif.Props.Duration
import Verif.Props.Checksum
import Mathlib.Data.List.Forall2
import Mathlib.Tactic.Linarith
import Mathlib.Tactic.NormNum

/-!
# C115: what `plainbox dev analyze` tells about the selected jobs

* `C115_order`, `C115_stopped`: the reports that are asked for, in their order, and what is left of them if one of them fails;
* `C115_sections`: what is in the reports; `C115_clock`, `C115_clock_unique`, `C115_rounded`: how durations are told;
* `C115_works`: when nothing fails;
* violations: jobs of the kind `local` are said to need the tester (`C115_local_violated`), the report about definitions fails whenever there is a job (`C115_validation_violated`), the report
  about packages never tells any (`C115_packages_violated`, `C115_packages_none`, `C115_packages_silent`).
-/

namespace Verif.Analyze

/-! ## Specification -/

/-- The text has this many digits, and this is the number they make. -/
def Digits (w : Nat) (t : Str) (n : Nat) : Prop :=
  t.length = w ∧ (∀ c ∈ t, c.isDigit = true) ∧ Nat.ofDigitChars 10 t 0 = n

/-- The text tells that many microseconds: days if there are any, hours, minutes, seconds and what is left of a second. -/
def Tells (t : Str) (us : Int) : Prop :=
  ∃ (d : Int) (h m s u : Nat) (dt mt st ut : Str), h < 24 ∧ m < 60 ∧ s < 60 ∧ u < 1000000 ∧
    us = (((d * 24 + h) * 60 + m) * 60 + s) * 1000000 + u ∧
    dt = (if d = 0 then [] else if d = 1 ∨ d = -1 then (toString d).toList ++ " day, ".toList else (toString d).toList ++ " days, ".toList) ∧
    Digits 2 mt m ∧ Digits 2 st s ∧ (u = 0 ∧ ut = [] ∨ 0 < u ∧ ∃ f, Digits 6 f u ∧ ut = '.' :: f) ∧
    t = dt ++ (toString h).toList ++ [':'] ++ mt ++ [':'] ++ st ++ ut

/-- The text stands in the middle of a line of 80 equal signs. -/
def Heads (t line : Str) : Prop :=
  ∃ a b, line = List.replicate a '=' ++ t ++ List.replicate b '=' ∧ a + t.length + b = 80 ∧ a ≤ b ∧ b ≤ a + 1

/-- The text tells that many seconds, to the nearest microsecond. -/
def TellsSeconds (q : Rat) (t : Str) : Prop := ∃ us : Int, |(us : Rat) - q * 1000000| ≤ 1 / 2 ∧ Tells t us

/-- The text tells these seconds, or has these words if they are not known. -/
def TellsEstimate (unknown : String) : Option Rat → Str → Prop
  | none, t => t = unknown.toList
  | some q, t => TellsSeconds q t

/-- Less than a thousand million days. -/
def Fits : Option Rat → Prop
  | none => True
  | some q => -86400 * 999999999 + 1 ≤ q ∧ q + 1 ≤ 86400 * 1000000000

/-- A line about a job: the id in a column of that width, whether it needs the tester in a column of 11, and the estimate. -/
def Row (w : Nat) (j : Job) (line : Str) : Prop :=
  ∃ a b word t, line = j.id ++ List.replicate a ' ' ++ " : ".toList ++ word ++ List.replicate b ' ' ++ " : ".toList ++ t ∧
    j.id.length + a = w ∧ word.length + b = 11 ∧
    (j.plugin ∈ [some "shell", some "resource", some "attachment"] ∧ word = "automatic".toList ∨
      j.plugin ∉ [some "shell", some "resource", some "attachment"] ∧ word = "interactive".toList) ∧
    TellsEstimate "unknown" j.seconds t

/-- The length of the longest id. -/
def Longest (l : List Job) (w : Nat) : Prop := (∀ j ∈ l, j.id.length ≤ w) ∧ (l = [] ∨ ∃ j ∈ l, j.id.length = w)

/-- Jobs that run without the tester. -/
def ByItself (j : Job) : Bool := j.plugin == some "shell" || j.plugin == some "resource" || j.plugin == some "attachment"

/-- The estimate for some jobs if all that need one have it: this much for each and their own estimates. -/
def Sum (each : Rat) (needs : Job → Bool) (l : List Job) (x : Option Rat) : Prop :=
  if ∀ j ∈ l, needs j = true → j.seconds.isSome = true then x = some (each * l.length + (l.map fun j => j.seconds.getD 0).sum)
  else x = none

/-- The reports. -/
inductive Kind
  | stats | dependencies | interactivity | estimates | validation | requirements | desired | runList
deriving DecidableEq

/-- The reports that are asked for, in their order. -/
def wanted (o : Options) : List Kind :=
  [(o.stats, Kind.stats), (o.dependencies, .dependencies), (o.interactivity, .interactivity), (o.estimates, .estimates),
    (o.validation, .validation), (o.requirements, .requirements), (o.desired, .desired), (o.runList, .runList)].filterMap
    fun p => if p.1 then some p.2 else none

/-- The lines of a report. -/
def Section (s : Session) : Kind → List Str → Prop
  | .stats, l => ∃ h, Heads "[General Statistics]".toList h ∧
      l = [h, "Known jobs: ".toList ++ (toString s.known.length).toList, "Selected jobs: ".toList ++ (toString s.selected.length).toList]
  | .dependencies, l => ∃ h, Heads "[Dependency Report]".toList h ∧
      (s.problems = [] ∧ l = [h, "Selected jobs have no dependency problems".toList] ∨
        s.problems ≠ [] ∧ ∃ r, l = h :: r ∧ List.Forall₂ (fun p x => x = " * ".toList ++ p) s.problems r)
  | .interactivity, l => ∃ h, Heads "[Interactivity Report]".toList h ∧
      ∃ w r, Longest s.runList w ∧ l = h :: r ∧ List.Forall₂ (Row w) s.runList r
  | .estimates, l => ∃ h, Heads "[Estimated Duration Report]".toList h ∧
      ∃ a m x y z, Sum 0 (fun _ => true) (s.runList.filter ByItself) a ∧
        Sum 30 (·.command) (s.runList.filter (!ByItself ·)) m ∧
        TellsEstimate "cannot estimate" a x ∧ TellsEstimate "cannot estimate" m y ∧
        TellsEstimate "cannot estimate" (a.bind fun q => m.map (q + ·)) z ∧
        l = [h, "Estimated test duration:".toList, "   automated tests: ".toList ++ x, "   manual tests: ".toList ++ y,
          "   total: ".toList ++ z]
  | .validation, l => ∃ h, Heads "[Validation Report]".toList h ∧ s.runList = [] ∧ l = [h]
  | .requirements, l => ∃ h, Heads "[Requirement Report]".toList h ∧ l = [h]
  | .desired, l => ∃ h, Heads "[Desired Job List]".toList h ∧ l = h :: s.desired.map (·.id)
  | .runList, l => ∃ h, Heads "[Run List]".toList h ∧ l = h :: s.runList.map (·.id)

/-! ## Lemmas -/

theorem toString_nat (n : Nat) : (toString n).toList = number n := by
  rw [Nat.toString_eq_repr, Nat.repr_eq_ofList_toDigits]
  exact String.toList_ofList

theorem zeros_digits {w n : Nat} (hw : 0 < w) (h : n < 10 ^ w) : Digits w (zeros w n) n := by
  have hl : (number n).length ≤ w := (Nat.length_toDigits_le_iff (by omega) hw).2 h
  refine ⟨?_, ?_, ?_⟩
  · unfold zeros; rw [List.length_append, List.length_replicate]; omega
  · intro c hc
    unfold zeros at hc
    rcases List.mem_append.1 hc with hc | hc
    · rw [List.eq_of_mem_replicate hc]; rfl
    · exact Checksum.digits_digit n c hc
  · unfold zeros
    generalize w - (number n).length = k
    have h0 : Nat.ofDigitChars 10 (List.replicate k '0' ++ number n) 0 = Nat.ofDigitChars 10 (number n) 0 := by
      induction k with
      | zero => rfl
      | succ k ih => rw [List.replicate_succ, List.cons_append, Nat.ofDigitChars_cons]; exact ih
    rw [h0]
    exact Nat.ofDigitChars_toDigits (by omega) (by omega)

theorem toString_int (d : Int) : (toString d).toList = (if d < 0 then ['-'] else []) ++ number d.natAbs := by
  cases d with
  | ofNat n =>
    rw [if_neg (by simp)]
    exact toString_nat n
  | negSucc n =>
    rw [if_pos (Int.negSucc_lt_zero n)]
    show (("-" : String) ++ Nat.repr (n + 1)).toList = _
    rw [String.toList_append, Nat.repr_eq_ofList_toDigits]
    exact congrArg (['-'] ++ ·) String.toList_ofList

/-- **C115**, durations: the text of a duration tells days, hours, minutes, seconds and microseconds that together make the duration. -/
theorem C115_clock (us : Int) : Tells (clock us) us := by
  have hr : 0 ≤ us % day := Int.emod_nonneg _ (by decide)
  have hr2 : us % day < day := Int.emod_lt_of_pos _ (by decide)
  have hd : day * (us / day) + us % day = us := Int.mul_ediv_add_emod us day
  obtain ⟨r, hrr⟩ := Int.eq_ofNat_of_zero_le hr
  have hrt : (us % day).toNat = r := by rw [hrr]; rfl
  unfold day at hr2 hd
  refine ⟨us / day, r / 1000000 / 3600, r / 1000000 / 60 % 60, r / 1000000 % 60, r % 1000000, days (us / day), zeros 2 (r / 1000000 / 60 % 60),
    zeros 2 (r / 1000000 % 60), (if r % 1000000 = 0 then [] else '.' :: zeros 6 (r % 1000000)), ?_, Nat.mod_lt _ (by omega), Nat.mod_lt _ (by omega), Nat.mod_lt _ (by omega),
    ?_, ?_, zeros_digits (by omega) ?_, zeros_digits (by omega) ?_, ?_, ?_⟩
  · unfold day at hrr; omega
  · unfold day at hrr ⊢; omega
  · unfold days
    generalize us / day = d
    by_cases h0 : d = 0
    · rw [if_pos h0, if_pos h0]
    · rw [if_neg h0, if_neg h0, toString_int]
      by_cases h1 : d = 1 ∨ d = -1
      · rw [if_pos h1, if_pos (by omega : d.natAbs = 1)]
        simp [List.append_assoc]
      · rw [if_neg h1, if_neg (by omega : ¬ d.natAbs = 1)]
        simp [List.append_assoc]
  · have := Nat.mod_lt (r / 1000000 / 60) (by omega : 0 < 60); omega
  · have := Nat.mod_lt (r / 1000000) (by omega : 0 < 60); omega
  · by_cases h : r % 1000000 = 0
    · exact .inl ⟨h, if_pos h⟩
    · exact .inr ⟨by omega, _, zeros_digits (by omega) (by have := Nat.mod_lt r (by omega : 0 < 1000000); omega), if_neg h⟩
  · unfold clock
    dsimp only
    rw [hrt, toString_nat]
    simp [List.append_assoc]

theorem digits_unique {w a b : Nat} {x y r q : Str} (ha : Digits w x a) (hb : Digits w y b) (h : x ++ r = y ++ q) : a = b ∧ r = q := by
  obtain ⟨e, h2⟩ := List.append_inj h (ha.1.trans hb.1.symm)
  subst e
  exact ⟨ha.2.2.symm.trans hb.2.2, h2⟩

theorem number_split {a b : Nat} {r q : Str} (hr : ∀ c t, r = c :: t → c.isDigit = false) (hq : ∀ c t, q = c :: t → c.isDigit = false)
    (h : (toString a).toList ++ r = (toString b).toList ++ q) : a = b ∧ r = q := by
  rw [toString_nat, toString_nat] at h
  obtain ⟨e, h2⟩ := Checksum.prefix_split (p := Char.isDigit) (Checksum.digits_digit a) (Checksum.digits_digit b) hr hq h
  exact ⟨Checksum.digits_inj e, h2⟩

/-- The text of a number of days is not empty and has no space. -/
theorem int_text (d : Int) : (toString d).toList ≠ [] ∧ ∀ c ∈ (toString d).toList, (c != ' ') = true := by
  rw [toString_int]
  constructor
  · intro h
    have := (List.append_eq_nil_iff.1 h).2
    exact Nat.toDigits_ne_nil this
  · intro c hc
    rcases List.mem_append.1 hc with hc | hc
    · by_cases h : d < 0
      · rw [if_pos h] at hc; rw [List.mem_singleton.1 hc]; rfl
      · rw [if_neg h] at hc; cases hc
    · have := Checksum.digits_digit _ c hc
      rw [bne_iff_ne]
      rintro rfl
      cases this

theorem int_inj {a b : Int} (h : (toString a).toList = (toString b).toList) : a = b := by
  rw [toString_int, toString_int] at h
  by_cases ha : a < 0 <;> by_cases hb : b < 0
  · rw [if_pos ha, if_pos hb] at h
    have := Checksum.digits_inj (List.append_cancel_left h); omega
  · rw [if_pos ha, if_neg hb] at h
    exfalso
    have : '-' ∈ number b.natAbs := by rw [List.nil_append] at h; rw [← h]; simp
    have := Checksum.digits_digit _ _ this
    cases this
  · rw [if_neg ha, if_pos hb] at h
    exfalso
    have : '-' ∈ number a.natAbs := by rw [List.nil_append] at h; rw [h]; simp
    have := Checksum.digits_digit _ _ this
    cases this
  · rw [if_neg ha, if_neg hb] at h
    have := Checksum.digits_inj (List.append_cancel_left h); omega

/-- What is behind the days has no space. -/
theorem rest_no_space {h m s u : Nat} {mt st ut : Str} (hm : Digits 2 mt m) (hs : Digits 2 st s)
    (hu : u = 0 ∧ ut = [] ∨ 0 < u ∧ ∃ f, Digits 6 f u ∧ ut = '.' :: f) :
    ∀ c ∈ (toString h).toList ++ ([':'] ++ (mt ++ ([':'] ++ (st ++ ut)))), (c != ' ') = true := by
  have hd : ∀ c : Char, c.isDigit = true → (c != ' ') = true := by
    intro c hc
    rw [bne_iff_ne]
    rintro rfl
    cases hc
  intro c hc
  rcases List.mem_append.1 hc with hc | hc
  · rw [toString_nat] at hc; exact hd c (Checksum.digits_digit _ c hc)
  rcases List.mem_append.1 hc with hc | hc
  · rw [List.mem_singleton.1 hc]; rfl
  rcases List.mem_append.1 hc with hc | hc
  · exact hd c (hm.2.1 c hc)
  rcases List.mem_append.1 hc with hc | hc
  · rw [List.mem_singleton.1 hc]; rfl
  rcases List.mem_append.1 hc with hc | hc
  · exact hd c (hs.2.1 c hc)
  · rcases hu with ⟨_, rfl⟩ | ⟨_, f, hf, rfl⟩
    · cases hc
    · rcases List.mem_cons.1 hc with hc | hc
      · rw [hc]; rfl
      · exact hd c (hf.2.1 c hc)

theorem rest_unique {h m s u h' m' s' u' : Nat} {mt st ut mt' st' ut' : Str} (hm : Digits 2 mt m) (hs : Digits 2 st s)
    (hu : u = 0 ∧ ut = [] ∨ 0 < u ∧ ∃ f, Digits 6 f u ∧ ut = '.' :: f) (hm' : Digits 2 mt' m') (hs' : Digits 2 st' s')
    (hu' : u' = 0 ∧ ut' = [] ∨ 0 < u' ∧ ∃ f, Digits 6 f u' ∧ ut' = '.' :: f)
    (e : (toString h).toList ++ ([':'] ++ (mt ++ ([':'] ++ (st ++ ut)))) =
      (toString h').toList ++ ([':'] ++ (mt' ++ ([':'] ++ (st' ++ ut'))))) : h = h' ∧ m = m' ∧ s = s' ∧ u = u' := by
  have colon : ∀ (x : Str) c t, [':'] ++ x = c :: t → c.isDigit = false := by
    intro x c t h
    rw [← (List.cons.inj h).1]; rfl
  obtain ⟨e1, e⟩ := number_split (colon _) (colon _) e
  obtain ⟨e2, e⟩ := digits_unique hm hm' (List.append_cancel_left e)
  obtain ⟨e3, e⟩ := digits_unique hs hs' (List.append_cancel_left e)
  refine ⟨e1, e2, e3, ?_⟩
  rcases hu with ⟨h1, rfl⟩ | ⟨_, f, hf, rfl⟩ <;> rcases hu' with ⟨h2, rfl⟩ | ⟨_, g, hg, rfl⟩
  · omega
  · cases e
  · cases e
  · have := (List.cons.inj e).2
    exact (digits_unique (r := []) (q := []) hf hg (by rw [this])).1

/-- **C115**, durations: a text tells one duration only. -/
theorem C115_clock_unique {t : Str} {a b : Int} (ha : Tells t a) (hb : Tells t b) : a = b := by
  obtain ⟨d, h, m, s, u, dt, mt, st, ut, _, _, _, _, ea, hd, hm, hs, hu, e⟩ := ha
  obtain ⟨d', h', m', s', u', dt', mt', st', ut', _, _, _, _, eb, hd', hm', hs', hu', e'⟩ := hb
  rw [e] at e'
  simp only [List.append_assoc] at e'
  have n1 := rest_no_space (h := h) hm hs hu
  have n2 := rest_no_space (h := h') hm' hs' hu'
  have key : d = d' ∧ (toString h).toList ++ ([':'] ++ (mt ++ ([':'] ++ (st ++ ut)))) =
      (toString h').toList ++ ([':'] ++ (mt' ++ ([':'] ++ (st' ++ ut')))) := by
    have form : ∀ (d : Int) (dt : Str), d ≠ 0 → dt = (if d = 0 then [] else if d = 1 ∨ d = -1 then (toString d).toList ++ " day, ".toList
        else (toString d).toList ++ " days, ".toList) → ∃ y, dt = (toString d).toList ++ ' ' :: y ∧
          y = if d = 1 ∨ d = -1 then "day, ".toList else "days, ".toList := by
      intro d dt h0 h
      rw [if_neg h0] at h
      by_cases h1 : d = 1 ∨ d = -1
      · rw [if_pos h1] at h; exact ⟨_, h, by rw [if_pos h1]; rfl⟩
      · rw [if_neg h1] at h; exact ⟨_, h, by rw [if_neg h1]; rfl⟩
    by_cases h0 : d = 0 <;> by_cases h0' : d' = 0
    · rw [if_pos h0] at hd; rw [if_pos h0'] at hd'
      subst hd; subst hd'
      exact ⟨by omega, e'⟩
    · exfalso
      obtain ⟨y, hy, _⟩ := form d' dt' h0' hd'
      rw [if_pos h0] at hd
      subst hd
      have hmem : ' ' ∈ [] ++ ((toString h).toList ++ ([':'] ++ (mt ++ ([':'] ++ (st ++ ut))))) := by
        rw [e', hy]; simp
      have := n1 ' ' hmem
      cases this
    · exfalso
      obtain ⟨y, hy, _⟩ := form d dt h0 hd
      rw [if_pos h0'] at hd'
      subst hd'
      have hmem : ' ' ∈ [] ++ ((toString h').toList ++ ([':'] ++ (mt' ++ ([':'] ++ (st' ++ ut'))))) := by
        rw [← e', hy]; simp
      have := n2 ' ' hmem
      cases this
    · obtain ⟨y, hy, hyy⟩ := form d dt h0 hd
      obtain ⟨y', hy', hyy'⟩ := form d' dt' h0' hd'
      rw [hy, hy', List.append_assoc, List.append_assoc] at e'
      have sp : ∀ (x : Str) c t, ' ' :: x = c :: t → (c != ' ') = false := by
        intro x c t h
        rw [← (List.cons.inj h).1]; rfl
      obtain ⟨e1, e2⟩ := Checksum.prefix_split (p := (· != ' ')) (int_text d).2 (int_text d').2 (sp _) (sp _) e'
      have hdd := int_inj e1
      subst hdd
      rw [← hyy] at hyy'
      subst hyy'
      refine ⟨rfl, List.append_cancel_left (List.cons.inj e2).2⟩
  obtain ⟨r1, r2, r3, r4⟩ := rest_unique hm hs hu hm' hs' hu' key.2
  obtain ⟨r0, _⟩ := key
  rw [ea, eb, r0, r1, r2, r3, r4]

theorem nearest_spec (q : Rat) : |(nearest q : Rat) - q| ≤ 1 / 2 := by
  have h1 := Int.floor_le q
  have h2 := Int.lt_floor_add_one q
  unfold nearest
  dsimp only
  by_cases a : q - (⌊q⌋ : Rat) < 1 / 2
  · rw [if_pos a, abs_le]; constructor <;> linarith
  · rw [if_neg a]
    by_cases b : 1 / 2 < q - (⌊q⌋ : Rat)
    · rw [if_pos b, abs_le]; push_cast; constructor <;> linarith
    · rw [if_neg b]
      by_cases c : ⌊q⌋ % 2 = 0
      · rw [if_pos c, abs_le]; constructor <;> linarith
      · rw [if_neg c, abs_le]; push_cast; constructor <;> linarith

/-- **C115**, durations: seconds are rounded to the nearest microsecond, and only about a thousand million days are too many. -/
theorem C115_rounded (q : Rat) :
    (∀ us, timedelta q = .ok us → |(us : Rat) - q * 1000000| ≤ 1 / 2) ∧
    (Fits (some q) → ∃ us, timedelta q = .ok us) ∧
    (86400 * 1000000000 ≤ q ∨ q + 1 ≤ -86400 * 999999999 → timedelta q = .error .overflow) := by
  have hn := nearest_spec (q * 1000000)
  rw [abs_le] at hn
  unfold timedelta
  dsimp only
  generalize nearest (q * 1000000) = us at hn ⊢
  have hd := Int.mul_ediv_add_emod us day
  have hr : 0 ≤ us % day := Int.emod_nonneg _ (by decide)
  have hr2 : us % day < day := Int.emod_lt_of_pos _ (by decide)
  refine ⟨?_, ?_, ?_⟩
  · intro v h
    split at h
    · injection h with h
      subst h
      rw [abs_le]; exact hn
    · cases h
  · rintro ⟨h1, h2⟩
    refine ⟨us, if_pos ?_⟩
    have l1 : ((-86400000000 * 999999999 : Int) : Rat) ≤ us := by push_cast; linarith
    have l2 : (us : Rat) < ((86400000000 * 1000000000 : Int) : Rat) := by push_cast; linarith
    have l1' := Int.cast_le.1 l1
    have l2' := Int.cast_lt.1 l2
    unfold day at *
    omega
  · intro h
    refine if_neg ?_
    rcases h with h | h
    · have l : ((86400000000 * 1000000000 : Int) : Rat) ≤ us + 1 / 2 := by push_cast; linarith
      have l' : ((86400000000 * 1000000000 - 1 : Int) : Rat) < us := by push_cast at *; linarith
      have := Int.cast_lt.1 l'
      unfold day at *
      omega
    · have l : (us : Rat) < ((-86400000000 * 999999999 : Int) : Rat) := by push_cast; linarith
      have := Int.cast_lt.1 l
      unfold day at *
      omega

theorem duration_spec {unknown : String} {x : Option Rat} {t : Str} (h : duration unknown x = .ok t) : TellsEstimate unknown x t := by
  cases x with
  | none => injection h with h; exact h.symm
  | some q =>
    unfold duration at h
    dsimp only at h
    cases hq : timedelta q with
    | error e => rw [hq] at h; cases h
    | ok us =>
      rw [hq] at h
      injection h with h
      subst h
      exact ⟨us, (C115_rounded q).1 us hq, C115_clock us⟩

theorem duration_err {unknown : String} {x : Option Rat} {e : Err} (h : duration unknown x = .error e) : e = .overflow ∧ ¬ Fits x := by
  cases x with
  | none => cases h
  | some q =>
    unfold duration at h
    dsimp only at h
    cases hq : timedelta q with
    | ok us => rw [hq] at h; cases h
    | error e' =>
      rw [hq] at h
      injection h with h
      subst h
      constructor
      · unfold timedelta at hq
        dsimp only at hq
        split at hq
        · cases hq
        · injection hq with hq; exact hq.symm
      · intro hf
        obtain ⟨us, hus⟩ := (C115_rounded q).2.1 hf
        rw [hus] at hq; cases hq

theorem heading_spec {t : Str} (h : t.length ≤ 80) : Heads t (heading t) := by
  refine ⟨_, _, rfl, ?_, ?_, ?_⟩ <;> omega

theorem width_ge (l : List Job) (n : Nat) :
    n ≤ l.foldl (fun n j => max n j.id.length) n ∧ (∀ j ∈ l, j.id.length ≤ l.foldl (fun n j => max n j.id.length) n) ∧
      (l.foldl (fun n j => max n j.id.length) n = n ∨ ∃ j ∈ l, j.id.length = l.foldl (fun n j => max n j.id.length) n) := by
  induction l generalizing n with
  | nil => exact ⟨Nat.le_refl n, fun _ h => (List.not_mem_nil h).elim, .inl rfl⟩
  | cons j l ih =>
    rw [List.foldl_cons]
    obtain ⟨h1, h2, h3⟩ := ih (max n j.id.length)
    refine ⟨by omega, ?_, ?_⟩
    · intro k hk
      rcases List.mem_cons.1 hk with rfl | hk
      · omega
      · exact h2 k hk
    · rcases h3 with h3 | ⟨k, hk, e⟩
      · by_cases hn : j.id.length ≤ n
        · left; rw [h3]; omega
        · right; exact ⟨j, List.mem_cons_self, by rw [h3]; omega⟩
      · right; exact ⟨k, List.mem_cons_of_mem _ hk, e⟩

theorem width_spec (l : List Job) : Longest l (width l) := by
  obtain ⟨_, h2, h3⟩ := width_ge l 0
  refine ⟨h2, ?_⟩
  cases l with
  | nil => exact .inl rfl
  | cons j l =>
    right
    rcases h3 with h3 | h3
    · refine ⟨j, List.mem_cons_self, ?_⟩
      have := h2 j List.mem_cons_self
      have e : width (j :: l) = 0 := h3
      rw [e]; omega
    · exact h3

theorem line_row {w : Nat} {j : Job} {l : Str} (hw : j.id.length ≤ w) (h : interactivityLine w j = .ok l) : Row w j l := by
  unfold interactivityLine at h
  cases hd : duration "unknown" j.seconds with
  | error e => rw [hd] at h; cases h
  | ok d =>
    rw [hd] at h
    injection h with h
    subst h
    have ht := duration_spec hd
    by_cases ha : automated j = true
    · refine ⟨w - j.id.length, 2, "automatic".toList, d, ?_, by omega, rfl, .inl ⟨of_decide_eq_true ha, rfl⟩, ht⟩
      rw [if_pos ha]
      simp only [ljust, List.append_assoc]
      rfl
    · refine ⟨w - j.id.length, 0, "interactive".toList, d, ?_, by omega, rfl, .inr ⟨fun hh => ha (decide_eq_true hh), rfl⟩, ht⟩
      rw [if_neg ha]
      simp only [ljust, List.append_assoc]
      rfl

theorem line_err {w : Nat} {j : Job} {e : Err} (h : interactivityLine w j = .error e) : e = .overflow ∧ ¬ Fits j.seconds := by
  unfold interactivityLine at h
  cases hd : duration "unknown" j.seconds with
  | ok d => rw [hd] at h; cases h
  | error e' =>
    rw [hd] at h
    injection h with h
    subst h
    exact duration_err hd

theorem next_ok {a b : Out} (h : (Out.next a b).err = none) :
    a.err = none ∧ b.err = none ∧ (Out.next a b).lines = a.lines ++ b.lines := by
  unfold Out.next at h ⊢
  cases ha : a.err with
  | none => rw [ha] at h; exact ⟨rfl, h, rfl⟩
  | some e => rw [ha] at h; rw [if_pos (by rfl)] at h; rw [ha] at h; cases h

theorem next_err {a b : Out} {e : Err} (h : (Out.next a b).err = some e) :
    a.err = some e ∧ (Out.next a b).lines = a.lines ∨ a.err = none ∧ b.err = some e ∧ (Out.next a b).lines = a.lines ++ b.lines := by
  unfold Out.next at h ⊢
  cases ha : a.err with
  | none => rw [ha] at h; exact .inr ⟨rfl, h, rfl⟩
  | some e' => rw [ha] at h; rw [if_pos (by rfl)] at h; rw [ha] at h; exact .inl ⟨h, by rw [if_pos (by rfl)]⟩

theorem lines_rows {w : Nat} (l : List Job) (hw : ∀ j ∈ l, j.id.length ≤ w) :
    ((interactivityLines w l).err = none ∧ List.Forall₂ (Row w) l (interactivityLines w l).lines) ∨
    ∃ pre j post, l = pre ++ j :: post ∧ (interactivityLines w l).err = some .overflow ∧ ¬ Fits j.seconds ∧
      List.Forall₂ (Row w) pre (interactivityLines w l).lines := by
  induction l with
  | nil => exact .inl ⟨rfl, .nil⟩
  | cons j l ih =>
    unfold interactivityLines
    cases hl : interactivityLine w j with
    | error e =>
      right
      obtain ⟨e1, e2⟩ := line_err hl
      exact ⟨[], j, l, rfl, congrArg some e1, e2, .nil⟩
    | ok x =>
      dsimp only
      have hrow := line_row (hw j List.mem_cons_self) hl
      rcases ih fun k hk => hw k (List.mem_cons_of_mem _ hk) with ⟨h1, h2⟩ | ⟨pre, k, post, e, h1, h2, h3⟩
      · left
        exact ⟨h1, .cons hrow h2⟩
      · right
        exact ⟨j :: pre, k, post, by rw [e]; rfl, h1, h2, .cons hrow h3⟩

theorem byItself_eq (j : Job) : automated j = ByItself j := by
  unfold automated ByItself
  rw [Bool.eq_iff_iff]
  simp only [decide_eq_true_eq, List.mem_cons, List.not_mem_nil, or_false, Bool.or_eq_true, beq_iff_eq, or_assoc]

theorem sum_auto (l : List Job) : Sum 0 (fun _ => true) (l.filter ByItself) (Duration.totals 30 (l.map toDuration)).auto := by
  have h := (Duration.C71_totals 30 (l.map toDuration)).1
  have hf : (l.map toDuration).filter (·.automated) = (l.filter ByItself).map toDuration := by
    rw [List.filter_map]
    congr 1
    exact List.filter_congr fun j _ => byItself_eq j
  rw [hf] at h
  unfold Sum
  split
  · rename_i hc
    refine (h _).2 ⟨?_, ?_⟩
    · intro d hd ha
      obtain ⟨j, hj, rfl⟩ := List.mem_map.1 hd
      exact hc j (List.mem_filter.2 ⟨hj, (byItself_eq j).symm.trans ha⟩) rfl
    · rw [List.map_map, zero_mul, zero_add]; rfl
  · rename_i hc
    cases hx : (Duration.totals 30 (l.map toDuration)).auto with
    | none => rfl
    | some x =>
      exfalso
      refine hc fun j hj _ => ?_
      obtain ⟨hj, hb⟩ := List.mem_filter.1 hj
      exact ((h x).1 hx).1 (toDuration j) (List.mem_map.2 ⟨j, hj, rfl⟩) ((byItself_eq j).trans hb)

theorem sum_manual (l : List Job) :
    Sum 30 (·.command) (l.filter (!ByItself ·)) (Duration.totals 30 (l.map toDuration)).manual := by
  have h := (Duration.C71_totals 30 (l.map toDuration)).2
  have hf : (l.map toDuration).filter (fun j => !j.automated) = (l.filter (!ByItself ·)).map toDuration := by
    rw [List.filter_map]
    congr 1
    exact List.filter_congr fun j _ => congrArg Bool.not (byItself_eq j)
  rw [hf] at h
  unfold Sum
  split
  · rename_i hc
    refine (h _).2 ⟨?_, ?_⟩
    · intro d hd ha hcmd
      obtain ⟨j, hj, rfl⟩ := List.mem_map.1 hd
      refine hc j (List.mem_filter.2 ⟨hj, ?_⟩) hcmd
      rw [← byItself_eq j, show automated j = false from ha]; rfl
    · rw [List.map_map, List.length_map]; rfl
  · rename_i hc
    cases hx : (Duration.totals 30 (l.map toDuration)).manual with
    | none => rfl
    | some x =>
      exfalso
      refine hc fun j hj hcmd => ?_
      obtain ⟨hj, hb⟩ := List.mem_filter.1 hj
      refine ((h x).1 hx).1 (toDuration j) (List.mem_map.2 ⟨j, hj, rfl⟩) ?_ hcmd
      show automated j = false
      rw [byItself_eq j]
      simpa using hb

theorem estimateLine_ok {label : String} {x : Option Rat} (h : (estimateLine label x).err = none) :
    ∃ d, TellsEstimate "cannot estimate" x d ∧ (estimateLine label x).lines = ["   ".toList ++ label.toList ++ d] := by
  unfold estimateLine at h ⊢
  cases hd : duration "cannot estimate" x with
  | error e => rw [hd] at h; cases h
  | ok d => exact ⟨d, duration_spec hd, rfl⟩

theorem estimateLine_err {label : String} {x : Option Rat} {e : Err} (h : (estimateLine label x).err = some e) :
    e = .overflow ∧ ¬ Fits x ∧ (estimateLine label x).lines = [] := by
  unfold estimateLine at h ⊢
  cases hd : duration "cannot estimate" x with
  | ok d => rw [hd] at h; cases h
  | error e' =>
    rw [hd] at h
    injection h with h
    subst h
    exact ⟨(duration_err hd).1, (duration_err hd).2, rfl⟩

theorem total_eq (m a : Option Rat) : total m a = a.bind fun q => m.map (q + ·) := by
  cases m <;> cases a <;> first | rfl | exact congrArg some (add_comm _ _)

theorem requirements_nil {l : List Job} {r : List Str} (h : requirements l = .ok r) : r = [] := by
  induction l generalizing r with
  | nil => injection h with h; exact h.symm
  | cons j l ih =>
    rw [requirements.eq_def] at h
    dsimp only at h
    split at h
    · exact ih h
    · split at h
      · cases h
      · split at h
        · split at h
          · cases h
          · rename_i p _ hp _ x hx
            cases p with
            | nil => exact absurd hp List.not_mem_nil
            | cons _ _ => cases hx
        · exact ih h

/-- The reports as they are called. -/
def report (s : Session) : Kind → Out
  | .stats => stats s
  | .dependencies => dependencies s
  | .interactivity => interactivity s
  | .estimates => estimates s
  | .validation => validation s
  | .requirements => requirementReport s
  | .desired => desiredList s
  | .runList => runListReport s

/-- **C115**: what is in a report that does not fail: the numbers of jobs; the problems; a line for every job on the run list in columns;
the estimates of the jobs that run by themselves, of the others and of all together; the desired jobs and those on the run list. -/
theorem C115_sections (s : Session) (k : Kind) (h : (report s k).err = none) : Section s k (report s k).lines := by
  cases k
  · refine ⟨_, heading_spec (by decide), ?_⟩
    rw [toString_nat, toString_nat]; rfl
  · refine ⟨_, heading_spec (by decide), ?_⟩
    by_cases hp : s.problems = []
    · left; exact ⟨hp, by unfold report dependencies; dsimp only; rw [if_pos hp]⟩
    · right
      refine ⟨hp, s.problems.map fun p => " * ".toList ++ p, by unfold report dependencies; dsimp only; rw [if_neg hp], ?_⟩
      rw [List.forall₂_map_right_iff]
      exact List.forall₂_same.2 fun _ _ => rfl
  · refine ⟨_, heading_spec (by decide), width s.runList, (interactivityLines (width s.runList) s.runList).lines, width_spec _, rfl, ?_⟩
    have h' : (interactivityLines (width s.runList) s.runList).err = none := h
    rcases lines_rows s.runList (width_spec s.runList).1 with ⟨_, h2⟩ | ⟨_, _, _, _, h1, _⟩
    · exact h2
    · rw [h'] at h1; cases h1
  · unfold report estimates at h ⊢
    dsimp only at h ⊢
    obtain ⟨_, h, l0⟩ := next_ok h
    obtain ⟨h1, h, l1⟩ := next_ok h
    obtain ⟨h2, h3, l2⟩ := next_ok h
    obtain ⟨x, hx, lx⟩ := estimateLine_ok h1
    obtain ⟨y, hy, ly⟩ := estimateLine_ok h2
    obtain ⟨z, hz, lz⟩ := estimateLine_ok h3
    refine ⟨_, heading_spec (by decide), _, _, x, y, z, sum_auto _, sum_manual _, hx, hy, ?_, ?_⟩
    · rw [← total_eq]; exact hz
    · rw [l0, l1, l2, lx, ly, lz]; rfl
  · refine ⟨_, heading_spec (t := "[Validation Report]".toList) (by decide), ?_⟩
    unfold report validation at h ⊢
    dsimp only at h ⊢
    cases hr : s.runList with
    | nil => exact ⟨rfl, rfl⟩
    | cons j l => rw [hr] at h; cases h
  · refine ⟨_, heading_spec (t := "[Requirement Report]".toList) (by decide), ?_⟩
    unfold report requirementReport at h ⊢
    dsimp only at h ⊢
    cases hr : requirements s.runList with
    | error e => rw [hr] at h
    | ok r => rw [requirements_nil hr]; exact congrArg _ (by rfl)
  · exact ⟨_, heading_spec (by decide), rfl⟩
  · exact ⟨_, heading_spec (by decide), rfl⟩

/-- The reports one after the other. -/
theorem run_eq (o : Options) (s : Session) : run o s = (wanted o).foldr (fun k a => Out.next (report s k) a) ⟨[], none⟩ := by
  have step : ∀ (b : Bool) (k : Kind) (l : List (Bool × Kind)),
      (((b, k) :: l).filterMap fun p : Bool × Kind => if p.1 then some p.2 else none).foldr (fun k a => Out.next (report s k) a) ⟨[], none⟩ =
        Out.next (asked b (report s k)) ((l.filterMap fun p => if p.1 then some p.2 else none).foldr
          (fun k a => Out.next (report s k) a) ⟨[], none⟩) := by
    intro b k l
    cases b with
    | false => rfl
    | true => rfl
  have last : ∀ a : Out, Out.next a ⟨[], none⟩ = a := by
    intro a
    unfold Out.next
    cases h : a.err with
    | none => cases a; cases h; simp
    | some e => rfl
  unfold wanted
  rw [step, step, step, step, step, step, step, step]
  show _ = Out.next _ (Out.next _ (Out.next _ (Out.next _ (Out.next _ (Out.next _ (Out.next _ (Out.next _ ⟨[], none⟩)))))))
  rw [last]
  rfl

/-- **C115**: if nothing fails, what is printed is the reports that are asked for, in their order. -/
theorem C115_order (o : Options) (s : Session) (h : (run o s).err = none) :
    ∃ parts, (run o s).lines = parts.flatten ∧ List.Forall₂ (Section s) (wanted o) parts := by
  rw [run_eq] at h ⊢
  generalize wanted o = l at h ⊢
  induction l with
  | nil => exact ⟨[], rfl, .nil⟩
  | cons k l ih =>
    rw [List.foldr_cons] at h ⊢
    obtain ⟨h1, h2, h3⟩ := next_ok h
    obtain ⟨parts, e, hp⟩ := ih h2
    exact ⟨(report s k).lines :: parts, by rw [h3, e]; rfl, .cons (C115_sections s k h1) hp⟩

/-- How a report stops: what is raised and what has been printed of it. -/
def Stops (s : Session) (e : Err) : Kind → List Str → Prop
  | .interactivity, l => e = .overflow ∧ ∃ h w r pre j post, Heads "[Interactivity Report]".toList h ∧ Longest s.runList w ∧ l = h :: r ∧
      s.runList = pre ++ j :: post ∧ ¬ Fits j.seconds ∧ List.Forall₂ (Row w) pre r
  | .estimates, l => e = .overflow ∧ ∃ h r a m, Heads "[Estimated Duration Report]".toList h ∧ l = h :: r ∧ r.length < 4 ∧
      Sum 0 (fun _ => true) (s.runList.filter ByItself) a ∧ Sum 30 (·.command) (s.runList.filter (!ByItself ·)) m ∧
      (¬ Fits a ∨ ¬ Fits m ∨ ¬ Fits (a.bind fun q => m.map (q + ·)))
  | .validation, l => e = .attribute ∧ s.runList ≠ [] ∧ ∃ h, Heads "[Validation Report]".toList h ∧ l = [h]
  | .requirements, l => (e = .attribute ∨ e = .program) ∧ (∃ j ∈ s.runList, j.requires = true) ∧
      ∃ h, Heads "[Requirement Report]".toList h ∧ l = [h]
  | _, _ => False

theorem program_err {ns : Option String} {im : List (String × String)} {l : List (Option Resource.Ast)} {e : Err}
    (h : program ns im l = .error e) : e = .program := by
  induction l generalizing e with
  | nil => cases h
  | cons a l ih =>
    cases a with
    | none => injection h with h; exact h.symm
    | some a =>
      rw [program.eq_def] at h
      dsimp only at h
      split at h
      · injection h with h; exact h.symm
      · cases hp : program ns im l with
        | error e' => rw [hp] at h; injection h with h; rw [← h]; exact ih hp
        | ok p => rw [hp] at h; cases h

theorem requirements_err {l : List Job} {e : Err} (h : requirements l = .error e) :
    (e = .attribute ∨ e = .program) ∧ ∃ j ∈ l, j.requires = true := by
  induction l with
  | nil => cases h
  | cons j l ih =>
    have more : requirements l = .error e → (e = .attribute ∨ e = .program) ∧ ∃ k ∈ j :: l, k.requires = true := by
      intro h
      obtain ⟨h1, k, hk, h2⟩ := ih h
      exact ⟨h1, k, List.mem_cons_of_mem _ hk, h2⟩
    rw [requirements.eq_def] at h
    dsimp only at h
    split at h
    · exact more h
    · rename_i hj
      have hreq : j.requires = true := by simpa using hj
      split at h
      · rename_i e' hp
        injection h with h
        subst h
        exact ⟨.inr (program_err hp), j, List.mem_cons_self, hreq⟩
      · split at h
        · split at h
          · rename_i p _ _ _ e' hx
            injection h with h
            subst h
            refine ⟨.inl ?_, j, List.mem_cons_self, hreq⟩
            cases p with
            | nil => cases hx
            | cons _ _ => injection hx with hx; exact hx.symm
          · rename_i x hx
            cases hl : requirements l with
            | ok r => rw [hl] at h; cases h
            | error e' => rw [hl] at h; injection h with h; subst h; exact more hl
        · exact more h

/-- How a report fails. -/
theorem report_stops {s : Session} {k : Kind} {e : Err} (h : (report s k).err = some e) : Stops s e k (report s k).lines := by
  cases k
  · cases h
  · cases h
  · have h' : (interactivityLines (width s.runList) s.runList).err = some e := h
    rcases lines_rows s.runList (width_spec s.runList).1 with ⟨h1, _⟩ | ⟨pre, j, post, h0, h1, h2, h3⟩
    · rw [h'] at h1; cases h1
    · rw [h'] at h1
      injection h1 with h1
      exact ⟨h1, _, _, _, pre, j, post, heading_spec (by decide), width_spec _, rfl, h0, h2, h3⟩
  · unfold report estimates at h ⊢
    dsimp only at h ⊢
    have ha := sum_auto s.runList
    have hm := sum_manual s.runList
    rcases next_err h with ⟨h, _⟩ | ⟨_, h, l0⟩
    · cases h
    rcases next_err h with ⟨h1, l1⟩ | ⟨h1, h, l1⟩
    · obtain ⟨e1, e2, e3⟩ := estimateLine_err h1
      refine ⟨e1, _, _, _, _, heading_spec (by decide), l0, ?_, ha, hm, .inl e2⟩
      rw [l1, e3]; decide
    obtain ⟨x, _, lx⟩ := estimateLine_ok h1
    rcases next_err h with ⟨h2, l2⟩ | ⟨h2, h, l2⟩
    · obtain ⟨e1, e2, e3⟩ := estimateLine_err h2
      refine ⟨e1, _, _, _, _, heading_spec (by decide), l0, ?_, ha, hm, .inr (.inl e2)⟩
      rw [l1, lx, l2, e3]; simp
    obtain ⟨y, _, ly⟩ := estimateLine_ok h2
    obtain ⟨e1, e2, e3⟩ := estimateLine_err h
    refine ⟨e1, _, _, _, _, heading_spec (by decide), l0, ?_, ha, hm, .inr (.inr ?_)⟩
    · rw [l1, lx, l2, ly, e3]; simp
    · rw [← total_eq]; exact e2
  · unfold report validation at h ⊢
    dsimp only at h ⊢
    cases hr : s.runList with
    | nil => rw [hr] at h; cases h
    | cons j l =>
      rw [hr] at h
      injection h with h
      exact ⟨h.symm, by rw [hr]; exact List.cons_ne_nil _ _, _, heading_spec (by decide), rfl⟩
  · unfold report requirementReport at h ⊢
    dsimp only at h ⊢
    cases hr : requirements s.runList with
    | ok r => rw [hr] at h; cases h
    | error e' =>
      rw [hr] at h
      injection h with h
      subst h
      exact ⟨(requirements_err hr).1, (requirements_err hr).2, _, heading_spec (by decide), rfl⟩
  · cases h
  · cases h

/-- **C115**: if a report fails, those in front of it are complete, and those behind it are not printed. -/
theorem C115_stopped (o : Options) (s : Session) {e : Err} (h : (run o s).err = some e) :
    ∃ pre k post parts cut, wanted o = pre ++ k :: post ∧ (run o s).lines = parts.flatten ++ cut ∧
      List.Forall₂ (Section s) pre parts ∧ Stops s e k cut := by
  rw [run_eq] at h ⊢
  generalize wanted o = l at h ⊢
  induction l with
  | nil => cases h
  | cons k l ih =>
    rw [List.foldr_cons] at h ⊢
    rcases next_err h with ⟨h1, h2⟩ | ⟨h1, h2, h3⟩
    · exact ⟨[], k, l, [], _, rfl, by rw [h2]; rfl, .nil, report_stops h1⟩
    · obtain ⟨pre, k', post, parts, cut, e1, e2, e3, e4⟩ := ih h2
      refine ⟨k :: pre, k', post, (report s k).lines :: parts, cut, by rw [e1]; rfl, ?_, .cons (C115_sections s k h1) e3, e4⟩
      rw [h3, e2, List.flatten_cons, List.append_assoc]

/-- **C115**: nothing fails if the two broken reports have nothing to do and the durations are not too long. -/
theorem C115_works (o : Options) (s : Session) (hv : o.validation = true → s.runList = [])
    (hr : o.requirements = true → ∀ j ∈ s.runList, j.requires = false) (hi : ∀ j ∈ s.runList, Fits j.seconds)
    (he : ∀ a m, Sum 0 (fun _ => true) (s.runList.filter ByItself) a → Sum 30 (·.command) (s.runList.filter (!ByItself ·)) m →
      Fits a ∧ Fits m ∧ Fits (a.bind fun q => m.map (q + ·))) : (run o s).err = none := by
  cases h : (run o s).err with
  | none => rfl
  | some e =>
    exfalso
    obtain ⟨pre, k, post, parts, cut, hw, _, _, hs⟩ := C115_stopped o s h
    have hk : k ∈ wanted o := by rw [hw]; simp
    have hmem : ∀ k, k ∈ wanted o → (k = .validation → o.validation = true) ∧ (k = .requirements → o.requirements = true) := by
      intro k hk
      unfold wanted at hk
      obtain ⟨p, hp, e⟩ := List.mem_filterMap.1 hk
      obtain ⟨b, k'⟩ := p
      dsimp only at e
      cases b with
      | false => cases e
      | true =>
        injection e with e
        subst e
        simp only [List.mem_cons, List.not_mem_nil, or_false, Prod.mk.injEq] at hp
        constructor
        · rintro rfl
          simpa using hp
        · rintro rfl
          simpa using hp
    cases k
    · exact hs
    · exact hs
    · obtain ⟨_, _, _, _, pre, j, post, _, _, _, e, hf, _⟩ := hs
      exact hf (hi j (by rw [e]; simp))
    · obtain ⟨_, _, _, a, m, _, _, _, ha, hm, hf⟩ := hs
      obtain ⟨f1, f2, f3⟩ := he a m ha hm
      rcases hf with hf | hf | hf
      · exact hf f1
      · exact hf f2
      · exact hf f3
    · exact hs.2.1 (hv ((hmem _ hk).1 rfl))
    · obtain ⟨_, ⟨j, hj, hq⟩, _⟩ := hs
      rw [hr ((hmem _ hk).2 rfl) j hj] at hq
      cases hq
    · exact hs
    · exact hs

/-! ## Violations -/

theorem hasColons_append (a b : List Char) : hasColons (a ++ ("::".toList ++ b)) = true := by
  induction a with
  | nil => rfl
  | cons c a ih => rw [List.cons_append, hasColons, ih, Bool.or_true]

theorem program_colons {ns : String} (hns : ns ≠ "") {im : List (String × String)} {l : List (Option Resource.Ast)} {p : List (List String)}
    (h : program (some ns) im l = .ok p) : ∀ r ∈ p.flatten, hasColons r.toList = true := by
  induction l generalizing p with
  | nil => injection h with h; subst h; intro r hr; cases hr
  | cons a l ih =>
    cases a with
    | none => cases h
    | some a =>
      rw [program.eq_def] at h
      dsimp only at h
      split at h
      · cases h
      · rename_i ids hids
        cases hp : program (some ns) im l with
        | error e' => rw [hp] at h; cases h
        | ok q =>
          rw [hp] at h
          injection h with h
          subst h
          intro r hr
          rw [List.flatten_cons] at hr
          rcases List.mem_append.1 hr with hr | hr
          · unfold Resource.resourceIds at hids
            split at hids
            · cases hids
            · injection hids with hids
              subst hids
              obtain ⟨x, _, rfl⟩ := List.mem_map.1 hr
              unfold Resource.qualifyRes
              split
              · assumption
              · dsimp only
                rw [if_neg hns, String.toList_append, String.toList_append, List.append_assoc]
                exact hasColons_append _ _
          · exact ih hp r hr

/-- **C115** does not hold for packages: the report tells none of them, whatever the jobs are. -/
theorem C115_packages_none (s : Session) : (requirementReport s).lines = [heading "[Requirement Report]".toList] := by
  unfold requirementReport
  cases h : requirements s.runList with
  | error e => rfl
  | ok r => rw [requirements_nil h]; rfl

/-- **C115**: the report does not even fail if the providers of the jobs have namespaces, as all providers have. -/
theorem C115_packages_silent (s : Session) (h : ∀ j ∈ s.runList, ∃ ns, j.ns = some ns ∧ ns ≠ "") :
    (requirementReport s).err ≠ some .attribute := by
  intro he
  unfold requirementReport at he
  have key : ∀ l : List Job, (∀ j ∈ l, ∃ ns, j.ns = some ns ∧ ns ≠ "") → requirements l ≠ .error .attribute := by
    intro l hl
    induction l with
    | nil => intro h; cases h
    | cons j l ih =>
      intro h
      rw [requirements.eq_def] at h
      dsimp only at h
      have ih := ih fun k hk => hl k (List.mem_cons_of_mem _ hk)
      obtain ⟨ns, hns, hne⟩ := hl j List.mem_cons_self
      split at h
      · exact ih h
      · split at h
        · rename_i e hp
          injection h with h
          have := program_err hp
          rw [h] at this
          cases this
        · rename_i p hp
          rw [hns] at hp
          split at h
          · rename_i hm
            have := program_colons hne hp _ hm
            revert this
            decide
          · exact ih h
  cases hr : requirements s.runList with
  | ok r => rw [hr] at he; cases he
  | error e =>
    rw [hr] at he
    injection he with he
    exact key s.runList h (hr.trans (congrArg _ he))

/-- A job that requires a package. -/
def needy (ns : Option String) : Job :=
  { id := "x::a".toList, plugin := some "shell", requires := true, ns := ns,
    lines := [some (.compare (.attr (.name "package") "name") [.str "bash"])] }

/-- **C115** does not hold for packages: a job requires one, and the report fails without a namespace and has nothing with one. -/
theorem C115_packages_violated :
    (requirementReport ⟨[needy none], [needy none], [], [needy none], [needy none]⟩).err = some .attribute ∧
    requirementReport ⟨[needy (some "x")], [needy (some "x")], [], [needy (some "x")], [needy (some "x")]⟩ =
      ⟨[heading "[Requirement Report]".toList], none⟩ := by
  decide +kernel

/-- **C115** does not hold for definitions: the report about them fails whenever there is a job to run, and no report follows. -/
theorem C115_validation_violated (s : Session) (h : s.runList ≠ []) :
    run { validation := true, runList := true } s = ⟨[heading "[Validation Report]".toList], some .attribute⟩ := by
  unfold run validation
  cases hr : s.runList with
  | nil => exact absurd hr h
  | cons j l => rfl

/-- **C115** does not hold for jobs of the kind `local`, which run by themselves: they are said to be interactive. -/
theorem C115_local_violated :
    interactivity ⟨[], [], [], [], [{ id := "x::a".toList, plugin := some "local" }]⟩ =
      ⟨[heading "[Interactivity Report]".toList, "x::a : interactive : unknown".toList], none⟩ := by
  decide +kernel

/-! ## Examples -/

/-- A session with two jobs. -/
def someSession : Session :=
  let a : Job := { id := "x::a".toList, plugin := some "shell", seconds := some 90 }
  let b : Job := { id := "x::long".toList, plugin := some "manual" }
  ⟨[a, b, a], [a, b], ["a problem".toList], [a, b], [b, a]⟩

example : (run { interactivity := true, desired := true } someSession).lines.drop 1 =
    ["x::long : interactive : unknown".toList, "x::a    : automatic   : 0:01:30".toList, heading "[Desired Job List]".toList,
      "x::a".toList, "x::long".toList] := by decide +kernel
example : (run { estimates := true } someSession).lines.drop 1 =
    ["Estimated test duration:".toList, "   automated tests: 0:01:30".toList, "   manual tests: 0:00:30".toList,
      "   total: 0:02:00".toList] := by decide +kernel
example : (run { stats := true, dependencies := true } someSession).lines.drop 1 =
    ["Known jobs: 3".toList, "Selected jobs: 2".toList, heading "[Dependency Report]".toList, " * a problem".toList] := by
  decide +kernel
example : clock 93784000005 = "1 day, 2:03:04.000005".toList := by decide +kernel
example : clock (-1) = "-1 day, 23:59:59.999999".toList := by decide +kernel
example : heading "[Run List]".toList = "===================================[Run List]===================================".toList := by
  decide +kernel
example : Fits (some 90) := by constructor <;> norm_num
example : (run { validation := true, runList := true } someSession).lines.length = 1 :=
  congrArg (·.lines.length) (C115_validation_violated someSession (by decide))

end Verif.Analyze
