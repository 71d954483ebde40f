import Verif.Model.Pod

/-! # Properties C24, C25, C27 and C53 -/

set_option linter.unusedSimpArgs false

namespace Verif.Pod

/-! ## Assignments -/

/-- A history of attempted assignments to a field: value at the end and the notifications fired.
A rejected assignment raises, which leaves the attribute alone. -/
def attempts {V : Type} (eq : V → V → Bool) (fl : List (Filter V)) (notify : Bool) (v : V) :
    List V → V × List (V × V)
  | [] => (v, [])
  | n :: ns => match assign eq fl notify v n with
    | .error _ => attempts eq fl notify v ns
    | .ok (w, none) => attempts eq fl notify w ns
    | .ok (w, some x) =>
      ((attempts eq fl notify w ns).1, x :: (attempts eq fl notify w ns).2)

/-- A list of notifications that leads from one value to another, each reporting a real change. -/
inductive Changes {V : Type} (eq : V → V → Bool) : V → List (V × V) → V → Prop
  | none (v : V) : Changes eq v [] v
  | step {v w z : V} {l : List (V × V)} (hne : eq w v = false) (h : Changes eq w l z) :
      Changes eq v ((v, w) :: l) z

/-- **C27**, one assignment: the filters decide.  If one of them raises, that is the outcome.
Otherwise the value held is equal to the filtered value, the old value is replaced unless it is
equal already, and the notification is fired exactly for a different value. -/
theorem C27_assign {V : Type} (eq : V → V → Bool) (hrefl : ∀ v, eq v v = true)
    (hsymm : ∀ v w, eq v w = eq w v)
    (fl : List (Filter V)) (notify : Bool) (old new : V) :
    (∀ e, fl.foldlM (fun v f => f old v) new = .error e → assign eq fl notify old new = .error e) ∧
    (∀ v, fl.foldlM (fun v f => f old v) new = .ok v →
      ∃ w n, assign eq fl notify old new = .ok (w, n) ∧ eq w v = true ∧
        (eq v old = false → w = v) ∧
        (n.isSome = true ↔ notify = true ∧ eq w old = false) ∧
        (∀ x, n = some x → x = (old, w))) := by
  constructor
  · intro e h
    simp [assign, h]
  · intro v h
    cases notify with
    | false => exact ⟨v, none, by simp [assign, h], hrefl v, fun _ => rfl, by simp, by simp⟩
    | true =>
      cases hv : eq v old with
      | true =>
        exact ⟨old, none, by simp [assign, h, hv], by rw [hsymm, hv], by simp, by simp [hrefl],
          by simp⟩
      | false =>
        exact ⟨v, some (old, v), by simp [assign, h, hv], hrefl v, fun _ => rfl, by simp [hv],
          by simp⟩

/-- **C27**, histories: for a field with notification the notifications of any history form a chain
of real changes from the first value to the last one; nothing changes without notification. -/
theorem C27_notifications {V : Type} (eq : V → V → Bool) (fl : List (Filter V)) (v : V)
    (ns : List V) :
    Changes eq v (attempts eq fl true v ns).2 (attempts eq fl true v ns).1 := by
  induction ns generalizing v with
  | nil => exact .none v
  | cons n ns ih =>
    unfold attempts
    cases hf : fl.foldlM (fun x f => f v x) n with
    | error e => simp only [assign, hf]; exact ih v
    | ok w =>
      cases he : eq w v with
      | true => simp only [assign, hf, he, if_true]; exact ih v
      | false =>
        simp only [assign, hf, he, if_true, if_false, Bool.false_eq_true]
        exact .step he (ih w)

/-- What a check demands of a value.  `unique` is left out: see `C27_unique_violated`. -/
def Check.Demands : Check → Val → Prop
  | .const, _ => True
  | .typed t, v => t v = true
  | .unsetOrTyped t, v => v = .unset ∨ t v = true
  | .seq t, v => ∃ l, items v = some l ∧ ∀ x ∈ l, t x = true
  | .unsetOrSeq t, v => v = .unset ∨ ∃ l, items v = some l ∧ ∀ x ∈ l, t x = true
  | .unique, v => (items v).isSome = true

theorem uniqueLoop_ok {new w : Val} : ∀ (l seen : List Val), uniqueLoop new seen l = .ok w → w = new
  | [], _, h => by simp [uniqueLoop] at h; exact h.symm
  | _ :: rest, seen, h => by
    unfold uniqueLoop at h
    split at h
    · simp at h
    · split at h
      · simp at h
      · split at h
        · simp at h
        · exact uniqueLoop_ok rest _ h

/-- A check never alters the value; it accepts only what it demands. -/
theorem check_ok {c : Check} {old new w : Val} (h : c.run old new = .ok w) :
    w = new ∧ c.Demands new := by
  cases c with
  | const =>
    simp only [Check.run] at h
    split at h
    · simp at h; exact ⟨h.symm, trivial⟩
    · simp at h
  | typed t =>
    simp only [Check.run] at h
    split at h
    · rename_i ht; simp at h; exact ⟨h.symm, ht⟩
    · simp at h
  | unsetOrTyped t =>
    simp only [Check.run] at h
    split at h
    · rename_i hu; simp at h; exact ⟨h.symm, .inl hu⟩
    · split at h
      · rename_i ht; simp at h; exact ⟨h.symm, .inr ht⟩
      · simp at h
  | seq t =>
    simp only [Check.run] at h
    split at h
    · simp at h
    · rename_i l hl
      split at h
      · rename_i ha; simp at h; exact ⟨h.symm, l, hl, by simpa using ha⟩
      · simp at h
  | unsetOrSeq t =>
    simp only [Check.run] at h
    split at h
    · rename_i hu; simp at h; exact ⟨h.symm, .inl hu⟩
    · split at h
      · simp at h
      · rename_i l hl
        split at h
        · rename_i ha; simp at h; exact ⟨h.symm, .inr ⟨l, hl, by simpa using ha⟩⟩
        · simp at h
  | unique =>
    simp only [Check.run] at h
    split at h
    · simp at h
    · rename_i l hl
      exact ⟨uniqueLoop_ok _ _ h, by simp [Check.Demands, hl]⟩

theorem checks_fold {cs : List Check} {old new w : Val}
    (h : (cs.map Check.run).foldlM (fun v f => f old v) new = .ok w) :
    w = new ∧ ∀ c ∈ cs, c.run old new = .ok new := by
  induction cs with
  | nil => simp [List.foldlM, pure, Except.pure] at h; exact ⟨h.symm, by simp⟩
  | cons c cs ih =>
    rw [List.map_cons, List.foldlM_cons] at h
    cases hc : c.run old new with
    | error e => rw [hc] at h; simp [bind, Except.bind] at h
    | ok x =>
      rw [hc] at h
      obtain ⟨rfl, _⟩ := check_ok hc
      have := ih h
      refine ⟨this.1, ?_⟩
      intro d hd
      rcases List.mem_cons.mp hd with rfl | hd
      · exact hc
      · exact this.2 d hd

theorem checks_fold_of {cs : List Check} {old new : Val}
    (h : ∀ c ∈ cs, c.run old new = .ok new) :
    (cs.map Check.run).foldlM (fun v f => f old v) new = .ok new := by
  induction cs with
  | nil => rfl
  | cons c cs ih =>
    rw [List.map_cons, List.foldlM_cons, h c (by simp)]
    exact ih (fun d hd => h d (by simp [hd]))

/-- A field that accepts a value holds it. -/
theorem set_ok {f : Field} {old new : Val} {r} (h : f.set old new = .ok r) :
    r.1 = new ∧ ∀ c ∈ f.checks, c.run old new = .ok new := by
  unfold Field.set assign at h
  cases hf : (f.checks.map Check.run).foldlM (fun v g => g old v) new with
  | error e => rw [hf] at h; simp at h
  | ok w =>
    obtain ⟨rfl, hall⟩ := checks_fold hf
    rw [hf] at h
    simp only at h
    split at h
    · split at h
      · rename_i he
        simp at h
        exact ⟨by rw [← h]; exact (by simpa [valEq] using he : w = old).symm, hall⟩
      · simp at h; exact ⟨by rw [← h], hall⟩
    · simp at h; exact ⟨by rw [← h], hall⟩

/-- **C27**, enforcement: after any history of assignments the value of a field is the value it had
at first or satisfies every check declared for the field. -/
theorem C27_checks (f : Field) (v : Val) (ns : List Val) :
    let w := (attempts valEq (f.checks.map Check.run) f.notify v ns).1
    w = v ∨ ∀ c ∈ f.checks, c.Demands w := by
  show _ ∨ _
  suffices h : ∀ v0 v, (v = v0 ∨ ∀ c ∈ f.checks, c.Demands v) →
      ((attempts valEq (f.checks.map Check.run) f.notify v ns).1 = v0 ∨
        ∀ c ∈ f.checks, c.Demands (attempts valEq (f.checks.map Check.run) f.notify v ns).1) from
    h v v (.inl rfl)
  intro v0
  induction ns with
  | nil => intro v h; exact h
  | cons n ns ih =>
    intro v h
    unfold attempts
    cases hs : assign valEq (f.checks.map Check.run) f.notify v n with
    | error e => exact ih v h
    | ok r =>
      obtain ⟨h1, h2⟩ := set_ok (f := f) hs
      obtain ⟨w, x⟩ := r
      simp only at h1
      subst h1
      have : ∀ c ∈ f.checks, c.Demands w := fun c hc => (check_ok (h2 c hc)).2
      cases x <;> exact ih w (.inr this)

/-- **C27**, read-only fields: once such a field holds a value every assignment raises and the
value stays, whatever the other checks are. -/
theorem C27_read_only (f : Field) (hc : Check.const ∈ f.checks) (v : Val) (hv : v ≠ .unset)
    (ns : List Val) :
    (∀ n, ∃ e, f.set v n = .error e) ∧
    attempts valEq (f.checks.map Check.run) f.notify v ns = (v, []) := by
  have key : ∀ n, ∃ e, f.set v n = .error e := by
    intro n
    cases hs : f.set v n with
    | error e => exact ⟨e, rfl⟩
    | ok r =>
      have := (set_ok hs).2 _ hc
      simp [Check.run, hv] at this
  refine ⟨key, ?_⟩
  induction ns with
  | nil => rfl
  | cons n ns ih =>
    obtain ⟨e, he⟩ := key n
    unfold Field.set at he
    unfold attempts
    rw [he]
    exact ih

/-! ### Unique elements -/

mutual
/-- Size of a value. -/
def sz : Val → Nat
  | .list l => 1 + szL l
  | .tuple l => 1 + szL l
  | _ => 1
/-- Size of a list of values. -/
def szL : List Val → Nat
  | [] => 0
  | a :: as => sz a + szL as
end

theorem sz_mem {x : Val} {l : List Val} (h : x ∈ l) : sz x ≤ szL l := by
  induction l with
  | nil => simp at h
  | cons a as ih =>
    rcases List.mem_cons.mp h with rfl | h
    · simp [szL]
    · have := ih h; simp [szL]; omega

theorem hashableL_mem {l : List Val} (h : hashableL l = true) {x : Val} (hx : x ∈ l) :
    hashable x = true := by
  induction l with
  | nil => simp at hx
  | cons a as ih =>
    simp only [hashableL, Bool.and_eq_true] at h
    rcases List.mem_cons.mp hx with rfl | hx
    · exact h.1
    · exact ih h.2 hx

/-- **C27** is false for `unique`: the filter accepts every hashable tuple, repeated elements or
not, because it looks for the whole sequence among its elements; and it refuses every non-empty
list, with TypeError. -/
theorem C27_unique_violated :
    (∀ (old : Val) (l : List Val), hashableL l = true →
      Check.unique.run old (.tuple l) = .ok (.tuple l)) ∧
    (∀ (old : Val) (l : List Val), l ≠ [] →
      Check.unique.run old (.list l) = .error .typeError) ∧
    (∃ l : List Val, ¬ l.Nodup ∧ Check.unique.run .unset (.tuple l) = .ok (.tuple l)) := by
  have h1 : ∀ (old : Val) (l : List Val), hashableL l = true →
      Check.unique.run old (.tuple l) = .ok (.tuple l) := by
    intro old l hl
    simp only [Check.run, items]
    have : ∀ (rest seen : List Val), (∀ x ∈ seen, x ∈ l) → (∀ x ∈ rest, x ∈ l) →
        uniqueLoop (.tuple l) seen rest = .ok (.tuple l) := by
      intro rest
      induction rest with
      | nil => intros; rfl
      | cons a as ih =>
        intro seen hs hr
        unfold uniqueLoop
        have c1 : ¬ hashable (.tuple l) = false := by simp [hashable, hl]
        have c2 : ¬ Val.tuple l ∈ seen := by
          intro hm
          have := sz_mem (hs _ hm)
          simp [sz] at this
          omega
        have c3 : ¬ hashable a = false := by
          rw [hashableL_mem hl (hr a (by simp))]; simp
        rw [if_neg c1, if_neg c2, if_neg c3]
        apply ih
        · intro x hx
          rcases List.mem_append.mp hx with hx | hx
          · exact hs x hx
          · simp at hx; rw [hx]; exact hr a (by simp)
        · intro x hx; exact hr x (by simp [hx])
    exact this l [] (by simp) (by simp)
  refine ⟨h1, ?_, [.int 1, .int 1], by simp, ?_⟩
  · intro old l hl
    cases l with
    | nil => exact absurd rfl hl
    | cons a as => simp [Check.run, items, uniqueLoop, hashable]
  · exact h1 _ _ (by decide)

/-! ## Construction -/

/-- Fields with distinct names are determined by their names. -/
theorem field_unique {cs : List Field} (hnd : (cs.map (·.name)).Nodup) {f g : Field}
    (hf : f ∈ cs) (hg : g ∈ cs) (h : f.name = g.name) : f = g := by
  induction cs with
  | nil => simp at hf
  | cons c cs ih =>
    simp only [List.map_cons, List.nodup_cons] at hnd
    rcases List.mem_cons.mp hf with a | a <;> rcases List.mem_cons.mp hg with b | b
    · rw [a, b]
    · exact absurd (List.mem_map.mpr ⟨g, b, by rw [← h, a]⟩) hnd.1
    · exact absurd (List.mem_map.mpr ⟨f, a, by rw [h, b]⟩) hnd.1
    · exact ih hnd.2 a b

theorem mem_of_lookup {kw : List (List Char × Val)} {n : List Char} {v : Val}
    (h : kw.lookup n = some v) : (n, v) ∈ kw := by
  induction kw with
  | nil => simp at h
  | cons q kw ih =>
    obtain ⟨a, b⟩ := q
    by_cases hma : n = a
    · have hb : (n == a) = true := by simpa using hma
      simp only [List.lookup, hb, Option.some.injEq] at h
      simp [hma, h]
    · have hb : (n == a) = false := by simpa using hma
      simp only [List.lookup, hb] at h
      exact List.mem_cons_of_mem _ (ih h)

theorem position_mem {cs : List Field} (hnd : (cs.map (·.name)).Nodup) {args : List Val}
    {f : Field} (hf : f ∈ cs) {v : Val}
    (h : ((cs.map (·.name)).zip args).lookup f.name = some v) : (f, v) ∈ cs.zip args := by
  induction cs generalizing args with
  | nil => simp at hf
  | cons c cs ih =>
    simp only [List.map_cons, List.nodup_cons] at hnd
    cases args with
    | nil => simp at h
    | cons w ws =>
      simp only [List.map_cons, List.zip_cons_cons] at h
      rcases List.mem_cons.mp hf with b | b
      · subst b
        have hb : (f.name == f.name) = true := by simp
        simp only [List.lookup, hb, Option.some.injEq] at h
        simp [h]
      · have hb : (f.name == c.name) = false := by
          simp only [beq_eq_false_iff_ne]
          intro he
          exact hnd.1 (List.mem_map.mpr ⟨f, b, he⟩)
        simp only [List.lookup, hb] at h
        rw [List.zip_cons_cons]
        exact List.mem_cons_of_mem _ (ih hnd.2 b h)

/-- A field takes a value when it is still unset. -/
def Accepts (f : Field) (v : Val) : Prop := ∀ c ∈ f.checks, c.run .unset v = .ok v

theorem set_unset_of {f : Field} {v : Val} (h : Accepts f v) : ∃ x, f.set .unset v = .ok (v, x) := by
  unfold Field.set assign
  rw [checks_fold_of h]
  simp only
  by_cases hn : f.notify = true
  · rw [if_pos hn]
    by_cases he : v = .unset
    · subst he; exact ⟨none, by simp [valEq]⟩
    · exact ⟨some (.unset, v), by simp [valEq, he]⟩
  · rw [if_neg hn]; exact ⟨none, rfl⟩

theorem setField_iff {f : Field} {o o' : Obj} {v : Val} (hu : o.get f.name = .unset) :
    setField f o v = .ok o' ↔ Accepts f v ∧ o' = o.put f.name v := by
  unfold setField
  rw [hu]
  constructor
  · intro h
    cases hs : f.set .unset v with
    | error e => rw [hs] at h; simp at h
    | ok r =>
      rw [hs] at h
      obtain ⟨h1, h2⟩ := set_ok hs
      simp only [Except.ok.injEq] at h
      exact ⟨h2, by rw [← h, h1]⟩
  · rintro ⟨h1, rfl⟩
    obtain ⟨x, hx⟩ := set_unset_of h1
    rw [hx]

theorem lookup_put (o : Obj) (n m : List Char) (v : Val) :
    (o.put n v).lookup m = if m = n ∧ n ∈ o.map (·.1) then some v else o.lookup m := by
  induction o with
  | nil => simp [Obj.put]
  | cons p o ih =>
    obtain ⟨k, w⟩ := p
    unfold Obj.put at ih ⊢
    rw [List.map_cons]
    by_cases hk : k = n
    · subst hk
      simp only [if_true]
      by_cases hm : m = k
      · subst hm; simp [List.lookup]
      · have : (m == k) = false := by simpa using hm
        simp only [List.lookup, this]
        rw [ih]; simp [hm]
    · rw [if_neg (show ¬ ((k, w) : List Char × Val).1 = n from hk)]
      by_cases hm : m = k
      · subst hm; simp [List.lookup, hk]
      · have : (m == k) = false := by simpa using hm
        simp only [List.lookup, this]
        rw [ih]
        have hkn : ¬ n = k := fun h => hk h.symm
        have e : n ∈ List.map (fun x => x.1) ((k, w) :: o) ↔ n ∈ List.map (fun x => x.1) o := by
          rw [List.map_cons, List.mem_cons]
          exact ⟨fun h => h.resolve_left hkn, .inr⟩
        by_cases hc : m = n ∧ n ∈ List.map (fun x => x.1) o
        · rw [if_pos hc, if_pos ⟨hc.1, e.mpr hc.2⟩]
        · rw [if_neg hc, if_neg (fun h => hc ⟨h.1, e.mp h.2⟩)]

theorem get_put (o : Obj) (n m : List Char) (v : Val) (hn : n ∈ o.map (·.1)) :
    (o.put n v).get m = if m = n then v else o.get m := by
  unfold Obj.get
  rw [lookup_put]
  by_cases h : m = n
  · simp [h, hn]
  · simp [h]

theorem keys_put (o : Obj) (n : List Char) (v : Val) : (o.put n v).map (·.1) = o.map (·.1) := by
  unfold Obj.put
  rw [List.map_map]
  apply List.map_congr_left
  intro p _
  simp only [Function.comp_apply]
  split
  · rename_i h; exact h.symm
  · rfl

/-- The value given to a field by position. -/
def byPosition (cls : List Field) (args : List Val) (n : List Char) : Val :=
  (((cls.map (·.name)).zip args).lookup n).getD .unset

theorem initArgs_iff {fs : List Field} {vs : List Val} {o : Obj}
    (hnd : (fs.map (·.name)).Nodup) (hu : ∀ f ∈ fs, o.get f.name = .unset)
    (hk : ∀ f ∈ fs, f.name ∈ o.map (·.1)) (hlen : vs.length ≤ fs.length) :
    (∀ o', initArgs fs vs o = .ok o' → (∀ p ∈ fs.zip vs, Accepts p.1 p.2) ∧
        o'.map (·.1) = o.map (·.1) ∧
        ∀ n, o'.get n = if n ∈ fs.map (·.name) then byPosition fs vs n else o.get n) ∧
    ((∀ p ∈ fs.zip vs, Accepts p.1 p.2) → ∃ o', initArgs fs vs o = .ok o') := by
  induction fs generalizing vs o with
  | nil =>
    cases vs with
    | nil => simp [initArgs]
    | cons v vs => simp at hlen
  | cons f fs ih =>
    simp only [List.map_cons, List.nodup_cons] at hnd
    cases vs with
    | nil =>
      constructor
      · intro o' h
        simp only [initArgs, Except.ok.injEq] at h
        subst h
        refine ⟨by simp, rfl, ?_⟩
        intro n
        split
        · rename_i hn
          obtain ⟨g, hg, rfl⟩ := List.mem_map.mp hn
          rw [hu g hg]; simp [byPosition]
        · rfl
      · intro _; exact ⟨o, rfl⟩
    | cons v vs =>
      have hfu := hu f (by simp)
      have hfk := hk f (by simp)
      have hu' : ∀ g ∈ fs, (o.put f.name v).get g.name = .unset := by
        intro g hg
        rw [get_put _ _ _ _ hfk]
        have : g.name ≠ f.name := fun h => hnd.1 (List.mem_map.mpr ⟨g, hg, h⟩)
        rw [if_neg this]
        exact hu g (by simp [hg])
      have hk' : ∀ g ∈ fs, g.name ∈ (o.put f.name v).map (·.1) := by
        intro g hg; rw [keys_put]; exact hk g (by simp [hg])
      have ih' := ih (vs := vs) (o := o.put f.name v) hnd.2 hu' hk'
        (by simpa using hlen)
      constructor
      · intro o' h
        unfold initArgs at h
        cases hs : setField f o v with
        | error e => rw [hs] at h; simp at h
        | ok o1 =>
          rw [hs] at h
          obtain ⟨ha, rfl⟩ := (setField_iff hfu).mp hs
          obtain ⟨h1, h2, h3⟩ := ih'.1 o' h
          refine ⟨?_, by rw [h2, keys_put], ?_⟩
          · intro p hp
            rw [List.zip_cons_cons] at hp
            rcases List.mem_cons.mp hp with rfl | hp
            · exact ha
            · exact h1 p hp
          · intro n
            rw [h3 n]
            by_cases hn : n = f.name
            · subst hn
              rw [if_neg hnd.1, get_put _ _ _ _ hfk, if_pos rfl, if_pos (by simp)]
              simp [byPosition, List.lookup]
            · have hb : byPosition (f :: fs) (v :: vs) n = byPosition fs vs n := by
                have : (n == f.name) = false := by simpa using hn
                simp [byPosition, List.lookup, this]
              rw [hb, get_put _ _ _ _ hfk, if_neg hn]
              simp [hn]
      · intro h
        unfold initArgs
        have hs := (setField_iff hfu).mpr ⟨h (f, v) (by simp), rfl⟩
        rw [hs]
        exact ih'.2 (fun p hp => h p (by simp [hp]))

theorem initKwargs_iff {cls : List Field} (hcls : (cls.map (·.name)).Nodup)
    {kw : List (List Char × Val)} {o : Obj} (hnd : (kw.map (·.1)).Nodup)
    (hk : ∀ f ∈ cls, f.name ∈ o.map (·.1)) :
    (∀ o', initKwargs cls kw o = .ok o' →
        (∀ p ∈ kw, ∃ f ∈ cls, f.name = p.1 ∧ Accepts f p.2 ∧ o.get p.1 = .unset) ∧
        o'.map (·.1) = o.map (·.1) ∧
        ∀ n, o'.get n = (kw.lookup n).getD (o.get n)) ∧
    ((∀ p ∈ kw, ∃ f ∈ cls, f.name = p.1 ∧ Accepts f p.2 ∧ o.get p.1 = .unset) →
      ∃ o', initKwargs cls kw o = .ok o') := by
  induction kw generalizing o with
  | nil => simp [initKwargs]
  | cons p kw ih =>
    obtain ⟨n, v⟩ := p
    simp only [List.map_cons, List.nodup_cons] at hnd
    have hfind : ∀ f ∈ cls, f.name = n → cls.find? (fun f => f.name = n) = some f := by
      intro f hf hn
      cases hg : cls.find? (fun f => f.name = n) with
      | none => exact absurd hn (by simpa using (List.find?_eq_none.mp hg) f hf)
      | some g =>
        have hgn : g.name = n := by simpa using List.find?_some hg
        rw [field_unique hcls (List.mem_of_find?_eq_some hg) hf (by rw [hgn, hn])]
    constructor
    · intro o' h
      unfold initKwargs at h
      cases hg : cls.find? (fun f => f.name = n) with
      | none => rw [hg] at h; simp at h
      | some f =>
        rw [hg] at h
        simp only at h
        have hfn : f.name = n := by simpa using List.find?_some hg
        have hfm := List.mem_of_find?_eq_some hg
        by_cases hu : o.get n = .unset
        · rw [if_neg (by simpa using hu)] at h
          cases hs : setField f o v with
          | error e => rw [hs] at h; simp at h
          | ok o1 =>
            rw [hs] at h
            simp only at h
            obtain ⟨ha, rfl⟩ := (setField_iff (hfn ▸ hu)).mp hs
            have hfk : f.name ∈ o.map (·.1) := hk f hfm
            obtain ⟨h1, h2, h3⟩ := (ih (o := o.put f.name v) hnd.2
              (by intro g hg'; rw [keys_put]; exact hk g hg')).1 o' h
            refine ⟨?_, by rw [h2, keys_put], ?_⟩
            · intro p hp
              rcases List.mem_cons.mp hp with rfl | hp
              · exact ⟨f, hfm, hfn, ha, hu⟩
              · obtain ⟨g, hg1, hg2, hg3, hg4⟩ := h1 p hp
                refine ⟨g, hg1, hg2, hg3, ?_⟩
                rw [get_put _ _ _ _ hfk] at hg4
                have : p.1 ≠ f.name := by
                  rw [hfn]; intro he
                  exact hnd.1 (List.mem_map.mpr ⟨p, hp, he⟩)
                rw [if_neg this] at hg4
                exact hg4
            · intro m
              rw [h3 m, get_put _ _ _ _ hfk, hfn]
              by_cases hm : m = n
              · subst hm
                have : kw.lookup m = none := by
                  cases hl : kw.lookup m with
                  | none => rfl
                  | some w =>
                    exact absurd (List.mem_map.mpr ⟨_, mem_of_lookup hl, rfl⟩) hnd.1
                simp [this, List.lookup]
              · have hb : (m == n) = false := by simpa using hm
                simp [List.lookup, hb, hm]
        · rw [if_pos hu] at h; simp at h
    · intro h
      obtain ⟨f, hf1, hf2, hf3, hf4⟩ := h (n, v) (by simp)
      simp only at hf2 hf4
      unfold initKwargs
      rw [hfind f hf1 hf2]
      simp only
      rw [if_neg (by simpa using hf4)]
      rw [(setField_iff (hf2 ▸ hf4)).mpr ⟨hf3, rfl⟩]
      simp only
      have hfk : f.name ∈ o.map (·.1) := hk f hf1
      refine (ih (o := o.put f.name v) hnd.2
        (by intro g hg'; rw [keys_put]; exact hk g hg')).2 ?_
      intro p hp
      obtain ⟨g, hg1, hg2, hg3, hg4⟩ := h p (by simp [hp])
      refine ⟨g, hg1, hg2, hg3, ?_⟩
      rw [get_put _ _ _ _ hfk]
      have : p.1 ≠ f.name := by
        rw [hf2]; intro he
        exact hnd.1 (List.mem_map.mpr ⟨p, hp, he⟩)
      rw [if_neg this]
      exact hg4

theorem initDefaults_iff {fs : List Field} {o : Obj} (hnd : (fs.map (·.name)).Nodup)
    (hk : ∀ f ∈ fs, f.name ∈ o.map (·.1)) :
    (∀ o', initDefaults fs o = .ok o' →
        (∀ f ∈ fs, o.get f.name = .unset → ∃ v, f.initial = some v ∧ Accepts f v) ∧
        o'.map (·.1) = o.map (·.1) ∧
        (∀ f ∈ fs, o'.get f.name =
          if o.get f.name = .unset then f.initial.getD .unset else o.get f.name) ∧
        ∀ n, n ∉ fs.map (·.name) → o'.get n = o.get n) ∧
    ((∀ f ∈ fs, o.get f.name = .unset → ∃ v, f.initial = some v ∧ Accepts f v) →
      ∃ o', initDefaults fs o = .ok o') := by
  induction fs generalizing o with
  | nil => simp [initDefaults]
  | cons f fs ih =>
    simp only [List.map_cons, List.nodup_cons] at hnd
    have hne : ∀ g ∈ fs, g.name ≠ f.name := fun g hg h => hnd.1 (List.mem_map.mpr ⟨g, hg, h⟩)
    have hfk := hk f (by simp)
    unfold initDefaults
    by_cases hu : o.get f.name = .unset
    · rw [if_neg (by simpa using hu)]
      cases hi : f.initial with
      | none =>
        constructor
        · intro o' h; simp at h
        · intro h
          obtain ⟨v, hv, _⟩ := h f (by simp) hu
          rw [hi] at hv; simp at hv
      | some v =>
        simp only
        have ih' := ih (o := o.put f.name v) hnd.2
          (by intro g hg; rw [keys_put]; exact hk g (by simp [hg]))
        constructor
        · intro o' h
          cases hs : setField f o v with
          | error e => rw [hs] at h; simp at h
          | ok o1 =>
            rw [hs] at h
            simp only at h
            obtain ⟨ha, rfl⟩ := (setField_iff hu).mp hs
            obtain ⟨h1, h2, h3, h4⟩ := ih'.1 o' h
            refine ⟨?_, by rw [h2, keys_put], ?_, ?_⟩
            · intro g hg hgu
              rcases List.mem_cons.mp hg with rfl | hg
              · exact ⟨v, hi, ha⟩
              · exact h1 g hg (by rw [get_put _ _ _ _ hfk, if_neg (hne g hg)]; exact hgu)
            · intro g hg
              rcases List.mem_cons.mp hg with rfl | hg
              · rw [h4 _ hnd.1, get_put _ _ _ _ hfk, if_pos rfl, if_pos hu, hi]; rfl
              · rw [h3 g hg, get_put _ _ _ _ hfk, if_neg (hne g hg)]
            · intro n hn
              simp only [List.map_cons, List.mem_cons, not_or] at hn
              rw [h4 n hn.2, get_put _ _ _ _ hfk, if_neg hn.1]
        · intro h
          obtain ⟨w, hw, ha⟩ := h f (by simp) hu
          rw [hi] at hw
          simp only [Option.some.injEq] at hw
          subst hw
          rw [(setField_iff hu).mpr ⟨ha, rfl⟩]
          refine ih'.2 ?_
          intro g hg hgu
          rw [get_put _ _ _ _ hfk, if_neg (hne g hg)] at hgu
          exact h g (by simp [hg]) hgu
    · rw [if_pos hu]
      have ih' := ih (o := o) hnd.2 (fun g hg => hk g (by simp [hg]))
      constructor
      · intro o' h
        obtain ⟨h1, h2, h3, h4⟩ := ih'.1 o' h
        refine ⟨?_, h2, ?_, ?_⟩
        · intro g hg hgu
          rcases List.mem_cons.mp hg with rfl | hg
          · exact absurd hgu hu
          · exact h1 g hg hgu
        · intro g hg
          rcases List.mem_cons.mp hg with rfl | hg
          · rw [h4 _ hnd.1, if_neg hu]
          · exact h3 g hg
        · intro n hn
          simp only [List.map_cons, List.mem_cons, not_or] at hn
          exact h4 n hn.2
      · intro h
        exact ih'.2 (fun g hg => h g (by simp [hg]))

/-- The value supplied for a field: by position, else by keyword. -/
def supplied (cls : List Field) (args : List Val) (kw : List (List Char × Val)) (n : List Char) :
    Val := (kw.lookup n).getD (byPosition cls args n)

theorem byPosition_of_not_mem {cls : List Field} {args : List Val} {n : List Char}
    (h : n ∉ cls.map (·.name)) : byPosition cls args n = .unset := by
  unfold byPosition
  have : ((cls.map (·.name)).zip args).lookup n = none := by
    generalize cls.map (·.name) = ns at h
    induction ns generalizing args with
    | nil => simp
    | cons a ns ih =>
      cases args with
      | nil => simp
      | cons v vs =>
        simp only [List.mem_cons, not_or] at h
        have : (n == a) = false := by simpa using h.1
        simp only [List.zip_cons_cons, List.lookup, this]
        exact ih h.2
  rw [this]; rfl

/-- **C53.**  Construction of an object succeeds exactly when there are not more positional
arguments than fields, every keyword names a field that has not been given by position, every value
given is accepted by the checks of its field, and every field left out has a default that its checks
accept; then each field holds what was given for it, else its default. -/
theorem C53_construct (cls : List Field) (hcls : (cls.map (·.name)).Nodup)
    (args : List Val) (kw : List (List Char × Val)) (hkw : (kw.map (·.1)).Nodup) :
    ((∃ o, construct cls args kw = .ok o) ↔
      (args.length ≤ cls.length ∧
       (∀ p ∈ cls.zip args, Accepts p.1 p.2) ∧
       (∀ p ∈ kw, ∃ f ∈ cls, f.name = p.1 ∧ Accepts f p.2 ∧ byPosition cls args p.1 = .unset) ∧
       (∀ f ∈ cls, supplied cls args kw f.name = .unset →
          ∃ v, f.initial = some v ∧ Accepts f v))) ∧
    (∀ o, construct cls args kw = .ok o → o.map (·.1) = cls.map (·.name) ∧
      ∀ f ∈ cls, o.get f.name =
        if supplied cls args kw f.name = .unset then f.initial.getD .unset
        else supplied cls args kw f.name) := by
  have hget0 : ∀ n, Obj.get (cls.map fun f => (f.name, Val.unset)) n = .unset := by
    intro n
    unfold Obj.get
    clear hcls hkw
    induction cls with
    | nil => rfl
    | cons c cs ih =>
      simp only [List.map_cons, List.lookup]
      split
      · rfl
      · exact ih
  have hkeys0 : (cls.map fun f => (f.name, Val.unset)).map (·.1) = cls.map (·.name) := by simp
  by_cases hlen : args.length ≤ cls.length
  · have A := initArgs_iff (fs := cls) (vs := args) (o := cls.map fun f => (f.name, Val.unset)) hcls
      (fun f _ => hget0 _) (fun f hf => by rw [hkeys0]; exact List.mem_map.mpr ⟨f, hf, rfl⟩) hlen
    have hun : construct cls args kw =
        match initArgs cls args (cls.map fun f => (f.name, Val.unset)) with
        | .error e => .error e
        | .ok o => match initKwargs cls kw o with
          | .error e => .error e
          | .ok o => initDefaults cls o := by
      unfold construct
      simp only
      rw [if_neg (by omega)]
      rfl
    cases h1 : initArgs cls args (cls.map fun f => (f.name, Val.unset)) with
    | error e =>
      rw [hun, h1]
      constructor
      · constructor
        · rintro ⟨o, ho⟩; simp at ho
        · rintro ⟨_, h, _⟩
          obtain ⟨o, ho⟩ := A.2 h
          rw [ho] at h1; simp at h1
      · intro o ho; simp at ho
    | ok o1 =>
      obtain ⟨a1, a2, a3⟩ := A.1 o1 h1
      have hk1 : ∀ f ∈ cls, f.name ∈ o1.map (·.1) := by
        intro f hf; rw [a2, hkeys0]; exact List.mem_map.mpr ⟨f, hf, rfl⟩
      have g1 : ∀ n, o1.get n = byPosition cls args n := by
        intro n
        rw [a3 n]
        split
        · rfl
        · rename_i hn; rw [hget0, byPosition_of_not_mem hn]
      have B := initKwargs_iff hcls hkw hk1
      rw [hun, h1]
      simp only
      cases h2 : initKwargs cls kw o1 with
      | error e =>
        constructor
        · constructor
          · rintro ⟨o, ho⟩; simp at ho
          · rintro ⟨_, _, h, _⟩
            obtain ⟨o, ho⟩ := B.2 (by
              intro p hp
              obtain ⟨f, q1, q2, q3, q4⟩ := h p hp
              exact ⟨f, q1, q2, q3, by rw [g1]; exact q4⟩)
            rw [ho] at h2; simp at h2
        · intro o ho; simp at ho
      | ok o2 =>
        obtain ⟨b1, b2, b3⟩ := B.1 o2 h2
        have hk2 : ∀ f ∈ cls, f.name ∈ o2.map (·.1) := by
          intro f hf; rw [b2]; exact hk1 f hf
        have g2 : ∀ n, o2.get n = supplied cls args kw n := by
          intro n; rw [b3 n, g1]; rfl
        have D := initDefaults_iff (o := o2) hcls hk2
        simp only
        constructor
        · constructor
          · rintro ⟨o, ho⟩
            obtain ⟨d1, _⟩ := D.1 o ho
            refine ⟨hlen, a1, ?_, ?_⟩
            · intro p hp
              obtain ⟨f, q1, q2, q3, q4⟩ := b1 p hp
              exact ⟨f, q1, q2, q3, by rw [← g1]; exact q4⟩
            · intro f hf hs
              exact d1 f hf (by rw [g2]; exact hs)
          · rintro ⟨_, _, _, h⟩
            exact D.2 (fun f hf hs => h f hf (by rw [← g2]; exact hs))
        · intro o ho
          obtain ⟨_, d2, d3, _⟩ := D.1 o ho
          refine ⟨by rw [d2, b2, a2, hkeys0], ?_⟩
          intro f hf
          rw [d3 f hf, g2]
  · have hun : construct cls args kw = .error .typeError := by
      unfold construct
      simp only
      rw [if_pos (by omega)]
    rw [hun]
    constructor
    · constructor
      · rintro ⟨o, ho⟩; simp at ho
      · rintro ⟨h, _⟩; exact absurd h hlen
    · intro o ho; simp at ho

/-! ## Results -/

/-- Builders that an application can have. -/
inductive Builder : Obj → Prop
  | new {args kw o} (hkw : (kw.map (·.1)).Nodup) (h : construct builderCls args kw = .ok o) :
      Builder o
  | set {o o'} (f : Field) (hf : f ∈ builderCls) (v : Val) (hb : Builder o)
      (h : setField f o v = .ok o') : Builder o'
  | comment {o o'} (c : Val) (hb : Builder o) (h : addComment o c = .ok o') : Builder o'

theorem builderCls_nodup : (builderCls.map (·.name)).Nodup := by decide +kernel

theorem builder_no_const {f : Field} (hf : f ∈ builderCls) : ∀ c ∈ f.checks, ∀ o o' v,
    c.run o v = c.run o' v := by
  intro c hc o o' v
  simp only [builderCls, List.mem_cons, List.not_mem_nil, or_false] at hf
  rcases hf with rfl | rfl | rfl | rfl | rfl | rfl <;>
    simp only [bField, List.mem_cons, List.not_mem_nil, or_false] at hc
  all_goals first
    | (subst hc; rfl)
    | (rcases hc with rfl | rfl <;> rfl)

theorem accepts_unset {f : Field} (hf : f ∈ builderCls) : Accepts f .unset ∧ f.initial = some .unset := by
  simp only [builderCls, List.mem_cons, List.not_mem_nil, or_false] at hf
  unfold Accepts
  rcases hf with rfl | rfl | rfl | rfl | rfl | rfl <;>
    simp [bField, Check.run]

theorem comments_field {t : Val → Bool} : (bField "comments" t).name = "comments".toList := rfl

/-- Every field of a builder holds a value its checks accept. -/
theorem builder_ok {o : Obj} (h : Builder o) :
    o.map (·.1) = builderCls.map (·.name) ∧ ∀ f ∈ builderCls, Accepts f (o.get f.name) := by
  -- setting one field keeps this
  have hset : ∀ (o o' : Obj) (f : Field) (v : Val), f ∈ builderCls →
      (o.map (·.1) = builderCls.map (·.name) ∧ ∀ g ∈ builderCls, Accepts g (o.get g.name)) →
      setField f o v = .ok o' →
      (o'.map (·.1) = builderCls.map (·.name) ∧ ∀ g ∈ builderCls, Accepts g (o'.get g.name)) := by
    intro o o' f v hf ⟨h1, h2⟩ hs
    unfold setField at hs
    cases hr : f.set (o.get f.name) v with
    | error e => rw [hr] at hs; simp at hs
    | ok r =>
      rw [hr] at hs
      obtain ⟨e1, e2⟩ := set_ok hr
      simp only [Except.ok.injEq] at hs
      subst hs
      refine ⟨by rw [keys_put, h1], ?_⟩
      intro g hg
      have hk : f.name ∈ o.map (·.1) := by rw [h1]; exact List.mem_map.mpr ⟨f, hf, rfl⟩
      rw [get_put _ _ _ _ hk]
      by_cases hn : g.name = f.name
      · have : g = f := field_unique builderCls_nodup hg hf hn
        subst this
        rw [if_pos rfl, e1]
        intro c hc
        rw [builder_no_const hg c hc .unset (o.get g.name)]
        exact e2 c hc
      · rw [if_neg hn]; exact h2 g hg
  induction h with
  | @new args kw o hkw h =>
    obtain ⟨s1, s2⟩ := C53_construct builderCls builderCls_nodup args kw hkw
    obtain ⟨k1, k2⟩ := s2 o h
    refine ⟨k1, ?_⟩
    obtain ⟨c1, c2, c3, c4⟩ := s1.mp ⟨o, h⟩
    intro f hf
    rw [k2 f hf]
    split
    · rw [(accepts_unset hf).2]; exact (accepts_unset hf).1
    · rename_i hs
      unfold supplied at hs ⊢
      cases hl : kw.lookup f.name with
      | some v =>
        have hm := mem_of_lookup hl
        obtain ⟨g, g1, g2, g3, g4⟩ := c3 _ hm
        have : g = f := field_unique builderCls_nodup g1 hf g2
        rw [← this]; simpa using g3
      | none =>
        rw [hl] at hs
        simp only [Option.getD_none] at hs ⊢
        unfold byPosition at hs ⊢
        cases hp : ((builderCls.map (·.name)).zip args).lookup f.name with
        | none => rw [hp] at hs; simp at hs
        | some v =>
          exact c2 _ (position_mem builderCls_nodup hf hp)
  | @set o o' f hf v hb h ih => exact hset o o' f v hf ih h
  | @comment o o' c hb h ih =>
    have hm : bField "comments" isStr ∈ builderCls := by simp [builderCls]
    unfold addComment at h
    split at h
    · exact hset _ _ _ _ hm ih h
    · split at h
      · exact hset _ _ _ _ hm ih h
      · simp at h
    · simp at h

/-- Association list made from distinct names and a filter on values. -/
theorem lookup_filter_map (ns : List (List Char)) (hnd : ns.Nodup) (g : List Char → Val)
    (p : Val → Bool) (n : List Char) (hn : n ∈ ns) :
    ((ns.map fun m => (m, g m)).filter fun q => p q.2).lookup n =
      if p (g n) then some (g n) else none := by
  induction ns with
  | nil => simp at hn
  | cons m ns ih =>
    simp only [List.nodup_cons] at hnd
    rw [List.map_cons, List.filter_cons]
    rcases List.mem_cons.mp hn with rfl | hn
    · have hnone : ((ns.map fun m => (m, g m)).filter fun q => p q.2).lookup n = none := by
        have hk : n ∉ ((ns.map fun m => (m, g m)).filter fun q => p q.2).map (·.1) := by
          intro hx
          obtain ⟨q, hq, hqn⟩ := List.mem_map.mp hx
          obtain ⟨m, hm, rfl⟩ := List.mem_map.mp (List.mem_filter.mp hq).1
          simp only at hqn
          exact hnd.1 (hqn ▸ hm)
        generalize ((ns.map fun m => (m, g m)).filter fun q => p q.2) = L at hk
        induction L with
        | nil => rfl
        | cons q L ihL =>
          simp only [List.map_cons, List.mem_cons, not_or] at hk
          have : (n == q.1) = false := by simpa using hk.1
          obtain ⟨a, b⟩ := q
          simp only [List.lookup, this]
          exact ihL hk.2
      by_cases hp : p (g n) = true
      · simp [hp, List.lookup]
      · simp only [hp, if_neg]; simpa using hnone
    · have hb : (n == m) = false := by
        simp only [beq_eq_false_iff_ne]; intro he; exact hnd.1 (he ▸ hn)
      by_cases hp : p (g m) = true
      · simp only [hp, if_true, List.lookup, hb]; exact ih hnd.2 hn
      · have : p (g m) = false := by simpa using hp
        simp only [this]; simpa using ih hnd.2 hn

/-- The data of a result from a builder. -/
theorem getResult_data {o : Obj} {r : Result} (h : getResult o = .ok r) :
    r.data = ((builderCls.map (·.name)).map fun n => (n, o.get n)).filter
      (fun q => (decide (q.2 ≠ .none) && decide (q.2 ≠ .list [])) && decide (q.2 ≠ .unset)) ∧
    r.disk = decide (o.get "io_log_filename".toList ≠ .unset) ∧
    (o.get "io_log_filename".toList = .unset ∨ o.get "io_log".toList = .unset) := by
  unfold getResult at h
  split at h
  · simp at h
  · rename_i hc
    simp only [Except.ok.injEq] at h
    subst h
    refine ⟨?_, rfl, Classical.not_not.mp hc⟩
    simp only [mkResult, asDict, List.filter_filter, List.map_map, Function.comp_def]

theorem isStr_io {o : Obj} (h : ∀ f ∈ builderCls, Accepts f (o.get f.name)) :
    o.get "io_log_filename".toList = .unset ∨
      ∃ s, o.get "io_log_filename".toList = .str s := by
  have := h (bField "io_log_filename" isStr) (by simp [builderCls])
    (.unsetOrTyped isStr) (by simp [bField])
  have hd := (check_ok this).2
  rcases hd with hd | hd
  · exact .inl hd
  · right
    simp only [show (bField "io_log_filename" isStr).name = "io_log_filename".toList from rfl] at hd
    generalize o.get "io_log_filename".toList = w at hd
    cases w <;> simp [isStr] at hd
    exact ⟨_, rfl⟩

/-- **C24**, round trip: a result obtained from a builder gives a builder from which an equal
result of the same class is obtained. -/
theorem C24_round_trip {o : Obj} {r : Result} (hb : Builder o) (h : getResult o = .ok r) :
    ∃ o', getBuilder r = .ok o' ∧ getResult o' = .ok r := by
  obtain ⟨hk, ha⟩ := builder_ok hb
  obtain ⟨hd, hdisk, hboth⟩ := getResult_data h
  have hnames : ∀ q ∈ r.data, ∃ f ∈ builderCls, q = (f.name, o.get f.name) := by
    intro q hq
    rw [hd] at hq
    obtain ⟨n, hn, rfl⟩ := List.mem_map.mp (List.mem_filter.mp hq).1
    obtain ⟨f, hf, rfl⟩ := List.mem_map.mp hn
    exact ⟨f, hf, rfl⟩
  have hnd : (r.data.map (·.1)).Nodup := by
    rw [hd]
    have : (((builderCls.map (·.name)).map fun n => (n, o.get n)).map (·.1)).Nodup := by
      rw [List.map_map]
      have : ((fun x : List Char × Val => x.1) ∘ fun n => (n, o.get n)) = id := rfl
      rw [this, List.map_id]; exact builderCls_nodup
    exact this.sublist (List.Sublist.map _ List.filter_sublist)
  obtain ⟨s1, s2⟩ := C53_construct builderCls builderCls_nodup [] r.data hnd
  have hbp : ∀ n, byPosition builderCls [] n = .unset := by intro n; simp [byPosition]
  obtain ⟨o', ho'⟩ := s1.mpr ⟨by simp, by simp, by
      intro p hp
      obtain ⟨f, hf, rfl⟩ := hnames p hp
      exact ⟨f, hf, rfl, ha f hf, hbp _⟩,
    fun f hf _ => ⟨.unset, (accepts_unset hf).2, (accepts_unset hf).1⟩⟩
  refine ⟨o', ho', ?_⟩
  obtain ⟨k1, k2⟩ := s2 o' ho'
  have hget : ∀ n ∈ builderCls.map (·.name), o'.get n =
      if (decide (o.get n ≠ .none) && decide (o.get n ≠ .list [])) && decide (o.get n ≠ .unset)
      then o.get n else .unset := by
    intro n hn
    obtain ⟨f, hf, rfl⟩ := List.mem_map.mp hn
    rw [k2 f hf, (accepts_unset hf).2]
    unfold supplied
    rw [hbp, hd, lookup_filter_map _ builderCls_nodup _
      (fun v => (decide (v ≠ .none) && decide (v ≠ .list [])) && decide (v ≠ .unset)) _ hn]
    generalize o.get f.name = w
    by_cases hc : ((decide (w ≠ .none) && decide (w ≠ .list [])) && decide (w ≠ .unset)) = true
    · have hu : w ≠ .unset := by simpa using (Bool.and_eq_true_iff.mp hc).2
      rw [if_pos hc, if_pos hc, Option.getD_some, if_neg hu]
    · rw [if_neg hc, if_neg hc, Option.getD_none, if_pos rfl, Option.getD_some]
  have mem1 : "io_log_filename".toList ∈ builderCls.map (·.name) := by decide +kernel
  have mem2 : "io_log".toList ∈ builderCls.map (·.name) := by decide +kernel
  have hfn : o'.get "io_log_filename".toList = o.get "io_log_filename".toList := by
    rw [hget _ mem1]
    rcases isStr_io ha with h | ⟨s, h⟩
    · rw [h]; split <;> rfl
    · rw [h]; rfl
  have hboth' : o'.get "io_log_filename".toList = .unset ∨ o'.get "io_log".toList = .unset := by
    rcases hboth with h | h
    · left; rw [hfn, h]
    · right; rw [hget _ mem2, h]; split <;> rfl
  have hres : getResult o' = .ok (mkResult (decide (o'.get "io_log_filename".toList ≠ .unset))
      (asDict builderCls o')) := by
    unfold getResult
    rw [if_neg (Classical.not_not.mpr hboth')]
  rw [hres, hfn, ← hdisk]
  congr 1
  obtain ⟨disk, data⟩ := r
  simp only at hd ⊢
  unfold mkResult
  congr 1
  rw [hd]
  unfold asDict
  rw [List.filter_filter]
  have e : (builderCls.map fun f => (f.name, o'.get f.name)) =
      (builderCls.map (·.name)).map fun n => (n, o'.get n) := by simp
  rw [e]
  generalize builderCls.map (·.name) = ns at hget
  clear e hd hnames hnd s1 s2 ho' k1 k2 mem1 mem2 hres hboth' hfn hbp hk ha hb h hdisk hboth
  induction ns with
  | nil => rfl
  | cons n ns ih =>
    rw [List.map_cons, List.map_cons, List.filter_cons, List.filter_cons,
      ih (fun m hm => hget m (by simp [hm])), hget n (by simp)]
    by_cases h1 : o.get n = .none
    · simp [h1]
    · by_cases h2 : o.get n = .list []
      · simp [h2]
      · by_cases h3 : o.get n = .unset
        · simp [h3]
        · simp [h1, h2, h3]

theorem builder_refuses {f : Field} (hf : f ∈ builderCls) :
    ¬ Accepts f .none ∧ (Accepts f (.list []) → f.name = "io_log".toList) := by
  simp only [builderCls, List.mem_cons, List.not_mem_nil, or_false] at hf
  unfold Accepts
  rcases hf with rfl | rfl | rfl | rfl | rfl | rfl <;>
    simp [bField, Check.run, isStr, isFloat, isInt, isList]

/-- **C24**, hollow results (what holds): a result from a builder is hollow exactly when nothing was
set, except that an empty I/O log counts as nothing. -/
theorem C24_hollow_partial {o : Obj} {r : Result} (hb : Builder o) (h : getResult o = .ok r) :
    r.isHollow = true ↔ ∀ f ∈ builderCls, o.get f.name = .unset ∨
      (f.name = "io_log".toList ∧ o.get f.name = .list []) := by
  obtain ⟨hk, ha⟩ := builder_ok hb
  obtain ⟨hd, _, _⟩ := getResult_data h
  unfold Result.isHollow
  rw [List.isEmpty_iff, hd, List.filter_eq_nil_iff]
  constructor
  · intro hall f hf
    have := hall (f.name, o.get f.name) (List.mem_map.mpr ⟨f.name, List.mem_map.mpr ⟨f, hf, rfl⟩, rfl⟩)
    simp only [Bool.and_eq_true, decide_eq_true_eq, not_and, Classical.not_not] at this
    have hA := ha f hf
    by_cases hu : o.get f.name = .unset
    · exact .inl hu
    · right
      have hnn : o.get f.name = .none ∨ o.get f.name = .list [] := by
        by_cases h1 : o.get f.name = .none
        · exact .inl h1
        · by_cases h2 : o.get f.name = .list []
          · exact .inr h2
          · exact absurd (this ⟨h1, h2⟩) hu
      rcases hnn with hx | hx
      · rw [hx] at hA; exact absurd hA (builder_refuses hf).1
      · rw [hx] at hA; exact ⟨(builder_refuses hf).2 hA, hx⟩
  · intro hall q hq
    obtain ⟨n, hn, rfl⟩ := List.mem_map.mp hq
    obtain ⟨f, hf, rfl⟩ := List.mem_map.mp hn
    rcases hall f hf with h | ⟨_, h⟩ <;> simp [h]

/-- **C24** is false for an empty I/O log: it was set, yet the result is hollow. -/
theorem C24_violated : ∃ o r, Builder o ∧ getResult o = .ok r ∧
    o.get "io_log".toList = .list [] ∧ r.isHollow = true := by
  have h : construct builderCls [] [("io_log".toList, .list [])] =
      .ok [("outcome".toList, .unset), ("execution_duration".toList, .unset),
        ("comments".toList, .unset), ("return_code".toList, .unset),
        ("io_log".toList, .list []), ("io_log_filename".toList, .unset)] := by decide +kernel
  exact ⟨_, ⟨false, []⟩, .new (by decide +kernel) h, by decide +kernel, by decide +kernel, rfl⟩

/-! ## Result history -/

/-- The result after a sequence of assignments has the data of the last one. -/
theorem assign_cases (s : JobResults) (r : Result) :
    s.assign r = if r.data = s.result.data then s else
      ⟨r, if r.isHollow then s.history else s.history ++ [r]⟩ := by
  unfold JobResults.assign Pod.assign
  simp only [List.foldlM, pure, Except.pure]
  by_cases h : r.data = s.result.data
  · simp [Result.eq, h]
  · simp [Result.eq, h]

/-- **C25** (what holds): after any sequence of assignments the history consists, in order, of the
assigned non-hollow results that differ from the result assigned just before (the first one is
compared to the initial hollow result); and unless the current result is hollow it is the last
entry. -/
theorem C25_history_partial (rs : List Result) :
    (rs.foldl JobResults.assign .init).history =
      (((mkResult false [] :: rs).zip rs).filter
        fun p => decide (p.1.data ≠ p.2.data) && !p.2.isHollow).map (·.2) ∧
    ((rs.foldl JobResults.assign .init).result.isHollow = false →
      (rs.foldl JobResults.assign .init).history.getLast? =
        some (rs.foldl JobResults.assign .init).result) := by
  have gen : ∀ (rs : List Result) (s : JobResults) (prev : Result), prev.data = s.result.data →
      (s.result.isHollow = false → s.history.getLast? = some s.result) →
      (rs.foldl JobResults.assign s).history = s.history ++
        (((prev :: rs).zip rs).filter
          fun p => decide (p.1.data ≠ p.2.data) && !p.2.isHollow).map (·.2) ∧
      ((rs.foldl JobResults.assign s).result.isHollow = false →
        (rs.foldl JobResults.assign s).history.getLast? =
          some (rs.foldl JobResults.assign s).result) := by
    intro rs
    induction rs with
    | nil => intro s prev _ h; exact ⟨by simp, h⟩
    | cons r rs ih =>
      intro s prev hp hl
      rw [List.foldl_cons, List.zip_cons_cons, List.filter_cons, assign_cases]
      by_cases hd : r.data = s.result.data
      · rw [if_pos hd]
        have := ih s r hd hl
        refine ⟨?_, this.2⟩
        rw [this.1]
        have : ¬ (decide (prev.data ≠ r.data) && !r.isHollow) = true := by simp [hp, hd]
        simp only [if_neg this]
      · rw [if_neg hd]
        have hd' : prev.data ≠ r.data := fun h => hd (by rw [← h, hp])
        by_cases hh : r.isHollow = true
        · simp only [hh, if_true]
          have := ih ⟨r, s.history⟩ r rfl (by simp [hh])
          refine ⟨?_, this.2⟩
          rw [this.1]
          simp [hh]
        · have hh' : r.isHollow = false := by simpa using hh
          simp only [hh', Bool.false_eq_true, if_false]
          have := ih ⟨r, s.history ++ [r]⟩ r rfl (by simp)
          refine ⟨?_, this.2⟩
          rw [this.1]
          simp [hd', hh']
  have := gen rs .init (mkResult false []) rfl (by simp [JobResults.init, Result.isHollow, mkResult])
  exact ⟨by simpa [JobResults.init] using this.1, this.2⟩

/-- **C25** for sequences in which no result equals the one before it: the history is exactly the
sequence of the non-hollow results. -/
theorem C25_history_distinct (rs : List Result)
    (h : ∀ p ∈ (mkResult false [] :: rs).zip rs, p.2.isHollow = false → p.1.data ≠ p.2.data) :
    (rs.foldl JobResults.assign .init).history = rs.filter fun r => !r.isHollow := by
  rw [(C25_history_partial rs).1]
  have gen : ∀ (rs : List Result) (prev : Result),
      (∀ p ∈ (prev :: rs).zip rs, p.2.isHollow = false → p.1.data ≠ p.2.data) →
      (((prev :: rs).zip rs).filter
        fun p => decide (p.1.data ≠ p.2.data) && !p.2.isHollow).map (·.2) =
        rs.filter fun r => !r.isHollow := by
    intro rs
    induction rs with
    | nil => intros; rfl
    | cons r rs ih =>
      intro prev hp
      rw [List.zip_cons_cons, List.filter_cons, List.filter_cons]
      have ih' := ih r (fun p hpm => hp p (by rw [List.zip_cons_cons]; exact List.mem_cons_of_mem _ hpm))
      cases hh : r.isHollow with
      | true => simpa [hh] using ih'
      | false =>
        have := hp (prev, r) (by simp) hh
        simp only [ne_eq] at this
        simpa [hh, this] using ih'
  exact gen rs _ h

/-- **C25** is false as stated: a result recorded twice in a row appears once. -/
theorem C25_violated : ∃ r : Result, r.isHollow = false ∧
    ([r, r].foldl JobResults.assign .init).history = [r] :=
  ⟨⟨false, [("outcome".toList, .str "fail".toList)]⟩, by decide, by decide +kernel⟩

/-! ## Concrete cases -/

/-- A tuple field that must hold strings, is announced, and starts empty. -/
def exField : Field :=
  { name := "tags".toList, checks := [.typed isTuple, .seq isStr], notify := true,
    initial := some (.tuple []) }

example : attempts valEq (exField.checks.map Check.run) exField.notify (.tuple [])
    [.int 1, .tuple [.str ['a']], .tuple [.str ['a']], .tuple [.int 2], .tuple []] =
    (.tuple [], [(.tuple [], .tuple [.str ['a']]), (.tuple [.str ['a']], .tuple [])]) := by
  decide +kernel

example : construct [{ name := "a".toList, initial := none }, exField] [.int 1] [] =
    .ok [("a".toList, .int 1), ("tags".toList, .tuple [])] := by decide +kernel
example : construct [{ name := "a".toList, initial := none }, exField] [] [] =
    .error .typeError := by decide +kernel

/-- A builder with several fields set and its result. -/
example : ∃ o, Builder o ∧ getResult o = .ok ⟨true, [("outcome".toList, .str "pass".toList),
    ("comments".toList, .str "a\nb".toList), ("io_log_filename".toList, .str "f".toList)]⟩ := by
  have h1 : construct builderCls [.str "pass".toList]
      [("io_log_filename".toList, .str "f".toList), ("comments".toList, .str "a".toList)] =
      .ok [("outcome".toList, .str "pass".toList), ("execution_duration".toList, .unset),
        ("comments".toList, .str "a".toList), ("return_code".toList, .unset),
        ("io_log".toList, .unset), ("io_log_filename".toList, .str "f".toList)] := by
    decide +kernel
  have h2 : addComment [("outcome".toList, .str "pass".toList),
        ("execution_duration".toList, .unset),
        ("comments".toList, .str "a".toList), ("return_code".toList, .unset),
        ("io_log".toList, .unset), ("io_log_filename".toList, .str "f".toList)]
        (.str "b".toList) = .ok [("outcome".toList, .str "pass".toList),
        ("execution_duration".toList, .unset),
        ("comments".toList, .str "a\nb".toList), ("return_code".toList, .unset),
        ("io_log".toList, .unset), ("io_log_filename".toList, .str "f".toList)] := by
    decide +kernel
  exact ⟨_, .comment _ (.new (by decide +kernel) h1) h2, by decide +kernel⟩

/-- What the fields of a builder may hold, by name. A return code may be a boolean, as python's
booleans are integers. -/
def Holds (n : String) (v : Val) : Prop :=
  v = .unset ∨
  (n ∈ ["outcome", "comments", "io_log_filename"] ∧ ∃ s, v = .str s) ∨
  (n = "execution_duration" ∧ ∃ d, v = .float d) ∨
  (n = "return_code" ∧ ((∃ k, v = .int k) ∨ ∃ b, v = .bool b)) ∨
  (n = "io_log" ∧ ∃ l, v = .list l ∧ ∀ x ∈ l, ∃ t, x = .tuple t)

/-- **C24**, fields: a builder accepts exactly these values. -/
theorem C24_accepts (n : String) (f : Field) (hf : f ∈ builderCls) (hn : f.name = n.toList) (v : Val) :
    Accepts f v ↔ Holds n v := by
  simp only [builderCls, List.mem_cons, List.not_mem_nil, or_false] at hf
  have hname : ∀ {m : String}, m.toList = n.toList → n = m := fun h => (String.toList_injective h).symm
  rcases hf with rfl | rfl | rfl | rfl | rfl | rfl
  all_goals
    have hn' := hname hn
    subst hn'
    unfold Accepts Holds
    cases v with
    | list l =>
      have key : (∀ x ∈ l, isTuple x = true) ↔ ∀ x ∈ l, ∃ t, x = Val.tuple t := by
        refine forall₂_congr fun x _ => ?_
        cases x <;> simp [isTuple]
      simp [bField, Check.run, items, ← key, isStr, isFloat, isInt, isList]
    | _ => simp [bField, Check.run, isStr, isFloat, isInt, isList, isTuple, items]

example : Holds "return_code" (.bool true) ∧ ¬ Holds "return_code" (.str ['0']) := by
  simp [Holds]

end Verif.Pod
