import Verif.Model.Visit
import Verif.Props.Words
import Verif.Props.Pattern
import Mathlib.Data.List.Forall2

/-!
# C133: a visitor sees every node once, in order; the fields with identifiers mean the identifiers written in them
-/

namespace Verif.Visit

open Verif.Words (Str)

/-! ## Specification -/

/-- The nodes of a list, in order. -/
inductive Items : List Val → List Val → Prop
  | nil : Items [] []
  | node (k f l r) : Items l r → Items (.node k f :: l) (.node k f :: r)
  | list (x l r) : Items l r → Items (.list x :: l) r
  | str (x l r) : Items l r → Items (.str x :: l) r
  | other (l r) : Items l r → Items (.other :: l) r

/-- The children of a node with these fields: nodes that are a field or in a list that is a field. -/
inductive Kids : List Val → List Val → Prop
  | nil : Kids [] []
  | node (k f l r) : Kids l r → Kids (.node k f :: l) (.node k f :: r)
  | list (x xs l r) : Items x xs → Kids l r → Kids (.list x :: l) (xs ++ r)
  | str (x l r) : Kids l r → Kids (.str x :: l) r
  | other (l r) : Kids l r → Kids (.other :: l) r

/-- What is below a node, by the numbers of the children on the way; all nodes on the way are of a class that has no method, or
one that goes on. -/
inductive Reaches (v : Visitor) : Val → List Nat → Val → Prop
  | here (n) : Reaches v n [] n
  | down (k fs cs i c p m) : v k = none ∨ v k = some .deep → Kids fs cs → cs[i]? = some c → Reaches v c p m →
      Reaches v (.node k fs) (i :: p) m

/-- The class of a node has a method. -/
def Heard (v : Visitor) (m : Val) : Prop := ∃ k fs, m = .node k fs ∧ v k ≠ none

/-! ## Children -/

theorem items_eq {l r : List Val} (h : Items l r) : l.filter Val.isNode = r := by
  induction h with
  | nil => rfl
  | node k f l r _ ih => rw [List.filter_cons_of_pos rfl, ih]
  | list x l r _ ih => rw [List.filter_cons_of_neg Bool.false_ne_true, ih]
  | str x l r _ ih => rw [List.filter_cons_of_neg Bool.false_ne_true, ih]
  | other l r _ ih => rw [List.filter_cons_of_neg Bool.false_ne_true, ih]

theorem items_filter : ∀ l : List Val, Items l (l.filter Val.isNode)
  | [] => .nil
  | .node k f :: l => .node k f l _ (items_filter l)
  | .list x :: l => .list x l _ (items_filter l)
  | .str x :: l => .str x l _ (items_filter l)
  | .other :: l => .other l _ (items_filter l)

theorem kids_eq {l r : List Val} (h : Kids l r) : entries l = r := by
  induction h with
  | nil => rfl
  | node k f l r _ ih => simp only [entries, List.flatMap_cons, fieldEntries] at ih ⊢; rw [ih]; rfl
  | list x xs l r hx _ ih =>
    simp only [entries, List.flatMap_cons, fieldEntries] at ih ⊢
    rw [ih, items_eq hx]
  | str x l r _ ih => simpa [entries, List.flatMap_cons, fieldEntries] using ih
  | other l r _ ih => simpa [entries, List.flatMap_cons, fieldEntries] using ih

theorem kids_entries : ∀ l : List Val, Kids l (entries l)
  | [] => .nil
  | .node k f :: l => .node k f l _ (kids_entries l)
  | .list x :: l => .list x _ l _ (items_filter x) (kids_entries l)
  | .str x :: l => .str x l _ (kids_entries l)
  | .other :: l => .other l _ (kids_entries l)

theorem kids_node {fs : List Val} {c : Val} (h : c ∈ entries fs) : c.isNode = true := by
  unfold entries at h
  rw [List.mem_flatMap] at h
  obtain ⟨f, hf, hc⟩ := h
  cases f with
  | node k f' => simp only [fieldEntries, List.mem_singleton] at hc; subst hc; rfl
  | list l => simp only [fieldEntries, List.mem_filter] at hc; exact hc.2
  | str s => simp [fieldEntries] at hc
  | other => simp [fieldEntries] at hc

theorem visit_node (v : Visitor) (k : String) (fs : List Val) : visit v (.node k fs) =
    match v k with
    | none => run ((entries fs).map (visit v))
    | some .leaf => ([.node k fs], false)
    | some .raises => ([], true)
    | some .deep => (.node k fs :: (run ((entries fs).map (visit v))).1, (run ((entries fs).map (visit v))).2) := by
  have e : ((entries fs).attach.map fun c => visit v c.1) = (entries fs).map (visit v) := by
    rw [List.attach_map_val (f := visit v)]
  rw [visit]
  cases v k with
  | none => simp only [e]
  | some m => cases m <;> simp only [e]

/-! ## The walk -/

/-- The places of the nodes that are seen. -/
def Walk (v : Visitor) (n : Val) (paths : List (List Nat)) (log : List Val) : Prop :=
  List.Forall₂ (fun p m => Reaches v n p m ∧ Heard v m) paths log ∧ paths.Pairwise (· < ·) ∧
    ∀ p m, Reaches v n p m → Heard v m → p ∈ paths

theorem forall2_append {α β : Type} {R : α → β → Prop} {a c : List α} {b d : List β} (h1 : List.Forall₂ R a b)
    (h2 : List.Forall₂ R c d) : List.Forall₂ R (a ++ c) (b ++ d) := by
  induction h1 with
  | nil => exact h2
  | cons h _ ih => exact .cons h ih

theorem forall2_map {α β γ : Type} {R : α → β → Prop} {S : γ → β → Prop} {f : α → γ} {a : List α} {b : List β}
    (h1 : List.Forall₂ R a b) (h : ∀ x y, R x y → S (f x) y) : List.Forall₂ S (a.map f) b := by
  induction h1 with
  | nil => exact .nil
  | cons hx _ ih => exact .cons (h _ _ hx) ih

theorem run_walk {v : Visitor} : ∀ (cs : List Val), (∀ c ∈ cs, ∃ paths, (visit v c).2 = false ∧ Walk v c paths (visit v c).1) →
    ∀ k : Nat, ∃ paths, (run (cs.map (visit v))).2 = false ∧
      List.Forall₂ (fun p m => ∃ i q c, p = (k + i) :: q ∧ cs[i]? = some c ∧ Reaches v c q m ∧ Heard v m) paths
        (run (cs.map (visit v))).1 ∧
      paths.Pairwise (· < ·) ∧ (∀ p ∈ paths, ∃ i q, p = (k + i) :: q) ∧
      ∀ i q c m, cs[i]? = some c → Reaches v c q m → Heard v m → ((k + i) :: q) ∈ paths := by
  intro cs
  induction cs with
  | nil =>
    intro _ k
    refine ⟨[], rfl, .nil, .nil, (fun p hp => nomatch hp), ?_⟩
    intro i q c m h
    simp at h
  | cons c cs ih =>
    intro h k
    obtain ⟨P, hr, hf, hp, hc⟩ := h c List.mem_cons_self
    obtain ⟨Q, qr, qf, qp, qk, qc⟩ := ih (fun x hx => h x (List.mem_cons_of_mem _ hx)) (k + 1)
    have e : run ((c :: cs).map (visit v)) = ((visit v c).1 ++ (run (cs.map (visit v))).1, (run (cs.map (visit v))).2) := by
      rw [List.map_cons]
      generalize visit v c = x at hr
      obtain ⟨a, b⟩ := x
      dsimp only at hr
      subst hr
      rfl
    refine ⟨P.map (k :: ·) ++ Q, by rw [e]; exact qr, ?_, ?_, ?_, ?_⟩
    · rw [e]
      refine forall2_append (forall2_map hf ?_) ?_
      · intro x y hxy
        exact ⟨0, x, c, by simp, by simp, hxy.1, hxy.2⟩
      · refine qf.imp ?_
        rintro p m ⟨i, q, d, rfl, hi, hm, hh⟩
        exact ⟨i + 1, q, d, by simp; omega, by simpa using hi, hm, hh⟩
    · rw [List.pairwise_append]
      refine ⟨?_, qp, ?_⟩
      · rw [List.pairwise_map]
        refine hp.imp fun hab => ?_
        exact List.Lex.cons hab
      · intro a ha b hb
        rw [List.mem_map] at ha
        obtain ⟨x, -, rfl⟩ := ha
        obtain ⟨i, q, rfl⟩ := qk b hb
        exact List.Lex.rel (by omega)
    · intro p hp
      rw [List.mem_append, List.mem_map] at hp
      rcases hp with ⟨x, -, rfl⟩ | hp
      · exact ⟨0, x, by simp⟩
      · obtain ⟨i, q, rfl⟩ := qk p hp
        exact ⟨i + 1, q, by simp; omega⟩
    · intro i q d m hi hm hh
      rw [List.mem_append, List.mem_map]
      cases i with
      | zero =>
        simp only [List.getElem?_cons_zero, Option.some.injEq] at hi
        subst hi
        exact .inl ⟨q, hc q m hm hh, by simp⟩
      | succ i =>
        rw [List.getElem?_cons_succ] at hi
        have := qc i q d m hi hm hh
        rw [show k + 1 + i = k + (i + 1) by omega] at this
        exact .inr this

theorem visit_walk {v : Visitor} (hv : ∀ k, v k ≠ some .raises) (n : Nat) : ∀ x : Val, sizeOf x ≤ n → x.isNode = true →
    ∃ paths, (visit v x).2 = false ∧ Walk v x paths (visit v x).1 := by
  induction n with
  | zero =>
    intro x hx hn
    cases x <;> simp at hx
  | succ n ih =>
    intro x hx hn
    cases x with
    | node k fs =>
      have kids : ∀ c ∈ entries fs, ∃ paths, (visit v c).2 = false ∧ Walk v c paths (visit v c).1 := by
        intro c hc
        have h1 := entries_lt hc
        simp only [Val.node.sizeOf_spec] at hx
        have hp : 0 < sizeOf k := by
          cases k
          show 0 < 1 + _
          omega
        exact ih c (by omega) (kids_node hc)
      obtain ⟨Q, qr, qf, qp, qk, qc⟩ := run_walk (v := v) (entries fs) kids 0
      rw [visit_node]
      cases hk : v k with
      | none =>
        dsimp only
        refine ⟨Q, qr, ?_, qp, ?_⟩
        · refine qf.imp ?_
          rintro p m ⟨i, q, c, rfl, hi, hm, hh⟩
          refine ⟨?_, hh⟩
          rw [Nat.zero_add]
          exact .down k fs _ i c q m (.inl hk) (kids_entries fs) hi hm
        · intro p m hm hh
          cases hm with
          | here =>
            obtain ⟨k', fs', e, hne⟩ := hh
            cases e
            exact absurd hk hne
          | down _ _ cs i c p m _ hkids hi hm =>
            rw [← kids_eq hkids] at hi
            have := qc i p c m hi hm hh
            rwa [Nat.zero_add] at this
      | some me =>
        cases me with
        | raises => exact absurd hk (hv k)
        | leaf =>
          dsimp only
          refine ⟨[[]], rfl, .cons ⟨.here _, k, fs, rfl, by rw [hk]; nofun⟩ .nil, List.pairwise_singleton _ _, ?_⟩
          intro p m hm hh
          cases hm with
          | here => exact List.mem_singleton_self _
          | down _ _ cs i c p m hd hkids hi hm =>
            rw [hk] at hd
            rcases hd with hd | hd <;> cases hd
        | deep =>
          dsimp only
          refine ⟨[] :: Q, qr, .cons ⟨.here _, k, fs, rfl, by rw [hk]; nofun⟩ (qf.imp ?_), ?_, ?_⟩
          · rintro p m ⟨i, q, c, rfl, hi, hm, hh⟩
            refine ⟨?_, hh⟩
            rw [Nat.zero_add]
            exact .down k fs _ i c q m (.inr hk) (kids_entries fs) hi hm
          · rw [List.pairwise_cons]
            refine ⟨?_, qp⟩
            intro p hp
            obtain ⟨i, q, rfl⟩ := qk p hp
            exact List.Lex.nil
          · intro p m hm hh
            cases hm with
            | here => exact List.mem_cons_self
            | down _ _ cs i c p m _ hkids hi hm =>
              rw [← kids_eq hkids] at hi
              have := qc i p c m hi hm hh
              rw [Nat.zero_add] at this
              exact List.mem_cons_of_mem _ this
    | list l => cases hn
    | str s => cases hn
    | other => cases hn

/-! ## Theorems -/

/-- **C133**: a visitor sees exactly the nodes whose class has a method and that are not below a node whose method does not go
on, each of them once, parents before children and children in the order of the fields and lists.  Missing: nodes in lists that are in lists (see the violation). -/
theorem C133_visit_partial {v : Visitor} (hv : ∀ k, v k ≠ some .raises) (k : String) (fs : List Val) :
    ∃ paths : List (List Nat), (visit v (.node k fs)).2 = false ∧
      List.Forall₂ (fun p m => Reaches v (.node k fs) p m ∧ Heard v m) paths (visit v (.node k fs)).1 ∧
      paths.Pairwise (· < ·) ∧ ∀ p m, Reaches v (.node k fs) p m → Heard v m → p ∈ paths :=
  visit_walk hv _ _ (Nat.le_refl _) rfl

/-- The visitor whose methods return where those of the given one raise. -/
def calm (v : Visitor) : Visitor := fun k => if v k = some .raises then some .leaf else v k

/-- A node whose method raises. -/
def Fatal (v : Visitor) (m : Val) : Prop := ∃ k fs, m = .node k fs ∧ v k = some .raises

/-- What is done with what has been seen when an exception comes. -/
def Cut (v : Visitor) (full : List Val) (r : List Val × Bool) : Prop :=
  (r.2 = false ∧ r.1 = full ∧ ∀ m ∈ full, ¬ Fatal v m) ∨
  (r.2 = true ∧ ∃ m rest, full = r.1 ++ m :: rest ∧ Fatal v m ∧ ∀ x ∈ r.1, ¬ Fatal v x)

theorem run_cut {v : Visitor} : ∀ cs : List Val, (∀ c ∈ cs, (visit (calm v) c).2 = false ∧ Cut v (visit (calm v) c).1 (visit v c)) →
    (run (cs.map (visit (calm v)))).2 = false ∧ Cut v (run (cs.map (visit (calm v)))).1 (run (cs.map (visit v))) := by
  intro cs
  induction cs with
  | nil => intro _; exact ⟨rfl, .inl ⟨rfl, rfl, fun m hm => nomatch hm⟩⟩
  | cons c cs ih =>
    intro h
    obtain ⟨h1, h2⟩ := h c List.mem_cons_self
    obtain ⟨i1, i2⟩ := ih fun x hx => h x (List.mem_cons_of_mem _ hx)
    rw [List.map_cons, List.map_cons]
    generalize visit (calm v) c = x at h1 h2
    generalize visit v c = y at h2
    obtain ⟨xa, xb⟩ := x
    obtain ⟨ya, yb⟩ := y
    dsimp only at h1 h2
    subst h1
    refine ⟨i1, ?_⟩
    rcases h2 with ⟨hb, ha, hn⟩ | ⟨hb, m, rest, ha, hf, hn⟩
    · dsimp only at hb ha hn
      subst hb ha
      show Cut v (ya ++ _) (ya ++ _, _)
      rcases i2 with ⟨jb, ja, jn⟩ | ⟨jb, m, rest, ja, jf, jn⟩
      · refine .inl ⟨jb, by rw [ja], ?_⟩
        intro m hm
        rcases List.mem_append.1 hm with hm | hm
        · exact hn m hm
        · exact jn m hm
      · refine .inr ⟨jb, m, rest, by rw [ja]; simp, jf, ?_⟩
        intro x hx
        rcases List.mem_append.1 hx with hx | hx
        · exact hn x hx
        · exact jn x hx
    · dsimp only at hb ha hn
      subst hb
      exact .inr ⟨rfl, m, rest ++ (run (cs.map (visit (calm v)))).1, by
        show xa ++ _ = _
        rw [ha]; simp [run], hf, hn⟩

theorem visit_cut {v : Visitor} (n : Nat) : ∀ x : Val, sizeOf x ≤ n → x.isNode = true →
    (visit (calm v) x).2 = false ∧ Cut v (visit (calm v) x).1 (visit v x) := by
  induction n with
  | zero => intro x hx hn; cases x <;> simp at hx
  | succ n ih =>
    intro x hx hn
    cases x with
    | node k fs =>
      have kids : ∀ c ∈ entries fs, (visit (calm v) c).2 = false ∧ Cut v (visit (calm v) c).1 (visit v c) := by
        intro c hc
        have h1 := entries_lt hc
        simp only [Val.node.sizeOf_spec] at hx
        have hp : 0 < sizeOf k := by
          cases k
          show 0 < 1 + _
          omega
        exact ih c (by omega) (kids_node hc)
      obtain ⟨r1, r2⟩ := run_cut (v := v) _ kids
      have hfk : Fatal v (.node k fs) ↔ v k = some .raises :=
        ⟨fun ⟨k', fs', e, h⟩ => by cases e; exact h, fun h => ⟨k, fs, rfl, h⟩⟩
      rw [visit_node, visit_node]
      cases hk : v k with
      | none =>
        rw [show calm v k = none by unfold calm; rw [if_neg (by rw [hk]; nofun), hk]]
        exact ⟨r1, r2⟩
      | some me =>
        cases me with
        | leaf =>
          rw [show calm v k = some .leaf by unfold calm; rw [if_neg (by rw [hk]; nofun), hk]]
          refine ⟨rfl, .inl ⟨rfl, rfl, ?_⟩⟩
          intro m hm
          rw [List.mem_singleton] at hm
          subst hm
          rw [hfk, hk]
          nofun
        | raises =>
          rw [show calm v k = some .leaf by unfold calm; rw [if_pos hk]]
          exact ⟨rfl, .inr ⟨rfl, _, [], rfl, hfk.2 hk, fun x hx => nomatch hx⟩⟩
        | deep =>
          rw [show calm v k = some .deep by unfold calm; rw [if_neg (by rw [hk]; nofun), hk]]
          have hd : ¬ Fatal v (.node k fs) := by rw [hfk, hk]; nofun
          refine ⟨r1, ?_⟩
          dsimp only
          rcases r2 with ⟨jb, ja, jn⟩ | ⟨jb, m, rest, ja, jf, jn⟩
          · refine .inl ⟨jb, by rw [ja], ?_⟩
            intro m hm
            rcases List.mem_cons.1 hm with rfl | hm
            · exact hd
            · exact jn m hm
          · refine .inr ⟨jb, m, rest, by rw [ja]; rfl, jf, ?_⟩
            intro x hx
            rcases List.mem_cons.1 hx with rfl | hx
            · exact hd
            · exact jn x hx
    | list l => cases hn
    | str s => cases hn
    | other => cases hn

/-- **C133**: an exception in a method ends the visit: up to then all nodes were seen that would have been seen without it, and
there is one exactly when one of these nodes has a method that raises. -/
theorem C133_raise (v : Visitor) (k : String) (fs : List Val) :
    ((visit v (.node k fs)).2 = false ∧ visit v (.node k fs) = visit (calm v) (.node k fs) ∧
      ∀ m ∈ (visit (calm v) (.node k fs)).1, ¬ Fatal v m) ∨
    ((visit v (.node k fs)).2 = true ∧ ∃ m rest, (visit (calm v) (.node k fs)).1 = (visit v (.node k fs)).1 ++ m :: rest ∧
      Fatal v m ∧ ∀ x ∈ (visit v (.node k fs)).1, ¬ Fatal v x) := by
  obtain ⟨h1, h2⟩ := visit_cut (v := v) _ (.node k fs) (Nat.le_refl _) rfl
  rcases h2 with ⟨hb, ha, hn⟩ | h
  · exact .inl ⟨hb, Prod.ext ha (hb.trans h1.symm), hn⟩
  · exact .inr h

/-! ### Identifiers -/

theorem visit_words (es : List Words.Entry) : (visit idVisitor (ofWords es)).1 = es.map ofEntry := by
  rw [ofWords, visit_node]
  rw [show idVisitor "WordList" = none by decide]
  dsimp only
  have e : entries [.other, .other, .list (es.map ofEntry)] = es.map ofEntry := by
    simp only [entries, List.flatMap_cons, fieldEntries, List.flatMap_nil, List.nil_append, List.append_nil]
    rw [List.filter_eq_self]
    intro a ha
    rw [List.mem_map] at ha
    obtain ⟨x, -, rfl⟩ := ha
    cases x <;> rfl
  rw [e]
  clear e
  induction es with
  | nil => rfl
  | cons x es ih =>
    rw [List.map_cons, List.map_cons]
    have : visit idVisitor (ofEntry x) = ([ofEntry x], false) := by
      cases x with
      | text s => rw [ofEntry, visit_node, show idVisitor "Text" = some .leaf by decide]
      | error l => rw [ofEntry, visit_node, show idVisitor "Error" = some .leaf by decide]
    rw [this, run, ih]
    rfl

theorem texts_words (es : List Words.Entry) : (es.map ofEntry).filterMap textOf =
    es.filterMap fun | .text s => some s | .error _ => none := by
  induction es with
  | nil => rfl
  | cons x es ih =>
    cases x with
    | text s => rw [List.map_cons, List.filterMap_cons, List.filterMap_cons, ih]; rfl
    | error l => rw [List.map_cons, List.filterMap_cons, List.filterMap_cons, ih]; rfl

theorem setAdd_all (f : Str → Str) : ∀ (l : List Str) (acc : List Str), acc.Nodup →
    (l.foldl (fun l s => setAdd l (f s)) acc).Nodup ∧
    ∀ x, x ∈ l.foldl (fun l s => setAdd l (f s)) acc ↔ x ∈ acc ∨ ∃ s ∈ l, x = f s := by
  intro l
  induction l with
  | nil => intro acc h; exact ⟨h, fun x => by simp⟩
  | cons s l ih =>
    intro acc h
    rw [List.foldl_cons]
    have hn : (setAdd acc (f s)).Nodup := by
      unfold setAdd
      split
      · exact h
      · rename_i hs
        rw [List.nodup_append]
        refine ⟨h, by simp, ?_⟩
        intro a ha b hb
        rw [List.mem_singleton] at hb
        subst hb
        rintro rfl
        exact hs ha
    have hm : ∀ x, x ∈ setAdd acc (f s) ↔ x ∈ acc ∨ x = f s := by
      intro x
      unfold setAdd
      split
      · rename_i hs
        constructor
        · exact .inl
        · rintro (hx | rfl)
          · exact hx
          · exact hs
      · simp
    obtain ⟨h1, h2⟩ := ih _ hn
    refine ⟨h1, fun x => ?_⟩
    rw [h2, hm]
    constructor
    · rintro ((hx | rfl) | ⟨t, ht, rfl⟩)
      · exact .inl hx
      · exact .inr ⟨s, List.mem_cons_self, rfl⟩
      · exact .inr ⟨t, List.mem_cons_of_mem _ ht, rfl⟩
    · rintro (hx | ⟨t, ht, rfl⟩)
      · exact .inl (.inl hx)
      · rcases List.mem_cons.1 ht with rfl | ht
        · exact .inl (.inr rfl)
        · exact .inr ⟨t, ht, rfl⟩

/-- The full identifier that a word in a field means: it is put into the namespace of the provider if it has none. -/
def Full (ns : Option Str) (w x : Str) : Prop :=
  (((∃ a b, w = a ++ ':' :: ':' :: b) ∨ ns = none) ∧ x = w) ∨
  ((¬ ∃ a b, w = a ++ ':' :: ':' :: b) ∧ ∃ n, ns = some n ∧ x = n ++ ':' :: ':' :: w)

theorem full_qualify (ns : Option Str) (w x : Str) : Full ns w x ↔ x = Pattern.qualifyId ns w := by
  cases ns with
  | none =>
    constructor
    · rintro (⟨-, rfl⟩ | ⟨-, n, h, -⟩)
      · rfl
      · cases h
    · rintro rfl
      exact .inl ⟨.inr rfl, rfl⟩
  | some n =>
    by_cases h : ∃ a b, w = a ++ ':' :: ':' :: b
    · have e : Pattern.qualifyId (some n) w = w := by
        obtain ⟨a, b, rfl⟩ := h
        exact Pattern.C34_qualified (some n) a b
      rw [e]
      constructor
      · rintro (⟨-, rfl⟩ | ⟨hn, -⟩)
        · rfl
        · exact absurd h hn
      · rintro rfl
        exact .inl ⟨.inl h, rfl⟩
    · have e : Pattern.qualifyId (some n) w = n ++ ':' :: ':' :: w := (Pattern.C34_result n w).2 h
      rw [e]
      constructor
      · rintro (⟨h' | h', -⟩ | ⟨-, n', hn, rfl⟩)
        · exact absurd h' h
        · cases h'
        · cases hn; rfl
      · rintro rfl
        exact .inr ⟨h, n, rfl, rfl⟩

/-- The words among the entries. -/
def wordsOf (es : List Words.Entry) : List Str := es.filterMap fun | .text s => some s | .error _ => none

theorem idSet_ok {ns : Option Str} {fuel : Nat} {text : Str} {es : List Words.Entry}
    (h : Words.wordList fuel text = .ok es) : ∃ S, idSet ns fuel (some text) = .ok S ∧ S.Nodup ∧
      ∀ x, x ∈ S ↔ ∃ w ∈ wordsOf es, Full ns w x := by
  refine ⟨(wordsOf es).foldl (fun l s => setAdd l (Pattern.qualifyId ns s)) [], ?_, ?_⟩
  · unfold idSet
    dsimp only
    rw [h]
    dsimp only
    rw [visit_words, texts_words]
    rfl
  · obtain ⟨h1, h2⟩ := setAdd_all (Pattern.qualifyId ns) (wordsOf es) [] .nil
    refine ⟨h1, fun x => ?_⟩
    rw [h2]
    constructor
    · rintro (hx | ⟨s, hs, e⟩)
      · cases hx
      · exact ⟨s, hs, (full_qualify ns s x).2 e⟩
    · rintro ⟨s, hs, e⟩
      exact .inr ⟨s, hs, (full_qualify ns s x).1 e⟩

theorem idList_ok {ns : Option Str} {fuel : Nat} {text : Str} {es : List Words.Entry}
    (h : Words.wordList fuel text = .ok es) : ∃ L, idList ns fuel (some text) = .ok L ∧
      List.Forall₂ (Full ns) (wordsOf es) L := by
  refine ⟨(wordsOf es).map (Pattern.qualifyId ns), ?_, ?_⟩
  · unfold idList
    dsimp only
    rw [h]
    dsimp only
    rw [visit_words, texts_words]
    rfl
  · induction wordsOf es with
    | nil => exact .nil
    | cons w l ih => exact .cons ((full_qualify ns w _).2 rfl) ih

/-- **C133**: a field with identifiers in the language of words means the identifiers that are written in it, in full: `depends`,
`after` and `bootstrap_include` as a set, `nested_part` in the order of writing. -/
theorem C133_written (ns : Option Str) (l : List (List Words.Gap × Words.Item)) (tail : List Words.Gap)
    (h : Words.WellWritten l tail) (hne : ∀ p ∈ l, p.2 ≠ .equals) (fuel : Nat) (hn : l.length < fuel) :
    (∃ S, idSet ns fuel (some (Words.render l tail)) = .ok S ∧ S.Nodup ∧
      ∀ x, x ∈ S ↔ ∃ p ∈ l, ∃ w, p.2.word? = some w ∧ Full ns w x) ∧
    ∃ L, idList ns fuel (some (Words.render l tail)) = .ok L ∧
      List.Forall₂ (Full ns) (l.filterMap fun p => p.2.word?) L := by
  have hw := Words.C28_round_trip l tail h hne fuel hn
  have e : wordsOf ((l.filterMap fun p => p.2.word?).map .text) = l.filterMap fun p => p.2.word? := by
    generalize (l.filterMap fun p => p.2.word?) = ws
    induction ws with
    | nil => rfl
    | cons w ws ih => rw [List.map_cons]; exact congrArg (w :: ·) ih
  obtain ⟨S, h1, h2, h3⟩ := idSet_ok (ns := ns) hw
  obtain ⟨L, h4, h5⟩ := idList_ok (ns := ns) hw
  rw [e] at h3 h5
  refine ⟨⟨S, h1, h2, fun x => ?_⟩, L, h4, h5⟩
  rw [h3]
  constructor
  · rintro ⟨w, hw, hf⟩
    obtain ⟨p, hp, e⟩ := List.mem_filterMap.1 hw
    exact ⟨p, hp, w, e, hf⟩
  · rintro ⟨p, hp, w, e, hf⟩
    exact ⟨w, List.mem_filterMap.2 ⟨p, hp, e⟩, hf⟩

/-- **C133**: what is not a word, such as an equals sign, is left out, and all words around it count. -/
theorem C133_others (ns : Option Str) {fuel : Nat} {text : Str} {es : List Words.Entry}
    (h : Words.wordList fuel text = .ok es) : ∃ S, idSet ns fuel (some text) = .ok S ∧ S.Nodup ∧
      ∀ x, x ∈ S ↔ ∃ w, Words.Entry.text w ∈ es ∧ Full ns w x := by
  obtain ⟨S, h1, h2, h3⟩ := idSet_ok (ns := ns) h
  refine ⟨S, h1, h2, fun x => ?_⟩
  rw [h3]
  have hm : ∀ w, w ∈ wordsOf es ↔ Words.Entry.text w ∈ es := by
    intro w
    unfold wordsOf
    rw [List.mem_filterMap]
    constructor
    · rintro ⟨a, ha, e⟩
      cases a with
      | text s => cases e; exact ha
      | error l => cases e
    · intro hw
      exact ⟨_, hw, rfl⟩
  constructor
  · rintro ⟨w, hw, hf⟩; exact ⟨w, (hm w).1 hw, hf⟩
  · rintro ⟨w, hw, hf⟩; exact ⟨w, (hm w).2 hw, hf⟩

/-- **C133**: a field that is absent means nothing. -/
theorem C133_absent (ns : Option Str) (fuel : Nat) : idSet ns fuel none = .ok [] ∧ idList ns fuel none = .ok [] := ⟨rfl, rfl⟩

/-! ### Examples -/

/-- An include statement with one override. -/
def exStmt : Val := .node "IncludeStmt" [.other, .other, .node "ReFixed" [.other, .other, .str "a".toList],
  .list [.node "OverrideExpression" [.other, .other, .node "Text" [.other, .other, .str "f".toList],
    .node "Text" [.other, .other, .str "v".toList]]]]

/-- Sees texts and statements, and goes on after statements. -/
def exVisitor : Visitor := fun k =>
  if k = "IncludeStmt" then some .deep else if k = "Text" then some .leaf else if k = "Error" then some .raises else none

/-- The statement, then the field and the value of the override. -/
example : (visit exVisitor (.node "IncludeStmtList" [.other, .other, .list [exStmt]])).1 =
    [exStmt, .node "Text" [.other, .other, .str "f".toList], .node "Text" [.other, .other, .str "v".toList]] := by
  simp [visit_node, exVisitor, exStmt, entries, fieldEntries, Val.isNode, run, List.filter_cons]

/-- Their places. -/
example : Reaches exVisitor (.node "IncludeStmtList" [.other, .other, .list [exStmt]]) [0, 1, 1]
    (.node "Text" [.other, .other, .str "v".toList]) ∧ Heard exVisitor (.node "Text" [.other, .other, .str "v".toList]) := by
  refine ⟨?_, _, _, rfl, by decide⟩
  refine .down _ _ _ 0 exStmt _ _ (.inl (by decide)) (kids_entries _) rfl ?_
  refine .down _ _ _ 1 _ _ _ (.inr (by decide)) (kids_entries _) rfl ?_
  exact .down _ _ _ 1 _ _ _ (.inl (by decide)) (kids_entries _) rfl (.here _)

/-- The hypothesis of `C133_visit_partial`. -/
example : ∀ k, idVisitor k ≠ some .raises := by
  intro k
  unfold idVisitor
  split <;> nofun

/-- An error after the statement: the statement was seen. -/
example : visit exVisitor (.node "IncludeStmtList" [.other, .other, .list [exStmt, .node "Error" [], exStmt]]) =
    ([exStmt, .node "Text" [.other, .other, .str "f".toList], .node "Text" [.other, .other, .str "v".toList]], true) := by
  simp [visit_node, exVisitor, exStmt, entries, fieldEntries, Val.isNode, run, List.filter_cons]

/-- `foo, x::bar`. -/
example :
    let l : List (List Words.Gap × Words.Item) :=
      [([], .bare 'f' "oo".toList), ([], .comma), ([.ws ' '], .bare 'x' "::bar".toList)]
    Words.WellWritten l [] ∧ (∀ p ∈ l, p.2 ≠ .equals) ∧ Words.render l [] = "foo, x::bar".toList ∧
      Full (some "ns".toList) "foo".toList "ns::foo".toList ∧ Full (some "ns".toList) "x::bar".toList "x::bar".toList := by
  refine ⟨⟨?_, ?_, ?_⟩, ?_, by decide, .inr ⟨?_, _, rfl, by decide⟩, .inl ⟨.inl ⟨['x'], "bar".toList, by decide⟩, rfl⟩⟩
  · decide +kernel
  · decide +kernel
  · simp [Words.Spaced, Words.Item.isBare, Words.Item.isWord]
  · simp
  · rintro ⟨a, b, e⟩
    have : ':' ∈ "foo".toList := by rw [e]; simp
    exact absurd this (by decide)

/-- An equals sign between two words. -/
example : Words.wordList 9 "a = b".toList = .ok [.text ['a'], .error (some ['=']), .text ['b']] := by decide +kernel

/-! ### Violations -/

/-- "Visit all of the sub-nodes reachable from this node": those in a list in a list are not visited. -/
theorem C133_nested_violated : ∃ t : Val, visit (fun _ => some .deep) (.node "Group" [.list [.list [t]]]) =
    ([.node "Group" [.list [.list [t]]]], false) :=
  ⟨.node "Text" [], by simp [visit_node, entries, fieldEntries, Val.isNode, run]⟩

/-- A quote that is left open in `depends`, as in `a "b`: the identifiers are never computed, however long one waits. -/
theorem C133_quote_violated (ns : Option Str) (fuel : Nat) :
    idSet ns fuel (some "a \"b".toList) = .error .diverge := by
  have h : Words.wordList fuel "a \"b".toList = .error .diverge :=
    Words.C28_open_later_diverges _ ' ' (by decide) (by decide) (by decide) fuel
  unfold idSet
  dsimp only
  rw [h]

end Verif.Visit
