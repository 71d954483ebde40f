import Verif.Model.Live
import Verif.Lemmas.Flat
import Verif.Props.Flat
import Verif.Props.Extcmd

namespace Verif.Live

open Verif.Checksum (Str)
open Verif.Flat (first first_spec first_append steps first_nil Begins begins_prefix begins_left prefix_free shape)
open Verif.Stream (encode encodeChar encodeChar_ne)

theorem skip_fuel : ∀ (f g : Nat) (bs : List Nat), bs.length ≤ f → bs.length ≤ g → skip f bs = skip g bs := by
  intro f
  induction f with
  | zero =>
    intro g bs hf _
    have : bs = [] := List.length_eq_zero_iff.1 (by omega)
    subst this
    cases g with
    | zero => rfl
    | succ g => rw [skip, skip, first_nil]
  | succ f ih =>
    intro g bs hf hg
    cases g with
    | zero =>
      have : bs = [] := List.length_eq_zero_iff.1 (by omega)
      subst this
      rw [skip, skip, first_nil]
    | succ g =>
      rw [skip, skip]
      rcases ho : first bs with _ | ⟨_ | c, n⟩
      · rfl
      · have := first_append ho []
        exact ih g _ (by rw [List.length_drop]; omega) (by rw [List.length_drop]; omega)
      · have := first_append ho []
        simp only
        rw [ih g _ (by rw [List.length_drop]; omega) (by rw [List.length_drop]; omega)]

/-- Leave out what is not UTF-8. -/
def skipAll (bs : List Nat) : Str := skip bs.length bs

theorem skipAll_eq (bs : List Nat) :
    skipAll bs =
      match first bs with
      | none => []
      | some (none, n) => skipAll (bs.drop n)
      | some (some c, n) => c :: skipAll (bs.drop n) := by
  unfold skipAll
  rw [skip_fuel bs.length (bs.length + 1) bs (by omega) (by omega), skip]
  rcases ho : first bs with _ | ⟨_ | c, n⟩
  · rfl
  · exact skip_fuel _ _ _ (by rw [List.length_drop]; omega) (by omega)
  · simp only
    rw [skip_fuel _ (bs.drop n).length _ (by rw [List.length_drop]; omega) (by omega)]

theorem ignore_eq (d : Extcmd.Bytes) : ignore d = skipAll (d.map (·.val)) := by
  unfold ignore skipAll
  rw [List.length_map]

/-- A newline is a byte of no other character. -/
theorem newline_alone {c : Char} (h : 10 ∈ encodeChar c) : encodeChar c = [10] := by
  rcases shape c with ⟨a, ha, _⟩ | ⟨a, b, ha, _⟩ | ⟨a, b, d, ha, _⟩ | ⟨a, b, d, e, ha, _⟩ <;> rw [ha] at h ⊢ <;>
    simp only [List.mem_cons, List.not_mem_nil, or_false] at h
  · rw [← h]
  · omega
  · omega
  · omega

end Verif.Live
