import Verif.Basic

/-! # Python's `sorted`, shared by several models

`sorted` and `list.sort` are stable; the model is insertion sort, which yields the same list. -/

namespace Verif.Sort

variable {α : Type}

/-- Insert in front of the first element that is not smaller.
Standard library; used e.g. in storage.py:90, state.py:491, runner.py:929, plugins.py:495 and 572,
resume.py:697. -/
def insertBy (le : α → α → Bool) (x : α) : List α → List α
  | [] => [x]
  | y :: l => if le x y then x :: y :: l else y :: insertBy le x l

/-- `sorted(l)` for the order `le`.
Standard library; used e.g. in storage.py:90, state.py:491, runner.py:929, plugins.py:495 and 572,
resume.py:697. -/
def sortBy (le : α → α → Bool) : List α → List α
  | [] => []
  | x :: l => insertBy le x (sortBy le l)

/-- `a <= b` for two `str` objects: by code points.
Standard library; used by `sorted` in plugins.py:572, ctrl.py:196, xlsx.py:477. -/
def strLe : List Char → List Char → Bool
  | [], _ => true
  | _ :: _, [] => false
  | a :: l, b :: r => if a.toNat < b.toNat then true else if a = b then strLe l r else false

end Verif.Sort
