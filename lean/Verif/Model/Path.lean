import Verif.Basic

/-! # `posixpath` of the standard library, on lists of characters -/

namespace Verif.Path

/-- Paths, as in plainbox/impl/secure/providers/v1.py:426-524. -/
abbrev Str := List Char

/-- `os.path.join(a, b)`.
Standard library; used in v1.py:510, 883-923, 1307-1462, 1563-1565 and provider_manager.py:324, 370, 542. -/
def join (a b : Str) : Str :=
  if b.head? = some '/' then b
  else if a = [] ∨ a.getLast? = some '/' then a ++ b
  else a ++ '/' :: b

/-- `p[p.rfind('/') + 1:]`. (standard library, `os.path.basename` and `splitext`; used in v1.py 445-524) -/
def afterSlash (p : Str) : Str := (p.reverse.takeWhile (· ≠ '/')).reverse

/-- `p[:p.rfind('/') + 1]`.
(standard library, `os.path.dirname`; used in v1.py 514 and provider_manager.py 328, 383) -/
def uptoSlash (p : Str) : Str := (p.reverse.dropWhile (· ≠ '/')).reverse

/-- `p.rstrip('/')`. Part of `posixpath.dirname`, used in v1.py:514, 1522, 1536. -/
def rstripSlash (p : Str) : Str := (p.reverse.dropWhile (· = '/')).reverse

/-- `os.path.basename(p)`. Standard library; used in v1.py:478-524. -/
def basename (p : Str) : Str := afterSlash p

/-- `os.path.dirname(p)`: slashes at the end of the head are removed unless it consists of slashes.
Standard library; used in v1.py:514, 1522, 1536 and provider_manager.py:328, 383, 555. -/
def dirname (p : Str) : Str :=
  if (uptoSlash p).all (· = '/') then uptoSlash p else rstripSlash (uptoSlash p)

/-- What `genericpath._splitext` finds in the reversed last component: the part up to the last dot is
an extension unless only dots stand before it. Used by `os.path.splitext` in v1.py:445, 453, 487, 515. -/
def extRev (t : Str) : Str :=
  match t.dropWhile (· ≠ '.') with
  | [] => []
  | _ :: before => if before.any (· ≠ '.') then '.' :: (t.takeWhile (· ≠ '.')).reverse else []

/-- `os.path.splitext(p)[1]`. (standard library; used in v1.py 445, 453, 487, 515) -/
def ext (p : Str) : Str := extRev (afterSlash p).reverse

end Verif.Path
