import Verif.Prelude
import Mathlib.Algebra.BigOperators.Fin

/-!
# Model of the matrix products of `linalg/utils.py` 679-701

Compiled products exist for arrays of floats only (integer arrays raise a `TypingError`, modelled as
`PyErr.type`); sizes that do not fit raise a `ValueError`.
-/

namespace Verif.Products

/-- A two dimensional array and whether it holds floats. -/
structure Arr (K : Type) where
  rows : ℕ
  cols : ℕ
  isFloat : Bool
  a : Fin rows → Fin cols → K

section
variable {K : Type}

/-- `A.T` -/
def Arr.T (A : Arr K) : Arr K := ⟨A.cols, A.rows, A.isFloat, fun i j => A.a j i⟩

variable [CommRing K]

/-- `A @ B` in compiled code. -/
def dot (A B : Arr K) : Py (Arr K) :=
  if A.isFloat && B.isFloat then
    if h : A.cols = B.rows then
      .ok ⟨A.rows, B.cols, true, fun i j => ∑ k : Fin A.cols, A.a i k * B.a (Fin.cast h k) j⟩
    else .error .value
  else .error .type

/-- `w * A` -/
def scale (w : K) (A : Arr K) : Arr K := ⟨A.rows, A.cols, A.isFloat, fun i j => w * A.a i j⟩

/-- `matmul`, `linalg/utils.py` 679-681. -/
def matmul (A B : Arr K) : Py (Arr K) := dot A B

/-- `ATB`, `linalg/utils.py` 684-686. -/
def atb (A B : Arr K) : Py (Arr K) := dot A.T B

/-- `matmulw`, `linalg/utils.py` 689-691. -/
def matmulw (A B : Arr K) (w : K) : Py (Arr K) := (dot A B).map (scale w)

/-- `ATBA`, `linalg/utils.py` 694-696: `(A.T @ B) @ A`. -/
def atba (A B : Arr K) : Py (Arr K) := (dot A.T B).bind fun C => dot C A

/-- `ATBAw`, `linalg/utils.py` 699-701. -/
def atbaw (A B : Arr K) (w : K) : Py (Arr K) :=
  ((dot A.T B).bind fun C => dot C A).map (scale w)

end

end Verif.Products
