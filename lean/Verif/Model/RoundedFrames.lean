import Verif.Model.Rounding
import Mathlib.LinearAlgebra.Matrix.Notation
import Mathlib.Data.List.FinRange

/-!
# Change of frames with rounded arithmetic

Components of vectors and second order tensors shown in other frames, with a rounding after each
operation.  In which order a library sums up the products of a scalar product, whether it begins with
a zero and whether it contracts multiplications and additions is left open: every scalar product is
evaluated along some plan.
-/

namespace Verif.RFrames
open Verif Verif.Rnd

/-- How a scalar product is evaluated: products, sums of partial results, and contracted
multiply-adds; `zero` is an accumulator that is set to zero. -/
inductive Plan (n : ℕ)
  | zero
  | prod (i : Fin n)
  | add (l r : Plan n)
  | fma (l : Plan n) (i : Fin n)

/-- The components a plan makes use of. -/
def Plan.terms {n : ℕ} : Plan n → List (Fin n)
  | .zero => []
  | .prod i => [i]
  | .add l r => l.terms ++ r.terms
  | .fma l i => l.terms ++ [i]

/-- The largest number of roundings on the way to the result. -/
def Plan.height {n : ℕ} : Plan n → ℕ
  | .zero => 0
  | .prod _ => 1
  | .add l r => max l.height r.height + 1
  | .fma l _ => l.height + 1

section
variable {K : Type} [Field K] [LinearOrder K] {n : ℕ} (fl : K → K)

/-- The rounded scalar product. -/
def Plan.eval (a b : Fin n → K) : Plan n → K
  | .zero => 0
  | .prod i => fl (a i * b i)
  | .add l r => fl (l.eval a b + r.eval a b)
  | .fma l i => fl (l.eval a b + a i * b i)

/-- `A @ B` for matrices. -/
def matmul (plan : Fin n → Fin n → Plan n) (A B : Matrix (Fin n) (Fin n) K) :
    Matrix (Fin n) (Fin n) K := fun i j => (plan i j).eval fl (A i) fun k => B k j

/-- `A @ x` for a matrix and a vector. -/
def matvec (plan : Fin n → Plan n) (A : Matrix (Fin n) (Fin n) K) (x : Fin n → K) : Fin n → K :=
  fun i => (plan i).eval fl (A i) x

/-- A frame: its axes and the axes of its dual frame as they are computed (`linalg/frame.py` 255-259:
the transposed inverse; 796-800: the axes themselves for Cartesian frames). -/
structure Frame (n : ℕ) (K : Type) where
  axes : Matrix (Fin n) (Fin n) K
  dual : Matrix (Fin n) (Fin n) K

/-- The plans of one call. -/
structure Plans (n : ℕ) where
  dcm : Fin n → Fin n → Plan n
  vec : Fin n → Plan n
  left : Fin n → Fin n → Plan n
  right : Fin n → Fin n → Plan n

/-- `S.dcm(target=T)`, `linalg/frame.py` 365-370. -/
def dcm (p : Plans n) (S T : Frame n K) : Matrix (Fin n) (Fin n) K :=
  matmul fl p.dcm T.dual S.axes.transpose

/-- `v.show(T)` for a vector with the components `x` in the frame `S`, `linalg/vector.py` 140-144 and
`linalg/utils.py` 403-421. -/
def showVector (p : Plans n) (S T : Frame n K) (x : Fin n → K) : Fin n → K :=
  matvec fl p.vec (dcm fl p S T) x

/-- `t.show(T)` for a second order tensor with the components `A` in the frame `S`,
`linalg/tensor.py` 131-135, 212-213 and `linalg/tr.py` 15-16. -/
def showTensor (p : Plans n) (S T : Frame n K) (A : Matrix (Fin n) (Fin n) K) :
    Matrix (Fin n) (Fin n) K :=
  matmul fl p.right (matmul fl p.left (dcm fl p S T) A) (dcm fl p S T).transpose

end

end Verif.RFrames
