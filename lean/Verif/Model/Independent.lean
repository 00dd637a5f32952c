import Verif.Model.RoundedFrames
import Mathlib.LinearAlgebra.Matrix.Determinant.Basic
import Mathlib.Data.Real.Basic
import Mathlib.Data.Sign.Defs

/-!
# Model of the test for independence, `linalg/logical.py` 75-84 and `linalg/frame.py` 213-219, 248-253

In exact arithmetic for any number of vectors of any dimension, and, for two vectors, with a rounding after each
operation.  `np.linalg.det` is not part of the repository: it factorizes the matrix by Gaussian elimination with partial
pivoting and returns the sign of the product of the pivots times a number that is positive if no pivot is zero.  Underflow
and overflow are not modelled.
-/

namespace Verif.Indep
open Verif Verif.Rnd Verif.RFrames

noncomputable section

/-- `Gram(axes)`, `linalg/utils.py` 580-589, for matrices (553-555). -/
def gram {m n : ℕ} (axes : Matrix (Fin m) (Fin n) ℝ) : Matrix (Fin m) (Fin m) ℝ := axes * axes.transpose

/-- `is_independent_frame(axes, tol)`, `linalg/logical.py` 75-84, and `frame.is_independent` of general frames for
`tol = 0`, `linalg/frame.py` 213-219. -/
def isIndependentFrame {m n : ℕ} (axes : Matrix (Fin m) (Fin n) ℝ) (tol : ℝ) : Prop := tol < (gram axes).det

/-- The same for a stack of frames: `Gram` transposes every member (`linalg/utils.py` 556-558), and `np.linalg.det` gives one
number for each of them. -/
def isIndependentStack {m n : ℕ} (axes : List (Matrix (Fin m) (Fin n) ℝ)) (tol : ℝ) : List Prop :=
  ((axes.map fun a => a * a.transpose).map Matrix.det).map fun d => tol < d

end

section
variable {K : Type} [Field K] [LinearOrder K] {n : ℕ} (fl : K → K)

/-- What the library that factorizes the matrix leaves open: whether it divides by the pivot or multiplies by its reciprocal,
and whether it contracts multiplications and additions. -/
structure Lib where
  recip : Bool
  fused : Bool

/-- The elimination of one entry below the pivot `a`: from the rows `(a, b)` and `(c, d)`, the second pivot. -/
def second (lib : Lib) (a b c d : K) : K :=
  let l := if lib.recip then fl (c * fl (1 / a)) else fl (c / a)
  mulAdd fl lib.fused d (-l) b

/-- The sign of `np.linalg.det(G)` for a 2x2 matrix: rows are exchanged if the second entry of the first column is the larger
one; a pivot that is zero gives the sign zero. -/
def detSign (lib : Lib) (G : Matrix (Fin 2) (Fin 2) K) : SignType :=
  if |G 0 0| < |G 1 0| then
    -(SignType.sign (G 1 0) * SignType.sign (second fl lib (G 1 0) (G 1 1) (G 0 0) (G 0 1)))
  else if G 0 0 = 0 then 0
  else SignType.sign (G 0 0) * SignType.sign (second fl lib (G 0 0) (G 0 1) (G 1 0) (G 1 1))

/-- The Gram matrix of two vectors with rounded scalar products. -/
def gram2 (plan : Fin 2 → Fin 2 → Plan n) (axes : Matrix (Fin 2) (Fin n) K) : Matrix (Fin 2) (Fin 2) K :=
  fun i j => (plan i j).eval fl (axes i) (axes j)

/-- `is_independent_frame(axes)` for two vectors, `linalg/logical.py` 75-84, and `frame.is_independent` for general plane
frames, `linalg/frame.py` 213-219. -/
def isIndependent2 (lib : Lib) (plan : Fin 2 → Fin 2 → Plan n) (axes : Matrix (Fin 2) (Fin n) K) : Bool :=
  decide (detSign fl lib (gram2 fl plan axes) = 1)

/-- What `frame.volume()` of a general plane frame is, `linalg/frame.py` 248-253: the root of a number with the sign of the
determinant. -/
inductive Volume
  | zero
  | positive
  | nan
deriving DecidableEq

/-- `frame.volume()` -/
def volume2 (lib : Lib) (plan : Fin 2 → Fin 2 → Plan n) (axes : Matrix (Fin 2) (Fin n) K) : Volume :=
  match detSign fl lib (gram2 fl plan axes) with
  | .zero => .zero
  | .pos => .positive
  | .neg => .nan

end

end Verif.Indep
