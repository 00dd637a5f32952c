import Verif.Model.RoundedFrames
import Mathlib.Analysis.SpecialFunctions.Pow.Real

/-!
# The constructors of rectangular and Cartesian frames with rounded arithmetic

The tests of the constructors and the normalization of the base vectors, `linalg/frame.py` 666-671, 757-767,
`linalg/logical.py` 35-60 and `linalg/utils.py` 568-577, 832-834, with a rounding `fl` after each operation.  Scalar products
are evaluated along plans (see `Model/RoundedFrames`), sums along trees.  Numbers are real numbers; underflow and overflow
are not modelled, a quotient by zero (NaN) is `none`.
-/

namespace Verif.RNormal
open Verif Verif.Rnd Verif.RFrames

/-- The order in which a library adds numbers; `zero` is an accumulator that is set to zero. -/
inductive Tree (ι : Type)
  | zero
  | term (i : ι)
  | add (l r : Tree ι)

/-- The numbers that are added. -/
def Tree.terms {ι : Type} : Tree ι → List ι
  | .zero => []
  | .term i => [i]
  | .add l r => l.terms ++ r.terms

/-- The largest number of roundings on the way to the result. -/
def Tree.height {ι : Type} : Tree ι → ℕ
  | .zero => 0
  | .term _ => 0
  | .add l r => max l.height r.height + 1

noncomputable section
variable {n : ℕ} (fl : ℝ → ℝ)

/-- The rounded sum. -/
def Tree.eval {ι : Type} (f : ι → ℝ) : Tree ι → ℝ
  | .zero => 0
  | .term i => f i
  | .add l r => fl (l.eval f + r.eval f)

/-- `np.isclose(a, b)`: `abs(a - b) <= atol + rtol * abs(b)`. -/
def isclose (atol rtol a b : ℝ) : Prop := |fl (a - b)| ≤ fl (atol + fl (rtol * |b|))

/-- The orders of evaluation in one call. -/
structure Orders (n : ℕ) where
  gram : Fin n → Fin n → Plan n
  trace : Tree (Fin n)
  total : Tree (Fin n × Fin n)
  norm : Fin n → Plan n

/-- `np.linalg.norm(axes, axis=1)[i]`: the root of the sum of squares. -/
def rowNorm (p : Plan n) (v : Fin n → ℝ) : ℝ := fl (Real.sqrt (p.eval fl v v))

/-- `is_rectangular_frame(axes)`, `linalg/logical.py` 35-47, for square matrices. -/
def isRectangular (atol rtol : ℝ) (o : Orders n) (axes : Matrix (Fin n) (Fin n) ℝ) : Prop :=
  let agram := (matmul fl o.gram axes axes.transpose).map fun x => |x|
  isclose fl atol rtol (o.trace.eval fl fun i => agram i i) (o.total.eval fl fun ij => agram ij.1 ij.2)

/-- `is_normal_frame(axes)`, `linalg/logical.py` 50-60. -/
def isNormal (atol rtol : ℝ) (o : Orders n) (axes : Matrix (Fin n) (Fin n) ℝ) : Prop :=
  ∀ i, isclose fl atol rtol (rowNorm fl (o.norm i) (axes i)) 1

/-- `normalize_frame(axes)`, `linalg/utils.py` 568-577, 832-834; the norm is computed by a library. -/
def normalizeFrame (nrm : (Fin n → ℝ) → ℝ) (axes : Matrix (Fin n) (Fin n) ℝ) (i j : Fin n) : Option ℝ :=
  if nrm (axes i) = 0 then none else some (fl (axes i j / nrm (axes i)))

open Classical in
/-- The axes of `CartesianFrame(axes, normalize=…, assume_cartesian=…)`, `linalg/frame.py` 757-767 and 666-671. -/
def cartesian (atol rtol : ℝ) (o : Orders n) (nrm : (Fin n → ℝ) → ℝ) (normalize assume : Bool)
    (axes : Matrix (Fin n) (Fin n) ℝ) : Py (Fin n → Fin n → Option ℝ) :=
  if assume = false ∧ ¬ isRectangular fl atol rtol o axes then .error .assertion
  else if normalize = true then .ok (normalizeFrame fl nrm axes)
  else if assume = false ∧ ¬ isNormal fl atol rtol o axes then .error .assertion
  else .ok fun i j => some (axes i j)

end

end Verif.RNormal
