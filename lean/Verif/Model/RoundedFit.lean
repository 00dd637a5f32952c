import Verif.Model.LeastSq
import Verif.Model.RoundedFrames

/-!
# Least squares with rounded arithmetic

`approx/ls_preproc.py` and `approx/ls_approx.py` once more, with a rounding `fl` after each operation.
The values and the gradients of the weight function at the points are the numbers it returned.  The
inverse of the moment matrix is what `np.linalg.inv` returned, whatever that is.  The order of summation
in the products of matrices and vectors is left open.  The second derivatives are in `Model/RoundedHess`.
-/

namespace Verif.RFit
open Verif Verif.Frames Verif.LS Verif.RFrames

section
variable {K : Type} [Field K] [LinearOrder K] (fl : K → K)

/-- How the products of one call are evaluated: `invA @ b`, `gamma @ B`, `SHP.T @ V`, and for each
direction `Adx @ gamma`, `invA @ (…)`, `gammadx @ B`, `gamma @ Bdx`, `SHPdx.T @ V`. -/
structure Plans (dim k n r : ℕ) where
  gamma : Fin k → Plan k
  shp : Fin n → Plan k
  val : Fin r → Plan n
  inner : Fin dim → Fin k → Plan k
  gammaD : Fin dim → Fin k → Plan k
  shpA : Fin dim → Fin n → Plan k
  shpB : Fin dim → Fin n → Plan k
  grad : Fin dim → Fin r → Plan n

variable {dim k n r : ℕ}

/-- Every product makes use of each component once, and no number is rounded more than `h` times on its way to the
result. -/
def Plans.Complete (pl : Plans dim k n r) (h : ℕ) : Prop :=
  (∀ p, (pl.gamma p).terms.Perm (List.finRange k) ∧ (pl.gamma p).height ≤ h) ∧
  (∀ i, (pl.shp i).terms.Perm (List.finRange k) ∧ (pl.shp i).height ≤ h) ∧
  (∀ ρ, (pl.val ρ).terms.Perm (List.finRange n) ∧ (pl.val ρ).height ≤ h) ∧
  (∀ j p, (pl.inner j p).terms.Perm (List.finRange k) ∧ (pl.inner j p).height ≤ h) ∧
  (∀ j p, (pl.gammaD j p).terms.Perm (List.finRange k) ∧ (pl.gammaD j p).height ≤ h) ∧
  (∀ j i, (pl.shpA j i).terms.Perm (List.finRange k) ∧ (pl.shpA j i).height ≤ h) ∧
  (∀ j i, (pl.shpB j i).terms.Perm (List.finRange k) ∧ (pl.shpB j i).height ≤ h) ∧
  (∀ j ρ, (pl.grad j ρ).terms.Perm (List.finRange n) ∧ (pl.grad j ρ).height ≤ h)

/-- The loop `A += Mi * wi` with `Mi = outer(bi, bi)`, `ls_preproc.py` 61-67, 122-128, 203-209; the same
for `Adx`, `Ady`, `Adz`. -/
def moments (w : Fin n → K) (b : Fin n → Fin k → K) : Mat k K :=
  (List.finRange n).foldl
    (fun A i => Matrix.of fun p q => fl (A p q + fl (fl (b i p * b i q) * w i))) 0

/-- `B[:, i] += bi * wi`, `ls_preproc.py` 68, 129, 210; the same for `Bdx`, `Bdy`, `Bdz`. -/
def columns (w : Fin n → K) (b : Fin n → Fin k → K) : Matrix (Fin k) (Fin n) K :=
  Matrix.of fun p i => fl (0 + fl (b i p * w i))

/-- What is returned: the values and the gradients. -/
structure Out (dim r : ℕ) (K : Type) where
  f : Fin r → K
  g : Fin dim → Fin r → K

/-- `ls_approx.py` 33-42, 82-91, 158-168 and 215-273. -/
def evaluate (pl : Plans dim k n r) (invA : Mat k K) (B : Matrix (Fin k) (Fin n) K)
    (Ad : Fin dim → Mat k K) (Bd : Fin dim → Matrix (Fin k) (Fin n) K)
    (V : Fin n → Fin r → K) (b : Fin k → K) (bd : Fin dim → Fin k → K) : Out dim r K :=
  let gamma := fun p => (pl.gamma p).eval fl (invA p) b
  let shp := fun i => (pl.shp i).eval fl gamma fun p => B p i
  { f := fun ρ => (pl.val ρ).eval fl shp fun i => V i ρ
    g := fun j =>
      let rhs := fun p => fl (bd j p - (pl.inner j p).eval fl (Ad j p) gamma)
      let gammad := fun p => (pl.gammaD j p).eval fl (invA p) rhs
      let shpd := fun i => fl ((pl.shpA j i).eval fl gammad (fun p => B p i) +
        (pl.shpB j i).eval fl gamma fun p => Bd j p i)
      fun ρ => (pl.grad j ρ).eval fl shpd fun i => V i ρ }

/-- `weighted_least_squares(points, values, deg=deg, order=1, w=w)(x)`, `ls.py` 90-302, and
`moving_least_squares`, `ls.py` 14-43, for `w` and `gw` being the values and the gradients of the weight
function (moved to `x` in the latter case) at the points; `inv` stands for `np.linalg.inv`.  The numbers
in the bases, `ls_poly.py`, are rounded products of at most two factors.  As many values as points are
given; see `Verif.LS.weightedLeastSquares` for the other case. -/
def approximate (inv : ∀ k, Mat k K → Py (Mat k K)) (pl : ∀ k, Plans dim k n r)
    (points : Fin n → Pt dim K) (values : Fin n → Fin r → K) (deg : ℕ) (w : Fin n → K)
    (gw : Fin n → Fin dim → K) (x : Pt dim K) : Py (Out dim r K) :=
  (getPolynomial deg dim).bind fun bas =>
    if kFormula deg dim ≠ bas.1 then .error .value
    else
      let bi := fun i q => fl (bas.2.b (points i) q)
      (inv bas.1 (moments fl w bi)).map fun invA =>
        evaluate fl (pl bas.1) invA (columns fl w bi) (fun j => moments fl (fun i => gw i j) bi)
          (fun j => columns fl (fun i => gw i j) bi) values (fun q => fl (bas.2.b x q))
          fun j q => fl (bas.2.d j x q)

end

end Verif.RFit
