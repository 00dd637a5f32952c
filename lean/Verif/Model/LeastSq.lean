import Verif.Prelude
import Verif.Model.Frames
import Mathlib.Data.Matrix.Mul
import Mathlib.Data.Nat.Factorial.Basic
import Mathlib.LinearAlgebra.Matrix.Notation

/-!
# Model of `approx/ls.py`, `approx/ls_poly.py`, `approx/ls_preproc.py`, `approx/ls_approx.py`

Numbers are exact.  A point is a function on `Fin dim`; in one dimension the code uses scalars, which
are the only component here.  Arrays of points of shape `(N, 1)` are not modelled.

The code spells out the derivatives by suffixes `dx`, `dy`, `dz`, `dxx`, …; the model indexes them by
direction: `0, 1, 2 : Fin dim` for the first derivatives and the types `H1`, `H2`, `H3` for the second
ones.  Formulas of the code that differ in the suffixes only share a definition; which suffixes are
combined is spelt out case by case.
-/

namespace Verif.LS
open Verif Verif.Frames Matrix

/-- The second derivatives reported in one dimension. -/
inductive H1 | xx
  deriving DecidableEq

/-- The second derivatives reported in two dimensions. -/
inductive H2 | xx | yy | xy
  deriving DecidableEq

/-- The second derivatives reported in three dimensions. -/
inductive H3 | xx | yy | zz | xy | xz | yz
  deriving DecidableEq

/-- The second derivatives reported in `dim` dimensions. -/
def HIdx : ℕ → Type
  | 1 => H1
  | 2 => H2
  | 3 => H3
  | _ => Empty

section
variable {K : Type} [Field K] [LinearOrder K]

/-- A point. -/
abbrev Pt (dim : ℕ) (K : Type) := Fin dim → K

/-! ## Bases, `ls_poly.py` -/

/-- The functions returned by `_get_polynomial`: `k` basis functions with their derivatives. -/
structure Basis (dim : ℕ) (H : Type) (k : ℕ) (K : Type) where
  b : Pt dim K → Fin k → K
  d : Fin dim → Pt dim K → Fin k → K
  dd : H → Pt dim K → Fin k → K

/-- `ls_poly.py` 28-38 -/
def poly11 : Basis 1 H1 2 K where
  b x := ![1, x 0]
  d := fun j => match j with
    | 0 => fun _ => ![0, 1]
  dd
    | .xx, _ => ![0, 0]

/-- `ls_poly.py` 41-60 -/
def poly12 : Basis 2 H2 3 K where
  b x := ![1, x 0, x 1]
  d := fun j => match j with
    | 0 => fun _ => ![0, 1, 0]
    | 1 => fun _ => ![0, 0, 1]
  dd
    | .xx, _ => ![0, 0, 0]
    | .yy, _ => ![0, 0, 0]
    | .xy, _ => ![0, 0, 0]

/-- `ls_poly.py` 63-94 -/
def poly13 : Basis 3 H3 4 K where
  b x := ![1, x 0, x 1, x 2]
  d := fun j => match j with
    | 0 => fun _ => ![0, 1, 0, 0]
    | 1 => fun _ => ![0, 0, 1, 0]
    | 2 => fun _ => ![0, 0, 0, 1]
  dd
    | .xx, _ => ![0, 0, 0, 0]
    | .yy, _ => ![0, 0, 0, 0]
    | .zz, _ => ![0, 0, 0, 0]
    | .xy, _ => ![0, 0, 0, 0]
    | .xz, _ => ![0, 0, 0, 0]
    | .yz, _ => ![0, 0, 0, 0]

/-- `ls_poly.py` 97-107 -/
def poly21 : Basis 1 H1 3 K where
  b x := ![1, x 0, x 0 ^ 2]
  d := fun j => match j with
    | 0 => fun x => ![0, 1, 2 * x 0]
  dd
    | .xx, _ => ![0, 0, 2]

/-- `ls_poly.py` 110-129 -/
def poly22 : Basis 2 H2 6 K where
  b x := ![1, x 0, x 1, x 0 ^ 2, x 1 ^ 2, x 0 * x 1]
  d := fun j => match j with
    | 0 => fun x => ![0, 1, 0, 2 * x 0, 0, x 1]
    | 1 => fun x => ![0, 0, 1, 0, 2 * x 1, x 0]
  dd
    | .xx, _ => ![0, 0, 0, 2, 0, 0]
    | .yy, _ => ![0, 0, 0, 0, 2, 0]
    | .xy, _ => ![0, 0, 0, 0, 0, 1]

/-- `ls_poly.py` 132-177 -/
def poly23 : Basis 3 H3 10 K where
  b x := ![1, x 0, x 1, x 2, x 0 ^ 2, x 1 ^ 2, x 2 ^ 2, x 0 * x 1, x 0 * x 2, x 1 * x 2]
  d := fun j => match j with
    | 0 => fun x => ![0, 1, 0, 0, 2 * x 0, 0, 0, x 1, x 2, 0]
    | 1 => fun x => ![0, 0, 1, 0, 0, 2 * x 1, 0, x 0, 0, x 2]
    | 2 => fun x => ![0, 0, 0, 1, 0, 0, 2 * x 2, 0, x 0, x 1]
  dd
    | .xx, _ => ![0, 0, 0, 0, 2, 0, 0, 0, 0, 0]
    | .yy, _ => ![0, 0, 0, 0, 0, 2, 0, 0, 0, 0]
    | .zz, _ => ![0, 0, 0, 0, 0, 0, 2, 0, 0, 0]
    | .xy, _ => ![0, 0, 0, 0, 0, 0, 0, 1, 0, 0]
    | .xz, _ => ![0, 0, 0, 0, 0, 0, 0, 0, 1, 0]
    | .yz, _ => ![0, 0, 0, 0, 0, 0, 0, 0, 0, 1]

/-- `ls_poly.py` 4-25 `_get_polynomial` -/
def getPolynomial (deg : ℕ) : (dim : ℕ) → Py (Σ k, Basis dim (HIdx dim) k K)
  | 1 => match deg with
    | 1 => .ok ⟨2, poly11⟩
    | 2 => .ok ⟨3, poly21⟩
    | _ => .error .notImplemented
  | 2 => match deg with
    | 1 => .ok ⟨3, poly12⟩
    | 2 => .ok ⟨6, poly22⟩
    | _ => .error .notImplemented
  | 3 => match deg with
    | 1 => .ok ⟨4, poly13⟩
    | 2 => .ok ⟨10, poly23⟩
    | _ => .error .notImplemented
  | _ => .error .notImplemented

/-! ## Weights -/

/-- A weight function with its current core: the value, the gradient and the Hessian it reports. -/
structure Weight (dim : ℕ) (K : Type) where
  f : Pt dim K → K
  g : Pt dim K → Fin dim → K
  G : Pt dim K → Fin dim → Fin dim → K

/-- `functions.py` 109-135 `ConstantWeightFunction` without a support domain. -/
def constWeight (dim : ℕ) (value : K) : Weight dim K := ⟨fun _ => value, fun _ _ => 0, fun _ _ _ => 0⟩

/-! ## Preprocessing, `ls_preproc.py` -/

/-- The moment matrices and the data. -/
structure Pre (dim : ℕ) (H : Type) (k n r : ℕ) (K : Type) where
  invA : Mat k K
  V : Matrix (Fin n) (Fin r) K
  B : Matrix (Fin k) (Fin n) K
  Ad : Fin dim → Mat k K
  Bd : Fin dim → Matrix (Fin k) (Fin n) K
  Add : H → Mat k K
  Bdd : H → Matrix (Fin k) (Fin n) K

/-- The number of basis functions computed from the degree and the dimension. -/
def kFormula (deg nDim : ℕ) : ℕ := (deg + nDim).factorial / deg.factorial / nDim.factorial

/-- The loop `A += Mi * wi` over the data points. -/
def accumulate {k n : ℕ} (w : Fin n → K) (b : Fin n → Fin k → K) : Mat k K :=
  (List.finRange n).foldl (fun A i => A + (Matrix.of fun p q => b i p * b i q * w i)) 0

/-- The columns `B[:, i] += bi * wi`. -/
def columns {k n : ℕ} (w : Fin n → K) (b : Fin n → Fin k → K) : Matrix (Fin k) (Fin n) K :=
  Matrix.of fun p i => b i p * w i

/-- `ls_preproc.py` 32-81 `_mls_preproc_1d`.  The matrices are not computed for `g = False` or
`H = False`; they are not used then. -/
def preproc1 {k n r : ℕ} (points : Fin n → Pt 1 K) (values : Fin n → Fin r → K) (deg : ℕ)
    (w : Weight 1 K) (b : Pt 1 K → Fin k → K) : Py (Pre 1 H1 k n r K) :=
  if kFormula deg 1 ≠ k then .error .value
  else
    let bi := fun i => b (points i)
    (inv (accumulate (fun i => w.f (points i)) bi)).map fun invA =>
      { invA := invA
        V := Matrix.of values
        B := columns (fun i => w.f (points i)) bi
        Ad := fun j => match j with
          | 0 => accumulate (fun i => w.g (points i) 0) bi
        Bd := fun j => match j with
          | 0 => columns (fun i => w.g (points i) 0) bi
        Add
          | .xx => accumulate (fun i => w.G (points i) 0 0) bi
        Bdd
          | .xx => columns (fun i => w.G (points i) 0 0) bi }

/-- `ls_preproc.py` 84-145 `_mls_preproc_2d` -/
def preproc2 {k n r : ℕ} (points : Fin n → Pt 2 K) (values : Fin n → Fin r → K) (deg : ℕ)
    (w : Weight 2 K) (b : Pt 2 K → Fin k → K) : Py (Pre 2 H2 k n r K) :=
  if kFormula deg 2 ≠ k then .error .value
  else
    let bi := fun i => b (points i)
    (inv (accumulate (fun i => w.f (points i)) bi)).map fun invA =>
      { invA := invA
        V := Matrix.of values
        B := columns (fun i => w.f (points i)) bi
        Ad := fun j => match j with
          | 0 => accumulate (fun i => w.g (points i) 0) bi
          | 1 => accumulate (fun i => w.g (points i) 1) bi
        Bd := fun j => match j with
          | 0 => columns (fun i => w.g (points i) 0) bi
          | 1 => columns (fun i => w.g (points i) 1) bi
        Add
          | .xx => accumulate (fun i => w.G (points i) 0 0) bi
          | .yy => accumulate (fun i => w.G (points i) 1 1) bi
          | .xy => accumulate (fun i => w.G (points i) 0 1) bi
        Bdd
          | .xx => columns (fun i => w.G (points i) 0 0) bi
          | .yy => columns (fun i => w.G (points i) 1 1) bi
          | .xy => columns (fun i => w.G (points i) 0 1) bi }

/-- `ls_preproc.py` 148-249 `_mls_preproc_3d` -/
def preproc3 {k n r : ℕ} (points : Fin n → Pt 3 K) (values : Fin n → Fin r → K) (deg : ℕ)
    (w : Weight 3 K) (b : Pt 3 K → Fin k → K) : Py (Pre 3 H3 k n r K) :=
  if kFormula deg 3 ≠ k then .error .value
  else
    let bi := fun i => b (points i)
    (inv (accumulate (fun i => w.f (points i)) bi)).map fun invA =>
      { invA := invA
        V := Matrix.of values
        B := columns (fun i => w.f (points i)) bi
        Ad := fun j => match j with
          | 0 => accumulate (fun i => w.g (points i) 0) bi
          | 1 => accumulate (fun i => w.g (points i) 1) bi
          | 2 => accumulate (fun i => w.g (points i) 2) bi
        Bd := fun j => match j with
          | 0 => columns (fun i => w.g (points i) 0) bi
          | 1 => columns (fun i => w.g (points i) 1) bi
          | 2 => columns (fun i => w.g (points i) 2) bi
        Add
          | .xx => accumulate (fun i => w.G (points i) 0 0) bi
          | .yy => accumulate (fun i => w.G (points i) 1 1) bi
          | .zz => accumulate (fun i => w.G (points i) 2 2) bi
          | .xy => accumulate (fun i => w.G (points i) 0 1) bi
          | .xz => accumulate (fun i => w.G (points i) 0 2) bi
          | .yz => accumulate (fun i => w.G (points i) 1 2) bi
        Bdd
          | .xx => columns (fun i => w.G (points i) 0 0) bi
          | .yy => columns (fun i => w.G (points i) 1 1) bi
          | .zz => columns (fun i => w.G (points i) 2 2) bi
          | .xy => columns (fun i => w.G (points i) 0 1) bi
          | .xz => columns (fun i => w.G (points i) 0 2) bi
          | .yz => columns (fun i => w.G (points i) 1 2) bi }

/-! ## Evaluation, `ls_approx.py` -/

/-- What a fit function returns: the values, the gradient unless it is switched off, the second
derivatives unless they are switched off; one number for every record. -/
structure Out (dim : ℕ) (H : Type) (r : ℕ) (K : Type) where
  f : Fin r → K
  g : Option (Fin dim → Fin r → K)
  H : Option (H → Fin r → K)

/-- `SHP.T @ V` -/
def apply {n r : ℕ} (SHP : Fin n → K) (V : Matrix (Fin n) (Fin r) K) : Fin r → K := SHP ᵥ* V

section
variable {dim k n r : ℕ} {H : Type} (P : Pre dim H k n r K)

/-- `ls_approx.py` 215-222 `_mls_f` -/
def mlsF (gamma : Fin k → K) : Fin r → K := apply (gamma ᵥ* P.B) P.V

/-- `gammadx = invA @ (bdx - Adx @ gamma)` and the same for the other directions,
`ls_approx.py` 40, 88-89, 165-167. -/
def gammaD (bd : Fin k → K) (gamma : Fin k → K) (j : Fin dim) : Fin k → K :=
  P.invA *ᵥ (bd - P.Ad j *ᵥ gamma)

/-- `ls_approx.py` 226-273 `_mls_g_1d`, `_mls_g_2d`, `_mls_g_3d` for one direction. -/
def mlsG (gamma gammad : Fin k → K) (j : Fin dim) : Fin r → K :=
  apply (gammad ᵥ* P.B + gamma ᵥ* P.Bd j) P.V

/-- `ls_approx.py` 277-381: the second derivative `h` in one direction `j`. -/
def mlsH2 (bdd gamma gammad : Fin k → K) (j : Fin dim) (h : H) : Fin r → K :=
  let gammadd := P.invA *ᵥ (bdd - P.Add h *ᵥ gamma - ((2 : K) • P.Ad j) *ᵥ gammad)
  apply (gammadd ᵥ* P.B + ((2 : K) • gammad) ᵥ* P.Bd j + gamma ᵥ* P.Bdd h) P.V

/-- `ls_approx.py` 277-381: the second derivative `h` in two different directions `i`, `j`. -/
def mlsHm (bdd gamma gammadi gammadj : Fin k → K) (i j : Fin dim) (h : H) : Fin r → K :=
  let gammadd := P.invA *ᵥ (bdd - P.Add h *ᵥ gamma - P.Ad i *ᵥ gammadj - P.Ad j *ᵥ gammadi)
  apply (gammadd ᵥ* P.B + gammadi ᵥ* P.Bd j + gammadj ᵥ* P.Bd i + gamma ᵥ* P.Bdd h) P.V

end

section
variable {k n r : ℕ}

/-- `ls_approx.py` 20-57 `_mls_approx_1d` -/
def approx1 (P : Pre 1 H1 k n r K) (bas : Basis 1 H1 k K) (x : Pt 1 K) (g H : Bool) : Out 1 H1 r K :=
  let gamma := P.invA *ᵥ bas.b x
  let gd := fun j => gammaD P (bas.d j x) gamma j
  { f := mlsF P gamma
    g := if g then some fun j => mlsG P gamma (gd j) j else none
    H := if H then some fun h => match h with
        | .xx => mlsH2 P (bas.dd .xx x) gamma (gd 0) 0 .xx
      else none }

/-- `ls_approx.py` 60-116 `_mls_approx_2d` -/
def approx2 (P : Pre 2 H2 k n r K) (bas : Basis 2 H2 k K) (x : Pt 2 K) (g H : Bool) : Out 2 H2 r K :=
  let gamma := P.invA *ᵥ bas.b x
  let gd := fun j => gammaD P (bas.d j x) gamma j
  { f := mlsF P gamma
    g := if g then some fun j => mlsG P gamma (gd j) j else none
    H := if H then some fun h => match h with
        | .xx => mlsH2 P (bas.dd .xx x) gamma (gd 0) 0 .xx
        | .yy => mlsH2 P (bas.dd .yy x) gamma (gd 1) 1 .yy
        | .xy => mlsHm P (bas.dd .xy x) gamma (gd 0) (gd 1) 0 1 .xy
      else none }

/-- `ls_approx.py` 119-211 `_mls_approx_3d` -/
def approx3 (P : Pre 3 H3 k n r K) (bas : Basis 3 H3 k K) (x : Pt 3 K) (g H : Bool) : Out 3 H3 r K :=
  let gamma := P.invA *ᵥ bas.b x
  let gd := fun j => gammaD P (bas.d j x) gamma j
  { f := mlsF P gamma
    g := if g then some fun j => mlsG P gamma (gd j) j else none
    H := if H then some fun h => match h with
        | .xx => mlsH2 P (bas.dd .xx x) gamma (gd 0) 0 .xx
        | .yy => mlsH2 P (bas.dd .yy x) gamma (gd 1) 1 .yy
        | .zz => mlsH2 P (bas.dd .zz x) gamma (gd 2) 2 .zz
        | .xy => mlsHm P (bas.dd .xy x) gamma (gd 0) (gd 1) 0 1 .xy
        | .xz => mlsHm P (bas.dd .xz x) gamma (gd 0) (gd 2) 0 2 .xz
        | .yz => mlsHm P (bas.dd .yz x) gamma (gd 1) (gd 2) 1 2 .yz
      else none }

end

/-! ## Interface, `ls.py` -/

/-- A fit function. -/
abbrev Fit (dim r : ℕ) (K : Type) := Pt dim K → Out dim (HIdx dim) r K

/-- `ls.py` 174-302 `_wls_1d`, `_wls_2d`, `_wls_3d` with the choice between them in 155-171. -/
def wlsDim {n r : ℕ} : (dim : ℕ) → (Fin n → Pt dim K) → (Fin n → Fin r → K) → ℕ → Weight dim K →
    Bool → Bool → Py (Fit dim r K)
  | 1, points, values, deg, w, grad, hess =>
    (getPolynomial deg 1).bind fun bas =>
      (preproc1 points values deg w bas.2.b).map fun P => fun x => approx1 P bas.2 x grad hess
  | 2, points, values, deg, w, grad, hess =>
    (getPolynomial deg 2).bind fun bas =>
      (preproc2 points values deg w bas.2.b).map fun P => fun x => approx2 P bas.2 x grad hess
  | 3, points, values, deg, w, grad, hess =>
    (getPolynomial deg 3).bind fun bas =>
      (preproc3 points values deg w bas.2.b).map fun P => fun x => approx3 P bas.2 x grad hess
  | 0, _, _, _, _, _, _ => .error .notImplemented
  | _ + 4, _, _, _, _, _, _ => .error .notImplemented

/-- `ls.py` 90-171 `weighted_least_squares`.  A weight of another dimension than that of the points
violates the assertion in 140; something that is not a weight function is replaced by the constant 1. -/
def weightedLeastSquares {dim n m r : ℕ} (points : Fin n → Pt dim K) (values : Fin m → Fin r → K)
    (deg : ℕ) (order : ℤ) (w : Option (Σ d, Weight d K)) : Py (Fit dim r K) :=
  if h : n = m then
    let values' : Fin n → Fin r → K := fun i => values (Fin.cast h i)
    let grad := decide (0 < order)
    let hess := decide (1 < order)
    match w with
    | none => wlsDim dim points values' deg (constWeight dim 1) grad hess
    | some w =>
      if hd : w.1 = dim then wlsDim dim points values' deg (hd ▸ w.2) grad hess
      else .error .assertion
  else .error .value

/-- `ls.py` 46-87 `least_squares` -/
def leastSquares {dim n m r : ℕ} (points : Fin n → Pt dim K) (values : Fin m → Fin r → K)
    (deg : ℕ) (order : ℤ) : Py (Fit dim r K) :=
  weightedLeastSquares points values deg order none

/-- `ls.py` 14-43 `moving_least_squares`: the core of the weight function is moved to the point of
evaluation before every fit.  `w core` is the weight function with the given core. -/
def movingLeastSquares {dim n m r : ℕ} (points : Fin n → Pt dim K) (values : Fin m → Fin r → K)
    (deg : ℕ) (order : ℤ) (w : Option (Pt dim K → Weight dim K)) (x : Pt dim K) :
    Py (Out dim (HIdx dim) r K) :=
  let w' := match w with
    | none => constWeight dim 1
    | some w => w x
  (weightedLeastSquares points values deg order (some ⟨dim, w'⟩)).map fun f => f x

end

end Verif.LS
