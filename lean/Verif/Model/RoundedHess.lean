import Verif.Model.RoundedFit

/-!
# Second derivatives of least squares fits with rounded arithmetic

`approx/ls_approx.py` 276-381 and the matrices for second derivatives in `approx/ls_preproc.py`, with a
rounding `fl` after each operation; see `Model/RoundedFit` for the values and the gradients.
-/

namespace Verif.RFit
open Verif Verif.Frames Verif.LS Verif.RFrames

section
variable {K : Type} [Field K] [LinearOrder K] (fl : K → K)

/-- How the products are evaluated: `Adxy @ gamma`, `Adx @ gammady`, `Ady @ gammadx` (not used for `xx`, where
`(2 * Adx) @ gammadx` takes the place of both), `invA @ (…)`, `gammadxy @ B`, `gammadx @ Bdy`, `gammady @ Bdx` (not used
for `xx`, where `(2 * gammadx) @ Bdx` takes the place of both), `gamma @ Bdxy`, `SHPdxy.T @ V`. -/
structure Plans2 (H : Type) (k n r : ℕ) where
  innerA : H → Fin k → Plan k
  innerB : H → Fin k → Plan k
  innerC : H → Fin k → Plan k
  gammaDD : H → Fin k → Plan k
  shpA : H → Fin n → Plan k
  shpB : H → Fin n → Plan k
  shpC : H → Fin n → Plan k
  shpD : H → Fin n → Plan k
  hess : H → Fin r → Plan n

variable {dim k n r : ℕ}

/-- Every product makes use of each component once, and no number is rounded more than `h` times on its way to the
result. -/
def Plans2.Complete {H : Type} (pl : Plans2 H k n r) (h : ℕ) : Prop :=
  (∀ d p, (pl.innerA d p).terms.Perm (List.finRange k) ∧ (pl.innerA d p).height ≤ h) ∧
  (∀ d p, (pl.innerB d p).terms.Perm (List.finRange k) ∧ (pl.innerB d p).height ≤ h) ∧
  (∀ d p, (pl.innerC d p).terms.Perm (List.finRange k) ∧ (pl.innerC d p).height ≤ h) ∧
  (∀ d p, (pl.gammaDD d p).terms.Perm (List.finRange k) ∧ (pl.gammaDD d p).height ≤ h) ∧
  (∀ d i, (pl.shpA d i).terms.Perm (List.finRange k) ∧ (pl.shpA d i).height ≤ h) ∧
  (∀ d i, (pl.shpB d i).terms.Perm (List.finRange k) ∧ (pl.shpB d i).height ≤ h) ∧
  (∀ d i, (pl.shpC d i).terms.Perm (List.finRange k) ∧ (pl.shpC d i).height ≤ h) ∧
  (∀ d i, (pl.shpD d i).terms.Perm (List.finRange k) ∧ (pl.shpD d i).height ≤ h) ∧
  (∀ d ρ, (pl.hess d ρ).terms.Perm (List.finRange n) ∧ (pl.hess d ρ).height ≤ h)

/-- The two directions of a second derivative, in the order of the names `xx`, `xy`, …. -/
def pair : (dim : ℕ) → HIdx dim → Fin dim × Fin dim
  | 1, .xx => (0, 0)
  | 2, .xx => (0, 0)
  | 2, .yy => (1, 1)
  | 2, .xy => (0, 1)
  | 3, .xx => (0, 0)
  | 3, .yy => (1, 1)
  | 3, .zz => (2, 2)
  | 3, .xy => (0, 1)
  | 3, .xz => (0, 2)
  | 3, .yz => (1, 2)
  | 0, h => h.elim
  | _ + 4, h => h.elim

/-- `_mls_H_1d`, `_mls_H_2d`, `_mls_H_3d`, `ls_approx.py` 276-381, for one second derivative, with `gamma` and `gammadx` as
computed before (`ls_approx.py` 33-40, 82-89, 158-167).  The first case is that of `xx`, `yy`, `zz`. -/
def second {H : Type} (pl : Plans dim k n r) (pl2 : Plans2 H k n r) (invA : Mat k K) (B : Matrix (Fin k) (Fin n) K)
    (Ad : Fin dim → Mat k K) (Bd : Fin dim → Matrix (Fin k) (Fin n) K) (Add : Mat k K)
    (Bdd : Matrix (Fin k) (Fin n) K) (V : Fin n → Fin r → K) (b : Fin k → K)
    (bd : Fin dim → Fin k → K) (bdd : Fin k → K) (d : H) (i j : Fin dim) : Fin r → K :=
  let gamma := fun p => (pl.gamma p).eval fl (invA p) b
  let gammad := fun j p => (pl.gammaD j p).eval fl (invA p)
    fun p => fl (bd j p - (pl.inner j p).eval fl (Ad j p) gamma)
  let rhs := fun p =>
    if i = j then
      fl (fl (bdd p - (pl2.innerA d p).eval fl (Add p) gamma) -
        (pl2.innerB d p).eval fl (fun q => fl (2 * Ad i p q)) (gammad i))
    else
      fl (fl (fl (bdd p - (pl2.innerA d p).eval fl (Add p) gamma) -
        (pl2.innerB d p).eval fl (Ad i p) (gammad j)) -
        (pl2.innerC d p).eval fl (Ad j p) (gammad i))
  let gammadd := fun p => (pl2.gammaDD d p).eval fl (invA p) rhs
  let shp := fun l =>
    if i = j then
      fl (fl ((pl2.shpA d l).eval fl gammadd (fun p => B p l) +
        (pl2.shpB d l).eval fl (fun p => fl (2 * gammad i p)) fun p => Bd i p l) +
        (pl2.shpD d l).eval fl gamma fun p => Bdd p l)
    else
      fl (fl (fl ((pl2.shpA d l).eval fl gammadd (fun p => B p l) +
        (pl2.shpB d l).eval fl (gammad i) fun p => Bd j p l) +
        (pl2.shpC d l).eval fl (gammad j) fun p => Bd i p l) +
        (pl2.shpD d l).eval fl gamma fun p => Bdd p l)
  fun ρ => (pl2.hess d ρ).eval fl shp fun l => V l ρ

/-- What is returned for `order=2`: the values, the gradients and the second derivatives. -/
structure Out2 (dim r : ℕ) (K : Type) where
  f : Fin r → K
  g : Fin dim → Fin r → K
  H : HIdx dim → Fin r → K

/-- `approximate` with `order=2`; `Gw` holds the second derivatives of the weight function at the points, of which the
entries on and above the diagonal are used, `ls_preproc.py` 61-81, 122-145, 203-249. -/
def approximate2 (inv : ∀ k, Mat k K → Py (Mat k K)) (pl : ∀ k, Plans dim k n r)
    (pl2 : ∀ k, Plans2 (HIdx dim) k n r) (points : Fin n → Pt dim K) (values : Fin n → Fin r → K)
    (deg : ℕ) (w : Fin n → K) (gw : Fin n → Fin dim → K) (Gw : Fin n → Fin dim → Fin dim → K)
    (x : Pt dim K) : Py (Out2 dim r K) :=
  (getPolynomial deg dim).bind fun bas =>
    if kFormula deg dim ≠ bas.1 then .error .value
    else
      let bi := fun i q => fl (bas.2.b (points i) q)
      (inv bas.1 (moments fl w bi)).map fun invA =>
        let o := evaluate fl (pl bas.1) invA (columns fl w bi) (fun j => moments fl (fun i => gw i j) bi)
          (fun j => columns fl (fun i => gw i j) bi) values (fun q => fl (bas.2.b x q))
          fun j q => fl (bas.2.d j x q)
        { f := o.f
          g := o.g
          H := fun d =>
            let i := (pair dim d).1
            let j := (pair dim d).2
            second fl (pl bas.1) (pl2 bas.1) invA (columns fl w bi)
              (fun j => moments fl (fun i => gw i j) bi) (fun j => columns fl (fun i => gw i j) bi)
              (moments fl (fun l => Gw l i j) bi) (columns fl (fun l => Gw l i j) bi) values
              (fun q => fl (bas.2.b x q)) (fun j q => fl (bas.2.d j x q))
              (fun q => fl (bas.2.dd d x q)) d i j }

end

end Verif.RFit
