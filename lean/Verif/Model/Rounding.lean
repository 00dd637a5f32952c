import Verif.Prelude
import Verif.Model.Utils
import Verif.Model.TrKernels
import Verif.Model.Knn
import Mathlib.Data.Rat.Floor
import Mathlib.Data.Int.Log

/-!
# Kernels with rounded arithmetic

The rest of the model computes with exact numbers.  Here some kernels are written down once more with
a rounding `fl` after each operation, in the order in which the code carries them out.  The rounding is
an argument; `binary 53` is the one of double precision numbers (round to nearest, ties to even).
Underflow, overflow, infinities and NaN are not modelled.
-/

namespace Verif.Rnd
open Verif Verif.Utils Verif.Tr

/-! ## Roundings -/

section
variable {K : Type} [Field K] [LinearOrder K]

/-- What is common to the roundings of floating point arithmetic: order is kept, rounded numbers are
left alone, the sign plays no role and one is a floating point number. -/
structure IsRounding (fl : K → K) : Prop where
  mono : ∀ x y, x ≤ y → fl x ≤ fl y
  idem : ∀ x, fl (fl x) = fl x
  neg : ∀ x, fl (-x) = -fl x
  one : fl 1 = 1

/-- The relative error of one rounding is at most `u`. -/
def Precise (fl : K → K) (u : K) : Prop := ∀ x, |fl x - x| ≤ u * |x|

end

/-- The integer closest to a number; the even one if there are two. -/
def nearestEven (q : ℚ) : ℤ :=
  if q - ⌊q⌋ < 1 / 2 then ⌊q⌋
  else if 1 / 2 < q - ⌊q⌋ then ⌊q⌋ + 1
  else if ⌊q⌋ % 2 = 0 then ⌊q⌋ else ⌊q⌋ + 1

/-- The binary floating point number with `p` significant bits that is closest to a number, ties to
even (IEEE 754 without bounds on the exponent). -/
def binary (p : ℕ) (x : ℚ) : ℚ :=
  if x = 0 then 0
  else nearestEven (x / 2 ^ (Int.log 2 |x| - p + 1)) * 2 ^ (Int.log 2 |x| - p + 1)

/-! ## The kernels -/

section
variable {K : Type} [Field K] [LinearOrder K] (fl : K → K)

/-- `e + x * y` of compiled code, with or without contraction of both operations into one. -/
def mulAdd (fused : Bool) (e x y : K) : K := if fused then fl (e + x * y) else fl (e + fl (x * y))

/-- `optimize/bga.py` 112-127 `decode`.  The bits are summed up as integers, the sum is converted to a
float (`astype(float)`), the integer `span` is converted before the division. -/
def decode (nPop dim length : ℕ) (ranges : List (K × K)) (genotypes : List (List ℤ)) :
    Py (List (List K)) :=
  let flat := genotypes.flatten
  if flat.length ≠ nPop * dim * length then .error .value
  else
    let span : K := fl (2 ^ length - 2 ^ 0)
    .ok ((List.range nPop).map fun p => (List.range dim).map fun d =>
      let r := ranges.getD d (0, 0)
      let precision := fl (fl (r.2 - r.1) / span)
      let n := ((List.range length).map fun i =>
          flat.getD ((p * dim + d) * length + i) 0 * 2 ^ i).sum
      fl (fl (fl (n : K) * precision) + r.1))

/-- `linalg/utils.py` 880-886 `linspace1d` for floats. -/
def linspace1d (fused : Bool) (sched : List ℕ) (start stop : K) (N : ℕ) : Py (List K) :=
  if N = 1 then .error .zeroDiv
  else
    let di := fl (fl (stop - start) / fl ((N : K) - 1))
    .ok (sched.foldl (fun res i => res.set i (mulAdd fl fused start (fl (i : K)) di))
      (List.replicate N 0))

/-- `approx/mls.py` 13-22 `_approximate_2d` for floats. -/
def approximate2d (fused : Bool) (sched : List ℕ) (inner : ℕ → List ℕ) (v : Knn.Values K)
    (neighbours : List (List ℕ)) (factor : K) : List (List K) :=
  loop1 sched (fun i row =>
    loop1 (inner i) (fun j e =>
      (rd [] neighbours i).foldl (fun e nb => mulAdd fl fused e (v.a nb j) factor) e) row)
    (neighbours.map fun _ => List.replicate v.nD 0)

/-- `approx/mls.py` 25-32 `_approximate_nd` for floats, on the flattened components of the rows. -/
def approximateNd (fused : Bool) (sched : List ℕ) (v : Knn.Values K) (neighbours : List (List ℕ))
    (factor : K) : List (List K) :=
  loop1 sched (fun i row =>
    (rd [] neighbours i).foldl
      (fun row nb => row.mapIdx fun j e => mulAdd fl fused e (v.a nb j) factor) row)
    (neighbours.map fun _ => List.replicate v.nD 0)

/-- `approx/mls.py` 161-163, 179-204 `approximate` for float data; the number of neighbours is
converted to a float before the division. -/
def approximate {P : Type} (fused : Bool) (libs : Knn.Libs) (q : Knn.Query P K) (sched : List ℕ)
    (inner : ℕ → List ℕ) (A : Knn.Approximator P K) (XT : List P) : Py (List (List K)) :=
  match Knn.kNearest libs q A.X (some XT) (A.backend.getD "scipy") (Knn.numNeighbours A.k)
    A.maxDistance with
  | .error e => .error e
  | .ok (.flat _) => .error .type
  | .ok (.rows l) =>
    let factor := fl (1 / fl ((Knn.numNeighbours A.k : ℕ) : K))
    .ok (if A.Y.nd then approximateNd fl fused sched A.Y l factor
      else approximate2d fl fused sched inner A.Y l factor)

end

end Verif.Rnd
