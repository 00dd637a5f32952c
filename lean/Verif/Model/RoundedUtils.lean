import Verif.Model.Rounding

/-!
# Ranges, bin centres and segments with rounded arithmetic

`to_range_1d` (`utils.py` 498-524), `bin_centers` (`hist.py` 18-23) and `linspace` for points (`linalg/utils.py` 858-877) with a
rounding `fl` after each operation, for arrays of floats.  Underflow, overflow and infinities are not modelled; the quotient zero by
zero (NaN) is `none`.
-/

namespace Verif.RUtils
open Verif Verif.Utils Verif.Rnd

section
variable {K : Type} [Field K] [LinearOrder K] (fl : K → K)

/-- `_to_range_1d_`, `utils.py` 498-507: the factor. -/
def slope (source target : K × K) : K := fl (fl (target.2 - target.1) / fl (source.2 - source.1))

/-- `_to_range_1d_`, `utils.py` 498-507: the constant. -/
def offset (source target : K × K) : K :=
  fl (fl (fl (target.1 + target.2) / 2) -
    fl (fl (slope fl source target * fl (source.1 + source.2)) / 2))

/-- `to_range_1d`, `utils.py` 498-524, for an array; `sched` is the order of the parallel loop. -/
def toRange1d (fused : Bool) (vals : List K) (source target : Option (K × K)) (sched : List ℕ) :
    Py (List K) :=
  let source := source.getD (0, 1)
  let target := target.getD (-1, 1)
  if fl (source.2 - source.1) = 0 then .error .zeroDiv
  else .ok (sched.foldl (fun res i => res.set i
      (mulAdd fl fused (offset fl source target) (slope fl source target) (vals.getD i 0)))
    (List.replicate vals.length 0))

/-- `bin_centers`, `hist.py` 18-23. -/
def binCenters (edges : List K) (sched : List ℕ) : List K :=
  sched.foldl (fun res i => res.set i (fl (fl (edges.getD i 0 + edges.getD (i + 1) 0) / 2)))
    (List.replicate (edges.length - 1) 0)

/-- `linspace(start, stop, N)` for points, `linalg/utils.py` 858-877; `nrm` is the norm of compiled code.  For `N = 0` the code writes
outside of the array; this is not modelled. -/
def linspacePoints {d : ℕ} (fused : Bool) (nrm : (Fin d → K) → K) (sched : List ℕ) (p0 p1 : Fin d → K)
    (N : ℕ) : Py (List (Fin d → Option K)) :=
  if N = 1 then .error .zeroDiv
  else
    let s := fun j => fl (p1 j - p0 j)
    let L := nrm s
    let djac := fl (L / fl ((N : K) - 1))
    let step := fun j => if L = 0 then none else some (fl (fl (s j / L) * djac))
    let res := (List.replicate N fun _ => some 0).set 0 fun j => some (p0 j)
    let res := sched.foldl
      (fun res i => res.set i fun j => (step j).map fun t => mulAdd fl fused (p0 j) (fl (i : K)) t) res
    .ok (res.set (N - 1) fun j => some (p1 j))

end

end Verif.RUtils
