import Verif.Prelude
import Verif.Model.Utils
import Verif.Model.TrKernels
import Mathlib.Data.List.Sort

/-!
# Neighbour search and averaging: `knn.py` and `approx/mls.py`

Points are elements of a type `P`; the tree query of `scipy` (and `sklearn`) is an argument `q` of the
model that gives the row of indices found for one target.  Distances are not returned
(`return_distance=False`); `k` is a number, not a list; shapes of the results are not squeezed.
-/

namespace Verif.Knn
open Verif Verif.Utils Verif.Tr

section
variable {P K : Type}

/-- `tree.query(y, k, distance_upper_bound)` for a tree built on the points and one target. -/
abbrev Query (P K : Type) := List P → P → ℕ → Option K → List ℕ

/-- Indices of neighbours: `scipy` drops the last axis if `k` is one. -/
inductive Neigh
  | flat (l : List ℕ)
  | rows (l : List (List ℕ))

/-- The installed libraries: `scipy` older than 1.6.0, presence of `sklearn`. -/
structure Libs where
  oldScipy : Bool
  hasSklearn : Bool

/-- `KDTree.query` of scipy for all targets. -/
def scipyQuery (q : Query P K) (X Y : List P) (k : ℕ) (bound : Option K) : Py Neigh :=
  if k = 0 then .error .value
  else if k = 1 then .ok (.flat (Y.map fun y => (q X y k bound).headD X.length))
  else .ok (.rows (Y.map fun y => q X y k bound))

/-- `KDTree.query` of sklearn for all targets; more neighbours than points are refused. -/
def sklearnQuery (q : Query P K) (X Y : List P) (k : ℕ) : Py Neigh :=
  if k = 0 ∨ X.length < k then .error .value
  else .ok (.rows (Y.map fun y => q X y k none))

/-- `knn.py` 22-117 `k_nearest_neighbours`.  `Y = None` is passed on to the query, which cannot make
points of it; `query_radius` of sklearn has no parameter `k`. -/
def kNearest (libs : Libs) (q : Query P K) (X : List P) (Y : Option (List P)) (backend : String)
    (k : ℕ) (maxDistance : Option K) : Py Neigh :=
  if backend = "scipy" then
    match Y with
    | none => .error .generic
    | some Y =>
      if libs.oldScipy then scipyQuery q X Y k maxDistance
      else scipyQuery q X Y k none
  else if backend = "sklearn" then
    if !libs.hasSklearn then .error .generic
    else match maxDistance with
      | none => match Y with
        | none => .error .generic
        | some Y => sklearnQuery q X Y k
      | some _ => .error .type
  else .error .generic

end

/-! ## `approx/mls.py` -/

section
variable {P K : Type} [Field K] [LinearOrder K] [FloorRing K]

/-- An array of data: `n` rows of `nD` components each (`nd`: with more than two axes), of some
dtype.  `a i j` for `n ≤ i` is what is found in memory behind the array. -/
structure Values (K : Type) where
  n : ℕ
  nD : ℕ
  nd : Bool
  dt : DType
  a : ℕ → ℕ → K

/-- `mls.py` 13-22 `_approximate_2d`; the factors are the same for all neighbours. -/
def approximate2d (sched : List ℕ) (inner : ℕ → List ℕ) (v : Values K) (neighbours : List (List ℕ))
    (factor : K) : List (List K) :=
  loop1 sched (fun i row =>
    loop1 (inner i) (fun j e =>
      (rd [] neighbours i).foldl (fun e nb => store v.dt (e + v.a nb j * factor)) e) row)
    (neighbours.map fun _ => List.replicate v.nD 0)

/-- `mls.py` 25-32 `_approximate_nd` on the flattened components of the rows. -/
def approximateNd (sched : List ℕ) (v : Values K) (neighbours : List (List ℕ)) (factor : K) :
    List (List K) :=
  loop1 sched (fun i row =>
    (rd [] neighbours i).foldl
      (fun row nb => row.mapIdx fun j e => store v.dt (e + v.a nb j * factor)) row)
    (neighbours.map fun _ => List.replicate v.nD 0)

/-- An `MLSApproximator`, `mls.py` 92-127. -/
structure Approximator (P K : Type) where
  X : List P
  Y : Values K
  backend : Option String
  k : Option ℕ
  maxDistance : Option K

/-- `mls.py` 165-177 `_get_neighbours`: the number of neighbours, 4 if none or zero is given. -/
def numNeighbours (k : Option ℕ) : ℕ :=
  match k with
  | none => 4
  | some k => if k = 0 then 4 else k

/-- `mls.py` 179-204 `approximate` with `_calc_factors_and_neighbours` (161-163).  With one dimensional
neighbours the compiled kernels cannot unpack the shape. -/
def approximate (libs : Libs) (q : Query P K) (sched : List ℕ) (inner : ℕ → List ℕ)
    (A : Approximator P K) (XT : List P) : Py (List (List K)) :=
  match kNearest libs q A.X (some XT) (A.backend.getD "scipy") (numNeighbours A.k) A.maxDistance with
  | .error e => .error e
  | .ok (.flat _) => .error .type
  | .ok (.rows l) =>
    let factor := 1 / ((numNeighbours A.k : ℕ) : K)
    .ok (if A.Y.nd then approximateNd sched A.Y l factor
      else approximate2d sched inner A.Y l factor)

end

end Verif.Knn
