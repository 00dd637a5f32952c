import Verif.Model.Knn

/-!
# `MLSApproximator` as an object with arrays of any shape, `approx/mls.py` 35-204

Arrays have a shape and their elements in C order.  The kernels and the search are those of `Verif.Model.Knn`;
here the shapes of sources, targets and results, the state of the object and the assignment of its properties are
added.
-/

namespace Verif.MlsObj
open Verif Verif.Utils Verif.Knn

section
variable {K : Type} [Field K] [LinearOrder K] [FloorRing K]

/-- An `MLSApproximator`, `mls.py` 92-127: the public attributes `X_S`, `Y_S` (with the dtype `dt`), the parameters
of the search, and what the properties `neighbours` and `factors` return. -/
structure Mls (K : Type) where
  xs : NdArray K
  ys : NdArray K
  dt : DType
  backend : Option String
  k : Option ℕ
  maxDistance : Option K
  neighbours : Option (NdArray ℕ)
  factors : Option (NdArray K)

/-- `MLSApproximator(X_S, Y_S, knn_backend, k, max_distance)`, `mls.py` 94-130, with arguments of the expected types. -/
def Mls.new (xs ys : NdArray K) (dt : DType) (backend : Option String) (k : Option ℕ) (maxDistance : Option K) :
    Mls K :=
  ⟨xs, ys, dt, backend, k, maxDistance, none, none⟩

/-- The first `n` groups of `m` successive elements: the rows of an array whose last axis has length `m`. -/
def groups {α : Type} (n m : ℕ) (data : List α) : List (List α) :=
  (List.range n).map fun i => (data.drop (i * m)).take m

/-- `k_nearest_neighbours(X, Y, …)`, `knn.py` 22-117, with the shapes of the arrays: the tree needs an array with two
axes, the targets need as many coordinates as the points, and the other axes of the targets are those of the result,
followed by one for the neighbours if there are several. -/
def search (libs : Libs) (q : Query (List K) K) (X Y : NdArray K) (backend : String) (k : ℕ)
    (maxDistance : Option K) : Py (NdArray ℕ) :=
  if backend ≠ "scipy" ∧ ¬(backend = "sklearn" ∧ libs.hasSklearn = true) then .error .generic
  else
    match X.shape with
    | [n, m] =>
      if Y.shape.getLast? = some m then
        match kNearest libs q (groups n m X.data) (some (groups Y.shape.dropLast.prod m Y.data)) backend k
            maxDistance with
        | .error e => .error e
        | .ok (.flat l) => .ok ⟨Y.shape.dropLast, l⟩
        | .ok (.rows l) => .ok ⟨Y.shape.dropLast ++ [k], l.flatten⟩
      else .error .value
    | _ => .error .value

/-- The source data as the kernels see them; `junk` is found in memory behind the array. -/
def valuesOf (junk : ℕ → ℕ → K) (dt : DType) (Y : NdArray K) : Values K :=
  { n := Y.shape.headD 0
    nD := Y.shape.tail.prod
    nd := decide (2 < Y.shape.length)
    dt := dt
    a := fun i j => if i < Y.shape.headD 0 then (Y.data[i * Y.shape.tail.prod + j]?).getD 0 else junk i j }

/-- `np.squeeze`: axes of length one are dropped. -/
def squeeze {α : Type} (a : NdArray α) : NdArray α := ⟨a.shape.filter (· ≠ 1), a.data⟩

/-- `mls.py` 192-204: the kernels want neighbours with two axes and data with at least one. -/
def evaluate (sched : List ℕ) (inner : ℕ → List ℕ) (junk : ℕ → ℕ → K) (dt : DType) (Y : NdArray K)
    (neighbours : NdArray ℕ) (factor : K) : Py (NdArray K) :=
  match neighbours.shape, Y.shape with
  | [nT, nN], _ :: comps =>
    let rows := groups nT nN neighbours.data
    let res := if 2 < Y.shape.length then approximateNd sched (valuesOf junk dt Y) rows factor
      else approximate2d sched inner (valuesOf junk dt Y) rows factor
    .ok (squeeze ⟨nT :: comps, res.flatten⟩)
  | _, _ => .error .type

/-- `self.approximate(X_T)`, `mls.py` 161-204, and the object afterwards.  Data with one axis get a second one of
length one (193-195). -/
def Mls.approximate (libs : Libs) (q : Query (List K) K) (sched : List ℕ) (inner : ℕ → List ℕ) (junk : ℕ → ℕ → K)
    (A : Mls K) (XT : ArrayLike K) : Py (NdArray K) × Mls K :=
  match atleastnd (.array A.xs) 2 true true, atleastnd XT 2 true true with
  | .ok X, .ok T =>
    match search libs q X T (A.backend.getD "scipy") (numNeighbours A.k) A.maxDistance with
    | .error e => (.error e, A)
    | .ok N =>
      let factor : K := 1 / ((N.shape.getLastD 0 : ℕ) : K)
      let A' := { A with neighbours := some N, factors := some ⟨N.shape, N.data.map fun _ => factor⟩ }
      let Y : Py (NdArray K) := if A.ys.shape.length = 1 then atleastnd (.array A.ys) 2 true true else .ok A.ys
      match Y with
      | .error e => (.error e, A')
      | .ok Y => (evaluate sched inner junk A.dt Y N factor, A')
  | .error e, _ => (.error e, A)
  | _, .error e => (.error e, A)

/-- What can be done with an approximator; the order in which the parallel loops run and the memory behind the data
may differ from call to call. -/
inductive Op (K : Type)
  /-- `A.neighbours = N`, `mls.py` 139-144 -/
  | neighbours (N : NdArray ℕ)
  /-- `A.factors = F`, `mls.py` 154-159 -/
  | factors (F : NdArray K)
  /-- `A.X_S = X` -/
  | sources (X : NdArray K)
  /-- `A.Y_S = Y` -/
  | values (Y : NdArray K) (dt : DType)
  /-- `A.approximate(X_T)` -/
  | call (sched : List ℕ) (inner : ℕ → List ℕ) (junk : ℕ → ℕ → K) (XT : ArrayLike K)

/-- One step. -/
def Mls.step (libs : Libs) (q : Query (List K) K) (A : Mls K) : Op K → Mls K
  | .neighbours N => { A with neighbours := some N }
  | .factors F => { A with factors := some F }
  | .sources X => { A with xs := X }
  | .values Y dt => { A with ys := Y, dt := dt }
  | .call sched inner junk XT => (A.approximate libs q sched inner junk XT).2

/-- A sequence of steps. -/
def Mls.run (libs : Libs) (q : Query (List K) K) (ops : List (Op K)) (A : Mls K) : Mls K :=
  ops.foldl (Mls.step libs q) A

end
end Verif.MlsObj
