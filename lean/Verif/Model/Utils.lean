import Verif.Prelude
import Mathlib.Algebra.Order.Floor.Ring
import Mathlib.Algebra.Order.Field.Basic
import Mathlib.Algebra.BigOperators.Group.List.Basic
import Mathlib.Data.Prod.Basic
import Mathlib.Logic.Function.Basic

/-!
# Model of `utils.py` and `hist.py`

A 1d array is a list, a 2d input array of shape `(I, J)` a function `ℕ → ℕ → K` that is read
only at `i < I`, `j < J`.  Kernels compiled with `prange` take the order `sched` in which the
iterations are executed as an argument (any permutation of `range(N)`); every iteration is
atomic.  Numbers are exact; storing into an integer array truncates towards zero.
Numba does not check array bounds, so an out-of-bounds read gives an arbitrary value, which is
an argument (`junk`) of the model.
-/

namespace Verif.Utils
open Verif

/-- The two kinds of `dtype` that the code distinguishes. -/
inductive DType
  | float | int
  deriving DecidableEq

section
variable {K : Type} [Field K] [LinearOrder K] [FloorRing K]

/-- Cast of a number to an integer dtype: truncation towards zero. -/
def trunc (x : K) : K := if 0 ≤ x then ((⌊x⌋ : ℤ) : K) else ((⌈x⌉ : ℤ) : K)

/-- The value found in an array of the given dtype after storing `x`. -/
def store : DType → K → K
  | .float, x => x
  | .int, x => trunc x

/-- utils.py:46-72 `clip1d`: two masked assignments (into the array itself, which is then
returned). -/
def clip1d (dt : DType) (a : List K) (a_min a_max : K) : List K :=
  let a := a.map fun x => if x < a_min then store dt a_min else x
  a.map fun x => if x > a_max then store dt a_max else x

/-- An iteration order of `prange(N)`. -/
def IsSchedule (N : ℕ) (sched : List ℕ) : Prop := sched.Perm (List.range N)

/-- utils.py:283-326 `repeat`; a block (2d array) is a value of `α`. -/
def repeatBlock {α : Type} (zero a : α) (N : ℕ) (sched : List ℕ) : List α :=
  sched.foldl (fun res i => res.set i a) (List.replicate N zero)

/-- `res[lo:lo+len(v)] = v` -/
def assignSlice {α : Type} (res : List α) (lo : ℕ) (v : List α) : List α :=
  res.take lo ++ v ++ res.drop (lo + v.length)

/-- utils.py:329-347 `repeat1d`. -/
def repeat1d (a : List K) (N : ℕ) (sched : List ℕ) : List K :=
  let M := a.length
  sched.foldl (fun res i => assignSlice res (i * M) a) (List.replicate (N * M) 0)

/-- utils.py:350-372 `tile`; the result is the list of its `N` blocks. -/
def tile (dt : DType) (a da : ℕ → ℕ → K) (N : ℕ) (sched : List ℕ) : List (ℕ → ℕ → K) :=
  sched.foldl (fun res i => res.set i (fun r c => store dt (a r c + (i : K) * da r c)))
    (List.replicate N (fun _ _ => 0))

/-- utils.py:375-381 `tile1d`; arrays of different lengths are refused by the checks of sizes in parallel
compiled code (which exception that is does not matter here). -/
def tile1d (dt : DType) (a da : List K) (N : ℕ) (sched : List ℕ) : Py (List K) :=
  let M := a.length
  if da.length ≠ M then .error .value
  else .ok (sched.foldl
    (fun res i => assignSlice res (i * M) (List.zipWith (fun x d => store dt (x + (i : K) * d)) a da))
    (List.replicate (N * M) 0))

/-- utils.py:470-495 `repeat_diagonal_2d`: the block `a` is `nR × nC`. -/
def repeatDiagonal (nR nC : ℕ) (a : ℕ → ℕ → K) (sched : List ℕ) : ℕ → ℕ → K :=
  sched.foldl
    (fun res i => fun r c =>
      if i * nR ≤ r ∧ r < i * nR + nR ∧ i * nC ≤ c ∧ c < i * nC + nC then a (r - i * nR) (c - i * nC)
      else res r c)
    (fun _ _ => 0)

/-- utils.py:200-209 `flatten2dC`. -/
def flatten2dC (I J : ℕ) (a : ℕ → ℕ → K) : List K :=
  ((List.range I).foldl
    (fun (s : List K × ℕ) i => (List.range J).foldl (fun s j => (s.1.set s.2 (a i j), s.2 + 1)) s)
    (List.replicate (I * J) 0, 0)).1

/-- utils.py:212-221 `flatten2dF`. -/
def flatten2dF (I J : ℕ) (a : ℕ → ℕ → K) : List K :=
  ((List.range J).foldl
    (fun (s : List K × ℕ) j => (List.range I).foldl (fun s i => (s.1.set s.2 (a i j), s.2 + 1)) s)
    (List.replicate (I * J) 0, 0)).1

/-- utils.py:224-231 `flatten2d`; any other order falls through and returns `None`. -/
def flatten2d (I J : ℕ) (a : ℕ → ℕ → K) (order : String) : Option (List K) :=
  if order = "C" then some (flatten2dC I J a)
  else if order = "F" then some (flatten2dF I J a)
  else none

/-- utils.py:234-250 `bool_to_float` for a flat Boolean array. -/
def boolToFloat (a : List Bool) (true_ false_ : K) : List K :=
  a.map fun b => if b then true_ else false_

/-- hist.py:17-23 `bin_centers`; `dt` is the dtype of the edges. -/
def binCenters (dt : DType) (edges : List K) (sched : List ℕ) : List K :=
  sched.foldl (fun res i => res.set i (store dt ((edges.getD i 0 + edges.getD (i + 1) 0) / 2)))
    (List.replicate (edges.length - 1) 0)

/-- utils.py:498-507 `_to_range_1d_`; `dt` is the dtype of `vals`. Division by zero raises
(Numba's default error model). -/
def toRangeKernel (dt : DType) (vals : List K) (source target : K × K) (sched : List ℕ) : Py (List K) :=
  if source.2 - source.1 = 0 then .error .zeroDiv
  else
    let b := (target.2 - target.1) / (source.2 - source.1)
    let a := (target.1 + target.2) / 2 - b * (source.1 + source.2) / 2
    .ok (sched.foldl (fun res i => res.set i (store dt (a + b * vals.getD i 0)))
      (List.replicate vals.length 0))

/-- utils.py:510-524 `to_range_1d` for an array `vals`, with the defaults of the two ranges. -/
def toRange1d (dt : DType) (vals : List K) (source target : Option (K × K)) (sched : List ℕ) :
    Py (List K) :=
  toRangeKernel dt vals (source.getD (0, 1)) (target.getD (-1, 1)) sched

/-- `np.sum(np.abs(x[i] - y[j]))` -/
def rowDist (x y : List K) : K := (List.zipWith (fun a b => |a - b|) x y).sum

/-- utils.py:405-411 `indices_of_equal_rows_njit`: `sched` is the order of the cells of the
doubly parallel loop. `np.where` lists the hits row by row. `dt` is the dtype of `x`, which
the distance matrix inherits. -/
def equalRowsNjit (dt : DType) (x y : List (List K)) (tol : K) (sched : List (ℕ × ℕ)) :
    List (ℕ × ℕ) :=
  let R := sched.foldl
    (fun (R : ℕ × ℕ → K) p =>
      Function.update R p (store dt (rowDist (x.getD p.1 []) (y.getD p.2 []))))
    (fun _ => 0)
  ((List.range x.length) ×ˢ (List.range y.length)).filter (fun p => decide (R p ≤ tol))

/-- utils.py:414-425 `indices_of_equal_rows_square_njit`. -/
def equalRowsSquare (dt : DType) (x y : List (List K)) (tol : K) (sched : List (ℕ × ℕ)) :
    List (ℕ × ℕ) :=
  let n := if x.length < y.length then x.length else y.length
  let R := sched.foldl
    (fun (R : ℕ × ℕ → K) p =>
      Function.update R p (store dt (rowDist (x.getD p.1 []) (y.getD p.2 []))))
    (fun _ => 0)
  ((List.range n) ×ˢ (List.range n)).filter (fun p => decide (R p ≤ tol))

/-- utils.py:384-402 `indices_of_equal_rows`; `dx`, `dy` are the numbers of columns. -/
def indicesOfEqualRows (dtx dty : DType) (dx dy : ℕ) (x y : List (List K)) (tol : K)
    (sched : List (ℕ × ℕ)) : Py (List (ℕ × ℕ)) :=
  if dx ≠ dy then .error .assertion
  else
    let square := x.length == y.length
    let integer := dtx == .int && dty == .int
    if integer then
      if square then
        .ok (((List.range x.length).filter (fun i => x.getD i [] == y.getD i [])).map fun i => (i, i))
      else .ok (equalRowsNjit dtx x y 0 sched)
    else
      if square then .ok (equalRowsSquare dtx x y tol sched)
      else .ok (equalRowsNjit dtx x y tol sched)

/-- `np.where(a == space)[0][0]` in compiled code: without a hit an element outside of the
empty array is read. -/
def firstHit (junk : ℕ) (a : K) (space : List K) : ℕ :=
  match space.findIdx? (fun s => decide (a = s)) with
  | some k => k
  | none => junk

/-- utils.py:527-533 `find1d`; `junk i` is what the i-th iteration reads if it has no hit. -/
def find1d (junk : ℕ → ℕ) (arr space : List K) (sched : List ℕ) : List ℕ :=
  sched.foldl (fun res i => res.set i (firstHit (junk i) (arr.getD i 0) space))
    (List.replicate arr.length 0)

/-- utils.py:536-543 `find2d`; `scheds i` is the order of the inner parallel loop. -/
def find2d (junk : ℕ → ℕ → ℕ) (arr : List (List K)) (space : List K) (sched : List ℕ)
    (scheds : ℕ → List ℕ) : List (List ℕ) :=
  sched.foldl (fun res i => res.set i (find1d (junk i) (arr.getD i []) space (scheds i)))
    (arr.map fun r => List.replicate r.length 0)

/-- utils.py:428-438 `count_cols`. -/
def countCols {α : Type} (arr : List (List α)) (sched : List ℕ) : List ℕ :=
  sched.foldl (fun res i => res.set i (arr.getD i []).length) (List.replicate arr.length 0)

/-- utils.py:441-467 `count_cols_csr`; `junk` gives the values of out-of-bounds reads of
`indptr` and of `indices`. -/
def countColsCsr (junkPtr : ℕ → ℕ) (junkIdx : ℕ → ℤ) (indptr : List ℕ) (indices : List ℤ)
    (sched : List ℕ) : List ℤ :=
  let ptr := fun k => (indptr[k]?).getD (junkPtr k)
  let idx := fun k => (indices[k]?).getD (junkIdx k)
  sched.foldl (fun res i => res.set i (idx (ptr (i + 1)) - idx (ptr i)))
    (List.replicate indptr.length 0)

end

/-! ## Shapes -/

/-- An array of any dimension: shape and the elements in C order. -/
structure NdArray (α : Type) where
  shape : List ℕ
  data : List α

/-- `np.reshape`: `ValueError` if the number of elements does not fit. -/
def reshape {α : Type} (a : NdArray α) (shape : List ℕ) : Py (NdArray α) :=
  if shape.prod = a.data.length then .ok ⟨shape, a.data⟩ else .error .value

/-- What the user may pass: a number or something that has been turned into an array. -/
inductive ArrayLike (α : Type)
  | number (x : α)
  | array (a : NdArray α)

/-- Lines 101-106 / 158-163 of utils.py: a number becomes a one-element array. -/
def asArray {α : Type} : ArrayLike α → NdArray α
  | .number x => ⟨[1], [x]⟩
  | .array a => a

/-- utils.py:75-116 `atleastnd`. -/
def atleastnd {α : Type} (x : ArrayLike α) (n : ℕ) (front back : Bool) : Py (NdArray α) :=
  let a := asArray x
  let nD := a.shape.length
  if nD ≥ n then .ok a
  else if front && !back then reshape a (List.replicate (n - nD) 1 ++ a.shape)
  else reshape a (a.shape ++ List.replicate (n - nD) 1)

/-- utils.py:147-169 `matrixform`. -/
def matrixform {α : Type} (x : ArrayLike α) : Py (NdArray α) :=
  let a := asArray x
  let size := a.shape.length
  if size > 2 then .error .assertion
  else if size = 1 then reshape a [a.shape.headD 0, 1]
  else .ok a

end Verif.Utils
