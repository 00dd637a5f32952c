import Verif.Model.Frames
import Verif.Model.Utils
import Mathlib.LinearAlgebra.Matrix.RowCol

/-!
# Model of `linalg/tr.py`, of `show_vector` / `show_frame` and of the closed-form inverses and
determinants in `linalg/utils.py`

An array whose last axes hold items (vectors, matrices, fourth order tensors) is given by the other,
leading axes and the list of its items in row-major order; `reshape` of the leading axes does not
move an item.  Kernels compiled with `prange` take the order of their iterations as arguments
(`sched`, and `inner iE` for a nested loop).  All matrices are square and of the same size as the
items.  Numbers are exact; `fastmath` is not modelled.  An array that is read out of bounds gives an
arbitrary value: `junk` for stacks, and for fourth order tensors the value of the function `a` at
an index that is not below `dim`.
-/

namespace Verif.Tr
open Verif Verif.Frames Verif.Utils

/-- An array of items. -/
structure Arr (α : Type) where
  lead : List ℕ
  data : List α

/-- A direction cosine matrix, a stack of them, or an array with more axes. -/
inductive QArg (n : ℕ) (K : Type)
  | one (Q : Mat n K)
  | stack (Qs : List (Mat n K))
  | more

section
variable {α β : Type}

/-- `arr[i]` without bounds checking. -/
def rd (junk : α) (l : List α) (i : ℕ) : α := (l[i]?).getD junk

/-- `for iE in prange(nE): res[iE] = body(iE, res[iE])` -/
def loop1 (sched : List ℕ) (body : ℕ → β → β) (res : List β) : List β :=
  sched.foldl (fun res iE => res.modify iE (body iE)) res

/-- `for iE in prange(nE): for iX in prange(nX): res[iE, iX] = body(iE, iX, res[iE, iX])` -/
def loop2 (nX : ℕ) (sched : List ℕ) (inner : ℕ → List ℕ) (body : ℕ → ℕ → β → β)
    (res : List β) : List β :=
  sched.foldl (fun res iE =>
    (inner iE).foldl (fun res iX => res.modify (iE * nX + iX) (body iE iX)) res) res

end

section
variable {n : ℕ} {K : Type} [Field K]

/-! ### Second order tensors -/

/-- `tr.py` 39-46 `_tr_tensors2_single` -/
def tr2Single (junk : Mat n K) (sched : List ℕ) (arr : List (Mat n K)) (Q : Mat n K) :
    List (Mat n K) :=
  loop1 sched (fun iE _ => Q * rd junk arr iE * Q.transpose) (arr.map fun _ => 0)

/-- `tr.py` 49-57 `_tr_tensors2_single2` -/
def tr2Single2 (junk : Mat n K) (nX : ℕ) (sched : List ℕ) (inner : ℕ → List ℕ)
    (arr : List (Mat n K)) (Q : Mat n K) : List (Mat n K) :=
  loop2 nX sched inner (fun iE iX _ => Q * rd junk arr (iE * nX + iX) * Q.transpose)
    (arr.map fun _ => 0)

/-- `tr.py` 60-66 `_tr_tensors2_multi` -/
def tr2Multi (junk : Mat n K) (sched : List ℕ) (arr Q : List (Mat n K)) : List (Mat n K) :=
  loop1 sched (fun iE _ => rd junk Q iE * rd junk arr iE * (rd junk Q iE).transpose)
    (arr.map fun _ => 0)

/-- `tr.py` 69-78 `_tr_tensors2_multi2` -/
def tr2Multi2 (junk : Mat n K) (nX : ℕ) (sched : List ℕ) (inner : ℕ → List ℕ)
    (arr Q : List (Mat n K)) : List (Mat n K) :=
  loop2 nX sched inner (fun iE iX _ =>
    rd junk Q iE * rd junk arr (iE * nX + iX) * (rd junk Q iE).transpose) (arr.map fun _ => 0)

/-- `tr.py` 10-36 `_tr_tensors2`; the number of axes of `arr` is `arr.lead.length + 2`. -/
def trTensors2 (junk : Mat n K) (sched : List ℕ) (inner : ℕ → List ℕ) (arr : Arr (Mat n K))
    (Q : QArg n K) : Py (Arr (Mat n K)) :=
  match arr.lead, Q with
  | [], .one Q => .ok ⟨[], [Q * rd junk arr.data 0 * Q.transpose]⟩
  | [_], .one Q => .ok ⟨arr.lead, tr2Single junk sched arr.data Q⟩
  | _ :: _ :: _, .one Q =>
      .ok ⟨arr.lead, tr2Single2 junk arr.lead.tail.prod sched inner arr.data Q⟩
  | [_], .stack Qs => .ok ⟨arr.lead, tr2Multi junk sched arr.data Qs⟩
  | _ :: _ :: _, .stack Qs =>
      .ok ⟨arr.lead, tr2Multi2 junk arr.lead.tail.prod sched inner arr.data Qs⟩
  | _, _ => .error .notImplemented

/-! ### Vectors and frames -/

/-- `linalg/utils.py` 347-384 `show_vector` with the kernels 403-468. -/
def showVector (junkQ : Mat n K) (junk : Fin n → K) (sched : List ℕ) (dcm : QArg n K)
    (arr : Arr (Fin n → K)) : Py (Arr (Fin n → K)) :=
  match arr.lead, dcm with
  | [], .one Q => .ok ⟨[], [Q.mulVec (rd junk arr.data 0)]⟩
  | [_], .one Q => .ok ⟨arr.lead, loop1 sched (fun i _ => Q.mulVec (rd junk arr.data i))
      (arr.data.map fun _ => 0)⟩
  | [_], .stack Qs => .ok ⟨arr.lead, loop1 sched (fun i _ =>
      (rd junkQ Qs i).mulVec (rd junk arr.data i)) (arr.data.map fun _ => 0)⟩
  | _, _ => .error .generic

/-- `linalg/utils.py` 471-491 `_show_frame`: the loop runs over the rows of a square matrix. -/
def showFrame1 (sched : List (Fin n)) (dcm arr : Mat n K) : Mat n K :=
  sched.foldl (fun res i => res.updateRow i (dcm.mulVec (arr i))) (0 : Mat n K)

/-- `linalg/utils.py` 387-400 `show_frame` with the kernels 471-541; the inner loop over the rows of
frame `i` is executed in the order `inner i`. -/
def showFrames (junk : Mat n K) (sched : List ℕ) (inner : ℕ → List (Fin n)) (dcm : QArg n K)
    (arr : Arr (Mat n K)) : Py (Arr (Mat n K)) :=
  match arr.lead, dcm with
  | [], .one Q => .ok ⟨[], [showFrame1 (inner 0) Q (rd junk arr.data 0)]⟩
  | [_], .one Q => .ok ⟨arr.lead, loop1 sched (fun i _ =>
      showFrame1 (inner i) Q (rd junk arr.data i)) (arr.data.map fun _ => 0)⟩
  | [_], .stack Qs => .ok ⟨arr.lead, loop1 sched (fun i _ =>
      showFrame1 (inner i) (rd junk Qs i) (rd junk arr.data i)) (arr.data.map fun _ => 0)⟩
  | _, _ => .error .generic

/-- `linalg/utils.py` 544-565 `transpose_axes`: for more than three axes `numpy.transpose` with the
last two interchanged. -/
def transposeAxes (junk : Mat n K) (sched : List ℕ) (arr : Arr (Mat n K)) : Arr (Mat n K) :=
  match arr.lead with
  | [] => ⟨[], arr.data.map Matrix.transpose⟩
  | [_] => ⟨arr.lead, loop1 sched (fun i _ => (rd junk arr.data i).transpose)
      (arr.data.map fun _ => 0)⟩
  | _ => ⟨arr.lead, arr.data.map Matrix.transpose⟩

end

/-! ### Fourth order tensors -/

/-- A fourth order tensor with `dim` values per index. -/
structure T4 (K : Type) where
  dim : ℕ
  a : ℕ → ℕ → ℕ → ℕ → K

/-- A matrix of any size in memory. -/
abbrev Mem2 (K : Type) := ℕ → ℕ → K

section
variable {K : Type} [Field K] [LinearOrder K] [FloorRing K]

/-- `out[i, j, k, m] += v`; storing into an integer array truncates. -/
def addAt (dt : DType) (i j k m : ℕ) (v : K) (out : ℕ → ℕ → ℕ → ℕ → K) :
    ℕ → ℕ → ℕ → ℕ → K :=
  fun i' j' k' m' => if i' = i ∧ j' = j ∧ k' = k ∧ m' = m then store dt (out i j k m + v)
    else out i' j' k' m'

/-- `for x in prange(3): …` in a kernel that is not parallel. -/
def for3 {σ : Type} (body : ℕ → σ → σ) (s : σ) : σ := (List.range 3).foldl (fun s x => body x s) s

/-- `tr.py` 146-163 `_tr_3333_out` (also the loops of `_tr_3333`, 132-143). -/
def tr3333Out (dt : DType) (arr : T4 K) (Q : Mem2 K) (out : ℕ → ℕ → ℕ → ℕ → K) :
    ℕ → ℕ → ℕ → ℕ → K :=
  for3 (fun p => for3 fun q => for3 fun r => for3 fun s =>
    for3 fun i => for3 fun j => for3 fun k => for3 fun m =>
      addAt dt i j k m (Q i p * Q j q * Q k r * Q m s * arr.a p q r s)) out

/-- `tr.py` 125-144 `_tr_3333`: the result has the shape `(3, 3, 3, 3)`. -/
def tr3333 (dt : DType) (arr : T4 K) (Q : Mem2 K) : T4 K :=
  ⟨3, tr3333Out dt arr Q fun _ _ _ _ => 0⟩

/-- A direction cosine matrix in memory, a stack of them, or an array with more axes. -/
inductive QArg4 (K : Type)
  | one (Q : Mem2 K)
  | stack (Qs : List (Mem2 K))
  | more

/-- `tr.py` 81-103 `_tr_tensors4x3` with the kernels 166-194; the number of axes of `arr` is
`arr.lead.length + 4`.  The results of the bulk kernels have the shape of the input
(`numpy.zeros_like`). -/
def trTensors4 (dt : DType) (junk : T4 K) (junkQ : Mem2 K) (sched : List ℕ) (inner : ℕ → List ℕ)
    (arr : Arr (T4 K)) (Q : QArg4 K) : Py (Arr (T4 K)) :=
  let zeros : List (T4 K) := arr.data.map fun x => ⟨x.dim, fun _ _ _ _ => 0⟩
  match arr.lead, Q with
  | [], .one Q => .ok ⟨[], [tr3333 dt (rd junk arr.data 0) Q]⟩
  | [_], .one Q => .ok ⟨arr.lead, loop1 sched (fun iE out =>
      ⟨out.dim, tr3333Out dt (rd junk arr.data iE) Q out.a⟩) zeros⟩
  | [_], .stack Qs => .ok ⟨arr.lead, loop1 sched (fun iE out =>
      ⟨out.dim, tr3333Out dt (rd junk arr.data iE) (rd junkQ Qs iE) out.a⟩) zeros⟩
  | _ :: _ :: _, .stack Qs =>
      let nX := arr.lead.tail.prod
      .ok ⟨arr.lead, loop2 nX sched inner (fun iE iX out =>
        ⟨out.dim, tr3333Out dt (rd junk arr.data (iE * nX + iX)) (rd junkQ Qs iE) out.a⟩) zeros⟩
  | _, _ => .error .notImplemented

/-! ### Inverses and determinants -/

/-- The expression of `linalg/utils.py` 706-713, 756-763, 778-785. -/
def detExpr3 (A : Mat 3 K) : K :=
  A 0 0 * A 1 1 * A 2 2 - A 0 0 * A 1 2 * A 2 1 - A 0 1 * A 1 0 * A 2 2 +
    A 0 1 * A 1 2 * A 2 0 + A 0 2 * A 1 0 * A 2 1 - A 0 2 * A 1 1 * A 2 0

/-- `linalg/utils.py` 704-713 `det3x3`: the expression is bound to the local name `res`; nothing is
written into the output, which keeps the content `out` of its memory. -/
def det3x3 (A : Mat 3 K) (out : K) : K :=
  let _res := detExpr3 A
  out

/-- `linalg/utils.py` 716-718 `det2x2`: as `det3x3`. -/
def det2x2 (A : Mat 2 K) (out : K) : K :=
  let _res := A 0 0 * A 1 1 - A 0 1 * A 1 0
  out

/-- `linalg/utils.py` 721-729 `inv2x2`: the result has the dtype of the input; a scalar division by
zero raises in compiled code. -/
def inv2x2 (dt : DType) (A : Mat 2 K) : Py (Mat 2 K) :=
  let d := A 0 0 * A 1 1 - A 0 1 * A 1 0
  if d = 0 then .error .zeroDiv
  else .ok (Matrix.of ![![store dt (A 1 1 / d), store dt (-(A 0 1) / d)],
    ![store dt (-(A 1 0) / d), store dt (A 0 0 / d)]])

/-- `linalg/utils.py` 732-738 `inv2x2u`: the output is always an array of floats. -/
def inv2x2u (A : Mat 2 K) : Py (Mat 2 K) :=
  let d := A 0 0 * A 1 1 - A 0 1 * A 1 0
  if d = 0 then .error .zeroDiv
  else .ok (Matrix.of ![![A 1 1 / d, -(A 0 1) / d], ![-(A 1 0) / d, A 0 0 / d]])

/-- `linalg/utils.py` 741-751 `adj3x3` -/
def adj3x3 (A : Mat 3 K) : Mat 3 K :=
  Matrix.of ![
    ![A 1 1 * A 2 2 - A 1 2 * A 2 1, -(A 0 1) * A 2 2 + A 0 2 * A 2 1, A 0 1 * A 1 2 - A 0 2 * A 1 1],
    ![-(A 1 0) * A 2 2 + A 1 2 * A 2 0, A 0 0 * A 2 2 - A 0 2 * A 2 0, -(A 0 0) * A 1 2 + A 0 2 * A 1 0],
    ![A 1 0 * A 2 1 - A 1 1 * A 2 0, -(A 0 0) * A 2 1 + A 0 1 * A 2 0, A 0 0 * A 1 1 - A 0 1 * A 1 0]]

/-- `linalg/utils.py` 754-772 `inv3x3u` -/
def inv3x3u (A : Mat 3 K) : Py (Mat 3 K) :=
  let d := detExpr3 A
  if d = 0 then .error .zeroDiv
  else .ok (Matrix.of ![
    ![A 1 1 * A 2 2 / d - A 1 2 * A 2 1 / d, -(A 0 1) * A 2 2 / d + A 0 2 * A 2 1 / d,
      A 0 1 * A 1 2 / d - A 0 2 * A 1 1 / d],
    ![-(A 1 0) * A 2 2 / d + A 1 2 * A 2 0 / d, A 0 0 * A 2 2 / d - A 0 2 * A 2 0 / d,
      -(A 0 0) * A 1 2 / d + A 0 2 * A 1 0 / d],
    ![A 1 0 * A 2 1 / d - A 1 1 * A 2 0 / d, -(A 0 0) * A 2 1 / d + A 0 1 * A 2 0 / d,
      A 0 0 * A 1 1 / d - A 0 1 * A 1 0 / d]])

/-- `linalg/utils.py` 775-796 `inv3x3` for an array of floats: the expressions are those of `adj3x3`;
dividing an array by zero gives entries that are not finite, `none`. -/
def inv3x3 (A : Mat 3 K) : Option (Mat 3 K) :=
  let det := detExpr3 A
  if det = 0 then none else some (Matrix.of fun i j => adj3x3 A i j / det)

/-- `linalg/utils.py` 799-821 `inv3x3_bulk`: the loop body has the statements of `inv3x3` (it differs
in nothing but the index `i`), and 824-829 `inv3x3_bulk2`, which calls it. -/
def inv3x3Bulk (junk : Mat 3 K) (sched : List ℕ) (A : List (Mat 3 K)) : List (Option (Mat 3 K)) :=
  loop1 sched (fun i _ => inv3x3 (rd junk A i)) (A.map fun _ => some 0)

end

end Verif.Tr
