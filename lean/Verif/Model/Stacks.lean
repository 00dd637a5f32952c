import Verif.Model.Frames
import Verif.Model.Utils

/-!
# Model of stacks of vectors, frames and tensors

`show_vector`, `show_frame`, `transpose_axes` (`linalg/utils.py`), the class `Vector`
(`linalg/vector.py`) with a stack of vectors, the classes `Tensor2` and `Tensor2x3`
(`linalg/tensor.py`) with a stack of matrices, and the constructor of all tensor classes
(`linalg/meta.py` 291-339, `linalg/tensor.py`) at the level of shapes.

A stack has one leading axis.  The arrays of vectors, tensors and frames are float arrays.  The
kernels are compiled by numba: reading outside of an array is not noticed (`junk`), loops over
`prange` run in any order (`sched`).
-/

namespace Verif.Stacks
open Verif Verif.Utils Verif.Frames

section
variable {n : ℕ} {K : Type} [Field K] [LinearOrder K]

/-! ### Kernels -/

/-- An argument of `show_vector` or `show_frame`: a single item, a stack, or an array with another
number of axes. -/
inductive Arg (α : Type)
  | one (x : α)
  | many (xs : List α)
  | other

/-- `_show_vectors`, `linalg/utils.py` 424-445. -/
def showVectors (sched : List ℕ) (Q : Mat n K) (vs : List (Fin n → K)) : List (Fin n → K) :=
  sched.foldl (fun res i => res.set i (Q.mulVec (vs.getD i 0))) (List.replicate vs.length 0)

/-- `_show_vectors_multi`, `linalg/utils.py` 448-468. -/
def showVectorsMulti (sched : List ℕ) (junk : Mat n K) (Qs : List (Mat n K))
    (vs : List (Fin n → K)) : List (Fin n → K) :=
  sched.foldl (fun res i => res.set i ((Qs.getD i junk).mulVec (vs.getD i 0)))
    (List.replicate vs.length 0)

/-- `show_vector(dcm, arr)`, `linalg/utils.py` 346-384.  numba knows `@` for float arrays only. -/
def showVector (sched : List ℕ) (junk : Mat n K) (dtQ dtA : DType) (dcm : Arg (Mat n K))
    (arr : Arg (Fin n → K)) : Py (Arg (Fin n → K)) :=
  match arr, dcm with
  | .one v, .one Q => if dtQ = .float ∧ dtA = .float then .ok (.one (Q.mulVec v)) else .error .type
  | .many vs, .one Q =>
      if dtQ = .float ∧ dtA = .float then .ok (.many (showVectors sched Q vs)) else .error .type
  | .many vs, .many Qs =>
      if dtQ = .float ∧ dtA = .float then .ok (.many (showVectorsMulti sched junk Qs vs))
      else .error .type
  | _, _ => .error .generic

/-- `_show_frame`, `linalg/utils.py` 471-492, of a square array. -/
def showFrame1 (rows : List (Fin n)) (Q A : Mat n K) : Mat n K :=
  rows.foldl (fun res i => res.updateRow i (Q.mulVec (A i))) 0

/-- `_show_frames`, `linalg/utils.py` 495-517. -/
def showFrames (sched : List ℕ) (rows : List (Fin n)) (Q : Mat n K) (As : List (Mat n K)) :
    List (Mat n K) :=
  sched.foldl (fun res i => res.set i (showFrame1 rows Q (As.getD i 0)))
    (List.replicate As.length 0)

/-- `_show_frames_multi`, `linalg/utils.py` 520-541. -/
def showFramesMulti (sched : List ℕ) (rows : List (Fin n)) (junk : Mat n K) (Qs As : List (Mat n K)) :
    List (Mat n K) :=
  sched.foldl (fun res i => res.set i (showFrame1 rows (Qs.getD i junk) (As.getD i 0)))
    (List.replicate As.length 0)

/-- `show_frame(dcm, arr)`, `linalg/utils.py` 387-401, for float arrays. -/
def showFrame (sched : List ℕ) (rows : List (Fin n)) (junk : Mat n K) (dcm arr : Arg (Mat n K)) :
    Py (Arg (Mat n K)) :=
  match arr, dcm with
  | .one A, .one Q => .ok (.one (showFrame1 rows Q A))
  | .many As, .one Q => .ok (.many (showFrames sched rows Q As))
  | .many As, .many Qs => .ok (.many (showFramesMulti sched rows junk Qs As))
  | _, _ => .error .generic

/-- `transpose_axes` of a single matrix and of a stack, `linalg/utils.py` 544-565. -/
def transposeAxes (sched : List ℕ) : Arg (Mat n K) → Py (Arg (Mat n K))
  | .one A => .ok (.one A.transpose)
  | .many As => .ok (.many (sched.foldl (fun res i => res.set i (As.getD i 0).transpose)
      (List.replicate As.length 0)))
  | .other => .error .generic

/-! ### Stacks of vectors -/

/-- The axes of a frame or of a stack of frames. -/
inductive Axes (n : ℕ) (K : Type)
  | one (A : Mat n K)
  | many (As : List (Mat n K))

/-- `np.linalg.inv` of all members. -/
def invAll : List (Mat n K) → Py (List (Mat n K))
  | [] => .ok []
  | A :: As => do return (← inv A) :: (← invAll As)

/-- `dual_frame(axes)`: `linalg/utils.py` 592-601. -/
def Axes.dual : Axes n K → Py (Axes n K)
  | .one A => do return .one (← inv A).transpose
  | .many As => do return .many ((← invAll As).map Matrix.transpose)

/-- `numpy.matmul` of two matrices or stacks of matrices; stacks of length one are repeated. -/
def Axes.matmul : Axes n K → Axes n K → Py (Axes n K)
  | .one A, .one B => .ok (.one (A * B))
  | .one A, .many Bs => .ok (.many (Bs.map fun B => A * B))
  | .many As, .one B => .ok (.many (As.map fun A => A * B))
  | .many As, .many Bs =>
      if As.length = Bs.length then .ok (.many (List.zipWith (fun A B => A * B) As Bs))
      else
        match As, Bs with
        | [A], Bs => .ok (.many (Bs.map fun B => A * B))
        | As, [B] => .ok (.many (As.map fun A => A * B))
        | _, _ => .error .value

/-- The members transposed. -/
def Axes.transpose : Axes n K → Axes n K
  | .one A => .one A.transpose
  | .many As => .many (As.map Matrix.transpose)

/-- `self.dcm(target=target)` of `ReferenceFrame`s, `linalg/frame.py` 359-373. -/
def dcmTarget (S T : Axes n K) : Py (Axes n K) := do
  (← T.dual).matmul S.transpose

/-- A `Vector` holding a stack of vectors. -/
structure VStack (n : ℕ) (K : Type) where
  members : List (Fin n → K)
  axes : Axes n K

/-- The array of a direction cosine matrix. -/
def Axes.arg : Axes n K → Arg (Mat n K)
  | .one A => .one A
  | .many As => .many As

/-- `v.show(target)`, `linalg/vector.py` 120-144. -/
def VStack.show (sched : List ℕ) (junk : Mat n K) (v : VStack n K) (target : Option (Axes n K)) :
    Py (Arg (Fin n → K)) := do
  let dcm ← dcmTarget v.axes (target.getD (.one 1))
  showVector sched junk .float .float dcm.arg (.many v.members)

/-- `A @ vs` for a matrix with `n` columns and an array with a row for every vector: an error unless
there are `n` vectors. -/
def matmulRows (A : Mat n K) (vs : List (Fin n → K)) : Py (List (Fin n → K)) :=
  if vs.length = n then
    .ok ((List.finRange n).map fun i j => ∑ k : Fin n, A i k * (vs.getD k 0) j)
  else .error .value

/-- `v.dual()` in a single frame, `linalg/vector.py` 111-118: the Gram matrix times the array, and the
dual frame. -/
def VStack.dual (v : VStack n K) : Py (VStack n K) :=
  match v.axes with
  | .one A => do
      let a ← matmulRows (A * A.transpose) v.members
      return ⟨a, ← v.axes.dual⟩
  | .many _ => .error .notImplemented

/-- `v.orient(dcm=Q)`, `linalg/vector.py` 171-172: `show_vector(dcm.T, array)`. -/
def VStack.orientDcm (sched : List ℕ) (v : VStack n K) (Q : Mat n K) : VStack n K :=
  ⟨showVectors sched Q.transpose v.members, v.axes⟩

/-- `fcls.eye(dim=len(self)).orient_new(…).dcm()`, `linalg/vector.py` 164-165, 193-194: the rotation
matrix is three by three, the frame has as many axes as there are vectors; `dcm @ arr[i, :]` raises
unless they are three, and otherwise the result is the rotation matrix. -/
def rotationFor (len : ℕ) (R : Mat 3 K) : Py (Mat 3 K) :=
  if len = 3 then .ok R else .error .value

/-- `v.orient(*args)` with the arguments of a rotation with matrix `R`, `linalg/vector.py` 163-168. -/
def VStack.orient (sched : List ℕ) (v : VStack 3 K) (R : Mat 3 K) : Py (VStack 3 K) := do
  let dcm ← rotationFor v.members.length R
  return ⟨showVectors sched dcm.transpose v.members, v.axes⟩

/-- `v.orient_new(*args)`, `linalg/vector.py` 182-198: `dcm.T @ self._array`. -/
def VStack.orientNew (v : VStack 3 K) (R : Mat 3 K) : Py (VStack 3 K) := do
  let dcm ← rotationFor v.members.length R
  let a ← matmulRows dcm.transpose v.members
  return ⟨a, v.axes⟩

end

/-! ### Constructors -/

/-- The classes of tensors. -/
inductive Cls
  | vector | tensor | tensor2 | tensor2x3 | tensor4 | tensor4x3
  deriving DecidableEq

/-- `_rank_` of the class. -/
def Cls.rank : Cls → Option ℕ
  | .tensor2 | .tensor2x3 => some 2
  | .tensor4 | .tensor4x3 => some 4
  | _ => none

/-- `shape[-k:]` -/
def lastAxes (k : ℕ) (shape : List ℕ) : List ℕ := shape.drop (shape.length - k)

/-- `_verify_input`: `linalg/vector.py` 97-103, `linalg/tensor.py` 72-74 (with `linalg/logical.py`
87-93), 205-210, 244-249, 266-273, 311-317.  `bulk` is a truth value here: `None` and a missing argument
are false. -/
def verify (cls : Cls) (shape : List ℕ) (bulk : Bool) : Py Bool :=
  match cls with
  | .vector => .ok true
  | .tensor =>
      match shape with
      | [] => .error .index
      | s0 :: rest => .ok (rest.all (· == s0))
  | .tensor2 =>
      let k := if bulk then 3 else 2
      .ok (shape.length == k && decide (shape[shape.length - 1]? = shape[shape.length - 2]?))
  | .tensor2x3 =>
      .ok ((if bulk then decide (3 ≤ shape.length) else shape.length == 2) &&
        decide (lastAxes 2 shape = [3, 3]))
  | .tensor4 =>
      match shape.getLast? with
      | none => .error .index
      | some d =>
          .ok (shape.length == (if bulk then 5 else 4) &&
            decide (lastAxes 4 shape = List.replicate 4 d))
  | .tensor4x3 =>
      .ok (decide (lastAxes 4 shape = [3, 3, 3, 3]) &&
        (if bulk then decide (5 ≤ shape.length) else shape.length == 4))

/-- The constructors of `Tensor2x3` and `Tensor4x3` find out if there is a stack: `linalg/tensor.py`
223-242, 290-309, with `k` tensorial axes. -/
def detect (k : ℕ) (shape : List ℕ) (bulk : Option Bool) : Py (Option Bool) :=
  if lastAxes k shape = List.replicate k 3 then
    if k + 1 ≤ shape.length then
      if bulk.getD true then .ok (some true) else .error .value
    else
      if bulk.getD false then .error .value else .ok bulk
  else .error .shapeMismatch

/-- What is known about a new tensor. -/
structure Info where
  shape : List ℕ
  frameDim : ℕ
  bulk : Option Bool
  /-- the property `rank` -/
  rank : ℕ
  deriving DecidableEq

/-- The flag after the constructors of `Tensor2x3` and `Tensor4x3` looked at the shape. -/
def bulkFor (cls : Cls) (shape : List ℕ) (bulk : Option Bool) : Py (Option Bool) :=
  match cls with
  | .tensor2x3 => detect 2 shape bulk
  | .tensor4x3 => detect 4 shape bulk
  | _ => .ok bulk

/-- The dimension of the frame, `linalg/meta.py` 316-326: without a frame, the length of the first
axis, or of the second one if `bulk` is set. -/
def dimFor (shape : List ℕ) (bulk : Option Bool) : Option ℕ → Py ℕ
  | some d => .ok d
  | none =>
      match shape[if bulk.getD false then 1 else 0]? with
      | some d => .ok d
      | none => .error .index

/-- The property `rank`: `linalg/meta.py` 371-385, `linalg/vector.py` 105-109. -/
def rankFor (cls : Cls) (shape : List ℕ) (bulk : Option Bool) (rank : Option ℕ) : ℕ :=
  if cls = .vector then 1
  else if rank.getD 0 ≠ 0 then rank.getD 0
  else
    match cls.rank with
    | some r => r
    | none => if bulk.getD false then shape.length - 1 else shape.length

/-- `Cls(arr, frame=frame, bulk=bulk, rank=rank)` with an array of components of the given shape and
a frame of the given dimension: `linalg/meta.py` 291-339, `linalg/tensor.py` 223-242, 290-309. -/
def construct (cls : Cls) (shape : List ℕ) (bulk : Option Bool) (rank : Option ℕ)
    (frame : Option ℕ) : Py Info :=
  (bulkFor cls shape bulk).bind fun b =>
    (verify cls shape (b.getD false)).bind fun v =>
      if v then
        (dimFor shape b frame).bind fun d =>
          if rank.isSome && cls.rank.isSome then .error .value
          else .ok ⟨shape, d, b, rankFor cls shape b rank⟩
      else .error .value

/-- `is_bulk()`: `linalg/meta.py` 478-487; the last branch has no `return`. -/
def Info.isBulk (i : Info) : Option Bool := if i.bulk = some true then some true else none

/-- `transform_components` of a general `Tensor`, `linalg/tensor.py` 93-109, at the level of shapes: the
subscripts of the components in the command for `einsum` are as many as the rank, and `einsum` refuses
another number of axes. -/
def Info.transformGeneral (i : Info) : Py Info :=
  if i.rank = i.shape.length then .ok i else .error .value

section
variable {n : ℕ} {K : Type} [Field K] [LinearOrder K]

/-! ### Stacks of second order tensors -/

/-- A `Tensor2` or `Tensor2x3` (then `n = 3`) holding a stack of matrices in a single frame. -/
structure TStack (n : ℕ) (K : Type) where
  cls : Cls
  members : List (Mat n K)
  axes : Mat n K

/-- `self.__class__(arr, frame=frame)`: the flag `bulk` is not handed over. -/
def rebuild (cls : Cls) (members : List (Mat n K)) (axes : Mat n K) : Py (TStack n K) := do
  let _ ← construct cls [members.length, n, n] none none (some n)
  return ⟨cls, members, axes⟩

/-- `_tr_tensors2_single`, `linalg/tr.py` 41-49. -/
def transformStack (sched : List ℕ) (Q : Mat n K) (As : List (Mat n K)) : List (Mat n K) :=
  sched.foldl (fun res i => res.set i (Q * As.getD i 0 * Q.transpose)) (List.replicate As.length 0)

/-- `t.show(target)`, `linalg/tensor.py` 111-135. -/
def TStack.show (sched : List ℕ) (t : TStack n K) (target : Option (Mat n K)) :
    Py (List (Mat n K)) := do
  let T := target.getD 1
  return transformStack sched ((← inv T).transpose * t.axes.transpose) t.members

/-- `t.dual()`, `linalg/tensor.py` 86-91. -/
def TStack.dual (sched : List ℕ) (t : TStack n K) : Py (TStack n K) := do
  rebuild t.cls (transformStack sched (t.axes * t.axes.transpose) t.members) (← inv t.axes).transpose

/-- `t.transpose()`, `linalg/meta.py` 439-467: the tensorial axes change places. -/
def TStack.transpose (t : TStack n K) : Py (TStack n K) :=
  rebuild t.cls (t.members.map Matrix.transpose) t.axes

/-- `t.transpose(inplace=True)` -/
def TStack.transposeInplace (t : TStack n K) : TStack n K :=
  { t with members := t.members.map Matrix.transpose }

/-- `t.orient(…)` with the rotation matrix `R`, `linalg/tensor.py` 137-154.  Rotations exist for `n = 3`
only. -/
def TStack.orient (sched : List ℕ) (t : TStack n K) (R : Mat n K) : TStack n K :=
  { t with members := transformStack sched R.transpose t.members }

/-- `t.orient_new(…)`, `linalg/tensor.py` 156-172. -/
def TStack.orientNew (sched : List ℕ) (t : TStack n K) (R : Mat n K) : Py (TStack n K) :=
  rebuild t.cls (transformStack sched R.transpose t.members) t.axes

/-- `t * s`, `linalg/abstract.py` 47-51. -/
def TStack.mul (t : TStack n K) (s : K) : Py (TStack n K) :=
  rebuild t.cls (t.members.map fun A => Matrix.of fun i j => A i j * s) t.axes

/-- `t *= s`, `linalg/abstract.py` 41-45. -/
def TStack.imul (t : TStack n K) (s : K) : TStack n K :=
  { t with members := t.members.map fun A => Matrix.of fun i j => A i j * s }

/-- `copy.copy(t)`, `linalg/meta.py` 341-361. -/
def TStack.copy (t : TStack n K) : Py (TStack n K) := rebuild t.cls t.members t.axes

end

end Verif.Stacks
