import Verif.Model.TensorOps

/-!
# Model of the arithmetic of frames and of `chop` and `minmax`

`linalg/frame.py` 53-66, 548-607, 688-702 and `linalg/meta.py` 143-168: operators that make a new
frame (`A * 2`, `2 * A`, `A / 2`, `A + B`, `-A`), and the two methods of `ArrayWrapper` that look at
single entries.

Simplified: arrays have the shape of the frame or are numbers (no other broadcasting), the exception
for an operand of a foreign type is always a `TypeError`, and a quotient by zero, which has the
entries `inf` or `nan`, is only marked as such.
-/

namespace Verif.FA

open Verif.Frames

section
variable {n : ℕ} {K : Type} [Field K] [LinearOrder K]

/-- The other operand: a Python `int` or `float` (which includes `numpy.float64`), another number
(`numpy.int64`, `numpy.float32`, …), an array or a nested list, a frame, or anything else (a vector,
a tensor, a string). -/
inductive Rhs (n : ℕ) (K : Type)
  | pyNum (c : K)
  | npNum (c : K)
  | arr (A : Mat n K)
  | frame (f : Frame n K)
  | foreign

/-- The operators. -/
inductive BinOp
  | mul | div | add | sub
  deriving DecidableEq

/-- The operand after broadcasting; `none` for the types that are refused,
`linalg/frame.py` 560-564 (`_HANDLED_TYPES_`: `linalg/meta.py` 122). -/
def Rhs.entries : Rhs n K → Option (Mat n K)
  | .pyNum c => some (Matrix.of fun _ _ => c)
  | .npNum c => some (Matrix.of fun _ _ => c)
  | .arr A => some A
  | .frame f => some f.axes
  | .foreign => none

/-- `np.multiply`, `np.divide`, `np.add`, `np.subtract`; `none` if a divisor is zero. -/
def BinOp.apply (op : BinOp) (A B : Mat n K) : Option (Mat n K) :=
  match op with
  | .mul => some (Matrix.of fun i j => A i j * B i j)
  | .add => some (Matrix.of fun i j => A i j + B i j)
  | .sub => some (Matrix.of fun i j => A i j - B i j)
  | .div =>
      if (List.finRange n).all fun i => (List.finRange n).all fun j => decide (B i j ≠ 0) then
        some (Matrix.of fun i j => A i j / B i j)
      else none

/-- The class of the result: `linalg/frame.py` 688-690 and 696-698 for the rectangular classes (a
`CartesianFrame` inherits them), 552-557 and 606 for everything else. -/
def BinOp.rtype (op : BinOp) (cls : FrameCls) (r : Rhs n K) : FrameCls :=
  match op, cls, r with
  | .mul, .rectangular, .pyNum _ => .rectangular
  | .mul, .cartesian, .pyNum _ => .rectangular
  | .div, .rectangular, .pyNum _ => .rectangular
  | .div, .cartesian, .pyNum _ => .rectangular
  | _, _, _ => .reference

/-- `f op r`: `out_of_place_binary` (`linalg/frame.py` 53-66) or `__array_ufunc__` (552-607). -/
def binary (cfg : Cfg K) (op : BinOp) (f : Frame n K) (r : Rhs n K) : Py (Option (Frame n K)) :=
  match r.entries with
  | none => .error .type
  | some B =>
      match op.apply f.axes B with
      | none => .ok none
      | some C => (mkFrame cfg (op.rtype f.cls r) C).map some

/-- `r op f` where `r` is not a frame: no class defines reflected operators, so that the universal
function is called; `linalg/frame.py` 552-607. -/
def reflected (op : BinOp) (r : Rhs n K) (f : Frame n K) : Py (Option (Frame n K)) :=
  match r.entries with
  | none => .error .type
  | some B =>
      match op.apply B f.axes with
      | none => .ok none
      | some C => .ok (some ⟨.reference, C⟩)

/-- The statement `B = A op r` for the frame `A` with the identifier `f`; `none` if a divisor is
zero. -/
def arith (cfg : Cfg K) (f : ℕ) (op : BinOp) (r : Rhs n K) (h : Heap n K) : Option (Res n K) :=
  match binary cfg op (h.frames f).frame r with
  | .error e => some (h, some e)
  | .ok none => none
  | .ok (some g) => some (h.addFrame g, none)

/-- `a[np.where(np.abs(a) < tol)] = 0.0` for one entry, `linalg/meta.py` 167. -/
def chopEntry (tol x : K) : K := if |x| < tol then 0 else x

/-- `t.chop(tol)` of a vector or tensor: `linalg/meta.py` 150-168. -/
def chopTensor (t : ℕ) (tol : K) (h : Heap n K) : Res n K :=
  if t < h.nT then
    let o := h.tensors t
    ({ h with tensors := Function.update h.tensors t ⟨o.comps.map (chopEntry tol), o.frame⟩ }, none)
  else (h, some .type)

/-- `f.chop(tol)` of a frame: the same method, which writes into the array of the frame without the
setter of `axes`. -/
def chopFrame (f : ℕ) (tol : K) (h : Heap n K) : Res n K :=
  h.setItem f ((h.frames f).frame.axes.map (chopEntry tol))

/-- `minmax` of the entries of an array, `utils.py` 31-35: NumPy raises a `ValueError` if there are
none. -/
def minmax : List K → Py (K × K)
  | [] => .error .value
  | x :: xs => .ok (xs.foldl min x, xs.foldl max x)

end

end Verif.FA
