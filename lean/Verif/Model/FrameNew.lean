import Verif.Model.Utils
import Verif.Model.Frames

/-!
# Model of the construction of frames: `linalg/frame.py` 182-197, 221-232, 666-671, 757-767

What a user may pass for the axes and for the dimension, and which frame comes of it.  Arrays have any shape; an entry is a
number or NaN (`none`).  Not modelled: `normalize=True` (see `Model/RoundedNormal`), names, booleans and strings
passed as dimensions, further positional arguments, and memory (see `Model/FrameMem`).
-/

namespace Verif.FrameNew
open Verif Verif.Utils Verif.Frames

section
variable {K : Type} [Field K] [LinearOrder K]

/-- What is given for `axes`: nothing, a NumPy array, something else NumPy turns into an array of numbers (for instance a
list of lists), or something it refuses to turn into an array (for instance rows of different lengths). -/
inductive Given (K : Type)
  | nothing
  | array (a : NdArray (Option K))
  | nested (a : NdArray (Option K))
  | ragged

/-- What is given for `dim`: nothing, an integer, a NumPy integer (which is not an `int`), or a sequence of integers. -/
inductive Dim
  | nothing
  | int (n : ℤ)
  | npInt (n : ℤ)
  | seq (l : List ℤ)

/-- `np.eye(n)`; a negative number is refused. -/
def eye (n : ℤ) : Py (NdArray (Option K)) :=
  if n < 0 then .error .value
  else .ok ⟨[n.toNat, n.toNat], ((List.range n.toNat).map fun i =>
    (List.range n.toNat).map fun j => some (if i = j then 1 else 0)).flatten⟩

/-- `repeat(a, N)` for a two dimensional array, `utils.py` 283-326; `sched` is the order of the parallel loop. -/
def repeat2d (a : NdArray (Option K)) (N : ℤ) (sched : List ℕ) : Py (NdArray (Option K)) :=
  if N < 0 then .error .value
  else .ok ⟨N.toNat :: a.shape,
    (repeatBlock (a.data.map fun _ => some 0) a.data N.toNat sched).flatten⟩

/-- The first half of `ReferenceFrame.__init__`, `linalg/frame.py` 183-195. -/
def fromDim (sched : List ℕ) (axes : Given K) (dim : Dim) : Py (Given K) :=
  match axes with
  | .array a => .ok (.array a)
  | other =>
    match dim with
    | .seq [n] => do .ok (.array (← eye n))
    | .seq [m, n] => do .ok (.array (← repeat2d (← eye n) m sched))
    | .seq _ => .error .notImplemented
    | .int n => do .ok (.array (← eye n))
    | _ => .ok other

/-- The array of a frame, `linalg/meta.py` 124-134: `np.array(None)` is an array without axes that holds `None`, which is
NaN as a float. -/
def wrap (axes : Given K) : Py (NdArray (Option K)) :=
  match axes with
  | .array a => .ok a
  | .nested a => .ok a
  | .nothing => .ok ⟨[], [none]⟩
  | .ragged => .error .value

/-- The entries of a square matrix, if none is NaN. -/
def matrix (n : ℕ) (a : NdArray (Option K)) : Option (Mat n K) :=
  if a.data.all Option.isSome then
    some (Matrix.of fun i j => ((a.data[i.val * n + j.val]?).join).getD 0)
  else none

/-- `is_rectangular_frame`, `linalg/logical.py` 35-47: anything but a square matrix raises an AssertionError, and a comparison with
NaN fails. -/
def isRectangular (cfg : Cfg K) (a : NdArray (Option K)) : Py Bool :=
  match a.shape with
  | [r, c] =>
    if r = c then .ok (match matrix r a with | some M => isRectangularFrame cfg M | none => false)
    else .error .assertion
  | _ => .error .assertion

/-- `is_normal_frame`, `linalg/logical.py` 50-60; it is called for square matrices only, others fail in `isRectangular`. -/
def isNormal (cfg : Cfg K) (a : NdArray (Option K)) : Bool :=
  match a.shape with
  | [r, _] => match matrix r a with | some M => isNormalFrame cfg M | none => false
  | _ => false

/-- The keyword arguments `assume_rectangular` and `assume_cartesian`, if they are given. -/
structure Assume where
  rectangular : Option Bool := none
  cartesian : Option Bool := none

/-- `RectangularFrame.__init__` after the general part, `linalg/frame.py` 668-671. -/
def checkRectangular (cfg : Cfg K) (assume : Bool) (a : NdArray (Option K)) : Py (NdArray (Option K)) := do
  if assume then .ok a
  else if ← isRectangular cfg a then .ok a
  else .error .assertion

/-- The constructors of the three classes, `linalg/frame.py` 182-197, 666-671, 757-767.  A keyword argument a class does not know, and
`assume_rectangular` for Cartesian frames (which is passed on twice), raises a TypeError. -/
def new (cfg : Cfg K) (sched : List ℕ) (cls : FrameCls) (axes : Given K) (dim : Dim) (kw : Assume) :
    Py (NdArray (Option K)) :=
  match cls with
  | .reference =>
    if kw.rectangular.isSome || kw.cartesian.isSome then .error .type
    else do wrap (← fromDim sched axes dim)
  | .rectangular =>
    if kw.cartesian.isSome then .error .type
    else do checkRectangular cfg (kw.rectangular.getD false) (← wrap (← fromDim sched axes dim))
  | .cartesian =>
    if kw.rectangular.isSome then .error .type
    else do
      let assume := kw.cartesian.getD false
      let a ← checkRectangular cfg assume (← wrap (← fromDim sched axes dim))
      if assume || isNormal cfg a then .ok a else .error .assertion

/-- What may be passed to `eye` by position: an integer or something else (for instance a NumPy integer or a tuple). -/
inductive Arg
  | int (n : ℤ)
  | other

/-- `cls.eye(*args, dim=n, ...)`, `linalg/frame.py` 221-232: `dim` is an integer here.  The positional arguments are passed on to the
constructor after the axes, where they are ignored (`linalg/meta.py` 125-126). -/
def eyeFrame (cfg : Cfg K) (cls : FrameCls) (args : List Arg) (dim : Option ℤ) (kw : Assume) :
    Py (NdArray (Option K)) := do
  let dim := match args with
    | .int n :: _ => n
    | _ => dim.getD 3
  new cfg [] cls (.array (← eye dim)) .nothing kw

end

end Verif.FrameNew
