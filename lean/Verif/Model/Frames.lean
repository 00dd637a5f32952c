import Verif.Prelude
import Mathlib.LinearAlgebra.Matrix.Adjugate
import Mathlib.LinearAlgebra.Matrix.Trace
import Mathlib.LinearAlgebra.CrossProduct
import Mathlib.Algebra.Order.Ring.Abs
import Mathlib.Algebra.Order.Field.Basic
import Mathlib.Logic.Function.Basic

/-!
# Model of `linalg/frame.py`, `linalg/meta.py`, `linalg/vector.py`, `linalg/tensor.py`,
`linalg/abstract.py` and the frame part of `linalg/utils.py` and `linalg/logical.py`

Frames hold one matrix (row `i` is base vector `i`), tensors one set of components; stacks of frames
(three dimensional `axes`) and stacks of vectors are not modelled here.  Arithmetic is exact.
All objects have the same dimension `n`.

Not modelled here: names; memory sharing and memory layout (the `axes` setter keeps the array it is
given and ignores its layout, arrays are given in C order here; see `Model/FrameMem`).
-/

namespace Verif.Frames

/-- A square matrix. -/
abbrev Mat (n : ℕ) (K : Type) := Matrix (Fin n) (Fin n) K

/-- The tolerances of `numpy.isclose` and the square root used by `numpy.linalg.norm`. -/
structure Cfg (K : Type) where
  atol : K
  rtol : K
  rt : K → K

section
variable {n : ℕ} {K : Type} [Field K] [LinearOrder K]

/-- `numpy.isclose(a, b)` -/
def Cfg.isclose (cfg : Cfg K) (a b : K) : Bool := decide (|a - b| ≤ cfg.atol + cfg.rtol * |b|)

/-- `numpy.linalg.inv`: raises for singular matrices. -/
def inv (A : Mat n K) : Py (Mat n K) :=
  if A.det = 0 then .error .linalg else .ok (A.det⁻¹ • A.adjugate)

/-- `Gram(axes)`, `linalg/utils.py` 580-589. -/
def gram (axes : Mat n K) : Mat n K := axes * axes.transpose

/-- `dual_frame(axes)`, `linalg/utils.py` 592-601. -/
def dualFrame (axes : Mat n K) : Py (Mat n K) := (inv axes).map Matrix.transpose

/-- `is_rectangular_frame(axes)`, `linalg/logical.py` 35-47. -/
def isRectangularFrame (cfg : Cfg K) (axes : Mat n K) : Bool :=
  let agram := (axes * axes.transpose).map (fun x => |x|)
  cfg.isclose (∑ i, agram i i) (∑ i, ∑ j, agram i j)

/-- `is_normal_frame(axes)`, `linalg/logical.py` 50-60. -/
def isNormalFrame (cfg : Cfg K) (axes : Mat n K) : Bool :=
  (List.finRange n).all fun i => cfg.isclose (cfg.rt (∑ j, axes i j ^ 2)) 1

/-- `is_orthonormal_frame(axes)`, `linalg/logical.py` 63-72. -/
def isOrthonormalFrame (cfg : Cfg K) (axes : Mat n K) : Bool :=
  isRectangularFrame cfg axes && isNormalFrame cfg axes

/-- The three classes of `linalg/frame.py`. -/
inductive FrameCls
  | reference | rectangular | cartesian
  deriving DecidableEq

/-- A frame object without its registry. -/
structure Frame (n : ℕ) (K : Type) where
  cls : FrameCls
  axes : Mat n K

/-- The constructors: `ReferenceFrame.__init__` (`linalg/frame.py` 182-197) checks nothing,
`RectangularFrame.__init__` (666-671) asserts that the axes are rectangular,
`CartesianFrame.__init__` (757-767) furthermore that they are normal. -/
def mkFrame (cfg : Cfg K) (cls : FrameCls) (axes : Mat n K) : Py (Frame n K) :=
  match cls with
  | .reference => .ok ⟨.reference, axes⟩
  | .rectangular =>
      if isRectangularFrame cfg axes then .ok ⟨.rectangular, axes⟩ else .error .assertion
  | .cartesian =>
      if isRectangularFrame cfg axes then
        if isNormalFrame cfg axes then .ok ⟨.cartesian, axes⟩ else .error .assertion
      else .error .assertion

/-- `frame.dual()`: `linalg/frame.py` 255-259, and 796-800 for Cartesian frames. -/
def Frame.dual (cfg : Cfg K) (f : Frame n K) : Py (Frame n K) :=
  match f.cls with
  | .cartesian => .ok f
  | c => do mkFrame cfg c (← dualFrame f.axes)

/-- `frame.Gram()`: `linalg/frame.py` 234-238 (`self.show()` without target is `self.axes`, 322 and
379), and 783-787 for Cartesian frames. -/
def Frame.Gram (f : Frame n K) : Mat n K :=
  match f.cls with
  | .cartesian => 1
  | _ => gram f.axes

/-- `frame.volume()`: `linalg/frame.py` 248-253, and 789-794 for Cartesian frames. -/
def Frame.volume (cfg : Cfg K) (f : Frame n K) : K :=
  match f.cls with
  | .cartesian => 1
  | _ => cfg.rt (f.Gram.det)

/-- `frame.is_rectangular`: `linalg/frame.py` 199-204, 673-678, 769-774. -/
def Frame.isRectangular (cfg : Cfg K) (f : Frame n K) : Bool :=
  match f.cls with
  | .reference => isRectangularFrame cfg f.axes
  | _ => true

/-- `frame.is_cartesian`: `linalg/frame.py` 206-211, 776-781. -/
def Frame.isCartesian (cfg : Cfg K) (f : Frame n K) : Bool :=
  match f.cls with
  | .cartesian => true
  | _ => isOrthonormalFrame cfg f.axes

/-- `frame.is_independent`: `linalg/frame.py` 213-219, 680-686. -/
def Frame.isIndependent (f : Frame n K) : Bool :=
  match f.cls with
  | .reference => decide (f.Gram.det > 0)
  | _ => true

/-- `self.dcm(source=S)`: `linalg/frame.py` 362-364. -/
def Frame.dcmSource (cfg : Cfg K) (self S : Frame n K) : Py (Mat n K) := do
  let T := (← self.dual cfg).axes
  return T * S.axes.transpose

/-- `self.dcm(target=T)`: `linalg/frame.py` 365-370. -/
def Frame.dcmTarget (cfg : Cfg K) (self T : Frame n K) : Py (Mat n K) := do
  let Td := (← T.dual cfg).axes
  return Td * self.axes.transpose

/-- The frame that `show` uses if no target is given: `ReferenceFrame(dim=n)`,
`linalg/vector.py` 141-142, `linalg/tensor.py` 132-133. -/
def ambientFrame : Frame n K := ⟨.reference, 1⟩

/-- `frame.show(target)`: `linalg/frame.py` 313-322. -/
def Frame.showFrame (cfg : Cfg K) (self : Frame n K) (target : Option (Frame n K)) :
    Py (Mat n K) :=
  match target with
  | none => .ok self.axes
  | some T => self.dcmSource cfg T

/-! ### Components -/

/-- The components of a `Vector`, of a `Tensor2` and of a `Tensor` of rank `r`. -/
inductive Comps (n : ℕ) (K : Type)
  | vec (v : Fin n → K)
  | ten2 (A : Mat n K)
  | gen (r : ℕ) (a : (Fin r → Fin n) → K)

/-- The components transformed by `Q`: `_show_vector` (`linalg/utils.py` 404-421),
`_tr_tensors2` for a single matrix (`linalg/tr.py` 15-16), `Tensor.transform_components`
(`linalg/tensor.py` 93-109), whose `einsum` command is `at,bu,…,tu…`: one factor per index. -/
def Comps.transform (Q : Mat n K) : Comps n K → Comps n K
  | .vec v => .vec (Q.mulVec v)
  | .ten2 A => .ten2 (Q * A * Q.transpose)
  | .gen r a => .gen r fun t => ∑ s : Fin r → Fin n, (∏ k, Q (t k) (s k)) * a s

/-- `self.show(target)` of a vector or tensor with the frame `S`: `linalg/vector.py` 140-144,
`linalg/tensor.py` 131-135. -/
def showIn (cfg : Cfg K) (S : Frame n K) (c : Comps n K) (target : Option (Frame n K)) :
    Py (Comps n K) := do
  let T := target.getD ambientFrame
  return c.transform (← S.dcmTarget cfg T)

/-- `t.dual()`: the components and the frame; `linalg/vector.py` 111-118, `linalg/tensor.py`
86-91. -/
def dualOf (cfg : Cfg K) (S : Frame n K) (c : Comps n K) : Py (Comps n K × Frame n K) := do
  return (c.transform S.Gram, ← S.dual cfg)

/-- `frame.metric_tensor()`: a second order tensor in the frame, `linalg/frame.py` 240-246. -/
def Frame.metricTensor (f : Frame n K) : Comps n K × Frame n K := (.ten2 f.Gram, f)

/-- `t.transpose()`: the components, in the same axes; `linalg/meta.py` 439-467. -/
def Comps.transpose : Comps n K → Comps n K
  | .vec v => .vec v
  | .ten2 A => .ten2 A.transpose
  | .gen r a => .gen r fun t => a fun k => t k.rev

/-! ### The object graph -/

/-- A frame with the identifiers of the tensors in `_weakrefs`. -/
structure FrameObj (n : ℕ) (K : Type) where
  frame : Frame n K
  reg : List ℕ

/-- A vector or tensor: its components and the identifier of its frame. -/
structure TensorObj (n : ℕ) (K : Type) where
  comps : Comps n K
  frame : ℕ

/-- All frames and tensors; the identifiers are the numbers below `nF`, `nT`. -/
structure Heap (n : ℕ) (K : Type) where
  nF : ℕ
  frames : ℕ → FrameObj n K
  nT : ℕ
  tensors : ℕ → TensorObj n K

/-- A statement has an effect even if it raises. -/
abbrev Res (n : ℕ) (K : Type) := Heap n K × Option PyErr

/-- A new frame object, with an empty registry (`linalg/meta.py` 230-232). -/
def Heap.addFrame (h : Heap n K) (f : Frame n K) : Heap n K :=
  { h with nF := h.nF + 1, frames := Function.update h.frames h.nF ⟨f, []⟩ }

/-- `cls(axes)` -/
def Heap.newFrame (cfg : Cfg K) (cls : FrameCls) (axes : Mat n K) (h : Heap n K) : Res n K :=
  match mkFrame cfg cls axes with
  | .ok f => (h.addFrame f, none)
  | .error e => (h, some e)

/-- `cls(array, frame=f)`: `linalg/meta.py` 291-339; the tensor is registered (329). -/
def Heap.newTensor (c : Comps n K) (f : ℕ) (h : Heap n K) : Res n K :=
  if f < h.nF then
    ({ h with
        nT := h.nT + 1
        tensors := Function.update h.tensors h.nT ⟨c, f⟩
        frames := Function.update h.frames f
          { h.frames f with reg := (h.frames f).reg ++ [h.nT] } }, none)
  else (h, some .type)

/-- `t.frame = f`: `linalg/meta.py` 410-430. -/
def Heap.setFrame (cfg : Cfg K) (t f : ℕ) (h : Heap n K) : Res n K :=
  if t < h.nT ∧ f < h.nF then
    let o := h.tensors t
    match showIn cfg (h.frames o.frame).frame o.comps (some (h.frames f).frame) with   -- 426
    | .error e => (h, some e)
    | .ok c =>
        let frames := Function.update h.frames o.frame
          { h.frames o.frame with reg := (h.frames o.frame).reg.filter (· ≠ t) }       -- 427
        let tensors := Function.update h.tensors t ⟨c, f⟩                              -- 428-429
        let frames := Function.update frames f { frames f with reg := (frames f).reg ++ [t] }  -- 430
        ({ h with frames := frames, tensors := tensors }, none)
  else (h, some .type)

/-- `t.frame = array`: a new `ReferenceFrame`, `linalg/meta.py` 421-422. -/
def Heap.setFrameArray (cfg : Cfg K) (t : ℕ) (axes : Mat n K) (h : Heap n K) : Res n K :=
  Heap.setFrame cfg t h.nF (h.addFrame ⟨.reference, axes⟩)

/-- `f.axes = value`: `linalg/frame.py` 290-311. -/
def Heap.setAxes (cfg : Cfg K) (f : ℕ) (value : Mat n K) (h : Heap n K) : Res n K :=
  if f < h.nF then
    let o := h.frames f
    if o.reg = [] then
      ({ h with frames := Function.update h.frames f ⟨⟨o.frame.cls, value⟩, o.reg⟩ }, none)
    else
      match o.frame.dcmTarget cfg ⟨.reference, value⟩ with
      | .error e => (h, some e)
      | .ok dcm =>
          let tensors := o.reg.foldl (fun ts v =>
            Function.update ts v ⟨(ts v).comps.transform dcm, (ts v).frame⟩) h.tensors
          ({ h with
              tensors := tensors
              frames := Function.update h.frames f ⟨⟨o.frame.cls, value⟩, o.reg⟩ }, none)
  else (h, some .type)

/-- The right hand side of an in place operator: a number for `*=` and `/=`, or anything else (an
array, another operator), given by its effect on the axes. -/
inductive Operand (n : ℕ) (K : Type)
  | mulNumber (c : K)
  | divNumber (c : K)
  | other (op : Mat n K → Mat n K)

/-- The effect on the axes. -/
def Operand.apply (o : Operand n K) (axes : Mat n K) : Mat n K :=
  match o with
  | .mulNumber c => Matrix.of fun i j => axes i j * c
  | .divNumber c => Matrix.of fun i j => axes i j / c
  | .other op => op axes

/-- The class of the result if it is another object: `linalg/frame.py` 530-546, 692-714, 802-820. -/
def Operand.rtype (o : Operand n K) (cls : FrameCls) : Option FrameCls :=
  match cls, o with
  | .reference, _ => none
  | .rectangular, .mulNumber _ => none
  | .rectangular, .divNumber _ => none
  | .rectangular, .other _ => some .reference
  | .cartesian, .mulNumber _ => some .rectangular
  | .cartesian, .divNumber _ => some .rectangular
  | .cartesian, .other _ => some .reference

/-- `for t in tensors: t.frame = result`, `linalg/frame.py` 44-45; an exception ends it. -/
def Heap.moveAll (cfg : Cfg K) (f : ℕ) : List ℕ → Heap n K → Res n K
  | [], h => (h, none)
  | t :: ts, h =>
      match Heap.setFrame cfg t f h with
      | (h', none) => Heap.moveAll cfg f ts h'
      | (h', some e) => (h', some e)

/-- `inplace_binary`, `linalg/frame.py` 29-50. -/
def Heap.inplace (cfg : Cfg K) (f : ℕ) (o : Operand n K) (h : Heap n K) : Res n K :=
  if f < h.nF then
    let axes := (h.frames f).frame.axes
    let new := o.apply axes
    match o.rtype (h.frames f).frame.cls with
    | none => Heap.setAxes cfg f new h
    | some rtype =>
        match mkFrame cfg rtype axes with
        | .error e => (h, some e)
        | .ok g =>
            match Heap.moveAll cfg h.nF (h.frames f).reg (h.addFrame g) with
            | (h', some e) => (h', some e)
            | (h', none) => Heap.setAxes cfg h.nF new h'
  else (h, some .type)

/-- `f.orient(…)` with the rotation matrix `R`: `linalg/frame.py` 431-433 and `_show_frame`
(`linalg/utils.py` 472-492): `res[i, :] = R.T @ axes[i, :]`. -/
def Heap.orient (cfg : Cfg K) (f : ℕ) (R : Mat n K) (h : Heap n K) : Res n K :=
  Heap.setAxes cfg f (Matrix.of fun i => R.transpose.mulVec ((h.frames f).frame.axes i)) h

/-- `f.transpose(inplace=True)`: `linalg/frame.py` 397-399.  The transposed array is a view of the
same memory in Fortran order, which the setter (303) reads in C order, that is, as the matrix before
the transposition; `Model/FrameMem` derives this from a model of the memory. -/
def Heap.transposeFrame (cfg : Cfg K) (f : ℕ) (h : Heap n K) : Res n K :=
  Heap.setAxes cfg f (h.frames f).frame.axes h

/-- `f[key] = x`: `linalg/meta.py` 178-179 writes into the array, `value` is its content afterwards.
Nothing is done to the tensors attached to the frame. -/
def Heap.setItem (f : ℕ) (value : Mat n K) (h : Heap n K) : Res n K :=
  if f < h.nF then
    let o := h.frames f
    ({ h with frames := Function.update h.frames f ⟨⟨o.frame.cls, value⟩, o.reg⟩ }, none)
  else (h, some .type)

/-- `np.ufunc(…, out=f)`: `linalg/frame.py` 552-607; only general frames can be outputs. -/
def Heap.ufuncOut (cfg : Cfg K) (f : ℕ) (value : Mat n K) (h : Heap n K) : Res n K :=
  match (h.frames f).frame.cls with
  | .reference => Heap.setAxes cfg f value h
  | _ => (h, some .notImplemented)

/-- `f.copy()`, `f.deepcopy()`: `linalg/frame.py` 609-623. -/
def Heap.copyFrame (cfg : Cfg K) (f : ℕ) (h : Heap n K) : Res n K :=
  if f < h.nF then Heap.newFrame cfg (h.frames f).frame.cls (h.frames f).frame.axes h
  else (h, some .type)

/-- `f.orient_new(…)`: `linalg/frame.py` 465-470. -/
def Heap.orientNew (cfg : Cfg K) (f : ℕ) (R : Mat n K) (h : Heap n K) : Res n K :=
  match Heap.copyFrame cfg f h with
  | (h', none) => Heap.orient cfg h.nF R h'
  | (h', some e) => (h', some e)

/-- `copy.copy(t)`: `linalg/meta.py` 344-361 without `memo`. -/
def Heap.copyTensor (t : ℕ) (h : Heap n K) : Res n K :=
  if t < h.nT then Heap.newTensor (h.tensors t).comps (h.tensors t).frame h
  else (h, some .type)

/-- `copy.deepcopy(t)`: `linalg/meta.py` 341-361; the frame is a new `ReferenceFrame`. -/
def Heap.deepcopyTensor (t : ℕ) (h : Heap n K) : Res n K :=
  if t < h.nT then
    Heap.newTensor (h.tensors t).comps h.nF
      (h.addFrame ⟨.reference, (h.frames (h.tensors t).frame).frame.axes⟩)
  else (h, some .type)

/-- `t.copy()`, `t.deepcopy()`: `linalg/vector.py` 201-215, `linalg/tensor.py` 174-188.  No frame is
handed over, so the constructor makes one with the unit axes (`linalg/meta.py` 313-318). -/
def Heap.methodCopy (t : ℕ) (h : Heap n K) : Res n K :=
  if t < h.nT then Heap.newTensor (h.tensors t).comps h.nF (h.addFrame ambientFrame)
  else (h, some .type)

/-- The operations on the object graph. -/
inductive Op (n : ℕ) (K : Type)
  | newFrame (cls : FrameCls) (axes : Mat n K)
  | newTensor (c : Comps n K) (f : ℕ)
  | setFrame (t f : ℕ)
  | setFrameArray (t : ℕ) (axes : Mat n K)
  | setAxes (f : ℕ) (value : Mat n K)
  | inplace (f : ℕ) (o : Operand n K)
  | orient (f : ℕ) (R : Mat n K)
  | orientNew (f : ℕ) (R : Mat n K)
  | transposeFrame (f : ℕ)
  | setItem (f : ℕ) (value : Mat n K)
  | ufuncOut (f : ℕ) (value : Mat n K)
  | copyFrame (f : ℕ)
  | copyTensor (t : ℕ)
  | deepcopyTensor (t : ℕ)
  | methodCopy (t : ℕ)

/-- One operation. -/
def Op.run (cfg : Cfg K) (op : Op n K) (h : Heap n K) : Res n K :=
  match op with
  | .newFrame cls axes => h.newFrame cfg cls axes
  | .newTensor c f => h.newTensor c f
  | .setFrame t f => h.setFrame cfg t f
  | .setFrameArray t axes => h.setFrameArray cfg t axes
  | .setAxes f value => h.setAxes cfg f value
  | .inplace f o => h.inplace cfg f o
  | .orient f R => h.orient cfg f R
  | .orientNew f R => h.orientNew cfg f R
  | .transposeFrame f => h.transposeFrame cfg f
  | .setItem f value => h.setItem f value
  | .ufuncOut f value => h.ufuncOut cfg f value
  | .copyFrame f => h.copyFrame cfg f
  | .copyTensor t => h.copyTensor t
  | .deepcopyTensor t => h.deepcopyTensor t
  | .methodCopy t => h.methodCopy t

/-- Operations one after the other; exceptions are caught. -/
def runOps (cfg : Cfg K) (ops : List (Op n K)) (h : Heap n K) : Heap n K :=
  ops.foldl (fun h op => (op.run cfg h).1) h

end

end Verif.Frames
