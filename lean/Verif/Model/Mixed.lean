import Verif.Model.TensorOps
import Verif.Model.Close

/-!
# Model of what happens where a tensor meets something else

`linalg/abstract.py` 38-190 (operators, NumPy functions and universal functions of tensors),
`linalg/frame.py` 29-66, 530-607, 688-715, 802-820 (those of frames), `linalg/utils.py` 205-243 (`dot`),
311-346 (`cross`), together with the rules by which Python and NumPy choose whose code is run:

* `x op y` asks `x` first if its class has the operator, and `y` (reflected) if it has not; arrays,
  numbers, lists and other objects on the left end in a universal function of NumPy if a tensor is
  on the right;
* a NumPy function, universal or not, runs the code of the first argument whose class has code of
  its own, here frames and tensors.

Two arguments, both positional; keyword arguments are in `Model/FrameUfunc`.  If there is no tensor
among the arguments the answer is `plain`, see `Model/FrameUfunc` for frames.  What NumPy computes
from arrays is a parameter.
-/

namespace Verif.Mixed
open Verif Verif.Frames Verif.Close

section
variable {n : ℕ} {K R : Type} [Field K] [LinearOrder K]

/-- An argument. -/
inductive Val (n : ℕ) (K : Type)
  | tensor (t : Tensor n K)
  | frame (f : Frame n K)
  | number (x : K)
  | array (a : Arr n K)
  /-- a list NumPy turns into an array -/
  | list (a : Arr n K)
  /-- `None`, a tuple, an object without operators of its own, … -/
  | other

/-- Functions which tensors have code for (`linalg/abstract.py` 161-190), and all others. -/
inductive Fn
  | dot | cross | allclose | isclose
  | other (name : ℕ)
deriving DecidableEq

/-- Binary operators of Python. -/
inductive Oper
  | add | sub | mul | truediv | matmul | pow
  /-- `//`, `%`, `&`, …, and the comparisons `==`, `<`, … -/
  | other (name : ℕ)
deriving DecidableEq

/-- Where a user can put two objects together. -/
inductive Entry
  /-- `dot(x, y)` of the package -/
  | dot
  /-- `cross(x, y)` of the package -/
  | cross
  /-- `np.f(x, y)`, not a universal function -/
  | numpy (f : Fn)
  /-- `np.f(x, y)`, a universal function -/
  | ufunc (name : ℕ)
  /-- `x op y` -/
  | oper (o : Oper)
  /-- `x op= y` -/
  | inplace (o : Oper)

/-- What comes out. -/
inductive Res (n : ℕ) (K R : Type)
  | tensor (t : Tensor n K)
  | scalar (x : K)
  | truth (b : Bool)
  | truths (b : BoolArr n)
  /-- what NumPy computed from bare arrays -/
  | raw (r : R)
  /-- division by zero: components which are not finite -/
  | notFinite
  /-- no tensor among the arguments: not looked at -/
  | plain

/-- `x._array` of frames and tensors, everything else as it is. -/
def Val.bare : Val n K → Option (Arr n K)
  | .tensor t => some (.ofComps t.comps)
  | .frame f => some ⟨2, fun t => f.axes (t 0) (t 1)⟩
  | .number x => some ⟨0, fun _ => x⟩
  | .array a => some a
  | .list a => some a
  | .other => none

/-- `isinstance(x, TensorLike)` -/
def Val.isTensor : Val n K → Bool
  | .tensor _ => true
  | _ => false

/-- `isinstance(x, (numbers.Number, TensorLike))`, `linalg/abstract.py` 130-131 -/
def Val.handled : Val n K → Bool
  | .tensor _ => true
  | .number _ => true
  | _ => false

/-- What NumPy computes from arrays which are neither frames nor tensors, and the cross product of
tensors (`Frames.cross` in three dimensions). -/
structure Env (n : ℕ) (K R : Type) where
  np : Fn → Arr n K → Arr n K → Py R
  cross : Tensor n K → Tensor n K → Py (Tensor n K)
  rtol : K
  atol : K

/-- NumPy itself; objects which are not arrays are refused. -/
def Env.call (env : Env n K R) (f : Fn) (x y : Val n K) : Py (Res n K R) :=
  match x.bare, y.bare with
  | some a, some b => do return .raw (← env.np f a b)
  | _, _ => .error .type

/-- `dot(x, y)`, `linalg/utils.py` 205-243. -/
def pkgDot (cfg : Cfg K) (env : Env n K R) (x y : Val n K) : Py (Res n K R) :=
  match x, y with
  | .tensor a, .tensor b => do
      match ← dot cfg a b none none with
      | .scalar s => return .scalar s
      | .tensor t => return .tensor t
  | .number _, _ => .error .type
  | _, .number _ => .error .type
  | .other, _ => .error .type
  | _, .other => .error .type
  | x, y => env.call .dot x y

/-- `cross(x, y)`, `linalg/utils.py` 311-346. -/
def pkgCross (env : Env n K R) (x y : Val n K) : Py (Res n K R) :=
  match x, y with
  | .tensor a, .tensor b => do return .tensor (← env.cross a b)
  | x, y => if x.isTensor || y.isTensor then .error .type else .ok .plain

/-- The argument of `np.allclose` and `np.isclose` in `Model/Close`. -/
def Val.toClose : Val n K → Close.Arg n K
  | .tensor t => .tensor t
  | .number x => .number x
  | _ => .array

/-- `AbstractTensor.__array_function__`, `linalg/abstract.py` 129-136, and what it calls. -/
def tensorFunction (cfg : Cfg K) (env : Env n K R) (f : Fn) (x y : Val n K) : Py (Res n K R) :=
  if x.handled && y.handled then
    match f with
    | .dot => pkgDot cfg env x y
    | .cross => pkgCross env x y
    | .allclose => do return .truth (← Close.allclose cfg env.rtol env.atol x.toClose y.toClose)
    | .isclose => do return .truths (← Close.isclose cfg env.rtol env.atol x.toClose y.toClose)
    | .other _ => .error .generic
  else .error .type

/-- `np.f(x, y)`: the first frame or tensor decides.  A frame unwraps all arguments
(`linalg/frame.py` 548-550). -/
def npFunction (cfg : Cfg K) (env : Env n K R) (f : Fn) (x y : Val n K) : Py (Res n K R) :=
  match x, y with
  | .tensor a, y => tensorFunction cfg env f (.tensor a) y
  | .frame F, .tensor b => env.call f (.frame F) (.tensor b)
  | x, .tensor b => tensorFunction cfg env f x (.tensor b)
  | _, _ => .ok .plain

/-- `np.f(x, y)` for a universal function of two arguments: tensors refuse
(`linalg/abstract.py` 138-145; `np.negative` has one argument), frames refuse tensors
(`linalg/frame.py` 560-564). -/
def npUfunc (x y : Val n K) : Py (Res n K R) :=
  match x, y with
  | .tensor _, _ => .error .generic
  | .frame _, .tensor _ => .error .type
  | _, .tensor _ => .error .generic
  | _, _ => .ok .plain

/-- The right operand for `Model/TensorOps`. -/
def Val.operand : Val n K → Operand2 n K
  | .tensor t => .tensor t
  | .number x => .number x
  | _ => .other

/-- A quotient. -/
def quotient (x : Py (Option (Tensor n K))) : Py (Res n K R) := do
  match ← x with
  | none => return .notFinite
  | some t => return .tensor t

/-- `frame op tensor`: the general frame has the operators of `NDArrayOperatorsMixin`, which call a
universal function with the frame in front; rectangular and Cartesian frames have their own `*` and
`/` (`linalg/frame.py` 53-66, 688-698), which call it with a copy of their axes. -/
def frameOper (f : Frame n K) (o : Oper) : PyErr :=
  match f.cls, o with
  | .reference, _ => .type
  | _, .mul => .generic
  | _, .truediv => .generic
  | _, _ => .type

/-- `x op y`. -/
def oper (cfg : Cfg K) (o : Oper) (x y : Val n K) : Py (Res n K R) :=
  match x, y with
  | .tensor a, y =>
    match o with
    | .add => do return .tensor (← binary cfg (· + ·) a y.operand)
    | .sub => do return .tensor (← binary cfg (· - ·) a y.operand)
    | .mul => do return .tensor (← mul a y.operand)
    | .truediv => quotient (truediv a y.operand)
    | .matmul => .error .generic
    | .pow => .error .notImplemented
    | .other _ => .error .generic
  | .frame f, .tensor _ => .error (frameOper f o)
  | _, .tensor _ => .error .generic
  | _, _ => .ok .plain

/-- `frame op= tensor`: `inplace_binary` (`linalg/frame.py` 29-50) calls a universal function with a
copy of the axes, so the tensor refuses; operators without code of their own go through the frame. -/
def frameInplace (o : Oper) : PyErr :=
  match o with
  | .other _ => .type
  | _ => .generic

/-- `x op= y`: what `x` stands for afterwards. -/
def inplace (cfg : Cfg K) (o : Oper) (x y : Val n K) : Py (Res n K R) :=
  match x, y with
  | .tensor a, y =>
    match o with
    | .add => do return .tensor (← iadd cfg a y.operand)
    | .sub => do return .tensor (← isub cfg a y.operand)
    | .mul => do return .tensor (← imul a y.operand)
    | .truediv => quotient (itruediv a y.operand)
    | .matmul => .error .generic
    | .pow => .error .notImplemented
    | .other _ => .error .generic
  | .frame _, .tensor _ => .error (frameInplace o)
  | _, .tensor _ => .error .generic
  | _, _ => .ok .plain

/-- All of them. -/
def run (cfg : Cfg K) (env : Env n K R) (e : Entry) (x y : Val n K) : Py (Res n K R) :=
  match e with
  | .dot => if x.isTensor || y.isTensor then pkgDot cfg env x y else .ok .plain
  | .cross => pkgCross env x y
  | .numpy f => npFunction cfg env f x y
  | .ufunc _ => npUfunc x y
  | .oper o => oper cfg o x y
  | .inplace o => inplace cfg o x y

/-- `np.negative(x, out=…)` and its methods (`linalg/abstract.py` 148-158); any other universal
function of one argument raises (138-145). -/
def unary (negative call : Bool) (out : Bool) (a : Tensor n K) : Py (Tensor n K) :=
  if negative then
    if call then (if out then .error .generic else .ok (neg a)) else .error .generic
  else .error .generic

end
end Verif.Mixed
