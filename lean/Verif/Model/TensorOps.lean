import Verif.Model.Frames
import Mathlib.LinearAlgebra.CrossProduct

/-!
# Model of `dot` and `cross` (`linalg/utils.py`) and of the operators of `linalg/abstract.py`

A tensor is a value here: its components and its frame.  The classes `Vector`, `Tensor2` and the
general `Tensor` are told apart by the components.  Stacks of tensors are not modelled.  Mixing a
`Tensor2` with a general `Tensor` of rank two in an addition is not modelled (it raises out of place
and adds in place).
-/

namespace Verif.Frames

section
variable {n : ℕ} {K : Type} [Field K] [LinearOrder K]

/-- A vector or tensor. -/
structure Tensor (n : ℕ) (K : Type) where
  comps : Comps n K
  frame : Frame n K

/-- `a.show(target)` -/
def Tensor.show (cfg : Cfg K) (a : Tensor n K) (target : Option (Frame n K)) : Py (Comps n K) :=
  showIn cfg a.frame a.comps target

/-- `result.frame = frame` at the end of `dot` and `cross` (`linalg/utils.py` 235-236, 329-330),
which goes through the setter of `linalg/meta.py` 410-430. -/
def Tensor.moveTo (cfg : Cfg K) (a : Tensor n K) (frame : Option (Frame n K)) :
    Py (Tensor n K) :=
  match frame with
  | none => .ok a
  | some f => do return ⟨← a.show cfg (some f), f⟩

/-- What `dot` returns. -/
inductive DotResult (n : ℕ) (K : Type)
  | scalar (x : K)
  | tensor (t : Tensor n K)

/-- The array of a vector that `show` returned. -/
def Comps.asVec (c : Comps n K) : Py (Fin n → K) :=
  match c with
  | .vec v => .ok v
  | _ => .error .type

/-- The array of a second order tensor that `show` returned. -/
def Comps.asTen2 (c : Comps n K) : Py (Mat n K) :=
  match c with
  | .ten2 A => .ok A
  | _ => .error .type

/-- The contraction by `numpy.einsum`: axis `ia` of `a` with axis `ib` of `b`; the other indices
stay in their order, those of `a` first. -/
def contract {r s : ℕ} (a : (Fin (r + 1) → Fin n) → K) (b : (Fin (s + 1) → Fin n) → K)
    (ia : Fin (r + 1)) (ib : Fin (s + 1)) : (Fin (r + s) → Fin n) → K :=
  fun t => ∑ c : Fin n, a (ia.insertNth c fun i => t (i.castAdd s)) *
    b (ib.insertNth c fun j => t (j.natAdd r))

/-- `dot(a, b, frame=frame, axes=axes)` of two tensors: `linalg/utils.py` 205-237.
The parameter `axes` is used for general tensors only; general tensors with other classes
(`einsum` with a `Tensor2` or a `Vector`), negative positions and the limit of 26 letters are in
`Verif.Model.Einsum`.  The code
looks at the rank and not at the class: general tensors of rank one and two have to be written as
`vec` and `ten2`. -/
def dot (cfg : Cfg K) (a b : Tensor n K) (frame : Option (Frame n K)) (axes : Option (ℕ × ℕ)) :
    Py (DotResult n K) :=
  match a.comps, b.comps with
  | .vec _, .vec _ => do
      let x ← (← a.show cfg none).asVec
      let y ← (← b.show cfg none).asVec
      return .scalar (∑ i, x i * y i)
  | .ten2 A, .vec _ => do
      let y ← (← b.show cfg (some (← a.frame.dual cfg))).asVec
      return .tensor (← (⟨.vec (A.mulVec y), a.frame⟩ : Tensor n K).moveTo cfg frame)
  | .vec x, .ten2 _ => do
      -- (a.array.T @ b.show(a.frame.dual()).T).T
      let B ← (← b.show cfg (some (← a.frame.dual cfg))).asTen2
      return .tensor (← (⟨.vec (Matrix.vecMul x B.transpose), a.frame⟩ : Tensor n K).moveTo cfg frame)
  | .ten2 A, .ten2 _ => do
      let g := a.frame.Gram
      let B ← (← b.show cfg (some a.frame)).asTen2
      return .tensor (← (⟨.ten2 (A * g * B), a.frame⟩ : Tensor n K).moveTo cfg frame)
  | .gen (_ + 1) _, .gen (_ + 1) _ =>
      match axes with
      | none => .error .missingInput
      | some (ax, bx) => do
          match ← a.show cfg none, ← b.show cfg none with
          | .gen (r + 1) x, .gen (s + 1) y =>
              if r ≤ 1 ∧ s ≤ 1 then .error .generic
              else if h : ax < r + 1 ∧ bx < s + 1 then
                return .tensor (← (⟨.gen (r + s) (contract x y ⟨ax, h.1⟩ ⟨bx, h.2⟩),
                  ambientFrame⟩ : Tensor n K).moveTo cfg frame)
              else .error .index
          | _, _ => .error .type
  | _, _ => .error .notImplemented

/-- `cross(a, b, frame=frame)` of two tensors: `linalg/utils.py` 311-331; `axis=0` crosses the columns
of a matrix. -/
def cross {K : Type} [Field K] [LinearOrder K] (cfg : Cfg K) (a b : Tensor 3 K)
    (frame : Option (Frame 3 K)) : Py (Tensor 3 K) :=
  match a.comps, b.comps with
  | .vec x, .vec _ => do
      let y ← (← b.show cfg (some a.frame)).asVec
      (⟨.vec (crossProduct x y), a.frame⟩ : Tensor 3 K).moveTo cfg frame
  | .ten2 _, .vec _ => do
      let A ← (← a.show cfg none).asTen2
      let y ← (← b.show cfg none).asVec
      (⟨.ten2 (Matrix.of fun i j => crossProduct (fun k => A k j) y i), ambientFrame⟩ :
        Tensor 3 K).moveTo cfg frame
  | .vec _, .ten2 _ => do
      let x ← (← a.show cfg none).asVec
      let B ← (← b.show cfg none).asTen2
      (⟨.ten2 (Matrix.of fun i j => crossProduct x (fun k => B k j) i), ambientFrame⟩ :
        Tensor 3 K).moveTo cfg frame
  | _, _ => .error .notImplemented

/-! ### Operators -/

/-- The right operand of an operator. -/
inductive Operand2 (n : ℕ) (K : Type)
  | number (s : K)
  | tensor (t : Tensor n K)
  /-- anything else, for instance an array -/
  | other

/-- `numpy` arithmetic on two arrays of the same shape. -/
def Comps.zip (f : K → K → K) (a b : Comps n K) : Option (Comps n K) :=
  match a, b with
  | .vec v, .vec w => some (.vec fun i => f (v i) (w i))
  | .ten2 A, .ten2 B => some (.ten2 (Matrix.of fun i j => f (A i j) (B i j)))
  | .gen r x, .gen s y =>
      if h : r = s then some (.gen r fun t => f (x t) (y fun k => t (k.cast h.symm))) else none
  | _, _ => none

/-- `numpy` arithmetic with a number. -/
def Comps.map (f : K → K) : Comps n K → Comps n K
  | .vec v => .vec fun i => f (v i)
  | .ten2 A => .ten2 (Matrix.of fun i j => f (A i j))
  | .gen r x => .gen r fun t => f (x t)

/-- The classes of the two are the same. -/
def Comps.sameClass (a b : Comps n K) : Bool :=
  match a, b with
  | .vec _, .vec _ => true
  | .ten2 _, .ten2 _ => true
  | .gen _ _, .gen _ _ => true
  | _, _ => false

/-- `a + b`, `a - b`: `linalg/abstract.py` 68-100; `f` is the operation. -/
def binary (cfg : Cfg K) (f : K → K → K) (a : Tensor n K) (b : Operand2 n K) : Py (Tensor n K) :=
  match b with
  | .tensor b =>
      if a.comps.sameClass b.comps then
        match a.comps.zip f b.comps with
        | none => .error .shapeMismatch
        | some _ => do
            let y ← b.show cfg (some a.frame)
            match a.comps.zip f y with
            | some c => .ok ⟨c, ⟨.reference, a.frame.axes⟩⟩
            | none => .error .shapeMismatch
      else .error .type
  | _ => .error .type

/-- `a += b`: `linalg/abstract.py` 59-66.  Other operands are ignored. -/
def iadd (cfg : Cfg K) (a : Tensor n K) (b : Operand2 n K) : Py (Tensor n K) :=
  match b with
  | .number s => .ok ⟨a.comps.map (· + s), a.frame⟩
  | .tensor b =>
      match a.comps.zip (· + ·) b.comps with
      | none => .error .shapeMismatch
      | some _ => do
          let y ← b.show cfg (some a.frame)
          match a.comps.zip (· + ·) y with
          | some c => .ok ⟨c, a.frame⟩
          | none => .error .shapeMismatch
  | .other => .ok a

/-- `a -= b`: `linalg/abstract.py` 102-109.  Numbers are added (line 104). -/
def isub (cfg : Cfg K) (a : Tensor n K) (b : Operand2 n K) : Py (Tensor n K) :=
  match b with
  | .number s => .ok ⟨a.comps.map (· + s), a.frame⟩
  | .tensor b =>
      match a.comps.zip (· - ·) b.comps with
      | none => .error .shapeMismatch
      | some _ => do
          let y ← b.show cfg (some a.frame)
          match a.comps.zip (· - ·) y with
          | some c => .ok ⟨c, a.frame⟩
          | none => .error .shapeMismatch
  | .other => .ok a

/-- `a * b` (`linalg/abstract.py` 47-51) and `a *= b` (41-45): the components and the frame
afterwards. -/
def mul (a : Tensor n K) (b : Operand2 n K) : Py (Tensor n K) :=
  match b with
  | .number s => .ok ⟨a.comps.map (· * s), a.frame⟩
  | _ => .error .type

/-- `a *= b` -/
def imul (a : Tensor n K) (b : Operand2 n K) : Py (Tensor n K) :=
  match b with
  | .number s => .ok ⟨a.comps.map (· * s), a.frame⟩
  | _ => .error .type

/-- `a / b` (`linalg/abstract.py` 117-121); dividing by zero does not raise but gives components
that are not finite, `none`. -/
def truediv (a : Tensor n K) (b : Operand2 n K) : Py (Option (Tensor n K)) :=
  match b with
  | .number s => .ok (if s = 0 then none else some ⟨a.comps.map (· / s), a.frame⟩)
  | _ => .error .type

/-- `a /= b` (`linalg/abstract.py` 111-115) -/
def itruediv (a : Tensor n K) (b : Operand2 n K) : Py (Option (Tensor n K)) :=
  match b with
  | .number s => .ok (if s = 0 then none else some ⟨a.comps.map (· / s), a.frame⟩)
  | _ => .error .type

/-- `-a`: `linalg/abstract.py` 148-158. -/
def neg (a : Tensor n K) : Tensor n K := ⟨a.comps.map (- ·), a.frame⟩

/-- `s * a`, `s + a`: `numbers.Number` has no such operator, the reflected one is inherited from
`NDArrayOperatorsMixin`, calls a universal function, and `__array_ufunc__`
(`linalg/abstract.py` 138-145) raises. -/
def reflected (_s : K) (_a : Tensor n K) : Py (Tensor n K) := .error .generic

end

end Verif.Frames
