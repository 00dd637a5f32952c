import Verif.Model.Einsum
import Verif.Model.Rotation

/-!
# Terms of vectors and tensors, and rotating what is put into them

`linalg/abstract.py` 47-51, 68-100, 148-158, `linalg/meta.py` 439-467, `linalg/utils.py` 205-243, 311-331 as one
language: a term is built from given objects and numbers by the operators, `dot`, `cross` and `transpose`.
`turn` is the rotation of a single object, `linalg/vector.py` 145-198, `linalg/tensor.py` 137-172.  Division
(not finite results) and stacks are not part of it.
-/

namespace Verif.Rot
open Verif Verif.Frames Matrix

/-- `t.orient(…)` and `t.orient_new(…)` with the rotation matrix `R`: `linalg/vector.py` 163-168, 192-198,
`linalg/tensor.py` 149-151, 168-172.  The components change, the frame does not. -/
noncomputable def turn (R : Mat 3 ℝ) (t : Tensor 3 ℝ) : Py (Tensor 3 ℝ) := do
  return ⟨← t.comps.transformL (orientFrame R ⟨.reference, 1⟩).axesᵀ, t.frame⟩

/-- What a term evaluates to. -/
inductive Val
  | number (x : ℝ)
  | tensor (t : Tensor 3 ℝ)

/-- The terms. -/
inductive Term
  /-- the `k`-th object given -/
  | input (k : ℕ)
  | number (c : ℝ)
  /-- `a + b` -/
  | add (a b : Term)
  /-- `a - b` -/
  | sub (a b : Term)
  /-- `a * b` -/
  | mul (a b : Term)
  /-- `-a` -/
  | neg (a : Term)
  /-- `a.T` -/
  | transpose (a : Term)
  /-- `dot(a, b, frame=frame, axes=axes)` -/
  | dot (a b : Term) (frame : Option (Frame 3 ℝ)) (axes : Option (ℤ × ℤ))
  /-- `cross(a, b, frame=frame)` -/
  | cross (a b : Term) (frame : Option (Frame 3 ℝ))

/-- `a + b`, `a - b` for two tensors: `linalg/abstract.py` 68-100.  The call `other.show(self.frame)` runs out of
letters for tensors of more than 13 indices. -/
noncomputable def addT (cfg : Cfg ℝ) (f : ℝ → ℝ → ℝ) (a b : Tensor 3 ℝ) : Py Val := do
  let t ← binary cfg f a (.tensor b)
  if 13 < b.comps.rank then .error .value else return .tensor t

/-- `a + b`, `a - b`: `linalg/abstract.py` 68-100; a number on the left of a tensor ends in
`__array_ufunc__`, 138-145. -/
noncomputable def linV (cfg : Cfg ℝ) (f : ℝ → ℝ → ℝ) : Val → Val → Py Val
  | .number x, .number y => .ok (.number (f x y))
  | .number s, .tensor a => do return .tensor (← reflected s a)
  | .tensor a, .number s => do return .tensor (← binary cfg f a (.number s))
  | .tensor a, .tensor b => addT cfg f a b

/-- `a * b`: `linalg/abstract.py` 47-51, 138-145. -/
noncomputable def mulV : Val → Val → Py Val
  | .number x, .number y => .ok (.number (x * y))
  | .number s, .tensor a => do return .tensor (← reflected s a)
  | .tensor a, .number s => do return .tensor (← Frames.mul a (.number s))
  | .tensor a, .tensor b => do return .tensor (← Frames.mul a (.tensor b))

/-- `-a`: `linalg/abstract.py` 148-158. -/
noncomputable def negV : Val → Val
  | .number x => .number (-x)
  | .tensor a => .tensor (Frames.neg a)

/-- `a.T`: `linalg/meta.py` 433-437, 464-467; a new frame of the same class is made. Numbers of NumPy are
their own transposes. -/
noncomputable def transposeV (cfg : Cfg ℝ) : Val → Py Val
  | .number x => .ok (.number x)
  | .tensor a => do return .tensor ⟨a.comps.transpose, ← mkFrame cfg a.frame.cls a.frame.axes⟩

/-- `dot(a, b, frame=frame, axes=axes)`: `linalg/utils.py` 205-256.  Up to two indices per operand `axes` is not
looked at. -/
noncomputable def dotV (cfg : Cfg ℝ) (frame : Option (Frame 3 ℝ)) (axes : Option (ℤ × ℤ)) :
    Val → Val → Py Val
  | .tensor a, .tensor b =>
      if a.comps.rank ≤ 2 ∧ b.comps.rank ≤ 2 then do
        match ← Frames.dot cfg a b frame none with
        | .scalar x => return .number x
        | .tensor t => return .tensor t
      else do return .tensor (← dotGeneral cfg a b frame axes)
  | _, _ => if frame.isSome then .error .generic else .error .type

/-- `cross(a, b, frame=frame)`: `linalg/utils.py` 311-346. -/
noncomputable def crossV (cfg : Cfg ℝ) (frame : Option (Frame 3 ℝ)) : Val → Val → Py Val
  | .tensor a, .tensor b => do return .tensor (← Frames.cross cfg a b frame)
  | _, _ => if frame.isSome then .error .generic else .error .type

/-- The value of a term; operands are evaluated from left to right. -/
noncomputable def Term.eval (cfg : Cfg ℝ) (ts : ℕ → Tensor 3 ℝ) : Term → Py Val
  | .input k => .ok (.tensor (ts k))
  | .number c => .ok (.number c)
  | .add a b => do linV cfg (· + ·) (← a.eval cfg ts) (← b.eval cfg ts)
  | .sub a b => do linV cfg (· - ·) (← a.eval cfg ts) (← b.eval cfg ts)
  | .mul a b => do mulV (← a.eval cfg ts) (← b.eval cfg ts)
  | .neg a => do return negV (← a.eval cfg ts)
  | .transpose a => do transposeV cfg (← a.eval cfg ts)
  | .dot a b frame axes => do dotV cfg frame axes (← a.eval cfg ts) (← b.eval cfg ts)
  | .cross a b frame => do crossV cfg frame (← a.eval cfg ts) (← b.eval cfg ts)

end Verif.Rot
