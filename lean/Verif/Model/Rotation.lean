import Verif.Model.Frames
import Mathlib.Analysis.SpecialFunctions.Trigonometric.Basic
import Mathlib.LinearAlgebra.Matrix.Notation

/-!
# Model of `rotation_matrix` and of `orient`/`orient_new` of frames and vectors

`linalg/utils.py` 57-118, `linalg/frame.py` 403-470, `linalg/vector.py` 145-198, `linalg/tensor.py`
137-172.

`rotation_matrix` delegates to `orientnew` of SymPy's reference frames and returns the direction cosine
matrix evaluated to floats (here: real numbers).  The conventions of SymPy are part of the model: a
simple rotation of the parent about axis `i` by an angle, products of three of them in the order given
(body fixed) or in reverse order (space fixed), the quadratic formula for four parameters, a matrix taken
over without any check.  The rotation types `'Axis'` and `'DCM'`, which take objects of
SymPy, are in `Model/RotationSym.lean`.
-/

namespace Verif.Rot
open Verif Verif.Frames Matrix

/-- Rotation of the parent frame about one of its axes: the columns are the new base vectors. -/
noncomputable def simple (i : Fin 3) (a : ℝ) : Mat 3 ℝ :=
  match i with
  | 0 => !![1, 0, 0; 0, Real.cos a, - Real.sin a; 0, Real.sin a, Real.cos a]
  | 1 => !![Real.cos a, 0, Real.sin a; 0, 1, 0; - Real.sin a, 0, Real.cos a]
  | 2 => !![Real.cos a, - Real.sin a, 0; Real.sin a, Real.cos a, 0; 0, 0, 1]

/-- A letter or digit of the order of rotations. -/
def axisOf : Char → Option (Fin 3)
  | '1' | 'X' | 'x' => some 0
  | '2' | 'Y' | 'y' => some 1
  | '3' | 'Z' | 'z' => some 2
  | _ => none

/-- The orders SymPy approves: three axes, neighbours different. -/
def orderOf (s : List Char) : Option (Fin 3 × Fin 3 × Fin 3) :=
  match s.map axisOf with
  | [some i, some j, some k] => if i ≠ j ∧ j ≠ k then some (i, j, k) else none
  | _ => none

/-- The rotation types. -/
inductive Kind
  | body | space | quaternion
  /-- any other word (except `'Axis'` and `'DCM'`) -/
  | unknown

/-- The matrix of four parameters. -/
def quat (q0 q1 q2 q3 : ℝ) : Mat 3 ℝ :=
  !![q0 ^ 2 + q1 ^ 2 - q2 ^ 2 - q3 ^ 2, 2 * (q1 * q2 - q0 * q3), 2 * (q0 * q2 + q1 * q3);
     2 * (q1 * q2 + q0 * q3), q0 ^ 2 - q1 ^ 2 + q2 ^ 2 - q3 ^ 2, 2 * (q2 * q3 - q0 * q1);
     2 * (q1 * q3 - q0 * q2), 2 * (q0 * q1 + q2 * q3), q0 ^ 2 - q1 ^ 2 - q2 ^ 2 + q3 ^ 2]

/-- `rotation_matrix(kind, amounts, order)`: `linalg/utils.py` 115-118; `target.dcm(source)` is the transpose
of the matrix whose columns are the new base vectors. -/
noncomputable def rotationMatrix (kind : Kind) (amounts : List ℝ) (order : List Char) : Py (Mat 3 ℝ) :=
  match kind with
  | .body =>
    match orderOf order, amounts with
    | some (i, j, k), [a, b, c] => .ok (simple i a * simple j b * simple k c)ᵀ
    | _, _ => .error .type
  | .space =>
    match orderOf order, amounts with
    | some (i, j, k), [a, b, c] => .ok (simple k c * simple j b * simple i a)ᵀ
    | _, _ => .error .type
  | .quaternion =>
    match amounts with
    | [q0, q1, q2, q3] => .ok (quat q0 q1 q2 q3)ᵀ
    | _ => .error .type
  | .unknown => .error .notImplemented

/-- `f.orient(…)` for a single frame: `linalg/frame.py` 431-433, `_show_frame` (`linalg/utils.py` 472-492):
`axes[i, :] = dcm.T @ axes[i, :]`. -/
def orientFrame (R : Mat 3 ℝ) (f : Frame 3 ℝ) : Frame 3 ℝ :=
  ⟨f.cls, Matrix.of fun i => Rᵀ *ᵥ f.axes i⟩

/-- `v.orient(…)`, `v.orient_new(…)` for a single vector: `linalg/vector.py` 163-168, 192-198.  The direction
cosine matrix of the unit frame rotated is the rotation matrix. -/
def orientVector (R : Mat 3 ℝ) (v : Fin 3 → ℝ) : Fin 3 → ℝ :=
  (orientFrame R ⟨.reference, 1⟩).axesᵀ *ᵥ v

/-- `t.orient(…)`, `t.orient_new(…)` for a second order tensor: `linalg/tensor.py` 149-151, 168-172;
`transform_components(Q)` is `Q @ array @ Q.T`. -/
def orientTensor (R A : Mat 3 ℝ) : Mat 3 ℝ :=
  let dcm := (orientFrame R ⟨.reference, 1⟩).axes
  dcmᵀ * A * dcmᵀᵀ

end Verif.Rot
