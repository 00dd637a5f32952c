import Verif.Model.Rotation
import Mathlib.Logic.Relation

/-!
# Model of `rotation_matrix` with the rotation types `'Axis'` and `'DCM'`

`linalg/utils.py` 57-118.  Both types hand objects of SymPy over: a vector, which belongs to frames of SymPy
(`sympy.physics.vector`), or a matrix.  Frames of SymPy are compared by identity; they are numbered here in
the order in which they are made.  Two frames are related if one was oriented in the other, perhaps through
further frames.
-/

namespace Verif.Rot
open Verif Verif.Frames Matrix

/-- The frames of SymPy made so far and which of them were oriented in which. -/
structure World where
  /-- `0, …, next - 1` exist -/
  next : ℕ
  edges : List (ℕ × ℕ)

/-- Frames are oriented in existing frames. -/
def World.Valid (w : World) : Prop := ∀ e ∈ w.edges, e.1 < w.next ∧ e.2 < w.next

/-- A vector of SymPy: a sum of parts with components in a frame each (`Vector.args`); zero parts are
dropped. -/
abbrev SymVector := List ((Fin 3 → ℝ) × ℕ)

/-- What SymPy knows about two frames: `path w f g = some M` if it finds a way from `f` to `g`; components in
`f` are multiplied by `M` to express them in `g`. -/
abbrev PathFn := World → ℕ → ℕ → Option (Mat 3 ℝ)

/-- `ReferenceFrame._dict_list` follows orientations, in both directions. -/
def IsPathFn (path : PathFn) : Prop :=
  ∀ w f g M, path w f g = some M →
    Relation.ReflTransGen (fun a b => (a, b) ∈ w.edges ∨ (b, a) ∈ w.edges) f g

/-- The rotation about the unit vector `u` (`ReferenceFrame.orient_axis` of SymPy). -/
noncomputable def axisMatrix (u : Fin 3 → ℝ) (a : ℝ) : Mat 3 ℝ :=
  Real.cos a • (1 - vecMulVec u u) +
    Real.sin a • !![0, - u 2, u 1; u 2, 0, - u 0; - u 1, u 0, 0] + vecMulVec u u

/-- The parts of a vector expressed in frame `g`; `ValueError` if there is no way ("No connecting orientation
path found"). -/
def express (path : PathFn) (w : World) (g : ℕ) : SymVector → Py (Fin 3 → ℝ)
  | [] => .ok 0
  | (c, f) :: v =>
    match path w f g with
    | none => .error .value
    | some M =>
      match express path w g v with
      | .error e => .error e
      | .ok a => .ok (M *ᵥ c + a)

open Classical in
/-- `rotation_matrix('Axis', (angle, axis))`: `linalg/utils.py` 115-118.  Line 115 makes a new frame, in which
SymPy's `orient_axis` expresses the axis (`axis.dt(parent)`, `axis.express(parent)`); the zero vector has no
parts (`IndexError`). -/
noncomputable def rotationMatrixAxis (path : PathFn) (w : World) (angle : ℝ) (axis : SymVector) :
    Py (Mat 3 ℝ) :=
  let source := w.next
  let w : World := ⟨w.next + 1, w.edges⟩
  match express path w source axis with
  | .error e => .error e
  | .ok a =>
    if a = 0 then .error .index
    else .ok (axisMatrix ((Real.sqrt (a ⬝ᵥ a))⁻¹ • a) angle)ᵀ

/-- What may be handed over as a matrix. -/
inductive DcmArg
  /-- a matrix of SymPy -/
  | sympy (M : Mat 3 ℝ)
  /-- a NumPy array or a list -/
  | array (M : Mat 3 ℝ)

/-- `rotation_matrix('DCM', M)`: `linalg/utils.py` 115-118 with `ReferenceFrame.orient_explicit` of SymPy, which
wants a matrix of SymPy that has the base vectors of the new frame as columns and does not check anything
else. -/
def rotationMatrixDcm : DcmArg → Py (Mat 3 ℝ)
  | .sympy M => .ok Mᵀ
  | .array _ => .error .type

end Verif.Rot
