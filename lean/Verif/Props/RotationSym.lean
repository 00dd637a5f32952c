import Verif.Model.RotationSym
import Verif.Props.Rotation

/-!
# C84: rotations about an axis, and by a given matrix
-/

namespace Verif.Rot.Props
open Verif Verif.Frames Matrix

/-- frames made before the call are not related to the frame made by the call -/
theorem no_path {path : PathFn} (hp : IsPathFn path) {w : World} (hw : w.Valid) {f : ℕ}
    (hf : f < w.next) : path ⟨w.next + 1, w.edges⟩ f w.next = none := by
  cases h : path ⟨w.next + 1, w.edges⟩ f w.next with
  | none => rfl
  | some M =>
    exfalso
    have key : ∀ g, Relation.ReflTransGen (fun a b => (a, b) ∈ w.edges ∨ (b, a) ∈ w.edges) f g →
        g < w.next := by
      intro g hg
      induction hg with
      | refl => exact hf
      | tail _ h ih =>
        rcases h with h | h
        · exact (hw _ h).2
        · exact (hw _ h).1
    exact lt_irrefl _ (key _ (hp ⟨w.next + 1, w.edges⟩ _ _ _ h))

/-- C84 is violated by rotations about an axis: the documentation offers them (`'Axis'` with an angle and a
vector of SymPy), but they fail for every axis, because the axis has to be a vector of a frame that is
related to the one which `rotation_matrix` makes during the call. -/
theorem C84_axis_violated (path : PathFn) (hp : IsPathFn path) (w : World) (hw : w.Valid) (angle : ℝ)
    (axis : SymVector) (ha : ∀ p ∈ axis, p.2 < w.next) :
    (axis ≠ [] → rotationMatrixAxis path w angle axis = .error .value) ∧
    (axis = [] → rotationMatrixAxis path w angle axis = .error .index) := by
  constructor
  · intro hne
    obtain ⟨⟨c, f⟩, v, rfl⟩ := List.exists_cons_of_ne_nil hne
    unfold rotationMatrixAxis express
    simp only [no_path hp hw (ha (c, f) (by simp))]
  · rintro rfl
    simp [rotationMatrixAxis, express]

/-- Two frames, the second oriented in the first, and the third axis of the second. -/
example : (⟨2, [(0, 1)]⟩ : World).Valid ∧
    (∀ p ∈ ([(![0, 0, 1], 1)] : SymVector), p.2 < (⟨2, [(0, 1)]⟩ : World).next) ∧
    IsPathFn (fun _ f g => if f = g then some 1 else none) := by
  refine ⟨by simp [World.Valid], by simp, ?_⟩
  intro w f g M h
  simp only at h
  split at h
  · next e => rw [e]
  · cases h

/-- C84, a given matrix: for a rotation matrix (of SymPy) the result is one, namely the inverse of the given
one; rotating by an axis and an angle this way undoes rotating the other way around.  NumPy arrays are
refused. -/
theorem C84_dcm_partial (M : Mat 3 ℝ) (hM : M * Mᵀ = 1) (hd : M.det = 1) :
    (∃ R, rotationMatrixDcm (.sympy M) = .ok R ∧ R * Rᵀ = 1 ∧ R.det = 1 ∧ R * M = 1 ∧ M * R = 1) ∧
    rotationMatrixDcm (.array M) = .error .type := by
  refine ⟨⟨Mᵀ, rfl, ?_, ?_, ?_, hM⟩, rfl⟩
  · rw [transpose_transpose]; exact mul_eq_one_comm.1 hM
  · rw [det_transpose, hd]
  · exact mul_eq_one_comm.1 hM

example : simple 2 (1/2) * (simple 2 (1/2))ᵀ = 1 ∧ (simple 2 (1/2)).det = 1 :=
  ⟨simple_orthogonal _ _, simple_det _ _⟩

/-- C84 is violated by a given matrix: "setting the direction cosine matrix directly" returns its transpose,
and nothing is checked, so that the result need not be a rotation. -/
theorem C84_dcm_violated :
    (∀ M : Mat 3 ℝ, ∃ R, rotationMatrixDcm (.sympy M) = .ok R ∧ ∀ i j, R i j = M j i) ∧
    (∃ M R : Mat 3 ℝ, M * Mᵀ = 1 ∧ M.det = 1 ∧ rotationMatrixDcm (.sympy M) = .ok R ∧ R ≠ M) ∧
    (∃ M R : Mat 3 ℝ, rotationMatrixDcm (.sympy M) = .ok R ∧ R * Rᵀ ≠ 1) := by
  refine ⟨fun M => ⟨_, rfl, fun i j => rfl⟩, ⟨!![0, -1, 0; 1, 0, 0; 0, 0, 1], _, ?_, ?_, rfl, ?_⟩,
    ⟨!![2, 0, 0; 0, 1, 0; 0, 0, 1], _, rfl, ?_⟩⟩
  · ext i j; fin_cases i <;> fin_cases j <;> simp [Matrix.mul_apply, Fin.sum_univ_three]
  · simp [det_fin_three]
  · intro h
    have := congrFun (congrFun h 0) 1
    norm_num [Matrix.transpose_apply] at this
  · intro h
    have := congrFun (congrFun h 0) 0
    rw [transpose_transpose, Matrix.mul_apply, Fin.sum_univ_three] at this
    simp [Matrix.transpose_apply] at this
    norm_num at this

end Verif.Rot.Props
