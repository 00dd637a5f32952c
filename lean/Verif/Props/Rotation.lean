import Verif.Model.Rotation
import Verif.Props.Frames
import Mathlib.LinearAlgebra.Matrix.Determinant.Basic
import Mathlib.LinearAlgebra.Matrix.NonsingularInverse
import Mathlib.Tactic.LinearCombination
import Mathlib.Tactic.FinCases

/-!
# C84, C85: rotations

C84: rotation matrices are proper orthogonal matrices, and the types of rotation agree with each other.
C85: rotating frames, vectors and tensors.
-/

set_option linter.unusedSectionVars false

namespace Verif.Rot.Props
open Verif Verif.Frames Matrix

theorem simple_orthogonal (i : Fin 3) (a : ℝ) : simple i a * (simple i a)ᵀ = 1 := by
  have h := Real.sin_sq_add_cos_sq a
  fin_cases i <;> ext r c <;> fin_cases r <;> fin_cases c <;>
    simp [simple, Matrix.mul_apply, Fin.sum_univ_three] <;>
    first | done | linear_combination h | ring

theorem simple_det (i : Fin 3) (a : ℝ) : (simple i a).det = 1 := by
  have h := Real.sin_sq_add_cos_sq a
  fin_cases i <;> simp [simple, Matrix.det_fin_three] <;> linear_combination h

theorem product_orthogonal {A B C : Mat 3 ℝ} (hA : A * Aᵀ = 1) (hB : B * Bᵀ = 1) (hC : C * Cᵀ = 1) :
    (A * B * C)ᵀ * (A * B * C)ᵀᵀ = 1 := by
  rw [transpose_transpose, mul_eq_one_comm, transpose_mul, transpose_mul]
  calc A * B * C * (Cᵀ * (Bᵀ * Aᵀ)) = A * (B * (C * Cᵀ) * Bᵀ) * Aᵀ := by simp only [Matrix.mul_assoc]
    _ = 1 := by rw [hC, Matrix.mul_one, hB, Matrix.mul_one, hA]

theorem quat_orthogonal (q0 q1 q2 q3 : ℝ) :
    quat q0 q1 q2 q3 * (quat q0 q1 q2 q3)ᵀ = (q0 ^ 2 + q1 ^ 2 + q2 ^ 2 + q3 ^ 2) ^ 2 • (1 : Mat 3 ℝ) := by
  ext r c
  fin_cases r <;> fin_cases c <;> simp [quat, Matrix.mul_apply, Fin.sum_univ_three] <;> ring

theorem quat_det (q0 q1 q2 q3 : ℝ) :
    (quat q0 q1 q2 q3).det = (q0 ^ 2 + q1 ^ 2 + q2 ^ 2 + q3 ^ 2) ^ 3 := by
  simp [quat, Matrix.det_fin_three]
  ring

/-- C84: what `rotation_matrix` returns is a rotation: orthogonal, with determinant one (for four
parameters: if their squares add up to one). -/
theorem C84_proper (kind : Kind) (amounts : List ℝ) (order : List Char) (R : Mat 3 ℝ)
    (h : rotationMatrix kind amounts order = .ok R)
    (hq : kind = .quaternion → (amounts.map fun q => q ^ 2).sum = 1) :
    R * Rᵀ = 1 ∧ Rᵀ * R = 1 ∧ R.det = 1 := by
  have key : R * Rᵀ = 1 ∧ R.det = 1 := by
    unfold rotationMatrix at h
    split at h
    · split at h
      · injection h with h
        subst h
        exact ⟨product_orthogonal (simple_orthogonal _ _) (simple_orthogonal _ _)
          (simple_orthogonal _ _), by simp [det_transpose, det_mul, simple_det]⟩
      · cases h
    · split at h
      · injection h with h
        subst h
        exact ⟨product_orthogonal (simple_orthogonal _ _) (simple_orthogonal _ _)
          (simple_orthogonal _ _), by simp [det_transpose, det_mul, simple_det]⟩
      · cases h
    · split at h
      · next q0 q1 q2 q3 =>
        injection h with h
        subst h
        have hq := hq rfl
        have hs : q0 ^ 2 + q1 ^ 2 + q2 ^ 2 + q3 ^ 2 = 1 := by
          simp at hq
          linear_combination hq
        constructor
        · rw [transpose_transpose, mul_eq_one_comm, quat_orthogonal, hs]
          simp
        · rw [det_transpose, quat_det, hs]
          simp
      · cases h
    · cases h
  exact ⟨key.1, mul_eq_one_comm.1 key.1, key.2⟩

/-- The letters and digits that stand for an axis. -/
def letters : Fin 3 → List Char := ![['1', 'X', 'x'], ['2', 'Y', 'y'], ['3', 'Z', 'z']]

theorem axisOf_iff (c : Char) (i : Fin 3) : axisOf c = some i ↔ c ∈ letters i := by
  constructor
  · intro h
    unfold axisOf at h
    split at h <;> first | cases h; decide | cases h
  · intro h
    fin_cases i <;> simp [letters] at h <;> rcases h with rfl | rfl | rfl <;> rfl

/-- C84: three angles and an order without equal neighbours are accepted, and only those. -/
theorem C84_accepted (kind : Kind) (hk : kind = .body ∨ kind = .space) (amounts : List ℝ)
    (order : List Char) :
    (∃ R, rotationMatrix kind amounts order = .ok R) ↔
      amounts.length = 3 ∧ ∃ a b c : Char, ∃ i j k : Fin 3, order = [a, b, c] ∧ a ∈ letters i ∧
        b ∈ letters j ∧ c ∈ letters k ∧ i ≠ j ∧ j ≠ k := by
  simp only [← axisOf_iff]
  have ho : ∀ t, orderOf order = some t ↔ ∃ a b c : Char, ∃ i j k : Fin 3, order = [a, b, c] ∧
      axisOf a = some i ∧ axisOf b = some j ∧ axisOf c = some k ∧ i ≠ j ∧ j ≠ k ∧ t = (i, j, k) := by
    intro t
    unfold orderOf
    constructor
    · intro h
      split at h
      · next i j k e =>
        obtain ⟨a, l1, rfl, h1, e⟩ := List.map_eq_cons_iff.1 e
        obtain ⟨b, l2, rfl, h2, e⟩ := List.map_eq_cons_iff.1 e
        obtain ⟨c, l3, rfl, h3, e⟩ := List.map_eq_cons_iff.1 e
        obtain rfl := List.map_eq_nil_iff.1 e
        split at h
        · next hne =>
          injection h with h
          exact ⟨a, b, c, i, j, k, rfl, h1, h2, h3, hne.1, hne.2, h.symm⟩
        · cases h
      · cases h
    · rintro ⟨a, b, c, i, j, k, rfl, h1, h2, h3, h4, h5, rfl⟩
      simp [h1, h2, h3, h4, h5]
  have hl : amounts.length = 3 ↔ ∃ x y z, amounts = [x, y, z] := List.length_eq_three
  have main : (∃ R, rotationMatrix kind amounts order = .ok R) ↔
      (∃ x y z, amounts = [x, y, z]) ∧ ∃ t, orderOf order = some t := by
    constructor
    · rintro ⟨R, h⟩
      rcases hk with rfl | rfl <;>
      · unfold rotationMatrix at h
        simp only at h
        split at h
        · next i j k a b c e => exact ⟨⟨a, b, c, rfl⟩, ⟨_, e⟩⟩
        · cases h
    · rintro ⟨⟨x, y, z, rfl⟩, ⟨i, j, k⟩, ht⟩
      rcases hk with rfl | rfl <;>
      · unfold rotationMatrix
        simp only [ht]
        exact ⟨_, rfl⟩
  rw [main, ← hl]
  refine and_congr_right fun _ => ⟨?_, ?_⟩
  · rintro ⟨t, ht⟩
    obtain ⟨a, b, c, i, j, k, h1, h2, h3, h4, h5, h6, -⟩ := (ho t).1 ht
    exact ⟨a, b, c, i, j, k, h1, h2, h3, h4, h5, h6⟩
  · rintro ⟨a, b, c, i, j, k, h1, h2, h3, h4, h5, h6⟩
    exact ⟨_, (ho _).2 ⟨a, b, c, i, j, k, h1, h2, h3, h4, h5, h6, rfl⟩⟩

/-- C84: rotating about the axes in one order as they move is rotating about the fixed axes in the
reverse order. -/
theorem C84_body_space (a b c : ℝ) (p q r : Char) :
    rotationMatrix .body [a, b, c] [p, q, r] = rotationMatrix .space [c, b, a] [r, q, p] := by
  unfold rotationMatrix orderOf
  simp only [List.map_cons, List.map_nil]
  cases axisOf p <;> cases axisOf q <;> cases axisOf r <;> simp only
  next i j k =>
    by_cases h : i ≠ j ∧ j ≠ k
    · rw [if_pos h, if_pos ⟨h.2.symm, h.1.symm⟩]
    · rw [if_neg h, if_neg fun h' => h ⟨h'.2.symm, h'.1.symm⟩]

theorem simple_neg (i : Fin 3) (a : ℝ) : simple i (-a) = (simple i a)ᵀ := by
  fin_cases i <;> ext r c <;> fin_cases r <;> fin_cases c <;>
    simp [simple, Matrix.transpose_apply]

theorem simple_zero (i : Fin 3) : simple i 0 = 1 := by
  fin_cases i <;> ext r c <;> fin_cases r <;> fin_cases c <;> simp [simple]

theorem simple_add (i : Fin 3) (a b : ℝ) : simple i a * simple i b = simple i (a + b) := by
  fin_cases i <;> ext r c <;> fin_cases r <;> fin_cases c <;>
    simp [simple, Matrix.mul_apply, Fin.sum_univ_three, Real.cos_add, Real.sin_add] <;> ring

/-- C84: the opposite rotations in reverse order give the inverse rotation. -/
theorem C84_inverse (a b c : ℝ) (p q r : Char) (R S : Mat 3 ℝ)
    (h : rotationMatrix .body [a, b, c] [p, q, r] = .ok R)
    (h' : rotationMatrix .body [-c, -b, -a] [r, q, p] = .ok S) : R * S = 1 ∧ S * R = 1 := by
  have hS : S = Rᵀ := by
    rw [C84_body_space] at h'
    unfold rotationMatrix at h h'
    simp only at h h'
    cases ho : orderOf [p, q, r] with
    | none => rw [ho] at h; cases h
    | some t =>
      obtain ⟨i, j, k⟩ := t
      rw [ho] at h h'
      injection h with h
      injection h' with h'
      subst h h'
      simp only [simple_neg, transpose_mul, transpose_transpose, Matrix.mul_assoc]
  have := C84_proper _ _ _ _ h (fun e => by cases e)
  rw [hS]
  exact ⟨this.1, this.2.1⟩

/-- C84: a rotation about the third axis by an angle: the new first base vector is turned from the first
to the second axis by this angle, whatever the type of the rotation.  Angles add up. -/
theorem C84_third_axis (a : ℝ) :
    let Rz : Mat 3 ℝ := !![Real.cos a, Real.sin a, 0; - Real.sin a, Real.cos a, 0; 0, 0, 1]
    rotationMatrix .body [0, 0, a] ['X', 'Y', 'Z'] = .ok Rz ∧
    rotationMatrix .space [0, 0, a] ['X', 'Y', 'Z'] = .ok Rz ∧
    rotationMatrix .body [a, 0, 0] ['3', '1', '2'] = .ok Rz ∧
    rotationMatrix .quaternion [Real.cos (a / 2), 0, 0, Real.sin (a / 2)] [] = .ok Rz := by
  intro Rz
  have hz : (simple 2 a)ᵀ = Rz := by
    ext r c
    fin_cases r <;> fin_cases c <;> simp [simple, Rz, Matrix.transpose_apply]
  have o1 : orderOf ['X', 'Y', 'Z'] = some (0, 1, 2) := by decide
  have o2 : orderOf ['3', '1', '2'] = some (2, 0, 1) := by decide
  refine ⟨?_, ?_, ?_, ?_⟩
  · simp only [rotationMatrix, o1, simple_zero, Matrix.one_mul, hz]
  · simp only [rotationMatrix, o1, simple_zero, Matrix.mul_one, hz]
  · simp only [rotationMatrix, o2, simple_zero, Matrix.mul_one, hz]
  · simp only [rotationMatrix]
    refine congrArg Except.ok ?_
    have hc : Real.cos a = Real.cos (a / 2) ^ 2 - Real.sin (a / 2) ^ 2 := by
      have := Real.cos_sq' (a / 2)
      have h2 := Real.cos_two_mul (a / 2)
      rw [mul_div_cancel₀ _ two_ne_zero] at h2
      linear_combination h2 + this
    have hs : Real.sin a = 2 * Real.sin (a / 2) * Real.cos (a / 2) := by
      have h2 := Real.sin_two_mul (a / 2)
      rwa [mul_div_cancel₀ _ two_ne_zero] at h2
    have h1 := Real.sin_sq_add_cos_sq (a / 2)
    ext r c
    fin_cases r <;> fin_cases c <;> simp [quat, Rz, Matrix.transpose_apply, hc, hs] <;>
      first | done | linear_combination h1 | ring

/-- C84: a rotation about any of the axes keeps this axis and turns the next one (in cyclic order) towards
the one after it. -/
theorem C84_every_axis (a : ℝ) (p q r : Char) (i : Fin 3) (hi : p ∈ letters i) (R : Mat 3 ℝ)
    (h : rotationMatrix .body [a, 0, 0] [p, q, r] = .ok R) :
    R i = Pi.single i 1 ∧
      R (i + 1) = Pi.single (i + 1) (Real.cos a) + Pi.single (i + 2) (Real.sin a) ∧
      R (i + 2) = Pi.single (i + 2) (Real.cos a) - Pi.single (i + 1) (Real.sin a) := by
  rw [← axisOf_iff] at hi
  have hR : R = (simple i a)ᵀ := by
    unfold rotationMatrix orderOf at h
    simp only [List.map_cons, List.map_nil, hi] at h
    cases hq : axisOf q with
    | none => rw [hq] at h; simp only at h; cases h
    | some j =>
      cases hr : axisOf r with
      | none => rw [hq, hr] at h; simp only at h; cases h
      | some k =>
        rw [hq, hr] at h
        simp only at h
        split at h
        · next e _ =>
          split at e
          · cases e
            injection h with h
            injection ‹[_, _, _] = _› with e1 e2
            injection e2 with e2 e3
            injection e3 with e3 _
            subst e1 e2 e3
            rw [← h, simple_zero, simple_zero, Matrix.mul_one, Matrix.mul_one]
          · cases e
        · cases h
  subst hR
  fin_cases i <;> refine ⟨?_, ?_, ?_⟩ <;> funext c <;> fin_cases c <;>
    simp [simple, Matrix.transpose_apply, Pi.single_apply, Fin.ext_iff]

/-- C84: no rotation, and two rotations about one axis. -/
theorem C84_zero_add (kind : Kind) (hk : kind = .body ∨ kind = .space) (order : List Char) (R : Mat 3 ℝ)
    (h : rotationMatrix kind [0, 0, 0] order = .ok R) (a b : ℝ) (Ra Rb Rab : Mat 3 ℝ)
    (ha : rotationMatrix kind [0, 0, a] order = .ok Ra) (hb : rotationMatrix kind [0, 0, b] order = .ok Rb)
    (hab : rotationMatrix kind [0, 0, a + b] order = .ok Rab) : R = 1 ∧ Rb * Ra = Rab := by
  rcases hk with rfl | rfl <;>
  · unfold rotationMatrix at h ha hb hab
    simp only at h ha hb hab
    cases ho : orderOf order with
    | none => rw [ho] at h; cases h
    | some t =>
      obtain ⟨i, j, k⟩ := t
      rw [ho] at h ha hb hab
      injection h with h
      injection ha with ha
      injection hb with hb
      injection hab with hab
      subst h ha hb hab
      simp only [simple_zero, Matrix.one_mul, Matrix.mul_one, transpose_one, true_and]
      rw [← transpose_mul, simple_add]

/-- C84 is violated: four parameters are not normalized; the result is a rotation times the sum of their
squares. -/
theorem C84_quaternion_violated : rotationMatrix .quaternion [2, 0, 0, 0] [] = .ok (4 • 1) ∧
    ∀ q0 q1 q2 q3 R, rotationMatrix .quaternion [q0, q1, q2, q3] [] = .ok R →
      R * Rᵀ = (q0 ^ 2 + q1 ^ 2 + q2 ^ 2 + q3 ^ 2) ^ 2 • (1 : Mat 3 ℝ) := by
  constructor
  · simp only [rotationMatrix]
    refine congrArg Except.ok ?_
    ext r c
    fin_cases r <;> fin_cases c <;> simp [quat, Matrix.transpose_apply] <;> norm_num
  · intro q0 q1 q2 q3 R h
    simp only [rotationMatrix] at h
    injection h with h
    subst h
    have : (quat q0 q1 q2 q3)ᵀ = quat q0 (-q1) (-q2) (-q3) := by
      ext r c
      fin_cases r <;> fin_cases c <;> simp [quat, Matrix.transpose_apply] <;> ring
    rw [this, quat_orthogonal]
    simp

/-- A body fixed rotation with three angles. -/
example : ∃ R, rotationMatrix .body [1, 2, 3] ['X', 'Y', 'Z'] = .ok R :=
  (C84_accepted .body (.inl rfl) _ _).2 ⟨rfl, 'X', 'Y', 'Z', 0, 1, 2, rfl, by decide, by decide, by decide, by decide,
    by decide⟩

/-- Orders with equal neighbours and unknown axes. -/
example : rotationMatrix .body [1, 2, 3] ['X', 'X', 'Z'] = .error .type ∧
    rotationMatrix .space [1, 2, 3] ['X', 'Y', 'W'] = .error .type := by
  constructor <;> rfl

/-! ### C85 -/

theorem orient_axes (R : Mat 3 ℝ) (f : Frame 3 ℝ) : (orientFrame R f).axes = f.axes * R := by
  ext i j
  simp [orientFrame, Matrix.mulVec, dotProduct, Matrix.mul_apply, mul_comm]

/-- C85: rotating a frame keeps the lengths of its base vectors and the angles between them, and its
orientation. -/
theorem C85_rigid (kind : Kind) (amounts : List ℝ) (order : List Char) (R : Mat 3 ℝ)
    (h : rotationMatrix kind amounts order = .ok R)
    (hq : kind = .quaternion → (amounts.map fun q => q ^ 2).sum = 1) (f : Frame 3 ℝ) :
    (∀ i j, (orientFrame R f).axes i ⬝ᵥ (orientFrame R f).axes j = f.axes i ⬝ᵥ f.axes j) ∧
      (orientFrame R f).axes.det = f.axes.det := by
  obtain ⟨h1, -, h3⟩ := C84_proper kind amounts order R h hq
  rw [orient_axes]
  constructor
  · intro i j
    have := congrFun (congrFun (show f.axes * R * (f.axes * R)ᵀ = f.axes * f.axesᵀ by
      rw [transpose_mul, Matrix.mul_assoc, ← Matrix.mul_assoc R, h1, Matrix.one_mul]) i) j
    exact this
  · rw [det_mul, h3, mul_one]

/-- C85: a frame made by rotating the ambient frame has the rotation matrix as direction cosine
matrix; for a rotated Cartesian frame this matrix is the one of the rotation about the ambient axes,
seen from the frame. -/
theorem C85_relative_partial (cfg : Cfg ℝ) (R : Mat 3 ℝ) (f : Frame 3 ℝ) (hf : f.cls = .cartesian) :
    (orientFrame R f).dcmSource cfg f = .ok (f.axes * R * f.axesᵀ) ∧
      (f.axes = 1 → (orientFrame R f).dcmSource cfg f = .ok R) := by
  have h : (orientFrame R f).dcmSource cfg f = .ok (f.axes * R * f.axesᵀ) := by
    unfold Frame.dcmSource Frame.dual
    have hc : (orientFrame R f).cls = .cartesian := hf
    rw [hc]
    show Except.ok ((orientFrame R f).axes * f.axesᵀ) = _
    rw [orient_axes]
  refine ⟨h, fun h1 => ?_⟩
  rw [h, h1, transpose_one, Matrix.one_mul, Matrix.mul_one]

/-- C85 is violated: "oriented relative to the called object" holds for the ambient frame only.  The frame
turned about the third axis by a right angle, turned about the first axis by a right angle afterwards: the
direction cosine matrix from the first to the second is not the rotation matrix asked for. -/
theorem C85_relative_violated (cfg : Cfg ℝ) :
    ∃ Rz Rx, rotationMatrix .body [0, 0, Real.pi / 2] ['X', 'Y', 'Z'] = .ok Rz ∧
      rotationMatrix .body [Real.pi / 2, 0, 0] ['X', 'Y', 'Z'] = .ok Rx ∧
      ∃ D, (orientFrame Rx (orientFrame Rz ⟨.cartesian, 1⟩)).dcmSource cfg (orientFrame Rz ⟨.cartesian, 1⟩) =
        .ok D ∧ D ≠ Rx ∧ D 0 0 = 0 ∧ Rx 0 0 = 1 := by
  have o1 : orderOf ['X', 'Y', 'Z'] = some (0, 1, 2) := by decide
  refine ⟨(simple 2 (Real.pi / 2))ᵀ, (simple 0 (Real.pi / 2))ᵀ, ?_, ?_, ?_⟩
  · simp only [rotationMatrix, o1, simple_zero, Matrix.one_mul]
  · simp only [rotationMatrix, o1, simple_zero, Matrix.mul_one]
  · refine ⟨_, (C85_relative_partial cfg _ (orientFrame _ ⟨.cartesian, 1⟩) rfl).1, ?_⟩
    have h0 : ((orientFrame (simple 2 (Real.pi / 2))ᵀ ⟨.cartesian, 1⟩).axes * (simple 0 (Real.pi / 2))ᵀ *
        (orientFrame (simple 2 (Real.pi / 2))ᵀ ⟨.cartesian, 1⟩).axesᵀ) 0 0 = 0 := by
      rw [orient_axes]
      simp [simple, Matrix.mul_apply, Fin.sum_univ_three]
    have h1 : (simple 0 (Real.pi / 2))ᵀ 0 0 = 1 := by simp [simple]
    refine ⟨fun e => ?_, h0, h1⟩
    rw [e, h1] at h0
    exact one_ne_zero h0

theorem orientVector_eq (R : Mat 3 ℝ) (v : Fin 3 → ℝ) : orientVector R v = Rᵀ *ᵥ v := by
  unfold orientVector
  rw [orient_axes, Matrix.one_mul]

theorem orientTensor_eq (R A : Mat 3 ℝ) : orientTensor R A = Rᵀ * A * R := by
  unfold orientTensor
  rw [orient_axes]
  simp

theorem series_axes (Rs : List (Mat 3 ℝ)) (f : Frame 3 ℝ) :
    (Rs.foldl (fun g R => orientFrame R g) f).axes = Rs.foldl (fun A R => A * R) f.axes := by
  induction Rs generalizing f with
  | nil => rfl
  | cons R Rs ih => rw [List.foldl_cons, List.foldl_cons, ih, orient_axes]

/-- C85: rotating a vector given in the ambient frame any number of times is the same as keeping its
components and rotating the frame the same number of times; likewise for second order tensors. -/
theorem C85_series (cfg : Cfg ℝ) (Rs : List (Mat 3 ℝ)) (c : Fin 3 → ℝ) (A : Mat 3 ℝ) :
    showIn cfg (Rs.foldl (fun g R => orientFrame R g) ⟨.reference, 1⟩) (.vec c) none =
      .ok (.vec (Rs.foldl (fun v R => orientVector R v) c)) ∧
    showIn cfg (Rs.foldl (fun g R => orientFrame R g) ⟨.reference, 1⟩) (.ten2 A) none =
      .ok (.ten2 (Rs.foldl (fun B R => orientTensor R B) A)) := by
  have hv : ∀ (Rs : List (Mat 3 ℝ)) (P : Mat 3 ℝ),
      (Rs.foldl (fun A R => A * R) P)ᵀ *ᵥ c = Rs.foldl (fun v R => orientVector R v) (Pᵀ *ᵥ c) := by
    intro Rs
    induction Rs with
    | nil => intro P; rfl
    | cons R Rs ih =>
      intro P
      rw [List.foldl_cons, List.foldl_cons, ih, orientVector_eq, mulVec_mulVec, transpose_mul]
  have ht : ∀ (Rs : List (Mat 3 ℝ)) (P : Mat 3 ℝ),
      (Rs.foldl (fun A R => A * R) P)ᵀ * A * (Rs.foldl (fun A R => A * R) P) =
        Rs.foldl (fun B R => orientTensor R B) (Pᵀ * A * P) := by
    intro Rs
    induction Rs with
    | nil => intro P; rfl
    | cons R Rs ih =>
      intro P
      rw [List.foldl_cons, List.foldl_cons, ih, orientTensor_eq, transpose_mul]
      simp only [Matrix.mul_assoc]
  rw [Verif.Frames.Props.C43_ambient, Verif.Frames.Props.C43_ambient, series_axes]
  constructor
  · refine congrArg Except.ok ?_
    have := hv Rs 1
    rw [transpose_one, one_mulVec] at this
    rw [← this, ambient_eq]
    rfl
  · refine congrArg Except.ok ?_
    have := ht Rs 1
    rw [transpose_one, Matrix.one_mul, Matrix.mul_one] at this
    rw [← this, ambient_eq]
    show Comps.ten2 (_ * A * (_ᵀ)ᵀ) = _
    rw [transpose_transpose]

/-- C85 is violated: for a vector given in a frame that is not the ambient one, rotating the vector and
rotating its frame are different rotations. -/
theorem C85_series_violated (cfg : Cfg ℝ) :
    ∃ Rz Rx, rotationMatrix .body [0, 0, Real.pi / 2] ['X', 'Y', 'Z'] = .ok Rz ∧
      rotationMatrix .body [Real.pi / 2, 0, 0] ['X', 'Y', 'Z'] = .ok Rx ∧
      showIn cfg (orientFrame Rz ⟨.reference, 1⟩) (.vec (orientVector Rx ![1, 0, 0])) none ≠
        showIn cfg (orientFrame Rx (orientFrame Rz ⟨.reference, 1⟩)) (.vec ![1, 0, 0]) none := by
  have o1 : orderOf ['X', 'Y', 'Z'] = some (0, 1, 2) := by decide
  refine ⟨(simple 2 (Real.pi / 2))ᵀ, (simple 0 (Real.pi / 2))ᵀ, ?_, ?_, ?_⟩
  · simp only [rotationMatrix, o1, simple_zero, Matrix.one_mul]
  · simp only [rotationMatrix, o1, simple_zero, Matrix.mul_one]
  · rw [Verif.Frames.Props.C43_ambient, Verif.Frames.Props.C43_ambient, ambient_eq, ambient_eq]
    intro h
    injection h with h
    injection h with h
    have := congrFun h 2
    rw [orientVector_eq, orient_axes, orient_axes, orient_axes] at this
    simp [simple, Matrix.mulVec, dotProduct, Fin.sum_univ_three, Matrix.mul_apply] at this

/-- C85: rotating vectors keeps inner products, and a rotated tensor acts on rotated vectors as the tensor
on the vectors. -/
theorem C85_objective (kind : Kind) (amounts : List ℝ) (order : List Char) (R : Mat 3 ℝ)
    (h : rotationMatrix kind amounts order = .ok R)
    (hq : kind = .quaternion → (amounts.map fun q => q ^ 2).sum = 1) (u v : Fin 3 → ℝ) (A : Mat 3 ℝ) :
    orientVector R u ⬝ᵥ orientVector R v = u ⬝ᵥ v ∧
      orientTensor R A *ᵥ orientVector R v = orientVector R (A *ᵥ v) := by
  obtain ⟨h1, -, -⟩ := C84_proper kind amounts order R h hq
  rw [orientVector_eq, orientVector_eq, orientVector_eq, orientTensor_eq]
  constructor
  · rw [dotProduct_mulVec, vecMul_transpose, mulVec_mulVec, h1, one_mulVec]
  · rw [mulVec_mulVec, mulVec_mulVec, Matrix.mul_assoc, h1, Matrix.mul_one]

/-- C85 is violated: four parameters that are not normalized turn a Cartesian frame into a frame which is
not Cartesian but still calls itself so. -/
theorem C85_cartesian_violated (cfg : Cfg ℝ) : ∃ R,
    rotationMatrix .quaternion [2, 0, 0, 0] [] = .ok R ∧
      (orientFrame R ⟨.cartesian, 1⟩).isCartesian cfg = true ∧
      (orientFrame R ⟨.cartesian, 1⟩).axes 0 0 = 4 := by
  refine ⟨_, C84_quaternion_violated.1, rfl, ?_⟩
  rw [orient_axes, Matrix.one_mul]
  simp [Matrix.smul_apply]

end Verif.Rot.Props
