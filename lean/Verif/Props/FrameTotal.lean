import Verif.Props.TensorOps

/-!
# Operations on vectors and tensors in sound frames do not raise (C43, C45, C46, C47, C62)

A frame is sound if its axes are independent and keep the promise of its class: perpendicular for a
`RectangularFrame`, orthonormal for a `CartesianFrame`.
-/

set_option linter.unusedSectionVars false

namespace Verif.Frames.Props

open Matrix

section
variable {n : ℕ} {K : Type} [Field K] [LinearOrder K] [IsStrictOrderedRing K]

/-- Independent axes that keep the promise of the class. -/
def Sound (f : Frame n K) : Prop :=
  f.axes.det ≠ 0 ∧ (f.cls = .rectangular → Perpendicular f.axes) ∧
    (f.cls = .cartesian → Orthonormal f.axes)

theorem dual_total (cfg : Cfg K) (ha : 0 ≤ cfg.atol) (hr : 0 ≤ cfg.rtol) (f : Frame n K)
    (hf : Sound f) : ∃ d, f.dual cfg = .ok d ∧ Sound d := by
  obtain ⟨d, hd⟩ := C44_dual_exists cfg ha hr f hf.1 hf.2.1
  obtain ⟨h1, hcls⟩ := dual_ok hf.2.2 hd
  have h2 : d.axes * f.axesᵀ = 1 := mul_eq_one_comm.1 h1
  have h3 : d.axesᵀ * f.axes = 1 := by
    have := congrArg Matrix.transpose h1
    rwa [Matrix.transpose_mul, Matrix.transpose_transpose, Matrix.transpose_one] at this
  have hG : (d.axes * d.axesᵀ) * (f.axes * f.axesᵀ) = 1 := by
    calc d.axes * d.axesᵀ * (f.axes * f.axesᵀ) = d.axes * ((d.axesᵀ * f.axes) * f.axesᵀ) := by
          simp only [Matrix.mul_assoc]
      _ = 1 := by rw [h3, Matrix.one_mul, h2]
  refine ⟨d, hd, ?_, fun hc => ?_, fun hc => ?_⟩
  · intro h0
    have := congrArg Matrix.det h1
    rw [Matrix.det_mul, h0, mul_zero, Matrix.det_one] at this
    exact zero_ne_one this
  · have hperp := (perpendicular_iff _).1 (hf.2.1 (hcls ▸ hc))
    rw [perpendicular_iff]
    intro i j hij
    have hcol : ∀ i, (d.axes * d.axesᵀ) i j * (f.axes * f.axesᵀ) j j = (1 : Mat n K) i j := by
      intro i
      rw [← hG, Matrix.mul_apply (M := d.axes * d.axesᵀ)]
      symm
      refine Finset.sum_eq_single j ?_ (fun h => absurd (Finset.mem_univ j) h)
      intro k _ hkj
      rw [hperp k j hkj, mul_zero]
    have hjj := hcol j
    rw [Matrix.one_apply_eq] at hjj
    have hij' := hcol i
    rw [Matrix.one_apply_ne hij] at hij'
    rcases mul_eq_zero.1 hij' with h | h
    · exact h
    · rw [h, mul_zero] at hjj
      exact absurd hjj zero_ne_one
  · have hE := hf.2.2 (hcls ▸ hc)
    unfold Orthonormal at hE ⊢
    rw [hE, Matrix.mul_one] at hG
    exact hG

/-- **C43.** Components can be shown in every sound frame, and they keep their kind. -/
theorem C43_total (cfg : Cfg K) (ha : 0 ≤ cfg.atol) (hr : 0 ≤ cfg.rtol) (S T : Frame n K)
    (hT : Sound T) (c : Comps n K) :
    ∃ d, showIn cfg S c (some T) = .ok d ∧
      (∀ v, c = .vec v → ∃ w, d = .vec w) ∧ (∀ A, c = .ten2 A → ∃ B, d = .ten2 B) ∧
      (∀ r x, c = .gen r x → ∃ y, d = .gen r y) := by
  obtain ⟨D, hD, -⟩ := dual_total cfg ha hr T hT
  refine ⟨c.transform (D.axes * S.axesᵀ), ?_, ?_, ?_, ?_⟩
  · rw [showIn_eq, dcmTarget_eq, Option.getD_some, hD]
    rfl
  · rintro v rfl; exact ⟨_, rfl⟩
  · rintro A rfl; exact ⟨_, rfl⟩
  · rintro r x rfl; exact ⟨_, rfl⟩

/-- **C62.** Every vector and tensor in a sound frame has a dual description. -/
theorem C62_total (cfg : Cfg K) (ha : 0 ≤ cfg.atol) (hr : 0 ≤ cfg.rtol) (S : Frame n K)
    (hS : Sound S) (c : Comps n K) : ∃ d D, dualOf cfg S c = .ok (d, D) ∧ Sound D := by
  obtain ⟨D, hD, hs⟩ := dual_total cfg ha hr S hS
  exact ⟨_, D, by unfold dualOf; rw [hD]; rfl, hs⟩

theorem moveTo_total (cfg : Cfg K) (ha : 0 ≤ cfg.atol) (hr : 0 ≤ cfg.rtol) (a : Tensor n K)
    (frame : Option (Frame n K)) (hf : ∀ f, frame = some f → Sound f) :
    ∃ t, a.moveTo cfg frame = .ok t := by
  cases frame with
  | none => exact ⟨a, rfl⟩
  | some f =>
    obtain ⟨d, hd, -⟩ := C43_total cfg ha hr a.frame f (hf f rfl) a.comps
    refine ⟨⟨d, f⟩, ?_⟩
    show (do return ⟨← a.show cfg (some f), f⟩ : Py (Tensor n K)) = _
    unfold Tensor.show
    rw [hd]
    rfl

/-- **C45.** The dot product of vectors and second order tensors in sound frames, asked for in a sound
frame or in none, does not raise. -/
theorem C45_total (cfg : Cfg K) (ha : 0 ≤ cfg.atol) (hr : 0 ≤ cfg.rtol) (a b : Tensor n K)
    (frame : Option (Frame n K)) (axes : Option (ℕ × ℕ)) (hfa : Sound a.frame)
    (hf : ∀ f, frame = some f → Sound f)
    (hva : (∃ v, a.comps = .vec v) ∨ ∃ A, a.comps = .ten2 A)
    (hvb : (∃ v, b.comps = .vec v) ∨ ∃ A, b.comps = .ten2 A) :
    ∃ r, dot cfg a b frame axes = .ok r := by
  obtain ⟨ca, fa⟩ := a
  obtain ⟨cb, fb⟩ := b
  simp only at hfa hva hvb
  obtain ⟨D, hD, hDs⟩ := dual_total cfg ha hr fa hfa
  obtain ⟨d1, hd1, v1, t1, -⟩ := C43_total cfg ha hr fb D hDs cb
  obtain ⟨d2, hd2, v2, t2, -⟩ := C43_total cfg ha hr fb fa hfa cb
  rcases hva with ⟨v, rfl⟩ | ⟨A, rfl⟩ <;> rcases hvb with ⟨w, rfl⟩ | ⟨C, rfl⟩
  · exact ⟨_, C45_vector_vector cfg _ _ frame axes _ _ (ambient_vec _ _) (ambient_vec _ _)⟩
  · obtain ⟨B, rfl⟩ := t1 C rfl
    obtain ⟨t, ht⟩ := moveTo_total cfg ha hr ⟨.vec (Matrix.vecMul v B.transpose), fa⟩ frame hf
    refine ⟨.tensor t, ?_⟩
    simp only [dot, hD, bind, Except.bind, Tensor.show, hd1, Comps.asTen2, ht, pure, Except.pure]
  · obtain ⟨y, rfl⟩ := v1 w rfl
    obtain ⟨t, ht⟩ := moveTo_total cfg ha hr ⟨.vec (A.mulVec y), fa⟩ frame hf
    refine ⟨.tensor t, ?_⟩
    simp only [dot, hD, bind, Except.bind, Tensor.show, hd1, Comps.asVec, ht, pure, Except.pure]
  · obtain ⟨B, rfl⟩ := t2 C rfl
    obtain ⟨t, ht⟩ := moveTo_total cfg ha hr ⟨.ten2 (A * fa.Gram * B), fa⟩ frame hf
    refine ⟨.tensor t, ?_⟩
    simp only [dot, bind, Except.bind, Tensor.show, hd2, Comps.asTen2, ht, pure, Except.pure]

/-- **C46.** The cross product of two vectors, of a tensor and a vector or of a vector and a tensor in
sound frames does not raise; that of two tensors is refused. -/
theorem C46_total (cfg : Cfg K) (ha : 0 ≤ cfg.atol) (hr : 0 ≤ cfg.rtol) (a b : Tensor 3 K)
    (frame : Option (Frame 3 K)) (hfa : Sound a.frame) (hf : ∀ f, frame = some f → Sound f)
    (hva : (∃ v, a.comps = .vec v) ∨ ∃ A, a.comps = .ten2 A)
    (hvb : (∃ v, b.comps = .vec v) ∨ ∃ A, b.comps = .ten2 A) :
    ((∃ v, a.comps = .vec v) ∨ (∃ v, b.comps = .vec v) → ∃ t, cross cfg a b frame = .ok t) ∧
    ((∃ A, a.comps = .ten2 A) ∧ (∃ B, b.comps = .ten2 B) →
      cross cfg a b frame = .error .notImplemented) := by
  obtain ⟨ca, fa⟩ := a
  obtain ⟨cb, fb⟩ := b
  simp only at hfa hva hvb
  obtain ⟨d2, hd2, v2, -⟩ := C43_total cfg ha hr fb fa hfa cb
  rcases hva with ⟨v, rfl⟩ | ⟨A, rfl⟩ <;> rcases hvb with ⟨w, rfl⟩ | ⟨C, rfl⟩
  · refine ⟨fun _ => ?_, by simp⟩
    obtain ⟨y, rfl⟩ := v2 w rfl
    obtain ⟨t, ht⟩ := moveTo_total cfg ha hr ⟨.vec (crossProduct v y), fa⟩ frame hf
    refine ⟨t, ?_⟩
    simp only [cross, bind, Except.bind, Tensor.show, hd2, Comps.asVec, ht]
  · refine ⟨fun _ => ?_, by simp⟩
    unfold cross
    simp only
    rw [show_none, show_none, Means, Means, ambient_vec, ambient_ten2]
    exact moveTo_total cfg ha hr _ frame hf
  · refine ⟨fun _ => ?_, by simp⟩
    unfold cross
    simp only
    rw [show_none, show_none, Means, Means, ambient_vec, ambient_ten2]
    exact moveTo_total cfg ha hr _ frame hf
  · exact ⟨by simp, fun _ => rfl⟩

/-- **C47.** Tensors of the same kind can be added and subtracted, out of place and in place, if the frame
of the first is sound. -/
theorem C47_total (cfg : Cfg K) (ha : 0 ≤ cfg.atol) (hr : 0 ≤ cfg.rtol) (a b : Tensor n K)
    (hfa : Sound a.frame)
    (hk : (∃ v w, a.comps = .vec v ∧ b.comps = .vec w) ∨ (∃ A B, a.comps = .ten2 A ∧ b.comps = .ten2 B) ∨
      ∃ r x y, a.comps = .gen r x ∧ b.comps = .gen r y) :
    (∃ t, binary cfg (· + ·) a (.tensor b) = .ok t) ∧ (∃ t, binary cfg (· - ·) a (.tensor b) = .ok t) ∧
      (∃ t, iadd cfg a (.tensor b) = .ok t) ∧ ∃ t, isub cfg a (.tensor b) = .ok t := by
  obtain ⟨ca, fa⟩ := a
  obtain ⟨cb, fb⟩ := b
  simp only at hfa hk
  obtain ⟨d, hd, h1, h2, h3⟩ := C43_total cfg ha hr fb fa hfa cb
  have hz : ∀ f : K → K → K, ca.sameClass cb = true ∧ (∃ c, ca.zip f cb = some c) ∧
      ∃ c, ca.zip f d = some c := by
    intro f
    rcases hk with ⟨v, w, rfl, rfl⟩ | ⟨A, B, rfl, rfl⟩ | ⟨r, x, y, rfl, rfl⟩
    · obtain ⟨w', rfl⟩ := h1 w rfl
      exact ⟨rfl, ⟨_, rfl⟩, _, rfl⟩
    · obtain ⟨w', rfl⟩ := h2 B rfl
      exact ⟨rfl, ⟨_, rfl⟩, _, rfl⟩
    · obtain ⟨w', rfl⟩ := h3 r y rfl
      exact ⟨rfl, ⟨_, dif_pos rfl⟩, _, dif_pos rfl⟩
  obtain ⟨hs, ⟨p, hp⟩, q, hq⟩ := hz (· + ·)
  obtain ⟨-, ⟨p', hp'⟩, q', hq'⟩ := hz (· - ·)
  refine ⟨⟨⟨q, ⟨.reference, fa.axes⟩⟩, ?_⟩, ⟨⟨q', ⟨.reference, fa.axes⟩⟩, ?_⟩, ⟨⟨q, fa⟩, ?_⟩,
    ⟨⟨q', fa⟩, ?_⟩⟩
  · simp only [binary, hs, if_true, hp, Tensor.show, hd, bind, Except.bind, hq]
  · simp only [binary, hs, if_true, hp', Tensor.show, hd, bind, Except.bind, hq']
  · simp only [iadd, hp, Tensor.show, hd, bind, Except.bind, hq]
  · simp only [isub, hp', Tensor.show, hd, bind, Except.bind, hq']

/-- **C50.** The shortcut of `RectangularFrame` for perpendicular, independent axes gives what a general
frame gives: the dual has the same axes, and the Gram matrix and the volume are the same. -/
theorem C50_rectangular_shortcuts (cfg : Cfg K) (ha : 0 ≤ cfg.atol) (hr : 0 ≤ cfg.rtol) (E : Mat n K)
    (hE : Perpendicular E) (hdet : E.det ≠ 0) :
    (Frame.dual cfg ⟨.rectangular, E⟩).map Frame.axes = (Frame.dual cfg ⟨.reference, E⟩).map Frame.axes ∧
      Frame.Gram ⟨.rectangular, E⟩ = Frame.Gram ⟨.reference, E⟩ ∧
      Frame.volume cfg ⟨.rectangular, E⟩ = Frame.volume cfg ⟨.reference, E⟩ := by
  refine ⟨?_, rfl, rfl⟩
  obtain ⟨d, hd, -⟩ := dual_total cfg ha hr ⟨.rectangular, E⟩ ⟨hdet, fun _ => hE, fun h => nomatch h⟩
  obtain ⟨d', hd', -⟩ := dual_total cfg ha hr ⟨.reference, E⟩
    ⟨hdet, fun h => (nomatch h), fun h => nomatch h⟩
  have e1 : Eᵀ * d.axes = 1 := (dual_ok (f := ⟨.rectangular, E⟩) (fun h => nomatch h) hd).1
  have e2 : Eᵀ * d'.axes = 1 := (dual_ok (f := ⟨.reference, E⟩) (fun h => nomatch h) hd').1
  have e3 : d'.axes * Eᵀ = 1 := mul_eq_one_comm.1 e2
  rw [hd, hd']
  show Except.ok d.axes = Except.ok d'.axes
  congr 1
  calc d.axes = d'.axes * Eᵀ * d.axes := by rw [e3, Matrix.one_mul]
    _ = d'.axes := by rw [Matrix.mul_assoc, e1, Matrix.mul_one]

end

/-- Sound frames of the three classes. -/
example : Sound (⟨.reference, !![1, 1; 0, 2]⟩ : Frame 2 ℚ) ∧
    Sound (⟨.rectangular, !![3, 4; -4, 3]⟩ : Frame 2 ℚ) ∧
    Sound (⟨.cartesian, !![3/5, 4/5; -4/5, 3/5]⟩ : Frame 2 ℚ) := by
  refine ⟨⟨by decide +kernel, fun h => (nomatch h), fun h => nomatch h⟩,
    ⟨by decide +kernel, fun _ => ?_, fun h => nomatch h⟩,
    ⟨by decide +kernel, fun h => (nomatch h), fun _ => ?_⟩⟩
  · unfold Perpendicular
    decide +kernel
  · unfold Orthonormal
    decide +kernel

end Verif.Frames.Props
