import Verif.Props.Frames

set_option linter.unusedSectionVars false

/-! C50: the predicates of frame objects. -/

namespace Verif.Frames.Props

open Verif Verif.Frames Matrix

section
variable {n : ℕ} {K : Type} [Field K] [LinearOrder K] [IsStrictOrderedRing K]

/-- C50: without tolerances, `is_rectangular` and `is_cartesian` of a frame of any class whose axes keep
the promise of the class (`C50_constructors`: every frame that has just been made) say exactly whether the
base vectors are perpendicular and whether they are orthonormal. -/
theorem C50_predicates_partial (cfg : Cfg K) (ha : cfg.atol = 0) (hr : cfg.rtol = 0)
    (hrt : IsSqrt cfg.rt) (f : Frame n K) (hrect : f.cls = .rectangular → Perpendicular f.axes)
    (hcart : f.cls = .cartesian → Orthonormal f.axes) :
    (f.isRectangular cfg = true ↔ ∀ i j, i ≠ j → ∑ k, f.axes i k * f.axes j k = 0) ∧
    (f.isCartesian cfg = true ↔ ∀ i j, ∑ k, f.axes i k * f.axes j k = if i = j then 1 else 0) := by
  have hO : Orthonormal f.axes ↔ ∀ i j, ∑ k, f.axes i k * f.axes j k = if i = j then 1 else 0 := by
    rw [orthonormal_iff]
    constructor
    · rintro ⟨h1, h2⟩ i j
      by_cases h : i = j
      · subst h; rw [if_pos rfl]; exact h2 i
      · rw [if_neg h]; exact h1 i j h
    · intro h
      refine ⟨fun i j hij => ?_, fun i => ?_⟩
      · rw [h i j, if_neg hij]
      · rw [h i i, if_pos rfl]
  rw [← hO]
  change _ ∧ _
  obtain ⟨cls, E⟩ := f
  cases cls with
  | reference => exact ⟨C50_is_rectangular_exact cfg ha hr E, C50_is_cartesian_exact cfg ha hr hrt E⟩
  | rectangular => exact ⟨⟨fun _ => hrect rfl, fun _ => rfl⟩, C50_is_cartesian_exact cfg ha hr hrt E⟩
  | cartesian =>
    exact ⟨⟨fun _ => ((orthonormal_iff E).1 (hcart rfl)).1, fun _ => rfl⟩,
      ⟨fun _ => hcart rfl, fun _ => rfl⟩⟩

/-- C50: what the constructors make has the class and the axes asked for. -/
theorem C50_constructed (cfg : Cfg K) (cls : FrameCls) (E : Mat n K) (f : Frame n K)
    (h : mkFrame cfg cls E = .ok f) : f.cls = cls ∧ f.axes = E := by
  unfold mkFrame at h
  cases cls with
  | reference => cases h; exact ⟨rfl, rfl⟩
  | rectangular =>
    simp only at h
    split at h
    · cases h; exact ⟨rfl, rfl⟩
    · cases h
  | cartesian =>
    simp only at h
    split at h
    · split at h
      · cases h; exact ⟨rfl, rfl⟩
      · cases h
    · cases h

end

/-- A rectangular frame that is not Cartesian, and a general frame that is neither. -/
example : Frame.isRectangular exactCfg (⟨.rectangular, !![2, 0; 0, 1]⟩ : Frame 2 ℚ) = true ∧
    Frame.isRectangular exactCfg (⟨.reference, !![2, 0; 0, 1]⟩ : Frame 2 ℚ) = true ∧
    Frame.isRectangular exactCfg (⟨.reference, !![2, 1; 0, 1]⟩ : Frame 2 ℚ) = false := by
  refine ⟨by decide +kernel, by decide +kernel, by decide +kernel⟩

/-- The hypotheses can be met, over the reals. -/
example : let cfg : Cfg ℝ := ⟨0, 0, Real.sqrt⟩
    (Frame.isCartesian cfg (⟨.rectangular, 1⟩ : Frame 2 ℝ) = true) := by
  intro cfg
  have hs : IsSqrt cfg.rt := fun x hx => ⟨Real.sqrt_nonneg x, Real.mul_self_sqrt hx⟩
  refine (C50_predicates_partial cfg rfl rfl hs ⟨.rectangular, 1⟩ (fun _ => ?_) (by simp)).2.2 ?_
  · intro i j hij
    fin_cases i <;> fin_cases j <;> simp_all [Matrix.one_apply]
  · intro i j
    fin_cases i <;> fin_cases j <;> simp [Matrix.one_apply]

end Verif.Frames.Props
