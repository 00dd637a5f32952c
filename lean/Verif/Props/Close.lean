import Verif.Model.Close
import Verif.Props.Frames
import Mathlib.Tactic.FinCases

/-!
# `np.allclose` and `np.isclose` of tensors (C78)
-/

set_option linter.unusedSectionVars false

namespace Verif.Close.Props
open Verif Verif.Frames Verif.Close Matrix

variable {n : ℕ} {K : Type} [Field K] [LinearOrder K] [IsStrictOrderedRing K]

theorem resolve_tensor (cfg : Cfg K) (a : Tensor n K) :
    (Arg.tensor a).resolve cfg = .ok (.ofComps (ambient a.frame.axes a.comps)) := by
  dsimp only [Arg.resolve, Tensor.show]
  rw [Frames.Props.C43_ambient]
  rfl

theorem allclose_tensor (cfg : Cfg K) (rtol atol : K) (a b : Tensor n K) :
    allclose cfg rtol atol (.tensor a) (.tensor b) =
      .ok (decide (∀ t, iscloseArr rtol atol (.ofComps (ambient a.frame.axes a.comps))
        (.ofComps (ambient b.frame.axes b.comps)) t = true)) := by
  unfold allclose
  simp only [resolve_tensor]
  rfl

theorem isclose_tensor (cfg : Cfg K) (rtol atol : K) (a b : Tensor n K) :
    isclose cfg rtol atol (.tensor a) (.tensor b) =
      .ok ⟨_, iscloseArr rtol atol (.ofComps (ambient a.frame.axes a.comps))
        (.ofComps (ambient b.frame.axes b.comps))⟩ := by
  unfold isclose
  simp only [resolve_tensor]
  rfl

theorem broadcast_same (a : Arr n K) (k : ℕ) (hk : k = a.ndim) (h : a.ndim ≤ k)
    (t : Fin k → Fin n) : a.broadcast k h t = a.entry fun j => t (Fin.cast hk.symm j) := by
  subst hk
  unfold Arr.broadcast
  congr 1
  funext j
  congr 1
  ext
  simp

/-- Arrays with the same number of axes are compared entry by entry. -/
theorem all_same (rtol atol : K) (r : ℕ) (a b : (Fin r → Fin n) → K) :
    (∀ t, iscloseArr rtol atol ⟨r, a⟩ ⟨r, b⟩ t = true) ↔
      ∀ t, |a t - b t| ≤ atol + rtol * |b t| := by
  have hm : max r r = r := max_self r
  unfold iscloseArr
  constructor
  · intro h t
    have := h (fun j => t (Fin.cast hm j))
    simp only [decide_eq_true_eq] at this
    rw [broadcast_same _ _ hm, broadcast_same _ _ hm] at this
    exact this
  · intro h t
    simp only [decide_eq_true_eq]
    rw [broadcast_same _ _ hm, broadcast_same _ _ hm]
    exact h _

/-- C78: two vectors are close if the coordinates of the physical vectors are. -/
theorem C78_vectors (cfg : Cfg K) (rtol atol : K) (v w : Fin n → K) (S T : Frame n K) :
    ∃ answer, allclose cfg rtol atol (.tensor ⟨.vec v, S⟩) (.tensor ⟨.vec w, T⟩) = .ok answer ∧
      (answer = true ↔ ∀ i, |∑ j, v j * S.axes j i - ∑ j, w j * T.axes j i| ≤
        atol + rtol * |∑ j, w j * T.axes j i|) := by
  refine ⟨_, allclose_tensor cfg rtol atol _ _, ?_⟩
  rw [decide_eq_true_iff]
  refine (all_same rtol atol 1 _ _).trans ⟨fun h i => h fun _ => i, fun h t => h (t 0)⟩

/-- C78: two second order tensors. -/
theorem C78_matrices (cfg : Cfg K) (rtol atol : K) (A B : Mat n K) (S T : Frame n K) :
    ∃ answer, allclose cfg rtol atol (.tensor ⟨.ten2 A, S⟩) (.tensor ⟨.ten2 B, T⟩) = .ok answer ∧
      (answer = true ↔ ∀ i j, |(S.axesᵀ * A * S.axes) i j - (T.axesᵀ * B * T.axes) i j| ≤
        atol + rtol * |(T.axesᵀ * B * T.axes) i j|) := by
  refine ⟨_, allclose_tensor cfg rtol atol _ _, ?_⟩
  rw [decide_eq_true_iff, ambient_eq, ambient_eq]
  refine (all_same rtol atol 2 _ _).trans ⟨fun h i j => ?_, fun h t => ?_⟩
  · have := h ![i, j]
    simpa [transpose_transpose] using this
  · have := h (t 0) (t 1)
    simpa [transpose_transpose] using this

/-- C78: two tensors of any order. -/
theorem C78_general (cfg : Cfg K) (rtol atol : K) (r : ℕ) (a b : (Fin r → Fin n) → K)
    (S T : Frame n K) :
    ∃ answer, allclose cfg rtol atol (.tensor ⟨.gen r a, S⟩) (.tensor ⟨.gen r b, T⟩) = .ok answer ∧
      (answer = true ↔ ∀ t : Fin r → Fin n, |∑ s, a s * ∏ k, S.axes (s k) (t k) -
          ∑ s, b s * ∏ k, T.axes (s k) (t k)| ≤
        atol + rtol * |∑ s, b s * ∏ k, T.axes (s k) (t k)|) := by
  refine ⟨_, allclose_tensor cfg rtol atol _ _, ?_⟩
  rw [decide_eq_true_iff]
  exact all_same rtol atol r _ _

/-- C78: the answers do not depend on the frames in which the tensors are given. -/
theorem C78_objective (cfg cfg' : Cfg K) (rtol atol : K) (a a' b b' : Tensor n K)
    (ha : ambient a.frame.axes a.comps = ambient a'.frame.axes a'.comps)
    (hb : ambient b.frame.axes b.comps = ambient b'.frame.axes b'.comps) :
    allclose cfg rtol atol (.tensor a) (.tensor b) =
      allclose cfg' rtol atol (.tensor a') (.tensor b') ∧
    isclose cfg rtol atol (.tensor a) (.tensor b) =
      isclose cfg' rtol atol (.tensor a') (.tensor b') := by
  rw [allclose_tensor, allclose_tensor, isclose_tensor, isclose_tensor, ha, hb]
  exact ⟨rfl, rfl⟩

/-- C78: showing a tensor in another frame does not change the answer. -/
theorem C78_show (cfg : Cfg K) (rtol atol : K) (S T : Frame n K) (hT : CartOK T) (c d : Comps n K)
    (h : showIn cfg S c (some T) = .ok d) (b : Tensor n K) :
    allclose cfg rtol atol (.tensor ⟨d, T⟩) (.tensor b) =
      allclose cfg rtol atol (.tensor ⟨c, S⟩) (.tensor b) := by
  obtain ⟨Q, hQ, rfl⟩ := showIn_ok h
  exact (C78_objective cfg cfg rtol atol _ _ b b (ambient_transform hT hQ c) rfl).1

/-- C78: a tensor is close to itself, however it is given. -/
theorem C78_reflexive (cfg : Cfg K) (rtol atol : K) (hr : 0 ≤ rtol) (ha : 0 ≤ atol) (a b : Tensor n K)
    (h : ambient a.frame.axes a.comps = ambient b.frame.axes b.comps) :
    allclose cfg rtol atol (.tensor a) (.tensor b) = .ok true := by
  rw [allclose_tensor, h]
  have key : ∀ c : Arr n K, ∀ t, iscloseArr rtol atol c c t = true := by
    rintro ⟨r, c⟩
    refine (all_same rtol atol r c c).2 fun t => ?_
    rw [sub_self, abs_zero]
    exact add_nonneg ha (mul_nonneg hr (abs_nonneg _))
  rw [decide_eq_true (key _)]

/-- C78: without tolerances, vectors are close if and only if they are the same. -/
theorem C78_exact (cfg : Cfg K) (v w : Fin n → K) (S T : Frame n K) :
    allclose cfg 0 0 (.tensor ⟨.vec v, S⟩) (.tensor ⟨.vec w, T⟩) = .ok true ↔
      ∀ i, ∑ j, v j * S.axes j i = ∑ j, w j * T.axes j i := by
  obtain ⟨x, h1, h2⟩ := C78_vectors cfg 0 0 v w S T
  rw [h1]
  constructor
  · intro h i
    have := h2.1 (by injection h) i
    rw [zero_mul, add_zero] at this
    exact sub_eq_zero.1 (abs_nonpos_iff.1 this)
  · intro h
    rw [h2.2 fun i => by rw [h i]; simp]

/-- C78: the entries of the answer of `np.isclose`, for vectors. -/
theorem C78_isclose (cfg : Cfg K) (rtol atol : K) (v w : Fin n → K) (S T : Frame n K) :
    ∃ f : (Fin 1 → Fin n) → Bool,
      isclose cfg rtol atol (.tensor ⟨.vec v, S⟩) (.tensor ⟨.vec w, T⟩) = .ok ⟨1, f⟩ ∧
      ∀ i, (f (fun _ => i) = true ↔ |∑ j, v j * S.axes j i - ∑ j, w j * T.axes j i| ≤
        atol + rtol * |∑ j, w j * T.axes j i|) := by
  refine ⟨_, isclose_tensor cfg rtol atol _ _, fun i => ?_⟩
  unfold iscloseArr
  simp only [decide_eq_true_eq]
  rfl

/-- C78: the components with respect to the ambient frame are compared with a number. -/
theorem C78_number (cfg : Cfg K) (rtol atol x : K) (v : Fin n → K) (S : Frame n K) :
    ∃ answer, allclose cfg rtol atol (.tensor ⟨.vec v, S⟩) (.number x) = .ok answer ∧
      (answer = true ↔ ∀ i, |∑ j, v j * S.axes j i - x| ≤ atol + rtol * |x|) := by
  refine ⟨decide (∀ t, iscloseArr rtol atol (.ofComps (ambient S.axes (.vec v)))
        (⟨0, fun _ => x⟩ : Arr n K) t = true), ?_, ?_⟩
  · unfold allclose
    simp only [resolve_tensor]
    rfl
  · rw [decide_eq_true_iff]
    unfold iscloseArr
    simp only [decide_eq_true_eq]
    exact ⟨fun h i => h fun _ => i, fun h t => h _⟩

/-- C78: arrays cannot be mixed with tensors. -/
theorem C78_refused (cfg : Cfg K) (rtol atol : K) (a : Arg n K) :
    allclose cfg rtol atol a .array = .error .type ∧ allclose cfg rtol atol .array a = .error .type ∧
    isclose cfg rtol atol a .array = .error .type ∧ isclose cfg rtol atol .array a = .error .type := by
  cases a <;> exact ⟨rfl, rfl, rfl, rfl⟩

/-- C78 is violated: tensors of different rank are compared by repeating the components; the vector
`(1, 1)` is close to the second order tensor with all components one. -/
theorem C78_rank_violated (cfg : Cfg ℚ) :
    allclose cfg 0 0 (.tensor (⟨.vec ![1, 1], ⟨.reference, 1⟩⟩ : Tensor 2 ℚ))
      (.tensor ⟨.ten2 !![1, 1; 1, 1], ⟨.reference, 1⟩⟩) = .ok true := by
  rw [allclose_tensor]
  refine congrArg Except.ok ?_
  decide +kernel

/-- C78 is violated: the order of the arguments matters. -/
theorem C78_asymmetric_violated (cfg : Cfg ℚ) :
    allclose cfg (1 / 2) 0 (.tensor (⟨.vec ![1], ⟨.reference, 1⟩⟩ : Tensor 1 ℚ))
      (.tensor ⟨.vec ![2], ⟨.reference, 1⟩⟩) = .ok true ∧
    allclose cfg (1 / 2) 0 (.tensor (⟨.vec ![2], ⟨.reference, 1⟩⟩ : Tensor 1 ℚ))
      (.tensor ⟨.vec ![1], ⟨.reference, 1⟩⟩) = .ok false := by
  rw [allclose_tensor, allclose_tensor]
  constructor <;> refine congrArg Except.ok ?_ <;> decide +kernel

/-- The vector `(1, 2)` and the same vector in the frame with the rows `(2, 0)` and `(1, 1)`. -/
example (cfg : Cfg ℚ) :
    allclose cfg 0 0 (.tensor (⟨.vec ![1, 2], ⟨.reference, 1⟩⟩ : Tensor 2 ℚ))
      (.tensor ⟨.vec ![-1 / 2, 2], ⟨.reference, !![2, 0; 1, 1]⟩⟩) = .ok true :=
  C78_reflexive cfg 0 0 le_rfl le_rfl _ _ (by
    show Comps.vec _ = Comps.vec _
    refine congrArg Comps.vec ?_
    decide +kernel)

end Verif.Close.Props
