import Verif.Model.Weights
import Mathlib.Algebra.Order.Field.Basic
import Mathlib.Tactic.Linarith
import Mathlib.Tactic.FieldSimp
import Mathlib.Tactic.Ring
import Mathlib.Tactic.Positivity
import Mathlib.Analysis.Calculus.Deriv.Mul
import Mathlib.Analysis.Calculus.Deriv.Add
import Mathlib.Analysis.Calculus.Deriv.Comp
import Mathlib.Analysis.Calculus.Deriv.Pow

/-!
# Lemmas about weight functions
-/

set_option linter.unusedSectionVars false

namespace Verif.Wt
open Verif Verif.LS

section
variable {K : Type} [Field K] [LinearOrder K] [IsStrictOrderedRing K]

/-- The cubic spline with the knots -1, -1/2, 0, 1/2, 1. -/
def W (r : K) : K := 4 / 3 * (max (r + 1) 0 ^ 3 - 4 * max (r + 1 / 2) 0 ^ 3 + 6 * max r 0 ^ 3 -
  4 * max (r - 1 / 2) 0 ^ 3 + max (r - 1) 0 ^ 3)

/-- Its first derivative. -/
def W1 (r : K) : K := 4 * (max (r + 1) 0 ^ 2 - 4 * max (r + 1 / 2) 0 ^ 2 + 6 * max r 0 ^ 2 -
  4 * max (r - 1 / 2) 0 ^ 2 + max (r - 1) 0 ^ 2)

/-- Its second derivative. -/
def W2 (r : K) : K := 8 * (max (r + 1) 0 - 4 * max (r + 1 / 2) 0 + 6 * max r 0 -
  4 * max (r - 1 / 2) 0 + max (r - 1) 0)

theorem W_neg (r : K) : W (-r) = W r := by
  have key : ∀ a : K, max (-a) 0 ^ 3 = max a 0 ^ 3 - a ^ 3 := by
    intro a
    rcases le_total 0 a with h | h
    · rw [max_eq_right (by linarith), max_eq_left h]; ring
    · rw [max_eq_left (by linarith), max_eq_right h]; ring
  unfold W
  have h1 := key (r - 1)
  have h2 := key (r - 1 / 2)
  have h3 := key r
  have h4 := key (r + 1 / 2)
  have h5 := key (r + 1)
  rw [show -(r - 1) = -r + 1 by ring] at h1
  rw [show -(r - 1 / 2) = -r + 1 / 2 by ring] at h2
  rw [show -(r + 1 / 2) = -r - 1 / 2 by ring] at h4
  rw [show -(r + 1) = -r - 1 by ring] at h5
  rw [h1, h2, h3, h4, h5]
  ring

theorem W1_neg (r : K) : W1 (-r) = -W1 r := by
  have key : ∀ a : K, max (-a) 0 ^ 2 = a ^ 2 - max a 0 ^ 2 := by
    intro a
    rcases le_total 0 a with h | h
    · rw [max_eq_right (by linarith), max_eq_left h]; ring
    · rw [max_eq_left (by linarith), max_eq_right h]; ring
  unfold W1
  have h1 := key (r - 1)
  have h2 := key (r - 1 / 2)
  have h3 := key r
  have h4 := key (r + 1 / 2)
  have h5 := key (r + 1)
  rw [show -(r - 1) = -r + 1 by ring] at h1
  rw [show -(r - 1 / 2) = -r + 1 / 2 by ring] at h2
  rw [show -(r + 1 / 2) = -r - 1 / 2 by ring] at h4
  rw [show -(r + 1) = -r - 1 by ring] at h5
  rw [h1, h2, h3, h4, h5]
  ring

theorem W2_neg (r : K) : W2 (-r) = W2 r := by
  have key : ∀ a : K, max (-a) 0 = max a 0 - a := by
    intro a
    rcases le_total 0 a with h | h
    · rw [max_eq_right (by linarith), max_eq_left h]; ring
    · rw [max_eq_left (by linarith), max_eq_right h]; ring
  unfold W2
  have h1 := key (r - 1)
  have h2 := key (r - 1 / 2)
  have h3 := key r
  have h4 := key (r + 1 / 2)
  have h5 := key (r + 1)
  rw [show -(r - 1) = -r + 1 by ring] at h1
  rw [show -(r - 1 / 2) = -r + 1 / 2 by ring] at h2
  rw [show -(r + 1 / 2) = -r - 1 / 2 by ring] at h4
  rw [show -(r + 1) = -r - 1 by ring] at h5
  rw [h1, h2, h3, h4, h5]
  ring

/-- The polynomials on the intervals, for nonnegative arguments. -/
theorem W_inner {r : K} (h0 : 0 ≤ r) (h1 : r ≤ 1 / 2) :
    W r = 2 / 3 - 4 * r ^ 2 + 4 * r ^ 3 ∧ W1 r = -8 * r + 12 * r ^ 2 ∧ W2 r = -8 + 24 * r := by
  unfold W W1 W2
  rw [max_eq_left (by linarith : (0 : K) ≤ r + 1), max_eq_left (by linarith : (0 : K) ≤ r + 1 / 2),
    max_eq_left h0, max_eq_right (by linarith : r - 1 / 2 ≤ 0),
    max_eq_right (by linarith : r - 1 ≤ 0)]
  refine ⟨by ring, by ring, by ring⟩

theorem W_outer {r : K} (h0 : 1 / 2 ≤ r) (h1 : r ≤ 1) :
    W r = 4 / 3 - 4 * r + 4 * r ^ 2 - (4 / 3) * r ^ 3 ∧ W1 r = -4 + 8 * r - 4 * r ^ 2 ∧
      W2 r = 8 - 8 * r := by
  unfold W W1 W2
  rw [max_eq_left (by linarith : (0 : K) ≤ r + 1), max_eq_left (by linarith : (0 : K) ≤ r + 1 / 2),
    max_eq_left (by linarith : (0 : K) ≤ r), max_eq_left (by linarith : 0 ≤ r - 1 / 2),
    max_eq_right (by linarith : r - 1 ≤ 0)]
  refine ⟨by ring, by ring, by ring⟩

theorem W_outside {r : K} (h0 : 1 ≤ r) : W r = 0 ∧ W1 r = 0 ∧ W2 r = 0 := by
  unfold W W1 W2
  rw [max_eq_left (by linarith : (0 : K) ≤ r + 1), max_eq_left (by linarith : (0 : K) ≤ r + 1 / 2),
    max_eq_left (by linarith : (0 : K) ≤ r), max_eq_left (by linarith : 0 ≤ r - 1 / 2),
    max_eq_left (by linarith : 0 ≤ r - 1)]
  refine ⟨by ring, by ring, by ring⟩

/-- The branches of the code as one spline. -/
theorem cubicR_abs (dif dm : K) (hdm : 0 < dm) :
    (cubicR dif dm).1 = W (|dif| / dm) ∧
    (cubicR dif dm).2.1 = W1 (|dif| / dm) *
      (if |dif| < 1 / 10 ^ 12 then 0 else (dif / |dif|) / dm) ∧
    (cubicR dif dm).2.2 = W2 (|dif| / dm) *
      (if |dif| < 1 / 10 ^ 12 then 0 else (dif / |dif|) / dm) *
      (if |dif| < 1 / 10 ^ 12 then 0 else (dif / |dif|) / dm) := by
  have h0 : 0 ≤ |dif| / dm := div_nonneg (abs_nonneg _) hdm.le
  unfold cubicR
  simp only
  by_cases h1 : |dif| / dm ≤ 1 / 2
  · obtain ⟨e1, e2, e3⟩ := W_inner h0 h1
    rw [if_pos h1, e1, e2, e3]
    exact ⟨rfl, rfl, rfl⟩
  · rw [if_neg h1]
    by_cases h2 : |dif| / dm ≤ 1
    · obtain ⟨e1, e2, e3⟩ := W_outer (not_le.1 h1).le h2
      rw [if_pos ⟨not_le.1 h1, h2⟩, e1, e2, e3]
      exact ⟨rfl, rfl, rfl⟩
    · obtain ⟨e1, e2, e3⟩ := W_outside (not_le.1 h2).le
      rw [if_neg (fun h => h2 h.2), e1, e2, e3]
      simp

theorem W_abs (d dm : K) : W (|d| / dm) = W (d / dm) := by
  rcases le_total 0 d with h | h
  · rw [abs_of_nonneg h]
  · rw [abs_of_nonpos h, neg_div, W_neg]

theorem cubicR_value (dif dm : K) (hdm : 0 < dm) : (cubicR dif dm).1 = W (dif / dm) := by
  rw [(cubicR_abs dif dm hdm).1, W_abs]

/-- Away from the core the reported derivatives are those of the spline. -/
theorem cubicR_derivs (dif dm : K) (hdm : 0 < dm) (h : 1 / 10 ^ 12 ≤ |dif|) :
    (cubicR dif dm).2.1 = W1 (dif / dm) / dm ∧ (cubicR dif dm).2.2 = W2 (dif / dm) / dm ^ 2 := by
  obtain ⟨-, h1, h2⟩ := cubicR_abs dif dm hdm
  rw [h1, h2, if_neg (not_lt.2 h)]
  have hpos : 0 < |dif| := lt_of_lt_of_le (by positivity) h
  rcases le_total 0 dif with hd | hd
  · rw [abs_of_nonneg hd] at hpos ⊢
    rw [div_self hpos.ne']
    constructor <;> field_simp
  · rw [abs_of_nonpos hd] at hpos ⊢
    rw [div_neg, div_self (by intro h0; rw [h0] at hpos; simp at hpos), neg_div, W1_neg, W2_neg]
    constructor <;> field_simp

theorem W1_zero : W1 (0 : K) = 0 := by
  rw [(W_inner le_rfl (by positivity)).2.1]; ring

theorem W2_zero : W2 (0 : K) = -8 := by
  rw [(W_inner le_rfl (by positivity)).2.2]; ring

theorem cubicR_near (dif dm : K) (hdm : 0 < dm) (h : |dif| < 1 / 10 ^ 12) :
    (cubicR dif dm).2.1 = 0 ∧ (cubicR dif dm).2.2 = 0 := by
  obtain ⟨-, h1, h2⟩ := cubicR_abs dif dm hdm
  rw [h1, h2, if_pos h]
  simp

/-- At the core, and away from it, the reported first derivative is that of the spline. -/
theorem cubicR_first (dif dm : K) (hdm : 0 < dm) (h : dif = 0 ∨ 1 / 10 ^ 12 ≤ |dif|) :
    (cubicR dif dm).2.1 = W1 (dif / dm) / dm := by
  rcases h with rfl | h
  · rw [(cubicR_near 0 dm hdm (by simp)).1, zero_div, W1_zero, zero_div]
  · exact (cubicR_derivs dif dm hdm h).1

/-! ## Bounds -/

theorem W_bounds {r : K} (h0 : 0 ≤ r) : 0 ≤ W r ∧ W r ≤ 2 / 3 ∧ (r < 1 → 0 < W r) := by
  rcases le_total r (1 / 2) with h | h
  · rw [(W_inner h0 h).1]
    have h1 : 0 ≤ r * r * (1 - r) := mul_nonneg (mul_nonneg h0 h0) (by linarith)
    have h2 : r * r * (1 - r) ≤ 1 / 4 := by nlinarith
    have hp : 0 < 2 / 3 - 4 * r ^ 2 + 4 * r ^ 3 := by
      have : r * r * (1 - r) ≤ 1 / 8 := by nlinarith [mul_nonneg h0 (sub_nonneg.2 h)]
      nlinarith
    exact ⟨hp.le, by nlinarith, fun _ => hp⟩
  · rcases le_total r 1 with h' | h'
    · rw [(W_outer h h').1]
      have h3 : 4 / 3 - 4 * r + 4 * r ^ 2 - 4 / 3 * r ^ 3 = 4 / 3 * (1 - r) ^ 3 := by ring
      rw [h3]
      have h4 : 0 ≤ 1 - r := by linarith
      refine ⟨by positivity, ?_, fun hlt => ?_⟩
      · have h5 : (1 - r) ^ 3 ≤ (1 / 2) ^ 3 := pow_le_pow_left₀ h4 (by linarith) 3
        nlinarith
      · have : 0 < 1 - r := by linarith
        positivity
    · rw [(W_outside h').1]
      exact ⟨le_rfl, by positivity, fun h => absurd h (not_lt.2 h')⟩

/-- The spline does not increase away from the origin. -/
theorem W_antitone {r s : K} (h0 : 0 ≤ r) (h : r ≤ s) : W s ≤ W r := by
  have inner : ∀ {r s : K}, 0 ≤ r → r ≤ s → s ≤ 1 / 2 → W s ≤ W r := by
    intro r s h0 h h1
    rw [(W_inner (h0.trans h) h1).1, (W_inner h0 (h.trans h1)).1]
    have h2 : 0 ≤ (s - r) * ((s + r) - (s ^ 2 + s * r + r ^ 2)) := by
      refine mul_nonneg (sub_nonneg.2 h) ?_
      nlinarith [mul_nonneg h0 (h0.trans h)]
    nlinarith
  have outer : ∀ {r s : K}, 1 / 2 ≤ r → r ≤ s → W s ≤ W r := by
    intro r s h0 h
    rcases le_total s 1 with h1 | h1
    · rw [(W_outer (h0.trans h) h1).1, (W_outer h0 (h.trans h1)).1]
      have h5 : (1 - s) ^ 3 ≤ (1 - r) ^ 3 := pow_le_pow_left₀ (by linarith) (by linarith) 3
      nlinarith
    · rw [(W_outside h1).1]
      exact (W_bounds (by linarith)).1
  rcases le_total s (1 / 2) with h1 | h1
  · exact inner h0 h h1
  · rcases le_total r (1 / 2) with h2 | h2
    · exact (outer le_rfl h1).trans (inner h0 h2 le_rfl)
    · exact outer h2 h

end

/-! ## Derivatives of the spline -/

theorem hasDerivAt_max_pow (n : ℕ) (s : ℝ) :
    HasDerivAt (fun s : ℝ => max s 0 ^ (n + 2)) ((n + 2) * max s 0 ^ (n + 1)) s := by
  rcases lt_trichotomy s 0 with h | h | h
  · rw [max_eq_right h.le]
    have : HasDerivAt (fun _ : ℝ => (0 : ℝ)) 0 s := hasDerivAt_const s 0
    rw [zero_pow (by omega), mul_zero]
    refine this.congr_of_eventuallyEq ?_
    filter_upwards [gt_mem_nhds h] with t ht
    rw [max_eq_right ht.le, zero_pow (by omega)]
  · subst h
    rw [max_self, zero_pow (by omega), mul_zero]
    rw [hasDerivAt_iff_isLittleO_nhds_zero]
    simp only [zero_add, max_self, smul_zero, sub_zero]
    rw [zero_pow (by omega)]
    simp only [sub_zero]
    refine Asymptotics.IsBigO.trans_isLittleO (g := fun h : ℝ => h ^ (n + 2)) ?_ ?_
    · refine Asymptotics.IsBigO.of_bound 1 (Filter.Eventually.of_forall fun t => ?_)
      rw [one_mul, Real.norm_eq_abs, Real.norm_eq_abs, abs_pow, abs_pow]
      refine pow_le_pow_left₀ (abs_nonneg _) ?_ _
      rcases le_total 0 t with ht | ht
      · rw [max_eq_left ht]
      · rw [max_eq_right ht, abs_zero]
        exact abs_nonneg _
    · exact Asymptotics.isLittleO_pow_id (by omega)
  · rw [max_eq_left h.le]
    have := hasDerivAt_pow (n + 2) s
    refine (this.congr_deriv (by push_cast; rfl)).congr_of_eventuallyEq ?_
    filter_upwards [lt_mem_nhds h] with t ht
    rw [max_eq_left ht.le]

theorem hasDerivAt_shift (n : ℕ) (s c : ℝ) :
    HasDerivAt (fun s : ℝ => max (s + c) 0 ^ (n + 2)) ((n + 2) * max (s + c) 0 ^ (n + 1)) s := by
  have h := (hasDerivAt_max_pow n (s + c)).comp s ((hasDerivAt_id s).add_const c)
  exact h.congr_deriv (by simp)

theorem hasDerivAt_W (r : ℝ) : HasDerivAt W (W1 r) r := by
  have h := (((((hasDerivAt_shift 1 r 1).sub ((hasDerivAt_shift 1 r (1 / 2)).const_mul 4)).add
    ((hasDerivAt_shift 1 r 0).const_mul 6)).sub ((hasDerivAt_shift 1 r (-(1 / 2))).const_mul 4)).add
    (hasDerivAt_shift 1 r (-1))).const_mul (4 / 3)
  refine (h.congr_deriv ?_).congr_of_eventuallyEq (Filter.Eventually.of_forall fun s => ?_)
  · unfold W1
    simp only [add_zero, ← sub_eq_add_neg]
    push_cast
    ring
  · unfold W
    simp [sub_eq_add_neg]

theorem hasDerivAt_W1 (r : ℝ) : HasDerivAt W1 (W2 r) r := by
  have h := (((((hasDerivAt_shift 0 r 1).sub ((hasDerivAt_shift 0 r (1 / 2)).const_mul 4)).add
    ((hasDerivAt_shift 0 r 0).const_mul 6)).sub ((hasDerivAt_shift 0 r (-(1 / 2))).const_mul 4)).add
    (hasDerivAt_shift 0 r (-1))).const_mul 4
  refine (h.congr_deriv ?_).congr_of_eventuallyEq (Filter.Eventually.of_forall fun s => ?_)
  · unfold W2
    simp only [add_zero, ← sub_eq_add_neg]
    push_cast
    ring
  · unfold W1
    simp [sub_eq_add_neg]

end Verif.Wt
