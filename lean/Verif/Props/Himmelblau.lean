import Verif.Props.TestFunctions
import Mathlib.Topology.Order.IntermediateValue
import Mathlib.Topology.Instances.Real.Lemmas

/-!
# C24: the listed optima of the function of Himmelblau are its minima up to the sixth decimal
-/

set_option linter.unusedSectionVars false

namespace Verif.TestFn.Props
open Verif.TestFn

/-- the other factor of `(11 - x²)² + x - 7 = (x - 3) (x³ + 3 x² - 13 x - 38)` -/
def cubic (x : ℝ) : ℝ := x ^ 3 + 3 * x ^ 2 - 13 * x - 38

theorem cubic_root (a b : ℝ) (hab : a ≤ b)
    (h : (cubic a ≤ 0 ∧ 0 ≤ cubic b) ∨ (cubic b ≤ 0 ∧ 0 ≤ cubic a)) :
    ∃ x, a ≤ x ∧ x ≤ b ∧ cubic x = 0 := by
  have hc : ContinuousOn cubic (Set.Icc a b) := by unfold cubic; fun_prop
  rcases h with h | h
  · obtain ⟨x, hx, e⟩ := intermediate_value_Icc hab hc ⟨h.1, h.2⟩
    exact ⟨x, hx.1, hx.2, e⟩
  · obtain ⟨x, hx, e⟩ := intermediate_value_Icc' hab hc ⟨h.1, h.2⟩
    exact ⟨x, hx.1, hx.2, e⟩

theorem cubic_only {r₁ r₂ r₃ x : ℝ} (h1 : cubic r₁ = 0) (h2 : cubic r₂ = 0) (h3 : cubic r₃ = 0)
    (h12 : r₁ ≠ r₂) (h13 : r₁ ≠ r₃) (h23 : r₂ ≠ r₃) (hx : cubic x = 0) : x = r₁ ∨ x = r₂ ∨ x = r₃ := by
  by_contra hn
  push Not at hn
  obtain ⟨n1, n2, n3⟩ := hn
  have q : ∀ t, cubic t = 0 → t ≠ r₁ → t ^ 2 + t * r₁ + r₁ ^ 2 + 3 * (t + r₁) - 13 = 0 := by
    intro t ht hne
    have : (t - r₁) * (t ^ 2 + t * r₁ + r₁ ^ 2 + 3 * (t + r₁) - 13) = 0 := by
      unfold cubic at ht h1
      linear_combination ht - h1
    exact (mul_eq_zero.mp this).resolve_left (sub_ne_zero.mpr hne)
  have l : ∀ t, cubic t = 0 → t ≠ r₁ → t ≠ r₂ → t + r₂ + r₁ + 3 = 0 := by
    intro t ht hne hne'
    have : (t - r₂) * (t + r₂ + r₁ + 3) = 0 := by
      linear_combination q t ht hne - q r₂ h2 h12.symm
    exact (mul_eq_zero.mp this).resolve_left (sub_ne_zero.mpr hne')
  exact n3 (by linarith [l x hx n1 n2, l r₃ h3 h13.symm h23.symm])

/-- **C24 (Himmelblau).** The function has exactly four global minima; the listed optima are these
four points up to less than one unit in the sixth decimal of each coordinate. (Not all of them are
rounded to nearest.) -/
theorem C24_himmelblau_decimals (s : ℕ) :
    ∃ l : List (ℝ × ℝ), l.Nodup ∧ l.length = 4 ∧
      (∀ o, IsGlobalMin (himmelblau s : TestFunction ℝ).f o ↔ o ∈ l) ∧
      List.Forall₂ (fun o m => |o.1 - m.1| < 1 / 10 ^ 6 ∧ |o.2 - m.2| < 1 / 10 ^ 6)
        (himmelblau s : TestFunction ℝ).optimums l := by
  obtain ⟨r₁, a1, b1, e1⟩ := cubic_root (-280511810 / 10 ^ 8) (-280511808 / 10 ^ 8) (by norm_num)
    (by norm_num [cubic])
  obtain ⟨r₂, a2, b2, e2⟩ := cubic_root (-377931026 / 10 ^ 8) (-377931024 / 10 ^ 8) (by norm_num)
    (by norm_num [cubic])
  obtain ⟨r₃, a3, b3, e3⟩ := cubic_root (358442833 / 10 ^ 8) (358442835 / 10 ^ 8) (by norm_num)
    (by norm_num [cubic])
  have h0 : ∀ x y : ℝ, 0 ≤ (himmelblau s : TestFunction ℝ).f x y := by
    intro x y
    simp only [himmelblau, testMinFunction2D]
    positivity
  have hz : ∀ o : ℝ × ℝ, IsGlobalMin (himmelblau s : TestFunction ℝ).f o ↔
      o.2 = 11 - o.1 ^ 2 ∧ (o.1 = 3 ∨ cubic o.1 = 0) := by
    intro o
    have hf : ∀ x y : ℝ, (himmelblau s : TestFunction ℝ).f x y =
      (x ^ 2 + y - 11) ^ 2 + (x + y ^ 2 - 7) ^ 2 := fun x y => rfl
    constructor
    · intro h
      have h' := h 3 2
      rw [hf, hf] at h'
      have z : (o.1 ^ 2 + o.2 - 11) ^ 2 + (o.1 + o.2 ^ 2 - 7) ^ 2 = 0 :=
        le_antisymm (h'.trans (by norm_num)) (by positivity)
      have z1 : o.1 ^ 2 + o.2 - 11 = 0 := by
        nlinarith [sq_nonneg (o.1 ^ 2 + o.2 - 11), sq_nonneg (o.1 + o.2 ^ 2 - 7)]
      have z2 : o.1 + o.2 ^ 2 - 7 = 0 := by
        nlinarith [sq_nonneg (o.1 ^ 2 + o.2 - 11), sq_nonneg (o.1 + o.2 ^ 2 - 7)]
      refine ⟨by linarith, ?_⟩
      have : (o.1 - 3) * cubic o.1 = 0 := by
        unfold cubic
        linear_combination z2 - (o.2 + 11 - o.1 ^ 2) * z1
      rcases mul_eq_zero.mp this with h | h
      · exact Or.inl (by linarith)
      · exact Or.inr h
    · rintro ⟨hy, hx⟩ x y
      refine le_trans (le_of_eq ?_) (h0 x y)
      rw [hf, hy]
      have : (o.1 - 3) * cubic o.1 = 0 := by
        rcases hx with h | h
        · rw [h]; ring
        · rw [h]; ring
      unfold cubic at this
      have e : o.1 + (11 - o.1 ^ 2) ^ 2 - 7 = 0 := by linear_combination this
      rw [e]
      ring
  refine ⟨[(3, 2), (r₁, 11 - r₁ ^ 2), (r₂, 11 - r₂ ^ 2), (r₃, 11 - r₃ ^ 2)], ?_, rfl, ?_, ?_⟩
  · have n1 : (3 : ℝ) ≠ r₁ := by intro h; norm_num [← h] at b1
    have n2 : (3 : ℝ) ≠ r₂ := by intro h; norm_num [← h] at b2
    have n3 : (3 : ℝ) ≠ r₃ := by intro h; norm_num [← h] at a3
    have n12 : r₁ ≠ r₂ := by intro h; rw [h] at a1; linarith
    have n13 : r₁ ≠ r₃ := by intro h; rw [h] at b1; linarith
    have n23 : r₂ ≠ r₃ := by intro h; rw [h] at b2; linarith
    simp [n1, n2, n3, n12, n13, n23]
  · intro o
    rw [hz]
    simp only [List.mem_cons, List.not_mem_nil, or_false, Prod.ext_iff]
    have n12 : r₁ ≠ r₂ := by intro h; rw [h] at a1; linarith
    have n13 : r₁ ≠ r₃ := by intro h; rw [h] at b1; linarith
    have n23 : r₂ ≠ r₃ := by intro h; rw [h] at b2; linarith
    constructor
    · rintro ⟨hy, hx | hx⟩
      · exact Or.inl ⟨hx, by rw [hy, hx]; norm_num⟩
      · rcases cubic_only e1 e2 e3 n12 n13 n23 hx with h | h | h
        · exact Or.inr (Or.inl ⟨h, by rw [hy, h]⟩)
        · exact Or.inr (Or.inr (Or.inl ⟨h, by rw [hy, h]⟩))
        · exact Or.inr (Or.inr (Or.inr ⟨h, by rw [hy, h]⟩))
    · rintro (⟨hx, hy⟩ | ⟨hx, hy⟩ | ⟨hx, hy⟩ | ⟨hx, hy⟩)
      · exact ⟨by rw [hx, hy]; norm_num, Or.inl hx⟩
      · exact ⟨by rw [hx, hy], Or.inr (by rw [hx, e1])⟩
      · exact ⟨by rw [hx, hy], Or.inr (by rw [hx, e2])⟩
      · exact ⟨by rw [hx, hy], Or.inr (by rw [hx, e3])⟩
  · rw [himmelblau, C24_optimums]
    refine .cons (by norm_num) (.cons ?_ (.cons ?_ (.cons ?_ .nil))) <;>
      simp only [abs_lt] <;> refine ⟨⟨?_, ?_⟩, ?_, ?_⟩ <;> first | linarith | nlinarith

/-- the second listed optimum is a minimum up to six decimals -/
example : ∃ m : ℝ × ℝ, IsGlobalMin (himmelblau 3 : TestFunction ℝ).f m ∧
    |-2805118 / 1000000 - m.1| < 1 / 10 ^ 6 ∧ |3131312 / 1000000 - m.2| < 1 / 10 ^ 6 := by
  obtain ⟨l, -, -, h1, h2⟩ := C24_himmelblau_decimals 3
  rw [himmelblau, C24_optimums] at h2
  cases h2 with
  | cons _ h2 =>
    cases h2 with
    | cons h _ => exact ⟨_, (h1 _).2 (by simp), h⟩

end Verif.TestFn.Props
