import Verif.Model.TestFunctions
import Mathlib.Data.Rat.Floor
import Mathlib.Tactic.Linarith
import Mathlib.Tactic.LinearCombination
import Mathlib.Tactic.NormNum
import Mathlib.Tactic.Positivity
import Mathlib.Tactic.FieldSimp
import Mathlib.Tactic.Ring

set_option linter.unusedSectionVars false

/-!
# C24: the listed optima of the test functions

`s` is the number of keyword arguments produced by `symbolize`, which does not matter.
-/

namespace Verif.TestFn.Props

open Verif.TestFn

/-- No point has a smaller value than `o`. -/
def IsGlobalMin {K : Type} [LE K] (f : K → K → K) (o : K × K) : Prop := ∀ x y, f o.1 o.2 ≤ f x y

/-- `o` is the only point with the smallest value. -/
def IsOnlyMin {K : Type} [LE K] (f : K → K → K) (o : K × K) : Prop :=
  IsGlobalMin f o ∧ ∀ x y, f x y ≤ f o.1 o.2 → (x, y) = o

theorem collect_replicate {K : Type} (s : ℕ) (opts : List (K × K)) :
    collectOptimums (List.replicate s Kwarg.other ++ [.optimums opts] ++ [.optText]) = opts := by
  induction s with
  | zero => simp [collectOptimums]
  | succ n ih =>
    rw [List.replicate_succ, List.cons_append, List.cons_append, collectOptimums, ih]

section
variable {K : Type} [Field K] [LinearOrder K] [IsStrictOrderedRing K]

/-- The constructors list the optima they were given. -/
theorem C24_optimums (f : K → K → K) (s : ℕ) (opts : List (K × K)) :
    (testMinFunction2D f s opts).optimums = opts := collect_replicate s opts

/-- **C24 (Rosenbrock), partial.** With `a = 1` and any `b > 0` the listed optimum is the only
global minimum.  Missing: other values of `a`, see `C24_rosenbrock_violation`. -/
theorem C24_rosenbrock_partial (b : K) (hb : 0 < b) (s : ℕ) :
    (rosenbrock 1 b s).optimums = [(1, 1)] ∧ IsOnlyMin (rosenbrock 1 b s).f (1, 1) := by
  refine ⟨C24_optimums _ _ _, ?_, ?_⟩
  · intro x y
    simp only [rosenbrock, testMinFunction2D]
    have := mul_nonneg hb.le (sq_nonneg (y - x ^ 2))
    nlinarith [sq_nonneg (1 - x)]
  · intro x y h
    simp only [rosenbrock, testMinFunction2D] at h
    have h1 := mul_nonneg hb.le (sq_nonneg (y - x ^ 2))
    have h2 : (1 - x) ^ 2 = 0 := by nlinarith [sq_nonneg (1 - x)]
    have h3 : b * (y - x ^ 2) ^ 2 = 0 := by nlinarith [sq_nonneg (1 - x)]
    have hx : x = 1 := by
      have := pow_eq_zero_iff (n := 2) (by norm_num) |>.1 h2
      linarith
    have hy : y - x ^ 2 = 0 := by
      rcases mul_eq_zero.1 h3 with h | h
      · exact absurd h hb.ne'
      · exact pow_eq_zero_iff (n := 2) (by norm_num) |>.1 h
    subst hx
    have : y = 1 := by linarith
    rw [this]

/-- The minimum of the Rosenbrock function is at `(a, a²)`. -/
theorem C24_rosenbrock_minimum (a b : K) (hb : 0 < b) (s : ℕ) :
    IsOnlyMin (rosenbrock a b s).f (a, a ^ 2) := by
  refine ⟨?_, ?_⟩
  · intro x y
    simp only [rosenbrock, testMinFunction2D]
    have := mul_nonneg hb.le (sq_nonneg (y - x ^ 2))
    nlinarith [sq_nonneg (a - x)]
  · intro x y h
    simp only [rosenbrock, testMinFunction2D, sub_self] at h
    have h1 := mul_nonneg hb.le (sq_nonneg (y - x ^ 2))
    have h2 : (a - x) ^ 2 = 0 := by nlinarith [sq_nonneg (a - x)]
    have h3 : b * (y - x ^ 2) ^ 2 = 0 := by nlinarith [sq_nonneg (a - x)]
    have hx : a = x := by
      have := pow_eq_zero_iff (n := 2) (by norm_num) |>.1 h2
      linarith
    have hy : y - x ^ 2 = 0 := by
      rcases mul_eq_zero.1 h3 with h | h
      · exact absurd h hb.ne'
      · exact pow_eq_zero_iff (n := 2) (by norm_num) |>.1 h
    subst hx
    have : y = a ^ 2 := by linarith
    rw [this]

/-- **C24 is violated (Rosenbrock)** for every `a ≠ 1` and `b > 0`: the listed optimum is not a
minimum. -/
theorem C24_rosenbrock_violation (a b : K) (ha : a ≠ 1) (hb : 0 < b) (s : ℕ) :
    ∃ o ∈ (rosenbrock a b s).optimums, ¬ IsGlobalMin (rosenbrock a b s).f o := by
  refine ⟨(1, 1), by rw [rosenbrock, C24_optimums]; simp, fun h => ?_⟩
  have := (C24_rosenbrock_minimum a b hb s).2 1 1 (h a (a ^ 2))
  exact ha (congrArg Prod.fst this).symm

/-- **C24 (Himmelblau), partial.** The first listed optimum is a global minimum and the other
three are minima up to `2e-11`.  Missing: exactness, see `C24_himmelblau_violation`. -/
theorem C24_himmelblau_partial (s : ℕ) :
    (∃ r : List (K × K), (himmelblau s : TestFunction K).optimums = (3, 2) :: r ∧ r.length = 3) ∧
    IsGlobalMin (himmelblau s : TestFunction K).f (3, 2) ∧
    ∀ o ∈ (himmelblau s : TestFunction K).optimums, ∀ x y,
      (himmelblau s : TestFunction K).f o.1 o.2 ≤
        (himmelblau s : TestFunction K).f x y + 2 / 10 ^ 11 := by
  have hpos : ∀ x y, 0 ≤ (himmelblau s : TestFunction K).f x y := by
    intro x y
    simp only [himmelblau, testMinFunction2D]
    positivity
  refine ⟨⟨_, C24_optimums _ _ _, rfl⟩, ?_, ?_⟩
  · intro x y
    have h0 : (himmelblau s : TestFunction K).f 3 2 = 0 := by
      simp only [himmelblau, testMinFunction2D]; norm_num
    simp only
    rw [h0]
    exact hpos x y
  · intro o ho x y
    have hxy := hpos x y
    have hb : (himmelblau s : TestFunction K).f o.1 o.2 ≤ 2 / 10 ^ 11 := by
      rw [himmelblau, C24_optimums] at ho
      simp only [List.mem_cons, List.not_mem_nil, or_false] at ho
      rcases ho with rfl | rfl | rfl | rfl <;> simp only [himmelblau, testMinFunction2D] <;>
        norm_num
    linarith

/-- **C24 is violated (Himmelblau)**: the three rounded points are not minima. -/
theorem C24_himmelblau_violation (s : ℕ) :
    ∀ o ∈ (himmelblau s : TestFunction K).optimums, o ≠ (3, 2) →
      ¬ IsGlobalMin (himmelblau s : TestFunction K).f o := by
  intro o ho hne h
  have h3 := h 3 2
  rw [himmelblau, C24_optimums] at ho
  simp only [List.mem_cons, List.not_mem_nil, or_false] at ho
  rcases ho with rfl | rfl | rfl | rfl
  · exact hne rfl
  all_goals
    simp only [himmelblau, testMinFunction2D] at h3
    norm_num at h3

theorem goldstein_first (u : K) : 1 ≤ 1 + (u + 1) ^ 2 * (19 - 14 * u + 3 * u ^ 2) := by
  have : 0 ≤ 19 - 14 * u + 3 * u ^ 2 := by nlinarith [sq_nonneg (3 * u - 7)]
  nlinarith [mul_nonneg (sq_nonneg (u + 1)) this]

theorem goldstein_second (v : K) : 3 ≤ 30 + v ^ 2 * (18 - 16 * v + 3 * v ^ 2) := by
  have h : 30 + v ^ 2 * (18 - 16 * v + 3 * v ^ 2) = 3 + (v - 3) ^ 2 * (3 * v ^ 2 + 2 * v + 3) := by
    ring
  have : 0 ≤ 3 * v ^ 2 + 2 * v + 3 := by nlinarith [sq_nonneg (3 * v + 1)]
  rw [h]
  nlinarith [mul_nonneg (sq_nonneg (v - 3)) this]

theorem goldstein_eq (s : ℕ) (x y : K) : (goldsteinPrice s).f x y =
    (1 + ((x + y) + 1) ^ 2 * (19 - 14 * (x + y) + 3 * (x + y) ^ 2)) *
    (30 + (2 * x - 3 * y) ^ 2 * (18 - 16 * (2 * x - 3 * y) + 3 * (2 * x - 3 * y) ^ 2)) := by
  simp only [goldsteinPrice, testMinFunction2D]
  ring

/-- **C24 (Goldstein-Price).** The listed optimum is the only global minimum, with value 3. -/
theorem C24_goldstein_price (s : ℕ) :
    (goldsteinPrice s : TestFunction K).optimums = [(0, -1)] ∧
    IsOnlyMin (goldsteinPrice s : TestFunction K).f (0, -1) ∧
    (goldsteinPrice s : TestFunction K).f 0 (-1) = 3 := by
  have h3 : (goldsteinPrice s : TestFunction K).f 0 (-1) = 3 := by
    simp only [goldsteinPrice, testMinFunction2D]; norm_num
  refine ⟨C24_optimums _ _ _, ⟨?_, ?_⟩, h3⟩
  · intro x y
    simp only
    rw [h3, goldstein_eq]
    nlinarith [goldstein_first (x + y), goldstein_second (2 * x - 3 * y)]
  · intro x y h
    simp only [h3] at h
    rw [goldstein_eq] at h
    have h1 := goldstein_first (x + y)
    have h2 := goldstein_second (2 * x - 3 * y)
    generalize hu : x + y = u at h h1
    generalize hv : 2 * x - 3 * y = v at h h2
    have e1 : (u + 1) ^ 2 * (19 - 14 * u + 3 * u ^ 2) = 0 := by nlinarith
    have e2 : 30 + v ^ 2 * (18 - 16 * v + 3 * v ^ 2) = 3 := by nlinarith
    have e2' : (v - 3) ^ 2 * (3 * v ^ 2 + 2 * v + 3) = 0 := by linear_combination e2
    have p1 : 0 < 19 - 14 * u + 3 * u ^ 2 := by nlinarith [sq_nonneg (3 * u - 7)]
    have p2 : 0 < 3 * v ^ 2 + 2 * v + 3 := by nlinarith [sq_nonneg (3 * v + 1)]
    have hu1 : u + 1 = 0 := by
      rcases mul_eq_zero.1 e1 with h | h
      · exact pow_eq_zero_iff (n := 2) (by norm_num) |>.1 h
      · exact absurd h p1.ne'
    have hv3 : v - 3 = 0 := by
      rcases mul_eq_zero.1 e2' with h | h
      · exact pow_eq_zero_iff (n := 2) (by norm_num) |>.1 h
      · exact absurd h p2.ne'
    have hx : x = 0 := by linarith
    have hy : y = -1 := by linarith
    rw [hx, hy]

/-- **C24 (Beale).** The listed optimum is the only global minimum, with value 0. -/
theorem C24_beale (s : ℕ) :
    (∀ o ∈ (beale s : TestFunction K).optimums, IsOnlyMin (beale s : TestFunction K).f o ∧
      (beale s : TestFunction K).f o.1 o.2 = 0) ∧
    (beale s : TestFunction K).optimums = [(3, 1 / 2)] := by
  have h5 : (5 / 10 : K) = 1 / 2 := by norm_num
  have ho : (beale s : TestFunction K).optimums = [(3, 1 / 2)] := by
    rw [beale, C24_optimums, h5]
  refine ⟨?_, ho⟩
  intro o hmem
  rw [ho, List.mem_singleton] at hmem
  subst hmem
  have h0 : (beale s : TestFunction K).f 3 (1 / 2) = 0 := by
    simp only [beale, testMinFunction2D]; norm_num
  refine ⟨⟨?_, ?_⟩, h0⟩
  · intro x y
    simp only
    rw [h0]
    simp only [beale, testMinFunction2D]
    positivity
  · intro x y h
    simp only [h0] at h
    simp only [beale, testMinFunction2D] at h
    have q1 := sq_nonneg (15 / 10 - x + x * y)
    have q2 := sq_nonneg (225 / 100 - x + x * y ^ 2)
    have q3 := sq_nonneg (2625 / 1000 - x + x * y ^ 3)
    have e1 : 15 / 10 - x + x * y = 0 := by
      have : (15 / 10 - x + x * y) ^ 2 = 0 := by linarith
      exact pow_eq_zero_iff (n := 2) (by norm_num) |>.1 this
    have e2 : 225 / 100 - x + x * y ^ 2 = 0 := by
      have : (225 / 100 - x + x * y ^ 2) ^ 2 = 0 := by linarith
      exact pow_eq_zero_iff (n := 2) (by norm_num) |>.1 this
    -- x (1 - y) = 3/2 and x (1 - y)(1 + y) = 9/4
    have hy : y = 1 / 2 := by linear_combination (4 / 6 : K) * ((1 + y) * e1 - e2)
    subst hy
    have hx : x = 3 := by linear_combination (-2) * e1
    rw [hx]

/-- **C24 (Matyas).** The listed optimum is the only global minimum, with value 0. -/
theorem C24_matyas (s : ℕ) :
    (matyas s : TestFunction K).optimums = [(0, 0)] ∧
    IsOnlyMin (matyas s : TestFunction K).f (0, 0) ∧ (matyas s : TestFunction K).f 0 0 = 0 := by
  have h0 : (matyas s : TestFunction K).f 0 0 = 0 := by
    simp only [matyas, testMinFunction2D]; norm_num
  have hsos : ∀ x y : K, (matyas s : TestFunction K).f x y =
      24 / 100 * (x - y) ^ 2 + 2 / 100 * x ^ 2 + 2 / 100 * y ^ 2 := by
    intro x y
    simp only [matyas, testMinFunction2D]; ring
  refine ⟨C24_optimums _ _ _, ⟨?_, ?_⟩, h0⟩
  · intro x y
    simp only
    rw [h0, hsos]
    positivity
  · intro x y h
    simp only [h0] at h
    rw [hsos] at h
    have hx : x ^ 2 = 0 := by nlinarith [sq_nonneg (x - y), sq_nonneg x, sq_nonneg y]
    have hy : y ^ 2 = 0 := by nlinarith [sq_nonneg (x - y), sq_nonneg x, sq_nonneg y]
    rw [pow_eq_zero_iff (n := 2) (by norm_num) |>.1 hx,
      pow_eq_zero_iff (n := 2) (by norm_num) |>.1 hy]

end

/-- The default Rosenbrock function meets the hypothesis of `C24_rosenbrock_partial`, and
`Rosenbrock(2, 100)` that of the violation. -/
example : (0 : ℚ) < 100 ∧ (2 : ℚ) ≠ 1 := by norm_num

end Verif.TestFn.Props
