import Verif.Proofs.GaussExists

/-! # C143: what the documentation of `leggauss` determines -/

namespace Verif.Numint.Props
open Verif Verif.Numint

/-- C143: what numpy documents (the number of points, exact integrals of the powers below `2 n`) can be satisfied for
every number of points, implies that the points are in the interval and the weights not negative, and determines the rule
up to the order of the points. So `gauss_points` returns the same points with the same weights, whatever way `leggauss`
finds them. -/
theorem C143_documented (n : ℕ) :
    (∃ rule, IsGauss rule n) ∧
    (∀ rule : List (ℝ × ℝ), rule.length = n →
      (∀ k < 2 * n, quad1 rule (fun x => x ^ k) = ∫ x in (-1 : ℝ)..1, x ^ k) → IsGauss rule n) ∧
    ∀ rule rule', IsGauss rule n → IsGauss rule' n → rule.Perm rule' :=
  ⟨gauss_exists n, fun _ => gauss_of_exact, fun _ _ => gauss_unique⟩

/-- So the assumption of C143 can be met for all numbers of points at once, and the quadrature of continuous functions
converges. -/
example : ∃ lg : LegGauss ℝ, (∀ n, IsGauss (lg n) n) ∧ ∀ f : ℝ × ℝ → ℝ, Continuous f → ∀ ε > 0, ∃ m, ∀ n ≥ m,
    ∃ pos w, gaussPoints lg [n, n] = .ok (.two pos w) ∧ |quad pos w f - int2 f| ≤ ε := by
  choose lg h using gauss_exists
  refine ⟨lg, h, fun f hf ε hε => ?_⟩
  obtain ⟨m, hm⟩ := (C143_converges lg hε).2.1 f hf.continuousOn
  exact ⟨m, fun n hn => hm n hn n hn (h n) (h n)⟩

/-- The rule with two points is the one found by hand. -/
example (rule : List (ℝ × ℝ)) (h : IsGauss rule 2) : rule.Perm [(-(1 / √3), 1), (1 / √3, 1)] :=
  (C143_documented 2).2.2 _ _ h gauss_two

end Verif.Numint.Props
