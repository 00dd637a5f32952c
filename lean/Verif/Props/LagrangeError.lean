import Verif.Props.Lagrange
import Verif.Proofs.LagrangeError
import Mathlib.Analysis.SpecialFunctions.ExpDeriv
import Mathlib.Analysis.Complex.ExponentialBounds

set_option linter.unusedSectionVars false

/-! # C140: how well `approx_Lagrange_1d` reproduces the function behind the data -/

namespace Verif.Lag.Props
open Verif Verif.Lag Polynomial

/-- the polynomial found, as an interpolation polynomial -/
theorem approx_poly (symbol : ℕ → ℝ) (points values : List ℝ) (hl : points.length = values.length)
    (hN : 2 ≤ points.length) (hd : points.Nodup) (g : ℝ → ℝ)
    (hg : ∀ (k : ℕ) (x v : ℝ), points[k]? = some x → values[k]? = some v → g x = v) :
    ∃ p, approxLagrange symbol points values = .ok p ∧ toPoly p = Lagrange.interpolate points.toFinset id g := by
  obtain ⟨p, h1, -, h3⟩ := C56_approx_partial symbol points values hl hN hd
  refine ⟨p, h1, h3 _ ?_ fun k x v hx hv => ?_⟩
  · have := Lagrange.degree_interpolate_lt (s := points.toFinset) (v := (id : ℝ → ℝ)) g (Set.injOn_id _)
    rwa [List.toFinset_card_of_nodup hd] at this
  · have hm : x ∈ points.toFinset := List.mem_toFinset.mpr (List.mem_of_getElem? hx)
    have := Lagrange.eval_interpolate_at_node (v := (id : ℝ → ℝ)) g (Set.injOn_id _) hm
    rw [← hg k x v hx hv]
    exact this

/-- C140: for values of a function with `n` continuous derivatives at `n` different points, the error at `t` is
the `n`-th derivative somewhere in any interval with the points and `t`, divided by `n!`, times the product of the
distances. -/
theorem C140_remainder_partial (symbol : ℕ → ℝ) (points : List ℝ) (hN : 2 ≤ points.length) (hd : points.Nodup)
    (f : ℝ → ℝ) (hf : ContDiff ℝ points.length f) :
    ∃ p, approxLagrange symbol points (points.map f) = .ok p ∧
      ∀ a b t : ℝ, (∀ x ∈ points, a ≤ x ∧ x ≤ b) → a ≤ t → t ≤ b → ∃ ξ, a ≤ ξ ∧ ξ ≤ b ∧
        f t - p.eval t =
          iteratedDeriv points.length f ξ / points.length.factorial * (points.map fun x => t - x).prod := by
  obtain ⟨p, h1, h2⟩ := approx_poly symbol points (points.map f) (by simp) hN hd f (by
    intro k x v hx hv
    rw [List.getElem?_map, hx] at hv
    simpa using hv)
  refine ⟨p, h1, fun a b t hab ha hb => ?_⟩
  have hcard : points.toFinset.card = points.length := List.toFinset_card_of_nodup hd
  obtain ⟨ξ, e1, e2, e3⟩ := remainder (s := points.toFinset) (f := f) (by rwa [hcard])
    (Lagrange.degree_interpolate_lt (v := (id : ℝ → ℝ)) f (Set.injOn_id _))
    (fun x hx => Lagrange.eval_interpolate_at_node (v := (id : ℝ → ℝ)) f (Set.injOn_id _) hx) t a b
    (fun x hx => hab x (List.mem_toFinset.mp hx)) ha hb
  refine ⟨ξ, e1, e2, ?_⟩
  rw [← eval_toPoly, h2, e3, hcard, List.prod_toFinset _ hd]

/-- C140: with the `n`-th derivative at most `M`, the error in the interval is at most `M (b - a)ⁿ / n!`. -/
theorem C140_accuracy_partial (symbol : ℕ → ℝ) (points : List ℝ) (hN : 2 ≤ points.length) (hd : points.Nodup)
    (f : ℝ → ℝ) (hf : ContDiff ℝ points.length f) (a b M : ℝ) (hab : ∀ x ∈ points, a ≤ x ∧ x ≤ b)
    (hM : ∀ ξ, a ≤ ξ → ξ ≤ b → |iteratedDeriv points.length f ξ| ≤ M) :
    ∃ p, approxLagrange symbol points (points.map f) = .ok p ∧
      ∀ t, a ≤ t → t ≤ b → |f t - p.eval t| ≤ M * (b - a) ^ points.length / points.length.factorial := by
  obtain ⟨p, h1, h2⟩ := C140_remainder_partial symbol points hN hd f hf
  refine ⟨p, h1, fun t ha hb => ?_⟩
  obtain ⟨ξ, e1, e2, e3⟩ := h2 a b t hab ha hb
  have hprod : ∀ l : List ℝ, (∀ x ∈ l, a ≤ x ∧ x ≤ b) → |(l.map fun x => t - x).prod| ≤ (b - a) ^ l.length := by
    intro l
    induction l with
    | nil => intro _; simp
    | cons x l ih =>
      intro hl
      have hx := hl x (by simp)
      rw [List.map_cons, List.prod_cons, abs_mul, List.length_cons, pow_succ, mul_comm]
      refine mul_le_mul (ih fun y hy => hl y (by simp [hy])) ?_ (abs_nonneg _) (pow_nonneg (by linarith) _)
      rw [abs_le]
      constructor <;> linarith
  have hfac : (0 : ℝ) < points.length.factorial := by exact_mod_cast Nat.factorial_pos _
  rw [e3, abs_mul, abs_div, abs_of_pos hfac, div_mul_eq_mul_div]
  refine div_le_div_of_nonneg_right (mul_le_mul (hM ξ e1 e2) (hprod points hab) (abs_nonneg _) ?_) hfac.le
  exact (abs_nonneg _).trans (hM ξ e1 e2)

/-- C140: values that are off by at most `ε` change the result at `t` by at most `ε` times the sum of the absolute
values of the Lagrange polynomials at `t`. -/
theorem C140_noise_partial (symbol : ℕ → ℝ) (points v w : List ℝ) (hv : points.length = v.length)
    (hw : points.length = w.length) (hN : 2 ≤ points.length) (hd : points.Nodup) (ε : ℝ)
    (he : ∀ (k : ℕ) (y z : ℝ), v[k]? = some y → w[k]? = some z → |y - z| ≤ ε) :
    ∃ p q, approxLagrange symbol points v = .ok p ∧ approxLagrange symbol points w = .ok q ∧
      ∀ t, |p.eval t - q.eval t| ≤
        ε * (points.map fun x => ((points.filter (· ≠ x)).map fun y => |t - y| / |x - y|).prod).sum := by
  have pick : ∀ u : List ℝ, points.length = u.length → ∃ g : ℝ → ℝ,
      ∀ (k : ℕ) (x y : ℝ), points[k]? = some x → u[k]? = some y → g x = y := by
    intro u hu
    refine ⟨fun x => u.getD (points.idxOf x) 0, fun k x y hx hy => ?_⟩
    have hk := (List.getElem?_eq_some_iff.mp hx).1
    have hxe := (List.getElem?_eq_some_iff.mp hx).2
    have : points.idxOf x = k := by
      rw [← hxe]
      exact hd.idxOf_getElem k hk
    simp only [this]
    rw [List.getD_eq_getElem?_getD, hy, Option.getD_some]
  obtain ⟨g, hg⟩ := pick v hv
  obtain ⟨g', hg'⟩ := pick w hw
  obtain ⟨p, p1, p2⟩ := approx_poly symbol points v hv hN hd g hg
  obtain ⟨q, q1, q2⟩ := approx_poly symbol points w hw hN hd g' hg'
  refine ⟨p, q, p1, q1, fun t => ?_⟩
  have hgg : ∀ x ∈ points, |g x - g' x| ≤ ε := by
    intro x hx
    obtain ⟨k, hk, hxe⟩ := List.mem_iff_getElem.mp hx
    have hx' : points[k]? = some x := by rw [List.getElem?_eq_getElem hk, hxe]
    have h1 : v[k]? = some v[k] := List.getElem?_eq_getElem (by omega)
    have h2 : w[k]? = some w[k] := List.getElem?_eq_getElem (by omega)
    rw [hg k x _ hx' h1, hg' k x _ hx' h2]
    exact he k _ _ h1 h2
  have hbasis : ∀ x ∈ points, |(Lagrange.basis points.toFinset id x).eval t| =
      ((points.filter (· ≠ x)).map fun y => |t - y| / |x - y|).prod := by
    intro x hx
    have hf : points.toFinset.erase x = (points.filter (· ≠ x)).toFinset := by
      ext y
      simp [and_comm]
    rw [Lagrange.basis, eval_prod, Finset.abs_prod, hf, List.prod_toFinset _ (hd.filter _)]
    congr 1
    apply List.map_congr_left
    intro y hy
    rw [Lagrange.basisDivisor, eval_mul, eval_C, eval_sub, eval_X, eval_C, abs_mul, abs_inv, div_eq_inv_mul]
    rfl
  rw [← eval_toPoly, ← eval_toPoly, p2, q2, Lagrange.interpolate_apply, Lagrange.interpolate_apply, eval_finset_sum,
    eval_finset_sum, ← Finset.sum_sub_distrib, ← List.sum_toFinset _ hd, Finset.mul_sum]
  refine (Finset.abs_sum_le_sum_abs _ _).trans (Finset.sum_le_sum fun x hx => ?_)
  have hx := List.mem_toFinset.mp hx
  rw [eval_mul, eval_mul, eval_C, eval_C, ← sub_mul, abs_mul, ← hbasis x hx]
  exact mul_le_mul_of_nonneg_right (hgg x hx) (abs_nonneg _)

/-! ### Cases that meet the hypotheses -/

/-- The exponential function from its values at 0 and 1: the error in between is at most 3/2. -/
example : ∃ p, approxLagrange (fun k => (k : ℝ)) [0, 1] [Real.exp 0, Real.exp 1] = .ok p ∧
    ∀ t, 0 ≤ t → t ≤ 1 → |Real.exp t - p.eval t| ≤ 3 / 2 := by
  obtain ⟨p, h1, h2⟩ := C140_accuracy_partial (fun k => (k : ℝ)) [0, 1] (by simp) (by simp) Real.exp
    Real.contDiff_exp 0 1 3 (by simp) (by
      intro ξ h0 h1
      have : iteratedDeriv 2 Real.exp = Real.exp := by
        rw [iteratedDeriv_eq_iterate]
        simp
      show |iteratedDeriv 2 Real.exp ξ| ≤ 3
      rw [this, abs_of_pos (Real.exp_pos _)]
      exact (Real.exp_le_exp.mpr h1).trans (Real.exp_one_lt_three.le))
  refine ⟨p, h1, fun t ha hb => (h2 t ha hb).trans ?_⟩
  norm_num

end Verif.Lag.Props
