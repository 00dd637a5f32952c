import Verif.Model.RoundedClosed
import Verif.Proofs.RoundingKernels
import Mathlib.LinearAlgebra.Matrix.NonsingularInverse
import Mathlib.LinearAlgebra.Matrix.Determinant.Basic
import Mathlib.Tactic.LinearCombination
import Mathlib.Tactic.FieldSimp
import Mathlib.Tactic.FinCases

/-! Helper lemmas for C116. -/

set_option linter.unusedSectionVars false

namespace Verif.RClosed
open Verif Verif.Rnd Verif.Tr Verif.Frames Verif.Numint

section
variable {K : Type} [Field K] [LinearOrder K] [IsStrictOrderedRing K] {fl : K → K}

/-- the exact value -/
def Expr.eval {ι : Type} (a : ι → K) : Expr ι → K
  | .var i => a i
  | .neg x => -(x.eval a)
  | .add x y => x.eval a + y.eval a
  | .sub x y => x.eval a - y.eval a
  | .mul x y => x.eval a * y.eval a

/-- the value with all signs positive -/
def Expr.mag {ι : Type} (a : ι → K) : Expr ι → K
  | .var i => |a i|
  | .neg x => x.mag a
  | .add x y => x.mag a + y.mag a
  | .sub x y => x.mag a + y.mag a
  | .mul x y => x.mag a * y.mag a

/-- the number of roundings that matter -/
def Expr.depth {ι : Type} : Expr ι → ℕ
  | .var _ => 0
  | .neg x => x.depth
  | .add x y => max x.depth y.depth + 1
  | .sub x y => max x.depth y.depth + 1
  | .mul x y => x.depth + y.depth + 1

theorem Near.negate {u : K} {n : ℕ} {B x y : K} (h : Near u n B x y) : Near u n B (-x) (-y) := by
  refine ⟨?_, by rw [abs_neg]; exact h.2⟩
  have : -x - -y = -(x - y) := by ring
  rw [this, abs_neg]
  exact h.1

theorem Near.times {u : K} (hu : 0 ≤ u) {n m : ℕ} {B B' x x' y y' : K} (h : Near u n B x y) (h' : Near u m B' x' y') :
    Near u (n + m) (B * B') (x * x') (y * y') := by
  have hB : 0 ≤ B := (abs_nonneg _).trans h.2
  have hB' : 0 ≤ B' := (abs_nonneg _).trans h'.2
  refine ⟨?_, by rw [abs_mul]; exact mul_le_mul h.2 h'.2 (abs_nonneg _) hB⟩
  have hx : |x| ≤ (1 + u) ^ n * B := by
    have : |x| ≤ |x - y| + |y| := by
      have := abs_add_le (x - y) y
      rwa [sub_add_cancel] at this
    linarith [h.1, h.2]
  have e : x * x' - y * y' = x * (x' - y') + (x - y) * y' := by ring
  rw [e]
  refine (abs_add_le _ _).trans ?_
  rw [abs_mul, abs_mul]
  have h1 : |x| * |x' - y'| ≤ (1 + u) ^ n * B * (((1 + u) ^ m - 1) * B') :=
    mul_le_mul hx h'.1 (abs_nonneg _) ((abs_nonneg _).trans hx)
  have h2 : |x - y| * |y'| ≤ ((1 + u) ^ n - 1) * B * B' :=
    mul_le_mul h.1 h'.2 (abs_nonneg _) ((abs_nonneg _).trans h.1)
  rw [pow_add]
  nlinarith

theorem round_near {ι : Type} {u : K} (h : Precise fl u) (a : ι → K) (e : Expr ι) : ∀ (c : Plan) (keep : Bool),
    Near u e.depth (e.mag a) (e.round fl a c keep) (e.eval a) := by
  have hu := h.nonneg
  induction e with
  | var i => intro c keep; exact Near.refl u (a i)
  | neg x ih => intro c keep; exact Near.negate (ih _ _)
  | add x y ihx ihy =>
    intro c keep
    exact Near.round h (Near.add (Near.more hu (le_max_left _ _) (ihx _ _)) (Near.more hu (le_max_right _ _) (ihy _ _)))
  | sub x y ihx ihy =>
    intro c keep
    show Near u (max x.depth y.depth + 1) (x.mag a + y.mag a) (fl (_ - _)) (x.eval a - y.eval a)
    rw [sub_eq_add_neg, sub_eq_add_neg]
    exact Near.round h (Near.add (Near.more hu (le_max_left _ _) (ihx _ _))
      (Near.more hu (le_max_right _ _) (Near.negate (ihy _ _))))
  | mul x y ihx ihy =>
    intro c keep
    have := Near.times hu (ihx (fun l => c (false :: l)) false) (ihy (fun l => c (true :: l)) false)
    simp only [Expr.round, Expr.eval, Expr.mag, Expr.depth]
    cases keep with
    | true => exact Near.more hu (Nat.le_succ _) this
    | false => exact Near.round h this

/-! ### Quotients -/

theorem near_ne {u : K} {n : ℕ} {P d d' : K} (hd : Near u n P d' d) (hk : ((1 + u) ^ n - 1) * P < |d|) :
    d' ≠ 0 ∧ |d| - ((1 + u) ^ n - 1) * P ≤ |d'| := by
  have h1 : |d| ≤ |d'| + |d' - d| := by
    have := abs_sub_le d d' 0
    rw [sub_zero, sub_zero, abs_sub_comm d d'] at this
    linarith
  have h2 := hd.1
  refine ⟨?_, by linarith⟩
  rintro rfl
  rw [abs_zero] at h1
  linarith

/-- the error of a quotient -/
theorem quotient_err {u : K} (hu : 0 ≤ u) {n k : ℕ} {M P m d d' q κ : K} (hd : Near u n P d' d)
    (hκ : ((1 + u) ^ n - 1) * P ≤ κ * |d|) (hk : κ < 1) (hd0 : d ≠ 0)
    (hm : |m| ≤ M) (hq : Near u k (M / |d'|) q (m / d')) :
    |q - m / d| ≤ M / |d| * (((1 + u) ^ k - 1 + κ) / (1 - κ)) := by
  have hdp : 0 < |d| := abs_pos.mpr hd0
  have hlt : ((1 + u) ^ n - 1) * P < |d| := by
    nlinarith
  obtain ⟨h0, hlow⟩ := near_ne hd hlt
  have hd'p : 0 < |d'| := abs_pos.mpr h0
  have hM : 0 ≤ M := (abs_nonneg _).trans hm
  have h1k : 0 < 1 - κ := by linarith
  have hlow' : |d| * (1 - κ) ≤ |d'| := by linarith
  have hκ0 : 0 ≤ κ := by
    have h2 : 0 ≤ κ * |d| := (abs_nonneg _).trans (hd.1.trans hκ)
    exact nonneg_of_mul_nonneg_left h2 hdp
  have hpow : 0 ≤ (1 + u) ^ k - 1 := by
    have := one_le_pow₀ (show 1 ≤ 1 + u by linarith) (n := k)
    linarith
  have t1 : |q - m / d'| ≤ ((1 + u) ^ k - 1) * (M / (|d| * (1 - κ))) := by
    refine hq.1.trans (mul_le_mul_of_nonneg_left ?_ hpow)
    exact div_le_div_of_nonneg_left hM (mul_pos hdp h1k) hlow'
  have t2 : |m / d' - m / d| ≤ M * (κ / (|d| * (1 - κ))) := by
    have e : m / d' - m / d = m * ((d - d') / (d' * d)) := by field_simp
    rw [e, abs_mul, abs_div, abs_mul]
    refine mul_le_mul hm ?_ (by positivity) hM
    rw [abs_sub_comm, div_le_div_iff₀ (mul_pos hd'p hdp) (mul_pos hdp h1k)]
    have h3 : |d' - d| ≤ κ * |d| := hd.1.trans hκ
    have h4 : |d' - d| * (|d| * (1 - κ)) ≤ κ * |d| * |d'| :=
      mul_le_mul h3 hlow' (mul_nonneg hdp.le h1k.le) (mul_nonneg hκ0 hdp.le)
    linarith
  have h5 : |q - m / d| ≤ |q - m / d'| + |m / d' - m / d| := abs_sub_le _ _ _
  have e : M / |d| * (((1 + u) ^ k - 1 + κ) / (1 - κ)) =
      ((1 + u) ^ k - 1) * (M / (|d| * (1 - κ))) + M * (κ / (|d| * (1 - κ))) := by
    field_simp
  rw [e]
  linarith

theorem Near.divide {u : K} {n : ℕ} {B x y : K} (hn : Near u n B x y) (d : K) :
    Near u n (B / |d|) (x / d) (y / d) := by
  have := Near.mul hn d⁻¹
  rwa [abs_inv, ← div_eq_mul_inv, ← div_eq_mul_inv, ← div_eq_mul_inv] at this

/-! ### Values of the expressions -/

theorem det3_eval (A : Mat 3 K) : det3.eval (entries A) = A.det := by
  rw [Matrix.det_fin_three]
  simp only [det3, prod3, entry, Expr.eval, entries]

theorem det2_eval (A : Mat 2 K) : det2.eval (entries A) = A.det := by
  rw [Matrix.det_fin_two]
  simp only [det2, prod2, entry, Expr.eval, entries]

theorem adj3_eval (A : Mat 3 K) (i j : Fin 3) : (adj3 i j).eval (entries A) = A.adjugate i j := by
  rw [Matrix.adjugate_fin_three]
  fin_cases i <;> fin_cases j <;>
    simp [adj3, prod2, negProd2, entry, Expr.eval, entries]

theorem inv_entry {n : ℕ} (A : Matrix (Fin n) (Fin n) K) (i j : Fin n) : A⁻¹ i j = A.adjugate i j / A.det := by
  rw [Matrix.inv_def, Ring.inverse_eq_inv', Matrix.smul_apply, smul_eq_mul, div_eq_inv_mul]

theorem sum_perm_three (A : Mat 3 K) : ∑ σ : Equiv.Perm (Fin 3), ∏ i, |A i (σ i)| = det3.mag (entries A) := by
  have e : (Finset.univ : Finset (Equiv.Perm (Fin 3))) =
      {1, Equiv.swap 1 2, Equiv.swap 0 1, Equiv.swap 0 1 * Equiv.swap 1 2, Equiv.swap 1 2 * Equiv.swap 0 1, Equiv.swap 0 2} := by
    decide
  rw [e, Finset.sum_insert (by decide), Finset.sum_insert (by decide), Finset.sum_insert (by decide),
    Finset.sum_insert (by decide), Finset.sum_insert (by decide), Finset.sum_singleton]
  simp only [Fin.prod_univ_three]
  change |A 0 0| * |A 1 1| * |A 2 2| + (|A 0 0| * |A 1 2| * |A 2 1| + (|A 0 1| * |A 1 0| * |A 2 2| +
    (|A 0 1| * |A 1 2| * |A 2 0| + (|A 0 2| * |A 1 0| * |A 2 1| + |A 0 2| * |A 1 1| * |A 2 0|)))) =
    |A 0 0| * |A 1 1| * |A 2 2| + |A 0 0| * |A 1 2| * |A 2 1| + |A 0 1| * |A 1 0| * |A 2 2| +
    |A 0 1| * |A 1 2| * |A 2 0| + |A 0 2| * |A 1 0| * |A 2 1| + |A 0 2| * |A 1 1| * |A 2 0|
  ring

theorem det2_mag (A : Mat 2 K) : det2.mag (entries A) = |A 0 0| * |A 1 1| + |A 0 1| * |A 1 0| := rfl

theorem adj3_mag (A : Mat 3 K) (i j : Fin 3) : (adj3 i j).mag (entries A) =
    |A (j.succAbove 0) (i.succAbove 0)| * |A (j.succAbove 1) (i.succAbove 1)| +
      |A (j.succAbove 0) (i.succAbove 1)| * |A (j.succAbove 1) (i.succAbove 0)| := by
  fin_cases i <;> fin_cases j <;>
    simp [adj3, prod2, negProd2, entry, Expr.mag, entries, Fin.succAbove]

theorem det3_depth : det3.depth = 7 := by decide
theorem det2_depth : det2.depth = 2 := by decide
theorem adj3_depth (i j : Fin 3) : (adj3 i j).depth = 2 := by fin_cases i <;> fin_cases j <;> decide

theorem quotients_near {u : K} (h : Precise fl u) (d : K) (a : Fin 3 × Fin 3 → K) (i j : Fin 3) :
    Near u 3 ((adj3 i j).mag a / |d|) (quotients fl d a (adj3 i j)) ((adj3 i j).eval a / d) := by
  have hu := h.nonneg
  have key : ∀ x : Expr (Fin 3 × Fin 3), x.depth = 1 →
      Near u 2 (x.mag a / |d|) (fl (x.round fl a (fun _ => .no) false / d)) (x.eval a / d) := by
    intro x hx
    have := round_near h a x (fun _ => .no) false
    rw [hx] at this
    exact Near.round h (Near.divide this d)
  have hs : ∀ x y : Expr (Fin 3 × Fin 3), x.depth = 1 → y.depth = 1 →
      Near u 3 ((Expr.sub x y).mag a / |d|) (quotients fl d a (.sub x y)) ((Expr.sub x y).eval a / d) := by
    intro x y hx hy
    simp only [Expr.mag, Expr.eval, quotients]
    rw [add_div, sub_div, sub_eq_add_neg, sub_eq_add_neg]
    exact Near.round h (Near.add (key x hx) (Near.negate (key y hy)))
  have ha : ∀ x y : Expr (Fin 3 × Fin 3), x.depth = 1 → y.depth = 1 →
      Near u 3 ((Expr.add x y).mag a / |d|) (quotients fl d a (.add x y)) ((Expr.add x y).eval a / d) := by
    intro x y hx hy
    simp only [Expr.mag, Expr.eval, quotients]
    rw [add_div, add_div]
    exact Near.round h (Near.add (key x hx) (key y hy))
  fin_cases i <;> fin_cases j <;>
    first
    | exact hs _ _ rfl rfl
    | exact ha _ _ rfl rfl

end

end Verif.RClosed
