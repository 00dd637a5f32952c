import Verif.Model.RoundedTurns
import Verif.Props.RoundedFrames
import Mathlib.Tactic.Positivity
import Mathlib.Tactic.GCongr
import Mathlib.Tactic.NoncommRing
import Mathlib.LinearAlgebra.Matrix.Trace

/-!
# Lemmas about repeated rotations with rounded arithmetic
-/

set_option linter.unusedSectionVars false

namespace Verif.RFrames
open Verif Verif.Rnd Verif.RFrames.Props

section
variable {K : Type} [Field K] [LinearOrder K] [IsStrictOrderedRing K] {n : ℕ}

/-- One half of being orthogonal up to `ε`. -/
def HalfOrth (ε : K) (A : Matrix (Fin n) (Fin n) K) : Prop := ∀ i j, |(A * A.transpose - 1) i j| ≤ ε

theorem HalfOrth.entry {ε : K} {A : Matrix (Fin n) (Fin n) K} (h : HalfOrth ε A) (hε : 0 ≤ ε)
    (i j : Fin n) : |A i j| ≤ 1 + ε := by
  have h1 := (abs_le.1 (h i i)).2
  simp only [Matrix.sub_apply, Matrix.mul_apply, Matrix.transpose_apply, Matrix.one_apply_eq] at h1
  have h2 : A i j * A i j ≤ ∑ l, A i l * A i l :=
    Finset.single_le_sum (f := fun l => A i l * A i l) (fun l _ => mul_self_nonneg _) (Finset.mem_univ j)
  by_contra hc
  push Not at hc
  have h3 : (1 + ε) * (1 + ε) < |A i j| * |A i j| :=
    mul_self_lt_mul_self (by linarith) hc
  rw [abs_mul_abs_self] at h3
  nlinarith

theorem HalfOrth.row {ε : K} {A : Matrix (Fin n) (Fin n) K} (h : HalfOrth ε A) (hε : 0 ≤ ε)
    (i : Fin n) : ∑ j, |A i j| ≤ n * (1 + ε) := by
  calc ∑ j, |A i j| ≤ ∑ _j : Fin n, (1 + ε) := Finset.sum_le_sum fun j _ => h.entry hε i j
    _ = n * (1 + ε) := by rw [Finset.sum_const, Finset.card_univ, Fintype.card_fin, nsmul_eq_mul]

/-- Entries of products. -/
theorem entry_mul {A B : Matrix (Fin n) (Fin n) K} {a b : K} (hA : ∀ i j, |A i j| ≤ a) (ha : 0 ≤ a)
    (hB : ∀ i j, |B i j| ≤ b) (i j : Fin n) : |(A * B) i j| ≤ n * (a * b) := by
  rw [Matrix.mul_apply]
  calc |∑ l, A i l * B l j| ≤ ∑ l, |A i l * B l j| := Finset.abs_sum_le_sum_abs _ _
    _ ≤ ∑ _l : Fin n, a * b := Finset.sum_le_sum fun l _ => by
        rw [abs_mul]; exact mul_le_mul (hA i l) (hB l j) (abs_nonneg _) ha
    _ = n * (a * b) := by simp

/-- A perturbed product of two matrices that are nearly orthogonal. -/
theorem half_step {ε δ e : K} {A R B : Matrix (Fin n) (Fin n) K} (hε : 0 ≤ ε) (hδ : 0 ≤ δ) (he : 0 ≤ e)
    (hA : HalfOrth ε A) (hR : HalfOrth δ R) (hB : ∀ i j, |(B - A * R) i j| ≤ e) :
    HalfOrth (ε + (n : K) ^ 2 * δ * (1 + ε) ^ 2 + 2 * (n : K) ^ 2 * e * (1 + ε) * (1 + δ) + n * e ^ 2)
      B := by
  intro i j
  set E := B - A * R with hE
  have hBE : B = A * R + E := by rw [hE]; abel
  have e1 : B * B.transpose - 1 = (A * A.transpose - 1) + A * (R * R.transpose - 1) * A.transpose +
      E * (A * R).transpose + (A * R) * E.transpose + E * E.transpose := by
    rw [hBE]
    simp only [Matrix.transpose_add, Matrix.transpose_mul, Matrix.mul_add, Matrix.add_mul,
      Matrix.mul_sub, Matrix.sub_mul, Matrix.mul_one, Matrix.mul_assoc]
    abel
  rw [e1]
  simp only [Matrix.add_apply]
  have a1 := hA i j
  have a2 : |(A * (R * R.transpose - 1) * A.transpose) i j| ≤ n * (n * ((1 + ε) * δ) * (1 + ε)) :=
    entry_mul (entry_mul (hA.entry hε) (by linarith) hR) (by positivity)
      (fun i j => hA.entry hε j i) i j
  have hAR : ∀ i j, |(A * R) i j| ≤ n * ((1 + ε) * (1 + δ)) :=
    entry_mul (hA.entry hε) (by linarith) (hR.entry hδ)
  have a3 : |(E * (A * R).transpose) i j| ≤ n * (e * (n * ((1 + ε) * (1 + δ)))) :=
    entry_mul hB he (fun i j => hAR j i) i j
  have a4 : |((A * R) * E.transpose) i j| ≤ n * (n * ((1 + ε) * (1 + δ)) * e) :=
    entry_mul hAR (by positivity) (fun i j => hB j i) i j
  have a5 : |(E * E.transpose) i j| ≤ n * (e * e) := entry_mul hB he (fun i j => hB j i) i j
  have b1 := abs_add_le ((A * A.transpose - 1) i j + (A * (R * R.transpose - 1) * A.transpose) i j +
    (E * (A * R).transpose) i j + ((A * R) * E.transpose) i j) ((E * E.transpose) i j)
  have b2 := abs_add_le ((A * A.transpose - 1) i j + (A * (R * R.transpose - 1) * A.transpose) i j +
    (E * (A * R).transpose) i j) (((A * R) * E.transpose) i j)
  have b3 := abs_add_le ((A * A.transpose - 1) i j + (A * (R * R.transpose - 1) * A.transpose) i j)
    ((E * (A * R).transpose) i j)
  have b4 := abs_add_le ((A * A.transpose - 1) i j) ((A * (R * R.transpose - 1) * A.transpose) i j)
  have : n * (n * ((1 + ε) * δ) * (1 + ε)) + n * (e * (n * ((1 + ε) * (1 + δ)))) +
      n * (n * ((1 + ε) * (1 + δ)) * e) + n * (e * e) = (n : K) ^ 2 * δ * (1 + ε) ^ 2 +
      2 * (n : K) ^ 2 * e * (1 + ε) * (1 + δ) + n * e ^ 2 := by ring
  linarith

/-- The axes after `orient` are the rotated axes up to rounding. -/
theorem orient_near {fl : K → K} {u : K} (hu : Precise fl u) {h : ℕ} {plan : Fin n → Fin n → Plan n}
    (hp : ∀ i j, (plan i j).terms.Perm (List.finRange n) ∧ (plan i j).height ≤ h) {ε δ : K}
    (hε : 0 ≤ ε) (hδ : 0 ≤ δ) {A R : Matrix (Fin n) (Fin n) K} (hA : HalfOrth ε A) (hR : HalfOrth δ R)
    (i j : Fin n) : |(orientAxes fl plan R A - A * R) i j| ≤
      ((1 + u) ^ h - 1) * (n * ((1 + ε) * (1 + δ))) := by
  have h1 := (matvec_near hu (plan i) (hp i) (NearM.exact R.transpose)
    (fun l => Near.exact (u := u) (A i l) |A i l| le_rfl) j).1
  have h2 : ∑ l, R.transpose j l * A i l = (A * R) i j := by
    rw [Matrix.mul_apply]
    exact Finset.sum_congr rfl fun l _ => by rw [Matrix.transpose_apply, mul_comm]
  rw [h2] at h1
  have h3 : ∑ l, (R.transpose.map fun x => |x|) j l * |A i l| ≤ n * ((1 + ε) * (1 + δ)) := by
    calc _ ≤ ∑ _l : Fin n, (1 + ε) * (1 + δ) := Finset.sum_le_sum fun l _ => by
          rw [mul_comm (1 + ε)]
          exact mul_le_mul (hR.entry hδ l j) (hA.entry hε i l) (abs_nonneg _) (by linarith)
      _ = _ := by simp
  rw [Matrix.sub_apply]
  exact h1.trans (mul_le_mul_of_nonneg_left h3 (pow_sub_nonneg hu.nonneg _))

/-- Squares of the entries of `AᵀA - 1` and `AAᵀ - 1` have the same sum. -/
theorem frobenius (A : Matrix (Fin n) (Fin n) K) :
    ∑ i, ∑ j, ((A.transpose * A - 1) i j) ^ 2 = ∑ i, ∑ j, ((A * A.transpose - 1) i j) ^ 2 := by
  have key : ∀ M : Matrix (Fin n) (Fin n) K, M.transpose = M →
      ∑ i, ∑ j, (M i j) ^ 2 = (M * M).trace := by
    intro M hM
    rw [Matrix.trace]
    refine Finset.sum_congr rfl fun i _ => ?_
    rw [Matrix.diag_apply, Matrix.mul_apply]
    refine Finset.sum_congr rfl fun j _ => ?_
    rw [sq, show M j i = M.transpose i j from rfl, hM]
  rw [key _ (by simp), key _ (by simp)]
  have e : ∀ X : Matrix (Fin n) (Fin n) K, (X - 1) * (X - 1) = X * X - X - X + 1 := by
    intro X; noncomm_ring
  rw [e, e]
  simp only [Matrix.trace_add, Matrix.trace_sub]
  have t1 : (A.transpose * A).trace = (A * A.transpose).trace := Matrix.trace_mul_comm _ _
  have t2 : (A.transpose * A * (A.transpose * A)).trace =
      (A * A.transpose * (A * A.transpose)).trace := by
    rw [Matrix.mul_assoc, Matrix.trace_mul_comm]
    simp only [Matrix.mul_assoc]
  rw [t1, t2]

/-- Columns of a square matrix whose rows are orthonormal up to `ε`. -/
theorem HalfOrth.columns {ε : K} {A : Matrix (Fin n) (Fin n) K} (h : HalfOrth ε A) (hε : 0 ≤ ε)
    (i j : Fin n) : |(A.transpose * A - 1) i j| ≤ n * ε := by
  have h1 : ((A.transpose * A - 1) i j) ^ 2 ≤ ∑ i, ∑ j, ((A.transpose * A - 1) i j) ^ 2 :=
    (Finset.single_le_sum (f := fun j => ((A.transpose * A - 1) i j) ^ 2) (fun _ _ => sq_nonneg _)
      (Finset.mem_univ j)).trans
    (Finset.single_le_sum (f := fun i => ∑ j, ((A.transpose * A - 1) i j) ^ 2)
      (fun _ _ => Finset.sum_nonneg fun _ _ => sq_nonneg _) (Finset.mem_univ i))
  have h2 : ∑ i, ∑ j, ((A * A.transpose - 1) i j) ^ 2 ≤ ∑ _i : Fin n, ∑ _j : Fin n, ε ^ 2 :=
    Finset.sum_le_sum fun i _ => Finset.sum_le_sum fun j _ => sq_le_sq' (abs_le.1 (h i j)).1
      (abs_le.1 (h i j)).2
  rw [frobenius] at h1
  have h3 : ∑ _i : Fin n, ∑ _j : Fin n, ε ^ 2 = ((n : K) * ε) ^ 2 := by
    simp only [Finset.sum_const, Finset.card_univ, Fintype.card_fin, nsmul_eq_mul]
    ring
  exact abs_le_of_sq_le_sq (by linarith) (by positivity)

end

end Verif.RFrames
