import Verif.Model.LinUtils
import Mathlib.LinearAlgebra.Matrix.DotProduct
import Mathlib.LinearAlgebra.Matrix.Notation
import Mathlib.Tactic.LinearCombination
import Mathlib.Tactic.FinCases
import Mathlib.Tactic.Linarith

/-!
# Properties C69-C70: generalized inverses and ranks
-/

set_option linter.unusedSectionVars false

namespace Verif.Lin.Props
open Verif Verif.Lin Matrix

variable {m n : ℕ}

theorem det_ne_zero_of_rank {k : ℕ} (B : Matrix (Fin k) (Fin k) ℝ) (h : B.rank = k) : B.det ≠ 0 := by
  intro h0
  obtain ⟨v, hv, hz⟩ := Matrix.exists_mulVec_eq_zero_iff.2 h0
  have h1 := LinearMap.finrank_range_add_finrank_ker B.mulVecLin
  rw [← Matrix.rank, h, Module.finrank_fin_fun] at h1
  have h2 : Module.finrank ℝ (LinearMap.ker B.mulVecLin) = 0 := by omega
  have h3 : LinearMap.ker B.mulVecLin = ⊥ := Submodule.finrank_eq_zero.1 h2
  have h4 : v ∈ LinearMap.ker B.mulVecLin := by
    rw [LinearMap.mem_ker, Matrix.mulVecLin_apply, hz]
  rw [h3, Submodule.mem_bot] at h4
  exact hv h4

theorem rank_of_det_ne_zero' {k : ℕ} (B : Matrix (Fin k) (Fin k) ℝ) (h : B.det ≠ 0) :
    B.rank = k := by
  have := Matrix.rank_of_isUnit B ((Matrix.isUnit_iff_isUnit_det B).2 h.isUnit)
  simpa using this

theorem npInv_ok {k : ℕ} {B : Matrix (Fin k) (Fin k) ℝ} (h : B.rank = k) : npInv B = .ok B⁻¹ := by
  unfold npInv
  rw [if_neg (det_ne_zero_of_rank B h)]

/-- What the function returns, by cases. -/
theorem generalizedInverse_cases (hm : 0 < m) (hn : 0 < n) (A : Matrix (Fin m) (Fin n) ℝ) :
    (A.rank ≠ min m n ∧ generalizedInverse A = .error .linalg) ∨
    (n ≤ m ∧ A.rank = n ∧ (Aᵀ * A).det ≠ 0 ∧
      generalizedInverse A = .ok ((Aᵀ * A)⁻¹ * Aᵀ)) ∨
    (m ≤ n ∧ A.rank = m ∧ (A * Aᵀ).det ≠ 0 ∧
      generalizedInverse A = .ok (Aᵀ * (A * Aᵀ)⁻¹)) := by
  have hr : matrixRank A = .ok A.rank := by
    unfold matrixRank
    rw [if_neg (by omega)]
  unfold generalizedInverse
  rw [hr]
  simp only
  by_cases hmn : m = n
  · rw [dif_pos hmn]
    by_cases hrank : A.rank = n
    · rw [if_pos hrank]
      refine .inr (.inl ⟨hmn.ge, hrank, ?_, ?_⟩)
      · exact det_ne_zero_of_rank _ (by rw [rank_transpose_mul_self, hrank])
      · subst hmn
        have hd := det_ne_zero_of_rank A hrank
        unfold squareInverse
        have e : A.submatrix (Fin.cast rfl) id = A := rfl
        rw [e, npInv_ok hrank]
        refine congrArg Except.ok ?_
        show A⁻¹ = _
        rw [Matrix.mul_inv_rev, Matrix.mul_assoc, Matrix.nonsing_inv_mul _
          (by rw [Matrix.det_transpose]; exact hd.isUnit), Matrix.mul_one]
    · rw [if_neg hrank]
      exact .inl ⟨by omega, rfl⟩
  · rw [dif_neg hmn]
    by_cases h1 : n < m ∧ A.rank = n
    · rw [if_pos h1]
      have hg : (Aᵀ * A).rank = n := by rw [rank_transpose_mul_self, h1.2]
      refine .inr (.inl ⟨h1.1.le, h1.2, det_ne_zero_of_rank _ hg, ?_⟩)
      unfold leftInverse
      rw [npInv_ok hg]
      rfl
    · rw [if_neg h1]
      by_cases h2 : m < n ∧ A.rank = m
      · rw [if_pos h2]
        have hg : (A * Aᵀ).rank = m := by rw [rank_self_mul_transpose, h2.2]
        refine .inr (.inr ⟨h2.1.le, h2.2, det_ne_zero_of_rank _ hg, ?_⟩)
        unfold rightInverse
        rw [npInv_ok hg]
        rfl
      · rw [if_neg h2]
        exact .inl ⟨by omega, rfl⟩

/-- C69: the generalized inverse exists exactly for matrices of full rank; for all others an exception
is raised. -/
theorem C69_exists (hm : 0 < m) (hn : 0 < n) (A : Matrix (Fin m) (Fin n) ℝ) :
    ((∃ P, generalizedInverse A = .ok P) ↔ A.rank = min m n) ∧
    (A.rank ≠ min m n → generalizedInverse A = .error .linalg) := by
  rcases generalizedInverse_cases hm hn A with ⟨h1, h2⟩ | ⟨h1, h2, -, h3⟩ | ⟨h1, h2, -, h3⟩
  · refine ⟨⟨fun ⟨P, hP⟩ => ?_, fun h => absurd h h1⟩, fun _ => h2⟩
    rw [h2] at hP
    cases hP
  · exact ⟨⟨fun _ => by omega, fun _ => ⟨_, h3⟩⟩, fun h => absurd (by omega) h⟩
  · exact ⟨⟨fun _ => by omega, fun _ => ⟨_, h3⟩⟩, fun h => absurd (by omega) h⟩

/-- The four conditions of Penrose. -/
structure Penrose (A : Matrix (Fin m) (Fin n) ℝ) (P : Matrix (Fin n) (Fin m) ℝ) : Prop where
  apa : A * P * A = A
  pap : P * A * P = P
  ap : (A * P)ᵀ = A * P
  pa : (P * A)ᵀ = P * A

/-- They determine the matrix. -/
theorem Penrose.unique {A : Matrix (Fin m) (Fin n) ℝ} {P Q : Matrix (Fin n) (Fin m) ℝ}
    (hP : Penrose A P) (hQ : Penrose A Q) : P = Q := by
  have h1 : A * P = A * Q := by
    calc A * P = (A * Q * A) * P := by rw [hQ.apa]
      _ = (A * Q) * (A * P) := by simp only [Matrix.mul_assoc]
      _ = (A * Q)ᵀ * (A * P)ᵀ := by rw [hQ.ap, hP.ap]
      _ = ((A * P * A) * Q)ᵀ := by rw [← Matrix.transpose_mul]; simp only [Matrix.mul_assoc]
      _ = A * Q := by rw [hP.apa, hQ.ap]
  have h2 : P * A = Q * A := by
    calc P * A = P * (A * Q * A) := by rw [hQ.apa]
      _ = (P * A) * (Q * A) := by simp only [Matrix.mul_assoc]
      _ = (P * A)ᵀ * (Q * A)ᵀ := by rw [hQ.pa, hP.pa]
      _ = (Q * (A * P * A))ᵀ := by rw [← Matrix.transpose_mul]; simp only [Matrix.mul_assoc]
      _ = Q * A := by rw [hP.apa, hQ.pa]
  calc P = P * A * P := hP.pap.symm
    _ = Q * A * P := by rw [h2]
    _ = Q * (A * P) := by rw [Matrix.mul_assoc]
    _ = Q * A * Q := by rw [h1, Matrix.mul_assoc]
    _ = Q := hQ.pap

/-- C69: what is returned is the Moore-Penrose inverse, the only matrix with these properties; it is a
left inverse of tall and a right inverse of wide matrices. -/
theorem C69_penrose (hm : 0 < m) (hn : 0 < n) (A : Matrix (Fin m) (Fin n) ℝ)
    (P : Matrix (Fin n) (Fin m) ℝ) (h : generalizedInverse A = .ok P) :
    Penrose A P ∧ (∀ Q, Penrose A Q → Q = P) ∧ (n ≤ m → P * A = 1) ∧ (m ≤ n → A * P = 1) := by
  have key : (n ≤ m ∧ P * A = 1 ∧ (A * P)ᵀ = A * P) ∨ (m ≤ n ∧ A * P = 1 ∧ (P * A)ᵀ = P * A) := by
    rcases generalizedInverse_cases hm hn A with ⟨_, h2⟩ | ⟨h1, _, hd, h3⟩ | ⟨h1, _, hd, h3⟩
    · rw [h] at h2
      cases h2
    · rw [h] at h3
      injection h3 with h3
      refine .inl ⟨h1, ?_, ?_⟩
      · rw [h3, Matrix.mul_assoc, Matrix.nonsing_inv_mul _ hd.isUnit]
      · rw [h3, Matrix.transpose_mul, Matrix.transpose_mul, Matrix.transpose_transpose,
          Matrix.transpose_nonsing_inv, Matrix.transpose_mul, Matrix.transpose_transpose,
          Matrix.mul_assoc]
    · rw [h] at h3
      injection h3 with h3
      refine .inr ⟨h1, ?_, ?_⟩
      · rw [h3, ← Matrix.mul_assoc, Matrix.mul_nonsing_inv _ hd.isUnit]
      · rw [h3, Matrix.transpose_mul, Matrix.transpose_mul, Matrix.transpose_transpose,
          Matrix.transpose_nonsing_inv, Matrix.transpose_mul, Matrix.transpose_transpose,
          Matrix.mul_assoc]
  have hpen : Penrose A P := by
    rcases key with ⟨_, h1, h2⟩ | ⟨_, h1, h2⟩
    · exact ⟨by rw [Matrix.mul_assoc, h1, Matrix.mul_one], by rw [h1, Matrix.one_mul], h2,
        by rw [h1, Matrix.transpose_one]⟩
    · exact ⟨by rw [h1, Matrix.one_mul], by rw [Matrix.mul_assoc, h1, Matrix.mul_one],
        by rw [h1, Matrix.transpose_one], h2⟩
  refine ⟨hpen, fun Q hQ => hQ.unique hpen, fun hle => ?_, fun hle => ?_⟩
  · rcases key with ⟨_, h1, _⟩ | ⟨h0, h1, _⟩
    · exact h1
    · obtain rfl : m = n := by omega
      exact mul_eq_one_comm.1 h1
  · rcases key with ⟨h0, h1, _⟩ | ⟨_, h1, _⟩
    · obtain rfl : m = n := by omega
      exact mul_eq_one_comm.1 h1
    · exact h1

/-- C69: used to solve overdetermined systems, it minimizes the sum of squared residuals. -/
theorem C69_least_squares (hm : 0 < m) (hn : 0 < n) (A : Matrix (Fin m) (Fin n) ℝ)
    (P : Matrix (Fin n) (Fin m) ℝ) (h : generalizedInverse A = .ok P) (b : Fin m → ℝ)
    (x : Fin n → ℝ) :
    ∑ i, ((A *ᵥ (P *ᵥ b)) i - b i) ^ 2 ≤ ∑ i, ((A *ᵥ x) i - b i) ^ 2 := by
  have hp := (C69_penrose hm hn A P h).1
  set r := fun i => (A *ᵥ (P *ᵥ b)) i - b i with hr
  set d := fun i => (A *ᵥ x) i - (A *ᵥ (P *ᵥ b)) i with hd
  have horth : ∑ i, r i * d i = 0 := by
    have h1 : Aᵀ *ᵥ r = 0 := by
      have e : r = A *ᵥ (P *ᵥ b) - b := rfl
      have e2 : Aᵀ * A * P = Aᵀ := by
        rw [Matrix.mul_assoc, ← hp.ap, ← Matrix.transpose_mul, hp.apa]
      rw [e, Matrix.mulVec_sub, Matrix.mulVec_mulVec, Matrix.mulVec_mulVec, e2, sub_self]
    have h2 : d = A *ᵥ (x - P *ᵥ b) := by
      rw [Matrix.mulVec_sub]
      rfl
    calc ∑ i, r i * d i = r ⬝ᵥ d := rfl
      _ = (Aᵀ *ᵥ r) ⬝ᵥ (x - P *ᵥ b) := by
        rw [h2, Matrix.dotProduct_mulVec, Matrix.mulVec_transpose]
      _ = 0 := by rw [h1, zero_dotProduct]
  calc ∑ i, r i ^ 2 ≤ ∑ i, r i ^ 2 + 2 * ∑ i, r i * d i + ∑ i, d i ^ 2 := by
        rw [horth]
        have : 0 ≤ ∑ i, d i ^ 2 := Finset.sum_nonneg fun _ _ => sq_nonneg _
        linarith
    _ = ∑ i, ((A *ᵥ x) i - b i) ^ 2 := by
        rw [Finset.mul_sum, ← Finset.sum_add_distrib, ← Finset.sum_add_distrib]
        refine Finset.sum_congr rfl fun i _ => ?_
        simp only [hr, hd]
        ring

/-- C69: used to solve underdetermined systems, it gives the solution of least norm. -/
theorem C69_least_norm (hm : 0 < m) (hn : 0 < n) (A : Matrix (Fin m) (Fin n) ℝ)
    (P : Matrix (Fin n) (Fin m) ℝ) (h : generalizedInverse A = .ok P) (x : Fin n → ℝ) :
    A *ᵥ (P *ᵥ (A *ᵥ x)) = A *ᵥ x ∧ ∑ i, (P *ᵥ (A *ᵥ x)) i ^ 2 ≤ ∑ i, x i ^ 2 := by
  have hp := (C69_penrose hm hn A P h).1
  constructor
  · rw [Matrix.mulVec_mulVec, Matrix.mulVec_mulVec, hp.apa]
  · set y := P *ᵥ (A *ᵥ x) with hy
    set d := x - y with hd
    have horth : ∑ i, y i * d i = 0 := by
      have h1 : (P * A) *ᵥ d = 0 := by
        rw [hd, hy, Matrix.mulVec_sub, Matrix.mulVec_mulVec, Matrix.mulVec_mulVec,
          hp.pap, sub_self]
      calc ∑ i, y i * d i = y ⬝ᵥ d := rfl
        _ = x ⬝ᵥ ((P * A) *ᵥ d) := by
          rw [hy, Matrix.mulVec_mulVec, ← hp.pa, Matrix.mulVec_transpose,
            ← Matrix.dotProduct_mulVec, hp.pa]
        _ = 0 := by rw [h1, dotProduct_zero]
    calc ∑ i, y i ^ 2 ≤ ∑ i, y i ^ 2 + 2 * ∑ i, y i * d i + ∑ i, d i ^ 2 := by
          rw [horth]
          have : 0 ≤ ∑ i, d i ^ 2 := Finset.sum_nonneg fun _ _ => sq_nonneg _
          linarith
      _ = ∑ i, x i ^ 2 := by
          rw [Finset.mul_sum, ← Finset.sum_add_distrib, ← Finset.sum_add_distrib]
          refine Finset.sum_congr rfl fun i _ => ?_
          simp only [hd, Pi.sub_apply]
          ring

/-! ## C70 -/

/-- C70: full row rank is decided as linear independence of the rows. -/
theorem C70_rows (hm : 0 < m) (hn : 0 < n) (A : Matrix (Fin m) (Fin n) ℝ) :
    ∃ p, hasFullRowRank A = .ok p ∧ (p ↔ LinearIndependent ℝ A.row) := by
  have hli : LinearIndependent ℝ A.row ↔ A.rank = m := by
    constructor
    · intro h
      simpa using h.rank_matrix
    · intro h
      rw [linearIndependent_iff_card_eq_finrank_span, Set.finrank, ← Matrix.rank_eq_finrank_span_row, h,
        Fintype.card_fin]
  unfold hasFullRowRank
  by_cases h : n < m
  · rw [if_pos h]
    refine ⟨False, rfl, ?_⟩
    rw [hli, false_iff]
    intro h'
    have := A.rank_le_width
    omega
  · rw [if_neg h]
    refine ⟨A.rank = m, ?_, hli.symm⟩
    unfold matrixRank
    rw [if_neg (by omega)]
    rfl

/-- C70: full column rank is decided as linear independence of the columns. -/
theorem C70_columns (hm : 0 < m) (hn : 0 < n) (A : Matrix (Fin m) (Fin n) ℝ) :
    ∃ p, hasFullColumnRank A = .ok p ∧ (p ↔ LinearIndependent ℝ A.col) := by
  have hli : LinearIndependent ℝ A.col ↔ A.rank = n := by
    constructor
    · intro h
      have := LinearIndependent.rank_matrix (M := Aᵀ) h
      rw [Matrix.rank_transpose] at this
      simpa using this
    · intro h
      rw [linearIndependent_iff_card_eq_finrank_span, Set.finrank, ← Matrix.rank_eq_finrank_span_cols, h,
        Fintype.card_fin]
  unfold hasFullColumnRank
  by_cases h : m < n
  · rw [if_pos h]
    refine ⟨False, rfl, ?_⟩
    rw [hli, false_iff]
    intro h'
    have := A.rank_le_height
    omega
  · rw [if_neg h]
    refine ⟨A.rank = n, ?_, hli.symm⟩
    unfold matrixRank
    rw [if_neg (by omega)]
    rfl

/-- C70: full rank means independent rows or independent columns, and is what makes the generalized
inverse exist. -/
theorem C70_full_rank (hm : 0 < m) (hn : 0 < n) (A : Matrix (Fin m) (Fin n) ℝ) :
    ∃ p, hasFullRank A = .ok p ∧
      (p ↔ LinearIndependent ℝ A.row ∨ LinearIndependent ℝ A.col) ∧
      (p ↔ ∃ P, generalizedInverse A = .ok P) := by
  refine ⟨A.rank = min m n, ?_, ?_, (C69_exists hm hn A).1.symm⟩
  · unfold hasFullRank matrixRank
    rw [if_neg (by omega)]
    rfl
  · have h1 : LinearIndependent ℝ A.row ↔ A.rank = m := by
      constructor
      · intro h
        simpa using h.rank_matrix
      · intro h
        rw [linearIndependent_iff_card_eq_finrank_span, Set.finrank, ← Matrix.rank_eq_finrank_span_row,
          h, Fintype.card_fin]
    have h2 : LinearIndependent ℝ A.col ↔ A.rank = n := by
      constructor
      · intro h
        have := LinearIndependent.rank_matrix (M := Aᵀ) h
        rw [Matrix.rank_transpose] at this
        simpa using this
      · intro h
        rw [linearIndependent_iff_card_eq_finrank_span, Set.finrank, ← Matrix.rank_eq_finrank_span_cols,
          h, Fintype.card_fin]
    rw [h1, h2]
    have := A.rank_le_width
    have := A.rank_le_height
    omega

/-- C70: matrices without rows or columns raise an exception, except where their shape decides. -/
theorem C70_empty (A : Matrix (Fin m) (Fin n) ℝ) (h : m = 0 ∨ n = 0) :
    hasFullRank A = .error .value ∧ generalizedInverse A = .error .value ∧
    (m ≤ n → hasFullRowRank A = .error .value) ∧ (n < m → hasFullRowRank A = .ok False) := by
  have hr : matrixRank A = .error .value := by
    unfold matrixRank
    rw [if_pos h]
  refine ⟨by unfold hasFullRank; rw [hr]; rfl, by unfold generalizedInverse; rw [hr], fun hmn => ?_,
    fun hmn => ?_⟩
  · unfold hasFullRowRank
    rw [if_neg (by omega), hr]
    rfl
  · unfold hasFullRowRank
    rw [if_pos hmn]

/-- A tall matrix of full rank and its generalized inverse. -/
example : generalizedInverse !![(1 : ℝ), 0; 0, 1; 0, 0] = .ok !![1, 0, 0; 0, 1, 0] := by
  have hA : Penrose !![(1 : ℝ), 0; 0, 1; 0, 0] !![1, 0, 0; 0, 1, 0] :=
    ⟨by ext i j; fin_cases i <;> fin_cases j <;> simp [Matrix.mul_apply, Fin.sum_univ_succ],
      by ext i j; fin_cases i <;> fin_cases j <;> simp [Matrix.mul_apply, Fin.sum_univ_succ],
      by ext i j; fin_cases i <;> fin_cases j <;> simp [Matrix.mul_apply, Fin.sum_univ_succ],
      by ext i j; fin_cases i <;> fin_cases j <;> simp [Matrix.mul_apply, Fin.sum_univ_succ]⟩
  have hrank : (!![(1 : ℝ), 0; 0, 1; 0, 0]).rank = 2 := by
    rw [← Matrix.rank_transpose_mul_self]
    refine rank_of_det_ne_zero' _ ?_
    rw [Matrix.det_fin_two]
    simp [Matrix.mul_apply, Fin.sum_univ_succ]
  obtain ⟨P, hP⟩ := (C69_exists (by decide) (by decide) !![(1 : ℝ), 0; 0, 1; 0, 0]).1.2
    (by rw [hrank]; rfl)
  rw [hP, (C69_penrose (by decide) (by decide) _ P hP).2.1 _ hA]

/-- C69: `generalized_left_inverse` called directly: it exists exactly if the columns are independent, is then a left inverse, and
otherwise a LinAlgError is raised. -/
theorem C69_left (A : Matrix (Fin m) (Fin n) ℝ) :
    (LinearIndependent ℝ A.col → ∃ P, leftInverse A = .ok P ∧ P * A = 1) ∧
      (¬ LinearIndependent ℝ A.col → leftInverse A = .error .linalg) := by
  have hli : LinearIndependent ℝ A.col ↔ A.rank = n := by
    constructor
    · intro h
      have := LinearIndependent.rank_matrix (M := Aᵀ) h
      simpa using this
    · intro h
      rw [← Matrix.rank_transpose] at h
      have : LinearIndependent ℝ (Aᵀ).row := by
        rw [linearIndependent_iff_card_eq_finrank_span, Set.finrank, ← Matrix.rank_eq_finrank_span_row, h, Fintype.card_fin]
      exact this
  rw [hli]
  constructor
  · intro h
    have hg : (Aᵀ * A).rank = n := by rw [rank_transpose_mul_self, h]
    refine ⟨(Aᵀ * A)⁻¹ * Aᵀ, ?_, ?_⟩
    · unfold leftInverse
      rw [npInv_ok hg]
      rfl
    · rw [Matrix.mul_assoc, Matrix.nonsing_inv_mul _ (det_ne_zero_of_rank _ hg).isUnit]
  · intro h
    have hd : (Aᵀ * A).det = 0 := by
      by_contra h'
      exact h (by rw [← rank_transpose_mul_self]; exact rank_of_det_ne_zero' _ h')
    unfold leftInverse npInv
    rw [if_pos hd]
    rfl

/-- C69: `generalized_right_inverse` called directly, likewise with the rows. -/
theorem C69_right (A : Matrix (Fin m) (Fin n) ℝ) :
    (LinearIndependent ℝ A.row → ∃ P, rightInverse A = .ok P ∧ A * P = 1) ∧
      (¬ LinearIndependent ℝ A.row → rightInverse A = .error .linalg) := by
  have hli : LinearIndependent ℝ A.row ↔ A.rank = m := by
    constructor
    · intro h
      simpa using h.rank_matrix
    · intro h
      rw [linearIndependent_iff_card_eq_finrank_span, Set.finrank, ← Matrix.rank_eq_finrank_span_row, h, Fintype.card_fin]
  rw [hli]
  constructor
  · intro h
    have hg : (A * Aᵀ).rank = m := by rw [rank_self_mul_transpose, h]
    refine ⟨Aᵀ * (A * Aᵀ)⁻¹, ?_, ?_⟩
    · unfold rightInverse
      rw [npInv_ok hg]
      rfl
    · rw [← Matrix.mul_assoc, Matrix.mul_nonsing_inv _ (det_ne_zero_of_rank _ hg).isUnit]
  · intro h
    have hd : (A * Aᵀ).det = 0 := by
      by_contra h'
      exact h (by rw [← rank_self_mul_transpose]; exact rank_of_det_ne_zero' _ h')
    unfold rightInverse npInv
    rw [if_pos hd]
    rfl

/-- Parallel rows have no right inverse. -/
example : rightInverse !![(1 : ℝ), 2, 0; 2, 4, 0] = .error .linalg := by
  refine (C69_right _).2 fun h => ?_
  have := Fintype.linearIndependent_iff.1 h ![2, -1] (by
    ext k
    fin_cases k <;> simp [Fin.sum_univ_two]
    norm_num) 0
  simp at this

end Verif.Lin.Props
