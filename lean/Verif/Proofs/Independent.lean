import Verif.Model.Independent
import Verif.Proofs.RoundedFrames
import Mathlib.Analysis.Matrix.PosDef
import Mathlib.Data.Real.StarOrdered
import Mathlib.LinearAlgebra.Matrix.Rank
import Mathlib.LinearAlgebra.Matrix.NonsingularInverse
import Mathlib.Algebra.Order.BigOperators.Ring.Finset
import Mathlib.Tactic.Linarith
import Mathlib.Tactic.Ring
import Mathlib.Tactic.FieldSimp

set_option linter.unusedSectionVars false

/-! # Helper lemmas about the test for independence -/

namespace Verif.Indep
open Verif Verif.Rnd Verif.RFrames

theorem rows_iff_rank {m n : ℕ} (A : Matrix (Fin m) (Fin n) ℝ) : LinearIndependent ℝ A.row ↔ A.rank = m := by
  constructor
  · intro h
    simpa using h.rank_matrix
  · intro h
    rw [linearIndependent_iff_card_eq_finrank_span, Set.finrank, ← Matrix.rank_eq_finrank_span_row, h, Fintype.card_fin]

theorem gram_nonneg {m n : ℕ} (A : Matrix (Fin m) (Fin n) ℝ) : 0 ≤ (A * A.transpose).det := by
  have := (Matrix.posSemidef_self_mul_conjTranspose A).det_nonneg
  rwa [Matrix.conjTranspose_eq_transpose_of_trivial] at this

theorem gram_pos_iff {m n : ℕ} (A : Matrix (Fin m) (Fin n) ℝ) :
    0 < (A * A.transpose).det ↔ LinearIndependent ℝ A.row := by
  rw [rows_iff_rank, ← Matrix.rank_self_mul_transpose, ← rows_iff_rank, Matrix.linearIndependent_rows_iff_isUnit,
    Matrix.isUnit_iff_isUnit_det, isUnit_iff_ne_zero]
  constructor
  · exact ne_of_gt
  · exact fun h => lt_of_le_of_ne (gram_nonneg A) (Ne.symm h)

section
variable {K : Type} [Field K] [LinearOrder K] [IsStrictOrderedRing K] {n : ℕ} {fl : K → K} {u : K}

theorem fl_pos (hu : Precise fl u) (h1 : u < 1) {x : K} (hx : 0 < x) : 0 < fl x := by
  have h := hu x
  rw [abs_of_pos hx, abs_le] at h
  nlinarith [h.1]

theorem fl_neg (hu : Precise fl u) (h1 : u < 1) {x : K} (hx : x < 0) : fl x < 0 := by
  have h := hu x
  rw [abs_of_neg hx, abs_le] at h
  nlinarith [h.2]

/-- The relative form of a rounding. -/
theorem rel (hu : Precise fl u) (x : K) : ∃ d, fl x = x * (1 + d) ∧ |d| ≤ u := by
  have h0 := hu.nonneg
  by_cases hx : x = 0
  · refine ⟨0, ?_, by simpa using h0⟩
    have := hu x
    rw [hx] at this ⊢
    simpa using this
  · refine ⟨(fl x - x) / x, by field_simp; ring, ?_⟩
    rw [abs_div, div_le_iff₀ (abs_pos.mpr hx)]
    exact hu x

theorem step_bounds {t d lo hi : K} (h1 : u < 1) (hlo : 0 ≤ lo) (ht : lo ≤ t ∧ t ≤ hi) (hd : |d| ≤ u) :
    (1 - u) * lo ≤ (1 + d) * t ∧ (1 + d) * t ≤ (1 + u) * hi := by
  have := abs_le.mp hd
  constructor
  · exact mul_le_mul (by linarith) ht.1 hlo (by linarith)
  · exact mul_le_mul (by linarith) ht.2 (hlo.trans ht.1) (by linarith)

/-- The second pivot. -/
theorem second_form (hu : Precise fl u) (h1 : u < 1) (lib : Lib) {a : K} (b c d : K) (ha : a ≠ 0) :
    ∃ T, (1 - u) ^ 3 ≤ T ∧ T ≤ (1 + u) ^ 3 ∧ second fl lib a b c d = fl (d - c * b / a * T) := by
  have h0 := hu.nonneg
  have hl : ∃ t, (1 - u) ^ 2 ≤ t ∧ t ≤ (1 + u) ^ 2 ∧
      (if lib.recip then fl (c * fl (1 / a)) else fl (c / a)) = c / a * t := by
    split
    · obtain ⟨x, hx, hx'⟩ := rel hu (1 / a)
      obtain ⟨y, hy, hy'⟩ := rel hu (c * fl (1 / a))
      obtain ⟨b1, b2⟩ := step_bounds (t := 1) (lo := 1) (hi := 1) h1 zero_le_one ⟨le_rfl, le_rfl⟩ hx'
      obtain ⟨b3, b4⟩ := step_bounds h1 (by linarith) ⟨b1, b2⟩ hy'
      refine ⟨(1 + y) * (1 + x), ?_, ?_, ?_⟩
      · rw [pow_two]; simpa using b3
      · rw [pow_two]; simpa using b4
      · rw [hy, hx]; ring
    · obtain ⟨x, hx, hx'⟩ := rel hu (c / a)
      have := abs_le.mp hx'
      exact ⟨1 + x, by nlinarith, by nlinarith, hx⟩
  obtain ⟨t, t1, t2, ht⟩ := hl
  unfold second mulAdd
  simp only [ht]
  split
  · refine ⟨t, ?_, ?_, by congr 1; field_simp; ring⟩
    · refine le_trans ?_ t1
      exact pow_le_pow_of_le_one (by linarith) (by linarith) (by norm_num)
    · refine t2.trans ?_
      exact pow_le_pow_right₀ (by linarith) (by norm_num)
  · obtain ⟨x, hx, hx'⟩ := rel hu (-(c / a * t) * b)
    obtain ⟨b1, b2⟩ := step_bounds h1 (by positivity) ⟨t1, t2⟩ hx'
    refine ⟨(1 + x) * t, ?_, ?_, ?_⟩
    · rw [pow_succ']; exact b1
    · rw [pow_succ']; exact b2
    · rw [hx]; congr 1; field_simp; ring

/-- The sign of the determinant of a matrix with positive diagonal whose off-diagonal entries are small enough. -/
theorem detSign_pos (hu : Precise fl u) (h1 : u < 1) (lib : Lib) (G : Matrix (Fin 2) (Fin 2) K) (h00 : 0 < G 0 0)
    (h11 : 0 < G 1 1) (h : |G 0 1| * |G 1 0| < (1 - u) ^ 3 * (G 0 0 * G 1 1)) : detSign fl lib G = 1 := by
  have h0 := hu.nonneg
  have hpr : 0 < G 0 0 * G 1 1 := mul_pos h00 h11
  unfold detSign
  by_cases hp : |G 0 0| < |G 1 0|
  · rw [if_pos hp]
    have hc : G 1 0 ≠ 0 := by
      intro h'
      rw [h', abs_zero] at hp
      exact absurd hp (not_lt.mpr (abs_nonneg _))
    obtain ⟨T, t1, t2, e⟩ := second_form hu h1 lib (G 1 1) (G 0 0) (G 0 1) hc
    rw [e]
    have hx : (G 0 1 - G 0 0 * G 1 1 / G 1 0 * T) * G 1 0 < 0 := by
      have e1 : (G 0 1 - G 0 0 * G 1 1 / G 1 0 * T) * G 1 0 = G 0 1 * G 1 0 - T * (G 0 0 * G 1 1) := by
        field_simp
      have e2 := le_abs_self (G 0 1 * G 1 0)
      rw [abs_mul] at e2
      rw [e1]
      have := mul_le_mul_of_nonneg_right t1 hpr.le
      linarith
    rcases lt_or_gt_of_ne hc with hneg | hpos
    · have : 0 < G 0 1 - G 0 0 * G 1 1 / G 1 0 * T := by
        by_contra h'
        push Not at h'
        nlinarith
      rw [sign_neg hneg, sign_pos (fl_pos hu h1 this)]
      decide
    · have : G 0 1 - G 0 0 * G 1 1 / G 1 0 * T < 0 := by
        by_contra h'
        push Not at h'
        nlinarith
      rw [sign_pos hpos, sign_neg (fl_neg hu h1 this)]
      decide
  · rw [if_neg hp, if_neg h00.ne']
    obtain ⟨T, t1, t2, e⟩ := second_form hu h1 lib (G 0 1) (G 1 0) (G 1 1) h00.ne'
    rw [e]
    have hT : 0 ≤ T := le_trans (by have : 0 ≤ 1 - u := by linarith
                                    positivity) t1
    have hx : 0 < G 1 1 - G 1 0 * G 0 1 / G 0 0 * T := by
      have hb : T * (|G 0 1| * |G 1 0|) < G 0 0 * G 1 1 := by
        have e1 : T * (1 - u) ^ 3 ≤ 1 := by
          calc T * (1 - u) ^ 3 ≤ (1 + u) ^ 3 * (1 - u) ^ 3 :=
                mul_le_mul_of_nonneg_right t2 (by have : 0 ≤ 1 - u := by linarith
                                                  positivity)
            _ ≤ 1 := by
              rw [← mul_pow]
              exact pow_le_one₀ (by nlinarith) (by nlinarith)
        have hT' : 0 < T := lt_of_lt_of_le (by have : 0 < 1 - u := by linarith
                                               positivity) t1
        calc T * (|G 0 1| * |G 1 0|) < T * ((1 - u) ^ 3 * (G 0 0 * G 1 1)) := mul_lt_mul_of_pos_left h hT'
          _ = T * (1 - u) ^ 3 * (G 0 0 * G 1 1) := by ring
          _ ≤ 1 * (G 0 0 * G 1 1) := mul_le_mul_of_nonneg_right e1 hpr.le
          _ = _ := one_mul _
      have e2 := le_abs_self (G 1 0 * G 0 1)
      rw [abs_mul] at e2
      have e3 : (G 1 1 - G 1 0 * G 0 1 / G 0 0 * T) * G 0 0 = G 0 0 * G 1 1 - T * (G 1 0 * G 0 1) := by
        field_simp
      have e4 : 0 < (G 1 1 - G 1 0 * G 0 1 / G 0 0 * T) * G 0 0 := by
        rw [e3]
        nlinarith [mul_le_mul_of_nonneg_left e2 hT]
      exact pos_of_mul_pos_left e4 h00.le
    rw [sign_pos h00, sign_pos (fl_pos hu h1 hx)]
    decide

/-- Scalar products along plans. -/
theorem gram_near (hu : Precise fl u) {h : ℕ} (p : Plan n) (hp : p.terms.Perm (List.finRange n)) (hh : p.height ≤ h)
    (a b : Fin n → K) :
    |p.eval fl a b - ∑ i, a i * b i| ≤ ((1 + u) ^ h - 1) * ∑ i, |a i * b i| := by
  have := eval_near hu a b a b (fun i => |a i|) (fun i => |b i|) (fun i => Near.refl u (a i)) (fun i => Near.refl u (b i)) p
  rw [terms_sum hp, terms_sum hp] at this
  have h1 := this.1
  simp only [add_zero, ← abs_mul] at h1
  refine h1.trans (mul_le_mul_of_nonneg_right ?_ (Finset.sum_nonneg fun i _ => abs_nonneg _))
  have := pow_le_pow_right₀ (show 1 ≤ 1 + u by linarith [hu.nonneg]) hh
  linarith

theorem poly {u g : K} (h0 : 0 ≤ u) (hg0 : 0 ≤ g) (ht : 5 * (g + u) ≤ 1) :
    1 - 3 * u - 2 * g ≤ (1 - u) ^ 3 * (1 - g) ^ 2 := by
  have q : 0 ≤ 1 - u := by linarith
  have a0 : 1 - 2 * u ≤ (1 - u) ^ 2 := by nlinarith [sq_nonneg u]
  have a1 : 1 - 3 * u ≤ (1 - u) ^ 3 := by
    have : (1 - u) ^ 3 = (1 - u) ^ 2 * (1 - u) := by ring
    rw [this]
    nlinarith [mul_le_mul_of_nonneg_right a0 q, sq_nonneg u]
  have a2 : 1 - 2 * g ≤ (1 - g) ^ 2 := by nlinarith [sq_nonneg g]
  have a3 : (1 - 3 * u) * (1 - 2 * g) ≤ (1 - u) ^ 3 * (1 - g) ^ 2 :=
    mul_le_mul a1 a2 (by linarith) (by positivity)
  nlinarith [mul_nonneg h0 hg0]

/-- The Gram matrix of two vectors that are far enough from parallel. -/
theorem gram2_pos (hu : Precise fl u) {h : ℕ} (lib : Lib) (plan : Fin 2 → Fin 2 → Plan n)
    (hp : ∀ i j, (plan i j).terms.Perm (List.finRange n) ∧ (plan i j).height ≤ h) (A : Matrix (Fin 2) (Fin n) K)
    (hA : 5 * ((1 + u) ^ (h + 1) - 1) * ((∑ k, A 0 k ^ 2) * ∑ k, A 1 k ^ 2) <
      (∑ k, A 0 k ^ 2) * (∑ k, A 1 k ^ 2) - (∑ k, A 0 k * A 1 k) ^ 2) :
    detSign fl lib (gram2 fl plan A) = 1 := by
  have h0 := hu.nonneg
  set P := ∑ k, A 0 k ^ 2 with hP
  set Q := ∑ k, A 1 k ^ 2 with hQ
  set c := ∑ k, A 0 k * A 1 k with hc
  set g := (1 + u) ^ h - 1 with hg
  have hP0 : 0 ≤ P := Finset.sum_nonneg fun i _ => sq_nonneg _
  have hQ0 : 0 ≤ Q := Finset.sum_nonneg fun i _ => sq_nonneg _
  have hg0 : 0 ≤ g := by
    have := one_le_pow₀ (show 1 ≤ 1 + u by linarith) (n := h)
    rw [hg]
    linarith
  have hgu : g + u ≤ (1 + u) ^ (h + 1) - 1 := by
    have : (1 + u) ^ (h + 1) = (1 + g) * (1 + u) := by rw [hg]; ring
    nlinarith
  have hN0 : 0 < P * Q := by
    rcases (mul_nonneg hP0 hQ0).lt_or_eq with h' | h'
    · exact h'
    · rw [← h'] at hA
      have := sq_nonneg c
      linarith
  have hA' : c ^ 2 < P * Q * (1 - 5 * (g + u)) := by nlinarith
  have ht : 5 * (g + u) < 1 := by
    by_contra h'
    push Not at h'
    have := sq_nonneg c
    nlinarith
  have hP1 : 0 < P := hP0.lt_of_ne fun h' => by rw [← h', zero_mul] at hN0; exact lt_irrefl _ hN0
  have hQ1 : 0 < Q := hQ0.lt_of_ne fun h' => by rw [← h', mul_zero] at hN0; exact lt_irrefl _ hN0
  -- the sum of the absolute values
  set s := ∑ k, |A 0 k * A 1 k| with hs
  have hs0 : 0 ≤ s := Finset.sum_nonneg fun i _ => abs_nonneg _
  have hcs : |c| ≤ s := Finset.abs_sum_le_sum_abs _ _
  have hs2 : s ^ 2 ≤ P * Q := by
    have := Finset.sum_mul_sq_le_sq_mul_sq Finset.univ (fun k => |A 0 k|) fun k => |A 1 k|
    simpa only [← abs_mul, sq_abs] using this
  have sqs : ∀ i, ∑ k, |A i k * A i k| = ∑ k, A i k ^ 2 := fun i => by
    refine Finset.sum_congr rfl fun k _ => ?_
    rw [← pow_two, abs_of_nonneg (sq_nonneg _)]
  have sqs' : ∀ i, ∑ k, A i k * A i k = ∑ k, A i k ^ 2 := fun i => Finset.sum_congr rfl fun k _ => (pow_two _).symm
  have e00 := gram_near hu (plan 0 0) (hp 0 0).1 (hp 0 0).2 (A 0) (A 0)
  have e11 := gram_near hu (plan 1 1) (hp 1 1).1 (hp 1 1).2 (A 1) (A 1)
  have e01 := gram_near hu (plan 0 1) (hp 0 1).1 (hp 0 1).2 (A 0) (A 1)
  have e10 := gram_near hu (plan 1 0) (hp 1 0).1 (hp 1 0).2 (A 1) (A 0)
  rw [sqs, sqs', ← hP, ← hg] at e00
  rw [sqs, sqs', ← hQ, ← hg] at e11
  rw [← hc, ← hs, ← hg] at e01
  have c1 : ∑ k, A 1 k * A 0 k = c := Finset.sum_congr rfl fun k _ => mul_comm _ _
  have c2 : ∑ k, |A 1 k * A 0 k| = s := Finset.sum_congr rfl fun k _ => by rw [mul_comm]
  rw [c1, c2, ← hg] at e10
  have bnd : ∀ x : K, |x - c| ≤ g * s → |x| ≤ |c| + g * s := fun x hx => by
    have := abs_add_le (x - c) c
    rw [sub_add_cancel] at this
    linarith
  have f00 := (abs_le.mp e00).1
  have f11 := (abs_le.mp e11).1
  have l00 : (1 - g) * P ≤ gram2 fl plan A 0 0 := by unfold gram2; linarith
  have l11 : (1 - g) * Q ≤ gram2 fl plan A 1 1 := by unfold gram2; linarith
  have b01 : |gram2 fl plan A 0 1| ≤ |c| + g * s := bnd _ e01
  have b10 : |gram2 fl plan A 1 0| ≤ |c| + g * s := bnd _ e10
  have g1 : 0 < 1 - g := by linarith
  have u1 : 0 < 1 - u := by linarith
  have p00 : 0 < gram2 fl plan A 0 0 := lt_of_lt_of_le (mul_pos g1 hP1) l00
  have p11 : 0 < gram2 fl plan A 1 1 := lt_of_lt_of_le (mul_pos g1 hQ1) l11
  refine detSign_pos hu (by linarith) lib _ p00 p11 ?_
  have d1 : (1 - g) ^ 2 * (P * Q) ≤ gram2 fl plan A 0 0 * gram2 fl plan A 1 1 := by
    have := mul_le_mul l00 l11 (mul_nonneg g1.le hQ0) p00.le
    calc _ = (1 - g) * P * ((1 - g) * Q) := by ring
      _ ≤ _ := this
  have d2 : |gram2 fl plan A 0 1| * |gram2 fl plan A 1 0| ≤ c ^ 2 + 3 * g * (P * Q) := by
    have := mul_le_mul b01 b10 (abs_nonneg _) (add_nonneg (abs_nonneg c) (mul_nonneg hg0 hs0))
    refine this.trans ?_
    have e : (|c| + g * s) * (|c| + g * s) = c ^ 2 + g * (2 * (|c| * s) + g * s ^ 2) := by
      rw [← sq_abs c]; ring
    rw [e]
    have k1 : |c| * s ≤ P * Q := (mul_le_mul_of_nonneg_right hcs hs0).trans (by rw [← pow_two]; exact hs2)
    have k2 : g * s ^ 2 ≤ P * Q := by
      have : g * s ^ 2 ≤ 1 * s ^ 2 := mul_le_mul_of_nonneg_right (by linarith) (sq_nonneg s)
      linarith
    nlinarith
  have d3 := poly h0 hg0 (by linarith : 5 * (g + u) ≤ 1)
  calc _ ≤ c ^ 2 + 3 * g * (P * Q) := d2
    _ < P * Q * (1 - 5 * (g + u)) + 3 * g * (P * Q) := by linarith
    _ ≤ (1 - 3 * u - 2 * g) * (P * Q) := by linarith [mul_nonneg h0 hN0.le]
    _ ≤ (1 - u) ^ 3 * (1 - g) ^ 2 * (P * Q) := mul_le_mul_of_nonneg_right d3 hN0.le
    _ = (1 - u) ^ 3 * ((1 - g) ^ 2 * (P * Q)) := by ring
    _ ≤ _ := mul_le_mul_of_nonneg_left d1 (by positivity)

end

/-! ### Integers -/

/-- Whole numbers that are not too large. -/
theorem binary_nat (k : ℕ) (hk : k ≤ 2 ^ 53) : binary 53 (k : ℚ) = k := by
  have := binary_exact 53 (by norm_num) (k : ℤ) 0 (by rw [abs_of_nonneg (by positivity)]; exact_mod_cast hk)
  simpa using this

/-- Scalar products of small whole numbers are exact along every plan. -/
theorem eval_nat {n : ℕ} (a b : Fin n → ℕ) (p : Plan n) (h : (p.terms.map fun i => a i * b i).sum ≤ 2 ^ 53) :
    p.eval (binary 53) (fun i => (a i : ℚ)) (fun i => (b i : ℚ)) = ((p.terms.map fun i => a i * b i).sum : ℕ) := by
  induction p with
  | zero => simp [Plan.eval, Plan.terms]
  | prod i =>
    simp only [Plan.terms, List.map_cons, List.map_nil, List.sum_cons, List.sum_nil, add_zero] at h ⊢
    have := binary_nat _ h
    simp only [Plan.eval]
    push_cast at this ⊢
    exact this
  | add l r hl hr =>
    simp only [Plan.terms, List.map_append, List.sum_append] at h ⊢
    have := binary_nat _ h
    simp only [Plan.eval, hl (by omega), hr (by omega)]
    push_cast at this ⊢
    exact this
  | fma l i hl =>
    simp only [Plan.terms, List.map_append, List.sum_append, List.map_cons, List.map_nil, List.sum_cons, List.sum_nil,
      add_zero] at h ⊢
    have := binary_nat _ h
    simp only [Plan.eval, hl (by omega)]
    push_cast at this ⊢
    exact this

end Verif.Indep
