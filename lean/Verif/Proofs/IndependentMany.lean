import Verif.Model.IndependentMany
import Verif.Proofs.Independent
import Mathlib.LinearAlgebra.Matrix.Determinant.Basic
import Mathlib.Algebra.Order.Chebyshev

set_option linter.unusedSectionVars false

/-! # Helper lemmas about the rounded test for independence of many vectors -/

namespace Verif.Indep
open Verif Verif.Rnd Verif.RFrames

/-- Elimination of the first column. -/
theorem det_eliminate {K : Type} [Field K] {m : ℕ} (A : Matrix (Fin (m + 1)) (Fin (m + 1)) K) (c : Fin m → K)
    (hc : ∀ i, A i.succ 0 = c i * A 0 0) :
    A.det = A 0 0 * Matrix.det fun i j : Fin m => A i.succ j.succ - c i * A 0 j.succ := by
  obtain ⟨B, hB⟩ : ∃ B : Matrix (Fin (m + 1)) (Fin (m + 1)) K,
      ∀ i j, B i j = A i j - (Fin.cons 0 c : Fin (m + 1) → K) i * A 0 j := ⟨fun i j => _, fun i j => rfl⟩
  have h1 : A.det = B.det := by
    refine Matrix.det_eq_of_forall_row_eq_smul_add_const (Fin.cons 0 c : Fin (m + 1) → K) 0 rfl fun i j => ?_
    rw [hB, hB, Fin.cons_zero]
    ring
  have h2 : ∀ i : Fin m, B i.succ 0 = 0 := fun i => by
    rw [hB, hc, Fin.cons_succ, sub_self]
  have h3 : B 0 0 = A 0 0 := by
    rw [hB, Fin.cons_zero]
    ring
  rw [h1, Matrix.det_succ_column_zero, Fin.sum_univ_succ]
  simp only [h2, h3, mul_zero, zero_mul, Finset.sum_const_zero, add_zero, Fin.val_zero, pow_zero, one_mul]
  congr 2
  funext i j
  rw [Matrix.submatrix_apply, hB]
  rfl

section
variable {K : Type} [Field K] [LinearOrder K] [IsStrictOrderedRing K] {n : ℕ} {fl : K → K} {u : K}

/-- A matrix whose quadratic form is positive has a positive determinant. -/
theorem det_pos_of_form {m : ℕ} (A : Matrix (Fin m) (Fin m) K)
    (h : ∀ c : Fin m → K, c ≠ 0 → 0 < ∑ i, ∑ j, c i * A i j * c j) : 0 < A.det := by
  induction m with
  | zero => simp
  | succ m ih =>
    have h00 : 0 < A 0 0 := by
      have := h (Fin.cons 1 0) (fun h' => by simpa using congrFun h' 0)
      simpa [Fin.sum_univ_succ] using this
    rw [det_eliminate A (fun i => A i.succ 0 / A 0 0) fun i => by field_simp]
    refine mul_pos h00 (ih _ fun c hc => ?_)
    -- the first coordinate that makes the first row vanish
    set t := -(∑ j, A 0 (Fin.succ j) * c j) / A 0 0 with ht
    have := h (Fin.cons t c) (fun h' => hc (funext fun i => by simpa using congrFun h' i.succ))
    simp only [Fin.sum_univ_succ, Fin.cons_zero, Fin.cons_succ] at this
    have e : t * A 0 0 = -(∑ j, A 0 (Fin.succ j) * c j) := by rw [ht]; field_simp
    have e1 : ∑ j : Fin m, t * A 0 j.succ * c j = -(t * A 0 0 * t) := by
      have : ∑ j : Fin m, t * A 0 j.succ * c j = t * ∑ j, A 0 (Fin.succ j) * c j := by
        rw [Finset.mul_sum]
        exact Finset.sum_congr rfl fun j _ => by ring
      rw [this, e]
      ring
    rw [e1, add_neg_cancel, zero_add] at this
    refine this.trans_eq (Finset.sum_congr rfl fun i _ => ?_)
    have e2 : ∑ j, c i * (A i.succ j.succ - A i.succ 0 / A 0 0 * A 0 j.succ) * c j =
        ∑ j, c i * A i.succ j.succ * c j - c i * (A i.succ 0 / A 0 0) * ∑ j, A 0 (Fin.succ j) * c j := by
      rw [Finset.mul_sum, ← Finset.sum_sub_distrib]
      exact Finset.sum_congr rfl fun j _ => by ring
    rw [e2]
    have e3 : ∑ j, A 0 (Fin.succ j) * c j = -(t * A 0 0) := by rw [e, neg_neg]
    rw [e3]
    field_simp
    ring

/-! ### Pivots -/

theorem pivot_fold {m : ℕ} (c : Fin (m + 1) → K) (l : List (Fin (m + 1))) (p : Fin (m + 1)) :
    |c p| ≤ |c (l.foldl (fun p i => if |c p| < |c i| then i else p) p)| ∧
      ∀ i ∈ l, |c i| ≤ |c (l.foldl (fun p i => if |c p| < |c i| then i else p) p)| := by
  induction l generalizing p with
  | nil => simp
  | cons a l ih =>
    rw [List.foldl_cons]
    obtain ⟨h1, h2⟩ := ih (if |c p| < |c a| then a else p)
    have k1 : |c p| ≤ |c (if |c p| < |c a| then a else p)| := by
      split
      · rename_i h; exact h.le
      · exact le_rfl
    have k2 : |c a| ≤ |c (if |c p| < |c a| then a else p)| := by
      split
      · exact le_rfl
      · rename_i h; exact not_lt.1 h
    refine ⟨k1.trans h1, fun i hi => ?_⟩
    rcases List.mem_cons.1 hi with rfl | hi
    · exact k2.trans h1
    · exact h2 i hi

theorem le_pivot {m : ℕ} (c : Fin (m + 1) → K) (i : Fin (m + 1)) : |c i| ≤ |c (pivotRow c)| :=
  (pivot_fold c _ 0).2 i (List.mem_finRange i)

/-- One entry. -/
theorem second_bound (hu : Precise fl u) (lib : Lib) {a b c d M : K} (ha : a ≠ 0) (hca : |c| ≤ |a|)
    (hb : |b| ≤ M) (hc : |c| ≤ M) (hd : |d| ≤ M) (l : K)
    (hl : l = if lib.recip then fl (c * fl (1 / a)) else fl (c / a)) :
    |l * a - c| ≤ ((1 + u) ^ 2 - 1) * M ∧
    |second fl lib a b c d - (d - l * b)| ≤ ((1 + u) ^ 2 - 1) * (1 + (1 + u) ^ 2) * M ∧
    |second fl lib a b c d| ≤ (1 + u) ^ 2 * (1 + (1 + u) ^ 2) * M := by
  have h0 := hu.nonneg
  have hM : 0 ≤ M := (abs_nonneg _).trans hb
  have ha' := abs_pos.2 ha
  have hq : |c / a| ≤ 1 := by rw [abs_div, div_le_one ha']; exact hca
  have hl1 : |l - c / a| ≤ ((1 + u) ^ 2 - 1) * |c / a| := by
    rw [hl]
    split
    · have k1 := hu (1 / a)
      have k2 := hu (c * fl (1 / a))
      have e : |c * fl (1 / a) - c / a| ≤ u * |c / a| := by
        have : c * fl (1 / a) - c / a = c * (fl (1 / a) - 1 / a) := by ring
        rw [this, abs_mul]
        have := mul_le_mul_of_nonneg_left k1 (abs_nonneg c)
        refine this.trans_eq ?_
        rw [show c / a = c * (1 / a) by ring, abs_mul]
        ring
      have e2 : |c * fl (1 / a)| ≤ (1 + u) * |c / a| := by
        have := abs_add_le (c * fl (1 / a) - c / a) (c / a)
        rw [sub_add_cancel] at this
        linarith
      have e3 := abs_add_le (fl (c * fl (1 / a)) - c * fl (1 / a)) (c * fl (1 / a) - c / a)
      rw [sub_add_sub_cancel] at e3
      nlinarith [mul_le_mul_of_nonneg_left e2 h0]
    · have k := hu (c / a)
      nlinarith [abs_nonneg (c / a), mul_nonneg h0 (abs_nonneg (c / a)), mul_nonneg (mul_nonneg h0 h0) (abs_nonneg (c / a))]
  have hth : 0 ≤ (1 + u) ^ 2 - 1 := by nlinarith
  have hlw : |l| ≤ (1 + u) ^ 2 := by
    have := abs_add_le (l - c / a) (c / a)
    rw [sub_add_cancel] at this
    nlinarith [mul_le_mul_of_nonneg_left hq hth]
  have hlb : |l * b| ≤ (1 + u) ^ 2 * M := by
    rw [abs_mul]
    exact mul_le_mul hlw hb (abs_nonneg _) (by positivity)
  have h1 : |l * a - c| ≤ ((1 + u) ^ 2 - 1) * M := by
    have e : l * a - c = (l - c / a) * a := by field_simp
    rw [e, abs_mul]
    have := mul_le_mul_of_nonneg_right hl1 (abs_nonneg a)
    refine this.trans ?_
    rw [mul_assoc, ← abs_mul, div_mul_cancel₀ _ ha]
    exact mul_le_mul_of_nonneg_left hc hth
  have h2 : |second fl lib a b c d - (d - l * b)| ≤ ((1 + u) ^ 2 - 1) * (|d| + |l * b|) := by
    unfold second mulAdd
    simp only [← hl]
    have p1 := abs_nonneg d
    have p2 := abs_nonneg (l * b)
    split
    · have k := hu (d + -l * b)
      have e : d - l * b = d + -l * b := by ring
      rw [e]
      have := abs_add_le d (-l * b)
      rw [neg_mul, abs_neg] at this
      rw [neg_mul] at k ⊢
      nlinarith [mul_le_mul_of_nonneg_left this h0, mul_nonneg h0 p1, mul_nonneg h0 p2, mul_nonneg (mul_nonneg h0 h0) p1,
        mul_nonneg (mul_nonneg h0 h0) p2]
    · have k := hu (-l * b)
      have k2 := hu (d + fl (-l * b))
      have a1 : |-l * b| = |l * b| := by rw [neg_mul, abs_neg]
      rw [a1] at k
      have a2 : |fl (-l * b)| ≤ (1 + u) * |l * b| := by
        have := abs_add_le (fl (-l * b) - -l * b) (-l * b)
        rw [sub_add_cancel, a1] at this
        linarith
      have a3 := abs_add_le d (fl (-l * b))
      have a4 := abs_add_le (fl (d + fl (-l * b)) - (d + fl (-l * b))) (fl (-l * b) - -l * b)
      have e : fl (d + fl (-l * b)) - (d + fl (-l * b)) + (fl (-l * b) - -l * b) =
          fl (d + fl (-l * b)) - (d - l * b) := by ring
      rw [e] at a4
      nlinarith [mul_le_mul_of_nonneg_left a3 h0, mul_le_mul_of_nonneg_left a2 h0, mul_nonneg h0 p1,
        mul_nonneg (mul_nonneg h0 h0) p1]
  have h3 : |d| + |l * b| ≤ (1 + (1 + u) ^ 2) * M := by linarith
  refine ⟨h1, ?_, ?_⟩
  · refine h2.trans ?_
    rw [mul_assoc]
    exact mul_le_mul_of_nonneg_left h3 hth
  · have := abs_add_le (second fl lib a b c d - (d - l * b)) (d - l * b)
    rw [sub_add_cancel] at this
    have e := abs_sub d (l * b)
    nlinarith [mul_le_mul_of_nonneg_left h3 hth]

/-- The error of the elimination, relative to the largest entry. -/
def elimBound (u : K) : ℕ → K
  | 0 => 0
  | m + 1 => ((1 + u) ^ 2 - 1) * (1 + (1 + u) ^ 2) + (1 + u) ^ 2 * (1 + (1 + u) ^ 2) * elimBound u m

theorem elimBound_nonneg {u : K} (h0 : 0 ≤ u) (m : ℕ) : 0 ≤ elimBound u m := by
  induction m with
  | zero => exact le_rfl
  | succ m ih =>
    have : 0 ≤ (1 + u) ^ 2 - 1 := by nlinarith
    unfold elimBound
    positivity

theorem elimBound_eq (u : K) (m : ℕ) : elimBound u m =
    ((1 + u) ^ 2 - 1) * (1 + (1 + u) ^ 2) * ∑ k ∈ Finset.range m, ((1 + u) ^ 2 * (1 + (1 + u) ^ 2)) ^ k := by
  induction m with
  | zero => simp [elimBound]
  | succ m ih =>
    rw [elimBound, ih, Finset.sum_range_succ' _ m]
    simp only [pow_succ', pow_zero, ← Finset.mul_sum]
    ring

/-- The sign that is computed is the sign of the determinant of a matrix nearby. -/
theorem detSign_backward (hu : Precise fl u) (lib : ℕ → Lib) {m : ℕ} (G : Matrix (Fin m) (Fin m) K) {M : K}
    (hM : ∀ i j, |G i j| ≤ M) (hM0 : 0 ≤ M) :
    ∃ E : Matrix (Fin m) (Fin m) K, (∀ i j, |E i j| ≤ elimBound u m * M) ∧
      detSignN fl lib m G = SignType.sign (G + E).det := by
  have h0 := hu.nonneg
  induction m generalizing M with
  | zero => exact ⟨0, fun i => i.elim0, by simp [detSignN]⟩
  | succ m ih =>
    have hth : 0 ≤ (1 + u) ^ 2 - 1 := by nlinarith
    have hen := elimBound_nonneg h0 m
    set p := pivotRow fun i => G i 0 with hp
    have hpm : ∀ i, |G i 0| ≤ |G p 0| := le_pivot fun i => G i 0
    by_cases hz : G p 0 = 0
    · refine ⟨0, fun i j => ?_, ?_⟩
      · rw [Matrix.zero_apply, abs_zero]
        exact mul_nonneg (elimBound_nonneg h0 _) hM0
      · have hcol : ∀ i, G i 0 = 0 := fun i => by
          have := hpm i
          rw [hz, abs_zero] at this
          exact abs_nonpos_iff.1 this
        rw [add_zero, Matrix.det_eq_zero_of_column_eq_zero 0 hcol, sign_zero]
        unfold detSignN
        exact if_pos hz
    · set H := G.submatrix (Equiv.swap 0 p) id with hH
      have hH0 : H 0 0 = G p 0 := by rw [hH]; simp
      have hHM : ∀ i j, |H i j| ≤ M := fun i j => hM _ _
      have hHp : ∀ i, |H i 0| ≤ |H 0 0| := fun i => by rw [hH0]; exact hpm _
      have hH00 : H 0 0 ≠ 0 := by rw [hH0]; exact hz
      set l : Fin m → K := fun i => if (lib m).recip then fl (H i.succ 0 * fl (1 / H 0 0)) else fl (H i.succ 0 / H 0 0)
        with hl
      have hs := fun i j : Fin m => second_bound hu (lib m) (d := H i.succ j.succ) hH00 (hHp i.succ) (hHM 0 j.succ)
        (hHM i.succ 0) (hHM _ _) (l i) rfl
      obtain ⟨E, hE, hd⟩ := ih (reduced fl (lib m) H) (M := (1 + u) ^ 2 * (1 + (1 + u) ^ 2) * M)
        (fun i j => (hs i j).2.2) (by positivity)
      -- the perturbation of the matrix with exchanged rows
      let F : Matrix (Fin (m + 1)) (Fin (m + 1)) K := fun i j =>
        Fin.cases (motive := fun _ => K) 0 (fun i => Fin.cases (motive := fun _ => K) (l i * H 0 0 - H i.succ 0)
          (fun j => reduced fl (lib m) H i j - (H i.succ j.succ - l i * H 0 j.succ) + E i j) j) i
      have F0 : ∀ j, F 0 j = 0 := fun j => rfl
      have F10 : ∀ i : Fin m, F i.succ 0 = l i * H 0 0 - H i.succ 0 := fun i => rfl
      have F11 : ∀ i j : Fin m, F i.succ j.succ =
        reduced fl (lib m) H i j - (H i.succ j.succ - l i * H 0 j.succ) + E i j := fun i j => rfl
      have hF : ∀ i j, |F i j| ≤ elimBound u (m + 1) * M := by
        intro i j
        refine Fin.cases ?_ (fun i => ?_) i
        · rw [F0, abs_zero]
          exact mul_nonneg (elimBound_nonneg h0 _) hM0
        · refine Fin.cases ?_ (fun j => ?_) j
          · rw [F10]
            by_cases hm : m = 0
            · exact absurd i.2 (by omega)
            refine ((hs i ⟨0, by omega⟩).1).trans (mul_le_mul_of_nonneg_right ?_ hM0)
            unfold elimBound
            have : (1 + u) ^ 2 - 1 ≤ ((1 + u) ^ 2 - 1) * (1 + (1 + u) ^ 2) :=
              le_mul_of_one_le_right hth (by nlinarith)
            have : 0 ≤ (1 + u) ^ 2 * (1 + (1 + u) ^ 2) * elimBound u m := by positivity
            linarith
          · rw [F11]
            refine (abs_add_le _ _).trans ?_
            have k1 := (hs i j).2.1
            have k2 := hE i j
            unfold elimBound
            change |reduced fl (lib m) H i j - (H i.succ j.succ - l i * H 0 j.succ)| ≤ _ at k1
            nlinarith
      have hdet : (H + F).det = H 0 0 * (reduced fl (lib m) H + E).det := by
        rw [det_eliminate (H + F) l fun i => by
          rw [Matrix.add_apply, Matrix.add_apply, F10, F0]
          ring]
        rw [Matrix.add_apply, F0, add_zero]
        congr 2
        funext i j
        rw [Matrix.add_apply, Matrix.add_apply, Matrix.add_apply, F0, F11]
        ring
      refine ⟨F.submatrix (Equiv.swap 0 p) id, fun i j => hF _ _, ?_⟩
      have hG : G + F.submatrix (Equiv.swap 0 p) id = (H + F).submatrix (Equiv.swap 0 p) id := by
        funext i j
        simp [hH, Matrix.add_apply, Matrix.submatrix_apply]
      rw [hG, Matrix.det_permute, hdet, sign_mul, sign_mul, ← hd, hH0]
      have hsg : SignType.sign (((Equiv.Perm.sign (Equiv.swap 0 p) : ℤˣ) : ℤ) : K) =
          if p = 0 then 1 else -1 := by
        by_cases h : p = 0
        · rw [if_pos h, h, Equiv.swap_self]
          simp
        · rw [if_neg h, Equiv.Perm.sign_swap (Ne.symm h)]
          simp
      rw [hsg]
      conv_lhs => unfold detSignN
      exact if_neg hz

/-- Scalar products are at most the larger of the squared lengths. -/
theorem dot_le {M : K} (a b : Fin n → K) (ha : ∑ k, a k ^ 2 ≤ M) (hb : ∑ k, b k ^ 2 ≤ M) : ∑ k, |a k * b k| ≤ M := by
  have : ∑ k, 2 * |a k * b k| ≤ ∑ k, (a k ^ 2 + b k ^ 2) := by
    refine Finset.sum_le_sum fun k _ => ?_
    rw [abs_mul]
    have := sq_nonneg (|a k| - |b k|)
    rw [← sq_abs (a k), ← sq_abs (b k)]
    nlinarith
  rw [← Finset.mul_sum, Finset.sum_add_distrib] at this
  linarith

/-- The sign that is computed for the Gram matrix is the sign of the determinant of a matrix near to the exact one. -/
theorem gram_backward (hu : Precise fl u) {h m : ℕ} (lib : ℕ → Lib) (plan : Fin m → Fin m → Plan n)
    (hp : ∀ i j, (plan i j).terms.Perm (List.finRange n) ∧ (plan i j).height ≤ h) (A : Matrix (Fin m) (Fin n) K) {M : K}
    (hM : ∀ i, ∑ k, A i k ^ 2 ≤ M) (hM0 : 0 ≤ M) :
    ∃ E : Matrix (Fin m) (Fin m) K,
      (∀ i j, |E i j| ≤ ((1 + u) ^ h - 1 + elimBound u m * (1 + u) ^ h) * M) ∧
      detSignN fl lib m (gramN fl plan A) = SignType.sign (A * A.transpose + E).det := by
  have h0 := hu.nonneg
  have hg : 0 ≤ (1 + u) ^ h - 1 := by
    have := one_le_pow₀ (show 1 ≤ 1 + u by linarith) (n := h)
    linarith
  have hnear : ∀ i j, |gramN fl plan A i j - (A * A.transpose) i j| ≤ ((1 + u) ^ h - 1) * M := fun i j => by
    have := gram_near hu (plan i j) (hp i j).1 (hp i j).2 (A i) (A j)
    exact this.trans (mul_le_mul_of_nonneg_left (dot_le _ _ (hM i) (hM j)) hg)
  have hsize : ∀ i j, |gramN fl plan A i j| ≤ (1 + u) ^ h * M := fun i j => by
    have h1 := abs_add_le (gramN fl plan A i j - (A * A.transpose) i j) ((A * A.transpose) i j)
    rw [sub_add_cancel] at h1
    have h2 : |(A * A.transpose) i j| ≤ M :=
      (Finset.abs_sum_le_sum_abs _ _).trans (dot_le (A i) (A j) (hM i) (hM j))
    nlinarith [hnear i j]
  obtain ⟨E, hE, hd⟩ := detSign_backward hu lib (gramN fl plan A) hsize (by positivity)
  refine ⟨gramN fl plan A - A * A.transpose + E, fun i j => ?_, ?_⟩
  · rw [Matrix.add_apply, Matrix.sub_apply]
    refine (abs_add_le _ _).trans ?_
    have := hnear i j
    have := hE i j
    nlinarith
  · rw [hd]
    congr 2
    abel

/-- A small perturbation of a matrix with a positive form. -/
theorem form_pos {m : ℕ} (G E : Matrix (Fin m) (Fin m) K) {e d : K} (hE : ∀ i j, |E i j| ≤ e)
    (hG : ∀ c : Fin m → K, d * ∑ i, c i ^ 2 ≤ ∑ i, ∑ j, c i * G i j * c j) (hlt : m * e < d) (c : Fin m → K)
    (hc : c ≠ 0) : 0 < ∑ i, ∑ j, c i * (G + E) i j * c j := by
  have hs : 0 < ∑ i, c i ^ 2 := by
    obtain ⟨i, hi⟩ := Function.ne_iff.1 hc
    exact Finset.sum_pos' (fun i _ => sq_nonneg _) ⟨i, Finset.mem_univ _, by positivity [show c i ≠ 0 from hi]⟩
  have he : 0 ≤ e := by
    obtain ⟨i, -⟩ := Function.ne_iff.1 hc
    exact (abs_nonneg _).trans (hE i i)
  have h1 : ∑ i, ∑ j, c i * (G + E) i j * c j = ∑ i, ∑ j, c i * G i j * c j + ∑ i, ∑ j, c i * E i j * c j := by
    rw [← Finset.sum_add_distrib]
    refine Finset.sum_congr rfl fun i _ => ?_
    rw [← Finset.sum_add_distrib]
    exact Finset.sum_congr rfl fun j _ => by rw [Matrix.add_apply]; ring
  have h2 : |∑ i, ∑ j, c i * E i j * c j| ≤ e * (∑ i, |c i|) ^ 2 := by
    rw [pow_two, Finset.sum_mul_sum, Finset.mul_sum]
    refine (Finset.abs_sum_le_sum_abs _ _).trans (Finset.sum_le_sum fun i _ => ?_)
    rw [Finset.mul_sum]
    refine (Finset.abs_sum_le_sum_abs _ _).trans (Finset.sum_le_sum fun j _ => ?_)
    rw [abs_mul, abs_mul]
    have := mul_le_mul_of_nonneg_left (hE i j) (mul_nonneg (abs_nonneg (c i)) (abs_nonneg (c j)))
    linarith
  have h3 : (∑ i, |c i|) ^ 2 ≤ m * ∑ i, c i ^ 2 := by
    have := sq_sum_le_card_mul_sum_sq (s := Finset.univ) (f := fun i : Fin m => |c i|)
    simpa using this
  have h4 := (abs_le.1 h2).1
  rw [h1]
  nlinarith [hG c, mul_le_mul_of_nonneg_left h3 he, mul_lt_mul_of_pos_right hlt hs]

end

end Verif.Indep
