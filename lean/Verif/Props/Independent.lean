import Verif.Proofs.Independent
import Verif.Proofs.Rounding
import Mathlib.LinearAlgebra.Matrix.Notation
import Mathlib.Tactic.FinCases
import Mathlib.Tactic.NormNum

set_option linter.unusedSectionVars false

/-! # C118: independence of vectors, exactly and in floating point arithmetic -/

namespace Verif.Indep.Props
open Verif Verif.Rnd Verif.RFrames Verif.Indep

/-! ## Exact arithmetic -/

/-- **C118.** In exact arithmetic and without a tolerance the test holds exactly if the vectors are linearly independent: the
only combination of them that vanishes is the one whose coefficients vanish.  Any number of vectors of any dimension. -/
theorem C118_exact {m n : ℕ} (A : Matrix (Fin m) (Fin n) ℝ) :
    isIndependentFrame A 0 ↔ ∀ c : Fin m → ℝ, (∀ k, ∑ i, c i * A i k = 0) → ∀ i, c i = 0 := by
  unfold isIndependentFrame gram
  rw [gram_pos_iff, Fintype.linearIndependent_iff]
  refine forall_congr' fun c => imp_congr_left ?_
  rw [funext_iff]
  refine forall_congr' fun k => ?_
  rw [Finset.sum_apply]
  simp only [Pi.smul_apply, smul_eq_mul, Matrix.row, Pi.zero_apply]

example : isIndependentFrame (!![1, 2, 0; 0, 1, 1] : Matrix (Fin 2) (Fin 3) ℝ) 0 := by
  rw [C118_exact]
  intro c h i
  have h0 := h 0
  have h2 := h 2
  simp [Fin.sum_univ_two] at h0 h2
  fin_cases i
  · exact h0
  · exact h2

example : ¬ isIndependentFrame (!![1, 2; 2, 4] : Matrix (Fin 2) (Fin 2) ℝ) 0 := by
  rw [C118_exact]
  intro h
  have := h ![2, -1] (by intro k; fin_cases k <;> simp [Fin.sum_univ_two]; norm_num) 0
  simp at this

/-- **C118.** More vectors than dimensions are never independent, whatever the tolerance. -/
theorem C118_too_many {m n : ℕ} (A : Matrix (Fin m) (Fin n) ℝ) (h : n < m) (tol : ℝ) (ht : 0 ≤ tol) :
    ¬ isIndependentFrame A tol := by
  intro h'
  have := (gram_pos_iff A).mp (lt_of_le_of_lt ht h')
  rw [rows_iff_rank] at this
  have := A.rank_le_width
  omega

example : ¬ isIndependentFrame (!![1, 0; 0, 1; 1, 1] : Matrix (Fin 3) (Fin 2) ℝ) 1 := C118_too_many _ (by norm_num) 1 (by norm_num)

/-- **C118.** What a tolerance does: vectors that pass are independent if it is not negative; with a negative one everything
passes; a larger tolerance lets fewer pass. -/
theorem C118_tolerance {m n : ℕ} (A : Matrix (Fin m) (Fin n) ℝ) (tol : ℝ) :
    (0 ≤ tol → isIndependentFrame A tol → LinearIndependent ℝ fun i => A i) ∧ (tol < 0 → isIndependentFrame A tol) ∧
      ∀ tol', tol' ≤ tol → isIndependentFrame A tol → isIndependentFrame A tol' :=
  ⟨fun ht h => (gram_pos_iff A).mp (lt_of_le_of_lt ht h), fun ht => lt_of_lt_of_le ht (gram_nonneg A),
    fun _ ht h => lt_of_le_of_lt ht h⟩

example : isIndependentFrame (!![1, 2; 2, 4] : Matrix (Fin 2) (Fin 2) ℝ) (-1) := (C118_tolerance _ _).2.1 (by norm_num)

/-- C118 is violated: with a positive tolerance the answer depends on the unit of length.  Any independent vectors fail if they are
short enough, and pass if they are long enough, at every tolerance. -/
theorem C118_units_violated {m n : ℕ} (hm : 0 < m) (A : Matrix (Fin m) (Fin n) ℝ) (hA : LinearIndependent ℝ fun i => A i) (tol : ℝ)
    (ht : 0 < tol) :
    (∃ s : ℝ, 0 < s ∧ LinearIndependent ℝ (fun i => (s • A) i) ∧ ¬ isIndependentFrame (s • A) tol) ∧
      ∃ s : ℝ, 0 < s ∧ isIndependentFrame (s • A) tol := by
  have hd : 0 < (A * A.transpose).det := (gram_pos_iff A).mpr hA
  have hs : ∀ s : ℝ, (gram (s • A)).det = (s ^ 2) ^ m * (A * A.transpose).det := by
    intro s
    unfold gram
    rw [Matrix.transpose_smul, Matrix.smul_mul, Matrix.mul_smul, smul_smul, Matrix.det_smul, Fintype.card_fin, pow_two]
  set D := (A * A.transpose).det with hD
  constructor
  · refine ⟨min 1 (tol / D), lt_min one_pos (div_pos ht hd), ?_, ?_⟩
    · have hp : 0 < min 1 (tol / D) := lt_min one_pos (div_pos ht hd)
      refine (gram_pos_iff _).mp ?_
      have := hs (min 1 (tol / D))
      unfold gram at this
      rw [this]
      positivity
    · unfold isIndependentFrame
      rw [hs, not_lt]
      have h0 : 0 ≤ min 1 (tol / D) := (lt_min one_pos (div_pos ht hd)).le
      have h1 : min 1 (tol / D) ≤ 1 := min_le_left _ _
      have h2 : (min 1 (tol / D) ^ 2) ^ m ≤ min 1 (tol / D) := by
        rw [← pow_mul]
        calc _ ≤ min 1 (tol / D) ^ 1 := pow_le_pow_of_le_one h0 h1 (by omega)
          _ = _ := pow_one _
      calc _ ≤ tol / D * D := mul_le_mul_of_nonneg_right (h2.trans (min_le_right _ _)) hd.le
        _ = tol := by field_simp
  · have h1 : 1 ≤ tol / D + 1 := by linarith [(div_pos ht hd)]
    refine ⟨tol / D + 1, by linarith, ?_⟩
    unfold isIndependentFrame
    rw [hs]
    have h2 : tol / D + 1 ≤ ((tol / D + 1) ^ 2) ^ m := by
      rw [← pow_mul]
      calc _ = (tol / D + 1) ^ 1 := (pow_one _).symm
        _ ≤ _ := pow_le_pow_right₀ h1 (by omega)
    calc tol < tol + D := by linarith
      _ = (tol / D + 1) * D := by field_simp
      _ ≤ _ := mul_le_mul_of_nonneg_right h2 hd.le

example : ∃ s : ℝ, 0 < s ∧ ¬ isIndependentFrame (s • (1 : Matrix (Fin 3) (Fin 3) ℝ)) 1 := by
  obtain ⟨⟨s, h, -, h'⟩, -⟩ := C118_units_violated (by norm_num) (1 : Matrix (Fin 3) (Fin 3) ℝ)
    ((gram_pos_iff _).mp (by simp)) 1 one_pos
  exact ⟨s, h, h'⟩

/-- **C118.** The answer does not change, at any tolerance, if the vectors are rotated or mirrored together, are put into another
order, or if multiples of vectors are added to others (combinations with determinant one or minus one). -/
theorem C118_invariant {m n : ℕ} (A : Matrix (Fin m) (Fin n) ℝ) (P : Matrix (Fin m) (Fin m) ℝ) (R : Matrix (Fin n) (Fin n) ℝ)
    (hP : P.det = 1 ∨ P.det = -1) (hR : R * R.transpose = 1) (tol : ℝ) :
    isIndependentFrame (P * A * R) tol ↔ isIndependentFrame A tol := by
  unfold isIndependentFrame gram
  have e : P * A * R * (P * A * R).transpose = P * (A * A.transpose) * P.transpose := by
    simp only [Matrix.transpose_mul]
    calc P * A * R * (R.transpose * (A.transpose * P.transpose))
        = P * A * (R * R.transpose) * (A.transpose * P.transpose) := by simp only [Matrix.mul_assoc]
      _ = _ := by rw [hR, Matrix.mul_one]; simp only [Matrix.mul_assoc]
  rw [e, Matrix.det_mul, Matrix.det_mul, Matrix.det_transpose]
  rcases hP with h | h <;> rw [h] <;> simp

example : isIndependentFrame (!![0, 1; 1, 0] * !![1, 1; 0, 1] * !![0, 1; -1, 0] : Matrix (Fin 2) (Fin 2) ℝ) 0 := by
  rw [C118_invariant _ _ _ (Or.inr (by simp [Matrix.det_fin_two])) (by ext i j; fin_cases i <;> fin_cases j <;> simp [Matrix.mul_apply, Fin.sum_univ_two])]
  simp only [isIndependentFrame, gram, Matrix.det_fin_two, Matrix.mul_apply, Fin.sum_univ_two, Matrix.transpose_apply]
  simp

/-- **C118.** A stack gives one answer for each member, the one the member would give on its own. -/
theorem C118_stack {m n : ℕ} (l : List (Matrix (Fin m) (Fin n) ℝ)) (tol : ℝ) :
    (isIndependentStack l tol).length = l.length ∧
      ∀ i (h : i < l.length) (h' : i < (isIndependentStack l tol).length),
        (isIndependentStack l tol)[i] ↔ isIndependentFrame l[i] tol := by
  refine ⟨by simp [isIndependentStack], fun i h h' => ?_⟩
  simp [isIndependentStack, isIndependentFrame, gram]

example : (isIndependentStack [(1 : Matrix (Fin 2) (Fin 2) ℝ), 0] 0).length = 2 := (C118_stack _ _).1

/-! ## Floating point arithmetic -/

section
variable {K : Type} [Field K] [LinearOrder K] [IsStrictOrderedRing K] {n : ℕ}

/-- **C118, partial.** Two vectors of any dimension in floating point arithmetic: if the square of the sine of their angle is larger
than about `5 (h + 1) u` (at most `h` roundings in each scalar product, relative error `u`), they are reported as
independent and the volume is a positive number, however the library evaluates products and pivots.

Missing, because it is false: the same for vectors that are closer to parallel (`C118_independent_violated`) and that parallel
vectors are reported as dependent (`C118_dependent_violated`).  For any number of vectors see
`C118_rounded_many_partial`. -/
theorem C118_rounded_partial {fl : K → K} {u : K} (hu : Precise fl u) {h : ℕ} (lib : Lib) (plan : Fin 2 → Fin 2 → Plan n)
    (hp : ∀ i j, (plan i j).terms.Perm (List.finRange n) ∧ (plan i j).height ≤ h) (A : Matrix (Fin 2) (Fin n) K)
    (hA : 5 * ((1 + u) ^ (h + 1) - 1) * ((∑ k, A 0 k ^ 2) * ∑ k, A 1 k ^ 2) <
      (∑ k, A 0 k ^ 2) * (∑ k, A 1 k ^ 2) - (∑ k, A 0 k * A 1 k) ^ 2) :
    isIndependent2 fl lib plan A = true ∧ volume2 fl lib plan A = .positive := by
  have := gram2_pos hu lib plan hp A hA
  unfold isIndependent2 volume2
  rw [this]
  exact ⟨rfl, rfl⟩

end

/-- Products from the left to the right. -/
def seqPlan : Plan 2 := .add (.prod 0) (.prod 1)

example : isIndependent2 (binary 53) ⟨true, true⟩ (fun _ _ => seqPlan) !![1, 0; 1, 1 / 1000] = true :=
  (C118_rounded_partial (binary_precise 53 (by norm_num)) (h := 2) _ _ (fun _ _ => ⟨by decide, by decide⟩) _
    (by simp [Fin.sum_univ_two]; norm_num)).1

/-- Gram matrices of small whole numbers are exact along every plan. -/
theorem gram2_nat (plan : Fin 2 → Fin 2 → Plan 2) (hp : ∀ i j, (plan i j).terms.Perm (List.finRange 2))
    (A : Matrix (Fin 2) (Fin 2) ℚ) (B : Matrix (Fin 2) (Fin 2) ℕ) (hA : ∀ i k, A i k = (B i k : ℕ))
    (hB : ∀ i j, B i 0 * B j 0 + B i 1 * B j 1 ≤ 2 ^ 53) (i j : Fin 2) :
    gram2 (binary 53) plan A i j = (B i 0 * B j 0 + B i 1 * B j 1 : ℕ) := by
  have e : ((plan i j).terms.map fun k => B i k * B j k).sum = B i 0 * B j 0 + B i 1 * B j 1 := by
    rw [((hp i j).map _).sum_eq]
    simp [List.finRange_succ]
  have h1 : ∀ i, A i = fun k => ((B i k : ℕ) : ℚ) := fun i => funext fun k => hA i k
  unfold gram2
  rw [h1 i, h1 j, eval_nat _ _ _ (by rw [e]; exact hB i j), e]

/-- A summand that is lost. -/
theorem eval_absorb {fl : ℚ → ℚ} {e : ℚ} (f0 : fl 0 = 0) (f1 : fl 1 = 1) (fe : fl e = e) (f1e : fl (1 + e) = 1)
    (a b : Fin 2 → ℚ) (h0 : a 0 * b 0 = 1) (h1 : a 1 * b 1 = e) (p : Plan 2) (hn : p.terms.Nodup) :
    p.eval fl a b = if 0 ∈ p.terms then 1 else if 1 ∈ p.terms then e else 0 := by
  have fe1 : fl (e + 1) = 1 := by rw [add_comm]; exact f1e
  induction p with
  | zero => simp [Plan.eval, Plan.terms]
  | prod i => fin_cases i <;> simp [Plan.eval, Plan.terms, h0, h1, f1, fe]
  | add l r hl hr =>
    simp only [Plan.terms, List.nodup_append, List.mem_append] at hn ⊢
    obtain ⟨n1, n2, n3⟩ := hn
    simp only [Plan.eval]
    rw [hl n1, hr n2]
    have d0 : 0 ∈ l.terms → 0 ∉ r.terms := fun h h' => n3 _ h _ h' rfl
    have d1 : 1 ∈ l.terms → 1 ∉ r.terms := fun h h' => n3 _ h _ h' rfl
    by_cases a0 : (0 : Fin 2) ∈ l.terms <;> by_cases b0 : (0 : Fin 2) ∈ r.terms <;>
      by_cases a1 : (1 : Fin 2) ∈ l.terms <;> by_cases b1 : (1 : Fin 2) ∈ r.terms <;>
      simp_all
  | fma l i hl =>
    simp only [Plan.terms, List.nodup_append, List.mem_append] at hn ⊢
    obtain ⟨n1, n2, n3⟩ := hn
    simp only [Plan.eval]
    rw [hl n1]
    have d : i ∉ l.terms := fun h => n3 _ h i (by simp) rfl
    by_cases a0 : (0 : Fin 2) ∈ l.terms <;> by_cases a1 : (1 : Fin 2) ∈ l.terms <;> fin_cases i <;>
      simp_all

theorem nodup_of_perm {p : Plan 2} (h : p.terms.Perm (List.finRange 2)) : p.terms.Nodup :=
  h.nodup_iff.mpr (List.nodup_finRange 2)

/-- C118 is violated: the parallel vectors `(7, 7)` and `(25, 25)` are reported as independent and span a positive volume,
in double precision and with every order of evaluation. -/
theorem C118_dependent_violated (lib : Lib) (plan : Fin 2 → Fin 2 → Plan 2)
    (hp : ∀ i j, (plan i j).terms.Perm (List.finRange 2)) :
    let A : Matrix (Fin 2) (Fin 2) ℚ := !![7, 7; 25, 25]
    isIndependent2 (binary 53) lib plan A = true ∧ volume2 (binary 53) lib plan A = .positive ∧
      ∀ k, 25 * A 0 k - 7 * A 1 k = 0 := by
  intro A
  have hG : gram2 (binary 53) plan A = !![98, 350; 350, 1250] := by
    ext i j
    rw [gram2_nat plan hp A !![7, 7; 25, 25] (by intro i k; fin_cases i <;> fin_cases k <;> simp [A])
      (by intro i j; fin_cases i <;> fin_cases j <;> simp) i j]
    fin_cases i <;> fin_cases j <;> simp
  have hd : ∀ r f, detSign (binary 53) ⟨r, f⟩ (!![98, 350; 350, 1250] : Matrix (Fin 2) (Fin 2) ℚ) = 1 := by
    intro r f
    cases r <;> cases f <;> decide +kernel
  have hd' := hd lib.recip lib.fused
  unfold isIndependent2 volume2
  rw [hG, hd']
  refine ⟨rfl, rfl, fun k => ?_⟩
  fin_cases k <;> (simp [A]; try norm_num)

example : isIndependent2 (binary 53) ⟨false, true⟩ (fun _ _ => seqPlan) !![7, 7; 25, 25] = true :=
  (C118_dependent_violated _ _ fun _ _ => by decide).1

/-- C118 is violated: the volume of the parallel vectors `(5, 5)` and `(39, 39)` is not a number. -/
theorem C118_volume_violated (lib : Lib) (plan : Fin 2 → Fin 2 → Plan 2)
    (hp : ∀ i j, (plan i j).terms.Perm (List.finRange 2)) :
    volume2 (binary 53) lib plan (!![5, 5; 39, 39] : Matrix (Fin 2) (Fin 2) ℚ) = .nan := by
  have hG : gram2 (binary 53) plan (!![5, 5; 39, 39] : Matrix (Fin 2) (Fin 2) ℚ) = !![50, 390; 390, 3042] := by
    ext i j
    rw [gram2_nat plan hp _ !![5, 5; 39, 39] (by intro i k; fin_cases i <;> fin_cases k <;> simp)
      (by intro i j; fin_cases i <;> fin_cases j <;> simp) i j]
    fin_cases i <;> fin_cases j <;> simp
  have hd : ∀ r f, detSign (binary 53) ⟨r, f⟩ (!![50, 390; 390, 3042] : Matrix (Fin 2) (Fin 2) ℚ) = -1 := by
    intro r f
    cases r <;> cases f <;> decide +kernel
  have hd' := hd lib.recip lib.fused
  unfold volume2
  rw [hG, hd']

example : volume2 (binary 53) ⟨true, false⟩ (fun _ _ => seqPlan) (!![5, 5; 39, 39] : Matrix (Fin 2) (Fin 2) ℚ) = .nan :=
  C118_volume_violated _ _ fun _ _ => by decide

/-- C118 is violated: vectors of the lengths one at an angle of about 1e-9, whose determinant is `2 ^ -30`, are reported as dependent
and without volume, in double precision and with every order of evaluation. -/
theorem C118_independent_violated (lib : Lib) (plan : Fin 2 → Fin 2 → Plan 2)
    (hp : ∀ i j, (plan i j).terms.Perm (List.finRange 2)) :
    let A : Matrix (Fin 2) (Fin 2) ℚ := !![1, 0; 1, 1 / 2 ^ 30]
    isIndependent2 (binary 53) lib plan A = false ∧ volume2 (binary 53) lib plan A = .zero ∧ A.det = 1 / 2 ^ 30 := by
  intro A
  have f0 : binary 53 0 = 0 := by decide +kernel
  have f1 : binary 53 1 = 1 := by decide +kernel
  have hG : gram2 (binary 53) plan A = !![1, 1; 1, 1] := by
    have key : ∀ (e : ℚ) (i j : Fin 2), binary 53 e = e → binary 53 (1 + e) = 1 → A i 0 * A j 0 = 1 → A i 1 * A j 1 = e →
        gram2 (binary 53) plan A i j = 1 := by
      intro e i j fe f1e h0 h1
      have := eval_absorb f0 f1 fe f1e (A i) (A j) h0 h1 (plan i j) (nodup_of_perm (hp i j))
      rwa [if_pos ((hp i j).mem_iff.mpr (List.mem_finRange 0))] at this
    ext i j
    fin_cases i <;> fin_cases j
    · exact key 0 0 0 f0 (by rw [add_zero]; exact f1) (by simp [A]) (by simp [A])
    · exact key 0 0 1 f0 (by rw [add_zero]; exact f1) (by simp [A]) (by simp [A])
    · exact key 0 1 0 f0 (by rw [add_zero]; exact f1) (by simp [A]) (by simp [A])
    · exact key (1 / 2 ^ 60) 1 1 (by decide +kernel) (by decide +kernel) (by simp [A]) (by simp [A]; norm_num)
  have hd : ∀ r f, detSign (binary 53) ⟨r, f⟩ (!![1, 1; 1, 1] : Matrix (Fin 2) (Fin 2) ℚ) = 0 := by
    intro r f
    cases r <;> cases f <;> decide +kernel
  have hd' := hd lib.recip lib.fused
  unfold isIndependent2 volume2
  rw [hG, hd']
  exact ⟨rfl, rfl, by simp [A, Matrix.det_fin_two]⟩

example : isIndependent2 (binary 53) ⟨true, true⟩ (fun _ _ => seqPlan) !![1, 0; 1, 1 / 2 ^ 30] = false :=
  (C118_independent_violated _ _ fun _ _ => by decide).1

end Verif.Indep.Props
