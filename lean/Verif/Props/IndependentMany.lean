import Verif.Proofs.IndependentMany
import Verif.Props.Independent
import Mathlib.Tactic.NormNum

/-! # C118 with rounding, for any number of vectors -/

set_option linter.unusedSectionVars false

namespace Verif.Indep.Props
open Verif Verif.Rnd Verif.RFrames Verif.Indep

section
variable {K : Type} [Field K] [LinearOrder K] [IsStrictOrderedRing K] {n : ℕ}

/-- **C118.** In floating point arithmetic the answer is the one of exact arithmetic for a matrix of scalar products nearby: each
scalar product is changed by at most the relative error `(1 + u)^h - 1` of its own and the error of the elimination, about
`4 u (2^m - 1)`, of the largest squared length `M`.  The vectors are reported as independent exactly if this matrix has a
positive determinant, and then the volume is positive; the volume is zero or not a number exactly if the determinant is zero
or negative. -/
theorem C118_backward {fl : K → K} {u : K} (hu : Precise fl u) {h m : ℕ} (lib : ℕ → Lib)
    (plan : Fin m → Fin m → Plan n)
    (hp : ∀ i j, (plan i j).terms.Perm (List.finRange n) ∧ (plan i j).height ≤ h) (A : Matrix (Fin m) (Fin n) K) (M : K)
    (hM0 : 0 ≤ M) (hM : ∀ i, ∑ k, A i k ^ 2 ≤ M) :
    ∃ G : Matrix (Fin m) (Fin m) K,
      (∀ i j, |G i j - ∑ k, A i k * A j k| ≤
        ((1 + u) ^ h - 1 + ((1 + u) ^ 2 - 1) * (1 + (1 + u) ^ 2) *
          (∑ k ∈ Finset.range m, ((1 + u) ^ 2 * (1 + (1 + u) ^ 2)) ^ k) * (1 + u) ^ h) * M) ∧
      (isIndependentN fl lib plan A = true ↔ 0 < G.det) ∧
      (volumeN fl lib plan A = .positive ↔ 0 < G.det) ∧ (volumeN fl lib plan A = .zero ↔ G.det = 0) ∧
      (volumeN fl lib plan A = .nan ↔ G.det < 0) := by
  obtain ⟨E, hE, hd⟩ := gram_backward hu lib plan hp A hM hM0
  refine ⟨A * A.transpose + E, fun i j => ?_, ?_⟩
  · rw [← elimBound_eq]
    have : (A * A.transpose + E) i j - ∑ k, A i k * A j k = E i j := by
      rw [Matrix.add_apply, Matrix.mul_apply]
      simp only [Matrix.transpose_apply]
      ring
    rw [this]
    exact hE i j
  · unfold isIndependentN volumeN
    rw [hd]
    rcases lt_trichotomy (A * A.transpose + E).det 0 with hs | hs | hs
    · rw [sign_neg hs]
      exact ⟨⟨fun h' => absurd h' (by decide), fun h' => absurd hs h'.asymm⟩,
        ⟨fun h' => absurd h' (by decide), fun h' => absurd hs h'.asymm⟩,
        ⟨fun h' => absurd h' (by decide), fun h' => absurd h' hs.ne⟩, ⟨fun _ => hs, fun _ => rfl⟩⟩
    · rw [hs, sign_zero]
      exact ⟨⟨fun h' => absurd h' (by decide), fun h' => absurd h' (lt_irrefl _)⟩,
        ⟨fun h' => absurd h' (by decide), fun h' => absurd h' (lt_irrefl _)⟩,
        ⟨fun _ => rfl, fun _ => rfl⟩, ⟨fun h' => absurd h' (by decide), fun h' => absurd h' (lt_irrefl _)⟩⟩
    · rw [sign_pos hs]
      exact ⟨⟨fun _ => hs, fun _ => rfl⟩, ⟨fun _ => hs, fun _ => rfl⟩,
        ⟨fun h' => absurd h' (by decide), fun h' => absurd h' hs.ne'⟩,
        ⟨fun h' => absurd h' (by decide), fun h' => absurd hs h'.asymm⟩⟩

/-- **C118, partial.** Any number of vectors of any dimension in floating point arithmetic.  If every combination of the vectors is
long enough compared to its coefficients, that is if the least singular value of the matrix of the vectors is larger than about
the root of `m (h + 4 (2^m - 1)) u M` with the largest squared length `M`, then the vectors are reported as independent, and
the volume is a positive number, however the library evaluates products and pivots.

Missing, because it is false: the same for vectors that are closer to dependent (`C118_independent_violated`) and that
dependent vectors are reported as dependent (`C118_dependent_violated`). -/
theorem C118_rounded_many_partial {fl : K → K} {u : K} (hu : Precise fl u) {h m : ℕ} (lib : ℕ → Lib)
    (plan : Fin m → Fin m → Plan n)
    (hp : ∀ i j, (plan i j).terms.Perm (List.finRange n) ∧ (plan i j).height ≤ h) (A : Matrix (Fin m) (Fin n) K) (M d : K)
    (hM0 : 0 ≤ M) (hM : ∀ i, ∑ k, A i k ^ 2 ≤ M)
    (hd : ∀ c : Fin m → K, d * ∑ i, c i ^ 2 ≤ ∑ k, (∑ i, c i * A i k) ^ 2)
    (hlt : m * (((1 + u) ^ h - 1 + ((1 + u) ^ 2 - 1) * (1 + (1 + u) ^ 2) *
      (∑ k ∈ Finset.range m, ((1 + u) ^ 2 * (1 + (1 + u) ^ 2)) ^ k) * (1 + u) ^ h) * M) < d) :
    isIndependentN fl lib plan A = true ∧ volumeN fl lib plan A = .positive := by
  obtain ⟨G, hG, h1, h2, -⟩ := C118_backward hu lib plan hp A M hM0 hM
  have key : 0 < G.det := by
    have e : G = A * A.transpose + (G - A * A.transpose) := by abel
    rw [e]
    refine det_pos_of_form _ fun c hc => form_pos _ _ (fun i j => ?_) (fun c => ?_) hlt c hc
    · have := hG i j
      rw [Matrix.sub_apply, Matrix.mul_apply]
      simpa only [Matrix.transpose_apply] using this
    · refine (hd c).trans_eq ?_
      calc ∑ k, (∑ i, c i * A i k) ^ 2 = ∑ k, ∑ i, ∑ j, c i * A i k * (c j * A j k) :=
            Finset.sum_congr rfl fun k _ => by rw [pow_two, Finset.sum_mul_sum]
        _ = ∑ i, ∑ j, ∑ k, c i * A i k * (c j * A j k) := by
            rw [Finset.sum_comm]
            exact Finset.sum_congr rfl fun i _ => Finset.sum_comm
        _ = _ := by
            refine Finset.sum_congr rfl fun i _ => Finset.sum_congr rfl fun j _ => ?_
            rw [Matrix.mul_apply, Finset.mul_sum, Finset.sum_mul]
            exact Finset.sum_congr rfl fun k _ => by rw [Matrix.transpose_apply]; ring
  exact ⟨h1.2 key, h2.2 key⟩

/-- For two vectors this is the model of `Model/Independent.lean`. -/
theorem C118_two (fl : K → K) (lib : ℕ → Lib) (plan : Fin 2 → Fin 2 → Plan n) (A : Matrix (Fin 2) (Fin n) K) :
    isIndependentN fl lib plan A = isIndependent2 fl (lib 1) plan A ∧
      volumeN fl lib plan A = volume2 fl (lib 1) plan A := by
  have key : ∀ G : Matrix (Fin 2) (Fin 2) K, detSignN fl lib 2 G = detSign fl (lib 1) G := by
    intro G
    have one : ∀ H : Matrix (Fin 1) (Fin 1) K, detSignN fl lib 1 H = SignType.sign (H 0 0) := by
      intro H
      have : pivotRow (fun i => H i 0) = 0 := Subsingleton.elim (α := Fin 1) _ _
      simp only [detSignN, this]
      by_cases h : H 0 0 = 0
      · rw [if_pos h, h, sign_zero]
      · rw [if_neg h]
        simp
    have hp : pivotRow (fun i => G i 0) = if |G 0 0| < |G 1 0| then 1 else 0 := by
      unfold pivotRow
      rw [show List.finRange 2 = [0, 1] from rfl]
      simp only [List.foldl_cons, List.foldl_nil, lt_self_iff_false, if_false]
    unfold detSign
    by_cases h : |G 0 0| < |G 1 0|
    · rw [if_pos h] at hp ⊢
      have hne : G 1 0 ≠ 0 := fun h' => by
        rw [h', abs_zero] at h
        exact absurd h (not_lt.mpr (abs_nonneg _))
      rw [detSignN]
      simp only [hp, if_neg hne, one]
      have hr : reduced fl (lib 1) (G.submatrix (Equiv.swap 0 1) id) 0 0 =
          second fl (lib 1) (G 1 0) (G 1 1) (G 0 0) (G 0 1) := by
        unfold reduced
        simp [Matrix.submatrix_apply, Equiv.swap_apply_left, Equiv.swap_apply_right]
      rw [hr]
      simp
    · rw [if_neg h] at hp ⊢
      rw [detSignN]
      simp only [hp, one]
      by_cases hz : G 0 0 = 0
      · rw [if_pos hz, if_pos hz]
      · rw [if_neg hz, if_neg hz]
        have hr : reduced fl (lib 1) (G.submatrix (Equiv.swap 0 0) id) 0 0 =
            second fl (lib 1) (G 0 0) (G 0 1) (G 1 0) (G 1 1) := by
          unfold reduced
          simp [Matrix.submatrix_apply]
        rw [hr]
        simp
  unfold isIndependentN isIndependent2 volumeN volume2
  rw [key]
  exact ⟨rfl, rfl⟩

end

/-- Products from the left to the right. -/
def seqPlan3 : Plan 3 := .add (.add (.prod 0) (.prod 1)) (.prod 2)

/-- Three vectors in double precision. -/
example : isIndependentN (binary 53) (fun _ => ⟨true, true⟩) (fun _ _ => seqPlan3) !![1, 0, 0; 1, 1 / 100, 0; 0, 0, 1] = true := by
  refine (C118_rounded_many_partial (binary_precise 53 (by norm_num)) (h := 3) _ _ (fun _ _ => ⟨by decide, by decide⟩) _ 2
    (1 / 100000) (by norm_num) (fun i => ?_) (fun c => ?_) ?_).1
  · fin_cases i <;> (simp [Fin.sum_univ_three]; try norm_num)
  · simp [Fin.sum_univ_three]
    nlinarith [sq_nonneg (c 0 + c 1), sq_nonneg (c 0 + (1 - 1 / 20000) * c 1), sq_nonneg (c 1), sq_nonneg (c 2), sq_nonneg (c 0)]
  · simp [Finset.sum_range_succ]
    norm_num

end Verif.Indep.Props
