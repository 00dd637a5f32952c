import Verif.Proofs.SolveDiagonal
import Verif.Props.SolveMinors

set_option linter.unusedSectionVars false

/-!
# C88: the form of what `reduce` returns, by conditions on the matrix alone

`leading A k` is the leading minor of order `k`, `replaced A k r c` the one with column `r` replaced by
column `c`.
-/

namespace Verif.SolveApi.Props

open Verif.Solve Verif.SolveApi Verif.Solve.Props

section
variable {n : ℕ} {K : Type} [Field K] [LinearOrder K] [IsStrictOrderedRing K] [FloorRing K]

/-- **C88, triangular form.**  Let for every `i < r` the minor of the first `i` columns and column `i` in the
first `i` rows and row `r` be zero or at least `tol` times the leading minor of order `i + 1`.  Then what
Gauss-Jordan returns is an upper triangular matrix. -/
theorem C88_triangular (tol : K) (ht : 0 < tol) (A A' : Fin n → Fin n → K) (B B' : Rhs n K)
    (inplace : Bool) (hA : NoneNegligible tol (fun _ => false) A)
    (h : (reduce tol .gaussJordan A B none none inplace).result = .ok (A', B')) (r c : Fin n)
    (hrc : c < r) : A' r c = 0 :=
  C88_triangular_partial tol ht A A' B B' inplace
    (clean_of_noneNegligible .gaussJordan tol ht _ _ (start A B) hA) h r c hrc

/-- **C88, diagonal form.**  Let moreover for every `r < i` the leading minor of order `i` with column `r`
replaced by column `i` be zero or not negligible.  Then what Jordan returns is a diagonal matrix. -/
theorem C88_diagonal (tol : K) (ht : 0 < tol) (A A' : Fin n → Fin n → K) (B B' : Rhs n K)
    (inplace : Bool) (hA : NoneNegligible tol (fun _ => false) A) (hB : NoneNegligibleAbove tol A)
    (h : (reduce tol .jordan A B none none inplace).result = .ok (A', B')) (r c : Fin n)
    (hrc : r ≠ c) : A' r c = 0 :=
  C88_diagonal_partial tol ht A A' B B' inplace (nothingSkipped_of_minors tol ht (start A B) hA hB) h r c hrc

theorem leading_whole (A : Fin n → Fin n → K) (hz : ∀ i c, ∃ z : ℤ, A i c = z) (k : ℕ)
    (γ : {c : Fin n // c.val < k} → Fin n) :
    ∃ w : ℤ, (Matrix.of fun (x y : {c : Fin n // c.val < k}) => A x.val (γ y)).det = w := by
  choose z hz using hz
  refine ⟨(Matrix.of fun (x y : {c : Fin n // c.val < k}) => z x.val (γ y)).det, ?_⟩
  rw [show ((Matrix.of fun (x y : {c : Fin n // c.val < k}) => z x.val (γ y)).det : K) =
    Int.castRingHom K _ from rfl, RingHom.map_det]
  congr 1
  ext x y
  simp [hz]

/-- **C88, whole numbers.**  If the entries of the matrix are whole numbers, whose leading minors, and products
of two of them, do not exceed `1 / tol`, then Gauss-Jordan returns an upper triangular and Jordan a diagonal
matrix. -/
theorem C88_whole_numbers (tol : K) (ht : 0 < tol) (A A' : Fin n → Fin n → K) (B B' : Rhs n K)
    (inplace : Bool) (hz : ∀ i c, ∃ z : ℤ, A i c = z)
    (hb : ∀ k, k ≤ n → tol * |leading A k| ≤ 1)
    (hb' : ∀ k l, k ≤ n → l < k → tol * |leading A k * leading A l| ≤ 1) :
    ((reduce tol .gaussJordan A B none none inplace).result = .ok (A', B') →
      ∀ r c : Fin n, c < r → A' r c = 0) ∧
    ((reduce tol .jordan A B none none inplace).result = .ok (A', B') →
      ∀ r c : Fin n, r ≠ c → A' r c = 0) := by
  have hA : NoneNegligible tol (fun _ => false) A :=
    (noneNegligible_of_whole tol ht A (fun _ => false) hz fun k hk => by
      rw [← leading_eq_freeMinor]; exact hb k hk).1
  have one : ∀ w : ℤ, (w : K) = 0 ∨ 1 ≤ |(w : K)| := by
    intro w
    by_cases h : w = 0
    · exact .inl (by simp [h])
    · right
      rw [← Int.cast_abs]
      exact_mod_cast Int.one_le_abs h
  have hB : NoneNegligibleAbove tol A := by
    intro r i hri hl
    obtain ⟨w, hw⟩ := leading_whole A hz (r.val + 1) fun y => y.val
    obtain ⟨v, hv⟩ := leading_whole A hz i.val fun y => if y.val = r then i else y.val
    have hw : leading A (r.val + 1) = w := hw
    have hv : replaced A i.val r i = v := hv
    rw [hw] at hl ⊢
    rw [hv]
    rcases one v with h | h
    · exact .inl h
    · right
      refine le_trans (hb' (i.val + 1) r.val (by omega) (by have : r.val < i.val := hri; omega)) ?_
      rw [abs_mul]
      have := (one w).resolve_left hl
      nlinarith
  exact ⟨fun h r c => C88_triangular tol ht A A' B B' inplace hA h r c,
    fun h r c => C88_diagonal tol ht A A' B B' inplace hA hB h r c⟩

end

-- a regular matrix of whole numbers
example (A' : Fin 3 → Fin 3 → ℚ) (B' : Rhs 3 ℚ)
    (h : (reduce (1 / 10 ^ 12 : ℚ) .jordan exM (.one ![1, 2, 3]) none none false).result = .ok (A', B')) :
    A' 0 2 = 0 ∧ A' 1 0 = 0 := by
  have hz : ∀ i c, ∃ z : ℤ, exM i c = z := by
    intro i c
    refine ⟨(![![2, 1, 3], ![4, 5, 6], ![3, 1, 1]] : Fin 3 → Fin 3 → ℤ) i c, ?_⟩
    fin_cases i <;> fin_cases c <;> decide +kernel
  have hl : ∀ k, k ≤ 3 → |leading exM k| ≤ 100 := by
    intro k hk
    unfold leading
    interval_cases k <;> decide +kernel
  have key := C88_whole_numbers (1 / 10 ^ 12 : ℚ) (by norm_num) exM A' (.one ![1, 2, 3]) B' false hz
    (fun k hk => by have := hl k hk; linarith)
    (fun k l hk hlk => by
      have h1 := hl k hk
      have h2 := hl l (by omega)
      rw [abs_mul]
      nlinarith [abs_nonneg (leading exM k), abs_nonneg (leading exM l)])
  exact ⟨key.2 h 0 2 (by decide), key.2 h 1 0 (by decide)⟩

example : ((reduce (1 / 10 ^ 12 : ℚ) .jordan exM (.one ![1, 2, 3]) none none false).result.toOption.isSome) = true := by
  decide +kernel

end Verif.SolveApi.Props
