import Verif.Proofs.Solve
import Mathlib.Data.Rat.Floor

set_option linter.unusedSectionVars false

/-!
# C25, C26: `linsolve`

`tol` is the constant 1e-12 of the source; the theorems hold for any positive constant.
`Clean me tol pb pv S` says that during the elimination every entry below a pivot is zero or at
least `tol` times the pivot, i.e. that no nonzero entry is skipped; `minor A k` is the leading
principal minor of size `k`.
-/

namespace Verif.Solve.Props

open Verif.Solve
open Verif.Utils (DType store)

section
variable {n m : ℕ} {K : Type} [Field K] [LinearOrder K] [IsStrictOrderedRing K] [FloorRing K]

/-- All entries are finite and equal to the numbers `x`. -/
def IsFinite (X : Fin n → Fin m → Option K) (x : Fin n → Fin m → K) : Prop :=
  ∀ i j, X i j = some (x i j)

theorem core (me : Method) (tol : K) (ht : 0 < tol) (A : Fin n → Fin n → K) (B : Fin n → Fin m → K)
    (pb : Fin n → Bool) (pv : Fin n → K) (hcl : Clean me tol pb pv (fun i => (A i, B i)))
    (S : Sys n m K) (hS : eliminate me tol .float pb pv (fun i => (A i, B i)) = .ok S)
    (x : Fin n → Fin m → K) (hx : IsFinite (backsub S pb pv).1 x) :
    ∃ r : Fin n → Fin m → K, IsFinite (backsub S pb pv).2 r ∧
      (∀ i, pb i = true → ∀ j, x i j = pv i) ∧
      (∀ i, pb i = false → ∀ j, r i j = 0) ∧
      ∀ i j, ∑ c, A i c * x c j = B i j + r i j := by
  rw [eliminate_eq] at hS
  have hc := runTo_cleared me tol ht pb pv _ hcl n le_rfl S hS
  have hb := fun j => backsub_defect S pb pv hc (fun i => x i j) j (fun i => hx i j)
  have hd : ∀ i j, defect (fun i => (A i, B i)) (fun i => x i j) j i =
      defect S (fun i => x i j) j i := fun i j =>
    runTo_defect me tol pb pv _ (fun i => x i j) (fun i hi => ((hb j).1 i hi).1) j n le_rfl S hS
      (fun r hr => ((hb j).2 r hr).1) i
  refine ⟨fun i j => defect S (fun i => x i j) j i, fun i j => ?_,
    fun i hi j => ((hb j).1 i hi).1, fun i hi j => ((hb j).2 i hi).1, fun i j => ?_⟩
  · cases hi : pb i with
    | true => exact ((hb j).1 i hi).2
    | false =>
      show _ = some (defect S (fun i => x i j) j i)
      rw [((hb j).2 i hi).2.1, ((hb j).2 i hi).1]
  · show _ = B i j + defect S (fun i => x i j) j i
    rw [← hd]
    unfold defect
    ring

/-- **C25, partial.** If values are prescribed and `linsolve` returns a finite `X` and `R`, then `X`
has the prescribed values, `R` vanishes at the other equations and `A X = B + R`, for any number of
right hand sides.  Missing: eliminations which skip nonzero entries (there the claim is false, see
`C25_violation_skipped`), integer matrices (`C25_violation_integer`) and rounding. -/
theorem C25_constrained_partial (me : Method) (tol : K) (ht : 0 < tol) (A : Fin n → Fin n → K)
    (B : Fin n → Fin m → K) (pb : Fin n → Bool) (pv : Fin n → K)
    (hcl : Clean me tol pb pv (fun i => (A i, B i))) (X R : Fin n → Fin m → Option K)
    (h : linsolve me tol .float A B (some pb) (some pv) = .ok (.constrained X R))
    (x : Fin n → Fin m → K) (hx : IsFinite X x) :
    ∃ r : Fin n → Fin m → K, IsFinite R r ∧
      (∀ i, pb i = true → ∀ j, x i j = pv i) ∧
      (∀ i, pb i = false → ∀ j, r i j = 0) ∧
      ∀ i j, ∑ c, A i c * x c j = B i j + r i j := by
  unfold linsolve at h
  simp only at h
  cases hS : eliminate me tol .float pb pv (fun i => (A i, B i)) with
  | error e => rw [hS] at h; cases h
  | ok S =>
    rw [hS] at h
    simp only [Except.ok.injEq, Result.constrained.injEq] at h
    obtain ⟨rfl, rfl⟩ := h
    exact core me tol ht A B pb pv hcl S hS x hx

/-- **C25, partial**, without prescribed values: the returned `X` solves `A X = B`. -/
theorem C25_solution_partial (me : Method) (tol : K) (ht : 0 < tol) (A : Fin n → Fin n → K)
    (B : Fin n → Fin m → K) (pb : Option (Fin n → Bool))
    (hcl : Clean me tol (fun _ => false) (fun _ => 0) (fun i => (A i, B i)))
    (X : Fin n → Fin m → Option K)
    (h : linsolve me tol .float A B pb none = .ok (.solution X))
    (x : Fin n → Fin m → K) (hx : IsFinite X x) :
    ∀ i j, ∑ c, A i c * x c j = B i j := by
  unfold linsolve at h
  simp only at h
  cases hS : eliminate me tol .float (fun _ => false) (fun _ => 0) (fun i => (A i, B i)) with
  | error e => rw [hS] at h; cases h
  | ok S =>
    rw [hS] at h
    simp only [Except.ok.injEq, Result.solution.injEq] at h
    subst h
    obtain ⟨r, -, -, h2, h3⟩ := core me tol ht A B _ _ hcl S hS x hx
    intro i j
    rw [h3, h2 i rfl]; simp

/-- With the method Jordan, everything that is returned is finite. -/
theorem C25_jordan_finite (tol : K) (ht : 0 < tol) (A : Fin n → Fin n → K)
    (B : Fin n → Fin m → K) (pb : Fin n → Bool) (pv : Fin n → K)
    (hcl : Clean .jordan tol pb pv (fun i => (A i, B i)))
    (X R : Fin n → Fin m → Option K)
    (h : linsolve .jordan tol .float A B (some pb) (some pv) = .ok (.constrained X R)) :
    ∃ x, IsFinite X x := by
  unfold linsolve at h
  simp only at h
  cases hS : eliminate .jordan tol .float pb pv (fun i => (A i, B i)) with
  | error e => rw [hS] at h; cases h
  | ok S =>
    rw [hS] at h
    simp only [Except.ok.injEq, Result.constrained.injEq] at h
    obtain ⟨rfl, rfl⟩ := h
    have hp := jordan_pivots tol ht pb pv (fun i => (A i, B i)) hcl S hS
    choose x hx using fun j => backsub_finite S pb pv hp j
    exact ⟨fun i j => x j i, fun i j => hx j i⟩

/-! ### C26 -/

theorem linsolve_none (me : Method) (tol : K) (A : Fin n → Fin n → K) (B : Fin n → Fin m → K) :
    (∃ S, eliminate me tol .float (fun _ => false) (fun _ => 0) (fun i => (A i, B i)) = .ok S ∧
      linsolve me tol .float A B none none =
        .ok (.solution (backsub S (fun _ => false) (fun _ => 0)).1)) ∨
    ((¬ ∃ S, eliminate me tol .float (fun _ => false) (fun _ => 0) (fun i => (A i, B i)) = .ok S) ∧
      linsolve me tol .float A B none none = .error .linalg) := by
  unfold linsolve
  cases hS : eliminate me tol .float (fun _ => false) (fun _ => 0) (fun i => (A i, B i)) with
  | error e => right; simp
  | ok S => left; exact ⟨S, rfl, rfl⟩

/-- **C26 (Jordan), partial.** `linsolve` returns the solution exactly if no leading principal
minor is smaller than `tol` times the one before, and raises `LinAlgError` otherwise; in particular
it raises for every singular matrix, and if it returns, the matrix is regular and the result
finite.  Missing: regular matrices that need row exchanges or have small pivots are reported as
singular (`C26_violation_no_pivoting`, `C26_violation_small`), and skipped entries can hide
singularity (`C26_violation_skipped`). -/
theorem C26_jordan_partial (tol : K) (ht : 0 < tol) (A : Fin n → Fin n → K) (B : Fin n → Fin m → K)
    (hcl : Clean .jordan tol (fun _ => false) (fun _ => 0) (fun i => (A i, B i))) :
    ((∀ (k : ℕ) (hk : k < n), tol * |minor A k hk.le| ≤ |minor A (k + 1) hk|) →
      (Matrix.of A).det ≠ 0 ∧
      ∃ X x, linsolve .jordan tol .float A B none none = .ok (.solution X) ∧ IsFinite X x ∧
        ∀ i j, ∑ c, A i c * x c j = B i j) ∧
    ((¬ ∀ (k : ℕ) (hk : k < n), tol * |minor A k hk.le| ≤ |minor A (k + 1) hk|) →
      linsolve .jordan tol .float A B none none = .error .linalg) ∧
    ((Matrix.of A).det = 0 → linsolve .jordan tol .float A B none none = .error .linalg) := by
  have hiff := runTo_ok_iff .jordan tol ht (fun _ => 0) (fun i => (A i, B i)) hcl n le_rfl
    (Or.inl rfl)
  rw [← eliminate_eq] at hiff
  simp only at hiff
  obtain ⟨h1, h2⟩ := hiff
  rcases linsolve_none .jordan tol A B with ⟨S, hS, hl⟩ | ⟨hS, hl⟩
  · refine ⟨fun _ => ⟨h2 ⟨S, hS⟩, ?_⟩, fun hn => absurd (h1.1 ⟨S, hS⟩) hn,
      fun hdet => absurd hdet (h2 ⟨S, hS⟩)⟩
    have hp := jordan_pivots tol ht _ _ (fun i => (A i, B i)) hcl S hS
    choose x hx using fun j => backsub_finite S (fun _ => false) (fun _ => 0) hp j
    exact ⟨_, fun i j => x j i, hl, fun i j => hx j i,
      C25_solution_partial .jordan tol ht A B none hcl _ hl _ fun i j => hx j i⟩
  · refine ⟨fun hall => absurd (h1.2 hall) hS, fun _ => hl, fun _ => hl⟩

/-- **C26 (Gauss-Jordan), partial.** The last pivot is not checked: `linsolve` returns exactly if
the leading principal minors but the last one pass the test; the result is finite and the solution
if the matrix is regular, and not finite (without `LinAlgError`) if it is singular. -/
theorem C26_gauss_partial (tol : K) (ht : 0 < tol) (A : Fin n → Fin n → K) (B : Fin n → Fin m → K)
    (hm : 0 < m)
    (hcl : Clean .gaussJordan tol (fun _ => false) (fun _ => 0) (fun i => (A i, B i))) :
    ((∀ (k : ℕ) (hk : k < n - 1), tol * |minor A k (by omega)| ≤ |minor A (k + 1) (by omega)|) →
      ∃ X, linsolve .gaussJordan tol .float A B none none = .ok (.solution X) ∧
        ((Matrix.of A).det ≠ 0 → ∃ x, IsFinite X x ∧ ∀ i j, ∑ c, A i c * x c j = B i j) ∧
        ((Matrix.of A).det = 0 → ¬ ∃ x, IsFinite X x)) ∧
    ((¬ ∀ (k : ℕ) (hk : k < n - 1),
        tol * |minor A k (by omega)| ≤ |minor A (k + 1) (by omega)|) →
      linsolve .gaussJordan tol .float A B none none = .error .linalg) := by
  have hiff := runTo_ok_iff .gaussJordan tol ht (fun _ => 0) (fun i => (A i, B i)) hcl (n - 1)
    (by omega) (Or.inr le_rfl)
  have hlast := gauss_last tol (fun _ => false) (fun _ => 0) (fun i => (A i, B i)) rfl
  rw [hlast] at hiff
  simp only at hiff
  obtain ⟨h1, h2⟩ := hiff
  rcases linsolve_none .gaussJordan tol A B with ⟨S, hS, hl⟩ | ⟨hS, hl⟩
  · refine ⟨fun _ => ⟨_, hl, ?_, ?_⟩, fun hn => absurd (h1.1 ⟨S, hS⟩) hn⟩
    · intro hdet
      have hp : ∀ i, (fun _ : Fin n => false) i = false → (S i).1 i ≠ 0 := by
        intro i _ h0
        apply hdet
        rw [gauss_det tol ht A B hcl S hS]
        exact Finset.prod_eq_zero (Finset.mem_univ i) h0
      choose x hx using fun j => backsub_finite S (fun _ => false) (fun _ => 0) hp j
      exact ⟨fun i j => x j i, fun i j => hx j i,
        C25_solution_partial .gaussJordan tol ht A B none hcl _ hl _ fun i j => hx j i⟩
    · rintro hdet ⟨x, hx⟩
      rw [gauss_det tol ht A B hcl S hS] at hdet
      obtain ⟨i, -, hi⟩ := Finset.prod_eq_zero_iff.1 hdet
      rw [eliminate_eq] at hS
      have hc := runTo_cleared .gaussJordan tol ht _ _ _ hcl n le_rfl S hS
      exact ((backsub_defect S _ _ hc (fun i => x i ⟨0, hm⟩) ⟨0, hm⟩
        (fun i => hx i ⟨0, hm⟩)).2 i rfl).2.2 hi
  · exact ⟨fun hall => absurd (h1.2 hall) hS, fun _ => hl⟩

/-- Values prescribed without saying where are reported as a singular matrix; `presc_bool` without
values is ignored. -/
theorem C26_incomplete_prescription (me : Method) (tol : K) (d : DType) (A : Fin n → Fin n → K)
    (B : Fin n → Fin m → K) (pb : Fin n → Bool) (pv : Fin n → K) :
    linsolve me tol d A B none (some pv) = .error .linalg ∧
    linsolve me tol d A B (some pb) none = linsolve me tol d A B none none := ⟨rfl, rfl⟩

end

/-! ### Examples -/

/-- A decidable form of `Clean`. -/
def cleanCheck {n m : ℕ} (me : Method) (tol : ℚ) (pb : Fin n → Bool) (pv : Fin n → ℚ)
    (S : Sys n m ℚ) : Bool :=
  (List.finRange n).all fun i => match runTo me tol .float pb pv i.val S with
    | .ok T => (List.finRange n).all fun r => !(i < r) || (T r).1 i == 0 ||
        decide (tol * |(T i).1 i| ≤ |(T r).1 i|)
    | .error _ => true

theorem clean_of_check {n m : ℕ} (me : Method) (tol : ℚ) (pb : Fin n → Bool) (pv : Fin n → ℚ)
    (S : Sys n m ℚ) (h : cleanCheck me tol pb pv S = true) : Clean me tol pb pv S := by
  intro i T hT _ _ r hr
  unfold cleanCheck at h
  rw [List.all_eq_true] at h
  have h1 := h i (by simp)
  rw [hT] at h1
  simp only at h1
  rw [List.all_eq_true] at h1
  have h2 := h1 r (by simp)
  simpa [hr] using h2

/-- The solution, if there is one. -/
def solution? {n m : ℕ} (r : Py (Result n m ℚ)) : Option (Fin n → Fin m → Option ℚ) :=
  match r with
  | .ok (.solution X) => some X
  | _ => none

theorem of_solution? {n m : ℕ} {r : Py (Result n m ℚ)} {X : Fin n → Fin m → Option ℚ}
    (h : solution? r = some X) : r = .ok (.solution X) := by
  unfold solution? at h
  split at h
  · simp only [Option.some.injEq] at h; rw [h]
  · cases h

/-- The constrained solution, if there is one. -/
def constrained? {n m : ℕ} (r : Py (Result n m ℚ)) :
    Option ((Fin n → Fin m → Option ℚ) × (Fin n → Fin m → Option ℚ)) :=
  match r with
  | .ok (.constrained X R) => some (X, R)
  | _ => none

theorem of_constrained? {n m : ℕ} {r : Py (Result n m ℚ)} {X R : Fin n → Fin m → Option ℚ}
    (h : constrained? r = some (X, R)) : r = .ok (.constrained X R) := by
  unfold constrained? at h
  split at h
  · simp only [Option.some.injEq, Prod.mk.injEq] at h; rw [h.1, h.2]
  · cases h

/-- The system in the docstring of `linsolve`. -/
def exA : Fin 3 → Fin 3 → ℚ := ![![3, 1, 2], ![1, 1, 1], ![2, 1, 2]]

/-- Two right hand sides, the first one that of the docstring. -/
def exB : Fin 3 → Fin 2 → ℚ := ![![11, 0], ![6, 1], ![10, 5]]

/-- The docstring example meets the hypotheses of `C25_constrained_partial` for both methods, and
its result is that of the docstring. -/
example (me : Method) :
    Clean me (1 / 10 ^ 12) ![false, true, false] ![0, 3, 0] (fun i => (exA i, exB i)) ∧
    linsolve me (1 / 10 ^ 12) .float exA exB (some ![false, true, false]) (some ![0, 3, 0]) =
      .ok (.constrained ![![some 1, some (-5)], ![some 3, some 3], ![some (5 / 2), some 6]]
        ![![some 0, some 0], ![some (1 / 2), some 3], ![some 0, some 0]]) := by
  constructor
  · apply clean_of_check
    cases me <;> decide +kernel
  · apply of_constrained?
    cases me <;> decide +kernel

/-- The matrix of the docstring without prescribed values meets the hypotheses of the theorems on
C26. -/
example (me : Method) : Clean me (1 / 10 ^ 12) (fun _ => false) (fun _ => 0)
    (fun i => (exA i, exB i)) := by
  apply clean_of_check
  cases me <;> decide +kernel

/-! ### Violations -/

/-- **C25 is violated** when a small entry is skipped: for `[[1, 0], [1e-13, 1]]` and the right hand
side `(1, 0)` the returned `(1, 0)` does not solve the second equation. -/
theorem C25_violation_skipped (me : Method) :
    linsolve me (1 / 10 ^ 12 : ℚ) .float (n := 2) (m := 1) ![![1, 0], ![1 / 10 ^ 13, 1]]
        ![![1], ![0]] none none = .ok (.solution ![![some 1], ![some 0]]) ∧
      (1 / 10 ^ 13 : ℚ) * 1 + 1 * 0 ≠ 0 := by
  refine ⟨of_solution? ?_, by norm_num⟩
  cases me <;> decide +kernel

/-- **C25 is violated** for integer matrices: the entries are truncated when stored.  For
`[[2, 0, 1], [1, 1, 1], [0, 0, 1]]` and `(3, 3, 1)` the solution is `(1, 1, 1)`; returned is
`(1, 3/2, 1)`. -/
theorem C25_violation_integer (me : Method) :
    linsolve me (1 / 10 ^ 12 : ℚ) .int (n := 3) (m := 1)
        ![![2, 0, 1], ![1, 1, 1], ![0, 0, 1]] ![![3], ![3], ![1]] none none =
      .ok (.solution ![![some 1], ![some (3 / 2)], ![some 1]]) ∧
    (1 : ℚ) * 1 + 1 * (3 / 2) + 1 * 1 ≠ 3 := by
  refine ⟨of_solution? ?_, by norm_num⟩
  cases me <;> decide +kernel

/-- **C26 is violated (1)**: the regular matrix `[[0, 1], [1, 0]]` is reported as singular. -/
theorem C26_violation_no_pivoting (me : Method) (tol : ℚ) (ht : 0 < tol) :
    linsolve me tol .float (n := 2) (m := 1) ![![0, 1], ![1, 0]] ![![1], ![1]] none none =
      .error .linalg ∧ (Matrix.of ![![(0 : ℚ), 1], ![1, 0]]).det ≠ 0 := by
  refine ⟨?_, by norm_num [Matrix.det_fin_two]⟩
  have he : eliminate (m := 1) me tol .float (fun _ => false) (fun _ => 0)
      (fun i : Fin 2 => ((![![0, 1], ![1, 0]] : Fin 2 → Fin 2 → ℚ) i,
        (![![1], ![1]] : Fin 2 → Fin 1 → ℚ) i)) = .error .generic := by
    cases me <;>
    · simp only [eliminate, List.finRange_succ, List.foldlM_cons, step, jordanStep, gaussStep]
      simp [ht, bind, Except.bind]
  unfold linsolve
  simp only [he]

/-- **C26 is violated (2)**: the regular matrix `[[1e-13]]` is reported as singular by Jordan. -/
theorem C26_violation_small :
    (linsolve .jordan (1 / 10 ^ 12) .float (n := 1) (m := 1) ![![(1 / 10 ^ 13 : ℚ)]]
      ![![1]] none none).isOk = false := by decide +kernel

/-- **C26 is violated (3)**: Gauss-Jordan does not report the singular matrix `[[1, 1], [1, 1]]`; the
result is not finite. -/
theorem C26_violation_last_pivot :
    linsolve .gaussJordan (1 / 10 ^ 12) .float (n := 2) (m := 1) ![![(1 : ℚ), 1], ![1, 1]]
        ![![1], ![1]] none none = .ok (.solution ![![none], ![none]]) ∧
      (Matrix.of ![![(1 : ℚ), 1], ![1, 1]]).det = 0 := by
  refine ⟨of_solution? ?_, by norm_num [Matrix.det_fin_two]⟩
  decide +kernel

/-- **C26 is violated (4)**: the singular matrix `[[1, 1000], [1e-13, 1e-10]]` is not reported by
either method; Gauss-Jordan even returns a finite result. -/
theorem C26_violation_skipped :
    linsolve .gaussJordan (1 / 10 ^ 12 : ℚ) .float (n := 2) (m := 1)
        ![![1, 1000], ![1 / 10 ^ 13, 1 / 10 ^ 10]] ![![0], ![1]] none none =
      .ok (.solution ![![some (-10 ^ 13)], ![some (10 ^ 10)]]) ∧
    linsolve .jordan (1 / 10 ^ 12 : ℚ) .float (n := 2) (m := 1)
        ![![1, 1000], ![1 / 10 ^ 13, 1 / 10 ^ 10]] ![![0], ![1]] none none =
      .ok (.solution ![![none], ![some (10 ^ 10)]]) ∧
      (Matrix.of ![![(1 : ℚ), 1000], ![1 / 10 ^ 13, 1 / 10 ^ 10]]).det = 0 := by
  refine ⟨of_solution? ?_, of_solution? ?_, by norm_num [Matrix.det_fin_two]⟩
  · decide +kernel
  · decide +kernel

end Verif.Solve.Props
