import Verif.Proofs.RoundedSolve
import Verif.Props.Rounding
import Mathlib.Tactic.IntervalCases

/-!
# Properties of `linsolve` with rounded arithmetic (C106)
-/

set_option linter.unusedSectionVars false

namespace Verif.RSolve.Props
open Verif Verif.Rnd Verif.RSolve
open Verif.Solve (Row Sys Method Result)

section
variable {n m : ℕ} {K : Type} [Field K] [LinearOrder K] [IsStrictOrderedRing K]

/-- While the matrix is being reduced, its entries do not exceed `G`, those of column `j` of the right
hand sides do not exceed `H`, and the multiples of a row that are subtracted from other ones (only those
below it for `'Gauss-Jordan'`) do not exceed `F`. -/
structure Moderate (fl : K → K) (fused : Bool) (me : Method) (tol : K) (A : Fin n → Fin n → K)
    (B : Fin n → Fin m → K) (pb : Fin n → Bool) (pv : Fin n → K) (j : Fin m) (G H F : K) : Prop where
  entries : ∀ k, k ≤ n → ∀ U, runTo fl fused me tol pb pv k (fun i => (A i, B i)) = .ok U →
    ∀ r c, |(U r).1 c| ≤ G
  rhs : ∀ k, k ≤ n → ∀ U, runTo fl fused me tol pb pv k (fun i => (A i, B i)) = .ok U →
    ∀ r, |(U r).2 j| ≤ H
  factors : ∀ i : Fin n, pb i = false →
    ∀ U, runTo fl fused me tol pb pv i (fun i => (A i, B i)) = .ok U →
    ∀ r, r ≠ i → (me = .jordan ∨ i < r) → |fl ((U r).1 i / (U i).1 i)| ≤ F
  nonneg : 0 ≤ F

/-- The bound for `'Gauss-Jordan'`: `u` is the relative error of an operation, `X` bounds the unknowns. -/
def gaussBound (n : ℕ) (u tol G H F X : K) : K :=
  (1 + n * F) * (((1 + u) ^ (n + 1) - 1) * (H + n * (G * X))) +
    n * (3 * u * (1 + F) * (n * (G * X) + H) + 2 * tol * (G * X))

/-- The bound for `'Jordan'`; `J` bounds what is left below the diagonal of the reduced matrix. -/
def jordanBound (n : ℕ) (u G H F J X : K) : K :=
  (1 + F) ^ n * (((1 + u) ^ (n + 1) - 1) * (H + n * (G * X)) + n * (J * X) +
    n * (3 * u * (1 + F) * (n * (G * X) + H)))

/-- C106: method `'Gauss-Jordan'` with prescribed unknowns.  If the numbers stay moderate, finite
results satisfy `A x = b + r` up to a multiple of the unit roundoff and of `tol`; prescribed unknowns have
exactly the prescribed values and the residual of all other equations is exactly zero. -/
theorem C106_gauss (fl : K → K) (fused : Bool) (u tol : K) (hu : Precise fl u) (hu1 : 2 * u ≤ 1)
    (ht : 0 ≤ tol) (A : Fin n → Fin n → K) (B : Fin n → Fin m → K) (pb : Fin n → Bool)
    (pv : Fin n → K) (X R : Fin n → Fin m → Option K)
    (h : linsolve fl fused .gaussJordan tol A B (some pb) (some pv) = .ok (.constrained X R))
    (j : Fin m) (x ρ : Fin n → K) (hx : ∀ i, X i j = some (x i)) (hρ : ∀ i, R i j = some (ρ i))
    (G H F M : K) (hG : Moderate fl fused .gaussJordan tol A B pb pv j G H F) (hM : ∀ i, |x i| ≤ M) :
    (∀ i, |∑ c, A i c * x c - (B i j + ρ i)| ≤ gaussBound n u tol G H F M) ∧
    (∀ i, pb i = true → x i = pv i) ∧ ∀ i, pb i = false → ρ i = 0 := by
  simp only [linsolve] at h
  cases hS : eliminate fl fused .gaussJordan tol pb pv (fun i => (A i, B i)) with
  | error e => rw [hS] at h; cases h
  | ok S =>
    rw [hS] at h
    simp only [Except.ok.injEq, Result.constrained.injEq] at h
    obtain ⟨rfl, rfl⟩ := h
    rw [eliminate_eq] at hS
    have hz := fun k hk U hU => Sized.mk (hG.entries k hk U hU) (hG.rhs k hk U hU)
    have hb := fun i => back_defect (fused := fused) hu S pb pv x ρ j hx hρ (hz n le_rfl S hS) hM
      (fun i hi => col_zero hu i hi n i.2 le_rfl S hS i le_rfl) i
    refine ⟨fun i => ?_, fun i => (hb i).1, fun i hi => ((hb i).2.1 hi).1⟩
    have := gauss_all hu hu1 ht hG.nonneg hS hz
      (fun i hi U hU r hr => hG.factors i hi U hU r hr.ne' (Or.inr hr)) x ρ hM hx hρ i
    unfold full at this
    rwa [sub_sub] at this

/-- C106: method `'Gauss-Jordan'` without prescribed unknowns. -/
theorem C106_gauss_free (fl : K → K) (fused : Bool) (u tol : K) (hu : Precise fl u) (hu1 : 2 * u ≤ 1)
    (ht : 0 ≤ tol) (A : Fin n → Fin n → K) (B : Fin n → Fin m → K) (pb : Option (Fin n → Bool))
    (X : Fin n → Fin m → Option K)
    (h : linsolve fl fused .gaussJordan tol A B pb none = .ok (.solution X))
    (j : Fin m) (x : Fin n → K) (hx : ∀ i, X i j = some (x i)) (G H F M : K)
    (hG : Moderate fl fused .gaussJordan tol A B (fun _ => false) (fun _ => 0) j G H F)
    (hM : ∀ i, |x i| ≤ M) (i : Fin n) :
    |∑ c, A i c * x c - B i j| ≤ gaussBound n u tol G H F M := by
  simp only [linsolve] at h
  cases hS : eliminate fl fused .gaussJordan tol (fun _ => false) (fun _ => 0)
      (fun i => (A i, B i)) with
  | error e => rw [hS] at h; cases h
  | ok S =>
    rw [hS] at h
    simp only [Except.ok.injEq, Result.solution.injEq] at h
    subst h
    have := (C106_gauss fl fused u tol hu hu1 ht A B (fun _ => false) (fun _ => 0) _ _
      (by simp only [linsolve]; rw [hS]) j x (fun _ => 0) hx
      (fun i => by rw [(backsub_spec S _ _ i).2]; rfl) G H F M hG hM).1 i
    rwa [add_zero] at this

/-- C106: method `'Jordan'`, with or without prescribed unknowns.  What is left below the diagonal of
the reduced matrix is ignored by the backward substitution and enters the bound. -/
theorem C106_jordan (fl : K → K) (fused : Bool) (u tol : K) (hu : Precise fl u) (hu1 : u ≤ 1)
    (A : Fin n → Fin n → K) (B : Fin n → Fin m → K) (pb : Fin n → Bool)
    (pv : Fin n → K) (X R : Fin n → Fin m → Option K)
    (h : linsolve fl fused .jordan tol A B (some pb) (some pv) = .ok (.constrained X R))
    (j : Fin m) (x ρ : Fin n → K) (hx : ∀ i, X i j = some (x i)) (hρ : ∀ i, R i j = some (ρ i))
    (G H F J M : K) (hG : Moderate fl fused .jordan tol A B pb pv j G H F) (hJ0 : 0 ≤ J)
    (hJ : ∀ U, eliminate fl fused .jordan tol pb pv (fun i => (A i, B i)) = .ok U →
      ∀ r c : Fin n, c < r → |(U r).1 c| ≤ J) (hM : ∀ i, |x i| ≤ M) :
    (∀ i, |∑ c, A i c * x c - (B i j + ρ i)| ≤ jordanBound n u G H F J M) ∧
    (∀ i, pb i = true → x i = pv i) ∧ ∀ i, pb i = false → ρ i = 0 := by
  simp only [linsolve] at h
  cases hS : eliminate fl fused .jordan tol pb pv (fun i => (A i, B i)) with
  | error e => rw [hS] at h; cases h
  | ok S =>
    have hJ' := hJ S hS
    rw [hS] at h
    simp only [Except.ok.injEq, Result.constrained.injEq] at h
    obtain ⟨rfl, rfl⟩ := h
    rw [eliminate_eq] at hS
    have hz := fun k hk U hU => Sized.mk (hG.entries k hk U hU) (hG.rhs k hk U hU)
    have hb := fun i => back_defect (fused := fused) hu S pb pv x ρ j hx hρ (hz n le_rfl S hS) hM
      (fun i hi => col_zero hu i hi n i.2 le_rfl S hS i le_rfl) i
    refine ⟨fun i => ?_, fun i => (hb i).1, fun i hi => ((hb i).2.1 hi).1⟩
    have := any_all hu hu1 hJ0 hG.nonneg hS hz
      (fun i hi U hU r hr => hG.factors i hi U hU r hr (Or.inl rfl)) hJ' x ρ hM hx hρ i
    unfold full at this
    rwa [sub_sub] at this

theorem C106_jordan_free (fl : K → K) (fused : Bool) (u tol : K) (hu : Precise fl u) (hu1 : u ≤ 1)
    (A : Fin n → Fin n → K) (B : Fin n → Fin m → K) (pb : Option (Fin n → Bool))
    (X : Fin n → Fin m → Option K)
    (h : linsolve fl fused .jordan tol A B pb none = .ok (.solution X))
    (j : Fin m) (x : Fin n → K) (hx : ∀ i, X i j = some (x i)) (G H F J M : K)
    (hG : Moderate fl fused .jordan tol A B (fun _ => false) (fun _ => 0) j G H F) (hJ0 : 0 ≤ J)
    (hJ : ∀ U, eliminate fl fused .jordan tol (fun _ => false) (fun _ => 0) (fun i => (A i, B i)) =
      .ok U → ∀ r c : Fin n, c < r → |(U r).1 c| ≤ J)
    (hM : ∀ i, |x i| ≤ M) (i : Fin n) :
    |∑ c, A i c * x c - B i j| ≤ jordanBound n u G H F J M := by
  simp only [linsolve] at h
  cases hS : eliminate fl fused .jordan tol (fun _ => false) (fun _ => 0)
      (fun i => (A i, B i)) with
  | error e => rw [hS] at h; cases h
  | ok S =>
    rw [hS] at h
    simp only [Except.ok.injEq, Result.solution.injEq] at h
    subst h
    have := (C106_jordan fl fused u tol hu hu1 A B (fun _ => false) (fun _ => 0) _ _
      (by simp only [linsolve]; rw [hS]) j x (fun _ => 0) hx
      (fun i => by rw [(backsub_spec S _ _ i).2]; rfl) G H F J M hG hJ0 hJ hM).1 i
    rwa [add_zero] at this

/-- C106: how far the unknowns are from the solution, if `C` is an inverse of the matrix whose rows have
sums of absolute values of at most `κ`. -/
theorem C106_forward (fl : K → K) (fused : Bool) (u tol : K) (hu : Precise fl u) (hu1 : 2 * u ≤ 1)
    (ht : 0 ≤ tol) (A : Fin n → Fin n → K) (B : Fin n → Fin m → K) (pb : Option (Fin n → Bool))
    (X : Fin n → Fin m → Option K)
    (h : linsolve fl fused .gaussJordan tol A B pb none = .ok (.solution X))
    (j : Fin m) (x : Fin n → K) (hx : ∀ i, X i j = some (x i)) (G H F M : K)
    (hG : Moderate fl fused .gaussJordan tol A B (fun _ => false) (fun _ => 0) j G H F)
    (hM : ∀ i, |x i| ≤ M) (C : Fin n → Fin n → K) (κ : K)
    (hC : ∀ i k, ∑ l, C i l * A l k = if i = k then 1 else 0) (hκ : ∀ i, ∑ l, |C i l| ≤ κ)
    (y : Fin n → K) (hy : ∀ i, ∑ c, A i c * y c = B i j) (i : Fin n) :
    |x i - y i| ≤ κ * gaussBound n u tol G H F M := by
  have hres := C106_gauss_free fl fused u tol hu hu1 ht A B pb X h j x hx G H F M hG hM
  have hb0 : 0 ≤ gaussBound n u tol G H F M := (abs_nonneg _).trans (hres i)
  have hinv : ∀ z : Fin n → K, z i = ∑ l, C i l * ∑ c, A l c * z c := by
    intro z
    have h1 : ∑ l, C i l * ∑ c, A l c * z c = ∑ c, (∑ l, C i l * A l c) * z c := by
      simp only [Finset.mul_sum, Finset.sum_mul]
      rw [Finset.sum_comm]
      simp only [mul_assoc]
    rw [h1]
    simp [hC]
  have hd : x i - y i = ∑ l, C i l * (∑ c, A l c * x c - B l j) := by
    rw [hinv x, hinv y, ← Finset.sum_sub_distrib]
    apply Finset.sum_congr rfl
    intro l _
    rw [hy l]; ring
  rw [hd]
  refine (Finset.abs_sum_le_sum_abs _ _).trans ?_
  calc _ ≤ ∑ l, |C i l| * gaussBound n u tol G H F M := by
        apply Finset.sum_le_sum
        intro l _
        rw [abs_mul]
        exact mul_le_mul_of_nonneg_left (hres l) (abs_nonneg _)
    _ = (∑ l, |C i l|) * gaussBound n u tol G H F M := by rw [Finset.sum_mul]
    _ ≤ _ := mul_le_mul_of_nonneg_right (hκ i) hb0

/-- Without rounding the functions are those of `Model/Solve`. -/
theorem exact_linsolve [FloorRing K] (fused : Bool) (me : Method) (tol : K) (A : Fin n → Fin n → K)
    (B : Fin n → Fin m → K) (pb : Option (Fin n → Bool)) (pv : Option (Fin n → K)) :
    linsolve id fused me tol A B pb pv = Solve.linsolve me tol .float A B pb pv := by
  have h0 : ∀ a f b : K, subMul id fused a f b = a - f * b := by
    intro a f b; unfold subMul; split <;> rfl
  have h1 : ∀ (i : Fin n) v, prescRow (m := m) (K := K) id fused i v = Solve.prescRow i v := by
    intro i v; funext row; unfold prescRow Solve.prescRow; simp only [h0]
  have h2 : ∀ (i : Fin n) v, prescStep (m := m) (K := K) id fused i v = Solve.prescStep i v := by
    intro i v; funext S; unfold prescStep Solve.prescStep; simp only [h1]
  have h3 : ∀ f, subRow (n := n) (m := m) (K := K) id fused f = Solve.subRow .float f := by
    intro f; funext p q; unfold subRow Solve.subRow
    simp only [h0]; rfl
  have h4 : ∀ (i : Fin n) p, elimRow (m := m) (K := K) id fused tol i p =
      Solve.elimRow tol .float i p := by
    intro i p; funext S r; unfold elimRow Solve.elimRow; simp only [h3, id]
  have h5 : ∀ pb pv, step (n := n) (m := m) (K := K) id fused me tol pb pv =
      Solve.step me tol .float pb pv := by
    intro pb pv; funext S i
    cases me
    · simp only [step, Solve.step, jordanStep, Solve.jordanStep, h4, h2]
    · simp only [step, Solve.step, gaussStep, Solve.gaussStep, h4, h2]
  have h6 : ∀ pb pv S, eliminate (n := n) (m := m) (K := K) id fused me tol pb pv S =
      Solve.eliminate me tol .float pb pv S := by
    intro pb pv S; unfold eliminate Solve.eliminate; rw [h5]
  have h7 : ∀ (a : Option K) k b, fsubmul id fused a k b = Solve.fsubmul a k b := by
    intro a k b; cases a <;> cases b <;> simp [fsubmul, Solve.fsubmul, h0]
  have h8 : ∀ (a : Option K) p, fdiv id a p = Solve.fdiv a p := by
    intro a p; cases a <;> simp [fdiv, Solve.fdiv]
  have h9 : ∀ (S : Sys n m K) Y, residual id fused S Y = Solve.residual S Y := by
    intro S Y; funext i j; unfold residual Solve.residual; simp only [h7]
  have h10 : ∀ (S : Sys n m K) pb pv, backsub id fused S pb pv = Solve.backsub S pb pv := by
    intro S pb pv
    unfold backsub Solve.backsub
    congr 1
    funext XR i
    unfold backStep Solve.backStep
    simp only [h9, h8]
  unfold linsolve Solve.linsolve
  cases pv with
  | none =>
    simp only [h6, h10]
    cases Solve.eliminate me tol .float (fun _ => false) (fun _ => 0) (fun i => (A i, B i)) <;> rfl
  | some pv => cases pb with
    | none => rfl
    | some pb =>
      simp only [h6, h10]
      cases Solve.eliminate me tol .float pb pv (fun i => (A i, B i)) <;> rfl

/-- C106 in exact arithmetic: what skipping small multiples costs. -/
theorem C106_tol [FloorRing K] (tol : K) (ht : 0 ≤ tol) (A : Fin n → Fin n → K) (B : Fin n → Fin m → K)
    (pb : Fin n → Bool) (pv : Fin n → K) (X R : Fin n → Fin m → Option K)
    (h : Solve.linsolve .gaussJordan tol .float A B (some pb) (some pv) = .ok (.constrained X R))
    (j : Fin m) (x ρ : Fin n → K) (hx : ∀ i, X i j = some (x i)) (hρ : ∀ i, R i j = some (ρ i))
    (G H F M : K) (hG : Moderate id false .gaussJordan tol A B pb pv j G H F) (hM : ∀ i, |x i| ≤ M)
    (i : Fin n) : |∑ c, A i c * x c - (B i j + ρ i)| ≤ 2 * n * tol * G * M := by
  have := (C106_gauss id false 0 tol (fun x => by simp) (by norm_num) ht A B pb pv X R
    (by rw [exact_linsolve]; exact h) j x ρ hx hρ G H F M hG hM).1 i
  refine this.trans (le_of_eq ?_)
  unfold gaussBound
  simp
  ring

end

/-! ### Examples -/

theorem forall_ok {α : Type} (e : Py α) (p : α → Prop) (h : ∀ U ∈ e.toOption, p U) :
    ∀ U, e = .ok U → p U := fun U hU => h U (by rw [hU]; rfl)

/-- the matrix of the documentation -/
def docA : Fin 3 → Fin 3 → ℚ := ![![3, 1, 2], ![1, 1, 1], ![2, 1, 2]]
def docB : Fin 3 → Fin 1 → ℚ := ![![11], ![6], ![10]]

theorem doc_moderate (me : Method) (pb : Fin 3 → Bool) (pv : Fin 3 → ℚ)
    (hpb : pb = (fun _ => false) ∧ pv = (fun _ => 0) ∨ pb = ![false, true, false] ∧ pv = ![0, 3, 0]) :
    Moderate (binary 53) false me (1 / 10 ^ 12) docA docB pb pv 0 3 11 3 := by
  constructor
  · intro k hk
    apply forall_ok
    rcases hpb with ⟨rfl, rfl⟩ | ⟨rfl, rfl⟩ <;> cases me <;> interval_cases k <;> decide +kernel
  · intro k hk
    apply forall_ok
    rcases hpb with ⟨rfl, rfl⟩ | ⟨rfl, rfl⟩ <;> cases me <;> interval_cases k <;> decide +kernel
  · intro i hi
    apply forall_ok
    revert hi
    revert i
    rcases hpb with ⟨rfl, rfl⟩ | ⟨rfl, rfl⟩ <;> cases me <;> decide +kernel
  · norm_num

/-- what a call returns, as lists -/
def shown {n m : ℕ} (e : Py (Result n m ℚ)) (j : Fin m) : Option (List (Option ℚ) × List (Option ℚ)) :=
  match e with
  | .ok (.constrained X R) => some (List.ofFn fun i => X i j, List.ofFn fun i => R i j)
  | .ok (.solution X) => some (List.ofFn fun i => X i j, [])
  | .error _ => none

theorem shown_constrained {n m : ℕ} {e : Py (Result n m ℚ)} {j : Fin m} {x ρ : Fin n → ℚ} (hn : 0 < n)
    (h : shown e j = some (List.ofFn fun i => some (x i), List.ofFn fun i => some (ρ i))) :
    ∃ X R, e = .ok (.constrained X R) ∧ (∀ i, X i j = some (x i)) ∧ ∀ i, R i j = some (ρ i) := by
  match e, h with
  | .ok (.constrained X R), h =>
    simp only [shown, Option.some.injEq, Prod.mk.injEq] at h
    exact ⟨X, R, rfl, fun i => congrFun (List.ofFn_injective h.1) i,
      fun i => congrFun (List.ofFn_injective h.2) i⟩
  | .ok (.solution X), h =>
    simp only [shown, Option.some.injEq, Prod.mk.injEq] at h
    have := congrArg List.length h.2
    simp at this
    omega

theorem shown_solution {n m : ℕ} {e : Py (Result n m ℚ)} {j : Fin m} {x : Fin n → ℚ} (hn : 0 < n)
    (h : shown e j = some (List.ofFn fun i => some (x i), [])) :
    ∃ X, e = .ok (.solution X) ∧ ∀ i, X i j = some (x i) := by
  match e, h with
  | .ok (.constrained X R), h =>
    simp only [shown, Option.some.injEq, Prod.mk.injEq] at h
    have := congrArg List.length h.2
    simp at this
    omega
  | .ok (.solution X), h =>
    simp only [shown, Option.some.injEq, Prod.mk.injEq] at h
    exact ⟨X, rfl, fun i => congrFun (List.ofFn_injective h.1) i⟩

/-- Non-vacuity: the second example of the documentation in double precision. -/
example : (∃ X R, linsolve (binary 53) false .gaussJordan (1 / 10 ^ 12) docA docB
      (some ![false, true, false]) (some ![0, 3, 0]) = .ok (.constrained X R) ∧
    (∀ i, X i 0 = some (![1, 3, 5 / 2] i)) ∧ ∀ i, R i 0 = some (![0, 1 / 2, 0] i)) ∧
    (∀ i, |(![1, 3, 5 / 2] : Fin 3 → ℚ) i| ≤ 3) ∧
    gaussBound 3 (1 / 2 ^ 53) (1 / 10 ^ 12) 3 11 3 (3 : ℚ) ≤ 1 / 10 ^ 9 :=
  ⟨shown_constrained (by norm_num) (by decide +kernel), by decide +kernel, by unfold gaussBound; norm_num⟩

/-- Non-vacuity: the first one, with both methods. -/
example : ∀ me, ∃ X, linsolve (binary 53) false me (1 / 10 ^ 12) docA docB none none =
      .ok (.solution X) ∧ ∀ i, ∃ x, X i 0 = some x ∧ |x| ≤ 4 := by
  intro me
  have h : ∃ x : Fin 3 → ℚ, shown (linsolve (binary 53) false me (1 / 10 ^ 12) docA docB none none) 0 =
      some (List.ofFn fun i => some (x i), []) ∧ ∀ i, |x i| ≤ 4 := by
    cases me
    · exact ⟨![9007199254740989 / 9007199254740992, 9007199254740991 / 4503599627370496,
        6755399441055745 / 2251799813685248], by decide +kernel, by decide +kernel⟩
    · exact ⟨![9007199254740989 / 9007199254740992, 9007199254740991 / 4503599627370496,
        6755399441055745 / 2251799813685248], by decide +kernel, by decide +kernel⟩
  obtain ⟨x, h1, h2⟩ := h
  obtain ⟨X, h3, h4⟩ := shown_solution (by norm_num) h1
  exact ⟨X, h3, fun i => ⟨x i, h4 i, h2 i⟩⟩

/-- Non-vacuity: what `'Jordan'` leaves below the diagonal here. -/
example : ∀ U, eliminate (binary 53) false .jordan (1 / 10 ^ 12) (fun _ => false) (fun _ => 0)
      (fun i => (docA i, docB i)) = .ok U → ∀ r c : Fin 3, c < r → |(U r).1 c| ≤ 1 / 2 ^ 53 :=
  forall_ok _ _ (by decide +kernel)

/-- Non-vacuity of the theorem on the unknowns: the inverse of the matrix. -/
example : ∃ C : Fin 3 → Fin 3 → ℚ, (∀ i k, ∑ l, C i l * docA l k = if i = k then 1 else 0) ∧
    (∀ i, ∑ l, |C i l| ≤ 4) ∧ ∀ i, ∑ c, docA i c * (![1, 2, 3] : Fin 3 → ℚ) c = docB i 0 :=
  ⟨![![1, 0, -1], ![0, 2, -1], ![-1, -1, 2]], by decide +kernel, by decide +kernel, by decide +kernel⟩

/-- C106 fails for small pivots: there is no exchange of rows, and a pivot is accepted if it is at least
`1e-12`.  The matrix `[[5 * 2^-39, 1], [1, 1]]` has an inverse with entries of at most 2, but in double
precision the second equation, `x + y = 1`, is missed by more than `3e-5` by both methods, with and without
contraction. -/
theorem C106_pivot_violated :
    (∃ C : Fin 2 → Fin 2 → ℚ, (∀ i k, ∑ l, C i l * (![![5 / 2 ^ 39, 1], ![1, 1]] : Fin 2 → Fin 2 → ℚ) l k =
      if i = k then 1 else 0) ∧ ∀ i k, |C i k| ≤ 2) ∧
    ∀ (me : Method) (fused : Bool), ∃ X x y,
      linsolve (n := 2) (m := 1) (binary 53) fused me (1 / 10 ^ 12) ![![5 / 2 ^ 39, 1], ![1, 1]]
        ![![3], ![1]] none none = .ok (.solution X) ∧
      X 0 0 = some x ∧ X 1 0 = some y ∧ 3 / 10 ^ 5 < |x + y - 1| := by
  refine ⟨⟨![![-1 / (1 - 5 / 2 ^ 39), 1 / (1 - 5 / 2 ^ 39)], ![1 / (1 - 5 / 2 ^ 39),
    -(5 / 2 ^ 39) / (1 - 5 / 2 ^ 39)]], by decide +kernel, by decide +kernel⟩, ?_⟩
  intro me fused
  have h : ∃ p : ℚ × ℚ, shown (linsolve (n := 2) (m := 1) (binary 53) fused me (1 / 10 ^ 12)
      ![![5 / 2 ^ 39, 1], ![1, 1]] ![![3], ![1]] none none) 0 =
        some (List.ofFn fun i => some (![p.1, p.2] i), []) ∧ 3 / 10 ^ 5 < |p.1 + p.2 - 1| := by
    cases me <;> cases fused
    · exact ⟨(-2251854789266637 / 1125899906842624, 6755399441096705 / 2251799813685248),
        by decide +kernel, by decide +kernel⟩
    · exact ⟨(-549764202501 / 274877906944, 6755399441096705 / 2251799813685248),
        by decide +kernel, by decide +kernel⟩
    all_goals exact ⟨(-2251854789266637 / 1125899906842624, 6755399441096705 / 2251799813685248),
        by decide +kernel, by decide +kernel⟩
  obtain ⟨p, h1, h2⟩ := h
  obtain ⟨X, h3, h4⟩ := shown_solution (by norm_num) h1
  exact ⟨X, p.1, p.2, h3, h4 0, h4 1, h2⟩

end Verif.RSolve.Props
