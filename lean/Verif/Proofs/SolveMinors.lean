import Verif.Proofs.Solve
import Mathlib.LinearAlgebra.Matrix.SchurComplement

set_option linter.unusedSectionVars false

/-! # Elimination with prescribed unknowns: entries as quotients of minors -/

namespace Verif.Solve

open Verif.Utils (DType store)

section
variable {n m : ℕ} {K : Type} [Field K] [LinearOrder K] [IsStrictOrderedRing K] [FloorRing K]

/-- The unknowns before `k` that are not prescribed. -/
abbrev Free (pb : Fin n → Bool) (k : ℕ) := {c : Fin n // c.val < k ∧ pb c = false}

/-- The determinant of the rows `Free k` and `r` and the columns `Free k` and `c`. -/
def bordered (A : Fin n → Fin n → K) (pb : Fin n → Bool) (k : ℕ) (r c : Fin n) : K :=
  (Matrix.of fun (x y : Free pb k ⊕ Unit) =>
    A (x.elim Subtype.val fun _ => r) (y.elim Subtype.val fun _ => c)).det

/-- The determinant of the rows and columns `Free k`. -/
def freeMinor (A : Fin n → Fin n → K) (pb : Fin n → Bool) (k : ℕ) : K :=
  (Matrix.of fun (x y : Free pb k) => A x.val y.val).det

theorem step_bordered (me : Method) (tol : K) (pb : Fin n → Bool) (pv : Fin n → K)
    (S S' : Sys n m K) (i : Fin n) (h : step me tol .float pb pv S i = .ok S') (l : ℕ)
    (hil : i.val < l) (r c : Fin n) (hc : pb c = false) :
    bordered (fun r => (S' r).1) pb l r c = bordered (fun r => (S r).1) pb l r c := by
  classical
  cases hpb : pb i with
  | true =>
    rw [step_presc me tol .float pb pv S i hpb] at h
    simp only [Except.ok.injEq] at h
    unfold bordered
    congr 1
    ext x y
    simp only [Matrix.of_apply]
    rw [← h, prescStep_apply]
    split
    · have hy : (y.elim Subtype.val fun _ => c : Fin n) ≠ i := by
        rcases y with y | y
        · intro e
          have := y.2.2
          rw [show y.val = i from e, hpb] at this
          cases this
        · intro e
          rw [show c = i from e, hpb] at hc
          cases hc
      simp [prescRow, Function.update_of_ne hy]
    · rfl
  | false =>
    rcases step_factors me tol .float pb pv S S' i hpb h with ⟨-, -, h⟩ | ⟨-, h1, h2⟩
    · rw [h]
    · unfold bordered
      let row : Free pb l ⊕ Unit → Fin n := fun x => x.elim Subtype.val fun _ => r
      refine Matrix.det_eq_of_forall_row_eq_smul_add_const
        (fun x : Free pb l ⊕ Unit => if Touched tol i ((S i).1 i) S (row x) ∧
          (me = .jordan ∨ i < row x) then - ((S (row x)).1 i / (S i).1 i) else 0)
        (Sum.inl ⟨i, hil, hpb⟩) ?_ ?_
      · rw [if_neg]
        rintro ⟨⟨h, -⟩, -⟩
        exact h rfl
      · intro x y
        simp only [Matrix.of_apply]
        show (S' (row x)).1 _ = (S (row x)).1 _ + _ * (S i).1 _
        by_cases hr : Touched tol i ((S i).1 i) S (row x) ∧ (me = .jordan ∨ i < row x)
        · rw [if_pos hr, h1 _ hr]
          simp only [subRow, store]
          ring
        · rw [if_neg hr, h2 _ hr]; simp

theorem step_freeMinor (me : Method) (tol : K) (pb : Fin n → Bool) (pv : Fin n → K)
    (S S' : Sys n m K) (i : Fin n) (h : step me tol .float pb pv S i = .ok S') (l : ℕ)
    (hil : i.val < l) :
    freeMinor (fun r => (S' r).1) pb l = freeMinor (fun r => (S r).1) pb l := by
  classical
  cases hpb : pb i with
  | true =>
    rw [step_presc me tol .float pb pv S i hpb] at h
    simp only [Except.ok.injEq] at h
    unfold freeMinor
    congr 1
    ext x y
    simp only [Matrix.of_apply]
    rw [← h, prescStep_apply]
    split
    · have hy : y.val ≠ i := by
        intro e
        have := y.2.2
        rw [e, hpb] at this
        cases this
      simp [prescRow, Function.update_of_ne hy]
    · rfl
  | false =>
    rcases step_factors me tol .float pb pv S S' i hpb h with ⟨-, -, h⟩ | ⟨-, h1, h2⟩
    · rw [h]
    · unfold freeMinor
      refine Matrix.det_eq_of_forall_row_eq_smul_add_const
        (fun x : Free pb l => if Touched tol i ((S i).1 i) S x.val ∧
          (me = .jordan ∨ i < x.val) then - ((S x.val).1 i / (S i).1 i) else 0)
        ⟨i, hil, hpb⟩ ?_ ?_
      · rw [if_neg]
        rintro ⟨⟨h, -⟩, -⟩
        exact h rfl
      · intro x y
        simp only [Matrix.of_apply]
        by_cases hr : Touched tol i ((S i).1 i) S x.val ∧ (me = .jordan ∨ i < x.val)
        · rw [if_pos hr, h1 _ hr]
          simp only [subRow, store]
          ring
        · rw [if_neg hr, h2 _ hr]; simp

theorem runTo_bordered (me : Method) (tol : K) (pb : Fin n → Bool) (pv : Fin n → K) (S : Sys n m K)
    (k : ℕ) (hkn : k ≤ n) (T : Sys n m K) (h : runTo me tol .float pb pv k S = .ok T) (l : ℕ)
    (hkl : k ≤ l) :
    (∀ r c, pb c = false →
      bordered (fun r => (T r).1) pb l r c = bordered (fun r => (S r).1) pb l r c) ∧
    freeMinor (fun r => (T r).1) pb l = freeMinor (fun r => (S r).1) pb l := by
  induction k generalizing T with
  | zero =>
    rw [runTo_zero] at h
    simp only [Except.ok.injEq] at h
    rw [h]
    exact ⟨fun _ _ _ => rfl, rfl⟩
  | succ k ih =>
    obtain ⟨U, hU, hs⟩ := runTo_pred (by omega) h
    obtain ⟨h1, h2⟩ := ih (by omega) U hU (by omega)
    refine ⟨fun r c hc => ?_, ?_⟩
    · rw [step_bordered me tol pb pv U T ⟨k, by omega⟩ hs l (by simp; omega) r c hc, h1 r c hc]
    · rw [step_freeMinor me tol pb pv U T ⟨k, by omega⟩ hs l (by simp; omega), h2]

/-- In a system cleared before `k` the bordered determinant is the entry times the minor. -/
theorem bordered_cleared (pb : Fin n → Bool) (k : ℕ) (T : Sys n m K) (h : Cleared pb k T) (r c : Fin n)
    (hr : k ≤ r.val) :
    bordered (fun r => (T r).1) pb k r c = freeMinor (fun r => (T r).1) pb k * (T r).1 c := by
  unfold bordered freeMinor
  have e : (Matrix.of fun (x y : Free pb k ⊕ Unit) =>
      (T (x.elim Subtype.val fun _ => r)).1 (y.elim Subtype.val fun _ => c)) =
      Matrix.fromBlocks (Matrix.of fun (x y : Free pb k) => (T x.val).1 y.val)
        (Matrix.of fun (x : Free pb k) (_ : Unit) => (T x.val).1 c) 0
        (Matrix.of fun (_ _ : Unit) => (T r).1 c) := by
    ext x y
    rcases x with x | x <;> rcases y with y | y
    · rfl
    · rfl
    · simp only [Matrix.of_apply, Matrix.fromBlocks_apply₂₁, Matrix.zero_apply]
      exact (h y.val y.2.1).1 r (show y.val.val < r.val from lt_of_lt_of_le y.2.1 hr)
    · rfl
  rw [e, Matrix.det_fromBlocks_zero₂₁]
  simp

theorem freeMinor_cleared (pb : Fin n → Bool) (k : ℕ) (T : Sys n m K) (h : Cleared pb k T) :
    freeMinor (fun r => (T r).1) pb k = ∏ x : Free pb k, (T x.val).1 x.val := by
  unfold freeMinor
  rw [Matrix.det_of_upperTriangular]
  · rfl
  · intro x y hxy
    exact (h y.val y.2.1).1 x.val hxy

/-- The pivots met so far are not zero. -/
def Regular (pb : Fin n → Bool) (k : ℕ) (T : Sys n m K) : Prop :=
  ∀ i : Fin n, i.val < k → pb i = false → (T i).1 i ≠ 0

theorem step_regular (me : Method) (tol : K) (ht : 0 < tol) (pb : Fin n → Bool) (pv : Fin n → K)
    (U T : Sys n m K) (i : Fin n) (hs : step me tol .float pb pv U i = .ok T)
    (hi : me = .jordan ∨ i.val < n - 1) (hc : Cleared pb i.val U) (h : Regular pb i.val U) :
    Regular pb (i.val + 1) T := by
  intro j hj hpb
  cases hpk : pb i with
  | true =>
    rw [step_presc _ _ _ _ _ _ _ hpk] at hs
    simp only [Except.ok.injEq] at hs
    have hik : j ≠ i := by intro h; rw [← h, hpb] at hpk; cases hpk
    have hlt : j.val < i.val := by
      have : j.val ≠ i.val := fun h => hik (Fin.ext h)
      omega
    rw [← hs, prescStep_apply]
    split
    · simp only [prescRow, Function.update_of_ne hik]
      exact h j hlt hpb
    · exact h j hlt hpb
  | false =>
    rcases step_factors me tol .float pb pv U T i hpk hs with ⟨h1, h2, -⟩ | ⟨hp, h1, h2⟩
    · rcases hi with hi | hi
      · rw [hi] at h1; cases h1
      · exact absurd hi h2
    · by_cases hik : j = i
      · rw [h2 j (by rintro ⟨⟨h, -⟩, -⟩; exact h hik), hik]
        intro h0
        rw [h0, abs_zero] at hp
        exact absurd hp (not_le.2 ht)
      · have hlt : j.val < i.val := by
          have : j.val ≠ i.val := fun h => hik (Fin.ext h)
          omega
        by_cases hr : Touched tol i ((U i).1 i) U j ∧ (me = .jordan ∨ i < j)
        · rw [h1 j hr]
          simp only [subRow, store]
          rw [(hc j hlt).1 i hlt, mul_zero, sub_zero]
          exact h j hlt hpb
        · rw [h2 j hr]
          exact h j hlt hpb

/-- Nothing is skipped, in terms of the matrix alone. -/
def NoneNegligible (tol : K) (pb : Fin n → Bool) (A : Fin n → Fin n → K) : Prop :=
  ∀ i r : Fin n, pb i = false → i < r →
    bordered A pb i.val r i = 0 ∨ tol * |bordered A pb i.val i i| ≤ |bordered A pb i.val r i|

/-- Along the run the state is cleared and regular, and its entries are quotients of minors. -/
theorem runTo_quotients (me : Method) (tol : K) (ht : 0 < tol) (pb : Fin n → Bool) (pv : Fin n → K)
    (S : Sys n m K) (hA : NoneNegligible tol pb fun r => (S r).1) (k : ℕ) (hk : k ≤ n)
    (hk' : me = .jordan ∨ k ≤ n - 1) (T : Sys n m K) (h : runTo me tol .float pb pv k S = .ok T) :
    Cleared pb k T ∧ Regular pb k T ∧ freeMinor (fun r => (S r).1) pb k ≠ 0 ∧
      ∀ r c : Fin n, k ≤ r.val → pb c = false →
        bordered (fun r => (S r).1) pb k r c = freeMinor (fun r => (S r).1) pb k * (T r).1 c := by
  have quot : ∀ (k : ℕ) (_ : k ≤ n) (T : Sys n m K), runTo me tol .float pb pv k S = .ok T →
      Cleared pb k T → Regular pb k T → freeMinor (fun r => (S r).1) pb k ≠ 0 ∧
      ∀ r c : Fin n, k ≤ r.val → pb c = false →
        bordered (fun r => (S r).1) pb k r c = freeMinor (fun r => (S r).1) pb k * (T r).1 c := by
    intro k hk T h hc hr
    obtain ⟨b1, b2⟩ := runTo_bordered me tol pb pv S k hk T h k le_rfl
    refine ⟨?_, fun r c hr' hc' => ?_⟩
    · rw [← b2, freeMinor_cleared pb k T hc]
      exact Finset.prod_ne_zero_iff.2 fun x _ => hr x.val x.2.1 x.2.2
    · rw [← b1 r c hc', ← b2, bordered_cleared pb k T hc r c hr']
  have main : Cleared pb k T ∧ Regular pb k T := by
    induction k generalizing T with
    | zero => exact ⟨fun c hc => by omega, fun i hi => by omega⟩
    | succ k ih =>
      have hk1 : me = .jordan ∨ k < n - 1 := by
        rcases hk' with h | h
        · exact .inl h
        · exact .inr (by omega)
      obtain ⟨U, hU, hs⟩ := runTo_pred (by omega) h
      obtain ⟨hc, hr⟩ := ih (by omega) (hk1.imp_right fun h => by omega) U hU
      obtain ⟨hm, hq⟩ := quot k (by omega) U hU hc hr
      have hcl : pb ⟨k, by omega⟩ = false → CleanAt tol (⟨k, by omega⟩ : Fin n) U := by
        intro hp r hlt
        have := hA ⟨k, by omega⟩ r hp hlt
        simp only at this
        rw [hq r ⟨k, by omega⟩ (le_of_lt hlt) hp, hq ⟨k, by omega⟩ ⟨k, by omega⟩ le_rfl hp] at this
        rcases this with h0 | h0
        · exact .inl ((mul_eq_zero.1 h0).resolve_left hm)
        · right
          rw [abs_mul, abs_mul, mul_left_comm] at h0
          exact le_of_mul_le_mul_left h0 (abs_pos.2 hm)
      exact ⟨step_cleared me tol ht pb pv U T ⟨k, by omega⟩ hs (fun h1 _ => hcl h1) hc,
        step_regular me tol ht pb pv U T ⟨k, by omega⟩ hs hk1 hc hr⟩
  exact ⟨main.1, main.2, quot k hk T h main.1 main.2⟩

/-- The intrinsic condition implies that nothing is skipped during the run. -/
theorem clean_of_noneNegligible (me : Method) (tol : K) (ht : 0 < tol) (pb : Fin n → Bool)
    (pv : Fin n → K) (S : Sys n m K) (hA : NoneNegligible tol pb fun r => (S r).1) :
    Clean me tol pb pv S := by
  intro i T hT hp hi r hr
  obtain ⟨-, -, hm, hq⟩ := runTo_quotients me tol ht pb pv S hA i.val i.isLt.le
    (hi.imp_right fun h => by omega) T hT
  have := hA i r hp hr
  rw [hq r i (le_of_lt hr) hp, hq i i le_rfl hp] at this
  rcases this with h0 | h0
  · exact .inl ((mul_eq_zero.1 h0).resolve_left hm)
  · right
    rw [abs_mul, abs_mul, mul_left_comm] at h0
    exact le_of_mul_le_mul_left h0 (abs_pos.2 hm)

/-- The bordered minor at `i` is the minor up to `i`. -/
theorem freeMinor_succ (A : Fin n → Fin n → K) (pb : Fin n → Bool) (i : Fin n) :
    (pb i = false → freeMinor A pb (i.val + 1) = bordered A pb i.val i i) ∧
    (pb i = true → freeMinor A pb (i.val + 1) = freeMinor A pb i.val) := by
  constructor
  · intro hp
    let e : Free pb i.val ⊕ Unit ≃ Free pb (i.val + 1) :=
      { toFun := fun x => x.elim (fun y => ⟨y.val, by omega, y.2.2⟩) fun _ => ⟨i, by omega, hp⟩
        invFun := fun x => if h : x.val.val < i.val then .inl ⟨x.val, h, x.2.2⟩ else .inr ()
        left_inv := by
          rintro (x | x)
          · simp [x.2.1]
          · simp
        right_inv := by
          intro x
          by_cases h : x.val.val < i.val
          · simp [h]
          · have : x.val = i := Fin.ext (by have := x.2.1; omega)
            simp only [h, dif_neg, not_false_eq_true]
            exact Subtype.ext this.symm }
    unfold freeMinor bordered
    rw [← Matrix.det_submatrix_equiv_self e]
    congr 1
    ext x y
    rcases x with x | x <;> rcases y with y | y <;> rfl
  · intro hp
    let e : Free pb i.val ≃ Free pb (i.val + 1) :=
      { toFun := fun y => ⟨y.val, by omega, y.2.2⟩
        invFun := fun x => ⟨x.val, by
          have h1 := x.2.1
          have : x.val.val ≠ i.val := by
            intro h
            have h2 := x.2.2
            rw [Fin.ext h, hp] at h2
            cases h2
          omega, x.2.2⟩
        left_inv := fun x => rfl
        right_inv := fun x => rfl }
    unfold freeMinor
    rw [← Matrix.det_submatrix_equiv_self e]
    rfl

/-- When the run gets through. -/
theorem runTo_ok_iff_free (me : Method) (tol : K) (ht : 0 < tol) (pb : Fin n → Bool) (pv : Fin n → K)
    (S : Sys n m K) (hA : NoneNegligible tol pb fun r => (S r).1) (k : ℕ) (hk : k ≤ n)
    (hk' : me = .jordan ∨ k ≤ n - 1) :
    (∃ T, runTo me tol .float pb pv k S = .ok T) ↔
      ∀ i : Fin n, i.val < k → pb i = false → tol * |freeMinor (fun r => (S r).1) pb i.val| ≤
        |freeMinor (fun r => (S r).1) pb (i.val + 1)| := by
  induction k with
  | zero => exact ⟨fun _ i hi => by omega, fun _ => ⟨S, rfl⟩⟩
  | succ k ih =>
    have hk0 : k < n := by omega
    have hk1 : me = .jordan ∨ k < n - 1 := by
      rcases hk' with h | h
      · exact .inl h
      · exact .inr (by omega)
    have ih := ih (by omega) (hk1.imp_right fun h => by omega)
    have hstep : ∀ T, runTo me tol .float pb pv k S = .ok T →
        ((∃ T', step me tol .float pb pv T ⟨k, hk0⟩ = .ok T') ↔
          (pb ⟨k, hk0⟩ = false → tol * |freeMinor (fun r => (S r).1) pb k| ≤
            |freeMinor (fun r => (S r).1) pb (k + 1)|)) := by
      intro T hT
      cases hp : pb ⟨k, hk0⟩ with
      | true =>
        rw [step_presc me tol .float pb pv T ⟨k, hk0⟩ hp]
        simp
      | false =>
        obtain ⟨-, -, hm, hq⟩ := runTo_quotients me tol ht pb pv S hA k hk0.le
          (hk1.imp_right fun h => by omega) T hT
        have e : tol * |freeMinor (fun r => (S r).1) pb k| ≤ |freeMinor (fun r => (S r).1) pb (k + 1)| ↔
            tol ≤ |(T ⟨k, hk0⟩).1 ⟨k, hk0⟩| := by
          rw [show freeMinor (fun r => (S r).1) pb (k + 1) = bordered (fun r => (S r).1) pb k ⟨k, hk0⟩ ⟨k, hk0⟩
            from (freeMinor_succ (fun r => (S r).1) pb ⟨k, hk0⟩).1 hp, hq ⟨k, hk0⟩ ⟨k, hk0⟩ le_rfl hp,
            abs_mul, mul_comm tol]
          exact mul_le_mul_iff_right₀ (abs_pos.2 hm)
        rw [e]
        simp only [forall_const]
        rw [← not_lt]
        cases me with
        | jordan =>
          simp only [step, jordanStep, hp, Bool.false_eq_true, if_false]
          by_cases hp' : |(T ⟨k, hk0⟩).1 ⟨k, hk0⟩| < tol
          · simp [hp']
          · simp [hp']
        | gaussJordan =>
          have hlt' : k < n - 1 := hk1.resolve_left (by simp)
          simp only [step, gaussStep, hp, Bool.false_eq_true, if_false, hlt', if_true]
          by_cases hp' : |(T ⟨k, hk0⟩).1 ⟨k, hk0⟩| < tol
          · simp [hp']
          · simp [hp']
    constructor
    · rintro ⟨T', hT'⟩ i hi hp
      obtain ⟨T, hT, hs⟩ := runTo_pred hk0 hT'
      rcases Nat.lt_succ_iff_lt_or_eq.1 hi with h | h
      · exact ih.1 ⟨T, hT⟩ i h hp
      · have : i = ⟨k, hk0⟩ := Fin.ext h
        subst this
        exact (hstep T hT).1 ⟨T', hs⟩ hp
    · intro hall
      obtain ⟨T, hT⟩ := ih.2 fun i hi => hall i (by omega)
      obtain ⟨T', hs⟩ := (hstep T hT).2 (hall ⟨k, hk0⟩ (by simp))
      exact ⟨T', by rw [runTo_succ me tol .float _ pv k hk0, hT]; exact hs⟩

end

end Verif.Solve
