import Verif.Proofs.SolveMinors
import Verif.Props.SolveApi
import Mathlib.LinearAlgebra.Matrix.Adjugate

set_option linter.unusedSectionVars false

/-! # Jordan elimination: the entries above the pivots as quotients of minors -/

namespace Verif.Solve

open Verif.Utils (DType store)

section
variable {n m : ℕ} {K : Type} [Field K] [LinearOrder K] [IsStrictOrderedRing K] [FloorRing K]

/-- The leading minor of order `k`. -/
def leading (A : Fin n → Fin n → K) (k : ℕ) : K :=
  (Matrix.of fun (x y : {c : Fin n // c.val < k}) => A x.val y.val).det

/-- The leading minor of order `k` with column `r` replaced by column `c`. -/
def replaced (A : Fin n → Fin n → K) (k : ℕ) (r c : Fin n) : K :=
  (Matrix.of fun (x y : {c : Fin n // c.val < k}) => A x.val (if y.val = r then c else y.val)).det

theorem leading_eq_freeMinor (A : Fin n → Fin n → K) (k : ℕ) :
    leading A k = freeMinor A (fun _ => false) k := by
  unfold leading freeMinor
  let e : {c : Fin n // c.val < k} ≃ Free (fun _ : Fin n => false) k :=
    { toFun := fun x => ⟨x.val, x.2, rfl⟩
      invFun := fun x => ⟨x.val, x.2.1⟩
      left_inv := fun x => rfl
      right_inv := fun x => rfl }
  rw [← Matrix.det_submatrix_equiv_self e]
  rfl

theorem step_columns (tol : K) (pv : Fin n → K)
    (S S' : Sys n m K) (i : Fin n) (h : step .jordan tol .float (fun _ => false) pv S i = .ok S') (l : ℕ)
    (hil : i.val < l) (γ : {c : Fin n // c.val < l} → Fin n) :
    (Matrix.of fun (x y : {c : Fin n // c.val < l}) => (S' x.val).1 (γ y)).det =
      (Matrix.of fun (x y : {c : Fin n // c.val < l}) => (S x.val).1 (γ y)).det := by
  classical
  rcases step_factors .jordan tol .float (fun _ => false) pv S S' i rfl h with ⟨-, -, h⟩ | ⟨-, h1, h2⟩
  · rw [h]
  · refine Matrix.det_eq_of_forall_row_eq_smul_add_const
      (fun x : {c : Fin n // c.val < l} => if Touched tol i ((S i).1 i) S x.val ∧
        (Method.jordan = .jordan ∨ i < x.val) then - ((S x.val).1 i / (S i).1 i) else 0)
      ⟨i, hil⟩ ?_ ?_
    · rw [if_neg]
      rintro ⟨⟨h, -⟩, -⟩
      exact h rfl
    · intro x y
      rw [Matrix.of_apply, Matrix.of_apply, Matrix.of_apply]
      by_cases hr : Touched tol i ((S i).1 i) S x.val ∧ (Method.jordan = .jordan ∨ i < x.val)
      · rw [if_pos hr, h1 _ hr]
        simp only [subRow, store]
        ring
      · rw [if_neg hr, h2 _ hr]; simp

theorem runTo_columns (tol : K) (pv : Fin n → K) (S : Sys n m K)
    (k : ℕ) (hkn : k ≤ n) (T : Sys n m K) (h : runTo .jordan tol .float (fun _ => false) pv k S = .ok T)
    (l : ℕ) (hkl : k ≤ l) (γ : {c : Fin n // c.val < l} → Fin n) :
    (Matrix.of fun (x y : {c : Fin n // c.val < l}) => (T x.val).1 (γ y)).det =
      (Matrix.of fun (x y : {c : Fin n // c.val < l}) => (S x.val).1 (γ y)).det := by
  induction k generalizing T with
  | zero =>
    rw [runTo_zero] at h
    simp only [Except.ok.injEq] at h
    rw [h]
  | succ k ih =>
    obtain ⟨U, hU, hs⟩ := runTo_pred (by omega) h
    rw [step_columns tol pv U T ⟨k, by omega⟩ hs l (by simp; omega) γ, ih (by omega) U hU (by omega)]

/-- Nothing is skipped above the pivots, in terms of the matrix alone. -/
def NoneNegligibleAbove (tol : K) (A : Fin n → Fin n → K) : Prop :=
  ∀ r i : Fin n, r < i → leading A (r.val + 1) ≠ 0 →
    replaced A i.val r i = 0 ∨
      tol * |leading A (i.val + 1) * leading A r.val| ≤ |leading A (r.val + 1) * replaced A i.val r i|

/-- A diagonal matrix with one column replaced. -/
theorem replaced_diagonal (T : Sys n m K) (k : ℕ)
    (hd : ∀ c : Fin n, c.val < k → ∀ r, r ≠ c → (T r).1 c = 0) (r c : Fin n) (hr : r.val < k) :
    (T r).1 r * replaced (fun r => (T r).1) k r c = leading (fun r => (T r).1) k * (T r).1 c := by
  classical
  have e1 : (Matrix.of fun (x y : {c : Fin n // c.val < k}) => (T x.val).1 y.val) =
      Matrix.diagonal fun x => (T x.val).1 x.val := by
    ext x y
    by_cases h : x = y
    · subst h; simp
    · rw [Matrix.diagonal_apply_ne _ h]
      exact hd y.val y.2 x.val fun h' => h (Subtype.ext h')
  have e2 : (Matrix.of fun (x y : {c : Fin n // c.val < k}) =>
      (T x.val).1 (if y.val = r then c else y.val)) =
      (Matrix.diagonal fun x : {c : Fin n // c.val < k} => (T x.val).1 x.val).updateCol ⟨r, hr⟩
        fun x => (T x.val).1 c := by
    ext x y
    rw [← e1, Matrix.updateCol_apply, Matrix.of_apply]
    by_cases h : y = ⟨r, hr⟩
    · subst h; simp
    · rw [if_neg fun h' => h (Subtype.ext h'), if_neg h]; rfl
  have := congrFun (Matrix.mulVec_cramer
    (Matrix.diagonal fun x : {c : Fin n // c.val < k} => (T x.val).1 x.val) fun x => (T x.val).1 c) ⟨r, hr⟩
  rw [Matrix.mulVec_diagonal, Matrix.cramer_apply, ← e2, ← e1, Pi.smul_apply, smul_eq_mul] at this
  exact this

/-- The intrinsic conditions imply that Jordan's elimination skips nothing. -/
theorem nothingSkipped_of_minors (tol : K) (ht : 0 < tol) (S : Sys n m K)
    (hA : NoneNegligible tol (fun _ => false) fun r => (S r).1)
    (hB : NoneNegligibleAbove tol fun r => (S r).1) : SolveApi.Props.NothingSkipped .jordan tol S := by
  classical
  -- the entries of a state which is diagonal in its first columns
  have main : ∀ k, k ≤ n → ∀ T, runTo .jordan tol .float (fun _ => false) (fun _ => 0) k S = .ok T →
      (∀ c : Fin n, c.val < k → ∀ r, r ≠ c → (T r).1 c = 0) ∧
      (∀ r : Fin n, r.val < k → (T r).1 r * leading (fun r => (S r).1) r.val =
        leading (fun r => (S r).1) (r.val + 1) ∧ (T r).1 r ≠ 0) ∧
      ∀ i : Fin n, i.val = k → ∀ r, r ≠ i → (T r).1 i = 0 ∨ tol * |(T i).1 i| ≤ |(T r).1 i| := by
    intro k
    induction k with
    | zero =>
      intro hk T hT
      refine ⟨fun c hc => by omega, fun r hr => by omega, fun i hi r hr => ?_⟩
      have hir : i < r := by
        rcases lt_or_gt_of_ne hr with h | h
        · exact absurd (show r.val < i.val from h) (by omega)
        · exact h
      exact clean_of_noneNegligible .jordan tol ht (fun _ => false) (fun _ => 0) S hA i T
        (by rw [hi]; exact hT) rfl (.inl rfl) r hir
    | succ k ih =>
      intro hk T hT
      obtain ⟨U, hU, hs⟩ := runTo_pred (by omega) hT
      obtain ⟨hz, hd, hc⟩ := ih (by omega) U hU
      obtain ⟨-, -, hm, hq⟩ := runTo_quotients .jordan tol ht (fun _ => false) (fun _ => 0) S hA k (by omega)
        (.inl rfl) U hU
      have hpiv := hq ⟨k, by omega⟩ ⟨k, by omega⟩ le_rfl rfl
      rw [← (freeMinor_succ (fun r => (S r).1) (fun _ => false) ⟨k, by omega⟩).1 rfl] at hpiv
      simp only [← leading_eq_freeMinor] at hpiv hm
      rcases step_factors .jordan tol .float _ _ U T _ rfl hs with ⟨h, -⟩ | ⟨hp, h1, h2⟩
      · cases h
      · have hpos : 0 < |(U ⟨k, by omega⟩).1 ⟨k, by omega⟩| := lt_of_lt_of_le ht hp
        have hne : (U ⟨k, by omega⟩).1 ⟨k, by omega⟩ ≠ 0 := abs_pos.1 hpos
        -- earlier columns stay as they are
        have hold : ∀ (c : Fin n), c.val < k → ∀ r, (T r).1 c = (U r).1 c := by
          intro c hck r
          by_cases hr : Touched tol ⟨k, by omega⟩ ((U ⟨k, by omega⟩).1 ⟨k, by omega⟩) U r ∧
              (Method.jordan = .jordan ∨ (⟨k, by omega⟩ : Fin n) < r)
          · rw [h1 r hr]
            simp only [subRow, store]
            rw [hz c hck ⟨k, by omega⟩ (fun h => by rw [← h] at hck; simp at hck), mul_zero, sub_zero]
          · rw [h2 r hr]
        have hpivrow : (T ⟨k, by omega⟩) = U ⟨k, by omega⟩ := by
          apply h2
          rintro ⟨⟨h, -⟩, -⟩
          exact h rfl
        have hz' : ∀ c : Fin n, c.val < k + 1 → ∀ r, r ≠ c → (T r).1 c = 0 := by
          intro c hc' r hrc
          by_cases hck : c.val < k
          · rw [hold c hck r]
            exact hz c hck r hrc
          · obtain ⟨kc, hkc⟩ := c
            have hck' : k = kc := by simp only at hc' hck; omega
            subst hck'
            by_cases hr : Touched tol ⟨k, by omega⟩ ((U ⟨k, by omega⟩).1 ⟨k, by omega⟩) U r ∧
                (Method.jordan = .jordan ∨ (⟨k, by omega⟩ : Fin n) < r)
            · rw [h1 r hr]
              simp only [subRow, store]
              rw [div_mul_cancel₀ _ hne, sub_self]
            · rw [h2 r hr]
              rcases hc ⟨k, by omega⟩ rfl r hrc with h | h
              · exact h
              · exfalso
                apply hr
                refine ⟨⟨hrc, ?_⟩, Or.inl rfl⟩
                rw [abs_div, le_div_iff₀ hpos]
                exact h
        have hd' : ∀ r : Fin n, r.val < k + 1 → (T r).1 r * leading (fun r => (S r).1) r.val =
            leading (fun r => (S r).1) (r.val + 1) ∧ (T r).1 r ≠ 0 := by
          intro r hr
          by_cases hrk : r.val < k
          · rw [hold r hrk r]
            exact hd r hrk
          · obtain ⟨kr, hkr⟩ := r
            have : k = kr := by simp only at hr hrk; omega
            subst this
            rw [hpivrow]
            exact ⟨by rw [hpiv, mul_comm], hne⟩
        refine ⟨hz', hd', fun i hi r hr => ?_⟩
        rcases lt_or_gt_of_ne hr with hlt | hgt
        · -- above the pivot
          have hT' : runTo .jordan tol .float (fun _ => false) (fun _ => 0) i.val S = .ok T := by
            rw [hi]; exact hT
          obtain ⟨-, -, hm', hq'⟩ := runTo_quotients .jordan tol ht (fun _ => false) (fun _ => 0) S hA i.val
            (by omega) (.inl rfl) T hT'
          have hpiv' := hq' i i le_rfl rfl
          rw [← (freeMinor_succ (fun r => (S r).1) (fun _ => false) i).1 rfl] at hpiv'
          simp only [← leading_eq_freeMinor] at hpiv' hm'
          have hrk : r.val < k + 1 := by
            have : r.val < i.val := hlt
            omega
          obtain ⟨e1, e2⟩ := hd' r hrk
          have e3 := replaced_diagonal T i.val (by rw [hi]; exact hz') r i hlt
          have c1 : leading (fun r => (T r).1) i.val = leading (fun r => (S r).1) i.val :=
            runTo_columns tol _ S i.val i.isLt.le T hT' i.val le_rfl fun y => y.val
          have c2 : replaced (fun r => (T r).1) i.val r i = replaced (fun r => (S r).1) i.val r i :=
            runTo_columns tol _ S i.val i.isLt.le T hT' i.val le_rfl
              fun y => if y.val = r then i else y.val
          rw [c1, c2] at e3
          have hl0 : leading (fun r => (S r).1) r.val ≠ 0 ∧ leading (fun r => (S r).1) (r.val + 1) ≠ 0 := by
            have key : ∀ j, j ≤ k + 1 → leading (fun r => (S r).1) j ≠ 0 := by
              intro j
              induction j with
              | zero =>
                intro _
                unfold leading
                haveI : IsEmpty {c : Fin n // c.val < 0} := ⟨fun x => absurd x.2 (by omega)⟩
                rw [Matrix.det_isEmpty]
                exact one_ne_zero
              | succ j ihj =>
                intro hj
                obtain ⟨a1, a2⟩ := hd' ⟨j, by omega⟩ (by simp only; omega)
                rw [← a1]
                exact mul_ne_zero a2 (ihj (by omega))
            exact ⟨key _ (by omega), key _ (by omega)⟩
          rcases hB r i hlt hl0.2 with h0 | h0
          · left
            rw [h0, mul_zero] at e3
            exact (mul_eq_zero.1 e3.symm).resolve_left hm'
          · right
            have hp1 : 0 < |leading (fun r => (S r).1) i.val| := abs_pos.2 hm'
            have hp2 : 0 < |leading (fun r => (S r).1) r.val| := abs_pos.2 hl0.1
            refine le_of_mul_le_mul_right (a := |leading (fun r => (S r).1) i.val| *
              |leading (fun r => (S r).1) r.val|) ?_ (mul_pos hp1 hp2)
            rw [hpiv', ← e1] at h0
            calc tol * |(T i).1 i| * (|leading (fun r => (S r).1) i.val| *
                  |leading (fun r => (S r).1) r.val|)
                = tol * |leading (fun r => (S r).1) i.val * (T i).1 i *
                  leading (fun r => (S r).1) r.val| := by rw [abs_mul, abs_mul]; ring
              _ ≤ |(T r).1 r * leading (fun r => (S r).1) r.val *
                  replaced (fun r => (S r).1) i.val r i| := h0
              _ = |(T r).1 i| * (|leading (fun r => (S r).1) i.val| *
                  |leading (fun r => (S r).1) r.val|) := by
                rw [mul_right_comm, e3, abs_mul, abs_mul]; ring
        · exact clean_of_noneNegligible .jordan tol ht (fun _ => false) (fun _ => 0) S hA i T
            (by rw [hi]; exact hT) rfl (.inl rfl) r hgt
  intro i T hT r hr
  exact (main i.val i.isLt.le T hT).2.2 i rfl r hr

end

end Verif.Solve
