import Verif.Model.Solve
import Mathlib.Algebra.BigOperators.Fin
import Mathlib.Algebra.BigOperators.Ring.Finset
import Mathlib.LinearAlgebra.Matrix.Determinant.Basic
import Mathlib.LinearAlgebra.Matrix.Block
import Mathlib.Algebra.Order.Field.Basic
import Mathlib.Tactic.Linarith
import Mathlib.Tactic.LinearCombination
import Mathlib.Tactic.FieldSimp

set_option linter.unusedSectionVars false

/-! # Helper lemmas about `Model/Solve.lean` -/

namespace Verif.Solve

open Verif.Utils (DType store)

section
variable {n m : ℕ} {K : Type} [Field K] [LinearOrder K] [IsStrictOrderedRing K] [FloorRing K]

/-! ### The row loops -/

theorem fold_update_self (g : Row n m K → Row n m K) (l : List (Fin n)) (hl : l.Nodup)
    (S : Sys n m K) (r : Fin n) :
    (l.foldl (fun S r => Function.update S r (g (S r))) S) r = if r ∈ l then g (S r) else S r := by
  induction l generalizing S with
  | nil => simp
  | cons a t ih =>
    rw [List.nodup_cons] at hl
    rw [List.foldl_cons, ih hl.2]
    by_cases hra : r = a
    · subst hra
      simp [hl.1]
    · simp [hra]

theorem prescStep_apply (i : Fin n) (v : K) (S : Sys n m K) (r : Fin n) :
    prescStep i v S r = if i ≤ r then prescRow i v (S r) else S r := by
  unfold prescStep
  rw [fold_update_self _ _ ((List.nodup_finRange n).filter _)]
  simp

/-- Whether a row is changed by the elimination. -/
def Touched (tol : K) (i : Fin n) (pivot : K) (S : Sys n m K) (r : Fin n) : Prop :=
  r ≠ i ∧ tol ≤ |(S r).1 i / pivot|

theorem fold_elim (tol : K) (d : DType) (i : Fin n) (pivot : K) (l : List (Fin n)) (hl : l.Nodup)
    (S : Sys n m K) (r : Fin n) :
    (r ∈ l ∧ Touched tol i pivot S r →
      (l.foldl (elimRow tol d i pivot) S) r = subRow d ((S r).1 i / pivot) (S i) (S r)) ∧
    (¬ (r ∈ l ∧ Touched tol i pivot S r) → (l.foldl (elimRow tol d i pivot) S) r = S r) := by
  induction l generalizing S with
  | nil => simp
  | cons a t ih =>
    rw [List.nodup_cons] at hl
    rw [List.foldl_cons]
    have hi : elimRow tol d i pivot S a i = S i := by
      unfold elimRow
      split
      · rfl
      · rename_i h
        rw [Function.update_of_ne]
        intro h'; exact h (Or.inl h'.symm)
    by_cases hra : r = a
    · subst hra
      have h1 := (ih hl.2 (elimRow tol d i pivot S r)).2 (by simp [hl.1])
      rw [h1]
      unfold elimRow Touched
      constructor
      · rintro ⟨-, hne, ht⟩
        rw [if_neg (by push Not; exact ⟨hne, ht⟩)]
        simp
      · intro h
        rw [if_pos]
        by_contra hc
        push Not at hc
        exact h ⟨by simp, hc⟩
    · have hr : elimRow tol d i pivot S a r = S r := by
        unfold elimRow
        split
        · rfl
        · rw [Function.update_of_ne hra]
      have := ih hl.2 (elimRow tol d i pivot S a)
      unfold Touched at this ⊢
      rw [hi, hr] at this
      simpa [hra] using this

/-! ### Defects: how far a point is from fulfilling the equations -/

/-- `(A x - B)` in row `r` for right hand side `j`. -/
def defect (S : Sys n m K) (x : Fin n → K) (j : Fin m) (r : Fin n) : K :=
  ∑ c, (S r).1 c * x c - (S r).2 j

theorem defect_prescRow (i : Fin n) (v : K) (S : Sys n m K) (x : Fin n → K) (hx : x i = v)
    (j : Fin m) (r : Fin n) : defect (prescStep i v S) x j r = defect S x j r := by
  unfold defect
  rw [prescStep_apply]
  split
  · unfold prescRow
    simp only
    have : ∀ c, Function.update (S r).1 i 0 c * x c =
        (S r).1 c * x c - (if c = i then (S r).1 i * x i else 0) := by
      intro c
      by_cases h : c = i
      · subst h; simp
      · simp [h]
    simp only [this, Finset.sum_sub_distrib, Finset.sum_ite_eq', Finset.mem_univ, if_true, hx]
    ring
  · rfl

theorem defect_subRow (f : K) (S : Sys n m K) (S' : Sys n m K) (i r : Fin n)
    (h : S' r = subRow .float f (S i) (S r)) (x : Fin n → K) (j : Fin m) :
    defect S' x j r = defect S x j r - f * defect S x j i := by
  unfold defect
  rw [h]
  unfold subRow
  simp only [store, sub_mul, Finset.sum_sub_distrib, mul_sub, Finset.mul_sum, mul_assoc]
  ring

/-- What one elimination step does, in terms of factors. -/
theorem step_factors (me : Method) (tol : K) (d : DType) (pb : Fin n → Bool) (pv : Fin n → K)
    (S S' : Sys n m K) (i : Fin n) (hpb : pb i = false)
    (h : step me tol d pb pv S i = .ok S') :
    (me = .gaussJordan ∧ ¬ i.val < n - 1 ∧ S' = S) ∨
    (tol ≤ |(S i).1 i| ∧
      (∀ r, (Touched tol i ((S i).1 i) S r ∧ (me = .jordan ∨ i < r)) →
        S' r = subRow d ((S r).1 i / (S i).1 i) (S i) (S r)) ∧
      (∀ r, ¬ (Touched tol i ((S i).1 i) S r ∧ (me = .jordan ∨ i < r)) → S' r = S r)) := by
  cases me with
  | jordan =>
    simp only [step, jordanStep, hpb, Bool.false_eq_true, if_false] at h
    by_cases hp : |(S i).1 i| < tol
    · rw [if_pos hp] at h; cases h
    · rw [if_neg hp] at h
      simp only [Except.ok.injEq] at h
      subst h
      refine Or.inr ⟨not_lt.1 hp, fun r hr => ?_, fun r hr => ?_⟩
      · exact (fold_elim tol d i _ _ (List.nodup_finRange n) S r).1 ⟨by simp, hr.1⟩
      · refine (fold_elim tol d i _ _ (List.nodup_finRange n) S r).2 ?_
        rintro ⟨-, h⟩; exact hr ⟨h, Or.inl rfl⟩
  | gaussJordan =>
    simp only [step, gaussStep, hpb, Bool.false_eq_true, if_false] at h
    by_cases hi : i.val < n - 1
    · rw [if_pos hi] at h
      by_cases hp : |(S i).1 i| < tol
      · rw [if_pos hp] at h; cases h
      · rw [if_neg hp] at h
        simp only [Except.ok.injEq] at h
        subst h
        refine Or.inr ⟨not_lt.1 hp, fun r hr => ?_, fun r hr => ?_⟩
        · refine (fold_elim tol d i _ _ ((List.nodup_finRange n).filter _) S r).1 ⟨?_, hr.1⟩
          rcases hr.2 with h | h
          · cases h
          · simpa using h
        · refine (fold_elim tol d i _ _ ((List.nodup_finRange n).filter _) S r).2 ?_
          rintro ⟨h1, h2⟩
          exact hr ⟨h2, Or.inr (by simpa using h1)⟩
    · rw [if_neg hi] at h
      simp only [Except.ok.injEq] at h
      exact Or.inl ⟨rfl, hi, h.symm⟩

theorem step_presc (me : Method) (tol : K) (d : DType) (pb : Fin n → Bool) (pv : Fin n → K)
    (S : Sys n m K) (i : Fin n) (hpb : pb i = true) :
    step me tol d pb pv S i = .ok (prescStep i (pv i) S) := by
  cases me <;> simp [step, jordanStep, gaussStep, hpb]

/-- If after a step a point fulfils all equations that are not prescribed, the step did not change
its defects. -/
theorem step_defect (me : Method) (tol : K) (pb : Fin n → Bool) (pv : Fin n → K)
    (S S' : Sys n m K) (i : Fin n) (h : step me tol .float pb pv S i = .ok S') (x : Fin n → K)
    (hx : ∀ i, pb i = true → x i = pv i) (j : Fin m)
    (hd : ∀ r, pb r = false → defect S' x j r = 0) (r : Fin n) :
    defect S x j r = defect S' x j r := by
  cases hpb : pb i with
  | true =>
    rw [step_presc me tol .float pb pv S i hpb] at h
    simp only [Except.ok.injEq] at h
    rw [← h, defect_prescRow _ _ _ _ (hx i hpb)]
  | false =>
    rcases step_factors me tol .float pb pv S S' i hpb h with ⟨-, -, h⟩ | ⟨-, h1, h2⟩
    · rw [h]
    · have hi : defect S x j i = 0 := by
        rw [← hd i hpb]
        unfold defect
        rw [h2 i (by rintro ⟨⟨h, -⟩, -⟩; exact h rfl)]
      by_cases hr : Touched tol i ((S i).1 i) S r ∧ (me = .jordan ∨ i < r)
      · rw [defect_subRow _ S S' i r (h1 r hr) x j, hi]; simp
      · unfold defect; rw [h2 r hr]

/-! ### The loop over the equations -/

theorem runTo_succ (me : Method) (tol : K) (d : DType) (pb : Fin n → Bool) (pv : Fin n → K) (k : ℕ)
    (hk : k < n) (S : Sys n m K) :
    runTo me tol d pb pv (k + 1) S =
      (runTo me tol d pb pv k S).bind fun S => step me tol d pb pv S ⟨k, hk⟩ := by
  unfold runTo
  have : (List.finRange n).take (k + 1) = (List.finRange n).take k ++ [⟨k, hk⟩] := by
    rw [List.take_add_one, List.getElem?_eq_getElem (by simpa using hk)]
    simp
  rw [this, List.foldlM_append]
  simp only [List.foldlM_cons, List.foldlM_nil, bind_pure]
  rfl

theorem runTo_zero (me : Method) (tol : K) (d : DType) (pb : Fin n → Bool) (pv : Fin n → K)
    (S : Sys n m K) : runTo me tol d pb pv 0 S = .ok S := rfl

theorem eliminate_eq (me : Method) (tol : K) (d : DType) (pb : Fin n → Bool) (pv : Fin n → K)
    (S : Sys n m K) : eliminate me tol d pb pv S = runTo me tol d pb pv n S := by
  unfold eliminate runTo
  rw [List.take_of_length_le (by simp)]

/-- Before the step there was a state. -/
theorem runTo_pred {me : Method} {tol : K} {d : DType} {pb : Fin n → Bool} {pv : Fin n → K} {k : ℕ}
    (hk : k < n) {S T : Sys n m K} (h : runTo me tol d pb pv (k + 1) S = .ok T) :
    ∃ U, runTo me tol d pb pv k S = .ok U ∧ step me tol d pb pv U ⟨k, hk⟩ = .ok T := by
  rw [runTo_succ me tol d pb pv k hk] at h
  cases hU : runTo me tol d pb pv k S with
  | error e => rw [hU] at h; cases h
  | ok U => rw [hU] at h; exact ⟨U, rfl, h⟩

theorem runTo_defect (me : Method) (tol : K) (pb : Fin n → Bool) (pv : Fin n → K)
    (S : Sys n m K) (x : Fin n → K) (hx : ∀ i, pb i = true → x i = pv i) (j : Fin m) (k : ℕ)
    (hk : k ≤ n) (T : Sys n m K) (h : runTo me tol .float pb pv k S = .ok T)
    (hd : ∀ r, pb r = false → defect T x j r = 0) (r : Fin n) :
    defect S x j r = defect T x j r := by
  induction k generalizing T with
  | zero =>
    rw [runTo_zero] at h
    simp only [Except.ok.injEq] at h
    rw [h]
  | succ k ih =>
    obtain ⟨U, hU, hs⟩ := runTo_pred (by omega) h
    have hst := step_defect me tol pb pv U T _ hs x hx j hd
    rw [ih (by omega) U hU (fun r hr => by rw [hst r]; exact hd r hr), hst r]

/-- After `k` equations the first `k` columns are cleared below the diagonal. -/
def Cleared (pb : Fin n → Bool) (k : ℕ) (S : Sys n m K) : Prop :=
  ∀ c : Fin n, c.val < k → (∀ r, c < r → (S r).1 c = 0) ∧ (pb c = true → (S c).1 c = 0)

/-- The entries below a pivot are zero or not negligible. -/
def CleanAt (tol : K) (i : Fin n) (S : Sys n m K) : Prop :=
  ∀ r, i < r → (S r).1 i = 0 ∨ tol * |(S i).1 i| ≤ |(S r).1 i|

theorem touched_of_clean {tol : K} (ht : 0 < tol) {i : Fin n} {S : Sys n m K}
    (hp : tol ≤ |(S i).1 i|) (hc : CleanAt tol i S) {r : Fin n} (hr : i < r)
    (hne : (S r).1 i ≠ 0) : Touched tol i ((S i).1 i) S r := by
  refine ⟨hr.ne', ?_⟩
  rw [abs_div, le_div_iff₀ (lt_of_lt_of_le ht hp)]
  exact (hc r hr).resolve_left hne

theorem step_cleared (me : Method) (tol : K) (ht : 0 < tol) (pb : Fin n → Bool) (pv : Fin n → K)
    (S S' : Sys n m K) (i : Fin n) (h : step me tol .float pb pv S i = .ok S')
    (hcl : pb i = false → (me = .jordan ∨ i.val < n - 1) → CleanAt tol i S)
    (hS : Cleared pb i.val S) : Cleared pb (i.val + 1) S' := by
  intro c hc
  cases hpb : pb i with
  | true =>
    rw [step_presc me tol .float pb pv S i hpb] at h
    simp only [Except.ok.injEq] at h
    have hrow : ∀ r, c ≤ r → (c < r ∨ pb c = true) → (S' r).1 c = 0 := by
      intro r hcr hor
      rw [← h, prescStep_apply]
      by_cases hci : c = i
      · subst hci
        rw [if_pos hcr]; simp [prescRow]
      · have hlt : c.val < i.val := by
          have : c.val ≠ i.val := fun h => hci (Fin.ext h)
          omega
        have hz : (S r).1 c = 0 := by
          rcases eq_or_lt_of_le hcr with h | h
          · subst h
            rcases hor with h' | h'
            · exact absurd h' (lt_irrefl _)
            · exact (hS c hlt).2 h'
          · exact (hS c hlt).1 r h
        split
        · simp [prescRow, Function.update_of_ne hci, hz]
        · exact hz
    exact ⟨fun r hr => hrow r hr.le (Or.inl hr), fun hp => hrow c le_rfl (Or.inr hp)⟩
  | false =>
    rcases step_factors me tol .float pb pv S S' i hpb h with ⟨-, hi, h⟩ | ⟨hp, h1, h2⟩
    · subst h
      by_cases hci : c = i
      · subst hci
        refine ⟨fun r hr => ?_, fun hp => by rw [hpb] at hp; cases hp⟩
        have h1 : c.val < r.val := hr
        have h2 := r.isLt
        omega
      · have hlt : c.val < i.val := by
          have : c.val ≠ i.val := fun h => hci (Fin.ext h)
          omega
        exact hS c hlt
    · have hcl' : CleanAt tol i S ∨ me = .gaussJordan ∧ ¬ i.val < n - 1 := by
        by_cases hi : i.val < n - 1
        · exact Or.inl (hcl hpb (Or.inr hi))
        · cases me with
          | jordan => exact Or.inl (hcl hpb (Or.inl rfl))
          | gaussJordan => exact Or.inr ⟨rfl, hi⟩
      have hpz : (S i).1 i ≠ 0 := by
        intro h0
        rw [h0, abs_zero] at hp
        exact absurd hp (not_le.2 ht)
      by_cases hci : c = i
      · subst hci
        refine ⟨fun r hr => ?_, fun hp => by rw [hpb] at hp; cases hp⟩
        rcases hcl' with hcl' | ⟨-, hi⟩
        · by_cases hz : (S r).1 c = 0
          · by_cases hr' : Touched tol c ((S c).1 c) S r ∧ (me = .jordan ∨ c < r)
            · rw [h1 r hr']; simp [subRow, store, hz]
            · rw [h2 r hr', hz]
          · rw [h1 r ⟨touched_of_clean ht hp hcl' hr hz, Or.inr hr⟩]
            simp [subRow, store, div_mul_cancel₀ _ hpz]
        · have h1 : c.val < r.val := hr
          have h2 := r.isLt
          omega
      · have hlt : c.val < i.val := by
          have : c.val ≠ i.val := fun h => hci (Fin.ext h)
          omega
        have hiz : (S i).1 c = 0 := (hS c hlt).1 i hlt
        have key : ∀ r, (S' r).1 c = (S r).1 c := by
          intro r
          by_cases hr' : Touched tol i ((S i).1 i) S r ∧ (me = .jordan ∨ i < r)
          · rw [h1 r hr']; simp [subRow, store, hiz]
          · rw [h2 r hr']
        exact ⟨fun r hr => by rw [key]; exact (hS c hlt).1 r hr,
          fun hp => by rw [key]; exact (hS c hlt).2 hp⟩

/-- Every entry met below a pivot is zero or not negligible compared with the pivot. -/
def Clean (me : Method) (tol : K) (pb : Fin n → Bool) (pv : Fin n → K) (S : Sys n m K) : Prop :=
  ∀ (i : Fin n) (T : Sys n m K), runTo me tol .float pb pv i.val S = .ok T → pb i = false →
    (me = .jordan ∨ i.val < n - 1) → CleanAt tol i T

theorem runTo_cleared (me : Method) (tol : K) (ht : 0 < tol) (pb : Fin n → Bool) (pv : Fin n → K)
    (S : Sys n m K) (hcl : Clean me tol pb pv S) (k : ℕ) (hk : k ≤ n) (T : Sys n m K)
    (h : runTo me tol .float pb pv k S = .ok T) : Cleared pb k T := by
  induction k generalizing T with
  | zero => intro c hc; omega
  | succ k ih =>
    obtain ⟨U, hU, hs⟩ := runTo_pred (by omega) h
    exact step_cleared me tol ht pb pv U T ⟨k, by omega⟩ hs
      (fun h1 h2 => hcl ⟨k, by omega⟩ U hU h1 h2) (ih (by omega) U hU)

/-! ### Backward substitution -/

theorem residual_congr (S : Sys n m K) (X Y : Fin n → Fin m → Option K) (i : Fin n)
    (h : ∀ c, i < c → X c = Y c) : residual S X i = residual S Y i := by
  funext j
  unfold residual
  apply List.foldl_ext
  intro acc c hc
  rw [h c (by simpa using hc)]

theorem backFold (S : Sys n m K) (pb : Fin n → Bool) (pv : Fin n → K) (l : List (Fin n))
    (hl : l.Pairwise (· > ·)) (XR : XR n m K) :
    (∀ i ∉ l, (l.foldl (backStep S pb pv) XR).1 i = XR.1 i ∧
      (l.foldl (backStep S pb pv) XR).2 i = XR.2 i) ∧
    ∀ i ∈ l,
      ((l.foldl (backStep S pb pv) XR).1 i = if pb i then fun _ => some (pv i) else
        fun j => fdiv (residual S (l.foldl (backStep S pb pv) XR).1 i j) ((S i).1 i)) ∧
      ((l.foldl (backStep S pb pv) XR).2 i = if pb i then
        fun j => (residual S (l.foldl (backStep S pb pv) XR).1 i j).map Neg.neg else XR.2 i) := by
  induction l generalizing XR with
  | nil => simp
  | cons a t ih =>
    rw [List.pairwise_cons] at hl
    have hat : a ∉ t := fun h => lt_irrefl _ (hl.1 a h)
    have ih' := ih hl.2 (backStep S pb pv XR a)
    rw [List.foldl_cons]
    generalize hF : t.foldl (backStep S pb pv) (backStep S pb pv XR a) = F at ih' ⊢
    have hne : ∀ i, i ≠ a → (backStep S pb pv XR a).1 i = XR.1 i ∧
        (backStep S pb pv XR a).2 i = XR.2 i := by
      intro i hi
      unfold backStep
      simp only
      split <;> simp [Function.update_of_ne hi]
    constructor
    · intro i hi
      rw [List.mem_cons, not_or] at hi
      rw [(ih'.1 i hi.2).1, (ih'.1 i hi.2).2]
      exact hne i hi.1
    · intro i hi
      rw [List.mem_cons] at hi
      by_cases hia : i = a
      · subst hia
        have hres : residual S F.1 i = residual S XR.1 i := by
          apply residual_congr
          intro c hc
          have hct : c ∉ t := fun h => lt_asymm hc (hl.1 c h)
          rw [(ih'.1 c hct).1, (hne c hc.ne').1]
        rw [(ih'.1 i hat).1, (ih'.1 i hat).2, hres]
        unfold backStep
        simp only
        split <;> simp
      · have hit : i ∈ t := hi.resolve_left hia
        obtain ⟨h1, h2⟩ := ih'.2 i hit
        refine ⟨h1, ?_⟩
        rw [h2, (hne i hia).2]

theorem backsub_spec (S : Sys n m K) (pb : Fin n → Bool) (pv : Fin n → K) (i : Fin n) :
    ((backsub S pb pv).1 i = if pb i then fun _ => some (pv i) else
        fun j => fdiv (residual S (backsub S pb pv).1 i j) ((S i).1 i)) ∧
    ((backsub S pb pv).2 i = if pb i then
        fun j => (residual S (backsub S pb pv).1 i j).map Neg.neg else fun _ => some 0) := by
  have hl : (List.finRange n).reverse.Pairwise (· > ·) := by
    rw [List.pairwise_reverse]
    exact List.pairwise_lt_finRange n
  exact (backFold S pb pv _ hl (fun _ _ => some 0, fun _ _ => some 0)).2 i (by simp)

theorem residual_finite (S : Sys n m K) (X : Fin n → Fin m → Option K) (x : Fin n → K) (j : Fin m)
    (i : Fin n) (h : ∀ c, i < c → X c j = some (x c)) :
    residual S X i j = some ((S i).2 j - ∑ c, if i < c then (S i).1 c * x c else 0) := by
  unfold residual
  rw [Fin.sum_univ_def]
  have key : ∀ (l : List (Fin n)) (b : K),
      (l.filter (i < ·)).foldl (fun acc c => fsubmul acc ((S i).1 c) (X c j)) (some b) =
        some (b - (l.map fun c => if i < c then (S i).1 c * x c else 0).sum) := by
    intro l
    induction l with
    | nil => intro b; simp
    | cons a t ih =>
      intro b
      by_cases ha : i < a
      · rw [List.filter_cons_of_pos (by simpa using ha), List.foldl_cons, h a ha]
        change (t.filter (i < ·)).foldl (fun acc c => fsubmul acc ((S i).1 c) (X c j))
          (some (b - (S i).1 a * x a)) = _
        rw [ih]
        simp only [List.map_cons, List.sum_cons, if_pos ha]
        congr 1; ring
      · rw [List.filter_cons_of_neg (by simpa using ha), ih]
        simp [ha]
  exact key _ _

/-- The result of the backward substitution fulfils the triangular system. -/
theorem backsub_defect (S : Sys n m K) (pb : Fin n → Bool) (pv : Fin n → K)
    (hS : Cleared pb n S) (x : Fin n → K) (j : Fin m)
    (hX : ∀ i, (backsub S pb pv).1 i j = some (x i)) :
    (∀ i, pb i = true → x i = pv i ∧ (backsub S pb pv).2 i j = some (defect S x j i)) ∧
    (∀ i, pb i = false → defect S x j i = 0 ∧ (backsub S pb pv).2 i j = some 0 ∧
      (S i).1 i ≠ 0) := by
  have hres := fun i => residual_finite S (backsub S pb pv).1 x j i (fun c _ => hX c)
  have hsplit : ∀ i, ∑ c, (S i).1 c * x c =
      (S i).1 i * x i + ∑ c, if i < c then (S i).1 c * x c else 0 := by
    intro i
    have : ∀ c, (S i).1 c * x c = (if c = i then (S i).1 i * x i else 0) +
        if i < c then (S i).1 c * x c else 0 := by
      intro c
      rcases lt_trichotomy i c with h | h | h
      · simp [h, h.ne']
      · subst h; simp
      · rw [(hS c c.isLt).1 i h]; simp [h.ne, not_lt.2 h.le]
    rw [Finset.sum_congr rfl fun c _ => this c, Finset.sum_add_distrib]
    simp
  constructor
  · intro i hi
    obtain ⟨h1, h2⟩ := backsub_spec S pb pv i
    rw [if_pos hi] at h1 h2
    have hxi := hX i
    rw [h1] at hxi
    simp only [Option.some.injEq] at hxi
    refine ⟨hxi.symm, ?_⟩
    rw [h2]
    simp only
    rw [hres i, Option.map_some]
    unfold defect
    rw [hsplit i, (hS i i.isLt).2 hi]
    congr 1; ring
  · intro i hi
    obtain ⟨h1, h2⟩ := backsub_spec S pb pv i
    rw [if_neg (by simp [hi])] at h1 h2
    have hxi := hX i
    rw [h1] at hxi
    simp only at hxi
    rw [hres i] at hxi
    simp only [fdiv] at hxi
    by_cases hp : (S i).1 i = 0
    · rw [if_pos hp] at hxi; cases hxi
    · rw [if_neg hp] at hxi
      simp only [Option.some.injEq] at hxi
      refine ⟨?_, by rw [h2], hp⟩
      unfold defect
      rw [hsplit i, ← hxi, mul_div_cancel₀ _ hp]
      ring

/-- If the pivots are not zero, the result is finite. -/
theorem backsub_finite (S : Sys n m K) (pb : Fin n → Bool) (pv : Fin n → K)
    (hp : ∀ i, pb i = false → (S i).1 i ≠ 0) (j : Fin m) :
    ∃ x : Fin n → K, ∀ i, (backsub S pb pv).1 i j = some (x i) := by
  have key : ∀ k : ℕ, ∀ i : Fin n, n ≤ i.val + k → ∃ v, (backsub S pb pv).1 i j = some v := by
    intro k
    induction k with
    | zero => intro i hi; have := i.isLt; omega
    | succ k ih =>
      intro i hi
      obtain ⟨h1, -⟩ := backsub_spec S pb pv i
      rw [h1]
      by_cases hb : pb i = true
      · rw [if_pos hb]; exact ⟨_, rfl⟩
      · rw [if_neg hb]
        have : ∃ x : Fin n → K, ∀ c, i < c → (backsub S pb pv).1 c j = some (x c) := by
          refine ⟨fun c => ((backsub S pb pv).1 c j).getD 0, fun c hc => ?_⟩
          obtain ⟨v, hv⟩ := ih c (by have : i.val < c.val := hc; omega)
          simp [hv]
        obtain ⟨x, hx⟩ := this
        rw [residual_finite S _ x j i hx]
        simp only [fdiv]
        rw [if_neg (hp i (by simpa using hb))]
        exact ⟨_, rfl⟩
  choose x hx using fun i => key n i (by omega)
  exact ⟨x, hx⟩

/-! ### Leading minors -/

/-- The leading principal minor of size `k`. -/
def minor (A : Fin n → Fin n → K) (k : ℕ) (hk : k ≤ n) : K :=
  (Matrix.of fun r c : Fin k => A (Fin.castLE hk r) (Fin.castLE hk c)).det

theorem step_minor (me : Method) (tol : K) (pv : Fin n → K)
    (S S' : Sys n m K) (i : Fin n) (h : step me tol .float (fun _ => false) pv S i = .ok S') (k : ℕ)
    (hk : k ≤ n) (hik : i.val < k) :
    minor (fun r => (S' r).1) k hk = minor (fun r => (S r).1) k hk := by
  classical
  rcases step_factors me tol .float (fun _ => false) pv S S' i rfl h with ⟨-, -, h⟩ | ⟨-, h1, h2⟩
  · rw [h]
  · unfold minor
    refine Matrix.det_eq_of_forall_row_eq_smul_add_const
      (fun r : Fin k => if Touched tol i ((S i).1 i) S (Fin.castLE hk r) ∧
        (me = .jordan ∨ i < Fin.castLE hk r) then - ((S (Fin.castLE hk r)).1 i / (S i).1 i) else 0)
      ⟨i.val, hik⟩ ?_ ?_
    · have : Fin.castLE hk ⟨i.val, hik⟩ = i := rfl
      rw [if_neg]
      rintro ⟨⟨h, -⟩, -⟩
      exact h this
    · intro r c
      have : Fin.castLE hk ⟨i.val, hik⟩ = i := rfl
      simp only [Matrix.of_apply, this]
      by_cases hr : Touched tol i ((S i).1 i) S (Fin.castLE hk r) ∧
        (me = .jordan ∨ i < Fin.castLE hk r)
      · rw [if_pos hr, h1 _ hr]
        simp only [subRow, store]
        ring
      · rw [if_neg hr, h2 _ hr]; simp

theorem runTo_minor (me : Method) (tol : K) (pv : Fin n → K) (S : Sys n m K) (k : ℕ) (hkn : k ≤ n)
    (T : Sys n m K) (h : runTo me tol .float (fun _ => false) pv k S = .ok T) (l : ℕ) (hl : l ≤ n)
    (hkl : k ≤ l) : minor (fun r => (T r).1) l hl = minor (fun r => (S r).1) l hl := by
  induction k generalizing T with
  | zero =>
    rw [runTo_zero] at h
    simp only [Except.ok.injEq] at h
    rw [h]
  | succ k ih =>
    obtain ⟨U, hU, hs⟩ := runTo_pred (by omega) h
    rw [step_minor me tol pv U T ⟨k, by omega⟩ hs l hl (by simp; omega),
      ih (by omega) U hU (by omega)]

theorem minor_triangular (T : Sys n m K) (k : ℕ) (hk : k ≤ n)
    (h : ∀ c r : Fin n, c.val < k → r.val < k → c < r → (T r).1 c = 0) :
    minor (fun r => (T r).1) k hk = ∏ j : Fin k, (T (Fin.castLE hk j)).1 (Fin.castLE hk j) := by
  unfold minor
  rw [Matrix.det_of_upperTriangular]
  · rfl
  · intro r c hrc
    exact h _ _ (by simp) (by simp) hrc

/-- The pivots are the quotients of the leading minors. -/
theorem pivot_minor (me : Method) (tol : K) (ht : 0 < tol) (pv : Fin n → K) (S : Sys n m K)
    (hcl : Clean me tol (fun _ => false) pv S) (k : ℕ) (hk : k < n) (T : Sys n m K)
    (h : runTo me tol .float (fun _ => false) pv k S = .ok T) :
    minor (fun r => (S r).1) (k + 1) hk =
      minor (fun r => (S r).1) k hk.le * (T ⟨k, hk⟩).1 ⟨k, hk⟩ := by
  have hc := runTo_cleared me tol ht (fun _ => false) pv S hcl k hk.le T h
  rw [← runTo_minor me tol pv S k hk.le T h (k + 1) hk (by omega),
    ← runTo_minor me tol pv S k hk.le T h k hk.le le_rfl]
  rw [minor_triangular T (k + 1) hk, minor_triangular T k hk.le, Fin.prod_univ_castSucc]
  · rfl
  · intro c r h1 _ hcr; exact (hc c h1).1 r hcr
  · intro c r h1 h2 hcr
    have : c.val < r.val := hcr
    exact (hc c (by omega)).1 r hcr

theorem runTo_ok_iff (me : Method) (tol : K) (ht : 0 < tol) (pv : Fin n → K) (S : Sys n m K)
    (hcl : Clean me tol (fun _ => false) pv S) (k : ℕ) (hk : k ≤ n)
    (hk' : me = .jordan ∨ k ≤ n - 1) :
    ((∃ T, runTo me tol .float (fun _ => false) pv k S = .ok T) ↔
      ∀ (j : ℕ) (hj : j < k), tol * |minor (fun r => (S r).1) j (by omega)| ≤
        |minor (fun r => (S r).1) (j + 1) (by omega)|) ∧
    ((∃ T, runTo me tol .float (fun _ => false) pv k S = .ok T) →
      minor (fun r => (S r).1) k hk ≠ 0) := by
  induction k with
  | zero =>
    refine ⟨⟨fun _ j hj => by omega, fun _ => ⟨S, rfl⟩⟩, fun _ => ?_⟩
    simp [minor]
  | succ k ih =>
    have hk0 : k < n := by omega
    obtain ⟨ih1, ih2⟩ := ih (by omega) (by rcases hk' with h | h; exact Or.inl h; right; omega)
    have hstep : ∀ T, runTo me tol .float (fun _ => false) pv k S = .ok T →
        ((∃ T', step me tol .float (fun _ => false) pv T ⟨k, hk0⟩ = .ok T') ↔
          tol ≤ |(T ⟨k, hk0⟩).1 ⟨k, hk0⟩|) := by
      intro T hT
      have hlt : me = .jordan ∨ k < n - 1 := by
        rcases hk' with h | h
        · exact Or.inl h
        · right; omega
      rw [← not_lt]
      cases me with
      | jordan =>
        simp only [step, jordanStep, Bool.false_eq_true, if_false]
        by_cases hp : |(T ⟨k, hk0⟩).1 ⟨k, hk0⟩| < tol
        · simp [hp]
        · simp [hp]
      | gaussJordan =>
        have hlt' : k < n - 1 := hlt.resolve_left (by simp)
        simp only [step, gaussStep, Bool.false_eq_true, if_false, hlt', if_true]
        by_cases hp : |(T ⟨k, hk0⟩).1 ⟨k, hk0⟩| < tol
        · simp [hp]
        · simp [hp]
    have hpm : ∀ T, runTo me tol .float (fun _ => false) pv k S = .ok T →
        (tol ≤ |(T ⟨k, hk0⟩).1 ⟨k, hk0⟩| ↔
          tol * |minor (fun r => (S r).1) k hk0.le| ≤ |minor (fun r => (S r).1) (k + 1) hk0|) := by
      intro T hT
      rw [pivot_minor me tol ht pv S hcl k hk0 T hT, abs_mul, mul_comm tol]
      have : 0 < |minor (fun r => (S r).1) k hk0.le| := abs_pos.2 (ih2 ⟨T, hT⟩)
      exact (mul_le_mul_iff_right₀ this).symm
    have hfwd : ∀ T', runTo me tol .float (fun _ => false) pv (k + 1) S = .ok T' →
        ∃ T, runTo me tol .float (fun _ => false) pv k S = .ok T ∧
          tol ≤ |(T ⟨k, hk0⟩).1 ⟨k, hk0⟩| := by
      intro T' hT'
      obtain ⟨T, hT, hs⟩ := runTo_pred hk0 hT'
      exact ⟨T, hT, (hstep T hT).1 ⟨T', hs⟩⟩
    refine ⟨⟨?_, ?_⟩, ?_⟩
    · rintro ⟨T', hT'⟩ j hj
      obtain ⟨T, hT, hp⟩ := hfwd T' hT'
      rcases Nat.lt_succ_iff_lt_or_eq.1 hj with h | h
      · exact ih1.1 ⟨T, hT⟩ j h
      · subst h; exact (hpm T hT).1 hp
    · intro hall
      obtain ⟨T, hT⟩ := ih1.2 fun j hj => hall j (by omega)
      obtain ⟨T', hs⟩ := (hstep T hT).2 ((hpm T hT).2 (hall k (by omega)))
      exact ⟨T', by rw [runTo_succ me tol .float _ pv k hk0, hT]; exact hs⟩
    · rintro ⟨T', hT'⟩
      obtain ⟨T, hT, hp⟩ := hfwd T' hT'
      rw [pivot_minor me tol ht pv S hcl k hk0 T hT]
      refine mul_ne_zero (ih2 ⟨T, hT⟩) ?_
      intro h0
      rw [h0, abs_zero] at hp
      exact absurd hp (not_le.2 ht)

theorem minor_full (A : Fin n → Fin n → K) : minor A n le_rfl = (Matrix.of A).det := rfl

/-- The pivots of Jordan are never zero. -/
theorem jordan_pivots (tol : K) (ht : 0 < tol) (pb : Fin n → Bool) (pv : Fin n → K)
    (S₀ : Sys n m K) (hcl : Clean .jordan tol pb pv S₀) (S : Sys n m K)
    (h : eliminate .jordan tol .float pb pv S₀ = .ok S) :
    ∀ i, pb i = false → (S i).1 i ≠ 0 := by
  rw [eliminate_eq] at h
  have key : ∀ k, k ≤ n → ∀ T, runTo .jordan tol .float pb pv k S₀ = .ok T →
      ∀ i : Fin n, i.val < k → pb i = false → (T i).1 i ≠ 0 := by
    intro k
    induction k with
    | zero => intro _ _ _ i hi; omega
    | succ k ih =>
      intro hk T hT i hi hpb
      obtain ⟨U, hU, hs⟩ := runTo_pred (by omega) hT
      have hcU := runTo_cleared .jordan tol ht pb pv S₀ hcl k (by omega) U hU
      cases hpk : pb ⟨k, by omega⟩ with
      | true =>
        rw [step_presc _ _ _ _ _ _ _ hpk] at hs
        simp only [Except.ok.injEq] at hs
        have hik : i ≠ ⟨k, by omega⟩ := by intro h; rw [← h, hpb] at hpk; cases hpk
        have hlt : i.val < k := by
          have : i.val ≠ k := fun h => hik (Fin.ext h)
          omega
        rw [← hs, prescStep_apply]
        split
        · simp only [prescRow, Function.update_of_ne hik]
          exact ih (by omega) U hU i hlt hpb
        · exact ih (by omega) U hU i hlt hpb
      | false =>
        rcases step_factors .jordan tol .float pb pv U T _ hpk hs with ⟨h, -⟩ | ⟨hp, h1, h2⟩
        · cases h
        · by_cases hik : i = ⟨k, by omega⟩
          · rw [h2 i (by rintro ⟨⟨h, -⟩, -⟩; exact h hik), hik]
            intro h0
            rw [h0, abs_zero] at hp
            exact absurd hp (not_le.2 ht)
          · have hlt : i.val < k := by
              have : i.val ≠ k := fun h => hik (Fin.ext h)
              omega
            by_cases hr : Touched tol ⟨k, by omega⟩ ((U ⟨k, by omega⟩).1 ⟨k, by omega⟩) U i ∧
              (Method.jordan = .jordan ∨ (⟨k, by omega⟩ : Fin n) < i)
            · rw [h1 i hr]
              simp only [subRow, store]
              rw [(hcU i hlt).1 ⟨k, by omega⟩ hlt, mul_zero, sub_zero]
              exact ih (by omega) U hU i hlt hpb
            · rw [h2 i hr]
              exact ih (by omega) U hU i hlt hpb
  intro i
  exact key n le_rfl S h i i.isLt

/-- Gauss-Jordan does nothing at the last equation. -/
theorem gauss_last (tol : K) (pb : Fin n → Bool) (pv : Fin n → K) (S₀ : Sys n m K)
    (hpb : pb = fun _ => false) :
    runTo .gaussJordan tol .float pb pv (n - 1) S₀ = eliminate .gaussJordan tol .float pb pv S₀ := by
  rw [eliminate_eq]
  rcases Nat.eq_zero_or_pos n with h | h
  · subst h; rfl
  · obtain ⟨k, rfl⟩ : ∃ k, n = k + 1 := ⟨n - 1, by omega⟩
    rw [runTo_succ _ _ _ _ _ k (by omega)]
    simp only [Nat.add_sub_cancel]
    cases hU : runTo .gaussJordan tol .float pb pv k S₀ with
    | error e => rfl
    | ok U => simp [Except.bind, step, gaussStep, hpb]

theorem gauss_det (tol : K) (ht : 0 < tol) (A : Fin n → Fin n → K) (B : Fin n → Fin m → K)
    (hcl : Clean .gaussJordan tol (fun _ => false) (fun _ => 0) (fun i => (A i, B i)))
    (S : Sys n m K)
    (h : eliminate .gaussJordan tol .float (fun _ => false) (fun _ => 0) (fun i => (A i, B i)) =
      .ok S) : (Matrix.of A).det = ∏ i, (S i).1 i := by
  rw [eliminate_eq] at h
  have hc := runTo_cleared .gaussJordan tol ht _ _ _ hcl n le_rfl S h
  rw [← minor_full, ← runTo_minor _ tol _ (fun i => (A i, B i)) n le_rfl S h n le_rfl le_rfl,
    minor_triangular S n le_rfl (fun c r h1 _ hcr => (hc c h1).1 r hcr)]
  rfl

end

end Verif.Solve
