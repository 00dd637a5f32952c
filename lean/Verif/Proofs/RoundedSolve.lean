import Verif.Model.RoundedSolve
import Verif.Proofs.Solve
import Mathlib.Tactic.Positivity
import Mathlib.Tactic.Ring

set_option linter.unusedSectionVars false

/-! # Helper lemmas about `Model/RoundedSolve.lean` -/

namespace Verif.RSolve
open Verif Verif.Rnd
open Verif.Solve (Row Sys XR Method Result)

section
variable {n m : ℕ} {K : Type} [Field K] [LinearOrder K] [IsStrictOrderedRing K]
variable {fl : K → K} {u : K} {fused : Bool}

theorem Precise.nonneg (hu : Precise fl u) : 0 ≤ u := by
  have := hu 1
  rw [abs_one, mul_one] at this
  exact le_trans (abs_nonneg _) this

theorem Precise.abs_le (hu : Precise fl u) (x : K) : |fl x| ≤ (1 + u) * |x| := by
  have h := hu x
  calc |fl x| = |(fl x - x) + x| := by ring_nf
    _ ≤ |fl x - x| + |x| := abs_add_le _ _
    _ ≤ (1 + u) * |x| := by linarith

/-- the error of one `a - f * b` -/
theorem subMul_near (hu : Precise fl u) (a f b : K) :
    |subMul fl fused a f b - (a - f * b)| ≤ u * |a| + (2 * u + u ^ 2) * |f * b| := by
  have u0 := Precise.nonneg hu
  unfold subMul
  split
  · have h1 := hu (a - f * b)
    have h2 : |a - f * b| ≤ |a| + |f * b| := abs_sub _ _
    have h3 := abs_nonneg (f * b)
    nlinarith [mul_le_mul_of_nonneg_left h2 u0, mul_nonneg u0 h3, mul_nonneg (mul_nonneg u0 u0) h3]
  · have h1 := hu (f * b)
    have h2 := hu (a - fl (f * b))
    have h3 : |a - fl (f * b)| ≤ |a| + |fl (f * b)| := abs_sub _ _
    have h4 := Precise.abs_le hu (f * b)
    have h5 : |fl (a - fl (f * b)) - (a - f * b)| ≤
        |fl (a - fl (f * b)) - (a - fl (f * b))| + |fl (f * b) - f * b| := by
      have : fl (a - fl (f * b)) - (a - f * b) =
          (fl (a - fl (f * b)) - (a - fl (f * b))) - (fl (f * b) - f * b) := by ring
      rw [this]; exact abs_sub _ _
    have h6 := mul_le_mul_of_nonneg_left (h3.trans (add_le_add_right h4 _)) u0
    linarith

/-- the same with bounds -/
theorem subMul_bound (hu : Precise fl u) (hu1 : u ≤ 1) {a f b M N : K} (ha : |a| ≤ M)
    (hb : |f * b| ≤ N) : |subMul fl fused a f b - (a - f * b)| ≤ u * (M + 3 * N) := by
  have u0 := Precise.nonneg hu
  refine (subMul_near hu a f b).trans ?_
  have h1 := mul_le_mul_of_nonneg_left ha u0
  have h2 : (2 * u + u ^ 2) * |f * b| ≤ (3 * u) * N := by
    apply mul_le_mul _ hb (abs_nonneg _) (by positivity)
    nlinarith
  linarith

/-! ### The row loops -/

theorem fold_update_self (g : Row n m K → Row n m K) (l : List (Fin n)) (hl : l.Nodup)
    (S : Sys n m K) (r : Fin n) :
    (l.foldl (fun S r => Function.update S r (g (S r))) S) r = if r ∈ l then g (S r) else S r := by
  induction l generalizing S with
  | nil => simp
  | cons a t ih =>
    rw [List.nodup_cons] at hl
    rw [List.foldl_cons, ih hl.2]
    by_cases hra : r = a
    · subst hra
      simp [hl.1]
    · simp [hra]

theorem prescStep_apply (i : Fin n) (v : K) (S : Sys n m K) (r : Fin n) :
    prescStep fl fused i v S r = if i ≤ r then prescRow fl fused i v (S r) else S r := by
  unfold prescStep
  rw [fold_update_self _ _ ((List.nodup_finRange n).filter _)]
  simp

/-- Whether a row is changed by the elimination. -/
def Touched (fl : K → K) (tol : K) (i : Fin n) (pivot : K) (S : Sys n m K) (r : Fin n) : Prop :=
  r ≠ i ∧ tol ≤ |fl ((S r).1 i / pivot)|

theorem fold_elim (tol : K) (i : Fin n) (pivot : K) (l : List (Fin n)) (hl : l.Nodup)
    (S : Sys n m K) (r : Fin n) :
    (r ∈ l ∧ Touched fl tol i pivot S r →
      (l.foldl (elimRow fl fused tol i pivot) S) r =
        subRow fl fused (fl ((S r).1 i / pivot)) (S i) (S r)) ∧
    (¬ (r ∈ l ∧ Touched fl tol i pivot S r) →
      (l.foldl (elimRow fl fused tol i pivot) S) r = S r) := by
  induction l generalizing S with
  | nil => simp
  | cons a t ih =>
    rw [List.nodup_cons] at hl
    rw [List.foldl_cons]
    have hi : elimRow fl fused tol i pivot S a i = S i := by
      unfold elimRow
      split
      · rfl
      · rename_i h
        rw [Function.update_of_ne]
        intro h'; exact h (Or.inl h'.symm)
    by_cases hra : r = a
    · subst hra
      have h1 := (ih hl.2 (elimRow fl fused tol i pivot S r)).2 (by simp [hl.1])
      rw [h1]
      unfold elimRow Touched
      constructor
      · rintro ⟨-, hne, ht⟩
        rw [if_neg (by push Not; exact ⟨hne, ht⟩)]
        simp
      · intro h
        rw [if_pos]
        by_contra hc
        push Not at hc
        exact h ⟨by simp, hc⟩
    · have hr : elimRow fl fused tol i pivot S a r = S r := by
        unfold elimRow
        split
        · rfl
        · rw [Function.update_of_ne hra]
      have := ih hl.2 (elimRow fl fused tol i pivot S a)
      unfold Touched at this ⊢
      rw [hi, hr] at this
      simpa [hra] using this

theorem step_factors (me : Method) (tol : K) (pb : Fin n → Bool) (pv : Fin n → K)
    (S S' : Sys n m K) (i : Fin n) (hpb : pb i = false)
    (h : step fl fused me tol pb pv S i = .ok S') :
    (me = .gaussJordan ∧ ¬ i.val < n - 1 ∧ S' = S) ∨
    (tol ≤ |(S i).1 i| ∧
      (∀ r, (Touched fl tol i ((S i).1 i) S r ∧ (me = .jordan ∨ i < r)) →
        S' r = subRow fl fused (fl ((S r).1 i / (S i).1 i)) (S i) (S r)) ∧
      (∀ r, ¬ (Touched fl tol i ((S i).1 i) S r ∧ (me = .jordan ∨ i < r)) → S' r = S r)) := by
  cases me with
  | jordan =>
    simp only [step, jordanStep, hpb, Bool.false_eq_true, if_false] at h
    by_cases hp : |(S i).1 i| < tol
    · rw [if_pos hp] at h; cases h
    · rw [if_neg hp] at h
      simp only [Except.ok.injEq] at h
      subst h
      refine Or.inr ⟨not_lt.1 hp, fun r hr => ?_, fun r hr => ?_⟩
      · exact (fold_elim tol i _ _ (List.nodup_finRange n) S r).1 ⟨by simp, hr.1⟩
      · refine (fold_elim tol i _ _ (List.nodup_finRange n) S r).2 ?_
        rintro ⟨-, h⟩; exact hr ⟨h, Or.inl rfl⟩
  | gaussJordan =>
    simp only [step, gaussStep, hpb, Bool.false_eq_true, if_false] at h
    by_cases hi : i.val < n - 1
    · rw [if_pos hi] at h
      by_cases hp : |(S i).1 i| < tol
      · rw [if_pos hp] at h; cases h
      · rw [if_neg hp] at h
        simp only [Except.ok.injEq] at h
        subst h
        refine Or.inr ⟨not_lt.1 hp, fun r hr => ?_, fun r hr => ?_⟩
        · refine (fold_elim tol i _ _ ((List.nodup_finRange n).filter _) S r).1 ⟨?_, hr.1⟩
          rcases hr.2 with h | h
          · cases h
          · simpa using h
        · refine (fold_elim tol i _ _ ((List.nodup_finRange n).filter _) S r).2 ?_
          rintro ⟨h1, h2⟩
          exact hr ⟨h2, Or.inr (by simpa using h1)⟩
    · rw [if_neg hi] at h
      simp only [Except.ok.injEq] at h
      exact Or.inl ⟨rfl, hi, h.symm⟩

theorem step_presc (me : Method) (tol : K) (pb : Fin n → Bool) (pv : Fin n → K)
    (S : Sys n m K) (i : Fin n) (hpb : pb i = true) :
    step fl fused me tol pb pv S i = .ok (prescStep fl fused i (pv i) S) := by
  cases me <;> simp [step, jordanStep, gaussStep, hpb]

/-! ### The loop over the equations -/

theorem runTo_succ (me : Method) (tol : K) (pb : Fin n → Bool) (pv : Fin n → K) (k : ℕ)
    (hk : k < n) (S : Sys n m K) :
    runTo fl fused me tol pb pv (k + 1) S =
      (runTo fl fused me tol pb pv k S).bind fun S => step fl fused me tol pb pv S ⟨k, hk⟩ := by
  unfold runTo
  have : (List.finRange n).take (k + 1) = (List.finRange n).take k ++ [⟨k, hk⟩] := by
    rw [List.take_add_one, List.getElem?_eq_getElem (by simpa using hk)]
    simp
  rw [this, List.foldlM_append]
  simp only [List.foldlM_cons, List.foldlM_nil, bind_pure]
  rfl

theorem runTo_zero (me : Method) (tol : K) (pb : Fin n → Bool) (pv : Fin n → K)
    (S : Sys n m K) : runTo fl fused me tol pb pv 0 S = .ok S := rfl

theorem eliminate_eq (me : Method) (tol : K) (pb : Fin n → Bool) (pv : Fin n → K)
    (S : Sys n m K) : eliminate fl fused me tol pb pv S = runTo fl fused me tol pb pv n S := by
  unfold eliminate runTo
  rw [List.take_of_length_le (by simp)]

theorem runTo_pred {me : Method} {tol : K} {pb : Fin n → Bool} {pv : Fin n → K} {k : ℕ}
    (hk : k < n) {S T : Sys n m K} (h : runTo fl fused me tol pb pv (k + 1) S = .ok T) :
    ∃ U, runTo fl fused me tol pb pv k S = .ok U ∧ step fl fused me tol pb pv U ⟨k, hk⟩ = .ok T := by
  rw [runTo_succ me tol pb pv k hk] at h
  cases hU : runTo fl fused me tol pb pv k S with
  | error e => rw [hU] at h; cases h
  | ok U => rw [hU] at h; exact ⟨U, rfl, h⟩

/-- a step of the elimination below the diagonal leaves the rows above alone -/
theorem step_above {tol : K} {pb : Fin n → Bool} {pv : Fin n → K} {S T : Sys n m K} {i : Fin n}
    (h : step fl fused .gaussJordan tol pb pv S i = .ok T) (r : Fin n)
    (hr : r < i ∨ (r = i ∧ pb i = false)) : T r = S r := by
  cases hpb : pb i with
  | true =>
    rw [step_presc _ _ _ _ _ _ hpb] at h
    cases h
    have : r < i := by
      rcases hr with h | ⟨-, h⟩
      · exact h
      · rw [hpb] at h; cases h
    rw [prescStep_apply, if_neg (not_le.mpr this)]
  | false =>
    rcases step_factors _ tol pb pv S T i hpb h with ⟨-, -, rfl⟩ | ⟨-, -, h2⟩
    · rfl
    · apply h2
      rintro ⟨-, h | h⟩
      · cases h
      · rcases hr with h' | ⟨h', -⟩
        · exact lt_asymm h h'
        · exact absurd h' h.ne'

theorem frozen {tol : K} {pb : Fin n → Bool} {pv : Fin n → K} {S : Sys n m K} :
    ∀ (l k : ℕ), k ≤ l → l ≤ n → ∀ (U T : Sys n m K),
      runTo fl fused .gaussJordan tol pb pv k S = .ok U →
      runTo fl fused .gaussJordan tol pb pv l S = .ok T → ∀ r : Fin n, r.val < k → T r = U r := by
  intro l
  induction l with
  | zero =>
    intro k hk _ U T hU hT r hr
    omega
  | succ l ih =>
    intro k hk hl U T hU hT r hr
    by_cases hkl : k = l + 1
    · subst hkl
      rw [hU] at hT; cases hT; rfl
    · obtain ⟨V, hV, hs⟩ := runTo_pred (by omega) hT
      rw [step_above hs r (Or.inl (by rw [Fin.lt_def]; simp; omega))]
      exact ih k (by omega) (by omega) U V hU hV r hr

/-! ### Defects -/

/-- `(A x - B)` in row `r` for right hand side `j`, without the columns that count as cleared -/
def act (k : ℕ) (S : Sys n m K) (x : Fin n → K) (j : Fin m) (r : Fin n) : K :=
  ∑ c : Fin n, (if min k r.val ≤ c.val then (S r).1 c * x c else 0) - (S r).2 j

/-- all columns -/
def full (S : Sys n m K) (x : Fin n → K) (j : Fin m) (r : Fin n) : K :=
  ∑ c : Fin n, (S r).1 c * x c - (S r).2 j

theorem sum_abs_le {f : Fin n → K} {M : K} (h : ∀ c, |f c| ≤ M) : |∑ c, f c| ≤ n * M := by
  refine (Finset.abs_sum_le_sum_abs _ _).trans ?_
  refine (Finset.sum_le_sum fun c _ => h c).trans ?_
  simp

theorem sum_abs_le_nat {ι : Type} (s : Finset ι) {f : ι → K} {M : K} (h : ∀ c ∈ s, |f c| ≤ M) :
    |∑ c ∈ s, f c| ≤ s.card * M := by
  refine (Finset.abs_sum_le_sum_abs _ _).trans ?_
  refine (Finset.sum_le_sum fun c hc => h c hc).trans ?_
  simp

/-- the error of eliminating in one row, if the columns in `s` of the pivot row count -/
theorem elim_defect (hu : Precise fl u) (hu1 : u ≤ 1) {G H F X : K} (hG : 0 ≤ G)
    {f : K} (hf : |f| ≤ F) {P R : Row n m K} {j : Fin m} {x : Fin n → K}
    (hP : ∀ c, |P.1 c| ≤ G) (hR : ∀ c, |R.1 c| ≤ G) (hPj : |P.2 j| ≤ H) (hRj : |R.2 j| ≤ H)
    (hx : ∀ c, |x c| ≤ X) (s : Finset (Fin n)) :
    |((∑ c ∈ s, R.1 c * x c) - R.2 j) - f * ((∑ c ∈ s, P.1 c * x c) - P.2 j) -
      ((∑ c ∈ s, (subRow fl fused f P R).1 c * x c) - (subRow fl fused f P R).2 j)| ≤
      u * (1 + 3 * F) * (s.card * (G * X) + H) := by
  have u0 := Precise.nonneg hu
  have F0 : 0 ≤ F := (abs_nonneg f).trans hf
  have key : ((∑ c ∈ s, R.1 c * x c) - R.2 j) - f * ((∑ c ∈ s, P.1 c * x c) - P.2 j) -
      ((∑ c ∈ s, (subRow fl fused f P R).1 c * x c) - (subRow fl fused f P R).2 j) =
      (∑ c ∈ s, -((subRow fl fused f P R).1 c - (R.1 c - f * P.1 c)) * x c) +
        ((subRow fl fused f P R).2 j - (R.2 j - f * P.2 j)) := by
    rw [mul_sub, Finset.mul_sum]
    have : ∑ c ∈ s, -((subRow fl fused f P R).1 c - (R.1 c - f * P.1 c)) * x c =
        ∑ c ∈ s, R.1 c * x c - ∑ c ∈ s, f * (P.1 c * x c) -
          ∑ c ∈ s, (subRow fl fused f P R).1 c * x c := by
      rw [← Finset.sum_sub_distrib, ← Finset.sum_sub_distrib]
      apply Finset.sum_congr rfl
      intro c _; ring
    rw [this]; ring
  rw [key]
  have h1 : ∀ c ∈ s, |-((subRow fl fused f P R).1 c - (R.1 c - f * P.1 c)) * x c| ≤
      u * (1 + 3 * F) * (G * X) := by
    intro c _
    rw [abs_mul, abs_neg]
    have h2 : |f * P.1 c| ≤ F * G := by
      rw [abs_mul]; exact mul_le_mul hf (hP c) (abs_nonneg _) F0
    have h3 := subMul_bound (fused := fused) hu hu1 (hR c) h2
    have h4 : u * (G + 3 * (F * G)) = u * (1 + 3 * F) * G := by ring
    rw [h4] at h3
    calc _ ≤ u * (1 + 3 * F) * G * X :=
          mul_le_mul h3 (hx c) (abs_nonneg _) (by positivity)
      _ = _ := by ring
  have h5 : |(subRow fl fused f P R).2 j - (R.2 j - f * P.2 j)| ≤ u * (1 + 3 * F) * H := by
    have h2 : |f * P.2 j| ≤ F * H := by
      rw [abs_mul]; exact mul_le_mul hf hPj (abs_nonneg _) F0
    have h3 := subMul_bound (fused := fused) hu hu1 hRj h2
    have h4 : u * (H + 3 * (F * H)) = u * (1 + 3 * F) * H := by ring
    rw [h4] at h3
    exact h3
  have h6 := sum_abs_le_nat s h1
  calc _ ≤ _ := abs_add_le _ _
    _ ≤ s.card * (u * (1 + 3 * F) * (G * X)) + u * (1 + 3 * F) * H := add_le_add h6 h5
    _ = _ := by ring

/-- what is assumed about the sizes of the numbers at stage `k` -/
structure Sized (G H : K) (j : Fin m) (S : Sys n m K) : Prop where
  entries : ∀ r c, |(S r).1 c| ≤ G
  rhs : ∀ r, |(S r).2 j| ≤ H

theorem act_eq_filter (k : ℕ) (S : Sys n m K) (x : Fin n → K) (j : Fin m) (r : Fin n) :
    act k S x j r = (∑ c ∈ Finset.univ.filter (fun c : Fin n => min k r.val ≤ c.val),
      (S r).1 c * x c) - (S r).2 j := by
  unfold act
  rw [Finset.sum_filter]

/-- one step of the elimination below the diagonal -/
theorem gauss_defect (hu : Precise fl u) (hu1 : 2 * u ≤ 1) {G H F X tol : K} (ht : 0 ≤ tol)
    {pb : Fin n → Bool} {pv : Fin n → K} {S T : Sys n m K} {j : Fin m} (i : Fin n)
    (h : step fl fused .gaussJordan tol pb pv S i = .ok T)
    (hS : Sized G H j S) (hF0 : 0 ≤ F)
    (hF : pb i = false → ∀ r, i < r → |fl ((S r).1 i / (S i).1 i)| ≤ F)
    (x : Fin n → K) (hx : ∀ c, |x c| ≤ X) (hpx : pb i = true → x i = pv i) (hpiv : pb i = false → (S i).1 i ≠ 0)
    (r : Fin n) :
    ∃ φ, |φ| ≤ F ∧ (pb i = true → φ = 0) ∧
      |act i S x j r - φ * act i S x j i - act (i + 1) T x j r| ≤
        3 * u * (1 + F) * (n * (G * X) + H) + 2 * tol * (G * X) := by
  have u0 := Precise.nonneg hu
  have G0 : 0 ≤ G := (abs_nonneg _).trans (hS.entries i i)
  have H0 : 0 ≤ H := (abs_nonneg _).trans (hS.rhs i)
  have X0 : 0 ≤ X := (abs_nonneg _).trans (hx i)
  have E0 : 0 ≤ 3 * u * (1 + F) * (n * (G * X) + H) + 2 * tol * (G * X) := by positivity
  have n1 : (1 : K) ≤ n := by
    have : 1 ≤ n := by have := i.2; omega
    exact_mod_cast this
  cases hpb : pb i with
  | true =>
    refine ⟨0, by simpa using hF0, fun _ => rfl, ?_⟩
    rw [step_presc _ _ _ _ _ _ hpb] at h
    cases h
    rw [zero_mul, sub_zero]
    by_cases hir : i ≤ r
    · have hrow : prescStep fl fused i (pv i) S r = prescRow fl fused i (pv i) (S r) := by
        rw [prescStep_apply, if_pos hir]
      have hir' : i.val ≤ r.val := hir
      have hsum : ∑ c : Fin n, (if min (i.val + 1) r.val ≤ c.val then
            (prescStep fl fused i (pv i) S r).1 c * x c else 0) =
          ∑ c : Fin n, ((if min i.val r.val ≤ c.val then (S r).1 c * x c else 0) -
            if c = i then (S r).1 i * x i else 0) := by
        apply Finset.sum_congr rfl
        intro c _
        rw [hrow, min_eq_left hir']
        unfold prescRow
        simp only
        by_cases hc : c = i
        · subst hc; simp
        · have hne : c.val ≠ i.val := fun h => hc (Fin.ext h)
          rw [Function.update_of_ne hc, if_neg hc, sub_zero]
          by_cases h1 : i.val ≤ c.val
          · rw [if_pos h1, if_pos (by omega)]
          · rw [if_neg h1, if_neg (by omega)]
      unfold act
      rw [hsum, Finset.sum_sub_distrib]
      simp only [Finset.sum_ite_eq', Finset.mem_univ, if_true]
      rw [hrow]
      unfold prescRow
      simp only
      have hb := subMul_bound (fused := fused) hu (by linarith) (hS.rhs r)
        (show |(S r).1 i * pv i| ≤ G * X by
          rw [abs_mul, ← hpx hpb]
          exact mul_le_mul (hS.entries r i) (hx i) (abs_nonneg _) G0)
      rw [hpx hpb]
      have : ∀ s a b c : K, s - a - (s - b - c) = c - (a - b) := by intros; ring
      rw [this]
      refine hb.trans ?_
      have : u * (H + 3 * (G * X)) ≤ 3 * u * (1 + F) * (n * (G * X) + H) := by
        have h1 : G * X ≤ n * (G * X) := le_mul_of_one_le_left (by positivity) n1
        have h2 : 0 ≤ u * F * (n * (G * X) + H) := by positivity
        have h3 : 0 ≤ u * H := by positivity
        nlinarith [mul_le_mul_of_nonneg_left h1 u0]
      have : 0 ≤ 2 * tol * (G * X) := by positivity
      linarith
    · have hlt : r < i := not_le.mp hir
      have hlt' : r.val < i.val := hlt
      rw [show act (i.val + 1) (prescStep fl fused i (pv i) S) x j r = act i.val S x j r by
        unfold act
        rw [prescStep_apply, if_neg hir, min_eq_right (by omega), min_eq_right (by omega)]]
      simpa using E0
  | false =>
    by_cases hir : i < r
    · have hir' : i.val < r.val := hir
      rcases step_factors _ tol pb pv S T i hpb h with ⟨-, hn, -⟩ | ⟨-, h1, h2⟩
      · exfalso; have := r.2; omega
      · have hset : ∀ S' : Sys n m K, act i S' x j r = (S' r).1 i * x i +
            ((∑ c ∈ Finset.univ.filter (fun c : Fin n => i < c), (S' r).1 c * x c) - (S' r).2 j) := by
          intro S'
          rw [act_eq_filter, min_eq_left hir'.le]
          have : Finset.univ.filter (fun c : Fin n => i.val ≤ c.val) =
              insert i (Finset.univ.filter (fun c : Fin n => i < c)) := by
            ext c
            simp only [Finset.mem_filter, Finset.mem_univ, true_and, Finset.mem_insert, Fin.lt_def, Fin.ext_iff]
            omega
          rw [this, Finset.sum_insert (by simp)]
          ring
        have hseti : act i S x j i = (S i).1 i * x i +
            ((∑ c ∈ Finset.univ.filter (fun c : Fin n => i < c), (S i).1 c * x c) - (S i).2 j) := by
          rw [act_eq_filter, min_self]
          have : Finset.univ.filter (fun c : Fin n => i.val ≤ c.val) =
              insert i (Finset.univ.filter (fun c : Fin n => i < c)) := by
            ext c
            simp only [Finset.mem_filter, Finset.mem_univ, true_and, Finset.mem_insert, Fin.lt_def, Fin.ext_iff]
            omega
          rw [this, Finset.sum_insert (by simp)]
          ring
        have hsetT : act (i + 1) T x j r =
            (∑ c ∈ Finset.univ.filter (fun c : Fin n => i < c), (T r).1 c * x c) - (T r).2 j := by
          rw [act_eq_filter, min_eq_left (by omega)]
          congr 1
        have hcard : ((Finset.univ.filter (fun c : Fin n => i < c)).card : K) + 1 ≤ n := by
          have h3 : (Finset.univ.filter (fun c : Fin n => i < c)).card + 1 ≤ n := by
            have hlt : (Finset.univ.filter (fun c : Fin n => i < c)).card <
                (Finset.univ : Finset (Fin n)).card := by
              apply Finset.card_lt_card
              rw [Finset.filter_ssubset]
              exact ⟨i, by simp, by simp⟩
            rw [Finset.card_univ, Fintype.card_fin] at hlt
            omega
          exact_mod_cast h3
        by_cases htr : Touched fl tol i ((S i).1 i) S r
        · refine ⟨fl ((S r).1 i / (S i).1 i), hF hpb r hir, by simp, ?_⟩
          have hTr := h1 r ⟨htr, Or.inr hir⟩
          rw [hset S, hseti, hsetT, hTr]
          have he := elim_defect (fused := fused) hu (by linarith) G0 (hF hpb r hir)
            (P := S i) (R := S r) (j := j) (x := x) (hS.entries i) (hS.entries r) (hS.rhs i) (hS.rhs r)
            hx (Finset.univ.filter (fun c : Fin n => i < c))
          set f := fl ((S r).1 i / (S i).1 i) with hfdef
          have hcol : |((S r).1 i - f * (S i).1 i) * x i| ≤ u * (G * X) := by
            rw [abs_mul]
            have hq := hu ((S r).1 i / (S i).1 i)
            have hp0 := hpiv hpb
            have h5 : |(S r).1 i - f * (S i).1 i| ≤ u * |(S r).1 i| := by
              have h6 : (S r).1 i - f * (S i).1 i = -(f - (S r).1 i / (S i).1 i) * (S i).1 i := by
                field_simp; ring
              rw [h6, abs_mul, abs_neg]
              calc _ ≤ u * |(S r).1 i / (S i).1 i| * |(S i).1 i| :=
                    mul_le_mul_of_nonneg_right hq (abs_nonneg _)
                _ = u * |(S r).1 i| := by
                  rw [mul_assoc, ← abs_mul, div_mul_cancel₀ _ hp0]
            calc _ ≤ (u * |(S r).1 i|) * |x i| := mul_le_mul_of_nonneg_right h5 (abs_nonneg _)
              _ ≤ (u * G) * X := by
                apply mul_le_mul (mul_le_mul_of_nonneg_left (hS.entries r i) u0) (hx i) (abs_nonneg _)
                positivity
              _ = _ := by ring
          have hsplit : ∀ a b c d e g : K, a * c + b - f * (d * c + e) - g =
              (a - f * d) * c + (b - f * e - g) := by intros; ring
          rw [hsplit]
          refine (abs_add_le _ _).trans ((add_le_add hcol he).trans ?_)
          set N := ((Finset.univ.filter (fun c : Fin n => i < c)).card : K) with hN
          have hN0 : 0 ≤ N := by rw [hN]; exact Nat.cast_nonneg _
          have hgx : 0 ≤ G * X := by positivity
          have h7 : u * (1 + 3 * F) * (N * (G * X) + H) + u * (G * X) ≤
              3 * u * (1 + F) * (n * (G * X) + H) := by
            have h8 : N * (G * X) + G * X ≤ n * (G * X) := by nlinarith
            have h9 : u * (1 + 3 * F) * (N * (G * X) + H) + u * (G * X) ≤
                u * (1 + 3 * F) * (n * (G * X) + H) := by
              have : u * (G * X) ≤ u * (1 + 3 * F) * (G * X) := by
                have : 0 ≤ u * F * (G * X) := by positivity
                nlinarith
              have h10 := mul_le_mul_of_nonneg_left h8 (show 0 ≤ u * (1 + 3 * F) by positivity)
              nlinarith
            refine h9.trans ?_
            apply mul_le_mul_of_nonneg_right _ (by positivity)
            nlinarith
          have h11 : 0 ≤ 2 * tol * (G * X) := by positivity
          linarith
        · refine ⟨0, by simpa using hF0, by simp, ?_⟩
          have hTr := h2 r (fun h => htr h.1)
          rw [hset S, hsetT, hTr, zero_mul, sub_zero, add_sub_cancel_right, abs_mul]
          have hp0 := hpiv hpb
          have hsmall : |fl ((S r).1 i / (S i).1 i)| < tol := by
            by_contra hc
            exact htr ⟨hir.ne', not_lt.mp hc⟩
          have hq := hu ((S r).1 i / (S i).1 i)
          have h5 : |(S r).1 i / (S i).1 i| ≤ 2 * tol := by
            have h6 : |(S r).1 i / (S i).1 i| ≤ |fl ((S r).1 i / (S i).1 i)| +
                |fl ((S r).1 i / (S i).1 i) - (S r).1 i / (S i).1 i| := by
              have : (S r).1 i / (S i).1 i = fl ((S r).1 i / (S i).1 i) -
                (fl ((S r).1 i / (S i).1 i) - (S r).1 i / (S i).1 i) := by ring
              nth_rewrite 1 [this]
              exact abs_sub _ _
            have h7 : u * |(S r).1 i / (S i).1 i| ≤ (1 / 2) * |(S r).1 i / (S i).1 i| :=
              mul_le_mul_of_nonneg_right (by linarith) (abs_nonneg _)
            linarith
          have h8 : |(S r).1 i| ≤ 2 * tol * G := by
            have : (S r).1 i = (S r).1 i / (S i).1 i * (S i).1 i := by field_simp
            rw [this, abs_mul]
            exact mul_le_mul h5 (hS.entries i i) (abs_nonneg _) (by positivity)
          have h9 : |(S r).1 i| * |x i| ≤ 2 * tol * G * X :=
            mul_le_mul h8 (hx i) (abs_nonneg _) (by positivity)
          have h10 : 0 ≤ 3 * u * (1 + F) * (n * (G * X) + H) := by positivity
          linarith
    · refine ⟨0, by simpa using hF0, by simp, ?_⟩
      have hri : r.val ≤ i.val := not_lt.mp hir
      have hTr : T r = S r := step_above h r (by
        rcases lt_or_eq_of_le (not_lt.mp hir) with h' | h'
        · exact Or.inl h'
        · exact Or.inr ⟨h', hpb⟩)
      rw [show act (i.val + 1) T x j r = act i.val S x j r by
        unfold act
        rw [hTr, min_eq_right (by omega), min_eq_right (by omega)]]
      simpa using E0

/-- one step of the elimination above and below the diagonal -/
theorem jordan_defect (hu : Precise fl u) (hu1 : u ≤ 1) {G H F X tol : K}
    {pb : Fin n → Bool} {pv : Fin n → K} {S T : Sys n m K} {j : Fin m} (i : Fin n) {me : Method}
    (h : step fl fused me tol pb pv S i = .ok T)
    (hS : Sized G H j S) (hF0 : 0 ≤ F)
    (hF : pb i = false → ∀ r, r ≠ i → |fl ((S r).1 i / (S i).1 i)| ≤ F)
    (x : Fin n → K) (hx : ∀ c, |x c| ≤ X) (hpx : pb i = true → x i = pv i)
    (r : Fin n) :
    ∃ φ, |φ| ≤ F ∧ (pb i = true → φ = 0) ∧
      |full S x j r - φ * full S x j i - full T x j r| ≤
        3 * u * (1 + F) * (n * (G * X) + H) := by
  have u0 := Precise.nonneg hu
  have G0 : 0 ≤ G := (abs_nonneg _).trans (hS.entries i i)
  have H0 : 0 ≤ H := (abs_nonneg _).trans (hS.rhs i)
  have X0 : 0 ≤ X := (abs_nonneg _).trans (hx i)
  have E0 : 0 ≤ 3 * u * (1 + F) * (n * (G * X) + H) := by positivity
  have n1 : (1 : K) ≤ n := by
    have : 1 ≤ n := by have := i.2; omega
    exact_mod_cast this
  have same : T r = S r → ∃ φ, |φ| ≤ F ∧ (pb i = true → φ = 0) ∧
      |full S x j r - φ * full S x j i - full T x j r| ≤
        3 * u * (1 + F) * (n * (G * X) + H) := by
    intro hT
    refine ⟨0, by simpa using hF0, fun _ => rfl, ?_⟩
    have : full T x j r = full S x j r := by unfold full; rw [hT]
    rw [this]
    simpa using E0
  cases hpb : pb i with
  | true =>
    rw [hpb] at same
    rw [step_presc _ _ _ _ _ _ hpb] at h
    cases h
    by_cases hir : i ≤ r
    · refine ⟨0, by simpa using hF0, fun _ => rfl, ?_⟩
      rw [zero_mul, sub_zero]
      have hrow : prescStep fl fused i (pv i) S r = prescRow fl fused i (pv i) (S r) := by
        rw [prescStep_apply, if_pos hir]
      have hsum : ∑ c : Fin n, (prescStep fl fused i (pv i) S r).1 c * x c =
          ∑ c : Fin n, ((S r).1 c * x c - if c = i then (S r).1 i * x i else 0) := by
        apply Finset.sum_congr rfl
        intro c _
        rw [hrow]
        unfold prescRow
        simp only
        by_cases hc : c = i
        · subst hc; simp
        · rw [Function.update_of_ne hc, if_neg hc, sub_zero]
      unfold full
      rw [hsum, Finset.sum_sub_distrib]
      simp only [Finset.sum_ite_eq', Finset.mem_univ, if_true]
      rw [hrow]
      unfold prescRow
      simp only
      have hb := subMul_bound (fused := fused) hu hu1 (hS.rhs r)
        (show |(S r).1 i * pv i| ≤ G * X by
          rw [abs_mul, ← hpx hpb]
          exact mul_le_mul (hS.entries r i) (hx i) (abs_nonneg _) G0)
      rw [hpx hpb]
      have : ∀ s a b c : K, s - a - (s - b - c) = c - (a - b) := by intros; ring
      rw [this]
      refine hb.trans ?_
      have h1 : G * X ≤ n * (G * X) := le_mul_of_one_le_left (by positivity) n1
      have h2 : 0 ≤ u * F * (n * (G * X) + H) := by positivity
      have h3 : 0 ≤ u * H := by positivity
      nlinarith [mul_le_mul_of_nonneg_left h1 u0]
    · exact same (by rw [prescStep_apply, if_neg hir])
  | false =>
    rw [hpb] at same
    rcases step_factors _ tol pb pv S T i hpb h with ⟨-, -, rfl⟩ | ⟨-, h1, h2⟩
    · exact same rfl
    · by_cases htr : Touched fl tol i ((S i).1 i) S r ∧ (me = .jordan ∨ i < r)
      · refine ⟨fl ((S r).1 i / (S i).1 i), hF hpb r htr.1.1, by simp, ?_⟩
        have hTr := h1 r htr
        have he := elim_defect (fused := fused) hu hu1 G0 (hF hpb r htr.1.1)
          (P := S i) (R := S r) (j := j) (x := x) (hS.entries i) (hS.entries r) (hS.rhs i) (hS.rhs r)
          hx Finset.univ
        unfold full
        rw [hTr]
        refine he.trans ?_
        rw [Finset.card_univ, Fintype.card_fin]
        apply mul_le_mul_of_nonneg_right _ (by positivity)
        nlinarith
      · exact same (h2 r htr)

/-! ### Columns of prescribed unknowns -/

theorem subMul_zero (hu : Precise fl u) (f : K) : subMul fl fused 0 f 0 = 0 := by
  have h0 : fl 0 = 0 := by
    have := hu 0
    rw [abs_zero, mul_zero, sub_zero] at this
    exact abs_eq_zero.mp (le_antisymm this (abs_nonneg _))
  unfold subMul
  split <;> simp [h0]

theorem step_col (hu : Precise fl u) {tol : K} {pb : Fin n → Bool} {pv : Fin n → K}
    {S T : Sys n m K} {i : Fin n} {me : Method} (h : step fl fused me tol pb pv S i = .ok T)
    (k : Fin n) (hk : k ≤ i) (hS : ∀ r, k ≤ r → (S r).1 k = 0) (r : Fin n) (hr : k ≤ r) :
    (T r).1 k = 0 := by
  cases hpb : pb i with
  | true =>
    rw [step_presc _ _ _ _ _ _ hpb] at h
    cases h
    rw [prescStep_apply]
    split
    · unfold prescRow
      simp only
      by_cases hki : k = i
      · subst hki; simp
      · rw [Function.update_of_ne hki]; exact hS r hr
    · exact hS r hr
  | false =>
    rcases step_factors _ tol pb pv S T i hpb h with ⟨-, -, rfl⟩ | ⟨-, h1, h2⟩
    · exact hS r hr
    · by_cases htr : Touched fl tol i ((S i).1 i) S r ∧ (me = .jordan ∨ i < r)
      · rw [h1 r htr]
        unfold subRow
        simp only
        rw [hS r hr, hS i hk]
        exact subMul_zero hu _
      · rw [h2 r htr]; exact hS r hr

theorem col_zero (hu : Precise fl u) {tol : K} {pb : Fin n → Bool} {pv : Fin n → K}
    {S : Sys n m K} {me : Method} (k : Fin n) (hpb : pb k = true) :
    ∀ l : ℕ, k.val < l → l ≤ n → ∀ T, runTo fl fused me tol pb pv l S = .ok T →
      ∀ r, k ≤ r → (T r).1 k = 0 := by
  intro l
  induction l with
  | zero => intro h; omega
  | succ l ih =>
    intro hkl hl T hT r hr
    obtain ⟨U, hU, hs⟩ := runTo_pred (by omega) hT
    by_cases hk : k.val = l
    · have hk' : (⟨l, by omega⟩ : Fin n) = k := Fin.ext hk.symm
      rw [hk', step_presc _ _ _ _ _ _ hpb] at hs
      cases hs
      rw [prescStep_apply, if_pos hr]
      unfold prescRow
      simp
    · exact step_col hu hs k (by rw [Fin.le_def]; simp; omega)
        (fun r hr => ih (by omega) (by omega) U hU r hr) r hr

/-! ### Backward substitution -/

theorem residual_congr (S : Sys n m K) (X Y : Fin n → Fin m → Option K) (i : Fin n)
    (h : ∀ c, i < c → X c = Y c) : residual fl fused S X i = residual fl fused S Y i := by
  funext j
  unfold residual
  apply List.foldl_ext
  intro acc c hc
  rw [h c (by simpa using hc)]

theorem backFold (S : Sys n m K) (pb : Fin n → Bool) (pv : Fin n → K) (l : List (Fin n))
    (hl : l.Pairwise (· > ·)) (XR : XR n m K) :
    (∀ i ∉ l, (l.foldl (backStep fl fused S pb pv) XR).1 i = XR.1 i ∧
      (l.foldl (backStep fl fused S pb pv) XR).2 i = XR.2 i) ∧
    ∀ i ∈ l,
      ((l.foldl (backStep fl fused S pb pv) XR).1 i = if pb i then fun _ => some (pv i) else
        fun j => fdiv fl (residual fl fused S (l.foldl (backStep fl fused S pb pv) XR).1 i j)
          ((S i).1 i)) ∧
      ((l.foldl (backStep fl fused S pb pv) XR).2 i = if pb i then
        fun j => (residual fl fused S (l.foldl (backStep fl fused S pb pv) XR).1 i j).map Neg.neg
        else XR.2 i) := by
  induction l generalizing XR with
  | nil => simp
  | cons a t ih =>
    rw [List.pairwise_cons] at hl
    have hat : a ∉ t := fun h => lt_irrefl _ (hl.1 a h)
    have ih' := ih hl.2 (backStep fl fused S pb pv XR a)
    rw [List.foldl_cons]
    generalize hF : t.foldl (backStep fl fused S pb pv) (backStep fl fused S pb pv XR a) = F at ih' ⊢
    have hne : ∀ i, i ≠ a → (backStep fl fused S pb pv XR a).1 i = XR.1 i ∧
        (backStep fl fused S pb pv XR a).2 i = XR.2 i := by
      intro i hi
      unfold backStep
      simp only
      split <;> simp [Function.update_of_ne hi]
    constructor
    · intro i hi
      rw [List.mem_cons, not_or] at hi
      obtain ⟨h1, h2⟩ := ih'.1 i hi.2
      obtain ⟨h3, h4⟩ := hne i hi.1
      exact ⟨h1.trans h3, h2.trans h4⟩
    · intro i hi
      rw [List.mem_cons] at hi
      by_cases hia : i = a
      · subst hia
        have hres : residual fl fused S F.1 i = residual fl fused S XR.1 i := by
          apply residual_congr
          intro c hc
          have hct : c ∉ t := fun h => lt_asymm hc (hl.1 c h)
          rw [(ih'.1 c hct).1, (hne c hc.ne').1]
        rw [(ih'.1 i hat).1, (ih'.1 i hat).2, hres]
        unfold backStep
        simp only
        split <;> simp
      · have hit : i ∈ t := hi.resolve_left hia
        obtain ⟨h1, h2⟩ := ih'.2 i hit
        refine ⟨h1, ?_⟩
        rw [h2, (hne i hia).2]

theorem backsub_spec (S : Sys n m K) (pb : Fin n → Bool) (pv : Fin n → K) (i : Fin n) :
    ((backsub fl fused S pb pv).1 i = if pb i then fun _ => some (pv i) else
        fun j => fdiv fl (residual fl fused S (backsub fl fused S pb pv).1 i j) ((S i).1 i)) ∧
    ((backsub fl fused S pb pv).2 i = if pb i then
        fun j => (residual fl fused S (backsub fl fused S pb pv).1 i j).map Neg.neg
        else fun _ => some 0) := by
  have hl : (List.finRange n).reverse.Pairwise (· > ·) := by
    rw [List.pairwise_reverse]
    exact List.pairwise_lt_finRange n
  exact (backFold S pb pv _ hl (fun _ _ => some 0, fun _ _ => some 0)).2 i (by simp)

/-- the error of the sums in the backward substitution -/
theorem fold_near (hu : Precise fl u) (g x : Fin n → K) (l : List (Fin n)) (b : K) :
    ∃ ρ, l.foldl (fun acc c => fsubmul fl fused acc (g c) (some (x c))) (some b) = some ρ ∧
      |ρ - (b - (l.map fun c => g c * x c).sum)| ≤ ((1 + u) ^ l.length - 1) * |b| +
        ((1 + u) ^ (l.length + 1) - 1) * (l.map fun c => |g c * x c|).sum := by
  have u0 := Precise.nonneg hu
  induction l generalizing b with
  | nil => exact ⟨b, rfl, by simp⟩
  | cons a t ih =>
    obtain ⟨ρ, h1, h2⟩ := ih (subMul fl fused b (g a) (x a))
    refine ⟨ρ, by rw [List.foldl_cons]; exact h1, ?_⟩
    have h3 := subMul_near (fused := fused) hu b (g a) (x a)
    set b1 := subMul fl fused b (g a) (x a) with hb1
    have h4 : |b1| ≤ (1 + u) * |b| + (1 + u) ^ 2 * |g a * x a| := by
      have : b1 = (b1 - (b - g a * x a)) + (b - g a * x a) := by ring
      rw [this]
      have h5 : |b - g a * x a| ≤ |b| + |g a * x a| := abs_sub _ _
      have := abs_add_le (b1 - (b - g a * x a)) (b - g a * x a)
      nlinarith
    simp only [List.map_cons, List.sum_cons, List.length_cons]
    have h6 : ρ - (b - (g a * x a + (t.map fun c => g c * x c).sum)) =
        (ρ - (b1 - (t.map fun c => g c * x c).sum)) + (b1 - (b - g a * x a)) := by ring
    rw [h6]
    have hL : (0 : K) ≤ (1 + u) ^ t.length - 1 := by
      have : (1 : K) ≤ (1 + u) ^ t.length := one_le_pow₀ (by linarith)
      linarith
    have hT : 0 ≤ (t.map fun c => |g c * x c|).sum :=
      List.sum_nonneg (by simp only [List.mem_map]; rintro _ ⟨c, -, rfl⟩; exact abs_nonneg _)
    have h7 := mul_le_mul_of_nonneg_left h4 hL
    have h8 : ((1 + u) ^ (t.length + 1) - 1) * (t.map fun c => |g c * x c|).sum ≤
        ((1 + u) ^ (t.length + 1 + 1) - 1) * (t.map fun c => |g c * x c|).sum := by
      apply mul_le_mul_of_nonneg_right _ hT
      have : (1 + u) ^ (t.length + 1) ≤ (1 + u) ^ (t.length + 1 + 1) :=
        pow_le_pow_right₀ (by linarith) (by omega)
      linarith
    calc _ ≤ _ := abs_add_le _ _
      _ ≤ (((1 + u) ^ t.length - 1) * ((1 + u) * |b| + (1 + u) ^ 2 * |g a * x a|) +
          ((1 + u) ^ (t.length + 1 + 1) - 1) * (t.map fun c => |g c * x c|).sum) +
          (u * |b| + (2 * u + u ^ 2) * |g a * x a|) := by linarith
      _ = _ := by ring

/-- `resid` in row `i` -/
theorem residual_near (hu : Precise fl u) {G H X : K} (S : Sys n m K)
    (Y : Fin n → Fin m → Option K) (x : Fin n → K)
    (j : Fin m) (i : Fin n) (h : ∀ c, Y c j = some (x c)) (hG : ∀ c, |(S i).1 c| ≤ G)
    (hH : |(S i).2 j| ≤ H) (hx : ∀ c, |x c| ≤ X) :
    ∃ ρ, residual fl fused S Y i j = some ρ ∧
      |ρ - ((S i).2 j - ∑ c : Fin n, if i < c then (S i).1 c * x c else 0)| ≤
        ((1 + u) ^ n - 1) * (H + n * (G * X)) ∧ |ρ| ≤ (1 + u) ^ n * (H + n * (G * X)) := by
  have u0 := Precise.nonneg hu
  have G0 : 0 ≤ G := (abs_nonneg _).trans (hG i)
  have X0 : 0 ≤ X := (abs_nonneg _).trans (hx i)
  have H0 : 0 ≤ H := (abs_nonneg _).trans hH
  set l := (List.finRange n).filter (i < ·) with hl
  obtain ⟨ρ, h1, h2⟩ := fold_near (fused := fused) hu (S i).1 x l ((S i).2 j)
  have hlen : l.length + 1 ≤ n := by
    have : l.length < (List.finRange n).length := by
      rw [hl]
      apply List.length_filter_lt_length_iff_exists.mpr
      exact ⟨i, by simp, by simp⟩
    simpa using this
  have hsum : (l.map fun c => (S i).1 c * x c).sum =
      ∑ c : Fin n, if i < c then (S i).1 c * x c else 0 := by
    rw [Fin.sum_univ_def, hl]
    induction List.finRange n with
    | nil => rfl
    | cons a t ih =>
      by_cases ha : i < a
      · simp [ha] at ih ⊢; exact ih
      · simp [ha] at ih ⊢; exact ih
  have hbnd : (l.map fun c => |(S i).1 c * x c|).sum ≤ (n : K) * (G * X) - 0 := by
    have hall : ∀ l' : List (Fin n),
        (l'.map fun c => |(S i).1 c * x c|).sum ≤ (l'.length : K) * (G * X) := by
      intro l'
      induction l' with
      | nil => simp
      | cons a t ih =>
        simp only [List.map_cons, List.sum_cons, List.length_cons]
        have : |(S i).1 a * x a| ≤ G * X := by
          rw [abs_mul]; exact mul_le_mul (hG a) (hx a) (abs_nonneg _) G0
        push_cast
        linarith
    have h3 : (l.length : K) ≤ n := by
      have : l.length ≤ n := by omega
      exact_mod_cast this
    have := mul_le_mul_of_nonneg_right h3 (mul_nonneg G0 X0)
    have := hall l
    linarith
  rw [sub_zero] at hbnd
  have hpow : ∀ k, k ≤ n → (1 + u) ^ k ≤ (1 + u) ^ n :=
    fun k hk => pow_le_pow_right₀ (by linarith) hk
  have hone : (1 : K) ≤ (1 + u) ^ n := one_le_pow₀ (by linarith)
  have hS0 : 0 ≤ (l.map fun c => |(S i).1 c * x c|).sum :=
    List.sum_nonneg (by simp only [List.mem_map]; rintro _ ⟨c, -, rfl⟩; exact abs_nonneg _)
  rw [hsum] at h2
  have h5 : |ρ - ((S i).2 j - ∑ c : Fin n, if i < c then (S i).1 c * x c else 0)| ≤
        ((1 + u) ^ n - 1) * (H + n * (G * X)) := by
    refine h2.trans ?_
    rw [mul_add]
    apply add_le_add
    · exact mul_le_mul (by linarith [hpow l.length (by omega)]) hH (abs_nonneg _) (by linarith)
    · exact mul_le_mul (by linarith [hpow (l.length + 1) hlen]) hbnd hS0 (by linarith)
  refine ⟨ρ, ?_, h5, ?_⟩
  · rw [← h1]
    unfold residual
    apply List.foldl_ext
    intro acc c _
    rw [h c]
  · have h6 : |∑ c : Fin n, if i < c then (S i).1 c * x c else 0| ≤ n * (G * X) := by
      apply sum_abs_le
      intro c
      split
      · rw [abs_mul]; exact mul_le_mul (hG c) (hx c) (abs_nonneg _) G0
      · rw [abs_zero]; positivity
    set s := ∑ c : Fin n, if i < c then (S i).1 c * x c else 0 with hs
    have h7 : |ρ| ≤ |ρ - ((S i).2 j - s)| + |(S i).2 j - s| := by
      have := abs_add_le (ρ - ((S i).2 j - s)) ((S i).2 j - s)
      rwa [sub_add_cancel] at this
    have h8 : |(S i).2 j - s| ≤ H + n * (G * X) := (abs_sub _ _).trans (add_le_add hH h6)
    nlinarith

/-- the defect of the reduced equations -/
theorem back_defect (hu : Precise fl u) {G H X : K} (S : Sys n m K) (pb : Fin n → Bool)
    (pv : Fin n → K) (x R : Fin n → K) (j : Fin m)
    (hX : ∀ c, (backsub fl fused S pb pv).1 c j = some (x c))
    (hR : ∀ c, (backsub fl fused S pb pv).2 c j = some (R c))
    (hS : Sized G H j S) (hx : ∀ c, |x c| ≤ X)
    (hz : ∀ i, pb i = true → (S i).1 i = 0) (i : Fin n) :
    (pb i = true → x i = pv i) ∧ (pb i = false → R i = 0 ∧ (S i).1 i ≠ 0) ∧
    |act n S x j i - R i| ≤ ((1 + u) ^ (n + 1) - 1) * (H + n * (G * X)) := by
  have u0 := Precise.nonneg hu
  obtain ⟨h1, h2⟩ := backsub_spec (fl := fl) (fused := fused) S pb pv i
  obtain ⟨ρ, hρ, hn, hb⟩ := residual_near (fused := fused) hu S (backsub fl fused S pb pv).1 x j i hX
    (hS.entries i) (hS.rhs i) hx
  have hT0 : 0 ≤ H + n * (G * X) := by
    have G0 : 0 ≤ G := (abs_nonneg _).trans (hS.entries i i)
    have X0 : 0 ≤ X := (abs_nonneg _).trans (hx i)
    have H0 : 0 ≤ H := (abs_nonneg _).trans (hS.rhs i)
    positivity
  have hone : (1 : K) ≤ (1 + u) ^ n := one_le_pow₀ (by linarith)
  have hact : act n S x j i = (S i).1 i * x i -
      ((S i).2 j - ∑ c : Fin n, if i < c then (S i).1 c * x c else 0) := by
    unfold act
    have : ∀ c : Fin n, (if min n i.val ≤ c.val then (S i).1 c * x c else 0) =
        (if c = i then (S i).1 i * x i else 0) + if i < c then (S i).1 c * x c else 0 := by
      intro c
      have hmin : min n i.val = i.val := min_eq_right (by omega)
      rw [hmin]
      rcases lt_trichotomy i c with h | h | h
      · have h' : i.val < c.val := h
        rw [if_pos h'.le, if_neg h.ne', if_pos h, zero_add]
      · subst h; simp
      · have h' : c.val < i.val := h
        rw [if_neg (by omega), if_neg h.ne, if_neg (not_lt.mpr h.le), zero_add]
    rw [Finset.sum_congr rfl fun c _ => this c, Finset.sum_add_distrib]
    simp only [Finset.sum_ite_eq', Finset.mem_univ, if_true]
    ring
  set e := (S i).2 j - ∑ c : Fin n, if i < c then (S i).1 c * x c else 0 with he
  have hpow : (1 + u) ^ (n + 1) = (1 + u) ^ n * (1 + u) := pow_succ _ _
  have hxi := hX i
  have hRi := hR i
  rw [h1] at hxi
  rw [h2] at hRi
  cases hpb : pb i with
  | true =>
    rw [hpb] at hxi hRi
    simp only [if_true, Option.some.injEq] at hxi
    simp only [if_true] at hRi
    rw [hρ] at hRi
    simp only [Option.map_some, Option.some.injEq] at hRi
    refine ⟨fun _ => hxi.symm, by simp, ?_⟩
    rw [hact, hz i hpb, ← hRi]
    have : (0 : K) * x i - e - -ρ = ρ - e := by ring
    rw [this]
    refine hn.trans (mul_le_mul_of_nonneg_right ?_ hT0)
    rw [hpow]
    nlinarith
  | false =>
    rw [hpb] at hxi hRi
    simp only [Bool.false_eq_true, if_false, Option.some.injEq] at hRi
    simp only [Bool.false_eq_true, if_false] at hxi
    rw [hρ] at hxi
    by_cases hp : (S i).1 i = 0
    · simp [fdiv, hp] at hxi
    · simp only [fdiv, if_neg hp, Option.some.injEq] at hxi
      refine ⟨by simp, fun _ => ⟨hRi.symm, hp⟩, ?_⟩
      rw [hact, ← hRi, sub_zero, ← hxi]
      have h3 : |(S i).1 i * fl (ρ / (S i).1 i) - ρ| ≤ u * |ρ| := by
        have h4 : (S i).1 i * fl (ρ / (S i).1 i) - ρ =
            (S i).1 i * (fl (ρ / (S i).1 i) - ρ / (S i).1 i) := by field_simp
        rw [h4, abs_mul]
        calc _ ≤ |(S i).1 i| * (u * |ρ / (S i).1 i|) :=
              mul_le_mul_of_nonneg_left (hu _) (abs_nonneg _)
          _ = u * |(S i).1 i * (ρ / (S i).1 i)| := by rw [abs_mul]; ring
          _ = u * |ρ| := by rw [mul_div_cancel₀ _ hp]
      have h5 : (S i).1 i * fl (ρ / (S i).1 i) - e =
          ((S i).1 i * fl (ρ / (S i).1 i) - ρ) + (ρ - e) := by ring
      rw [h5]
      refine (abs_add_le _ _).trans ?_
      have h6 := mul_le_mul_of_nonneg_left hb u0
      rw [hpow]
      nlinarith

/-! ### All steps together -/

theorem runTo_ok {me : Method} {tol : K} {pb : Fin n → Bool} {pv : Fin n → K} {S : Sys n m K} :
    ∀ (l k : ℕ), k ≤ l → l ≤ n → ∀ T, runTo fl fused me tol pb pv l S = .ok T →
      ∃ U, runTo fl fused me tol pb pv k S = .ok U := by
  intro l
  induction l with
  | zero => intro k hk _ T hT; exact ⟨T, by rw [Nat.le_zero.mp hk]; exact hT⟩
  | succ l ih =>
    intro k hk hl T hT
    by_cases hkl : k = l + 1
    · subst hkl; exact ⟨T, hT⟩
    · obtain ⟨U, hU, -⟩ := runTo_pred (by omega) hT
      exact ih k (by omega) (by omega) U hU

theorem gauss_all (hu : Precise fl u) (hu1 : 2 * u ≤ 1) {G H F X tol : K} (ht : 0 ≤ tol)
    (hF0 : 0 ≤ F) {pb : Fin n → Bool} {pv : Fin n → K} {S0 S : Sys n m K} {j : Fin m}
    (hrun : runTo fl fused .gaussJordan tol pb pv n S0 = .ok S)
    (hS : ∀ k, k ≤ n → ∀ U, runTo fl fused .gaussJordan tol pb pv k S0 = .ok U → Sized G H j U)
    (hF : ∀ i : Fin n, pb i = false → ∀ U, runTo fl fused .gaussJordan tol pb pv i S0 = .ok U →
      ∀ r, i < r → |fl ((U r).1 i / (U i).1 i)| ≤ F)
    (x R : Fin n → K) (hx : ∀ c, |x c| ≤ X)
    (hX : ∀ c, (backsub fl fused S pb pv).1 c j = some (x c))
    (hR : ∀ c, (backsub fl fused S pb pv).2 c j = some (R c)) (r : Fin n) :
    |full S0 x j r - R r| ≤
      (1 + n * F) * (((1 + u) ^ (n + 1) - 1) * (H + n * (G * X))) +
      n * (3 * u * (1 + F) * (n * (G * X) + H) + 2 * tol * (G * X)) := by
  set D := ((1 + u) ^ (n + 1) - 1) * (H + n * (G * X)) with hD
  set E := 3 * u * (1 + F) * (n * (G * X) + H) + 2 * tol * (G * X) with hE
  have hback := back_defect (fused := fused) hu S pb pv x R j hX hR (hS n le_rfl S hrun) hx
    (fun i hi => col_zero hu i hi n i.2 le_rfl S hrun i le_rfl)
  have hD0 : 0 ≤ D := (abs_nonneg _).trans (hback r).2.2
  have key : ∀ k : ℕ, k ≤ n → ∀ T, runTo fl fused .gaussJordan tol pb pv k S0 = .ok T →
      ∀ r, |act 0 S0 x j r - act k T x j r| ≤ k * (F * D + E) := by
    intro k
    induction k with
    | zero =>
      intro _ T hT r
      rw [runTo_zero] at hT
      cases hT
      simp
    | succ k ih =>
      intro hk T hT r
      have hk' : k < n := hk
      obtain ⟨U, hU, hs⟩ := runTo_pred hk' hT
      have hTS : ∀ r : Fin n, r.val < k + 1 → S r = T r :=
        fun r hr => frozen n (k + 1) hk le_rfl T S hT hrun r hr
      have hUk : pb ⟨k, hk'⟩ = false → T ⟨k, hk'⟩ = U ⟨k, hk'⟩ :=
        fun h => step_above hs _ (Or.inr ⟨rfl, h⟩)
      obtain ⟨φ, h1, h2, h3⟩ := gauss_defect hu hu1 ht ⟨k, hk'⟩ hs (hS k hk'.le U hU) hF0
        (fun h => hF ⟨k, hk'⟩ h U hU) x hx (hback ⟨k, hk'⟩).1 (fun h => by
          rw [← hUk h, ← hTS ⟨k, hk'⟩ (by simp)]; exact ((hback ⟨k, hk'⟩).2.1 h).2) r
      simp only at h3
      have h4 : |φ * act k U x j ⟨k, hk'⟩| ≤ F * D := by
        cases hpb : pb ⟨k, hk'⟩ with
        | true => rw [h2 hpb, zero_mul, abs_zero]; positivity
        | false =>
          have h5 : act k U x j ⟨k, hk'⟩ = act n S x j ⟨k, hk'⟩ := by
            unfold act
            rw [hTS ⟨k, hk'⟩ (by simp), hUk hpb]
            simp only
            rw [min_self, min_eq_right hk'.le]
          have h6 := (hback ⟨k, hk'⟩).2.2
          rw [((hback ⟨k, hk'⟩).2.1 hpb).1, sub_zero, ← h5] at h6
          rw [abs_mul]
          exact mul_le_mul h1 h6 (abs_nonneg _) hF0
      have h7 : act 0 S0 x j r - act (k + 1) T x j r =
          (act 0 S0 x j r - act k U x j r) +
          ((act k U x j r - φ * act k U x j ⟨k, hk'⟩ - act (k + 1) T x j r) +
            φ * act k U x j ⟨k, hk'⟩) := by ring
      rw [h7]
      have h8 := abs_add_le (act 0 S0 x j r - act k U x j r)
        ((act k U x j r - φ * act k U x j ⟨k, hk'⟩ - act (k + 1) T x j r) +
            φ * act k U x j ⟨k, hk'⟩)
      have h9 := abs_add_le (act k U x j r - φ * act k U x j ⟨k, hk'⟩ - act (k + 1) T x j r)
        (φ * act k U x j ⟨k, hk'⟩)
      have h10 := ih hk'.le U hU r
      push_cast
      linarith
  have h1 := key n le_rfl S hrun r
  have h2 := (hback r).2.2
  have h3 : full S0 x j r = act 0 S0 x j r := by
    unfold full act; simp
  rw [h3]
  have h4 : act 0 S0 x j r - R r =
      (act 0 S0 x j r - act n S x j r) + (act n S x j r - R r) := by ring
  rw [h4]
  refine (abs_add_le _ _).trans ((add_le_add h1 h2).trans ?_)
  apply le_of_eq; ring

theorem any_all (hu : Precise fl u) (hu1 : u ≤ 1) {G H F J X tol : K} (hJ0 : 0 ≤ J)
    (hF0 : 0 ≤ F) {me : Method} {pb : Fin n → Bool} {pv : Fin n → K} {S0 S : Sys n m K} {j : Fin m}
    (hrun : runTo fl fused me tol pb pv n S0 = .ok S)
    (hS : ∀ k, k ≤ n → ∀ U, runTo fl fused me tol pb pv k S0 = .ok U → Sized G H j U)
    (hF : ∀ i : Fin n, pb i = false → ∀ U, runTo fl fused me tol pb pv i S0 = .ok U →
      ∀ r, r ≠ i → |fl ((U r).1 i / (U i).1 i)| ≤ F)
    (hJ : ∀ r c : Fin n, c < r → |(S r).1 c| ≤ J)
    (x R : Fin n → K) (hx : ∀ c, |x c| ≤ X)
    (hX : ∀ c, (backsub fl fused S pb pv).1 c j = some (x c))
    (hR : ∀ c, (backsub fl fused S pb pv).2 c j = some (R c)) (r : Fin n) :
    |full S0 x j r - R r| ≤
      (1 + F) ^ n * (((1 + u) ^ (n + 1) - 1) * (H + n * (G * X)) + n * (J * X) +
      n * (3 * u * (1 + F) * (n * (G * X) + H))) := by
  have u0 := Precise.nonneg hu
  have hback := back_defect (fused := fused) hu S pb pv x R j hX hR (hS n le_rfl S hrun) hx
    (fun i hi => col_zero hu i hi n i.2 le_rfl S hrun i le_rfl)
  set D := ((1 + u) ^ (n + 1) - 1) * (H + n * (G * X)) with hD
  set E := 3 * u * (1 + F) * (n * (G * X) + H) with hE
  have X0 : 0 ≤ X := (abs_nonneg _).trans (hx r)
  have hD0 : 0 ≤ D := (abs_nonneg _).trans (hback r).2.2
  have hE0 : 0 ≤ E := by
    have G0 : 0 ≤ G := (abs_nonneg _).trans ((hS n le_rfl S hrun).entries r r)
    have H0 : 0 ≤ H := (abs_nonneg _).trans ((hS n le_rfl S hrun).rhs r)
    positivity
  have key : ∀ d k : ℕ, k + d = n → ∀ U, runTo fl fused me tol pb pv k S0 = .ok U →
      ∀ r, |full U x j r - R r| ≤ (1 + F) ^ d * (D + n * (J * X) + d * E) := by
    intro d
    induction d with
    | zero =>
      intro k hk U hU r
      have : k = n := by omega
      subst this
      rw [hrun] at hU
      cases hU
      have h1 : full S x j r - R r = (act k S x j r - R r) +
          ∑ c : Fin k, if c < r then (S r).1 c * x c else 0 := by
        have : ∀ c : Fin k, (S r).1 c * x c = (if min k r.val ≤ c.val then (S r).1 c * x c else 0) +
            if c < r then (S r).1 c * x c else 0 := by
          intro c
          rw [min_eq_right (show r.val ≤ k by omega)]
          by_cases h : c < r
          · have h' : c.val < r.val := h
            rw [if_neg (by omega), if_pos h, zero_add]
          · have h' : ¬ c.val < r.val := h
            rw [if_pos (by omega), if_neg h, add_zero]
        unfold full act
        rw [Finset.sum_congr rfl fun c _ => this c, Finset.sum_add_distrib]
        ring
      rw [h1]
      have h2 : |∑ c : Fin k, if c < r then (S r).1 c * x c else 0| ≤ k * (J * X) := by
        apply sum_abs_le
        intro c
        split
        · rename_i h
          rw [abs_mul]; exact mul_le_mul (hJ r c h) (hx c) (abs_nonneg _) hJ0
        · rw [abs_zero]; positivity
      refine (abs_add_le _ _).trans ((add_le_add (hback r).2.2 h2).trans ?_)
      simp
    | succ d ih =>
      intro k hk U hU r
      have hk' : k < n := by omega
      obtain ⟨T, hT⟩ := runTo_ok n (k + 1) (by omega) le_rfl S hrun
      obtain ⟨U', hU', hs⟩ := runTo_pred hk' hT
      rw [hU] at hU'
      cases hU'
      obtain ⟨φ, h1, h2, h3⟩ := jordan_defect (fused := fused) hu hu1 ⟨k, hk'⟩ hs (hS k hk'.le U hU) hF0
        (fun h => hF ⟨k, hk'⟩ h U hU) x hx (hback ⟨k, hk'⟩).1 r
      have ih' := ih (k + 1) (by omega) T hT
      set M := (1 + F) ^ d * (D + n * (J * X) + d * E) with hM
      have hM0 : 0 ≤ M := (abs_nonneg _).trans (ih' r)
      have h4 : |φ * full U x j ⟨k, hk'⟩| ≤ F * M := by
        cases hpb : pb ⟨k, hk'⟩ with
        | true => rw [h2 hpb, zero_mul, abs_zero]; positivity
        | false =>
          have hTk : T ⟨k, hk'⟩ = U ⟨k, hk'⟩ := by
            rcases step_factors _ tol pb pv U T ⟨k, hk'⟩ hpb hs with ⟨-, -, rfl⟩ | ⟨-, -, h⟩
            · rfl
            · exact h _ (fun h => h.1.1 rfl)
          have h6 := ih' ⟨k, hk'⟩
          rw [((hback ⟨k, hk'⟩).2.1 hpb).1, sub_zero] at h6
          rw [show full U x j ⟨k, hk'⟩ = full T x j ⟨k, hk'⟩ by unfold full; rw [hTk], abs_mul]
          exact mul_le_mul h1 h6 (abs_nonneg _) hF0
      have h7 : full U x j r - R r =
          (full U x j r - φ * full U x j ⟨k, hk'⟩ - full T x j r) +
          ((full T x j r - R r) + φ * full U x j ⟨k, hk'⟩) := by ring
      rw [h7]
      refine (abs_add_le _ _).trans ((add_le_add h3 (abs_add_le _ _)).trans ?_)
      have h8 := ih' r
      have h9 : E ≤ (1 + F) ^ (d + 1) * E :=
        le_mul_of_one_le_left hE0 (one_le_pow₀ (by linarith))
      have h10 : (1 + F) ^ (d + 1) * (D + n * (J * X) + ((d + 1 : ℕ) : K) * E) =
          (1 + F) * M + (1 + F) ^ (d + 1) * E := by
        rw [hM]; push_cast; ring
      rw [h10]
      linarith
  exact key n 0 (by omega) S0 (runTo_zero _ _ _ _ _) r

end

end Verif.RSolve
