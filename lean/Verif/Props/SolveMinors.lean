import Verif.Proofs.SolveMinors
import Verif.Props.Solve
import Mathlib.Tactic.IntervalCases
import Mathlib.Tactic.FinCases

set_option linter.unusedSectionVars false

/-!
# C25, C26: conditions on the matrix alone

`freeMinor A pb k` is the determinant of the rows and columns of `A` before `k` that are not
prescribed, `bordered A pb k r c` the one with row `r` and column `c` added. `NoneNegligible tol pb A`
says that for every unknown `i` that is not prescribed and every later row `r` the bordered determinant
of row `r` is zero or at least `tol` times that of row `i`.
-/

namespace Verif.Solve.Props

open Verif.Solve
open Verif.Utils (DType store)

/-- A matrix of whole numbers. -/
def exM : Fin 3 → Fin 3 → ℚ := ![![2, 1, 3], ![4, 5, 6], ![3, 1, 1]]

/-- The same with its last row twice its first outside the middle column. -/
def exN : Fin 3 → Fin 3 → ℚ := ![![2, 1, 3], ![4, 5, 6], ![4, 1, 6]]

section
variable {n m : ℕ} {K : Type} [Field K] [LinearOrder K] [IsStrictOrderedRing K] [FloorRing K]

/-- What the elimination makes of a system whose minors are fine. -/
theorem eliminate_ok (me : Method) (tol : K) (ht : 0 < tol) (A : Fin n → Fin n → K)
    (B : Fin n → Fin m → K) (pb : Fin n → Bool) (pv : Fin n → K) (hA : NoneNegligible tol pb A)
    (hM : ∀ i : Fin n, pb i = false →
      if me = .jordan ∨ i.val < n - 1 then tol * |freeMinor A pb i.val| ≤ |freeMinor A pb (i.val + 1)|
      else freeMinor A pb (i.val + 1) ≠ 0) :
    ∃ S, eliminate me tol .float pb pv (fun i => (A i, B i)) = .ok S ∧
      ∀ i, pb i = false → (S i).1 i ≠ 0 := by
  rcases Nat.eq_zero_or_pos n with rfl | hn
  · exact ⟨_, rfl, fun i => i.elim0⟩
  cases me with
  | jordan =>
    obtain ⟨S, hS⟩ := (runTo_ok_iff_free .jordan tol ht pb pv (fun i => (A i, B i)) hA n le_rfl
      (.inl rfl)).2 fun i _ hp => by simpa using hM i hp
    obtain ⟨-, hr, -⟩ := runTo_quotients .jordan tol ht pb pv (fun i => (A i, B i)) hA n le_rfl
      (.inl rfl) S hS
    exact ⟨S, by rw [eliminate_eq]; exact hS, fun i hp => hr i i.isLt hp⟩
  | gaussJordan =>
    obtain ⟨k, rfl⟩ : ∃ k, n = k + 1 := ⟨n - 1, by omega⟩
    obtain ⟨T, hT⟩ := (runTo_ok_iff_free .gaussJordan tol ht pb pv (fun i => (A i, B i)) hA k (by omega)
      (.inr (by omega))).2 fun i hi hp => by
        have := hM i hp
        rw [if_pos (Or.inr (by omega))] at this
        exact this
    obtain ⟨hc, hr, hm, hq⟩ := runTo_quotients .gaussJordan tol ht pb pv (fun i => (A i, B i)) hA k
      (by omega) (.inr (by omega)) T hT
    have hlast : ∃ S, step .gaussJordan tol .float pb pv T ⟨k, by omega⟩ = .ok S ∧
        ∀ i, pb i = false → (S i).1 i = (T i).1 i := by
      cases hp : pb ⟨k, by omega⟩ with
      | true =>
        refine ⟨_, step_presc _ _ _ _ _ _ _ hp, fun i hi => ?_⟩
        have hne : i ≠ ⟨k, by omega⟩ := by intro e; rw [e, hp] at hi; cases hi
        rw [prescStep_apply]
        split
        · simp [prescRow, Function.update_of_ne hne]
        · rfl
      | false =>
        refine ⟨T, ?_, fun _ _ => rfl⟩
        simp [step, gaussStep, hp]
    obtain ⟨S, hS, hd⟩ := hlast
    refine ⟨S, ?_, fun i hp => ?_⟩
    · rw [eliminate_eq, runTo_succ _ _ _ _ _ k (by omega), hT]
      exact hS
    · rw [hd i hp]
      rcases Nat.lt_succ_iff_lt_or_eq.1 i.isLt with h | h
      · exact hr i h hp
      · have := hM i hp
        rw [if_neg (by simp; omega), (freeMinor_succ A pb i).1 hp] at this
        intro h0
        apply this
        rw [h]
        have e := hq i i (by omega) hp
        rw [h0, mul_zero] at e
        exact e

/-- **C25.** If no bordered minor is negligible without being zero and the minors of the unknowns that are
not prescribed do not drop by a factor below `tol` (for the last one Gauss-Jordan only needs that it is not
zero), `linsolve` returns finite `X` and `R`, the solution with the prescribed values. -/
theorem C25_minors (me : Method) (tol : K) (ht : 0 < tol) (A : Fin n → Fin n → K)
    (B : Fin n → Fin m → K) (pb : Fin n → Bool) (pv : Fin n → K) (hA : NoneNegligible tol pb A)
    (hM : ∀ i : Fin n, pb i = false →
      if me = .jordan ∨ i.val < n - 1 then tol * |freeMinor A pb i.val| ≤ |freeMinor A pb (i.val + 1)|
      else freeMinor A pb (i.val + 1) ≠ 0) :
    ∃ (X R : Fin n → Fin m → Option K) (x r : Fin n → Fin m → K),
      linsolve me tol .float A B (some pb) (some pv) = .ok (.constrained X R) ∧
      IsFinite X x ∧ IsFinite R r ∧ (∀ i, pb i = true → ∀ j, x i j = pv i) ∧
      (∀ i, pb i = false → ∀ j, r i j = 0) ∧ ∀ i j, ∑ c, A i c * x c j = B i j + r i j := by
  obtain ⟨S, hS, hp⟩ := eliminate_ok me tol ht A B pb pv hA hM
  choose x hx using fun j => backsub_finite S pb pv hp j
  obtain ⟨r, h1, h2, h3, h4⟩ := core me tol ht A B pb pv
    (clean_of_noneNegligible me tol ht pb pv _ hA) S hS (fun i j => x j i) fun i j => hx j i
  refine ⟨_, _, fun i j => x j i, r, ?_, fun i j => hx j i, h1, h2, h3, h4⟩
  unfold linsolve
  simp only [hS]

/-- **C26** with prescribed values: if no bordered minor is negligible without being zero, a minor that
drops by a factor below `tol` (in particular one that is zero) is reported. -/
theorem C26_minors (me : Method) (tol : K) (ht : 0 < tol) (A : Fin n → Fin n → K)
    (B : Fin n → Fin m → K) (pb : Fin n → Bool) (pv : Fin n → K) (hA : NoneNegligible tol pb A)
    (i : Fin n) (hi : me = .jordan ∨ i.val < n - 1) (hp : pb i = false)
    (hM : |freeMinor A pb (i.val + 1)| < tol * |freeMinor A pb i.val|) :
    linsolve me tol .float A B (some pb) (some pv) = .error .linalg := by
  have hno : ¬ ∃ S, eliminate me tol .float pb pv (fun i => (A i, B i)) = .ok S := by
    rintro ⟨S, hS⟩
    rw [eliminate_eq] at hS
    have : ∃ T, runTo me tol .float pb pv (i.val + 1) (fun i => (A i, B i)) = .ok T := by
      have key : ∀ d, i.val + 1 + d ≤ n →
          (∃ T, runTo me tol .float pb pv (i.val + 1 + d) (fun i => (A i, B i)) = .ok T) →
          ∃ T, runTo me tol .float pb pv (i.val + 1) (fun i => (A i, B i)) = .ok T := by
        intro d
        induction d with
        | zero => exact fun _ h => h
        | succ d ih =>
          rintro hd ⟨T, hT⟩
          obtain ⟨U, hU, -⟩ := runTo_pred (k := i.val + 1 + d) (by omega) hT
          exact ih (by omega) ⟨U, hU⟩
      refine key (n - (i.val + 1)) (by omega) ⟨S, ?_⟩
      rw [show i.val + 1 + (n - (i.val + 1)) = n from by omega]
      exact hS
    have := (runTo_ok_iff_free me tol ht pb pv (fun i => (A i, B i)) hA (i.val + 1) (by omega)
      (hi.imp_right fun h => by omega)).1 this i (by omega) hp
    exact absurd this (not_le.2 hM)
  unfold linsolve
  cases hS : eliminate me tol .float pb pv (fun i => (A i, B i)) with
  | error e => simp [hS]
  | ok S => exact absurd ⟨S, hS⟩ hno

theorem noneNegligible_of_whole (tol : K) (ht : 0 < tol) (A : Fin n → Fin n → K) (pb : Fin n → Bool)
    (hz : ∀ i c, ∃ z : ℤ, A i c = z)
    (hb : ∀ k, k ≤ n → tol * |freeMinor A pb k| ≤ 1) :
    NoneNegligible tol pb A ∧ ∀ k, freeMinor A pb k = 0 ∨ 1 ≤ |freeMinor A pb k| := by
  choose z hz using hz
  have one : ∀ w : ℤ, (w : K) = 0 ∨ 1 ≤ |(w : K)| := by
    intro w
    by_cases h : w = 0
    · exact .inl (by simp [h])
    · right
      rw [← Int.cast_abs]
      exact_mod_cast Int.one_le_abs h
  have hbord : ∀ k r c, ∃ w : ℤ, bordered A pb k r c = w := by
    intro k r c
    refine ⟨(Matrix.of fun (x y : Free pb k ⊕ Unit) =>
      z (x.elim Subtype.val fun _ => r) (y.elim Subtype.val fun _ => c)).det, ?_⟩
    unfold bordered
    rw [show ((Matrix.of fun (x y : Free pb k ⊕ Unit) =>
      z (x.elim Subtype.val fun _ => r) (y.elim Subtype.val fun _ => c)).det : K) =
      Int.castRingHom K _ from rfl, RingHom.map_det]
    congr 1
    ext x y
    simp [hz]
  have hfree : ∀ k, ∃ w : ℤ, freeMinor A pb k = w := by
    intro k
    refine ⟨(Matrix.of fun (x y : Free pb k) => z x.val y.val).det, ?_⟩
    unfold freeMinor
    rw [show ((Matrix.of fun (x y : Free pb k) => z x.val y.val).det : K) =
      Int.castRingHom K _ from rfl, RingHom.map_det]
    congr 1
    ext x y
    simp [hz]
  refine ⟨fun i r hp hr => ?_, fun k => ?_⟩
  · obtain ⟨w, hw⟩ := hbord i.val r i
    rw [hw]
    rcases one w with h | h
    · exact .inl h
    · right
      rw [← (freeMinor_succ A pb i).1 hp]
      exact (hb _ i.isLt).trans h
  · obtain ⟨w, hw⟩ := hfree k
    rw [hw]
    exact one w

/-- **C25, C26 for whole numbers.** If the entries of the matrix are whole numbers (stored as floats) and
no minor of the unknowns that are not prescribed exceeds `1/tol`, then `linsolve` returns the solution if
these minors are not zero, and reports a singular matrix if one of them is (for Gauss-Jordan: one but the
last). -/
theorem C25_whole_numbers (me : Method) (tol : K) (ht : 0 < tol) (A : Fin n → Fin n → K)
    (B : Fin n → Fin m → K) (pb : Fin n → Bool) (pv : Fin n → K) (hz : ∀ i c, ∃ z : ℤ, A i c = z)
    (hb : ∀ k, k ≤ n → tol * |freeMinor A pb k| ≤ 1) :
    ((∀ i : Fin n, pb i = false → freeMinor A pb (i.val + 1) ≠ 0) →
      ∃ (X R : Fin n → Fin m → Option K) (x r : Fin n → Fin m → K),
        linsolve me tol .float A B (some pb) (some pv) = .ok (.constrained X R) ∧
        IsFinite X x ∧ IsFinite R r ∧ (∀ i, pb i = true → ∀ j, x i j = pv i) ∧
        (∀ i, pb i = false → ∀ j, r i j = 0) ∧ ∀ i j, ∑ c, A i c * x c j = B i j + r i j) ∧
    ((∃ i : Fin n, (me = .jordan ∨ i.val < n - 1) ∧ pb i = false ∧ freeMinor A pb (i.val + 1) = 0) →
      linsolve me tol .float A B (some pb) (some pv) = .error .linalg) := by
  obtain ⟨hA, hone⟩ := noneNegligible_of_whole tol ht A pb hz hb
  refine ⟨fun h => C25_minors me tol ht A B pb pv hA fun i hp => ?_, ?_⟩
  · split
    · exact (hb _ i.isLt.le).trans ((hone _).resolve_left (h i hp))
    · exact h i hp
  · rintro ⟨i, hi, hp, h0⟩
    -- the first minor that vanishes
    classical
    have hex : ∃ k : ℕ, ∃ hk : k < n, pb ⟨k, hk⟩ = false ∧ freeMinor A pb (k + 1) = 0 :=
      ⟨i.val, i.isLt, hp, h0⟩
    obtain ⟨hk, hpk, hk0⟩ := Nat.find_spec hex
    have hle : Nat.find hex ≤ i.val := Nat.find_min' hex ⟨i.isLt, hp, h0⟩
    have hmin : ∀ j, j < Nat.find hex → ∀ hj : j < n, pb ⟨j, hj⟩ = false → freeMinor A pb (j + 1) ≠ 0 := by
      intro j hj hjn hpj h
      exact Nat.find_min hex hj ⟨hjn, hpj, h⟩
    have hne : freeMinor A pb (Nat.find hex) ≠ 0 := by
      have : ∀ k, k ≤ Nat.find hex → freeMinor A pb k ≠ 0 := by
        intro k
        induction k with
        | zero =>
          intro _
          unfold freeMinor
          have : IsEmpty (Free pb 0) := ⟨fun x => absurd x.2.1 (Nat.not_lt_zero _)⟩
          rw [Matrix.det_isEmpty]
          exact one_ne_zero
        | succ k ih =>
          intro hk'
          have hkn : k < n := by omega
          cases hpk' : pb ⟨k, hkn⟩ with
          | false => exact hmin k (by omega) hkn hpk'
          | true =>
            have := (freeMinor_succ A pb ⟨k, hkn⟩).2 hpk'
            simp only at this
            rw [this]
            exact ih (by omega)
      exact this _ le_rfl
    refine C26_minors me tol ht A B pb pv hA ⟨Nat.find hex, hk⟩ (hi.imp_right fun h => ?_) hpk ?_
    · show Nat.find hex < n - 1
      omega
    · show |freeMinor A pb (Nat.find hex + 1)| < tol * |freeMinor A pb (Nat.find hex)|
      rw [hk0, abs_zero]
      exact mul_pos ht (abs_pos.2 hne)

/-- Without prescribed values `linsolve` does what it does when none is prescribed. -/
theorem C25_none_prescribed (me : Method) (tol : K) (d : DType) (A : Fin n → Fin n → K)
    (B : Fin n → Fin m → K) (pb : Option (Fin n → Bool)) :
    linsolve me tol d A B pb none =
      (linsolve me tol d A B (some fun _ => false) (some fun _ => 0)).map fun r => match r with
        | .constrained X _ => .solution X
        | .solution X => .solution X := by
  unfold linsolve
  cases h : eliminate me tol d (fun _ => false) (fun _ => 0) (fun i => (A i, B i)) <;>
    simp only [h] <;> rfl

end

/-- The middle of three unknowns is prescribed: the other two have the minors `2` and `2 * 1 - 3 * 3 = -7`. -/
example : (∀ i c, ∃ z : ℤ, exM i c = z) ∧
    (∀ k, k ≤ 3 → (1 / 100 : ℚ) * |freeMinor exM (fun i => i = 1) k| ≤ 1) ∧
    ∀ i : Fin 3, decide (i = 1) = false → freeMinor exM (fun i => i = 1) (i.val + 1) ≠ 0 := by
  refine ⟨fun i c => ⟨![![2, 1, 3], ![4, 5, 6], ![3, 1, 1]] i c, ?_⟩, ?_, ?_⟩
  · fin_cases i <;> fin_cases c <;> rfl
  · intro k hk
    interval_cases k <;> decide +kernel
  · decide +kernel

/-- With rows and columns 0 and 2 dependent the remaining system is singular, whatever is prescribed for
the middle unknown. -/
example : freeMinor exN (fun i => i = 1) 3 = 0 := by decide +kernel

end Verif.Solve.Props
