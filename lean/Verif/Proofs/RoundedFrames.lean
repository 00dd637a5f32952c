import Verif.Model.RoundedFrames
import Verif.Proofs.RoundingKernels
import Mathlib.Algebra.Order.BigOperators.Group.Finset
import Mathlib.Algebra.BigOperators.Ring.Finset
import Mathlib.Algebra.Order.BigOperators.Ring.Finset
import Mathlib.Algebra.BigOperators.Fin

/-!
# Lemmas about scalar products with rounded arithmetic
-/

set_option linter.unusedSectionVars false

namespace Verif.RFrames
open Verif Verif.Rnd

section
variable {K : Type} [Field K] [LinearOrder K] [IsStrictOrderedRing K] {n : ℕ} {fl : K → K}

theorem Near.mul2 {u : K} (hu : 0 ≤ u) {m k : ℕ} {B C x y x' y' : K} (h : Near u m B x y)
    (h' : Near u k C x' y') : Near u (m + k) (B * C) (x * x') (y * y') := by
  have hB : 0 ≤ B := (abs_nonneg _).trans h.2
  have hC : 0 ≤ C := (abs_nonneg _).trans h'.2
  have hm := one_le_pow₀ (show 1 ≤ 1 + u by linarith) (n := m)
  have hk := one_le_pow₀ (show 1 ≤ 1 + u by linarith) (n := k)
  refine ⟨?_, ?_⟩
  · have e : x * x' - y * y' = (x - y) * (x' - y') + (x - y) * y' + y * (x' - y') := by ring
    rw [e]
    have h1 : |(x - y) * (x' - y')| ≤ ((1 + u) ^ m - 1) * B * (((1 + u) ^ k - 1) * C) := by
      rw [abs_mul]
      exact mul_le_mul h.1 h'.1 (abs_nonneg _) (mul_nonneg (by linarith) hB)
    have h2 : |(x - y) * y'| ≤ ((1 + u) ^ m - 1) * B * C := by
      rw [abs_mul]
      exact mul_le_mul h.1 h'.2 (abs_nonneg _) (mul_nonneg (by linarith) hB)
    have h3 : |y * (x' - y')| ≤ B * (((1 + u) ^ k - 1) * C) := by
      rw [abs_mul]
      exact mul_le_mul h.2 h'.1 (abs_nonneg _) hB
    have h4 := abs_add_le ((x - y) * (x' - y') + (x - y) * y') (y * (x' - y'))
    have h5 := abs_add_le ((x - y) * (x' - y')) ((x - y) * y')
    have : ((1 + u) ^ (m + k) - 1) * (B * C) = ((1 + u) ^ m - 1) * B * (((1 + u) ^ k - 1) * C) +
        ((1 + u) ^ m - 1) * B * C + B * (((1 + u) ^ k - 1) * C) := by rw [pow_add]; ring
    rw [this]
    linarith
  · rw [abs_mul]
    exact mul_le_mul h.2 h'.2 (abs_nonneg _) hB

theorem Near.exact {u : K} (x B : K) (h : |x| ≤ B) : Near u 0 B x x := by simpa [Near] using h

/-- The error of a scalar product evaluated along a plan, for factors that are known up to `m` and `k`
roundings. -/
theorem eval_near {u : K} (hu : Precise fl u) {m k : ℕ} (a b A B BA BB : Fin n → K)
    (ha : ∀ i, Near u m (BA i) (a i) (A i)) (hb : ∀ i, Near u k (BB i) (b i) (B i)) (p : Plan n) :
    Near u (p.height + (m + k)) (p.terms.map fun i => BA i * BB i).sum (p.eval fl a b)
      (p.terms.map fun i => A i * B i).sum := by
  have hu0 := hu.nonneg
  have hprod : ∀ i, Near u (m + k) (BA i * BB i) (a i * b i) (A i * B i) :=
    fun i => Near.mul2 hu0 (ha i) (hb i)
  induction p with
  | zero => simp [Plan.eval, Plan.terms, Near]
  | prod i =>
    simp only [Plan.terms, Plan.eval, Plan.height, List.map_cons, List.map_nil, List.sum_cons,
      List.sum_nil, add_zero]
    exact ((hprod i).round hu).more hu0 (by omega)
  | add l r hl hr =>
    simp only [Plan.terms, Plan.eval, Plan.height, List.map_append, List.sum_append]
    have h1 := hl.more hu0 (show l.height + (m + k) ≤ max l.height r.height + (m + k) by omega)
    have h2 := hr.more hu0 (show r.height + (m + k) ≤ max l.height r.height + (m + k) by omega)
    exact ((h1.add h2).round hu).more hu0 (by omega)
  | fma l i hl =>
    simp only [Plan.terms, Plan.eval, Plan.height, List.map_append, List.sum_append, List.map_cons,
      List.map_nil, List.sum_cons, List.sum_nil, add_zero]
    exact ((hl.add ((hprod i).more hu0 (by omega))).round hu).more hu0 (by omega)

/-- The sum over the components of a complete plan. -/
theorem terms_sum {p : Plan n} (hp : p.terms.Perm (List.finRange n)) (f : Fin n → K) :
    (p.terms.map f).sum = ∑ i, f i := by
  rw [(hp.map f).sum_eq, ← List.ofFn_eq_map, List.sum_ofFn]

/-- Matrices of numbers known up to `m` roundings. -/
def NearM (u : K) (m : ℕ) (B X Y : Matrix (Fin n) (Fin n) K) : Prop :=
  ∀ i j, Near u m (B i j) (X i j) (Y i j)

theorem NearM.exact {u : K} (A : Matrix (Fin n) (Fin n) K) : NearM u 0 (A.map fun x => |x|) A A :=
  fun _ _ => Near.exact _ _ le_rfl

theorem NearM.transpose {u : K} {m : ℕ} {B X Y : Matrix (Fin n) (Fin n) K} (h : NearM u m B X Y) :
    NearM u m B.transpose X.transpose Y.transpose := fun i j => h j i

theorem matmul_near {u : K} (hu : Precise fl u) {h : ℕ} (plan : Fin n → Fin n → Plan n)
    (hp : ∀ i j, (plan i j).terms.Perm (List.finRange n) ∧ (plan i j).height ≤ h)
    {m k : ℕ} {A A' BA C C' BC : Matrix (Fin n) (Fin n) K} (hA : NearM u m BA A A')
    (hC : NearM u k BC C C') : NearM u (h + (m + k)) (BA * BC) (matmul fl plan A C) (A' * C') := by
  intro i j
  have := eval_near hu (A i) (fun l => C l j) (A' i) (fun l => C' l j) (BA i) (fun l => BC l j)
    (fun l => hA i l) (fun l => hC l j) (plan i j)
  rw [terms_sum (hp i j).1, terms_sum (hp i j).1] at this
  exact this.more hu.nonneg (by have := (hp i j).2; omega)

theorem matvec_near {u : K} (hu : Precise fl u) {h : ℕ} (plan : Fin n → Plan n)
    (hp : ∀ i, (plan i).terms.Perm (List.finRange n) ∧ (plan i).height ≤ h)
    {m k : ℕ} {A A' BA : Matrix (Fin n) (Fin n) K} {x y B : Fin n → K} (hA : NearM u m BA A A')
    (hx : ∀ i, Near u k (B i) (x i) (y i)) (i : Fin n) :
    Near u (h + (m + k)) (∑ l, BA i l * B l) (matvec fl plan A x i) (∑ l, A' i l * y l) := by
  have := eval_near hu (A i) x (A' i) y (BA i) B (fun l => hA i l) hx (plan i)
  rw [terms_sum (hp i).1, terms_sum (hp i).1] at this
  exact this.more hu.nonneg (by have := (hp i).2; omega)

/-! ## Sums of absolute values of rows -/

/-- Products of bounds on rows. -/
theorem row_mul {A B : Matrix (Fin n) (Fin n) K} {a b : K} (hA0 : ∀ i j, 0 ≤ A i j)
    (hA : ∀ i, ∑ j, A i j ≤ a) (hb : 0 ≤ b) (hB : ∀ i, ∑ j, B i j ≤ b) (i : Fin n) :
    ∑ j, (A * B) i j ≤ a * b := by
  simp only [Matrix.mul_apply]
  rw [Finset.sum_comm]
  calc ∑ k, ∑ j, A i k * B k j = ∑ k, A i k * ∑ j, B k j := by
        simp only [Finset.mul_sum]
    _ ≤ ∑ k, A i k * b := Finset.sum_le_sum fun k _ => mul_le_mul_of_nonneg_left (hB k) (hA0 i k)
    _ = (∑ k, A i k) * b := by rw [Finset.sum_mul]
    _ ≤ a * b := mul_le_mul_of_nonneg_right (hA i) hb

theorem row_vec {A : Matrix (Fin n) (Fin n) K} {x : Fin n → K} {a X : K} (hA0 : ∀ i j, 0 ≤ A i j)
    (hA : ∀ i, ∑ j, A i j ≤ a) (hX : 0 ≤ X) (hx : ∀ i, x i ≤ X) (i : Fin n) :
    ∑ j, A i j * x j ≤ a * X :=
  calc ∑ j, A i j * x j ≤ ∑ j, A i j * X :=
        Finset.sum_le_sum fun j _ => mul_le_mul_of_nonneg_left (hx j) (hA0 i j)
    _ = (∑ j, A i j) * X := by rw [Finset.sum_mul]
    _ ≤ a * X := mul_le_mul_of_nonneg_right (hA i) hX

theorem abs_row_vec {A : Matrix (Fin n) (Fin n) K} {x : Fin n → K} {a X : K}
    (hA : ∀ i, ∑ j, |A i j| ≤ a) (hX : 0 ≤ X) (hx : ∀ i, |x i| ≤ X) (i : Fin n) :
    |∑ j, A i j * x j| ≤ a * X := by
  refine (Finset.abs_sum_le_sum_abs _ _).trans ?_
  simp only [abs_mul]
  exact row_vec (A := A.map fun x => |x|) (fun _ _ => abs_nonneg _) hA hX hx i

theorem nonneg_mul {A B : Matrix (Fin n) (Fin n) K} (hA : ∀ i j, 0 ≤ A i j) (hB : ∀ i j, 0 ≤ B i j)
    (i j : Fin n) : 0 ≤ (A * B) i j := by
  rw [Matrix.mul_apply]
  exact Finset.sum_nonneg fun k _ => mul_nonneg (hA i k) (hB k j)

end

end Verif.RFrames
