import Verif.Model.Products
import Mathlib.Algebra.Order.Field.Basic
import Mathlib.Algebra.Order.BigOperators.Group.Finset
import Mathlib.Algebra.BigOperators.Ring.Finset
import Mathlib.LinearAlgebra.Matrix.Notation
import Mathlib.Algebra.Order.Ring.Rat
import Mathlib.Tactic.Ring

/-!
# C90: compiled matrix products
-/

set_option linter.unusedSectionVars false

namespace Verif.Products.Props

open Verif.Products

section
variable {K : Type} [Field K]

/-- A float array. -/
def arr {r c : ℕ} (a : Fin r → Fin c → K) : Arr K := ⟨r, c, true, a⟩

/-- The form `x · B x`. -/
def form {n : ℕ} (B : Fin n → Fin n → K) (x : Fin n → K) : K := ∑ i, ∑ j, x i * B i j * x j

/-- The image of a vector. -/
def image {p n : ℕ} (A : Fin p → Fin n → K) (x : Fin n → K) (i : Fin p) : K := ∑ j, A i j * x j

theorem dot_arr {p q r : ℕ} (A : Fin p → Fin q → K) (B : Fin q → Fin r → K) :
    dot (arr A) (arr B) = .ok (arr fun i j => ∑ k, A i k * B k j) := by
  unfold dot
  rw [if_pos (show ((arr A).isFloat && (arr B).isFloat) = true from rfl),
    dif_pos (show (arr A).cols = (arr B).rows from rfl)]
  rfl

theorem arr_inj {p q : ℕ} {A B : Fin p → Fin q → K} (h : arr A = arr B) : A = B := by
  unfold arr at h
  injection h with _ _ _ h

theorem T_arr {p q : ℕ} (A : Fin p → Fin q → K) : (arr A).T = arr fun i j => A j i := rfl

theorem atba_arr {p n : ℕ} (A : Fin p → Fin n → K) (B : Fin p → Fin p → K) :
    atba (arr A) (arr B) = .ok (arr fun i j => ∑ l, (∑ k, A k i * B k l) * A l j) := by
  unfold atba
  rw [T_arr, dot_arr]
  exact dot_arr _ _

theorem atbaw_arr {p n : ℕ} (A : Fin p → Fin n → K) (B : Fin p → Fin p → K) (w : K) :
    atbaw (arr A) (arr B) w =
      .ok (arr fun i j => w * ∑ l, (∑ k, A k i * B k l) * A l j) := by
  have h := atba_arr A B
  unfold atba at h
  unfold atbaw
  rw [h]
  rfl

/-- C90: float arrays of matching sizes have products, with these entries; other arrays are
refused. -/
theorem C90_products (A B : Arr K) (w : K) :
    (A.isFloat = false ∨ B.isFloat = false → matmul A B = .error .type ∧ atb A B = .error .type ∧
      matmulw A B w = .error .type ∧ atba A B = .error .type ∧ atbaw A B w = .error .type) ∧
    (∀ p q r (a : Fin p → Fin q → K) (b : Fin q → Fin r → K),
      matmul (arr a) (arr b) = .ok (arr fun i j => ∑ k, a i k * b k j) ∧
      matmulw (arr a) (arr b) w = .ok (arr fun i j => w * ∑ k, a i k * b k j)) ∧
    (∀ p q r (a : Fin q → Fin p → K) (b : Fin q → Fin r → K),
      atb (arr a) (arr b) = .ok (arr fun i j => ∑ k, a k i * b k j)) ∧
    (∀ p q q' r (a : Fin p → Fin q → K) (b : Fin q' → Fin r → K), q ≠ q' →
      matmul (arr a) (arr b) = .error .value) := by
  refine ⟨?_, fun p q r a b => ⟨dot_arr a b, ?_⟩,
    fun p q r a b => dot_arr (fun i j => a j i) b, fun p q q' r a b h => ?_⟩
  · intro h
    have h1 : (A.isFloat && B.isFloat) = false := by rcases h with h | h <;> simp [h]
    have h2 : dot A B = .error .type := by unfold dot; rw [h1]; rfl
    have h3 : dot A.T B = .error .type := by
      unfold dot
      have : (A.T.isFloat && B.isFloat) = false := h1
      rw [this]; rfl
    refine ⟨h2, h3, ?_, ?_, ?_⟩
    · unfold matmulw; rw [h2]; rfl
    · unfold atba; rw [h3]; rfl
    · unfold atbaw; rw [h3]; rfl
  · unfold matmulw
    rw [dot_arr]
    rfl
  · unfold matmul dot
    rw [if_pos (show ((arr a).isFloat && (arr b).isFloat) = true from rfl), dif_neg]
    exact h

/-- C90: `ATBA` is the congruence: its form at `x` is that of `B` at the image of `x`; the weighted
product has the weighted form. -/
theorem C90_congruence {p n : ℕ} (A : Fin p → Fin n → K) (B : Fin p → Fin p → K) (w : K) :
    ∃ S T : Fin n → Fin n → K, atba (arr A) (arr B) = .ok (arr S) ∧
      atbaw (arr A) (arr B) w = .ok (arr T) ∧
      (∀ x, form S x = form B (image A x)) ∧ (∀ x, form T x = w * form B (image A x)) ∧
      (∀ i j, T i j = w * S i j) ∧ (∀ i j, S i j = ∑ k, ∑ l, A k i * B k l * A l j) := by
  have hS : ∀ i j, (∑ l, (∑ k, A k i * B k l) * A l j) = ∑ k, ∑ l, A k i * B k l * A l j := by
    intro i j
    rw [Finset.sum_comm]
    exact Finset.sum_congr rfl fun l _ => by rw [Finset.sum_mul]
  have hf : ∀ x, form (fun i j => ∑ l, (∑ k, A k i * B k l) * A l j) x = form B (image A x) := by
    intro x
    unfold form image
    simp only [hS]
    simp only [Finset.sum_mul, Finset.mul_sum]
    calc ∑ i, ∑ j, ∑ k, ∑ l, x i * (A k i * B k l * A l j) * x j
        = ∑ i, ∑ k, ∑ j, ∑ l, x i * (A k i * B k l * A l j) * x j :=
          Finset.sum_congr rfl fun i _ => Finset.sum_comm
      _ = ∑ k, ∑ i, ∑ j, ∑ l, x i * (A k i * B k l * A l j) * x j := Finset.sum_comm
      _ = ∑ k, ∑ i, ∑ l, ∑ j, x i * (A k i * B k l * A l j) * x j :=
          Finset.sum_congr rfl fun k _ => Finset.sum_congr rfl fun i _ => Finset.sum_comm
      _ = ∑ k, ∑ l, ∑ i, ∑ j, x i * (A k i * B k l * A l j) * x j :=
          Finset.sum_congr rfl fun k _ => Finset.sum_comm
      _ = _ := by
          refine Finset.sum_congr rfl fun k _ => Finset.sum_congr rfl fun l _ => ?_
          rw [Finset.sum_comm]
          exact Finset.sum_congr rfl fun j _ => Finset.sum_congr rfl fun i _ => by ring
  refine ⟨_, _, atba_arr A B, atbaw_arr A B w, hf, fun x => ?_, fun i j => rfl, hS⟩
  rw [← hf x]
  unfold form
  rw [Finset.mul_sum]
  refine Finset.sum_congr rfl fun i _ => ?_
  rw [Finset.mul_sum]
  exact Finset.sum_congr rfl fun j _ => by
    show x i * (w * _) * x j = _
    ring

/-- C90: symmetric matrices stay symmetric. -/
theorem C90_symmetric {p n : ℕ} (A : Fin p → Fin n → K) (B : Fin p → Fin p → K) (w : K)
    (hB : ∀ i j, B i j = B j i) (S : Fin n → Fin n → K)
    (h : atbaw (arr A) (arr B) w = .ok (arr S)) (i j : Fin n) : S i j = S j i := by
  obtain ⟨S', T, -, h2, -, -, h5, h6⟩ := C90_congruence A B w
  rw [h] at h2
  have : S = T := arr_inj (Except.ok.inj h2)
  rw [this, h5, h5, h6, h6, Finset.sum_comm]
  congr 1
  exact Finset.sum_congr rfl fun k _ => Finset.sum_congr rfl fun l _ => by rw [hB l k]; ring

/-- C90: products are transitive: transforming with `A` and then with `C` is transforming with
`A @ C`. -/
theorem C90_transitive {p n m : ℕ} (A : Fin p → Fin n → K) (C : Fin n → Fin m → K)
    (B : Fin p → Fin p → K) (S : Fin n → Fin n → K) (AC : Fin p → Fin m → K)
    (h : atba (arr A) (arr B) = .ok (arr S)) (hAC : matmul (arr A) (arr C) = .ok (arr AC)) :
    atba (arr C) (arr S) = atba (arr AC) (arr B) := by
  have h1 : S = fun i j => ∑ l, (∑ k, A k i * B k l) * A l j := by
    rw [atba_arr] at h; exact (arr_inj (Except.ok.inj h)).symm
  have h2 : AC = fun i j => ∑ k, A i k * C k j := by
    unfold matmul at hAC; rw [dot_arr] at hAC; exact (arr_inj (Except.ok.inj hAC)).symm
  rw [atba_arr, atba_arr, h1, h2]
  congr 2
  funext i j
  simp only [Finset.sum_mul, Finset.mul_sum]
  -- both sides are sums over four indices of the same terms
  calc ∑ l, ∑ k, ∑ b, ∑ a, C k i * (A a k * B a b * A b l) * C l j
      = ∑ l, ∑ b, ∑ k, ∑ a, C k i * (A a k * B a b * A b l) * C l j :=
        Finset.sum_congr rfl fun l _ => Finset.sum_comm
    _ = ∑ b, ∑ l, ∑ k, ∑ a, C k i * (A a k * B a b * A b l) * C l j := Finset.sum_comm
    _ = ∑ b, ∑ l, ∑ a, ∑ k, C k i * (A a k * B a b * A b l) * C l j :=
        Finset.sum_congr rfl fun b _ => Finset.sum_congr rfl fun l _ => Finset.sum_comm
    _ = _ := Finset.sum_congr rfl fun b _ => Finset.sum_congr rfl fun l _ =>
        Finset.sum_congr rfl fun a _ => Finset.sum_congr rfl fun k _ => by ring

end

/-- C90: the form stays nonnegative, for weights that are not negative. -/
theorem C90_semidefinite {K : Type} [Field K] [LinearOrder K] [IsStrictOrderedRing K] {p n : ℕ}
    (A : Fin p → Fin n → K) (B : Fin p → Fin p → K) (w : K) (hw : 0 ≤ w)
    (hB : ∀ y, 0 ≤ form B y) (S : Fin n → Fin n → K)
    (h : atbaw (arr A) (arr B) w = .ok (arr S)) (x : Fin n → K) : 0 ≤ form S x := by
  obtain ⟨S', T, -, h2, -, h4, -, -⟩ := C90_congruence A B w
  rw [h] at h2
  have : S = T := arr_inj (Except.ok.inj h2)
  rw [this, h4]
  exact mul_nonneg hw (hB _)

/-- A rectangular example. -/
example : ∃ S : Fin 2 → Fin 2 → ℚ,
    atbaw (arr ![![1, 2], ![0, 1], ![1, 0]]) (arr ![![2, 0, 0], ![0, 1, 0], ![0, 0, 1]]) (1 / 2) =
      .ok (arr S) ∧ S = ![![3 / 2, 2], ![2, 9 / 2]] :=
  ⟨_, atbaw_arr _ _ _, by decide +kernel⟩

end Verif.Products.Props
