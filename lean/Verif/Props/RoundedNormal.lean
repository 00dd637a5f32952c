import Verif.Proofs.RoundedNormal
import Mathlib.LinearAlgebra.Matrix.Notation
import Mathlib.Tactic.FinCases

/-!
# C111: Cartesian frames in floating point arithmetic
-/

set_option linter.unusedSectionVars false

namespace Verif.RNormal.Props
open Verif Verif.Rnd Verif.RFrames Verif.RNormal

noncomputable section
variable {n : ℕ} {fl : ℝ → ℝ} {u : ℝ}

/-- Every scalar product and every sum makes use of all of its terms once, and no more than `h` roundings follow each
other. -/
structure OK (o : Orders n) (h : ℕ) : Prop where
  gram : ∀ i j, (o.gram i j).terms.Perm (List.finRange n) ∧ (o.gram i j).height ≤ h
  trace : (o.trace.terms.Nodup ∧ ∀ i, i ∈ o.trace.terms) ∧ o.trace.height ≤ h
  total : (o.total.terms.Nodup ∧ ∀ ij, ij ∈ o.total.terms) ∧ o.total.height ≤ h
  norm : ∀ i, (o.norm i).terms.Perm (List.finRange n) ∧ (o.norm i).height ≤ h

/-- The relative error of the norm of a library is at most `e`. -/
def NormOK (nrm : (Fin n → ℝ) → ℝ) (e : ℝ) : Prop :=
  ∀ v, |nrm v - Real.sqrt (∑ k, v k ^ 2)| ≤ e * Real.sqrt (∑ k, v k ^ 2)

/-- C111: `CartesianFrame(axes, normalize=True)`, if it returns: the base vectors have the length one and the directions
of the given ones, up to rounding errors. -/
theorem C111_unit (hu : Precise fl u) {e : ℝ} (he0 : 0 ≤ e) (he : e < 1) (hδ : u + e < 1 - e) (atol rtol : ℝ)
    (o : Orders n) (nrm : (Fin n → ℝ) → ℝ) (hn : NormOK nrm e) (assume : Bool) (axes : Matrix (Fin n) (Fin n) ℝ)
    (h0 : ∀ i, axes i ≠ 0) (f : Fin n → Fin n → Option ℝ)
    (hf : cartesian fl atol rtol o nrm true assume axes = .ok f) :
    ∃ W : Matrix (Fin n) (Fin n) ℝ, (∀ i j, f i j = some (W i j)) ∧ ∀ i,
      |Real.sqrt (∑ k, W i k ^ 2) - 1| ≤ (u + e) / (1 - e) ∧
      ∀ k, |W i k * Real.sqrt (∑ k, axes i k ^ 2) - axes i k| ≤ (u + e) / (1 - e) * |axes i k| := by
  have hu0 := hu.nonneg
  have hent := fun i k => entry_near (v := axes i k) hu he0 he (len_pos (h0 i)) (hn (axes i))
  refine ⟨fun i k => fl (axes i k / nrm (axes i)), fun i j => ?_, fun i => ⟨?_, fun k => (hent i k).2⟩⟩
  · unfold cartesian at hf
    split at hf
    · cases hf
    · rw [if_pos rfl] at hf
      obtain rfl := Except.ok.inj hf
      unfold normalizeFrame
      rw [if_neg (hent i j).1]
  · refine len_near (len_pos (h0 i)) (div_nonneg (by linarith) (by linarith)) ?_ (axes i) _ rfl fun k => (hent i k).2
    rw [div_lt_one (by linarith)]
    exact hδ

/-- C111: axes that are perpendicular up to `κ` (the cosines of the angles) are accepted for normalization. -/
theorem C111_accepts (hu : Precise fl u) (hu1 : u ≤ 1 / 2 ^ 18) {h : ℕ} (o : Orders n) (ho : OK o h)
    {atol rtol κ : ℝ} (ha : 0 ≤ atol) (hr : 1 / 2 ^ 17 ≤ rtol) (hκ0 : 0 ≤ κ)
    (hκ : n * (κ + 3 * ((1 + u) ^ h - 1)) ≤ 1 / 2 ^ 18) (nrm : (Fin n → ℝ) → ℝ) (assume : Bool)
    (axes : Matrix (Fin n) (Fin n) ℝ)
    (hA : ∀ i j, i ≠ j → |∑ k, axes i k * axes j k| ≤
      κ * (Real.sqrt (∑ k, axes i k ^ 2) * Real.sqrt (∑ k, axes j k ^ 2))) :
    ∃ f, cartesian fl atol rtol o nrm true assume axes = .ok f := by
  have := rect_of hu hu1 o ho.gram ho.trace ho.total ha hr hκ0 hκ axes hA
  unfold cartesian
  rw [if_neg (fun h => h.2 this), if_pos rfl]
  exact ⟨_, rfl⟩

/-- C111: what `CartesianFrame(axes, normalize=True)` makes of nearly perpendicular axes passes the tests of the
constructor, so that the frame can be copied. -/
theorem C111_again (hu : Precise fl u) {e : ℝ} (he0 : 0 ≤ e) {h : ℕ} (hn : 0 < n)
    {atol rtol κ : ℝ} (ha : 0 ≤ atol) (hr : 1 / 2 ^ 17 ≤ rtol) (hκ0 : 0 ≤ κ)
    (hκ : n * (κ + e + ((1 + u) ^ (h + 1) - 1)) ≤ 1 / 2 ^ 21)
    (nrm : (Fin n → ℝ) → ℝ) (hnrm : NormOK nrm e) (assume : Bool)
    (axes : Matrix (Fin n) (Fin n) ℝ) (h0 : ∀ i, axes i ≠ 0)
    (hA : ∀ i j, i ≠ j → |∑ k, axes i k * axes j k| ≤
      κ * (Real.sqrt (∑ k, axes i k ^ 2) * Real.sqrt (∑ k, axes j k ^ 2)))
    (o o' : Orders n) (ho : OK o h) (ho' : OK o' h) :
    ∃ W : Matrix (Fin n) (Fin n) ℝ,
      cartesian fl atol rtol o nrm true assume axes = .ok (fun i j => some (W i j)) ∧
      cartesian fl atol rtol o' nrm false false W = .ok (fun i j => some (W i j)) := by
  have hu0 := hu.nonneg
  have hn1 : (1 : ℝ) ≤ n := by exact_mod_cast hn
  set Γ : ℝ := (1 + u) ^ (h + 1) - 1 with hΓ
  have hone := one_le_pow₀ (show 1 ≤ 1 + u by linarith) (n := h)
  have huΓ : u ≤ Γ := by
    rw [hΓ, pow_succ]
    nlinarith
  have hγΓ : (1 + u) ^ h - 1 ≤ Γ := by
    rw [hΓ, pow_succ]
    nlinarith
  have hsum : κ + e + Γ ≤ 1 / 2 ^ 21 := by
    have : 1 * (κ + e + Γ) ≤ n * (κ + e + Γ) := mul_le_mul_of_nonneg_right hn1 (by linarith)
    linarith
  have hδ : (u + e) / (1 - e) ≤ 2 * (Γ + e) := by
    rw [div_le_iff₀ (by linarith)]
    nlinarith
  set δ : ℝ := (u + e) / (1 - e) with hδdef
  have hδ0 : 0 ≤ δ := div_nonneg (by linarith) (by linarith)
  have hent := fun i k => entry_near (v := axes i k) hu he0 (by linarith) (len_pos (h0 i)) (hnrm (axes i))
  have hlen := fun i => len_near (len_pos (h0 i)) hδ0 (by linarith) (axes i) (fun k => fl (axes i k / nrm (axes i))) rfl
    fun k => (hent i k).2
  have hδ' : (u + e) / (1 - e) ≤ 1.01 * (Γ + e) := by
    rw [div_le_iff₀ (by linarith)]
    nlinarith
  refine ⟨fun i k => fl (axes i k / nrm (axes i)), ?_, ?_⟩
  · have hκ' : n * (κ + 3 * ((1 + u) ^ h - 1)) ≤ 1 / 2 ^ 18 := by
      have : n * (κ + 3 * ((1 + u) ^ h - 1)) ≤ n * (8 * (κ + e + Γ)) :=
        mul_le_mul_of_nonneg_left (by linarith) (by linarith)
      linarith
    have := rect_of hu (by linarith) o ho.gram ho.trace ho.total ha hr hκ0 hκ' axes hA
    unfold cartesian
    rw [if_neg (fun h => h.2 this), if_pos rfl]
    congr 1
    funext i j
    unfold normalizeFrame
    rw [if_neg (hent i j).1]
  · have hdot : ∀ i j, i ≠ j → |∑ k, fl (axes i k / nrm (axes i)) * fl (axes j k / nrm (axes j))| ≤
        (1.01 * (κ + (2 * δ + δ ^ 2))) * (len (fun k => fl (axes i k / nrm (axes i))) *
          len (fun k => fl (axes j k / nrm (axes j)))) := by
      intro i j hij
      have h1 := dot_near (len_pos (h0 i)) (len_pos (h0 j)) hδ0 (axes i) (fun k => fl (axes i k / nrm (axes i)))
        (axes j) (fun k => fl (axes j k / nrm (axes j))) rfl rfl (fun k => (hent i k).2) (fun k => (hent j k).2)
        (hA i j hij)
      refine h1.trans ?_
      have l1 := (abs_le.1 (hlen i)).1
      have l2 := (abs_le.1 (hlen j)).1
      have l3 : (1 - δ) * (1 - δ) ≤ len (fun k => fl (axes i k / nrm (axes i))) *
          len (fun k => fl (axes j k / nrm (axes j))) :=
        mul_le_mul (by linarith) (by linarith) (by linarith) (len_nonneg _)
      have l4 : 1 ≤ 1.01 * ((1 - δ) * (1 - δ)) := by nlinarith
      have l5 : 0 ≤ κ + (2 * δ + δ ^ 2) := by positivity
      nlinarith [mul_le_mul_of_nonneg_left l3 l5]
    have hκ' : n * (1.01 * (κ + (2 * δ + δ ^ 2)) + 3 * ((1 + u) ^ h - 1)) ≤ 1 / 2 ^ 18 := by
      have : n * (1.01 * (κ + (2 * δ + δ ^ 2)) + 3 * ((1 + u) ^ h - 1)) ≤ n * (8 * (κ + e + Γ)) := by
        refine mul_le_mul_of_nonneg_left ?_ (by linarith)
        have : δ ^ 2 ≤ 0.01 * δ := by
          rw [sq]
          exact mul_le_mul_of_nonneg_right (by linarith) hδ0
        linarith
      linarith
    have r1 := rect_of hu (by linarith) o' ho'.gram ho'.trace ho'.total ha hr (by positivity) hκ'
      (fun i k => fl (axes i k / nrm (axes i))) hdot
    have r2 := normal_of hu (by linarith) o' ho'.norm ha hr (by linarith) (δ := δ) (by linarith)
      (fun i k => fl (axes i k / nrm (axes i))) hlen
    unfold cartesian
    rw [if_neg (fun h => h.2 r1), if_neg (by decide), if_neg (fun h => h.2 r2)]

/-- C111: axes that `CartesianFrame(axes)` accepts are those of the frame, have the length one up to 2⁻¹⁵ and are
perpendicular up to n·2⁻¹⁵. -/
theorem C111_accepted (hu : Precise fl u) (hu1 : u ≤ 1 / 2 ^ 20) {h : ℕ} (o : Orders n) (ho : OK o h)
    {atol rtol : ℝ} (ha : 0 ≤ atol) (hr : 0 ≤ rtol) (har : atol + rtol ≤ 1 / 2 ^ 16)
    (hΓ : (1 + u) ^ (h + 1) - 1 ≤ 1 / 2 ^ 20) (nrm : (Fin n → ℝ) → ℝ)
    (axes : Matrix (Fin n) (Fin n) ℝ) (f : Fin n → Fin n → Option ℝ)
    (hf : cartesian fl atol rtol o nrm false false axes = .ok f) :
    (∀ i j, f i j = some (axes i j)) ∧ (∀ i, |Real.sqrt (∑ k, axes i k ^ 2) - 1| ≤ 1 / 2 ^ 15) ∧
      ∀ i j, i ≠ j → |∑ k, axes i k * axes j k| ≤ n / 2 ^ 15 := by
  have hu0 := hu.nonneg
  have hone := one_le_pow₀ (show 1 ≤ 1 + u by linarith) (n := h)
  have hγΓ : (1 + u) ^ h - 1 ≤ (1 + u) ^ (h + 1) - 1 := by
    rw [pow_succ]
    nlinarith
  unfold cartesian at hf
  split at hf
  · cases hf
  rename_i hrect
  rw [if_neg (by decide)] at hf
  split at hf
  · cases hf
  rename_i hnorm
  have hrect' : isRectangular fl atol rtol o axes := by
    by_contra hc
    exact hrect ⟨rfl, hc⟩
  have hnorm' : isNormal fl atol rtol o axes := by
    by_contra hc
    exact hnorm ⟨rfl, hc⟩
  obtain rfl := Except.ok.inj hf
  have hlen : ∀ i, |len (axes i) - 1| ≤ 1 / 2 ^ 15 := by
    intro i
    have h1 := isclose_says hu hu1 ha hr (hnorm' i)
    rw [abs_one, mul_one] at h1
    have h2 := rowNorm_near hu (o.norm i) (ho.norm i) (by linarith) (axes i)
    have h0 := len_nonneg (axes i)
    have h3 : |rowNorm fl (o.norm i) (axes i) - len (axes i)| ≤ 1 / 2 ^ 20 * len (axes i) :=
      h2.trans (mul_le_mul_of_nonneg_right hΓ h0)
    have h4 : |rowNorm fl (o.norm i) (axes i) - 1| ≤ (1 + 1 / 2 ^ 17) * (1 / 2 ^ 16) :=
      h1.trans (mul_le_mul_of_nonneg_left har (by norm_num))
    obtain ⟨a1, a2⟩ := abs_le.1 h3
    obtain ⟨b1, b2⟩ := abs_le.1 h4
    rw [abs_le]
    constructor <;> norm_num at * <;> linarith
  refine ⟨fun i j => rfl, hlen, fun i j hij => ?_⟩
  exact rect_says hu hu1 o ho.gram ho.trace ho.total ha hr har (by linarith) axes
    (fun i => by linarith [(abs_le.1 (hlen i)).2]) hrect' i j hij

/-- C111: with `assume_cartesian=True` all axes are accepted; without `normalize=True` they are kept. -/
theorem C111_assumed (fl : ℝ → ℝ) (atol rtol : ℝ) (o : Orders n) (nrm : (Fin n → ℝ) → ℝ) (normalize : Bool)
    (axes : Matrix (Fin n) (Fin n) ℝ) :
    ∃ f, cartesian fl atol rtol o nrm normalize true axes = .ok f ∧
      (normalize = false → ∀ i j, f i j = some (axes i j)) := by
  unfold cartesian
  rw [if_neg (by simp)]
  cases normalize
  · rw [if_neg (by decide), if_neg (by simp)]
    exact ⟨_, rfl, fun _ _ _ => rfl⟩
  · rw [if_pos rfl]
    exact ⟨_, rfl, fun h => by cases h⟩

theorem precise_id : Precise (id : ℝ → ℝ) 0 := fun x => by simp

/-- without rounding errors -/
theorem isRectangular_id {atol rtol : ℝ} {h : ℕ} (o : Orders n) (ho : OK o h) (A : Matrix (Fin n) (Fin n) ℝ) :
    isRectangular id atol rtol o A ↔
      abs ((∑ i, |∑ k, A i k * A i k|) - ∑ i, ∑ j, |∑ k, A i k * A j k|) ≤
        atol + rtol * abs (∑ i, ∑ j, |∑ k, A i k * A j k|) := by
  have hG : ∀ i j, matmul id o.gram A A.transpose i j = ∑ k, A i k * A j k := fun i j => by
    have := gram_entry precise_id o.gram ho.gram A i j
    simpa [sub_eq_zero] using this
  have h1 : (o.trace.eval id fun i => |matmul id o.gram A A.transpose i i|) =
      ∑ i, |matmul id o.gram A A.transpose i i| := by
    have := (tree_near precise_id (fun i => |matmul id o.gram A A.transpose i i|) (fun _ => abs_nonneg _) o.trace).1
    rw [complete_sum ho.trace.1] at this
    simpa [sub_eq_zero] using this
  have h2 : (o.total.eval id fun ij => |matmul id o.gram A A.transpose ij.1 ij.2|) =
      ∑ i, ∑ j, |matmul id o.gram A A.transpose i j| := by
    have := (tree_near precise_id (fun ij : Fin n × Fin n => |matmul id o.gram A A.transpose ij.1 ij.2|)
      (fun _ => abs_nonneg _) o.total).1
    rw [complete_sum ho.total.1, Fintype.sum_prod_type] at this
    simpa [sub_eq_zero] using this
  unfold isRectangular isclose
  simp only [Matrix.map_apply, h1, h2, id_eq]
  simp only [hG]

/-- C111 fails for base vectors of different lengths, without any rounding: the base vectors (10⁶, 0) and (1, 1) pass for
perpendicular ones, and the frame has base vectors of length one at an angle of 45 degrees. It says that it is
Cartesian, and cannot be copied. -/
theorem C111_skew_violated {h : ℕ} (o o' : Orders 2) (ho : OK o h) (ho' : OK o' h) :
    ∃ W : Matrix (Fin 2) (Fin 2) ℝ,
      cartesian id (1 / 10 ^ 8) (1 / 10 ^ 5) o (fun v => Real.sqrt (∑ k, v k ^ 2)) true false !![10 ^ 6, 0; 1, 1] =
        .ok (fun i j => some (W i j)) ∧
      7 / 10 ≤ ∑ k, W 0 k * W 1 k ∧
      cartesian id (1 / 10 ^ 8) (1 / 10 ^ 5) o' (fun v => Real.sqrt (∑ k, v k ^ 2)) false false W =
        .error .assertion := by
  have hs2 : Real.sqrt 2 ^ 2 = 2 := Real.sq_sqrt (by norm_num)
  have hs0 : 0 < Real.sqrt 2 := Real.sqrt_pos.2 (by norm_num)
  have hs1 : Real.sqrt 2 < 3 / 2 := by
    nlinarith
  have hsl : 7 / 5 < Real.sqrt 2 := by
    nlinarith
  have l0 : Real.sqrt ((10 ^ 6) ^ 2) = (10 : ℝ) ^ 6 := Real.sqrt_sq (by norm_num)
  have hinv : 1 / Real.sqrt 2 = Real.sqrt 2 / 2 := by
    field_simp
    linarith
  refine ⟨!![1, 0; Real.sqrt 2 / 2, Real.sqrt 2 / 2], ?_, ?_, ?_⟩
  · have hr : isRectangular id (1 / 10 ^ 8) (1 / 10 ^ 5) o !![10 ^ 6, 0; 1, 1] := by
      rw [isRectangular_id o ho]
      simp only [Fin.sum_univ_two, Matrix.of_apply, Matrix.cons_val', Matrix.cons_val_zero, Matrix.cons_val_one,
        Matrix.cons_val_fin_one]
      norm_num
    unfold cartesian
    rw [if_neg (fun h => h.2 hr), if_pos rfl]
    congr 1
    funext i j
    unfold normalizeFrame
    fin_cases i <;> fin_cases j <;>
      simp [Fin.sum_univ_two, l0, hs0.ne', one_add_one_eq_two] <;> linarith [hinv, one_div (Real.sqrt 2)]
  · simp [Fin.sum_univ_two]
    linarith
  · have hr : ¬ isRectangular id (1 / 10 ^ 8) (1 / 10 ^ 5) o'
        !![1, 0; Real.sqrt 2 / 2, Real.sqrt 2 / 2] := by
      rw [isRectangular_id o' ho']
      simp only [Fin.sum_univ_two, Matrix.of_apply, Matrix.cons_val', Matrix.cons_val_zero, Matrix.cons_val_one,
        Matrix.cons_val_fin_one]
      have a1 : (Real.sqrt 2 / 2 * (Real.sqrt 2 / 2) + Real.sqrt 2 / 2 * (Real.sqrt 2 / 2)) = 1 := by nlinarith
      rw [a1]
      have a2 : |1 * (Real.sqrt 2 / 2) + 0 * (Real.sqrt 2 / 2)| = Real.sqrt 2 / 2 := by
        rw [abs_of_nonneg] <;> linarith
      have a3 : |Real.sqrt 2 / 2 * 1 + Real.sqrt 2 / 2 * 0| = Real.sqrt 2 / 2 := by
        rw [abs_of_nonneg] <;> linarith
      rw [a2, a3]
      norm_num
      rw [abs_of_nonpos (show (2 : ℝ) - (1 + Real.sqrt 2 / 2 + (Real.sqrt 2 / 2 + 1)) ≤ 0 by linarith),
        abs_of_nonneg (show (0 : ℝ) ≤ 1 + Real.sqrt 2 / 2 + (Real.sqrt 2 / 2 + 1) by linarith)]
      linarith
    unfold cartesian
    rw [if_pos ⟨rfl, hr⟩]

/-- C111 fails for zero base vectors: they are accepted, and all numbers of the frame are undefined. -/
theorem C111_zero_violated {h : ℕ} (o : Orders n) (ho : OK o h) :
    cartesian id (1 / 10 ^ 8) (1 / 10 ^ 5) o (fun v => Real.sqrt (∑ k, v k ^ 2)) true false 0 =
      .ok fun _ _ => none := by
  have hr : isRectangular id (1 / 10 ^ 8) (1 / 10 ^ 5) o 0 := by
    rw [isRectangular_id o ho]
    simp
  unfold cartesian
  rw [if_neg (fun h => h.2 hr), if_pos rfl]
  congr 1
  funext i j
  unfold normalizeFrame
  rw [if_pos (by simp)]

/-- Orders of evaluation in two dimensions. -/
def exOrders : Orders 2 where
  gram _ _ := .fma (.prod 0) 1
  trace := .add (.add .zero (.term 0)) (.term 1)
  total := .add (.add (.term (0, 0)) (.term (0, 1))) (.add (.term (1, 0)) (.term (1, 1)))
  norm _ := .add (.prod 0) (.prod 1)

theorem exOrders_ok : OK exOrders 3 where
  gram := by decide
  trace := ⟨⟨by decide, by decide⟩, by decide⟩
  total := ⟨⟨by decide, by decide⟩, by decide⟩
  norm := by decide

/-- The hypotheses of `C111_again` can be met: numbers that are rounded up, a norm that is too large. -/
example : ∃ W : Matrix (Fin 2) (Fin 2) ℝ,
    cartesian (fun x => (1 + 1 / 2 ^ 53) * x) (1 / 10 ^ 8) (1 / 10 ^ 5) exOrders
      (fun v => (1 + 1 / 2 ^ 50) * Real.sqrt (∑ k, v k ^ 2)) true false !![3, 4; -4, 3] =
        .ok (fun i j => some (W i j)) ∧
    cartesian (fun x => (1 + 1 / 2 ^ 53) * x) (1 / 10 ^ 8) (1 / 10 ^ 5) exOrders
      (fun v => (1 + 1 / 2 ^ 50) * Real.sqrt (∑ k, v k ^ 2)) false false W = .ok (fun i j => some (W i j)) := by
  have hp : Precise (fun x : ℝ => (1 + 1 / 2 ^ 53) * x) (1 / 2 ^ 53) := fun x => by
    have : (1 + 1 / 2 ^ 53) * x - x = 1 / 2 ^ 53 * x := by ring
    rw [this, abs_mul, abs_of_nonneg (by norm_num : (0 : ℝ) ≤ 1 / 2 ^ 53)]
  have hn : NormOK (n := 2) (fun v => (1 + 1 / 2 ^ 50) * Real.sqrt (∑ k, v k ^ 2)) (1 / 2 ^ 50) := fun v => by
    have : (1 + 1 / 2 ^ 50) * Real.sqrt (∑ k, v k ^ 2) - Real.sqrt (∑ k, v k ^ 2) =
      1 / 2 ^ 50 * Real.sqrt (∑ k, v k ^ 2) := by ring
    rw [this, abs_of_nonneg (by positivity)]
  refine C111_again hp (by norm_num) (by norm_num) (by norm_num) (by norm_num) (κ := 0) le_rfl (h := 3)
    (by norm_num) _ hn false _ ?_ ?_ exOrders exOrders exOrders_ok exOrders_ok
  · intro i hi
    have h0 := congrFun hi 0
    fin_cases i <;> simp at h0
  · intro i j hij
    fin_cases i <;> fin_cases j <;> simp [Fin.sum_univ_two] at hij ⊢ <;> norm_num

/-- The hypotheses of `C111_accepted` can be met. -/
example (f : Fin 2 → Fin 2 → Option ℝ)
    (hf : cartesian id (1 / 10 ^ 8) (1 / 10 ^ 5) exOrders (fun _ => 1) false false !![1, 0; 0, 1] = .ok f) :
    f 0 0 = some 1 :=
  (C111_accepted (h := 3) precise_id (by norm_num) exOrders exOrders_ok (by norm_num) (by norm_num) (by norm_num)
    (by norm_num) _ _ f hf).1 0 0

example : ∃ f, cartesian id (1 / 10 ^ 8) (1 / 10 ^ 5) exOrders (fun _ => 1) false false !![1, 0; 0, 1] = .ok f := by
  have h1 : isRectangular id (1 / 10 ^ 8) (1 / 10 ^ 5) exOrders !![1, 0; 0, 1] :=
    (isRectangular_id _ exOrders_ok _).2 (by simp [Fin.sum_univ_two]; norm_num)
  have h2 : isNormal id (1 / 10 ^ 8) (1 / 10 ^ 5) exOrders !![1, 0; 0, 1] := by
    intro i
    fin_cases i <;> simp [isclose, rowNorm, exOrders, Plan.eval] <;> norm_num
  unfold cartesian
  rw [if_neg (fun h => h.2 h1), if_neg (by decide), if_neg (fun h => h.2 h2)]
  exact ⟨_, rfl⟩

end

end Verif.RNormal.Props
