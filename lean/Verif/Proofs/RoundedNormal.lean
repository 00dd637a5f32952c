import Verif.Model.RoundedNormal
import Verif.Proofs.RoundedFrames
import Mathlib.Algebra.Order.Chebyshev
import Mathlib.Analysis.InnerProductSpace.Basic
import Mathlib.Analysis.MeanInequalities

/-!
# Lemmas about the constructors of frames with rounded arithmetic
-/

set_option linter.unusedSectionVars false

namespace Verif.RNormal
open Verif Verif.Rnd Verif.RFrames

noncomputable section
variable {n : ℕ} {fl : ℝ → ℝ} {u : ℝ}

theorem tree_near {ι : Type} (hu : Precise fl u) (f : ι → ℝ) (hf : ∀ i, 0 ≤ f i) (t : Tree ι) :
    Near u t.height (t.terms.map f).sum (t.eval fl f) (t.terms.map f).sum := by
  have hu0 := hu.nonneg
  induction t with
  | zero => simp [Tree.eval, Tree.terms, Tree.height, Near]
  | term i => simp [Tree.eval, Tree.terms, Tree.height, Near, abs_of_nonneg (hf i)]
  | add l r hl hr =>
    simp only [Tree.eval, Tree.terms, Tree.height, List.map_append, List.sum_append]
    exact ((hl.more hu0 (le_max_left _ _)).add (hr.more hu0 (le_max_right _ _))).round hu

/-- the length of a vector -/
def len (v : Fin n → ℝ) : ℝ := Real.sqrt (∑ i, v i ^ 2)

theorem len_nonneg (v : Fin n → ℝ) : 0 ≤ len v := Real.sqrt_nonneg _

theorem len_sq (v : Fin n → ℝ) : len v ^ 2 = ∑ i, v i ^ 2 :=
  Real.sq_sqrt (Finset.sum_nonneg fun _ _ => sq_nonneg _)

theorem cauchy (a b : Fin n → ℝ) : ∑ k, |a k| * |b k| ≤ len a * len b := by
  have := Real.sum_mul_le_sqrt_mul_sqrt Finset.univ (fun k => |a k|) (fun k => |b k|)
  simpa [len, sq_abs] using this

theorem len_pos {v : Fin n → ℝ} (hv : v ≠ 0) : 0 < len v := by
  refine Real.sqrt_pos.2 ?_
  obtain ⟨i, hi⟩ := Function.ne_iff.1 hv
  exact Finset.sum_pos' (fun _ _ => sq_nonneg _) ⟨i, Finset.mem_univ _, by have : v i ≠ 0 := hi; positivity⟩

theorem len_mono (v w : Fin n → ℝ) (h : ∀ i, |v i| ≤ |w i|) : len v ≤ len w :=
  Real.sqrt_le_sqrt (Finset.sum_le_sum fun i _ => sq_le_sq.2 (h i))

theorem len_smul (c : ℝ) (v : Fin n → ℝ) : len (fun i => c * v i) = |c| * len v := by
  unfold len
  rw [← Real.sqrt_sq_eq_abs, ← Real.sqrt_mul (sq_nonneg _), Finset.mul_sum]
  congr 1
  exact Finset.sum_congr rfl fun i _ => by ring

/-- when numbers are close -/
theorem isclose_of (hu : Precise fl u) (hu1 : u ≤ 1) {atol rtol a b : ℝ} (ha : 0 ≤ atol) (hr : 0 ≤ rtol)
    (h : (1 + u) * |a - b| ≤ (1 - u) ^ 2 * (rtol * |b|)) : isclose fl atol rtol a b := by
  have hu0 := hu.nonneg
  have low : ∀ x, 0 ≤ x → (1 - u) * x ≤ fl x := fun x hx => by
    have := (abs_le.1 (hu x)).1
    rw [abs_of_nonneg hx] at this
    linarith
  have h0 : 0 ≤ rtol * |b| := mul_nonneg hr (abs_nonneg _)
  have h1 := low _ h0
  have h1' : 0 ≤ (1 - u) * (rtol * |b|) := mul_nonneg (by linarith) h0
  have h2 := low (atol + fl (rtol * |b|)) (by linarith)
  unfold isclose
  have h3 : |fl (a - b)| ≤ (1 + u) * |a - b| := by
    have h := hu (a - b)
    have e : fl (a - b) = (fl (a - b) - (a - b)) + (a - b) := by ring
    rw [e]
    refine (abs_add_le _ _).trans ?_
    linarith
  refine h3.trans (h.trans (le_trans ?_ h2))
  have : (1 - u) ^ 2 * (rtol * |b|) = (1 - u) * ((1 - u) * (rtol * |b|)) := by ring
  rw [this]
  exact mul_le_mul_of_nonneg_left (by linarith) (by linarith)

/-- every number is added once -/
def Tree.Complete {ι : Type} (t : Tree ι) : Prop := t.terms.Nodup ∧ ∀ i, i ∈ t.terms

theorem complete_sum {ι : Type} [Fintype ι] [DecidableEq ι] {t : Tree ι} (h : t.Complete) (f : ι → ℝ) :
    (t.terms.map f).sum = ∑ i, f i := by
  rw [← List.sum_toFinset f h.1]
  congr 1
  ext i
  simp [h.2 i]

theorem gram_entry (hu : Precise fl u) {h : ℕ} (plan : Fin n → Fin n → Plan n)
    (hp : ∀ i j, (plan i j).terms.Perm (List.finRange n) ∧ (plan i j).height ≤ h)
    (A : Matrix (Fin n) (Fin n) ℝ) (i j : Fin n) :
    |matmul fl plan A A.transpose i j - ∑ k, A i k * A j k| ≤ ((1 + u) ^ h - 1) * (len (A i) * len (A j)) := by
  have h1 := (matmul_near hu plan hp (NearM.exact A) (NearM.exact A).transpose i j).1
  have h2 : (A * A.transpose) i j = ∑ k, A i k * A j k := by simp [Matrix.mul_apply]
  have h3 : ((A.map fun x => |x|) * (A.map fun x => |x|).transpose) i j = ∑ k, |A i k| * |A j k| := by
    simp [Matrix.mul_apply]
  rw [h2, h3, add_zero, add_zero] at h1
  refine h1.trans (mul_le_mul_of_nonneg_left (cauchy _ _) ?_)
  have := one_le_pow₀ (show 1 ≤ 1 + u by have := hu.nonneg; linarith) (n := h)
  linarith

/-- axes that are nearly perpendicular are accepted -/
theorem rect_of (hu : Precise fl u) (hu1 : u ≤ 1 / 2 ^ 18) {h : ℕ} (o : Orders n)
    (hg : ∀ i j, (o.gram i j).terms.Perm (List.finRange n) ∧ (o.gram i j).height ≤ h)
    (ht : o.trace.Complete ∧ o.trace.height ≤ h) (hs : o.total.Complete ∧ o.total.height ≤ h)
    {atol rtol κ : ℝ} (ha : 0 ≤ atol) (hr : 1 / 2 ^ 17 ≤ rtol) (hκ0 : 0 ≤ κ)
    (hκ : n * (κ + 3 * ((1 + u) ^ h - 1)) ≤ 1 / 2 ^ 18)
    (A : Matrix (Fin n) (Fin n) ℝ) (hA : ∀ i j, i ≠ j → |∑ k, A i k * A j k| ≤ κ * (len (A i) * len (A j))) :
    isRectangular fl atol rtol o A := by
  have hu0 := hu.nonneg
  set γ : ℝ := (1 + u) ^ h - 1 with hγ
  have hγ0 : 0 ≤ γ := by
    have := one_le_pow₀ (show 1 ≤ 1 + u by linarith) (n := h)
    linarith
  set G := matmul fl o.gram A A.transpose with hG
  have hent : ∀ i j, |G i j - ∑ k, A i k * A j k| ≤ γ * (len (A i) * len (A j)) := gram_entry hu o.gram hg A
  set T : ℝ := ∑ i, len (A i) ^ 2 with hT
  have hT0 : 0 ≤ T := Finset.sum_nonneg fun i _ => sq_nonneg _
  set D : ℝ := ∑ i, |G i i| with hD
  set S : ℝ := ∑ i, ∑ j, |G i j| with hS
  set R : ℝ := ∑ i, ∑ j, if i = j then 0 else |G i j| with hR
  have hSDR : S = D + R := by
    rw [hS, hD, hR, ← Finset.sum_add_distrib]
    refine Finset.sum_congr rfl fun i _ => ?_
    have e : ∀ j, |G i j| = (if i = j then |G i i| else 0) + if i = j then 0 else |G i j| := fun j => by
      split
      · subst_vars; ring
      · ring
    rw [Finset.sum_congr rfl fun j _ => e j, Finset.sum_add_distrib, Finset.sum_ite_eq, if_pos (Finset.mem_univ i)]
  have hR0 : 0 ≤ R := Finset.sum_nonneg fun i _ => Finset.sum_nonneg fun j _ => by split <;> positivity
  have hdiag : ∀ i, |(|G i i|) - len (A i) ^ 2| ≤ γ * len (A i) ^ 2 := by
    intro i
    have h1 := hent i i
    have h2 : ∑ k, A i k * A i k = len (A i) ^ 2 := by
      rw [len_sq]; exact Finset.sum_congr rfl fun k _ => by ring
    rw [h2] at h1
    have h3 := abs_abs_sub_abs_le_abs_sub (G i i) (len (A i) ^ 2)
    rw [abs_of_nonneg (sq_nonneg (len (A i)))] at h3
    refine h3.trans (h1.trans (le_of_eq ?_))
    ring
  have hD1 : |D - T| ≤ γ * T := by
    rw [hD, hT, ← Finset.sum_sub_distrib, Finset.mul_sum]
    exact (Finset.abs_sum_le_sum_abs _ _).trans (Finset.sum_le_sum fun i _ => hdiag i)
  have hR1 : R ≤ (κ + γ) * (n * T) := by
    have h1 : R ≤ ∑ i, ∑ j, (κ + γ) * (len (A i) * len (A j)) := by
      refine Finset.sum_le_sum fun i _ => Finset.sum_le_sum fun j _ => ?_
      have hnn : 0 ≤ len (A i) * len (A j) := mul_nonneg (len_nonneg _) (len_nonneg _)
      split
      · exact mul_nonneg (by linarith) hnn
      · rename_i hij
        have h2 := hent i j
        have h3 := hA i j hij
        have e : G i j = (G i j - ∑ k, A i k * A j k) + ∑ k, A i k * A j k := by ring
        rw [e]
        refine (abs_add_le _ _).trans ?_
        linarith
    have h2 : ∑ i, ∑ j, (κ + γ) * (len (A i) * len (A j)) = (κ + γ) * (∑ i, len (A i)) ^ 2 := by
      rw [sq, Finset.sum_mul_sum, Finset.mul_sum]
      exact Finset.sum_congr rfl fun i _ => by rw [Finset.mul_sum]
    rw [h2] at h1
    refine h1.trans (mul_le_mul_of_nonneg_left ?_ (by linarith))
    have := sq_sum_le_card_mul_sum_sq (s := Finset.univ) (f := fun i => len (A i))
    simpa using this
  have hpow : ∀ m, m ≤ h → (1 + u) ^ m - 1 ≤ γ := fun m hm => by
    have := pow_le_pow_right₀ (show 1 ≤ 1 + u by linarith) hm
    linarith
  have htr := (tree_near hu (fun i => |G i i|) (fun _ => abs_nonneg _) o.trace).1
  rw [complete_sum ht.1] at htr
  have htr' := htr.trans (mul_le_mul_of_nonneg_right (hpow _ ht.2) (Finset.sum_nonneg fun _ _ => abs_nonneg _))
  have hto := (tree_near hu (fun ij : Fin n × Fin n => |G ij.1 ij.2|) (fun _ => abs_nonneg _) o.total).1
  rw [complete_sum hs.1] at hto
  have hto' := hto.trans (mul_le_mul_of_nonneg_right (hpow _ hs.2) (Finset.sum_nonneg fun _ _ => abs_nonneg _))
  rw [Fintype.sum_prod_type] at hto'
  change |_ - D| ≤ γ * D at htr'
  change |_ - S| ≤ γ * S at hto'
  unfold isRectangular
  refine isclose_of hu (hu1.trans (by norm_num)) ha (le_trans (by norm_num) hr) ?_
  change (1 + u) * abs ((o.trace.eval fl fun i => |G i i|) - o.total.eval fl fun ij => |G ij.1 ij.2|) ≤
    (1 - u) ^ 2 * (rtol * abs (o.total.eval fl fun ij => |G ij.1 ij.2|))
  generalize (o.trace.eval fl fun i => |G i i|) = tr at htr' ⊢
  generalize (o.total.eval fl fun ij : Fin n × Fin n => |G ij.1 ij.2|) = tt at hto' ⊢
  have hTn : T ≤ n * T := by
    rcases Nat.eq_zero_or_pos n with h0 | h0
    · subst h0
      simp [hT]
    · have : (1 : ℝ) ≤ n := by exact_mod_cast h0
      nlinarith
  have hmain : |tr - tt| ≤ (1 + γ) * (1 / 2 ^ 18 * T) := by
    have h1 : |tr - tt| ≤ |tr - D| + |D - S| + |tt - S| := by
      have : tr - tt = (tr - D) + (D - S) + -(tt - S) := by ring
      rw [this]
      refine (abs_add_le _ _).trans ?_
      rw [abs_neg]
      linarith [abs_add_le (tr - D) (D - S)]
    have h2 : |D - S| = R := by rw [hSDR]; rw [abs_sub_comm, abs_of_nonneg] <;> linarith
    have h3 : D ≤ (1 + γ) * T := by linarith [(abs_le.1 hD1).2]
    have h4 : |tr - tt| ≤ (1 + γ) * R + 2 * γ * D := by
      rw [h2] at h1
      nlinarith
    have h5 : (1 + γ) * R ≤ (1 + γ) * ((κ + γ) * (n * T)) := mul_le_mul_of_nonneg_left hR1 (by linarith)
    have h6 : 2 * γ * D ≤ 2 * γ * ((1 + γ) * (n * T)) :=
      mul_le_mul_of_nonneg_left (h3.trans (mul_le_mul_of_nonneg_left hTn (by linarith))) (by linarith)
    have h7 : (1 + γ) * ((κ + γ) * (n * T)) + 2 * γ * ((1 + γ) * (n * T)) =
        (1 + γ) * (n * (κ + 3 * γ) * T) := by ring
    have h8 : n * (κ + 3 * γ) * T ≤ 1 / 2 ^ 18 * T := mul_le_mul_of_nonneg_right hκ hT0
    have h9 := mul_le_mul_of_nonneg_left h8 (show 0 ≤ 1 + γ by linarith)
    linarith
  rcases Nat.eq_zero_or_pos n with h0 | h0
  · have hT' : T = 0 := by subst h0; simp [hT]
    rw [hT', mul_zero, mul_zero] at hmain
    have : |tr - tt| = 0 := le_antisymm hmain (abs_nonneg _)
    rw [this, mul_zero]
    exact mul_nonneg (sq_nonneg _) (mul_nonneg (le_trans (by norm_num) hr) (abs_nonneg _))
  · have hn1 : (1 : ℝ) ≤ n := by exact_mod_cast h0
    have hγ1 : γ ≤ 1 / 2 ^ 18 := by
      have : 1 * (κ + 3 * γ) ≤ n * (κ + 3 * γ) := mul_le_mul_of_nonneg_right hn1 (by linarith)
      linarith
    have hlow : (1 - γ) * ((1 - γ) * T) ≤ |tt| := by
      have h1 : (1 - γ) * T ≤ S := by linarith [(abs_le.1 hD1).1]
      have h2 : (1 - γ) * S ≤ tt := by linarith [(abs_le.1 hto').1]
      exact (mul_le_mul_of_nonneg_left h1 (by linarith)).trans (h2.trans (le_abs_self _))
    have h1 : (1 + u) * |tr - tt| ≤ (1 + 1 / 2 ^ 18) * ((1 + 1 / 2 ^ 18) * (1 / 2 ^ 18 * T)) := by
      refine mul_le_mul (by linarith) (hmain.trans ?_) (abs_nonneg _) (by norm_num)
      exact mul_le_mul_of_nonneg_right (by linarith) (by positivity)
    have h2 : (1 - 1 / 2 ^ 18) * ((1 - 1 / 2 ^ 18) * T) ≤ |tt| := by
      refine le_trans ?_ hlow
      refine mul_le_mul (by linarith) (mul_le_mul_of_nonneg_right (by linarith) hT0) (mul_nonneg (by norm_num) hT0)
        (by linarith)
    have h3 : (1 - 1 / 2 ^ 18) ^ 2 * (1 / 2 ^ 17 * |tt|) ≤ (1 - u) ^ 2 * (rtol * |tt|) := by
      refine mul_le_mul ?_ (mul_le_mul_of_nonneg_right hr (abs_nonneg _)) (by positivity) (sq_nonneg _)
      exact pow_le_pow_left₀ (by norm_num) (by linarith) 2
    refine h1.trans (le_trans ?_ h3)
    nlinarith

/-! ### Normalization -/

/-- one entry of a normalized vector -/
theorem entry_near (hu : Precise fl u) {e N s v : ℝ} (he0 : 0 ≤ e) (he1 : e < 1) (hs : 0 < s) (hN : |N - s| ≤ e * s) :
    N ≠ 0 ∧ |fl (v / N) * s - v| ≤ (u + e) / (1 - e) * |v| := by
  have hu0 := hu.nonneg
  have hNlow : (1 - e) * s ≤ N := by linarith [(abs_le.1 hN).1]
  have hN0 : 0 < N := lt_of_lt_of_le (mul_pos (by linarith) hs) hNlow
  refine ⟨hN0.ne', ?_⟩
  have h1 := hu (v / N)
  have e1 : fl (v / N) * s - v = (fl (v / N) - v / N) * s + v / N * (s - N) := by
    field_simp
    ring
  rw [e1]
  refine (abs_add_le _ _).trans ?_
  rw [abs_mul, abs_mul, abs_of_pos hs, abs_div, abs_of_pos hN0]
  rw [abs_div, abs_of_pos hN0] at h1
  rw [abs_sub_comm] at hN
  have h2 : |fl (v / N) - v / N| * s + |v| / N * |s - N| ≤ (u * (|v| / N)) * s + |v| / N * (e * s) := by
    refine add_le_add (mul_le_mul_of_nonneg_right h1 hs.le) (mul_le_mul_of_nonneg_left hN ?_)
    positivity
  refine h2.trans ?_
  have h3 : u * (|v| / N) * s + |v| / N * (e * s) = (u + e) * |v| * (s / N) := by ring
  have h4 : s / N ≤ 1 / (1 - e) := by
    rw [div_le_div_iff₀ hN0 (by linarith)]
    linarith
  rw [h3]
  calc (u + e) * |v| * (s / N) ≤ (u + e) * |v| * (1 / (1 - e)) := mul_le_mul_of_nonneg_left h4 (by positivity)
    _ = (u + e) / (1 - e) * |v| := by ring

/-- the length of a vector whose entries have a small relative error -/
theorem len_near {s δ : ℝ} (hs : 0 < s) (hδ0 : 0 ≤ δ) (hδ : δ < 1) (v w : Fin n → ℝ) (hv : len v = s)
    (h : ∀ k, |w k * s - v k| ≤ δ * |v k|) : |len w - 1| ≤ δ := by
  have e1 : len (fun k => s * w k) = s * len w := by rw [len_smul, abs_of_pos hs]
  have e2 : len (fun k => (1 + δ) * v k) = (1 + δ) * s := by rw [len_smul, hv, abs_of_nonneg (by linarith)]
  have e3 : len (fun k => (1 - δ) * v k) = (1 - δ) * s := by rw [len_smul, hv, abs_of_nonneg (by linarith)]
  have h1 : s * len w ≤ (1 + δ) * s := by
    rw [← e1, ← e2]
    refine len_mono _ _ fun k => ?_
    rw [abs_mul (1 + δ), abs_of_nonneg (show 0 ≤ 1 + δ by linarith), mul_comm s]
    have : w k * s = (w k * s - v k) + v k := by ring
    rw [this]
    refine (abs_add_le _ _).trans ?_
    linarith [h k]
  have h2 : (1 - δ) * s ≤ s * len w := by
    rw [← e1, ← e3]
    refine len_mono _ _ fun k => ?_
    rw [abs_mul (1 - δ), abs_of_nonneg (show 0 ≤ 1 - δ by linarith), mul_comm s]
    have : v k = w k * s - (w k * s - v k) := by ring
    have h3 : |v k| ≤ |w k * s| + |w k * s - v k| := by
      conv_lhs => rw [this]
      exact abs_sub _ _
    linarith [h k]
  rw [abs_le]
  constructor <;> nlinarith

/-- scalar products of such vectors -/
theorem dot_near {s r δ κ : ℝ} (hs : 0 < s) (hr : 0 < r) (hδ0 : 0 ≤ δ) (v w x y : Fin n → ℝ) (hv : len v = s)
    (hx : len x = r) (h : ∀ k, |w k * s - v k| ≤ δ * |v k|) (h' : ∀ k, |y k * r - x k| ≤ δ * |x k|)
    (hκ : |∑ k, v k * x k| ≤ κ * (s * r)) : |∑ k, w k * y k| ≤ κ + (2 * δ + δ ^ 2) := by
  have h1 : |(∑ k, w k * y k) * (s * r)| ≤ (κ + (2 * δ + δ ^ 2)) * (s * r) := by
    have e : (∑ k, w k * y k) * (s * r) = ∑ k, v k * x k + ∑ k, ((w k * s) * (y k * r) - v k * x k) := by
      rw [← Finset.sum_add_distrib, Finset.sum_mul]
      exact Finset.sum_congr rfl fun k _ => by ring
    rw [e]
    refine (abs_add_le _ _).trans ?_
    have h2 : |∑ k, ((w k * s) * (y k * r) - v k * x k)| ≤ (2 * δ + δ ^ 2) * ∑ k, |v k| * |x k| := by
      refine (Finset.abs_sum_le_sum_abs _ _).trans ?_
      rw [Finset.mul_sum]
      refine Finset.sum_le_sum fun k _ => ?_
      have e2 : (w k * s) * (y k * r) - v k * x k = (w k * s - v k) * (y k * r - x k) + (w k * s - v k) * x k +
          v k * (y k * r - x k) := by ring
      rw [e2]
      refine (abs_add_le _ _).trans ((add_le_add_left (abs_add_le _ _) _).trans ?_)
      rw [abs_mul, abs_mul, abs_mul]
      have a1 := mul_le_mul (h k) (h' k) (abs_nonneg _) (by positivity)
      have a2 := mul_le_mul_of_nonneg_right (h k) (abs_nonneg (x k))
      have a3 := mul_le_mul_of_nonneg_left (h' k) (abs_nonneg (v k))
      linarith
    have h3 := cauchy v x
    rw [hv, hx] at h3
    have h4 := mul_le_mul_of_nonneg_left h3 (show 0 ≤ 2 * δ + δ ^ 2 by positivity)
    linarith
  rw [abs_mul, abs_of_pos (mul_pos hs hr)] at h1
  exact le_of_mul_le_mul_right h1 (mul_pos hs hr)

/-! ### Norms -/

theorem rowNorm_near (hu : Precise fl u) {h : ℕ} (p : Plan n) (hp : p.terms.Perm (List.finRange n) ∧ p.height ≤ h)
    (hsmall : (1 + u) ^ h - 1 ≤ 1) (v : Fin n → ℝ) :
    |rowNorm fl p v - len v| ≤ ((1 + u) ^ (h + 1) - 1) * len v := by
  have hu0 := hu.nonneg
  have h1 := (eval_near (m := 0) (k := 0) hu v v v v (fun i => |v i|) (fun i => |v i|)
    (fun i => Near.exact _ _ le_rfl) (fun i => Near.exact _ _ le_rfl) p).more hu0
    (show p.height + (0 + 0) ≤ h by have := hp.2; omega)
  rw [terms_sum hp.1, terms_sum hp.1] at h1
  have e1 : ∑ i, |v i| * |v i| = len v ^ 2 := by
    rw [len_sq]; exact Finset.sum_congr rfl fun i _ => by rw [← abs_mul, ← sq, abs_of_nonneg (sq_nonneg _)]
  have e2 : ∑ i, v i * v i = len v ^ 2 := by
    rw [len_sq]; exact Finset.sum_congr rfl fun i _ => by ring
  rw [e1, e2] at h1
  set γ : ℝ := (1 + u) ^ h - 1 with hγ
  have hγ0 : 0 ≤ γ := by
    have := one_le_pow₀ (show 1 ≤ 1 + u by linarith) (n := h)
    linarith
  set E := p.eval fl v v with hE
  have hl := len_nonneg v
  have hE0 : 0 ≤ E := by
    have := (abs_le.1 h1.1).1
    nlinarith [sq_nonneg (len v)]
  have hsq := Real.sq_sqrt hE0
  have hr0 := Real.sqrt_nonneg E
  have h2 : |Real.sqrt E - len v| ≤ γ * len v := by
    rcases eq_or_lt_of_le hl with h0 | h0
    · have hE' : E = 0 := by
        have := h1.1
        rw [← h0] at this
        have h3 : |E| ≤ 0 := by simpa using this
        exact abs_nonpos_iff.1 h3
      rw [← h0, hE', Real.sqrt_zero]
      simp
    · have h3 : |Real.sqrt E - len v| * (Real.sqrt E + len v) ≤ γ * len v ^ 2 := by
        have e : |Real.sqrt E - len v| * (Real.sqrt E + len v) = |E - len v ^ 2| := by
          rw [← abs_of_nonneg (show 0 ≤ Real.sqrt E + len v by linarith), ← abs_mul]
          congr 1
          nlinarith
        rw [e]
        exact h1.1
      have h4 : |Real.sqrt E - len v| * len v ≤ γ * len v * len v := by
        have := mul_nonneg (abs_nonneg (Real.sqrt E - len v)) hr0
        nlinarith
      exact le_of_mul_le_mul_right h4 h0
  have h5 := hu (Real.sqrt E)
  rw [abs_of_nonneg hr0] at h5
  have h6 : Real.sqrt E ≤ (1 + γ) * len v := by linarith [(abs_le.1 h2).2]
  have e3 : rowNorm fl p v - len v = (fl (Real.sqrt E) - Real.sqrt E) + (Real.sqrt E - len v) := by
    unfold rowNorm; ring
  rw [e3]
  refine (abs_add_le _ _).trans ?_
  have e4 : (1 + u) ^ (h + 1) - 1 = u * (1 + γ) + γ := by rw [hγ, pow_succ]; ring
  rw [e4]
  have := mul_le_mul_of_nonneg_left h6 hu0
  linarith

/-- unit vectors are accepted -/
theorem normal_of (hu : Precise fl u) (hu1 : u ≤ 1 / 2 ^ 20) {h : ℕ} (o : Orders n)
    (hp : ∀ i, (o.norm i).terms.Perm (List.finRange n) ∧ (o.norm i).height ≤ h)
    {atol rtol δ : ℝ} (ha : 0 ≤ atol) (hr : 1 / 2 ^ 17 ≤ rtol) (hΓ : (1 + u) ^ (h + 1) - 1 ≤ 1 / 2 ^ 20)
    (hδ : δ ≤ 1 / 2 ^ 19) (A : Matrix (Fin n) (Fin n) ℝ) (hA : ∀ i, |len (A i) - 1| ≤ δ) :
    isNormal fl atol rtol o A := by
  have hu0 := hu.nonneg
  intro i
  refine isclose_of hu (hu1.trans (by norm_num)) ha (le_trans (by norm_num) hr) ?_
  have hmono := pow_le_pow_right₀ (show 1 ≤ 1 + u by linarith) (Nat.le_succ h)
  have h1 := rowNorm_near hu (o.norm i) (hp i) (by rw [Nat.succ_eq_add_one] at hmono; linarith) (A i)
  have h2 := hA i
  have h3 : len (A i) ≤ 2 := by linarith [(abs_le.1 h2).2]
  have h0 := len_nonneg (A i)
  have h4 : |rowNorm fl (o.norm i) (A i) - 1| ≤ 1 / 2 ^ 19 + 1 / 2 ^ 19 := by
    have e : rowNorm fl (o.norm i) (A i) - 1 = (rowNorm fl (o.norm i) (A i) - len (A i)) + (len (A i) - 1) := by ring
    rw [e]
    refine (abs_add_le _ _).trans (add_le_add (h1.trans ?_) (h2.trans hδ))
    nlinarith
  rw [abs_one, mul_one]
  have h5 : (1 + u) * |rowNorm fl (o.norm i) (A i) - 1| ≤ (1 + 1 / 2 ^ 20) * (1 / 2 ^ 19 + 1 / 2 ^ 19) :=
    mul_le_mul (by linarith) h4 (abs_nonneg _) (by norm_num)
  have h6 : (1 - 1 / 2 ^ 20) ^ 2 * (1 / 2 ^ 17) ≤ (1 - u) ^ 2 * rtol := by
    refine mul_le_mul (pow_le_pow_left₀ (by norm_num) (by linarith) 2) hr (by norm_num) (sq_nonneg _)
  refine h5.trans (le_trans ?_ h6)
  norm_num

/-! ### What the tests say -/

theorem isclose_says (hu : Precise fl u) (hu1 : u ≤ 1 / 2 ^ 20) {atol rtol a b : ℝ} (ha : 0 ≤ atol) (hr : 0 ≤ rtol)
    (h : isclose fl atol rtol a b) : |a - b| ≤ (1 + 1 / 2 ^ 17) * (atol + rtol * |b|) := by
  have hu0 := hu.nonneg
  unfold isclose at h
  have h0 : 0 ≤ rtol * |b| := mul_nonneg hr (abs_nonneg _)
  have h1 : fl (rtol * |b|) ≤ (1 + u) * (rtol * |b|) := by
    have := (abs_le.1 (hu (rtol * |b|))).2
    rw [abs_of_nonneg h0] at this
    linarith
  have h1' : 0 ≤ fl (rtol * |b|) := by
    have := (abs_le.1 (hu (rtol * |b|))).1
    rw [abs_of_nonneg h0] at this
    nlinarith
  have h2 : fl (atol + fl (rtol * |b|)) ≤ (1 + u) * (atol + fl (rtol * |b|)) := by
    have := (abs_le.1 (hu (atol + fl (rtol * |b|)))).2
    rw [abs_of_nonneg (show 0 ≤ atol + fl (rtol * |b|) by linarith)] at this
    linarith
  have h3 : |a - b| ≤ |fl (a - b)| + u * |a - b| := by
    have h := hu (a - b)
    have e : a - b = fl (a - b) - (fl (a - b) - (a - b)) := by ring
    have : |a - b| ≤ |fl (a - b)| + |fl (a - b) - (a - b)| := by
      conv_lhs => rw [e]
      exact abs_sub _ _
    linarith
  have h4 : (1 - u) * |a - b| ≤ (1 + u) ^ 2 * (atol + rtol * |b|) := by
    have i1 : (1 + u) * (atol + fl (rtol * |b|)) ≤ (1 + u) * (atol + (1 + u) * (rtol * |b|)) :=
      mul_le_mul_of_nonneg_left (by linarith) (by linarith)
    have i2 : (1 + u) * (atol + (1 + u) * (rtol * |b|)) ≤ (1 + u) ^ 2 * (atol + rtol * |b|) := by
      have : (1 + u) ^ 2 * (atol + rtol * |b|) - (1 + u) * (atol + (1 + u) * (rtol * |b|)) = (1 + u) * u * atol := by ring
      have : 0 ≤ (1 + u) * u * atol := by positivity
      linarith
    linarith
  have h5 : (1 + u) ^ 2 ≤ (1 - u) * (1 + 1 / 2 ^ 17) := by nlinarith
  have h6 : (1 - u) * |a - b| ≤ (1 - u) * ((1 + 1 / 2 ^ 17) * (atol + rtol * |b|)) := by
    refine h4.trans ?_
    rw [← mul_assoc]
    exact mul_le_mul_of_nonneg_right h5 (by linarith)
  exact le_of_mul_le_mul_left h6 (by linarith)

theorem scalar {m R X D rt an rn rD rR gD gS at' : ℝ} (h1 : R ≤ X + gD + gS)
    (h2 : X ≤ (1 + 1 / 2 ^ 17) * (at' + rt)) (h3 : rt ≤ (1 + 1 / 2 ^ 20) * (rD + rR)) (h4 : at' ≤ an)
    (h5 : rD ≤ (1 + 1 / 2 ^ 12) * rn) (h6 : rR ≤ 1 / 2 ^ 16 * R) (h7 : an + rn ≤ 1 / 2 ^ 16 * m)
    (h8 : D ≤ m * (1 + 1 / 2 ^ 12)) (h9 : gD ≤ 1 / 2 ^ 20 * D) (h10 : gS ≤ 1 / 2 ^ 20 * (D + R)) (h11 : 0 ≤ R)
    (h12 : 0 ≤ an) (h13 : 0 ≤ rn) : R ≤ 1.3 * (m / 2 ^ 16) := by
  norm_num at *
  linarith

/-- axes that are accepted are nearly perpendicular -/
theorem rect_says (hu : Precise fl u) (hu1 : u ≤ 1 / 2 ^ 20) {h : ℕ} (o : Orders n)
    (hg : ∀ i j, (o.gram i j).terms.Perm (List.finRange n) ∧ (o.gram i j).height ≤ h)
    (ht : o.trace.Complete ∧ o.trace.height ≤ h) (hs : o.total.Complete ∧ o.total.height ≤ h)
    {atol rtol : ℝ} (ha : 0 ≤ atol) (hr : 0 ≤ rtol) (har : atol + rtol ≤ 1 / 2 ^ 16)
    (hγs : (1 + u) ^ h - 1 ≤ 1 / 2 ^ 20)
    (A : Matrix (Fin n) (Fin n) ℝ) (hA : ∀ i, len (A i) ≤ 1 + 1 / 2 ^ 15)
    (hacc : isRectangular fl atol rtol o A) (i j : Fin n) (hij : i ≠ j) : |∑ k, A i k * A j k| ≤ n / 2 ^ 15 := by
  have hu0 := hu.nonneg
  set γ : ℝ := (1 + u) ^ h - 1 with hγ
  have hγ0 : 0 ≤ γ := by
    have := one_le_pow₀ (show 1 ≤ 1 + u by linarith) (n := h)
    linarith
  set G := matmul fl o.gram A A.transpose with hG
  have hent : ∀ i j, |G i j - ∑ k, A i k * A j k| ≤ γ * (len (A i) * len (A j)) := gram_entry hu o.gram hg A
  set T : ℝ := ∑ i, len (A i) ^ 2 with hT
  have hT0 : 0 ≤ T := Finset.sum_nonneg fun i _ => sq_nonneg _
  set D : ℝ := ∑ i, |G i i| with hD
  set S : ℝ := ∑ i, ∑ j, |G i j| with hS
  set R : ℝ := ∑ i, ∑ j, if i = j then 0 else |G i j| with hR
  have hSDR : S = D + R := by
    rw [hS, hD, hR, ← Finset.sum_add_distrib]
    refine Finset.sum_congr rfl fun i _ => ?_
    have e : ∀ j, |G i j| = (if i = j then |G i i| else 0) + if i = j then 0 else |G i j| := fun j => by
      split
      · subst_vars; ring
      · ring
    rw [Finset.sum_congr rfl fun j _ => e j, Finset.sum_add_distrib, Finset.sum_ite_eq, if_pos (Finset.mem_univ i)]
  have hR0 : 0 ≤ R := Finset.sum_nonneg fun i _ => Finset.sum_nonneg fun j _ => by split <;> positivity
  have hdiag : ∀ i, |(|G i i|) - len (A i) ^ 2| ≤ γ * len (A i) ^ 2 := by
    intro i
    have h1 := hent i i
    have h2 : ∑ k, A i k * A i k = len (A i) ^ 2 := by
      rw [len_sq]; exact Finset.sum_congr rfl fun k _ => by ring
    rw [h2] at h1
    have h3 := abs_abs_sub_abs_le_abs_sub (G i i) (len (A i) ^ 2)
    rw [abs_of_nonneg (sq_nonneg (len (A i)))] at h3
    refine h3.trans (h1.trans (le_of_eq ?_))
    ring
  have hD1 : |D - T| ≤ γ * T := by
    rw [hD, hT, ← Finset.sum_sub_distrib, Finset.mul_sum]
    exact (Finset.abs_sum_le_sum_abs _ _).trans (Finset.sum_le_sum fun i _ => hdiag i)
  have hpow : ∀ m, m ≤ h → (1 + u) ^ m - 1 ≤ γ := fun m hm => by
    have := pow_le_pow_right₀ (show 1 ≤ 1 + u by linarith) hm
    linarith
  have htr := (tree_near hu (fun i => |G i i|) (fun _ => abs_nonneg _) o.trace).1
  rw [complete_sum ht.1] at htr
  have htr' := htr.trans (mul_le_mul_of_nonneg_right (hpow _ ht.2) (Finset.sum_nonneg fun _ _ => abs_nonneg _))
  have hto := (tree_near hu (fun ij : Fin n × Fin n => |G ij.1 ij.2|) (fun _ => abs_nonneg _) o.total).1
  rw [complete_sum hs.1] at hto
  have hto' := hto.trans (mul_le_mul_of_nonneg_right (hpow _ hs.2) (Finset.sum_nonneg fun _ _ => abs_nonneg _))
  rw [Fintype.sum_prod_type] at hto'
  change |_ - D| ≤ γ * D at htr'
  change |_ - S| ≤ γ * S at hto'
  have hn1 : (1 : ℝ) ≤ n := by
    have : 0 < n := lt_of_le_of_lt (Nat.zero_le _) i.2
    exact_mod_cast this
  have hacc' := isclose_says hu hu1 ha hr hacc
  change abs ((o.trace.eval fl fun i => |G i i|) - o.total.eval fl fun ij => |G ij.1 ij.2|) ≤
    (1 + 1 / 2 ^ 17) * (atol + rtol * abs (o.total.eval fl fun ij => |G ij.1 ij.2|)) at hacc'
  generalize (o.trace.eval fl fun i => |G i i|) = tr at htr' hacc'
  generalize (o.total.eval fl fun ij : Fin n × Fin n => |G ij.1 ij.2|) = tt at hto' hacc'
  have hTn : T ≤ n * (1 + 1 / 2 ^ 13) := by
    have : T ≤ ∑ _i : Fin n, (1 + 1 / 2 ^ 13 : ℝ) := Finset.sum_le_sum fun i _ => by
      have h1 := hA i
      have h2 := len_nonneg (A i)
      nlinarith
    refine this.trans (le_of_eq ?_)
    rw [Finset.sum_const, Finset.card_univ, Fintype.card_fin, nsmul_eq_mul]
  have hD0 : 0 ≤ D := Finset.sum_nonneg fun _ _ => abs_nonneg _
  have hS0 : 0 ≤ S := by rw [hSDR]; linarith
  have hDn : D ≤ n * (1 + 1 / 2 ^ 12) := by
    have h1 : D ≤ (1 + γ) * T := by linarith [(abs_le.1 hD1).2]
    have h2 : (1 + γ) * T ≤ (1 + 1 / 2 ^ 20) * (n * (1 + 1 / 2 ^ 13)) :=
      mul_le_mul (by linarith) hTn hT0 (by norm_num)
    nlinarith
  have htt : |tt| ≤ (1 + γ) * S := by
    have e : tt = (tt - S) + S := by ring
    rw [e]
    refine (abs_add_le _ _).trans ?_
    rw [abs_of_nonneg hS0]
    linarith
  have hrt : rtol * |tt| ≤ rtol * ((1 + γ) * S) := mul_le_mul_of_nonneg_left htt hr
  have hR2 : R ≤ |tr - tt| + γ * D + γ * S := by
    have e : R = -((tr - tt) - (tr - D) + (tt - S)) := by rw [hSDR]; ring
    have h1 := (abs_le.1 htr').2
    have h2 := (abs_le.1 hto').1
    have h3 := neg_abs_le (tr - tt)
    linarith
  have hfin : R ≤ 1.3 * (n / 2 ^ 16) := by
    refine scalar (X := |tr - tt|) (D := D) (rt := rtol * |tt|) (an := atol * n) (rn := rtol * n) (rD := rtol * D)
      (rR := rtol * R) (gD := γ * D) (gS := γ * S) (at' := atol) (by linarith) hacc' ?_ (by nlinarith) ?_ ?_ ?_ hDn
      (mul_le_mul_of_nonneg_right hγs hD0) ?_ hR0 (by positivity) (by positivity)
    · refine hrt.trans ?_
      have : rtol * ((1 + γ) * S) ≤ rtol * ((1 + 1 / 2 ^ 20) * S) :=
        mul_le_mul_of_nonneg_left (mul_le_mul_of_nonneg_right (by linarith) hS0) hr
      refine this.trans (le_of_eq ?_)
      rw [hSDR]; ring
    · have := mul_le_mul_of_nonneg_left hDn hr
      linarith
    · exact mul_le_mul_of_nonneg_right (by linarith) hR0
    · have := mul_le_mul_of_nonneg_right har (show 0 ≤ (n : ℝ) by positivity)
      linarith
    · exact (mul_le_mul_of_nonneg_right hγs hS0).trans (le_of_eq (by rw [hSDR]))
  have hGR : |G i j| ≤ R := by
    have h1 : |G i j| ≤ ∑ j, if i = j then 0 else |G i j| := by
      have := Finset.single_le_sum (f := fun j => if i = j then (0 : ℝ) else |G i j|)
        (fun j _ => by split <;> positivity) (Finset.mem_univ j)
      simp only [if_neg hij] at this
      exact this
    refine h1.trans ?_
    exact Finset.single_le_sum (f := fun i => ∑ j, if i = j then (0 : ℝ) else |G i j|)
      (fun i _ => Finset.sum_nonneg fun j _ => by split <;> positivity) (Finset.mem_univ i)
  have h1 := hent i j
  have h2 : len (A i) * len (A j) ≤ 2 := by
    have := mul_le_mul (hA i) (hA j) (len_nonneg _) (by norm_num)
    refine this.trans (by norm_num)
  have h3 : γ * (len (A i) * len (A j)) ≤ 1 / 2 ^ 20 * 2 :=
    mul_le_mul hγs h2 (mul_nonneg (len_nonneg _) (len_nonneg _)) (by norm_num)
  have e : ∑ k, A i k * A j k = G i j - (G i j - ∑ k, A i k * A j k) := by ring
  rw [e]
  refine (abs_sub _ _).trans ((add_le_add (hGR.trans hfin) (h1.trans h3)).trans ?_)
  have : (1 : ℝ) / 2 ^ 20 * 2 ≤ n / 2 ^ 19 := by
    rw [div_mul_eq_mul_div, div_le_div_iff₀ (by norm_num) (by norm_num)]
    nlinarith
  refine (add_le_add_right this _).trans ?_
  have h5 : (n : ℝ) / 2 ^ 19 = n / 2 ^ 15 / 16 := by ring
  have h6 : (n : ℝ) / 2 ^ 16 = n / 2 ^ 15 / 2 := by ring
  have h7 : (0 : ℝ) ≤ n / 2 ^ 15 := by positivity
  rw [h5, h6]
  linarith

end

end Verif.RNormal
