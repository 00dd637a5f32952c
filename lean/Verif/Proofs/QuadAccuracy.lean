import Verif.Props.Numint
import Mathlib.Topology.ContinuousMap.StoneWeierstrass
import Mathlib.MeasureTheory.Integral.DominatedConvergence
import Mathlib.MeasureTheory.Integral.IntervalIntegral.Basic
import Mathlib.Analysis.SpecialFunctions.Integrals.Basic
import Mathlib.Algebra.MvPolynomial.Degrees
import Mathlib.Algebra.MvPolynomial.Eval

/-! # Helper lemmas for C143: quadrature and integrals -/

set_option linter.unusedSectionVars false

namespace Verif.Numint.Props
open Verif Verif.Numint MeasureTheory Set

/-- The interval of the rules. -/
abbrev II : Set ℝ := Icc (-1) 1

/-- The integral over the square. -/
noncomputable def int2 (f : ℝ × ℝ → ℝ) : ℝ := ∫ x in (-1 : ℝ)..1, ∫ y in (-1 : ℝ)..1, f (x, y)

/-- The integral over the cube. -/
noncomputable def int3 (f : ℝ × ℝ × ℝ → ℝ) : ℝ :=
  ∫ x in (-1 : ℝ)..1, ∫ y in (-1 : ℝ)..1, ∫ z in (-1 : ℝ)..1, f (x, y, z)

theorem quad_sum {α ι : Type} (pos : List α) (w : List ℝ) (s : Finset ι) (f : ι → α → ℝ) :
    quad pos w (fun p => ∑ i ∈ s, f i p) = ∑ i ∈ s, quad pos w (f i) := by
  unfold quad
  induction pos.zip w with
  | nil => simp
  | cons q l ih =>
    simp only [List.map_cons, List.sum_cons, Finset.sum_add_distrib]
    rw [ih, Finset.mul_sum]

theorem quad_mul {α : Type} (pos : List α) (w : List ℝ) (c : ℝ) (f : α → ℝ) :
    quad pos w (fun p => c * f p) = c * quad pos w f := by
  have := C59_linear pos w c 0 f f
  simpa using this

theorem quad_congr {α : Type} {pos : List α} {w : List ℝ} {f g : α → ℝ} (h : ∀ q ∈ pos.zip w, f q.1 = g q.1) :
    quad pos w f = quad pos w g := by
  unfold quad
  exact congrArg List.sum (List.map_congr_left fun q hq => by rw [h q hq])

theorem quad_close {α : Type} {pos : List α} {w : List ℝ} {f g : α → ℝ} {E V : ℝ}
    (h : ∀ q ∈ pos.zip w, 0 ≤ q.2 ∧ |f q.1 - g q.1| ≤ E) (hV : quad pos w (fun _ => 1) = V) :
    |quad pos w f - quad pos w g| ≤ E * V := by
  subst hV
  unfold quad
  revert h
  induction pos.zip w with
  | nil => intro; simp
  | cons q l ih =>
    intro h
    obtain ⟨h1, h2⟩ := h q (by simp)
    have ih := ih fun q hq => h q (by simp [hq])
    simp only [List.map_cons, List.sum_cons, mul_one]
    simp only [mul_one] at ih
    have e : q.2 * f q.1 + (l.map fun p => p.2 * f p.1).sum - (q.2 * g q.1 + (l.map fun p => p.2 * g p.1).sum) =
      q.2 * (f q.1 - g q.1) + ((l.map fun p => p.2 * f p.1).sum - (l.map fun p => p.2 * g p.1).sum) := by ring
    rw [e, mul_add]
    refine (abs_add_le _ _).trans (add_le_add ?_ ih)
    rw [abs_mul, abs_of_nonneg h1, mul_comm]
    exact mul_le_mul_of_nonneg_right h2 h1

/-! ## Integrals -/

theorem mem_uIoc {x : ℝ} (h : x ∈ uIoc (-1 : ℝ) 1) : x ∈ II := by
  rw [uIoc_of_le (by norm_num)] at h
  exact ⟨h.1.le, h.2⟩

theorem int1_close {f g : ℝ → ℝ} (hf : Continuous f) (hg : Continuous g) {E : ℝ} (h : ∀ x ∈ II, |f x - g x| ≤ E) :
    |(∫ x in (-1 : ℝ)..1, f x) - ∫ x in (-1 : ℝ)..1, g x| ≤ E * 2 := by
  rw [← intervalIntegral.integral_sub (hf.intervalIntegrable _ _) (hg.intervalIntegrable _ _)]
  have := intervalIntegral.norm_integral_le_of_norm_le_const (a := (-1 : ℝ)) (b := 1) (f := fun x => f x - g x) (C := E)
    (fun x hx => h x (mem_uIoc hx))
  rwa [show |(1 : ℝ) - -1| = 2 by norm_num] at this

theorem cont2 {f : ℝ × ℝ → ℝ} (hf : Continuous f) : Continuous fun x => ∫ y in (-1 : ℝ)..1, f (x, y) :=
  intervalIntegral.continuous_parametric_intervalIntegral_of_continuous' (f := fun x y => f (x, y)) hf _ _

theorem int2_close {f g : ℝ × ℝ → ℝ} (hf : Continuous f) (hg : Continuous g) {E : ℝ}
    (h : ∀ p ∈ II ×ˢ II, |f p - g p| ≤ E) : |int2 f - int2 g| ≤ E * 4 := by
  have := int1_close (cont2 hf) (cont2 hg) (E := E * 2) fun x hx =>
    int1_close (f := fun y => f (x, y)) (g := fun y => g (x, y)) (by fun_prop) (by fun_prop) fun y hy => h _ ⟨hx, hy⟩
  rw [mul_assoc, show (2 : ℝ) * 2 = 4 by norm_num] at this
  exact this

theorem cont3 {f : ℝ × ℝ × ℝ → ℝ} (hf : Continuous f) :
    Continuous fun p : ℝ × ℝ => ∫ z in (-1 : ℝ)..1, f (p.1, p.2, z) :=
  intervalIntegral.continuous_parametric_intervalIntegral_of_continuous' (f := fun (p : ℝ × ℝ) z => f (p.1, p.2, z))
    (hf.comp (by fun_prop : Continuous fun q : (ℝ × ℝ) × ℝ => (q.1.1, q.1.2, q.2))) _ _

theorem int3_close {f g : ℝ × ℝ × ℝ → ℝ} (hf : Continuous f) (hg : Continuous g) {E : ℝ}
    (h : ∀ p ∈ II ×ˢ II ×ˢ II, |f p - g p| ≤ E) : |int3 f - int3 g| ≤ E * 8 := by
  have := int2_close (cont3 hf) (cont3 hg) (E := E * 2) fun p hp =>
    int1_close (f := fun y => f (p.1, p.2, y)) (g := fun y => g (p.1, p.2, y)) (by fun_prop) (by fun_prop)
      fun y hy => h _ ⟨hp.1, hp.2, hy⟩
  rw [mul_assoc, show (2 : ℝ) * 4 = 8 by norm_num] at this
  exact this

/-! ## Polynomials -/

theorem int1_terms {ι : Type} (s : Finset ι) (c : ι → ℝ) (a : ι → ℕ) :
    ∫ x in (-1 : ℝ)..1, ∑ i ∈ s, c i * x ^ a i = ∑ i ∈ s, c i * ∫ x in (-1 : ℝ)..1, x ^ a i := by
  rw [intervalIntegral.integral_finset_sum fun i _ => Continuous.intervalIntegrable (by fun_prop) _ _]
  exact Finset.sum_congr rfl fun i _ => intervalIntegral.integral_const_mul _ _

theorem int2_terms {ι : Type} (s : Finset ι) (c : ι → ℝ) (a b : ι → ℕ) :
    int2 (fun p => ∑ i ∈ s, c i * (p.1 ^ a i * p.2 ^ b i)) =
      ∑ i ∈ s, c i * ((∫ x in (-1 : ℝ)..1, x ^ a i) * ∫ x in (-1 : ℝ)..1, x ^ b i) := by
  unfold int2
  have h : ∀ x : ℝ, ∫ y in (-1 : ℝ)..1, ∑ i ∈ s, c i * (x ^ a i * y ^ b i) =
      ∑ i ∈ s, (c i * ∫ y in (-1 : ℝ)..1, y ^ b i) * x ^ a i := by
    intro x
    have := int1_terms s (fun i => c i * x ^ a i) b
    simp only [mul_assoc] at this
    rw [this]
    exact Finset.sum_congr rfl fun i _ => by ring
  simp only [h]
  rw [int1_terms]
  exact Finset.sum_congr rfl fun i _ => by ring

theorem int3_terms {ι : Type} (s : Finset ι) (c : ι → ℝ) (a b d : ι → ℕ) :
    int3 (fun p => ∑ i ∈ s, c i * (p.1 ^ a i * p.2.1 ^ b i * p.2.2 ^ d i)) =
      ∑ i ∈ s, c i * ((∫ x in (-1 : ℝ)..1, x ^ a i) * (∫ x in (-1 : ℝ)..1, x ^ b i) * ∫ x in (-1 : ℝ)..1, x ^ d i) := by
  have h : ∀ x y : ℝ, ∫ z in (-1 : ℝ)..1, ∑ i ∈ s, c i * (x ^ a i * y ^ b i * z ^ d i) =
      ∑ i ∈ s, (c i * ∫ z in (-1 : ℝ)..1, z ^ d i) * (x ^ a i * y ^ b i) := by
    intro x y
    have := int1_terms s (fun i => c i * (x ^ a i * y ^ b i)) d
    simp only [mul_assoc] at this ⊢
    rw [this]
    exact Finset.sum_congr rfl fun i _ => by ring
  have := int2_terms s (fun i => c i * ∫ z in (-1 : ℝ)..1, z ^ d i) a b
  unfold int2 at this
  unfold int3
  simp only [h]
  rw [this]
  exact Finset.sum_congr rfl fun i _ => by ring

/-- Continuous functions on a compact set are close to polynomials in coordinates that separate points. -/
theorem weierstrass {X : Type} [TopologicalSpace X] {d : ℕ} (c : Fin d → C(X, ℝ))
    (hc : ∀ p q, (∀ i, c i p = c i q) → p = q) (f : C(X, ℝ)) {S : Set X} (hS : IsCompact S) {E : ℝ} (hE : 0 < E) :
    ∃ P : MvPolynomial (Fin d) ℝ, ∀ p ∈ S, |MvPolynomial.eval (fun i => c i p) P - f p| ≤ E := by
  let φ : MvPolynomial (Fin d) ℝ →ₐ[ℝ] C(X, ℝ) := MvPolynomial.aeval c
  have hφ : ∀ P p, φ P p = MvPolynomial.eval (fun i => c i p) P := by
    intro P p
    induction P using MvPolynomial.induction_on with
    | C a => simp [φ]
    | add P Q hP hQ => simp [map_add, hP, hQ]
    | mul_X P i hP => simp [map_mul, hP, φ] at hP ⊢
  have hsep : φ.range.SeparatesPoints := by
    intro p q hpq
    by_contra hne
    refine hpq (hc p q fun i => ?_)
    by_contra hi
    refine hne ⟨c i, ⟨c i, ⟨MvPolynomial.X i, by simp [φ]⟩, rfl⟩, hi⟩
  obtain ⟨g, hg, h⟩ := ContinuousMap.exists_mem_subalgebra_near_continuous_of_isCompact_of_separatesPoints hsep f hS hE
  obtain ⟨P, rfl⟩ := hg
  refine ⟨P, fun p hp => ?_⟩
  have := h p hp
  rw [Real.norm_eq_abs] at this
  rw [← hφ]
  exact this.le

/-! ## Functions that are continuous on the interval, the square, the cube -/

/-- The nearest point of the interval. -/
noncomputable def clamp (x : ℝ) : ℝ := max (-1) (min 1 x)

theorem clamp_mem (x : ℝ) : clamp x ∈ II := ⟨le_max_left _ _, max_le (by norm_num) (min_le_left _ _)⟩

theorem clamp_eq {x : ℝ} (h : x ∈ II) : clamp x = x := by
  unfold clamp
  rw [min_eq_right h.2, max_eq_right h.1]

theorem clamp_cont : Continuous clamp := by
  unfold clamp
  fun_prop

theorem uIcc_II : uIcc (-1 : ℝ) 1 = II := uIcc_of_le (by norm_num)

theorem int1_congr {f g : ℝ → ℝ} (h : ∀ x ∈ II, f x = g x) :
    ∫ x in (-1 : ℝ)..1, f x = ∫ x in (-1 : ℝ)..1, g x :=
  intervalIntegral.integral_congr fun x hx => h x (uIcc_II ▸ hx)

theorem int2_congr {f g : ℝ × ℝ → ℝ} (h : ∀ p ∈ II ×ˢ II, f p = g p) : int2 f = int2 g :=
  int1_congr fun _ hx => int1_congr fun _ hy => h _ ⟨hx, hy⟩

theorem int3_congr {f g : ℝ × ℝ × ℝ → ℝ} (h : ∀ p ∈ II ×ˢ II ×ˢ II, f p = g p) : int3 f = int3 g :=
  int1_congr fun _ hx => int1_congr fun _ hy => int1_congr fun _ hz => h _ ⟨hx, hy, hz⟩

theorem extend1 {f : ℝ → ℝ} (hf : ContinuousOn f II) : ∃ F : C(ℝ, ℝ), ∀ x ∈ II, F x = f x :=
  ⟨⟨fun x => f (clamp x), hf.comp_continuous clamp_cont clamp_mem⟩, fun _ hx => congrArg f (clamp_eq hx)⟩

theorem extend2 {f : ℝ × ℝ → ℝ} (hf : ContinuousOn f (II ×ˢ II)) : ∃ F : C(ℝ × ℝ, ℝ), ∀ p ∈ II ×ˢ II, F p = f p := by
  have hc := clamp_cont
  refine ⟨⟨fun p => f (clamp p.1, clamp p.2), hf.comp_continuous (by fun_prop) fun p => ⟨clamp_mem _, clamp_mem _⟩⟩,
    fun p hp => congrArg f ?_⟩
  rw [clamp_eq hp.1, clamp_eq hp.2]

theorem extend3 {f : ℝ × ℝ × ℝ → ℝ} (hf : ContinuousOn f (II ×ˢ II ×ˢ II)) :
    ∃ F : C(ℝ × ℝ × ℝ, ℝ), ∀ p ∈ II ×ˢ II ×ˢ II, F p = f p := by
  have hc := clamp_cont
  refine ⟨⟨fun p => f (clamp p.1, clamp p.2.1, clamp p.2.2), hf.comp_continuous (by fun_prop)
    fun p => ⟨clamp_mem _, clamp_mem _, clamp_mem _⟩⟩, fun p hp => congrArg f ?_⟩
  rw [clamp_eq hp.1, clamp_eq hp.2.1, clamp_eq hp.2.2]

end Verif.Numint.Props
