import Verif.Proofs.LeastSq
import Mathlib.Analysis.Calculus.Deriv.Mul
import Mathlib.Analysis.Calculus.Deriv.Add
import Mathlib.Analysis.Calculus.Deriv.Inv
import Mathlib.Analysis.Calculus.FDeriv.Mul
import Mathlib.LinearAlgebra.Matrix.NonsingularInverse
import Mathlib.LinearAlgebra.Matrix.Adjugate

/-!
# Derivatives of moving least squares
-/

set_option linter.unusedSectionVars false

namespace Verif.LS
open Verif Verif.Frames Matrix MvPolynomial Filter Topology

/-- Entrywise derivative of a curve of matrices. -/
def HasD {m n : Type} (M : ℝ → Matrix m n ℝ) (M' : Matrix m n ℝ) (t : ℝ) : Prop :=
  ∀ i j, HasDerivAt (fun s => M s i j) (M' i j) t

/-- Entrywise derivative of a curve of vectors. -/
def HasDv {n : Type} (v : ℝ → n → ℝ) (v' : n → ℝ) (t : ℝ) : Prop :=
  ∀ i, HasDerivAt (fun s => v s i) (v' i) t

section
variable {m n p : Type} [Fintype n] [Fintype m] {t : ℝ}

theorem HasD.mul {M : ℝ → Matrix m n ℝ} {M'} {N : ℝ → Matrix n p ℝ} {N'} (hM : HasD M M' t)
    (hN : HasD N N' t) : HasD (fun s => M s * N s) (M' * N t + M t * N') t := by
  intro i j
  have := HasDerivAt.fun_sum (u := Finset.univ) fun a _ => (hM i a).mul (hN a j)
  refine (this.congr_deriv ?_).congr_of_eventuallyEq (Eventually.of_forall fun s => ?_)
  · rw [Finset.sum_add_distrib]
    rfl
  · rfl

theorem HasD.mulVec {M : ℝ → Matrix m n ℝ} {M'} {v : ℝ → n → ℝ} {v'} (hM : HasD M M' t)
    (hv : HasDv v v' t) : HasDv (fun s => M s *ᵥ v s) (M' *ᵥ v t + M t *ᵥ v') t := by
  intro i
  have := HasDerivAt.fun_sum (u := Finset.univ) fun a _ => (hM i a).mul (hv a)
  refine (this.congr_deriv ?_).congr_of_eventuallyEq (Eventually.of_forall fun s => ?_)
  · rw [Finset.sum_add_distrib]
    rfl
  · rfl

theorem HasD.vecMul {M : ℝ → Matrix m n ℝ} {M'} {v : ℝ → m → ℝ} {v'} (hM : HasD M M' t)
    (hv : HasDv v v' t) : HasDv (fun s => v s ᵥ* M s) (v' ᵥ* M t + v t ᵥ* M') t := by
  intro i
  have := HasDerivAt.fun_sum (u := Finset.univ) fun a _ => (hv a).mul (hM a i)
  refine (this.congr_deriv ?_).congr_of_eventuallyEq (Eventually.of_forall fun s => ?_)
  · rw [Finset.sum_add_distrib]
    rfl
  · rfl

theorem HasDv.add {v u : ℝ → n → ℝ} {v' u'} (hv : HasDv v v' t) (hu : HasDv u u' t) :
    HasDv (fun s => v s + u s) (v' + u') t := fun i => (hv i).add (hu i)

theorem HasDv.sub {v u : ℝ → n → ℝ} {v' u'} (hv : HasDv v v' t) (hu : HasDv u u' t) :
    HasDv (fun s => v s - u s) (v' - u') t := fun i => (hv i).sub (hu i)

theorem HasDv.congr {v : ℝ → n → ℝ} {v' u'} (hv : HasDv v v' t) (h : v' = u') : HasDv v u' t :=
  h ▸ hv

theorem HasD.const (M : Matrix m n ℝ) : HasD (fun _ => M) 0 t :=
  fun _ _ => hasDerivAt_const t _

end

section
variable {k : ℕ} {t : ℝ}

theorem differentiableAt_det {M : ℝ → Mat k ℝ} (h : ∀ i j, DifferentiableAt ℝ (fun s => M s i j) t) :
    DifferentiableAt ℝ (fun s => (M s).det) t := by
  simp only [Matrix.det_apply]
  refine DifferentiableAt.fun_sum fun σ _ => ?_
  refine DifferentiableAt.const_smul ?_ _
  exact DifferentiableAt.fun_finset_prod fun i _ => h _ _

theorem eventually_det {M : ℝ → Mat k ℝ} {M'} (h : HasD M M' t) (hdet : (M t).det ≠ 0) :
    ∀ᶠ s in 𝓝 t, (M s).det ≠ 0 :=
  (differentiableAt_det fun i j => (h i j).differentiableAt).continuousAt.eventually_ne hdet

theorem HasD.inv {M : ℝ → Mat k ℝ} {M'} (h : HasD M M' t) (hdet : (M t).det ≠ 0) :
    HasD (fun s => (M s)⁻¹) (-((M t)⁻¹ * M' * (M t)⁻¹)) t := by
  have hd : ∀ i j, DifferentiableAt ℝ (fun s => (M s)⁻¹ i j) t := by
    intro i j
    have h1 : ∀ s, (M s)⁻¹ i j = ((M s).det)⁻¹ * ((M s).updateRow j (Pi.single i 1)).det := by
      intro s
      rw [Matrix.inv_def, Matrix.smul_apply, Ring.inverse_eq_inv', smul_eq_mul, adjugate_apply]
    simp only [h1]
    refine DifferentiableAt.mul ?_ ?_
    · exact (differentiableAt_det fun i j => (h i j).differentiableAt).inv hdet
    · refine differentiableAt_det fun a b => ?_
      by_cases ha : a = j
      · subst ha
        simp only [updateRow_self]
        exact differentiableAt_const _
      · simp only [updateRow_ne ha]
        exact (h a b).differentiableAt
  set I' : Mat k ℝ := fun i j => deriv (fun s => (M s)⁻¹ i j) t with hI'
  have hI : HasD (fun s => (M s)⁻¹) I' t := fun i j => (hd i j).hasDerivAt
  have hprod := h.mul hI
  have hone : M' * (M t)⁻¹ + M t * I' = 0 := by
    ext i j
    have h0 : HasDerivAt (fun s => (M s * (M s)⁻¹) i j) 0 t := by
      refine (hasDerivAt_const t ((1 : Mat k ℝ) i j)).congr_of_eventuallyEq ?_
      filter_upwards [eventually_det h hdet] with s hs
      rw [Matrix.mul_nonsing_inv _ (isUnit_iff_ne_zero.2 hs)]
    exact (hprod i j).unique h0
  have : I' = -((M t)⁻¹ * M' * (M t)⁻¹) := by
    have h2 : (M t)⁻¹ * (M' * (M t)⁻¹ + M t * I') = 0 := by rw [hone, Matrix.mul_zero]
    rw [Matrix.mul_add, ← Matrix.mul_assoc (M t)⁻¹ (M t),
      Matrix.nonsing_inv_mul _ (isUnit_iff_ne_zero.2 hdet), Matrix.one_mul, ← Matrix.mul_assoc] at h2
    exact eq_neg_of_add_eq_zero_right h2
  rw [← this]
  exact hI

end

/-- The derivative of a polynomial along a coordinate line. -/
theorem hasDerivAt_eval {dim : ℕ} (p : MvPolynomial (Fin dim) ℝ) (x : Pt dim ℝ) (j : Fin dim) :
    HasDerivAt (fun t => eval (Function.update x j t) p) (eval x (pderiv j p)) (x j) := by
  induction p using MvPolynomial.induction_on with
  | C a => simpa using hasDerivAt_const (x j) a
  | add p q hp hq => simpa using hp.fun_add hq
  | mul_X p i hp =>
    have hx : HasDerivAt (fun t => Function.update x j t i) (if i = j then 1 else 0) (x j) := by
      by_cases h : i = j
      · subst h
        simpa using hasDerivAt_id' (x i)
      · simpa [h] using hasDerivAt_const (x j) (x i)
    have := hp.mul hx
    simp only [map_mul, eval_X]
    refine this.congr_deriv ?_
    rw [Derivation.leibniz, smul_eq_mul, smul_eq_mul, map_add, map_mul, map_mul, eval_X,
      Function.update_eq_self, pderiv_X, Pi.single_apply]
    by_cases h : i = j
    · simp [h]; ring
    · simp [h]; ring

end Verif.LS
