import Verif.Proofs.LeastSqDeriv
import Verif.Props.LeastSq

/-!
# C66: reported derivatives of the approximations
-/

set_option linter.unusedSectionVars false

namespace Verif.LS.Props
open Verif Verif.Frames Verif.LS Matrix MvPolynomial Filter Topology

/-! ## Fits with a fixed weight function -/

section
variable {K : Type} [Field K] [LinearOrder K] [IsStrictOrderedRing K] {dim n r : ℕ}

/-- C66: if the weight function reports vanishing derivatives (constant weights, plain least squares),
then the reported gradient and second derivatives are those of the fitted polynomial. -/
theorem C66_fixed (points : Fin n → Pt dim K) (values : Fin n → Fin r → K) (deg : ℕ)
    (order : ℤ) (w : Option (Weight dim K)) (hg : ∀ i j, (weightOf w).g (points i) j = 0)
    (hG : ∀ i j l, (weightOf w).G (points i) j l = 0)
    (F : Fit dim r K) (hF : wls points values deg order w = .ok F) :
    ∃ p : Fin r → MvPolynomial (Fin dim) K, ∀ x,
      (∀ ρ, (F x).f ρ = eval x (p ρ)) ∧
      (F x).g = (if 0 < order then some fun j ρ => eval x (pderiv j (p ρ)) else none) ∧
      (F x).H = (if 1 < order then
        some fun h ρ => eval x (pderiv (dirs dim h).2 (pderiv (dirs dim h).1 (p ρ))) else none) := by
  rw [wls_eq] at hF
  obtain ⟨k, bas, P, hb, hfit⟩ := wlsDim_structure _ _ _ _ _ _ _ hF
  obtain ⟨-, -, -, e, he, hm⟩ := getPolynomial_spec hb
  have hf := fits_f hfit
  obtain ⟨hi, hV, hB, hd, hdd, hx⟩ := hfit
  obtain ⟨hdet, h1, h2⟩ := inv_ok hi
  have hz : accumulate (fun _ : Fin n => (0 : K)) (fun i => bas.b (points i)) = 0 := by
    ext a b
    rw [accumulate_apply]
    simp
  have hzc : columns (fun _ : Fin n => (0 : K)) (fun i => bas.b (points i)) = 0 := by
    ext a b
    simp [columns]
  have hBc : P.B * P.V = accumulate (fun i => (weightOf w).f (points i))
      (fun i => bas.b (points i)) * fitCoeff P := by
    unfold fitCoeff
    rw [← Matrix.mul_assoc, h1, Matrix.one_mul]
  have hAd0 : ∀ j, P.Ad j = 0 := fun j => by rw [(hd j).1]; simp only [hg]; exact hz
  have hBd0 : ∀ j, P.Bd j = 0 := fun j => by rw [(hd j).2]; simp only [hg]; exact hzc
  have hAdd0 : ∀ h, P.Add h = 0 := fun h => by rw [(hdd h).1]; simp only [hG]; exact hz
  have hBdd0 : ∀ h, P.Bdd h = 0 := fun h => by rw [(hdd h).2]; simp only [hG]; exact hzc
  have hAd : ∀ j, (P.Ad j)ᵀ = P.Ad j := fun j => by rw [hAd0, transpose_zero]
  have hAdd : ∀ h, (P.Add h)ᵀ = P.Add h := fun h => by rw [hAdd0, transpose_zero]
  have hBdc : ∀ j, P.Bd j * P.V = P.Ad j * fitCoeff P := fun j => by
    rw [hAd0, hBd0, Matrix.zero_mul, Matrix.zero_mul]
  have hBddc : ∀ h, P.Bdd h * P.V = P.Add h * fitCoeff P := fun h => by
    rw [hAdd0, hBdd0, Matrix.zero_mul, Matrix.zero_mul]
  refine ⟨fun ρ => ∑ a, fitCoeff P a ρ • monomial (expo (e a)) (1 : K), fun x =>
    ⟨fun ρ => ?_, ?_, ?_⟩⟩
  · rw [hf, eval_expand hm]
  · rw [(hx x).2.1]
    refine if_congr (by simp) ?_ rfl
    refine congrArg some (funext fun j => funext fun ρ => ?_)
    rw [mlsG_eq P (accumulate_transpose _ _) h1 (fitCoeff P) hBc j (hAd j) (hBdc j),
      eval_pderiv_expand hm]
    rfl
  · rw [(hx x).2.2]
    refine if_congr (by simp) ?_ rfl
    refine congrArg some (funext fun h => funext fun ρ => ?_)
    rw [mlsHm_eq P (accumulate_transpose _ _) h1 (fitCoeff P) hBc _ _ h (hAd _) (hAd _) (hAdd h)
      (hBdc _) (hBdc _) (hBddc h), eval_pderiv2_expand hm]
    rfl

end

/-! ## Moving least squares -/

section
variable {dim n r k : ℕ} (points : Fin n → Pt dim ℝ) (values : Fin n → Fin r → ℝ)
  (w : Pt dim ℝ → Weight dim ℝ) (bas : Basis dim (HIdx dim) k ℝ)

/-- Moment matrix. -/
noncomputable def momA (y : Pt dim ℝ) : Mat k ℝ :=
  accumulate (fun i => (w y).f (points i)) fun i => bas.b (points i)

/-- Weighted basis. -/
noncomputable def momB (y : Pt dim ℝ) : Matrix (Fin k) (Fin n) ℝ :=
  columns (fun i => (w y).f (points i)) fun i => bas.b (points i)

/-- Moment matrix of the weight gradient. -/
noncomputable def momAd (j : Fin dim) (y : Pt dim ℝ) : Mat k ℝ :=
  accumulate (fun i => (w y).g (points i) j) fun i => bas.b (points i)

/-- Basis weighted with the weight gradient. -/
noncomputable def momBd (j : Fin dim) (y : Pt dim ℝ) : Matrix (Fin k) (Fin n) ℝ :=
  columns (fun i => (w y).g (points i) j) fun i => bas.b (points i)

/-- Coefficients of the shape functions. -/
noncomputable def gam (y : Pt dim ℝ) : Fin k → ℝ := (momA points w bas y)⁻¹ *ᵥ bas.b y

/-- Their derivatives. -/
noncomputable def gamd (j : Fin dim) (y : Pt dim ℝ) : Fin k → ℝ :=
  (momA points w bas y)⁻¹ *ᵥ (bas.d j y - momAd points w bas j y *ᵥ gam points w bas y)

theorem mls_structure {deg : ℕ} {order : ℤ}
    (hb : getPolynomial (K := ℝ) deg dim = .ok ⟨k, bas⟩) {y : Pt dim ℝ} {o : Out dim (HIdx dim) r ℝ}
    (ho : movingLeastSquares points values deg order (some w) y = .ok o) :
    (momA points w bas y).det ≠ 0 ∧
    o.f = (gam points w bas y ᵥ* momB points w bas y) ᵥ* Matrix.of values ∧
    o.g = (if 0 < order then some fun j => (gamd points w bas j y ᵥ* momB points w bas y +
      gam points w bas y ᵥ* momBd points w bas j y) ᵥ* Matrix.of values else none) ∧
    o.H = (if 1 < order then some fun h =>
      (((momA points w bas y)⁻¹ *ᵥ (bas.dd h y -
        accumulate (fun i => (w y).G (points i) (dirs dim h).1 (dirs dim h).2)
          (fun i => bas.b (points i)) *ᵥ gam points w bas y -
        momAd points w bas (dirs dim h).1 y *ᵥ gamd points w bas (dirs dim h).2 y -
        momAd points w bas (dirs dim h).2 y *ᵥ gamd points w bas (dirs dim h).1 y)) ᵥ*
          momB points w bas y +
        gamd points w bas (dirs dim h).1 y ᵥ* momBd points w bas (dirs dim h).2 y +
        gamd points w bas (dirs dim h).2 y ᵥ* momBd points w bas (dirs dim h).1 y +
        gam points w bas y ᵥ* columns (fun i => (w y).G (points i) (dirs dim h).1 (dirs dim h).2)
          (fun i => bas.b (points i))) ᵥ* Matrix.of values else none) := by
  obtain ⟨F, hF, rfl⟩ := map_ok ho
  have hF' : wls points values deg order (some (w y)) = .ok F := hF
  rw [wls_eq] at hF'
  obtain ⟨k', bas', P, hb', hi, hV, hB, hd, hdd, hx⟩ := wlsDim_structure _ _ _ _ _ _ _ hF'
  rw [hb] at hb'
  injection hb' with hb''
  cases hb''
  obtain ⟨hdet, h1, h2⟩ := inv_ok hi
  have hinv : P.invA = (momA points w bas y)⁻¹ := (Matrix.inv_eq_right_inv h1).symm
  have hBm : P.B = momB points w bas y := hB
  have hg : P.invA *ᵥ bas.b y = gam points w bas y := by rw [hinv]; rfl
  have hgd : ∀ j, gammaD P (bas.d j y) (gam points w bas y) j = gamd points w bas j y := by
    intro j
    unfold gammaD
    rw [hinv, (hd j).1]
    rfl
  refine ⟨hdet, ?_, ?_, ?_⟩
  · rw [(hx y).1, hg, ← hBm, ← hV]
    rfl
  · rw [(hx y).2.1]
    refine if_congr (by simp) ?_ rfl
    refine congrArg some (funext fun j => ?_)
    rw [hg, hgd, ← hBm, ← hV]
    unfold mlsG
    rw [(hd j).2]
    rfl
  · rw [(hx y).2.2]
    refine if_congr (by simp) ?_ rfl
    refine congrArg some (funext fun h => ?_)
    rw [hg, hgd, hgd, ← hBm, ← hV]
    unfold mlsHm
    rw [(hd _).1, (hd _).2, (hd _).1, (hd _).2, (hdd h).1, (hdd h).2, hinv]
    rfl

variable (x : Pt dim ℝ) (j : Fin dim)

/-- The weight function reports the derivative of its value in direction `j` with respect to the
core, for all data points. -/
def GradOK : Prop := ∀ i, HasDerivAt (fun t => (w (Function.update x j t)).f (points i))
  ((w x).g (points i) j) (x j)

/-- The weight function reports the derivative in direction `j` of component `l` of its gradient with
respect to the core, for all data points. -/
def HessOK (l : Fin dim) : Prop :=
  ∀ i, HasDerivAt (fun t => (w (Function.update x j t)).g (points i) l)
    ((w x).G (points i) l j) (x j)

variable {points w x j}

theorem hasD_accumulate {v : ℝ → Fin n → ℝ} {v'} {t : ℝ} (b : Fin n → Fin k → ℝ)
    (h : ∀ i, HasDerivAt (fun s => v s i) (v' i) t) :
    HasD (fun s => accumulate (v s) b) (accumulate v' b) t := by
  intro p q
  simp only [accumulate_apply]
  exact HasDerivAt.fun_sum fun i _ => (h i).const_mul _

theorem hasD_columns {v : ℝ → Fin n → ℝ} {v'} {t : ℝ} (b : Fin n → Fin k → ℝ)
    (h : ∀ i, HasDerivAt (fun s => v s i) (v' i) t) :
    HasD (fun s => columns (v s) b) (columns v' b) t := by
  intro p q
  simp only [columns, Matrix.of_apply]
  exact (h q).const_mul _

theorem hasD_gam {deg : ℕ} (hb : getPolynomial (K := ℝ) deg dim = .ok ⟨k, bas⟩)
    (hw : GradOK points w x j) (hdet : (momA points w bas x).det ≠ 0) :
    HasD (fun t => momA points w bas (Function.update x j t)) (momAd points w bas j x) (x j) ∧
    HasD (fun t => momB points w bas (Function.update x j t)) (momBd points w bas j x) (x j) ∧
    HasDv (fun t => gam points w bas (Function.update x j t)) (gamd points w bas j x) (x j) := by
  obtain ⟨-, -, -, e, he, hm⟩ := getPolynomial_spec hb
  have hA : HasD (fun t => momA points w bas (Function.update x j t)) (momAd points w bas j x)
      (x j) := hasD_accumulate _ hw
  have hB : HasD (fun t => momB points w bas (Function.update x j t)) (momBd points w bas j x)
      (x j) := hasD_columns _ hw
  refine ⟨hA, hB, ?_⟩
  have hbv : HasDv (fun t => bas.b (Function.update x j t)) (bas.d j x) (x j) := by
    intro a
    simp only [(hm _ _).1, (hm x a).2.1 j]
    exact hasDerivAt_eval _ _ _
  have hup : Function.update x j (x j) = x := Function.update_eq_self _ _
  have hI := HasD.inv hA (by rw [hup]; exact hdet)
  have := hI.mulVec hbv
  simp only [hup] at this
  refine (show gamd points w bas j x = _ from ?_) ▸ this
  unfold gamd gam
  rw [neg_mulVec, mulVec_sub, mulVec_mulVec, mulVec_mulVec, Matrix.mul_assoc, neg_add_eq_sub]

theorem hasD_gamd {deg : ℕ} (hb : getPolynomial (K := ℝ) deg dim = .ok ⟨k, bas⟩) (h : HIdx dim)
    (hj : (dirs dim h).2 = j)
    (hw : GradOK points w x j) (hw2 : HessOK points w x j (dirs dim h).1)
    (hdet : (momA points w bas x).det ≠ 0) :
    HasD (fun t => momBd points w bas (dirs dim h).1 (Function.update x j t))
      (columns (fun i => (w x).G (points i) (dirs dim h).1 j) fun i => bas.b (points i)) (x j) ∧
    HasDv (fun t => gamd points w bas (dirs dim h).1 (Function.update x j t))
      ((momA points w bas x)⁻¹ *ᵥ (bas.dd h x -
        accumulate (fun i => (w x).G (points i) (dirs dim h).1 j)
          (fun i => bas.b (points i)) *ᵥ gam points w bas x -
        momAd points w bas (dirs dim h).1 x *ᵥ gamd points w bas j x -
        momAd points w bas j x *ᵥ gamd points w bas (dirs dim h).1 x)) (x j) := by
  obtain ⟨-, -, -, e, he, hm⟩ := getPolynomial_spec hb
  obtain ⟨hA, hB, hG⟩ := hasD_gam bas hb hw hdet
  have hAd : HasD (fun t => momAd points w bas (dirs dim h).1 (Function.update x j t))
      (accumulate (fun i => (w x).G (points i) (dirs dim h).1 j) fun i => bas.b (points i)) (x j) :=
    hasD_accumulate _ hw2
  refine ⟨hasD_columns _ hw2, ?_⟩
  have hbv : HasDv (fun t => bas.d (dirs dim h).1 (Function.update x j t)) (bas.dd h x) (x j) := by
    intro a
    simp only [(hm _ _).2.1, (hm x a).2.2 h, hj]
    exact hasDerivAt_eval _ _ _
  have hup : Function.update x j (x j) = x := Function.update_eq_self _ _
  have hI := HasD.inv hA (by rw [hup]; exact hdet)
  have := hI.mulVec (hbv.sub (hAd.mulVec hG))
  simp only [hup] at this
  refine this.congr ?_
  unfold gamd
  rw [neg_mulVec, ← mulVec_mulVec, ← mulVec_mulVec, ← mulVec_neg, ← mulVec_add]
  congr 1
  abel

variable (points w x j)

/-- C66: the gradient reported by moving least squares is the gradient of the reported value, at
every point where the weight function reports its derivative correctly: near the point the
approximation is defined and component `j` is the derivative along the coordinate line. -/
theorem C66_moving_gradient (deg : ℕ) (order : ℤ) (o : Out dim (HIdx dim) r ℝ)
    (ho : movingLeastSquares points values deg order (some w) x = .ok o)
    (g : Fin dim → Fin r → ℝ) (hg : o.g = some g) (hw : GradOK points w x j)
    (ρ : Fin r) (V : ℝ → ℝ)
    (hV : ∀ t o', movingLeastSquares points values deg order (some w) (Function.update x j t) = .ok o' →
      V t = o'.f ρ) :
    (∀ᶠ t in 𝓝 (x j), ∃ o',
      movingLeastSquares points values deg order (some w) (Function.update x j t) = .ok o') ∧
    HasDerivAt V (g j ρ) (x j) := by
  obtain ⟨k, bas, hb⟩ : ∃ k bas, getPolynomial (K := ℝ) deg dim = .ok ⟨k, bas⟩ := by
    obtain ⟨F, hF, -⟩ := map_ok ho
    have hF' : wls points values deg order (some (w x)) = .ok F := hF
    rw [wls_eq] at hF'
    obtain ⟨k, bas, P, hb, -⟩ := wlsDim_structure _ _ _ _ _ _ _ hF'
    exact ⟨k, bas, hb⟩
  obtain ⟨hdim, -, hk, -⟩ := getPolynomial_spec hb
  obtain ⟨hdet, -, hg', -⟩ := mls_structure points values w bas hb ho
  obtain ⟨hA, hB, hG⟩ := hasD_gam bas hb hw hdet
  have hup : Function.update x j (x j) = x := Function.update_eq_self _ _
  have hev : ∀ᶠ t in 𝓝 (x j), ∃ o',
      movingLeastSquares points values deg order (some w) (Function.update x j t) = .ok o' := by
    filter_upwards [eventually_det hA (by rw [hup]; exact hdet)] with t ht
    obtain ⟨B, hB⟩ := inv_exists ht
    obtain ⟨F, hF⟩ := (wlsDim_status points values deg (w (Function.update x j t))
      (decide (0 < order)) (decide (1 < order)) hdim hb hk).1 B hB
    have hF' : wls points values deg order (some (w (Function.update x j t))) = .ok F := by
      rw [wls_eq]
      exact hF
    refine ⟨F (Function.update x j t), ?_⟩
    have : movingLeastSquares points values deg order (some w) (Function.update x j t) =
        (wls points values deg order (some (w (Function.update x j t)))).map
          fun f => f (Function.update x j t) := rfl
    rw [this, hF']
    rfl
  refine ⟨hev, ?_⟩
  rw [hg] at hg'
  split at hg'
  · injection hg' with hg''
    rw [hg'']
    have h1 := (HasD.const (t := x j) (Matrix.of values)).vecMul (hB.vecMul hG)
    have h2 := h1 ρ
    simp only [hup, vecMul_zero, add_zero] at h2
    refine h2.congr_of_eventuallyEq ?_
    filter_upwards [hev] with t ht
    obtain ⟨o', ho'⟩ := ht
    rw [hV t o' ho', (mls_structure points values w bas hb ho').2.1]
  · cases hg'

/-- C66: the second derivatives reported by moving least squares are the derivatives of the reported
gradient. -/
theorem C66_moving_hessian (deg : ℕ) (order : ℤ) (o : Out dim (HIdx dim) r ℝ)
    (ho : movingLeastSquares points values deg order (some w) x = .ok o)
    (Hs : HIdx dim → Fin r → ℝ) (hH : o.H = some Hs) (h : HIdx dim) (hj : (dirs dim h).2 = j)
    (hw : GradOK points w x j) (hw2 : HessOK points w x j (dirs dim h).1)
    (ρ : Fin r) (V : ℝ → ℝ)
    (hV : ∀ t o' g, movingLeastSquares points values deg order (some w) (Function.update x j t) = .ok o' →
      o'.g = some g → V t = g (dirs dim h).1 ρ) :
    HasDerivAt V (Hs h ρ) (x j) := by
  obtain ⟨k, bas, hb⟩ : ∃ k bas, getPolynomial (K := ℝ) deg dim = .ok ⟨k, bas⟩ := by
    obtain ⟨F, hF, -⟩ := map_ok ho
    have hF' : wls points values deg order (some (w x)) = .ok F := hF
    rw [wls_eq] at hF'
    obtain ⟨k, bas, P, hb, -⟩ := wlsDim_structure _ _ _ _ _ _ _ hF'
    exact ⟨k, bas, hb⟩
  obtain ⟨hdet, -, hg', hH'⟩ := mls_structure points values w bas hb ho
  obtain ⟨hA, hB, hG⟩ := hasD_gam bas hb hw hdet
  obtain ⟨hBd, hGd⟩ := hasD_gamd bas hb h hj hw hw2 hdet
  have hup : Function.update x j (x j) = x := Function.update_eq_self _ _
  rw [hH] at hH'
  split at hH'
  case isFalse => cases hH'
  case isTrue hord =>
    have hord0 : 0 < order := by omega
    rw [if_pos hord0] at hg'
    have hev := (C66_moving_gradient points values w x j deg order o ho _ hg' hw ρ
      (fun t => match movingLeastSquares points values deg order (some w) (Function.update x j t) with
        | .ok o' => o'.f ρ
        | .error _ => 0) (fun t o' ho' => by simp only [ho'])).1
    injection hH' with hH''
    rw [hH'']
    have h1 := (HasD.const (t := x j) (Matrix.of values)).vecMul
      ((hB.vecMul hGd).add (hBd.vecMul hG))
    have h2 := h1 ρ
    simp only [hup, vecMul_zero, add_zero] at h2
    subst hj
    refine HasDerivAt.congr_of_eventuallyEq (h2.congr_deriv ?_) ?_
    · refine congrArg (fun u => (u ᵥ* Matrix.of values) ρ) ?_
      abel
    · filter_upwards [hev] with t ht
      obtain ⟨o', ho'⟩ := ht
      have hgt := (mls_structure points values w bas hb ho').2.2.1
      rw [if_pos hord0] at hgt
      rw [hV t o' _ ho' hgt]

end

end Verif.LS.Props
