import Verif.Proofs.RoundedFit
import Verif.Proofs.Rounding
import Verif.Props.LeastSq

/-!
# C119: least squares in floating point arithmetic
-/

set_option linter.unusedSectionVars false

namespace Verif.RFit.Props
open Verif Verif.Rnd Verif.Frames Verif.LS Verif.RFrames Verif.RFit MvPolynomial

section
variable {K : Type} [Field K] [LinearOrder K] [IsStrictOrderedRing K] {fl : K → K}
variable {dim n r : ℕ}

/-- One plus the sum of the absolute values of the coordinates; its `deg`-th power is not less than the sum of the
absolute values of all monomials of degree up to `deg`. -/
def reach (x : Fin dim → K) : K := 1 + ∑ j, |x j|

/-- The sum of the absolute values of the terms of a polynomial at a point. -/
def absTerms (p : MvPolynomial (Fin dim) K) (x : Fin dim → K) : K :=
  ∑ m ∈ p.support, |coeff m p| * ∏ j, |x j| ^ m j

/-- The sum of the absolute values of the coefficients. -/
def absCoeffs (p : MvPolynomial (Fin dim) K) : K := ∑ m ∈ p.support, |coeff m p|

theorem near_basis {u : K} (hu : Precise fl u) (x : K) : Near u 1 |x| (fl x) x := (Near.refl u x).round hu

theorem expand_le {k deg : ℕ} {e : Fin k → Fin dim → ℕ} (he : IsExps deg dim k e)
    (p : MvPolynomial (Fin dim) K) (g : (Fin dim →₀ ℕ) → K) (hg : ∀ m, 0 ≤ g m) :
    ∑ a, |coeff (expo (e a)) p| * g (expo (e a)) ≤ ∑ m ∈ p.support, |coeff m p| * g m := by
  have hinj : Function.Injective fun a => expo (e a) :=
    fun a b hab => he.inj (Finsupp.equivFunOnFinite.symm.injective hab)
  rw [← Finset.sum_image (s := Finset.univ) (g := fun a => expo (e a))
    (f := fun m => |coeff m p| * g m) (fun a _ b _ h => hinj h)]
  rw [← Finset.sum_subset (Finset.inter_subset_left (s₂ := p.support)) fun m hm h => ?_]
  · exact Finset.sum_le_sum_of_subset_of_nonneg Finset.inter_subset_right
      fun m _ _ => mul_nonneg (abs_nonneg _) (hg m)
  · have h0 : coeff m p = 0 := by
      rw [← notMem_support_iff]
      exact fun hs => h (Finset.mem_inter.2 ⟨hm, hs⟩)
    rw [h0, abs_zero, zero_mul]

theorem basis_reach {deg k : ℕ} {bas : Basis dim (HIdx dim) k K}
    (h : getPolynomial deg dim = .ok ⟨k, bas⟩) (x : Fin dim → K) :
    ∑ q, |bas.b x q| ≤ reach x ^ deg ∧ ∀ j, ∑ q, |bas.d j x q| ≤ deg * reach x ^ (deg - 1) := by
  match dim, bas, h, x with
  | 0, _, h, _ => cases h
  | _ + 4, _, h, _ => cases h
  | 1, bas, h, x => match deg, h with
    | 0, h => cases h
    | 1, h =>
      cases h
      have := abs_nonneg (x 0)
      refine ⟨by simp [poly11, reach, Fin.sum_univ_succ], fun j => ?_⟩
      fin_cases j
      simp [poly11, reach, Fin.sum_univ_succ]
    | 2, h =>
      cases h
      have := abs_nonneg (x 0)
      refine ⟨by simp [poly21, reach, Fin.sum_univ_succ]; nlinarith [sq_abs (x 0)], fun j => ?_⟩
      fin_cases j
      simp [poly21, reach, Fin.sum_univ_succ, abs_mul]
      linarith
    | _ + 3, h => cases h
  | 2, bas, h, x => match deg, h with
    | 0, h => cases h
    | 1, h =>
      cases h
      refine ⟨by simp [poly12, reach, Fin.sum_univ_succ], fun j => ?_⟩
      fin_cases j <;> simp [poly12, reach, Fin.sum_univ_succ]
    | 2, h =>
      cases h
      have h0 := abs_nonneg (x 0)
      have h1 := abs_nonneg (x 1)
      refine ⟨by
        simp [poly22, reach, Fin.sum_univ_succ, abs_mul]
        nlinarith [sq_abs (x 0), sq_abs (x 1), mul_nonneg h0 h1], fun j => ?_⟩
      fin_cases j <;> simp [poly22, reach, Fin.sum_univ_succ, abs_mul] <;> linarith
    | _ + 3, h => cases h
  | 3, bas, h, x => match deg, h with
    | 0, h => cases h
    | 1, h =>
      cases h
      refine ⟨by simp [poly13, reach, Fin.sum_univ_succ], fun j => ?_⟩
      fin_cases j <;> simp [poly13, reach, Fin.sum_univ_succ]
    | 2, h =>
      cases h
      have h0 := abs_nonneg (x 0)
      have h1 := abs_nonneg (x 1)
      have h2 := abs_nonneg (x 2)
      refine ⟨by
        simp [poly23, reach, Fin.sum_univ_succ, abs_mul]
        nlinarith [sq_abs (x 0), sq_abs (x 1), sq_abs (x 2), mul_nonneg h0 h1, mul_nonneg h0 h2,
          mul_nonneg h1 h2], fun j => ?_⟩
      fin_cases j <;> simp [poly23, reach, Fin.sum_univ_succ, abs_mul] <;> linarith
    | _ + 3, h => cases h

/-- C119: whenever a fit returns, numpy has inverted a matrix `A` which is the moment matrix of the points up to
rounding errors.  If its answer `R` has entries of size up to `ρ` and leaves residuals `A R - 1` up to `ε`, then data
that are values of polynomials of the chosen degree, with relative errors of up to `m` roundings, are reproduced at every
point `x`, together with the gradient, up to the bounds given. -/
theorem C119_reproduction {u : K} (hu : Precise fl u) (inv : ∀ k, Mat k K → Py (Mat k K))
    (pl : ∀ k, Plans dim k n r) (h m deg : ℕ) (hpl : (pl ((deg + dim).choose dim)).Complete h)
    (points : Fin n → Fin dim → K) (values : Fin n → Fin r → K) (w : Fin n → K)
    (gw : Fin n → Fin dim → K) (x : Fin dim → K) (o : RFit.Out dim r K)
    (ho : approximate fl inv pl points values deg w gw x = .ok o)
    (p : Fin r → MvPolynomial (Fin dim) K) (hp : ∀ σ, (p σ).totalDegree ≤ deg)
    (hdata : ∀ i σ, |values i σ - eval (points i) (p σ)| ≤ ((1 + u) ^ m - 1) * absTerms (p σ) (points i)) :
    ∃ (k : ℕ) (e : Fin k → Fin dim →₀ ℕ) (A R : Mat k K),
      Function.Injective e ∧ (∀ m : Fin dim →₀ ℕ, (∃ a, e a = m) ↔ ∑ j, m j ≤ deg) ∧
      (∀ a b, |A a b - ∑ i, w i * eval (points i) (monomial (e a + e b) (1 : K))| ≤
        ((1 + u) ^ (n + 4) - 1) * ∑ i, |w i * eval (points i) (monomial (e a + e b) (1 : K))|) ∧
      inv k A = .ok R ∧
      ∀ ε ρ, (∀ a b, |(A * R) a b - (1 : Mat k K) a b| ≤ ε) → (∀ a b, |R a b| ≤ ρ) →
        (∀ σ, |o.f σ - eval x (p σ)| ≤
          (ε * absCoeffs (p σ) + 2 * ((1 + u) ^ (3 * h + n + m + 4) - 1) *
            (ρ * ∑ i, |w i| * reach (points i) ^ deg * absTerms (p σ) (points i))) * reach x ^ deg) ∧
        ∀ j σ, |o.g j σ - eval x (pderiv j (p σ))| ≤
          (ε * absCoeffs (p σ) + 2 * ((1 + u) ^ (5 * h + n + m + 10) - 1) *
            (ρ * ∑ i, |w i| * reach (points i) ^ deg * absTerms (p σ) (points i))) *
              (deg * reach x ^ (deg - 1) + ρ * reach x ^ deg *
                ∑ i, |gw i j| * reach (points i) ^ deg * reach (points i) ^ deg) +
          ((1 + u) ^ (5 * h + n + m + 10) - 1) * (ρ * reach x ^ deg *
            ∑ i, |gw i j| * reach (points i) ^ deg * absTerms (p σ) (points i)) := by
  unfold approximate at ho
  obtain ⟨⟨k, bas⟩, hb, h2⟩ := bind_ok ho
  dsimp only at h2
  obtain ⟨hdim, hdeg, hk, e, he, hm⟩ := getPolynomial_spec hb
  have hpl' : (pl k).Complete h := by
    obtain ⟨-, -, -, -, -, -, hch, -⟩ := LS.Props.C54_basis deg dim k bas hb
    rwa [hch]
  rw [if_neg (by rw [hk]; simp)] at h2
  obtain ⟨R, hR, rfl⟩ := map_ok h2
  have hbas : ∀ x a, bas.b x a = ∏ j, x j ^ e a j := fun x a => by
    rw [(hm x a).1, eval_mono, one_mul]
  have hbasd : ∀ x a, bas.b x a = eval x (monomial (expo (e a)) (1 : K)) := fun x a => (hm x a).1
  have hinj : Function.Injective fun a => expo (e a) :=
    fun a b hab => he.inj (Finsupp.equivFunOnFinite.symm.injective hab)
  have hmul : ∀ i a b, bas.b (points i) a * bas.b (points i) b * w i =
      w i * eval (points i) (monomial (expo (e a) + expo (e b)) (1 : K)) := fun i a b => by
    rw [hbasd, hbasd, mul_comm (w i), ← eval_mul, monomial_mul, one_mul]
  have hpe : ∀ σ y, eval y (p σ) = ∑ s, coeff (expo (e s)) (p σ) * bas.b y s := fun σ y => by
    conv_lhs => rw [poly_expand he (p σ) (hp σ)]
    rw [map_sum]
    exact Finset.sum_congr rfl fun s _ => by rw [smul_eval, hbasd]
  have hpd : ∀ σ j y, eval y (pderiv j (p σ)) = ∑ s, coeff (expo (e s)) (p σ) * bas.d j y s :=
    fun σ j y => by
    conv_lhs => rw [poly_expand he (p σ) (hp σ)]
    rw [map_sum, map_sum]
    exact Finset.sum_congr rfl fun s _ => by rw [Derivation.map_smul, smul_eval, (hm y s).2.1 j]
  have hv : ∀ σ i, ∑ s, |coeff (expo (e s)) (p σ)| * |bas.b (points i) s| ≤ absTerms (p σ) (points i) :=
    fun σ i => by
    have := expand_le he (p σ) (fun m => ∏ j, |points i j| ^ m j)
      (fun m => Finset.prod_nonneg fun j _ => pow_nonneg (abs_nonneg _) _)
    refine le_trans (le_of_eq ?_) this
    refine Finset.sum_congr rfl fun s _ => ?_
    rw [hbas, Finset.abs_prod]
    simp only [abs_pow, expo_apply]
  have hC : ∀ σ, ∑ s, |coeff (expo (e s)) (p σ)| ≤ absCoeffs (p σ) := fun σ => by
    have := expand_le he (p σ) (fun _ => 1) (fun _ => zero_le_one)
    simpa [absCoeffs] using this
  refine ⟨k, fun a => expo (e a), _, R, hinj, fun m => ⟨?_, fun hle => ?_⟩, fun a b => ?_, hR,
    fun ε ρ hε hρ => ?_⟩
  · rintro ⟨a, rfl⟩
    exact he.le a
  · obtain ⟨a, ha⟩ := he.surj (fun j => m j) hle
    refine ⟨a, ?_⟩
    ext j
    show expo (e a) j = m j
    rw [expo_apply, ha]
  · have := (moments_near hu w (fun i => bas.b (points i)) (fun i q => fl (bas.b (points i) q))
      (fun i q => near_basis hu _) a b).1
    simpa only [hmul] using this
  · obtain ⟨a0, -⟩ := he.surj (fun _ => 0) (by simp)
    have hε0 : 0 ≤ ε := (abs_nonneg _).trans (hε a0 a0)
    have hρ0 : 0 ≤ ρ := (abs_nonneg _).trans (hρ a0 a0)
    refine ⟨fun σ => ?_, fun j σ => ?_⟩
    · rw [hpe]
      exact value_bound hu hpl' w gw (fun i => bas.b (points i)) _
        (fun i q => near_basis hu _) (fun i => (basis_reach hb (points i)).1) (bas.b x) _
        (fun q => near_basis hu _) (basis_reach hb x).1 _ (fun s => coeff (expo (e s)) (p σ)) (hC σ) (hv σ)
        R hε0 hρ0 hε hρ values σ (fun i => by rw [← hpe]; exact hdata i σ)
    · rw [hpd]
      exact grad_bound hu hpl' w gw (fun i => bas.b (points i)) _
        (fun i q => near_basis hu _) (fun i => (basis_reach hb (points i)).1) (bas.b x) _
        (fun q => near_basis hu _) (basis_reach hb x).1 (fun j => bas.d j x) _
        (fun j q => near_basis hu _) (fun j => (basis_reach hb x).2 j)
        (fun s => coeff (expo (e s)) (p σ)) (hC σ) (hv σ)
        R hε0 hρ0 hε hρ values σ (fun i => by rw [← hpe]; exact hdata i σ) j

theorem approximate_eq (inv : ∀ k, Mat k K → Py (Mat k K)) (pl : ∀ k, Plans dim k n r)
    (points : Fin n → Fin dim → K) (values : Fin n → Fin r → K) (deg : ℕ) (w : Fin n → K)
    (gw : Fin n → Fin dim → K) (x : Fin dim → K) {k : ℕ} {bas : Basis dim (HIdx dim) k K}
    (hb : getPolynomial deg dim = .ok ⟨k, bas⟩) :
    approximate fl inv pl points values deg w gw x =
      (inv k (moments fl w fun i q => fl (bas.b (points i) q))).map fun invA =>
        evaluate fl (pl k) invA (columns fl w fun i q => fl (bas.b (points i) q))
          (fun j => moments fl (fun i => gw i j) fun i q => fl (bas.b (points i) q))
          (fun j => columns fl (fun i => gw i j) fun i q => fl (bas.b (points i) q)) values
          (fun q => fl (bas.b x q)) fun j q => fl (bas.d j x q) := by
  unfold approximate
  rw [hb]
  show (if kFormula deg dim ≠ _ then _ else _) = _
  rw [if_neg (by rw [(getPolynomial_spec hb).2.2.1]; simp)]

/-- C119: the supported degrees and dimensions are those of exact arithmetic; then the fit returns exactly if numpy
inverts the matrix it is given, and otherwise its exception reaches the caller. -/
theorem C119_returns (inv : ∀ k, Mat k K → Py (Mat k K)) (pl : ∀ k, Plans dim k n r)
    (points : Fin n → Fin dim → K) (values : Fin n → Fin r → K) (deg : ℕ) (w : Fin n → K)
    (gw : Fin n → Fin dim → K) (x : Fin dim → K) :
    (¬((dim = 1 ∨ dim = 2 ∨ dim = 3) ∧ (deg = 1 ∨ deg = 2)) →
      approximate fl inv pl points values deg w gw x = .error .notImplemented) ∧
    ((dim = 1 ∨ dim = 2 ∨ dim = 3) ∧ (deg = 1 ∨ deg = 2) →
      ∃ A : Mat ((deg + dim).choose dim) K,
        (∀ R, inv _ A = .ok R → ∃ o, approximate fl inv pl points values deg w gw x = .ok o) ∧
        ∀ err, inv _ A = .error err → approximate fl inv pl points values deg w gw x = .error err) := by
  refine ⟨fun h => ?_, fun h => ?_⟩
  · unfold approximate
    rw [(LS.Props.C54_supported (K := K) deg dim).2.1 h]
    rfl
  · obtain ⟨k, bas, hb⟩ := getPolynomial_exists (K := K) h.1 h.2
    obtain ⟨e, -, -, -, -, -, hk, hk'⟩ := LS.Props.C54_basis deg dim k bas hb
    subst hk
    refine ⟨moments fl w fun i q => fl (bas.b (points i) q), fun R hR => ?_, fun err hR => ?_⟩
    · rw [approximate_eq inv pl points values deg w gw x hb, hR]
      exact ⟨_, rfl⟩
    · rw [approximate_eq inv pl points values deg w gw x hb, hR]
      rfl

end

/-! ## A fit that is not determined -/

/-- One product after the other is added, without contraction. -/
def inTurn (N : ℕ) : Plan N := (List.finRange N).foldl (fun p i => .add p (.prod i)) .zero

/-- All products in turn. -/
def allInTurn (dim k n r : ℕ) : Plans dim k n r :=
  ⟨fun _ => inTurn k, fun _ => inTurn k, fun _ => inTurn n, fun _ _ => inTurn k, fun _ _ => inTurn k,
    fun _ _ => inTurn k, fun _ _ => inTurn k, fun _ _ => inTurn n⟩

theorem inTurn_spec (N : ℕ) :
    (inTurn N).terms.Perm (List.finRange N) ∧ (inTurn N).height ≤ N + 1 := by
  have key : ∀ (l : List (Fin N)) (p : Plan N),
      (l.foldl (fun p i => Plan.add p (.prod i)) p).terms = p.terms ++ l ∧
      (l.foldl (fun p i => Plan.add p (.prod i)) p).height ≤ max p.height 1 + l.length := by
    intro l
    induction l with
    | nil => intro p; simp
    | cons i l ih =>
      intro p
      obtain ⟨h1, h2⟩ := ih (.add p (.prod i))
      rw [List.foldl_cons]
      refine ⟨by rw [h1]; simp [Plan.terms], h2.trans ?_⟩
      simp only [Plan.height, List.length_cons]
      omega
  obtain ⟨h1, h2⟩ := key (List.finRange N) .zero
  refine ⟨?_, ?_⟩
  · unfold inTurn
    rw [h1]
    simp [Plan.terms]
  · unfold inTurn
    refine h2.trans ?_
    simp [Plan.height]
    omega

theorem allInTurn_complete (dim k n r : ℕ) : (allInTurn dim k n r).Complete (k + n + 1) := by
  have h1 := inTurn_spec k
  have h2 := inTurn_spec n
  exact ⟨fun _ => ⟨h1.1, by show (inTurn k).height ≤ _; omega⟩,
    fun _ => ⟨h1.1, by show (inTurn k).height ≤ _; omega⟩,
    fun _ => ⟨h2.1, by show (inTurn n).height ≤ _; omega⟩,
    fun _ _ => ⟨h1.1, by show (inTurn k).height ≤ _; omega⟩,
    fun _ _ => ⟨h1.1, by show (inTurn k).height ≤ _; omega⟩,
    fun _ _ => ⟨h1.1, by show (inTurn k).height ≤ _; omega⟩,
    fun _ _ => ⟨h1.1, by show (inTurn k).height ≤ _; omega⟩,
    fun _ _ => ⟨h2.1, by show (inTurn n).height ≤ _; omega⟩⟩

/-- The coordinate `1 + 2⁻³⁰`. -/
def c0 : ℚ := 1 + 1 / 2 ^ 30

/-- The inverse of the rounded moment matrix. -/
def R0 : Mat 2 ℚ := !![-2 ^ 59 * (1 + 1 / 2 ^ 29), 2 ^ 59 * c0; 2 ^ 59 * c0, -2 ^ 59]

/-- C119 fails for fits that are not determined: through two measurements at the same place there are many lines, and in
exact arithmetic numpy refuses to invert the moment matrix.  In double precision this matrix is not singular any more at
the coordinate `1 + 2⁻³⁰`: even if it is inverted without any error, a fit is returned, and at the very point where both
measurements are one its value is zero. -/
theorem C119_undetermined_violated (inv : ∀ k, Mat k ℚ → Py (Mat k ℚ))
    (hinv : ∀ k A, A.det ≠ 0 → ∃ R, inv k A = .ok R ∧ A * R = 1) :
    binary 53 (1 + 1 / 2 ^ 30) = 1 + 1 / 2 ^ 30 ∧
    weightedLeastSquares (fun _ : Fin 2 => fun _ : Fin 1 => (1 + 1 / 2 ^ 30 : ℚ))
      (fun _ : Fin 2 => fun _ : Fin 1 => 1) 1 0 none = .error .linalg ∧
    ∃ o, approximate (binary 53) inv (fun k => allInTurn 1 k 2 1) (fun _ _ => 1 + 1 / 2 ^ 30) (fun _ _ => 1) 1
      (fun _ => 1) (fun _ _ => 0) (fun _ => 1 + 1 / 2 ^ 30) = .ok o ∧ o.f 0 = 0 := by
  refine ⟨by decide +kernel, ?_, ?_⟩
  · have := (LS.Props.C52_succeeds (fun _ : Fin 2 => fun _ : Fin 1 => (1 + 1 / 2 ^ 30 : ℚ))
      (fun _ : Fin 2 => fun _ : Fin 1 => 1) 1 0 none (Or.inl rfl) (Or.inl rfl)
      (fun _ => by simp [LS.Props.weightOf, constWeight])).2
    refine this fun h => ?_
    have h0 := h (X 0 - C (1 + 1 / 2 ^ 30)) ?_ (fun i _ => by simp)
    · have h1 := congrArg (eval fun _ => (0 : ℚ)) h0
      norm_num at h1
    · refine (totalDegree_sub _ _).trans (max_le ?_ ?_)
      · rw [totalDegree_X]
      · rw [totalDegree_C]; omega
  · have hA : moments (binary 53) (fun _ : Fin 2 => 1) (fun _ q => binary 53 (poly11.b (fun _ => c0) q)) =
        !![2, 2 * c0; 2 * c0, 2 * (1 + 1 / 2 ^ 29)] := by
      ext p q
      fin_cases p <;> fin_cases q <;> decide +kernel
    have hR0 : R0 * !![2, 2 * c0; 2 * c0, 2 * (1 + 1 / 2 ^ 29)] = 1 := by
      ext p q
      fin_cases p <;> fin_cases q <;> decide +kernel
    have hdet : (!![2, 2 * c0; 2 * c0, 2 * (1 + 1 / 2 ^ 29)] : Mat 2 ℚ).det ≠ 0 := by
      rw [Matrix.det_fin_two]
      decide +kernel
    obtain ⟨R, hR, hAR⟩ := hinv 2 _ hdet
    have hRR : R = R0 := by
      calc R = R0 * !![2, 2 * c0; 2 * c0, 2 * (1 + 1 / 2 ^ 29)] * R := by rw [hR0, Matrix.one_mul]
        _ = R0 := by rw [Matrix.mul_assoc, hAR, Matrix.mul_one]
    subst hRR
    have hA' : inv 2 (moments (binary 53) (fun _ : Fin 2 => 1)
        (fun _ q => binary 53 (poly11.b (fun _ => c0) q))) = .ok R0 := by rw [hA, hR]
    have := approximate_eq (fl := binary 53) inv (fun k => allInTurn 1 k 2 1) (fun _ _ => c0) (fun _ _ => 1) 1
      (fun _ => 1) (fun _ _ => 0) (fun _ => c0) (k := 2) (bas := poly11) rfl
    rw [hA'] at this
    exact ⟨_, this, by decide +kernel⟩

/-- The hypotheses of `C119_reproduction` for the line `y = x` through two points. -/
example : ∃ o, approximate (binary 53) (fun _ A => .ok A⁻¹) (fun k => allInTurn 1 k 2 1) (fun i _ => (i : ℚ))
    (fun i _ => (i : ℚ)) 1 (fun _ => 1) (fun _ _ => 0) (fun _ => 1 / 2) = .ok o ∧
    Precise (binary 53) (1 / 2 ^ 53) ∧ (allInTurn 1 ((1 + 1).choose 1) 2 1).Complete 5 ∧
    (∀ i : Fin 2, |(i : ℚ) - eval (fun _ : Fin 1 => (i : ℚ)) (X 0 : MvPolynomial (Fin 1) ℚ)| ≤
      ((1 + 1 / 2 ^ 53) ^ 0 - 1) * absTerms (X 0 : MvPolynomial (Fin 1) ℚ) (fun _ => (i : ℚ))) :=
  ⟨_, rfl, binary_precise 53 (by norm_num), allInTurn_complete 1 2 2 1, by simp⟩

end Verif.RFit.Props
