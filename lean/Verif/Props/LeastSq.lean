import Verif.Proofs.LeastSq
import Mathlib.LinearAlgebra.Matrix.ToLinearEquiv
import Mathlib.Algebra.Order.BigOperators.Group.Finset
import Mathlib.Algebra.Order.BigOperators.Ring.Finset
import Mathlib.Tactic.Linarith
import Mathlib.Data.Rat.BigOperators

/-!
# C52, C53, C54: least squares
-/

set_option linter.unusedSectionVars false

namespace Verif.LS.Props
open Verif Verif.Frames Verif.LS Matrix MvPolynomial

variable {K : Type} [Field K] [LinearOrder K]

/-! ## C54 -/

/-- C54: the basis returned for a degree and a dimension lists the monomials up to this degree, each
once (`e` are their exponents); the derivative bases are their first and second partial derivatives;
the number of basis functions is the binomial coefficient, which is also what the preprocessing
computes. -/
theorem C54_basis (deg dim k : ℕ) (bas : Basis dim (HIdx dim) k K)
    (h : getPolynomial deg dim = .ok ⟨k, bas⟩) :
    ∃ e : Fin k → Fin dim →₀ ℕ, Function.Injective e ∧
      (∀ m : Fin dim →₀ ℕ, (∃ a, e a = m) ↔ ∑ j, m j ≤ deg) ∧
      (∀ x a, bas.b x a = eval x (monomial (e a) (1 : K))) ∧
      (∀ j x a, bas.d j x a = eval x (pderiv j (monomial (e a) (1 : K)))) ∧
      (∀ i x a, bas.dd i x a =
        eval x (pderiv (dirs dim i).2 (pderiv (dirs dim i).1 (monomial (e a) (1 : K))))) ∧
      k = (deg + dim).choose dim ∧ kFormula deg dim = k := by
  obtain ⟨hdim, hdeg, hk, e, he, hm⟩ := getPolynomial_spec h
  refine ⟨fun a => expo (e a), fun a b hab => he.inj (Finsupp.equivFunOnFinite.symm.injective hab),
    fun m => ⟨?_, fun hle => ?_⟩, fun x a => (hm x a).1, fun j x a => (hm x a).2.1 j,
    fun i x a => (hm x a).2.2 i, ?_, hk⟩
  · rintro ⟨a, rfl⟩
    exact he.le a
  · obtain ⟨a, ha⟩ := he.surj (fun j => m j) hle
    refine ⟨a, ?_⟩
    ext j
    show expo (e a) j = m j
    rw [expo_apply, ha]
  · rw [← hk]
    rcases hdim with rfl | rfl | rfl <;> rcases hdeg with rfl | rfl <;> rfl

/-- C54: the supported degrees are 1 and 2 in 1, 2 and 3 dimensions, everything else is refused; and
the second derivatives reported are all of them, up to symmetry. -/
theorem C54_supported (deg dim : ℕ) :
    ((dim = 1 ∨ dim = 2 ∨ dim = 3) ∧ (deg = 1 ∨ deg = 2) →
      ∃ k bas, getPolynomial (K := K) deg dim = .ok ⟨k, bas⟩) ∧
    (¬((dim = 1 ∨ dim = 2 ∨ dim = 3) ∧ (deg = 1 ∨ deg = 2)) →
      getPolynomial (K := K) deg dim = .error .notImplemented) ∧
    ((dim = 1 ∨ dim = 2 ∨ dim = 3) → ∀ i j : Fin dim, i ≤ j → ∃ h, dirs dim h = (i, j)) := by
  refine ⟨fun h => getPolynomial_exists h.1 h.2, fun h => ?_, fun h => ?_⟩
  · match dim, deg, h with
    | 0, _, _ => rfl
    | _ + 4, _, _ => rfl
    | 1, 0, _ => rfl
    | 2, 0, _ => rfl
    | 3, 0, _ => rfl
    | 1, 1, h => simp at h
    | 2, 1, h => simp at h
    | 3, 1, h => simp at h
    | 1, 2, h => simp at h
    | 2, 2, h => simp at h
    | 3, 2, h => simp at h
    | 1, _ + 3, _ => rfl
    | 2, _ + 3, _ => rfl
    | 3, _ + 3, _ => rfl
  · rcases h with rfl | rfl | rfl
    · intro i j _
      fin_cases i; fin_cases j
      exact ⟨H1.xx, rfl⟩
    · intro i j hij
      fin_cases i <;> fin_cases j
      · exact ⟨H2.xx, rfl⟩
      · exact ⟨H2.xy, rfl⟩
      · exact absurd hij (by decide)
      · exact ⟨H2.yy, rfl⟩
    · intro i j hij
      fin_cases i <;> fin_cases j
      · exact ⟨H3.xx, rfl⟩
      · exact ⟨H3.xy, rfl⟩
      · exact ⟨H3.xz, rfl⟩
      · exact absurd hij (by decide)
      · exact ⟨H3.yy, rfl⟩
      · exact ⟨H3.yz, rfl⟩
      · exact absurd hij (by decide)
      · exact absurd hij (by decide)
      · exact ⟨H3.zz, rfl⟩

/-! ## The interface -/

/-- The weight used: the given one, or the constant 1 (with derivatives zero). -/
def weightOf {dim : ℕ} : Option (Weight dim K) → Weight dim K
  | none => ⟨fun _ => 1, fun _ _ => 0, fun _ _ _ => 0⟩
  | some w => w

/-- `weighted_least_squares` with a weight of the right dimension. -/
abbrev wls {dim n m r : ℕ} (points : Fin n → Pt dim K) (values : Fin m → Fin r → K)
    (deg : ℕ) (order : ℤ) (w : Option (Weight dim K)) : Py (Fit dim r K) :=
  weightedLeastSquares points values deg order (w.map fun w => ⟨dim, w⟩)

theorem wls_eq {dim n r : ℕ} (points : Fin n → Pt dim K) (values : Fin n → Fin r → K)
    (deg : ℕ) (order : ℤ) (w : Option (Weight dim K)) :
    wls points values deg order w =
      wlsDim dim points values deg (weightOf w) (decide (0 < order)) (decide (1 < order)) := by
  unfold wls weightedLeastSquares
  rw [dif_pos rfl]
  cases w with
  | none => rfl
  | some w =>
    exact dif_pos rfl

/-- Calls with the wrong number of values, or a weight of another dimension, are refused. -/
theorem C52_refused {dim n m r : ℕ} (points : Fin n → Pt dim K) (values : Fin m → Fin r → K)
    (deg : ℕ) (order : ℤ) (w : Option (Σ d, Weight d K)) :
    (n ≠ m → weightedLeastSquares points values deg order w = .error .value) ∧
    (n = m → (∃ d, ∃ v : Weight d K, w = some ⟨d, v⟩ ∧ d ≠ dim) →
      weightedLeastSquares points values deg order w = .error .assertion) := by
  refine ⟨fun h => dif_neg h, ?_⟩
  rintro rfl ⟨d, v, rfl, hd⟩
  unfold weightedLeastSquares
  rw [dif_pos rfl]
  exact dif_neg hd

/-! ## C52 -/

section
variable {dim n r : ℕ}

/-- The coefficients of the fitted polynomial. -/
def fitCoeff {k : ℕ} {H : Type} (P : Pre dim H k n r K) : Matrix (Fin k) (Fin r) K :=
  P.invA * (P.B * P.V)

/-- The fitted values are the values of one polynomial. -/
theorem fits_f {k : ℕ} {points : Fin n → Pt dim K} {values : Fin n → Fin r → K} {deg : ℕ}
    {w : Weight dim K} {grad hess : Bool} {bas : Basis dim (HIdx dim) k K}
    {P : Pre dim (HIdx dim) k n r K} {F : Fit dim r K}
    (hF : Fits points values deg w grad hess bas P F) (x : Pt dim K) (ρ : Fin r) :
    (F x).f ρ = ∑ a, bas.b x a * fitCoeff P a ρ := by
  obtain ⟨hi, hV, hB, hd, hdd, hx⟩ := hF
  obtain ⟨hdet, h1, h2⟩ := inv_ok hi
  rw [(hx x).1, mlsF_eq P (accumulate_transpose _ _) h1 (fitCoeff P)
    (by unfold fitCoeff; rw [← Matrix.mul_assoc, h1, Matrix.one_mul])]
  rfl

/-- C52: weighted least squares returns exactly the polynomial, its gradient and its second
derivatives, at every point, if the data are values of polynomials of the chosen degree, for whatever
values and derivatives the weight function reports, whenever it returns at all. -/
theorem C52_reproduction (points : Fin n → Pt dim K) (values : Fin n → Fin r → K) (deg : ℕ)
    (order : ℤ) (w : Option (Weight dim K)) (F : Fit dim r K)
    (hF : wls points values deg order w = .ok F)
    (p : Fin r → MvPolynomial (Fin dim) K) (hp : ∀ ρ, (p ρ).totalDegree ≤ deg)
    (hdata : ∀ i ρ, values i ρ = eval (points i) (p ρ)) (x : Pt dim K) :
    (∀ ρ, (F x).f ρ = eval x (p ρ)) ∧
      (F x).g = (if 0 < order then some fun j ρ => eval x (pderiv j (p ρ)) else none) ∧
      (F x).H = (if 1 < order then
        some fun h ρ => eval x (pderiv (dirs dim h).2 (pderiv (dirs dim h).1 (p ρ))) else none) := by
  rw [wls_eq] at hF
  obtain ⟨k, bas, P, hb, hi, hV, hB, hd, hdd, hx⟩ := wlsDim_structure _ _ _ _ _ _ _ hF
  obtain ⟨-, -, -, e, he, hm⟩ := getPolynomial_spec hb
  obtain ⟨hdet, h1, h2⟩ := inv_ok hi
  set c : Matrix (Fin k) (Fin r) K := fun a ρ => coeff (expo (e a)) (p ρ) with hc
  have hpe : ∀ ρ, p ρ = ∑ a, c a ρ • monomial (expo (e a)) (1 : K) :=
    fun ρ => poly_expand he (p ρ) (hp ρ)
  have hval : ∀ i ρ, P.V i ρ = ∑ a, bas.b (points i) a * c a ρ := by
    intro i ρ
    rw [hV, Matrix.of_apply, hdata, hpe ρ, eval_expand hm]
  have hBc : P.B * P.V = accumulate (fun i => (weightOf w).f (points i))
      (fun i => bas.b (points i)) * c := by
    rw [hB]
    exact columns_mul _ _ _ _ hval
  have hBd : ∀ j, P.Bd j * P.V = P.Ad j * c := by
    intro j
    rw [(hd j).1, (hd j).2]
    exact columns_mul _ _ _ _ hval
  have hBdd : ∀ h, P.Bdd h * P.V = P.Add h * c := by
    intro h
    rw [(hdd h).1, (hdd h).2]
    exact columns_mul _ _ _ _ hval
  have hAd : ∀ j, (P.Ad j)ᵀ = P.Ad j := by
    intro j
    rw [(hd j).1]
    exact accumulate_transpose _ _
  have hAdd : ∀ h, (P.Add h)ᵀ = P.Add h := by
    intro h
    rw [(hdd h).1]
    exact accumulate_transpose _ _
  refine ⟨fun ρ => ?_, ?_, ?_⟩
  · rw [(hx x).1, mlsF_eq P (accumulate_transpose _ _) h1 c hBc, hpe ρ, eval_expand hm]
    rfl
  · rw [(hx x).2.1]
    refine if_congr (by simp) ?_ rfl
    refine congrArg some (funext fun j => funext fun ρ => ?_)
    rw [mlsG_eq P (accumulate_transpose _ _) h1 c hBc j (hAd j) (hBd j), hpe ρ,
      eval_pderiv_expand hm]
    rfl
  · rw [(hx x).2.2]
    refine if_congr (by simp) ?_ rfl
    refine congrArg some (funext fun h => funext fun ρ => ?_)
    rw [mlsHm_eq P (accumulate_transpose _ _) h1 c hBc _ _ h (hAd _) (hAd _) (hAdd h) (hBd _) (hBd _)
      (hBdd h), hpe ρ, eval_pderiv2_expand hm]
    rfl

/-- C52 for moving least squares. -/
theorem C52_moving (points : Fin n → Pt dim K) (values : Fin n → Fin r → K) (deg : ℕ)
    (order : ℤ) (w : Option (Pt dim K → Weight dim K)) (x : Pt dim K) (o : Out dim (HIdx dim) r K)
    (ho : movingLeastSquares points values deg order w x = .ok o)
    (p : Fin r → MvPolynomial (Fin dim) K) (hp : ∀ ρ, (p ρ).totalDegree ≤ deg)
    (hdata : ∀ i ρ, values i ρ = eval (points i) (p ρ)) :
    (∀ ρ, o.f ρ = eval x (p ρ)) ∧
      o.g = (if 0 < order then some fun j ρ => eval x (pderiv j (p ρ)) else none) ∧
      o.H = (if 1 < order then
        some fun h ρ => eval x (pderiv (dirs dim h).2 (pderiv (dirs dim h).1 (p ρ))) else none) := by
  obtain ⟨F, hF, rfl⟩ := map_ok ho
  exact C52_reproduction points values deg order (some _) F hF p hp hdata x

end

/-! ## Regularity and C53 -/

section
variable {dim n r : ℕ} [IsStrictOrderedRing K]

/-- The weighted sum of squared errors of the function `q` for one record. -/
def sqError (points : Fin n → Pt dim K) (values : Fin n → Fin r → K) (w : Pt dim K → K)
    (q : Pt dim K → K) (ρ : Fin r) : K :=
  ∑ i, w (points i) * (q (points i) - values i ρ) ^ 2

theorem quadForm {k : ℕ} (w : Fin n → K) (b : Fin n → Fin k → K) (c : Fin k → K) :
    c ⬝ᵥ (accumulate w b *ᵥ c) = ∑ i, w i * (∑ a, b i a * c a) ^ 2 := by
  simp only [dotProduct, mulVec, accumulate_apply, sq, Finset.sum_mul, Finset.mul_sum]
  have : ∀ p q : Fin k, ∑ i, c p * (b i p * b i q * w i * c q) =
      ∑ i, w i * (b i p * c p * (b i q * c q)) := fun p q =>
    Finset.sum_congr rfl fun i _ => by ring
  simp only [this]
  rw [Finset.sum_congr rfl fun p _ => Finset.sum_comm, Finset.sum_comm]
  refine Finset.sum_congr rfl fun i _ => ?_
  rw [Finset.sum_comm]

/-- The moment matrix is regular exactly if the points with positive weight determine the polynomials
of the chosen degree. -/
theorem det_accumulate {k deg : ℕ} {e : Fin k → Fin dim → ℕ} (he : IsExps deg dim k e)
    {bas : Basis dim (HIdx dim) k K} (hm : IsMonomials bas e) (points : Fin n → Pt dim K)
    (w : Fin n → K) (hw : ∀ i, 0 ≤ w i) :
    (accumulate w fun i => bas.b (points i)).det ≠ 0 ↔
      ∀ q : MvPolynomial (Fin dim) K, q.totalDegree ≤ deg →
        (∀ i, 0 < w i → eval (points i) q = 0) → q = 0 := by
  constructor
  · intro hdet q hq hz
    set c : Fin k → K := fun a => coeff (expo (e a)) q with hc
    have hqe : q = ∑ a, c a • monomial (expo (e a)) (1 : K) := poly_expand he q hq
    have hcz : ∀ i, w i ≠ 0 → ∑ a, bas.b (points i) a * c a = 0 := by
      intro i hi
      rw [← eval_expand hm, ← hqe]
      exact hz i (lt_of_le_of_ne (hw i) (Ne.symm hi))
    have hAc : accumulate w (fun i => bas.b (points i)) *ᵥ c = 0 := by
      funext p
      simp only [mulVec, dotProduct, accumulate_apply, Finset.sum_mul, Pi.zero_apply]
      rw [Finset.sum_comm]
      refine Finset.sum_eq_zero fun i _ => ?_
      by_cases hi : w i = 0
      · exact Finset.sum_eq_zero fun a _ => by rw [hi]; ring
      · have : ∀ a, bas.b (points i) p * bas.b (points i) a * w i * c a =
            bas.b (points i) p * w i * (bas.b (points i) a * c a) := fun a => by ring
        simp only [this]
        rw [← Finset.mul_sum, hcz i hi, mul_zero]
    have hc0 : c = 0 := by
      by_contra h
      exact hdet (Matrix.exists_mulVec_eq_zero_iff.1 ⟨c, h, hAc⟩)
    rw [hqe, hc0]
    simp
  · intro h hdet
    obtain ⟨c, hc0, hc⟩ := Matrix.exists_mulVec_eq_zero_iff.2 hdet
    have hq := quadForm w (fun i => bas.b (points i)) c
    rw [hc, dotProduct_zero] at hq
    have hz := (Finset.sum_eq_zero_iff_of_nonneg
      (fun i _ => mul_nonneg (hw i) (sq_nonneg _))).1 hq.symm
    have hq0 := h (∑ a, c a • monomial (expo (e a)) (1 : K)) (totalDegree_expand he c) (by
      intro i hi
      rw [eval_expand hm]
      have := hz i (Finset.mem_univ i)
      rcases mul_eq_zero.1 this with h | h
      · exact absurd h hi.ne'
      · exact pow_eq_zero_iff (two_ne_zero) |>.1 h)
    apply hc0
    funext a
    have := coeff_expand he c a
    rw [hq0, coeff_zero] at this
    exact this.symm

/-- C52: for weights that are not negative the fit exists exactly if no polynomial of the chosen
degree, other than zero, vanishes at all points with positive weight; otherwise numpy's `LinAlgError`
is raised. -/
theorem C52_succeeds (points : Fin n → Pt dim K) (values : Fin n → Fin r → K) (deg : ℕ)
    (order : ℤ) (w : Option (Weight dim K)) (hdim : dim = 1 ∨ dim = 2 ∨ dim = 3)
    (hdeg : deg = 1 ∨ deg = 2) (hw : ∀ i, 0 ≤ (weightOf w).f (points i)) :
    ((∀ q : MvPolynomial (Fin dim) K, q.totalDegree ≤ deg →
      (∀ i, 0 < (weightOf w).f (points i) → eval (points i) q = 0) → q = 0) →
        ∃ F, wls points values deg order w = .ok F) ∧
    (¬(∀ q : MvPolynomial (Fin dim) K, q.totalDegree ≤ deg →
      (∀ i, 0 < (weightOf w).f (points i) → eval (points i) q = 0) → q = 0) →
        wls points values deg order w = .error .linalg) := by
  obtain ⟨k, bas, hb⟩ := getPolynomial_exists (K := K) hdim hdeg
  obtain ⟨-, -, hk, e, he, hm⟩ := getPolynomial_spec hb
  have hiff := det_accumulate he hm points (fun i => (weightOf w).f (points i)) hw
  rw [wls_eq]
  constructor
  · intro h
    obtain ⟨B, hB⟩ := inv_exists (hiff.2 h)
    exact (wlsDim_status points values deg (weightOf w) _ _ hdim hb hk).1 B hB
  · intro h
    exact (wlsDim_status points values deg (weightOf w) _ _ hdim hb hk).2 _
      (inv_singular (not_not.1 fun hd => h (hiff.1 hd)))

theorem error_split {k : ℕ} (w : Fin n → K) (b : Fin n → Fin k → K) (v : Fin n → K)
    (c c' : Fin k → K) (hc : accumulate w b *ᵥ c = fun p => ∑ i, b i p * w i * v i) :
    ∑ i, w i * (∑ a, b i a * c' a - v i) ^ 2 =
      ∑ i, w i * (∑ a, b i a * c a - v i) ^ 2 +
        ∑ i, w i * (∑ a, b i a * (c' - c) a) ^ 2 := by
  have hcross : ∑ i, w i * (∑ a, b i a * c a - v i) * (∑ a, b i a * (c' - c) a) = 0 := by
    have h1 : ∀ p, ∑ i, b i p * (w i * (∑ a, b i a * c a - v i)) = 0 := by
      intro p
      have := congrFun hc p
      simp only [mulVec, dotProduct, accumulate_apply, Finset.sum_mul] at this
      rw [Finset.sum_comm] at this
      rw [← sub_eq_zero, ← Finset.sum_sub_distrib] at this
      rw [← this]
      refine Finset.sum_congr rfl fun i _ => ?_
      rw [mul_sub, mul_sub, Finset.mul_sum, Finset.mul_sum]
      congr 1
      · exact Finset.sum_congr rfl fun a _ => by ring
      · ring
    have h2 : ∀ i, w i * (∑ a, b i a * c a - v i) * (∑ a, b i a * (c' - c) a) =
        ∑ p, (c' - c) p * (b i p * (w i * (∑ a, b i a * c a - v i))) := by
      intro i
      rw [Finset.mul_sum]
      exact Finset.sum_congr rfl fun p _ => by ring
    rw [Finset.sum_congr rfl fun i _ => h2 i, Finset.sum_comm]
    refine Finset.sum_eq_zero fun p _ => ?_
    rw [← Finset.mul_sum, h1, mul_zero]
  have hexp : ∀ i, w i * (∑ a, b i a * c' a - v i) ^ 2 =
      w i * (∑ a, b i a * c a - v i) ^ 2 + w i * (∑ a, b i a * (c' - c) a) ^ 2 +
        2 * (w i * (∑ a, b i a * c a - v i) * (∑ a, b i a * (c' - c) a)) := by
    intro i
    have : ∑ a, b i a * c' a = ∑ a, b i a * c a + ∑ a, b i a * (c' - c) a := by
      rw [← Finset.sum_add_distrib]
      exact Finset.sum_congr rfl fun a _ => by rw [Pi.sub_apply]; ring
    rw [this]
    ring
  rw [Finset.sum_congr rfl fun i _ => hexp i, Finset.sum_add_distrib, Finset.sum_add_distrib,
    ← Finset.mul_sum, hcross, mul_zero, add_zero]

/-- C53: the fit is a polynomial of the chosen degree, and no polynomial of this degree has a smaller
weighted sum of squared errors; it is the only one with the least sum. -/
theorem C53_minimizes (points : Fin n → Pt dim K) (values : Fin n → Fin r → K) (deg : ℕ)
    (order : ℤ) (w : Option (Weight dim K)) (hw : ∀ i, 0 ≤ (weightOf w).f (points i))
    (F : Fit dim r K) (hF : wls points values deg order w = .ok F) :
    ∃ p : Fin r → MvPolynomial (Fin dim) K, (∀ ρ, (p ρ).totalDegree ≤ deg) ∧
      (∀ x ρ, (F x).f ρ = eval x (p ρ)) ∧
      (∀ ρ (q : MvPolynomial (Fin dim) K), q.totalDegree ≤ deg →
        sqError points values (weightOf w).f (fun x => (F x).f ρ) ρ ≤
          sqError points values (weightOf w).f (fun x => eval x q) ρ) ∧
      (∀ ρ (q : MvPolynomial (Fin dim) K), q.totalDegree ≤ deg →
        sqError points values (weightOf w).f (fun x => eval x q) ρ ≤
          sqError points values (weightOf w).f (fun x => (F x).f ρ) ρ → q = p ρ) := by
  rw [wls_eq] at hF
  obtain ⟨k, bas, P, hb, hfit⟩ := wlsDim_structure _ _ _ _ _ _ _ hF
  obtain ⟨-, -, -, e, he, hm⟩ := getPolynomial_spec hb
  have hf := fits_f hfit
  obtain ⟨hi, hV, hB, -⟩ := hfit
  obtain ⟨hdet, h1, h2⟩ := inv_ok hi
  have hnormal : ∀ ρ, accumulate (fun i => (weightOf w).f (points i)) (fun i => bas.b (points i)) *ᵥ
      (fun a => fitCoeff P a ρ) =
      fun p => ∑ i, bas.b (points i) p * (weightOf w).f (points i) * values i ρ := by
    intro ρ
    have h3 : accumulate (fun i => (weightOf w).f (points i)) (fun i => bas.b (points i)) *
        fitCoeff P = P.B * P.V := by
      unfold fitCoeff
      rw [← Matrix.mul_assoc, h1, Matrix.one_mul]
    funext p
    have := congrFun (congrFun h3 p) ρ
    rw [Matrix.mul_apply, Matrix.mul_apply, hB, hV] at this
    exact this
  have hsplit : ∀ ρ (q : MvPolynomial (Fin dim) K), q.totalDegree ≤ deg →
      sqError points values (weightOf w).f (fun x => eval x q) ρ =
        sqError points values (weightOf w).f (fun x => (F x).f ρ) ρ +
          ∑ i, (weightOf w).f (points i) * (∑ a, bas.b (points i) a *
            ((fun a => coeff (expo (e a)) q) - fun a => fitCoeff P a ρ) a) ^ 2 := by
    intro ρ q hq
    have hqe := poly_expand he q hq
    unfold sqError
    have := error_split (fun i => (weightOf w).f (points i)) (fun i => bas.b (points i))
      (fun i => values i ρ) (fun a => fitCoeff P a ρ) (fun a => coeff (expo (e a)) q) (hnormal ρ)
    simp only [hf]
    rw [← this]
    refine Finset.sum_congr rfl fun i _ => ?_
    rw [← eval_expand hm (fun a => coeff (expo (e a)) q), ← hqe]
  refine ⟨fun ρ => ∑ a, fitCoeff P a ρ • monomial (expo (e a)) (1 : K),
    fun ρ => totalDegree_expand he _, fun x ρ => ?_, fun ρ q hq => ?_, fun ρ q hq hle => ?_⟩
  · rw [hf, eval_expand hm]
  · rw [hsplit ρ q hq]
    refine le_add_of_nonneg_right (Finset.sum_nonneg fun i _ => mul_nonneg (hw i) (sq_nonneg _))
  · rw [hsplit ρ q hq] at hle
    have hz : ∑ i, (weightOf w).f (points i) * (∑ a, bas.b (points i) a *
        ((fun a => coeff (expo (e a)) q) - fun a => fitCoeff P a ρ) a) ^ 2 = 0 :=
      le_antisymm (by linarith) (Finset.sum_nonneg fun i _ => mul_nonneg (hw i) (sq_nonneg _))
    have hzi := (Finset.sum_eq_zero_iff_of_nonneg
      (fun i _ => mul_nonneg (hw i) (sq_nonneg _))).1 hz
    have hq0 := (det_accumulate he hm points _ hw).1 hdet
      (q - ∑ a, fitCoeff P a ρ • monomial (expo (e a)) (1 : K))
      ((totalDegree_sub _ _).trans (max_le hq (totalDegree_expand he _))) (by
        intro i hi
        rcases mul_eq_zero.1 (hzi i (Finset.mem_univ i)) with h | h
        · exact absurd h hi.ne'
        · have h' := (pow_eq_zero_iff (two_ne_zero)).1 h
          rw [map_sub, eval_expand hm, poly_expand he q hq, eval_expand hm,
            ← Finset.sum_sub_distrib, ← h']
          exact Finset.sum_congr rfl fun a _ => by rw [Pi.sub_apply]; ring)
    exact sub_eq_zero.1 hq0

/-- C53 for moving least squares: at every point the returned value is the value of the polynomial
that minimizes the sum of squared errors weighted by the weight function moved to this point. -/
theorem C53_moving (points : Fin n → Pt dim K) (values : Fin n → Fin r → K) (deg : ℕ)
    (order : ℤ) (w : Pt dim K → Weight dim K) (x : Pt dim K) (hw : ∀ i, 0 ≤ (w x).f (points i))
    (o : Out dim (HIdx dim) r K)
    (ho : movingLeastSquares points values deg order (some w) x = .ok o) :
    ∃ p : Fin r → MvPolynomial (Fin dim) K, (∀ ρ, (p ρ).totalDegree ≤ deg) ∧
      (∀ ρ, o.f ρ = eval x (p ρ)) ∧
      (∀ ρ (q : MvPolynomial (Fin dim) K), q.totalDegree ≤ deg →
        sqError points values (w x).f (fun y => eval y (p ρ)) ρ ≤
          sqError points values (w x).f (fun y => eval y q) ρ) := by
  obtain ⟨F, hF, rfl⟩ := map_ok ho
  obtain ⟨p, h1, h2, h3, -⟩ := C53_minimizes points values deg order (some (w x)) hw F hF
  refine ⟨p, h1, fun ρ => h2 x ρ, fun ρ q hq => ?_⟩
  have := h3 ρ q hq
  simp only [h2] at this
  exact this

/-- C53: plain least squares is the weighted one with unit weights. -/
theorem C53_plain (points : Fin n → Pt dim K) (values : Fin n → Fin r → K) (deg : ℕ) (order : ℤ)
    (F : Fit dim r K) (hF : leastSquares points values deg order = .ok F) (ρ : Fin r)
    (q : MvPolynomial (Fin dim) K) (hq : q.totalDegree ≤ deg) :
    ∑ i, ((F (points i)).f ρ - values i ρ) ^ 2 ≤ ∑ i, (eval (points i) q - values i ρ) ^ 2 := by
  obtain ⟨p, -, -, h, -⟩ := C53_minimizes points values deg order none
    (fun i => zero_le_one) F hF
  have := h ρ q hq
  simpa [sqError, weightOf, constWeight] using this

end

/-- The data of the examples: three points on a line, two records; the second one is not linear. -/
def exPoints : Fin 3 → Pt 1 ℚ := ![![0], ![1], ![3]]

/-- The values of the examples. -/
def exValues : Fin 3 → Fin 2 → ℚ := ![![1, 0], ![3, 1], ![7, 9]]

/-- The hypotheses of C52 and C53 can be met: the fit exists, the first record `1 + 2x` is reproduced
with its derivative. -/
example : (leastSquares exPoints exValues 1 2).map (fun F => ((F ![5]).f 0, ((F ![5]).g.map (· 0 0)))) =
    .ok (11, some 2) := by
  decide +kernel

end Verif.LS.Props
