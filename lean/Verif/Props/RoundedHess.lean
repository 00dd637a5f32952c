import Verif.Proofs.RoundedHess
import Verif.Props.RoundedFit

/-!
# C119: second derivatives of least squares fits in floating point arithmetic
-/

set_option linter.unusedSectionVars false

namespace Verif.RFit.Props
open Verif Verif.Rnd Verif.Frames Verif.LS Verif.RFrames Verif.RFit MvPolynomial

section
variable {K : Type} [Field K] [LinearOrder K] [IsStrictOrderedRing K] {fl : K → K}
variable {dim n r : ℕ}

theorem pair_dirs (d : HIdx dim) : pair dim d = dirs dim d := by
  match dim, d with
  | 1, .xx => rfl
  | 2, .xx => rfl
  | 2, .yy => rfl
  | 2, .xy => rfl
  | 3, .xx => rfl
  | 3, .yy => rfl
  | 3, .zz => rfl
  | 3, .xy => rfl
  | 3, .xz => rfl
  | 3, .yz => rfl

theorem basis_second {deg k : ℕ} {bas : Basis dim (HIdx dim) k K}
    (h : getPolynomial deg dim = .ok ⟨k, bas⟩) (x : Fin dim → K) (d : HIdx dim) :
    ∑ q, |bas.dd d x q| ≤ deg * (deg - 1) := by
  match dim, bas, h, x, d with
  | 0, _, h, _, _ => cases h
  | _ + 4, _, h, _, _ => cases h
  | 1, bas, h, x, d => match deg, h with
    | 0, h => cases h
    | 1, h => cases h; cases d; simp [poly11]
    | 2, h => cases h; cases d; simp [poly21, Fin.sum_univ_succ]; norm_num
    | _ + 3, h => cases h
  | 2, bas, h, x, d => match deg, h with
    | 0, h => cases h
    | 1, h => cases h; cases d <;> simp [poly12, Fin.sum_univ_succ]
    | 2, h => cases h; cases d <;> simp [poly22, Fin.sum_univ_succ] <;> norm_num
    | _ + 3, h => cases h
  | 3, bas, h, x, d => match deg, h with
    | 0, h => cases h
    | 1, h => cases h; cases d <;> simp [poly13, Fin.sum_univ_succ]
    | 2, h => cases h; cases d <;> simp [poly23, Fin.sum_univ_succ] <;> norm_num
    | _ + 3, h => cases h

theorem approximate2_eq (inv : ∀ k, Mat k K → Py (Mat k K)) (pl : ∀ k, Plans dim k n r)
    (pl2 : ∀ k, Plans2 (HIdx dim) k n r)
    (points : Fin n → Fin dim → K) (values : Fin n → Fin r → K) (deg : ℕ) (w : Fin n → K)
    (gw : Fin n → Fin dim → K) (Gw : Fin n → Fin dim → Fin dim → K) (x : Fin dim → K) {k : ℕ}
    {bas : Basis dim (HIdx dim) k K} (hb : getPolynomial deg dim = .ok ⟨k, bas⟩) :
    approximate2 fl inv pl pl2 points values deg w gw Gw x =
      (inv k (moments fl w fun i q => fl (bas.b (points i) q))).map fun invA =>
        { f := (evaluate fl (pl k) invA (columns fl w fun i q => fl (bas.b (points i) q))
            (fun j => moments fl (fun i => gw i j) fun i q => fl (bas.b (points i) q))
            (fun j => columns fl (fun i => gw i j) fun i q => fl (bas.b (points i) q)) values
            (fun q => fl (bas.b x q)) fun j q => fl (bas.d j x q)).f
          g := (evaluate fl (pl k) invA (columns fl w fun i q => fl (bas.b (points i) q))
            (fun j => moments fl (fun i => gw i j) fun i q => fl (bas.b (points i) q))
            (fun j => columns fl (fun i => gw i j) fun i q => fl (bas.b (points i) q)) values
            (fun q => fl (bas.b x q)) fun j q => fl (bas.d j x q)).g
          H := fun d => second fl (pl k) (pl2 k) invA (columns fl w fun i q => fl (bas.b (points i) q))
            (fun j => moments fl (fun i => gw i j) fun i q => fl (bas.b (points i) q))
            (fun j => columns fl (fun i => gw i j) fun i q => fl (bas.b (points i) q))
            (moments fl (fun l => Gw l (pair dim d).1 (pair dim d).2) fun i q => fl (bas.b (points i) q))
            (columns fl (fun l => Gw l (pair dim d).1 (pair dim d).2) fun i q => fl (bas.b (points i) q))
            values (fun q => fl (bas.b x q)) (fun j q => fl (bas.d j x q)) (fun q => fl (bas.dd d x q))
            d (pair dim d).1 (pair dim d).2 } := by
  unfold approximate2
  rw [hb]
  show (if kFormula deg dim ≠ _ then _ else _) = _
  rw [if_neg (by rw [(getPolynomial_spec hb).2.2.1]; simp)]

/-- C119: asking for second derivatives changes neither the values nor the gradients, and raises what is raised without
them. -/
theorem C119_second_rest (inv : ∀ k, Mat k K → Py (Mat k K)) (pl : ∀ k, Plans dim k n r)
    (pl2 : ∀ k, Plans2 (HIdx dim) k n r)
    (points : Fin n → Fin dim → K) (values : Fin n → Fin r → K) (deg : ℕ) (w : Fin n → K)
    (gw : Fin n → Fin dim → K) (Gw : Fin n → Fin dim → Fin dim → K) (x : Fin dim → K) :
    (∀ o, approximate fl inv pl points values deg w gw x = .ok o →
      ∃ o₂, approximate2 fl inv pl pl2 points values deg w gw Gw x = .ok o₂ ∧ o₂.f = o.f ∧ o₂.g = o.g) ∧
    ∀ err, approximate fl inv pl points values deg w gw x = .error err →
      approximate2 fl inv pl pl2 points values deg w gw Gw x = .error err := by
  by_cases h : (dim = 1 ∨ dim = 2 ∨ dim = 3) ∧ (deg = 1 ∨ deg = 2)
  · obtain ⟨k, bas, hb⟩ := getPolynomial_exists (K := K) h.1 h.2
    rw [approximate_eq inv pl points values deg w gw x hb,
      approximate2_eq inv pl pl2 points values deg w gw Gw x hb]
    cases inv k (moments fl w fun i q => fl (bas.b (points i) q)) with
    | error e' => exact ⟨fun o ho => (by cases ho), fun err he => (by cases he; rfl)⟩
    | ok R => exact ⟨fun o ho => (by cases ho; exact ⟨_, rfl, rfl, rfl⟩), fun err he => (by cases he)⟩
  · have h1 := (C119_returns (fl := fl) inv pl points values deg w gw x).1 h
    rw [h1]
    refine ⟨fun o ho => (by cases ho), fun err he => ?_⟩
    cases he
    unfold approximate2
    rw [(LS.Props.C54_supported (K := K) deg dim).2.1 h]
    rfl

/-- C119: the second derivatives.  With the matrix `A` handed to numpy and its answer `R` as for the values, every second
derivative returned is that of the polynomial behind the data, up to the bound given: `T i` and `T j` bound what enters
the solution for the two directions, and `Gw` holds the second derivatives of the weight function. -/
theorem C119_second {u : K} (hu : Precise fl u) (inv : ∀ k, Mat k K → Py (Mat k K))
    (pl : ∀ k, Plans dim k n r) (pl2 : ∀ k, Plans2 (HIdx dim) k n r) (h m deg : ℕ)
    (hpl : (pl ((deg + dim).choose dim)).Complete h) (hpl2 : (pl2 ((deg + dim).choose dim)).Complete h)
    (points : Fin n → Fin dim → K) (values : Fin n → Fin r → K) (w : Fin n → K)
    (gw : Fin n → Fin dim → K) (Gw : Fin n → Fin dim → Fin dim → K) (x : Fin dim → K)
    (o : RFit.Out2 dim r K)
    (ho : approximate2 fl inv pl pl2 points values deg w gw Gw x = .ok o)
    (p : Fin r → MvPolynomial (Fin dim) K) (hp : ∀ σ, (p σ).totalDegree ≤ deg)
    (hdata : ∀ i σ, |values i σ - eval (points i) (p σ)| ≤ ((1 + u) ^ m - 1) * absTerms (p σ) (points i)) :
    ∃ (k : ℕ) (e : Fin k → Fin dim →₀ ℕ) (A R : Mat k K),
      Function.Injective e ∧ (∀ m : Fin dim →₀ ℕ, (∃ a, e a = m) ↔ ∑ j, m j ≤ deg) ∧
      (∀ a b, |A a b - ∑ i, w i * eval (points i) (monomial (e a + e b) (1 : K))| ≤
        ((1 + u) ^ (n + 4) - 1) * ∑ i, |w i * eval (points i) (monomial (e a + e b) (1 : K))|) ∧
      inv k A = .ok R ∧
      ∀ ε ρ, (∀ a b, |(A * R) a b - (1 : Mat k K) a b| ≤ ε) → (∀ a b, |R a b| ≤ ρ) →
        ∀ T : Fin dim → K, (∀ j, T j = deg * reach x ^ (deg - 1) + ρ * reach x ^ deg *
          ∑ l, |gw l j| * reach (points l) ^ deg * reach (points l) ^ deg) →
        ∀ d i j, dirs dim d = (i, j) → ∀ σ,
          |o.H d σ - eval x (pderiv j (pderiv i (p σ)))| ≤
            (ε * absCoeffs (p σ) + 2 * ((1 + u) ^ (7 * h + 2 * n + m + 20) - 1) *
              (ρ * ∑ l, |w l| * reach (points l) ^ deg * absTerms (p σ) (points l))) *
                (deg * (deg - 1) +
                  ρ * reach x ^ deg * (∑ l, |Gw l i j| * reach (points l) ^ deg * reach (points l) ^ deg) +
                  ρ * T j * (∑ l, |gw l i| * reach (points l) ^ deg * reach (points l) ^ deg) +
                  ρ * T i * ∑ l, |gw l j| * reach (points l) ^ deg * reach (points l) ^ deg) +
            ((1 + u) ^ (7 * h + 2 * n + m + 20) - 1) *
              (ρ * T i * (∑ l, |gw l j| * reach (points l) ^ deg * absTerms (p σ) (points l)) +
                ρ * T j * (∑ l, |gw l i| * reach (points l) ^ deg * absTerms (p σ) (points l)) +
                ρ * reach x ^ deg *
                  ∑ l, |Gw l i j| * reach (points l) ^ deg * absTerms (p σ) (points l)) := by
  have ho0 := ho
  unfold approximate2 at ho
  obtain ⟨⟨k, bas⟩, hb, -⟩ := bind_ok ho
  rw [approximate2_eq inv pl pl2 points values deg w gw Gw x hb] at ho0
  obtain ⟨hdim, hdeg, hk, e, he, hm⟩ := getPolynomial_spec hb
  have hch : k = (deg + dim).choose dim := by
    obtain ⟨-, -, -, -, -, -, hch, -⟩ := LS.Props.C54_basis deg dim k bas hb
    exact hch
  have hpl' : (pl k).Complete h := by rwa [hch]
  have hpl2' : (pl2 k).Complete h := by rwa [hch]
  obtain ⟨R, hR, rfl⟩ := map_ok ho0
  have hbas : ∀ x a, bas.b x a = ∏ j, x j ^ e a j := fun x a => by
    rw [(hm x a).1, eval_mono, one_mul]
  have hbasd : ∀ x a, bas.b x a = eval x (monomial (expo (e a)) (1 : K)) := fun x a => (hm x a).1
  have hinj : Function.Injective fun a => expo (e a) :=
    fun a b hab => he.inj (Finsupp.equivFunOnFinite.symm.injective hab)
  have hmul : ∀ i a b, bas.b (points i) a * bas.b (points i) b * w i =
      w i * eval (points i) (monomial (expo (e a) + expo (e b)) (1 : K)) := fun i a b => by
    rw [hbasd, hbasd, mul_comm (w i), ← eval_mul, monomial_mul, one_mul]
  have hpe : ∀ σ y, eval y (p σ) = ∑ s, coeff (expo (e s)) (p σ) * bas.b y s := fun σ y => by
    conv_lhs => rw [poly_expand he (p σ) (hp σ)]
    rw [map_sum]
    exact Finset.sum_congr rfl fun s _ => by rw [smul_eval, hbasd]
  have hpdd : ∀ σ d y, eval y (pderiv (dirs dim d).2 (pderiv (dirs dim d).1 (p σ))) =
      ∑ s, coeff (expo (e s)) (p σ) * bas.dd d y s := fun σ d y => by
    conv_lhs => rw [poly_expand he (p σ) (hp σ)]
    rw [map_sum, map_sum, map_sum]
    exact Finset.sum_congr rfl fun s _ => by
      rw [Derivation.map_smul, Derivation.map_smul, smul_eval, (hm y s).2.2 d]
  have hv : ∀ σ i, ∑ s, |coeff (expo (e s)) (p σ)| * |bas.b (points i) s| ≤ absTerms (p σ) (points i) :=
    fun σ i => by
    have := expand_le he (p σ) (fun m => ∏ j, |points i j| ^ m j)
      (fun m => Finset.prod_nonneg fun j _ => pow_nonneg (abs_nonneg _) _)
    refine le_trans (le_of_eq ?_) this
    refine Finset.sum_congr rfl fun s _ => ?_
    rw [hbas, Finset.abs_prod]
    simp only [abs_pow, expo_apply]
  have hC : ∀ σ, ∑ s, |coeff (expo (e s)) (p σ)| ≤ absCoeffs (p σ) := fun σ => by
    have := expand_le he (p σ) (fun _ => 1) (fun _ => zero_le_one)
    simpa [absCoeffs] using this
  refine ⟨k, fun a => expo (e a), _, R, hinj, fun m => ⟨?_, fun hle => ?_⟩, fun a b => ?_, hR,
    fun ε ρ hε hρ T hT d i j hd σ => ?_⟩
  · rintro ⟨a, rfl⟩
    exact he.le a
  · obtain ⟨a, ha⟩ := he.surj (fun j => m j) hle
    refine ⟨a, ?_⟩
    ext j
    show expo (e a) j = m j
    rw [expo_apply, ha]
  · have := (moments_near hu w (fun i => bas.b (points i)) (fun i q => fl (bas.b (points i) q))
      (fun i q => near_basis hu _) a b).1
    simpa only [hmul] using this
  · obtain ⟨a0, -⟩ := he.surj (fun _ => 0) (by simp)
    have hε0 : 0 ≤ ε := (abs_nonneg _).trans (hε a0 a0)
    have hρ0 : 0 ≤ ρ := (abs_nonneg _).trans (hρ a0 a0)
    have hpd := hpdd σ d x
    rw [hd] at hpd
    have hpr : pair dim d = (i, j) := (pair_dirs d).trans hd
    rw [hpd]
    simp only [hpr]
    exact hess_bound hu hpl' hpl2' w gw (fun l => Gw l i j) (fun i => bas.b (points i)) _
      (fun i q => near_basis hu _) (fun i => (basis_reach hb (points i)).1) (bas.b x) _
      (fun q => near_basis hu _) (basis_reach hb x).1 (fun j => bas.d j x) _
      (fun j q => near_basis hu _) (fun j => (basis_reach hb x).2 j) (bas.dd d x) _
      (fun q => near_basis hu _) (basis_second hb x d)
      (fun s => coeff (expo (e s)) (p σ)) (hC σ) (hv σ)
      R hε0 hρ0 hε hρ values σ (fun i => by rw [← hpe]; exact hdata i σ) d i j (T i) (T j)
      (hT i).symm (hT j).symm

end

/-- All products in turn. -/
def allInTurn2 (H : Type) (k n r : ℕ) : Plans2 H k n r :=
  ⟨fun _ _ => inTurn k, fun _ _ => inTurn k, fun _ _ => inTurn k, fun _ _ => inTurn k, fun _ _ => inTurn k,
    fun _ _ => inTurn k, fun _ _ => inTurn k, fun _ _ => inTurn k, fun _ _ => inTurn n⟩

theorem allInTurn2_complete (H : Type) (k n r : ℕ) : (allInTurn2 H k n r).Complete (k + n + 1) := by
  have h1 := inTurn_spec k
  have h2 := inTurn_spec n
  have a : ∀ (_ : H) (_ : Fin k), (inTurn k).terms.Perm (List.finRange k) ∧ (inTurn k).height ≤ k + n + 1 :=
    fun _ _ => ⟨h1.1, by omega⟩
  have b : ∀ (_ : H) (_ : Fin n), (inTurn k).terms.Perm (List.finRange k) ∧ (inTurn k).height ≤ k + n + 1 :=
    fun _ _ => ⟨h1.1, by omega⟩
  exact ⟨a, a, a, a, b, b, b, b, fun _ _ => ⟨h2.1, by show (inTurn n).height ≤ _; omega⟩⟩

/-- The parabola `y = x²` through three points. -/
example : ∃ o, approximate2 (binary 53) (fun _ A => .ok A⁻¹) (fun k => allInTurn 1 k 3 1)
    (fun k => allInTurn2 (HIdx 1) k 3 1) (fun i _ => (i : ℚ))
    (fun i _ => (i : ℚ) ^ 2) 2 (fun _ => 1) (fun _ _ => 0) (fun _ _ _ => 0) (fun _ => 1 / 2) = .ok o ∧
    Precise (binary 53) (1 / 2 ^ 53) ∧ (allInTurn 1 ((2 + 1).choose 1) 3 1).Complete 7 ∧
    (allInTurn2 (HIdx 1) ((2 + 1).choose 1) 3 1).Complete 7 ∧
    (∀ i : Fin 3, |(i : ℚ) ^ 2 - eval (fun _ : Fin 1 => (i : ℚ)) (X 0 ^ 2 : MvPolynomial (Fin 1) ℚ)| ≤
      ((1 + 1 / 2 ^ 53) ^ 0 - 1) * absTerms (X 0 ^ 2 : MvPolynomial (Fin 1) ℚ) (fun _ => (i : ℚ))) ∧
    dirs 1 H1.xx = (0, 0) :=
  ⟨_, rfl, binary_precise 53 (by norm_num), allInTurn_complete 1 3 3 1, allInTurn2_complete _ 3 3 1,
    by simp, rfl⟩

end Verif.RFit.Props
