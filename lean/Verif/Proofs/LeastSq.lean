import Verif.Model.LeastSq
import Verif.Proofs.Frames
import Mathlib.Algebra.MvPolynomial.PDeriv
import Mathlib.Algebra.MvPolynomial.Eval
import Mathlib.Algebra.MvPolynomial.Degrees
import Mathlib.Data.Finsupp.Fintype
import Mathlib.Data.Finsupp.Weight
import Mathlib.Tactic.FinCases
import Mathlib.Tactic.Ring
import Mathlib.Tactic.LinearCombination

/-!
# Lemmas about least squares
-/

set_option linter.unusedSectionVars false

namespace Verif.LS
open Verif Verif.Frames Matrix

/-- The directions of a second derivative. -/
def dirs : (dim : ℕ) → HIdx dim → Fin dim × Fin dim
  | 1, .xx => (0, 0)
  | 2, .xx => (0, 0)
  | 2, .yy => (1, 1)
  | 2, .xy => (0, 1)
  | 3, .xx => (0, 0)
  | 3, .yy => (1, 1)
  | 3, .zz => (2, 2)
  | 3, .xy => (0, 1)
  | 3, .xz => (0, 2)
  | 3, .yz => (1, 2)
  | 0, h => h.elim
  | _ + 4, h => h.elim

section
variable {K : Type} [Field K] [LinearOrder K]

theorem foldl_add {α M : Type} [AddCommMonoid M] (f : α → M) (l : List α) (s : M) :
    l.foldl (fun A i => A + f i) s = s + (l.map f).sum := by
  induction l generalizing s with
  | nil => simp
  | cons a l ih => rw [List.foldl_cons, ih, List.map_cons, List.sum_cons, add_assoc]

variable {k n r : ℕ}

theorem accumulate_apply (w : Fin n → K) (b : Fin n → Fin k → K) (p q : Fin k) :
    accumulate w b p q = ∑ i, b i p * b i q * w i := by
  unfold accumulate
  rw [foldl_add, zero_add, ← List.ofFn_eq_map, List.sum_ofFn, Matrix.sum_apply]
  rfl

theorem accumulate_transpose (w : Fin n → K) (b : Fin n → Fin k → K) :
    (accumulate w b)ᵀ = accumulate w b := by
  ext p q
  rw [transpose_apply, accumulate_apply, accumulate_apply]
  exact Finset.sum_congr rfl fun i _ => by ring

/-- The weighted basis applied to values of the combination `c` of the basis functions. -/
theorem columns_mul (w : Fin n → K) (b : Fin n → Fin k → K) (V : Matrix (Fin n) (Fin r) K)
    (c : Matrix (Fin k) (Fin r) K) (hV : ∀ i ρ, V i ρ = ∑ a, b i a * c a ρ) :
    columns w b * V = accumulate w b * c := by
  ext p ρ
  rw [Matrix.mul_apply, Matrix.mul_apply]
  simp only [accumulate_apply, Finset.sum_mul, columns, Matrix.of_apply, hV, Finset.mul_sum]
  rw [Finset.sum_comm]
  refine Finset.sum_congr rfl fun a _ => Finset.sum_congr rfl fun i _ => ?_
  ring

section
variable {dim : ℕ} {H : Type} (P : Pre dim H k n r K)

theorem vecMul_sym {A : Mat k K} (hA : Aᵀ = A) (v : Fin k → K) : v ᵥ* A = A *ᵥ v := by
  conv_lhs => rw [← hA]
  rw [vecMul_transpose]

theorem apply_mul (s : Fin k → K) (B : Matrix (Fin k) (Fin n) K) (V : Matrix (Fin n) (Fin r) K)
    (A : Mat k K) (hA : Aᵀ = A) (c : Matrix (Fin k) (Fin r) K) (h : B * V = A * c) :
    (s ᵥ* B) ᵥ* V = (A *ᵥ s) ᵥ* c := by
  rw [vecMul_vecMul, h, ← vecMul_vecMul, vecMul_sym hA]

theorem mlsF_eq {A : Mat k K} (hA : Aᵀ = A) (hi : A * P.invA = 1) (c : Matrix (Fin k) (Fin r) K)
    (hB : P.B * P.V = A * c) (b : Fin k → K) : mlsF P (P.invA *ᵥ b) = b ᵥ* c := by
  unfold mlsF apply
  rw [apply_mul _ _ _ A hA c hB, mulVec_mulVec, hi, one_mulVec]

theorem mlsG_eq {A : Mat k K} (hA : Aᵀ = A) (hi : A * P.invA = 1) (c : Matrix (Fin k) (Fin r) K)
    (hB : P.B * P.V = A * c) (j : Fin dim) (hAd : (P.Ad j)ᵀ = P.Ad j)
    (hBd : P.Bd j * P.V = P.Ad j * c) (gamma bd : Fin k → K) :
    mlsG P gamma (gammaD P bd gamma j) j = bd ᵥ* c := by
  unfold mlsG apply gammaD
  rw [add_vecMul, apply_mul _ _ _ A hA c hB, apply_mul _ _ _ _ hAd c hBd, mulVec_mulVec, hi,
    one_mulVec, ← add_vecMul, sub_add_cancel]

theorem mlsHm_eq {A : Mat k K} (hA : Aᵀ = A) (hi : A * P.invA = 1) (c : Matrix (Fin k) (Fin r) K)
    (hB : P.B * P.V = A * c) (i j : Fin dim) (h : H) (hAi : (P.Ad i)ᵀ = P.Ad i)
    (hAj : (P.Ad j)ᵀ = P.Ad j) (hAh : (P.Add h)ᵀ = P.Add h)
    (hBi : P.Bd i * P.V = P.Ad i * c) (hBj : P.Bd j * P.V = P.Ad j * c)
    (hBh : P.Bdd h * P.V = P.Add h * c) (bdd gamma gi gj : Fin k → K) :
    mlsHm P bdd gamma gi gj i j h = bdd ᵥ* c := by
  unfold mlsHm apply
  simp only
  rw [add_vecMul, add_vecMul, add_vecMul, apply_mul _ _ _ A hA c hB, apply_mul _ _ _ _ hAj c hBj,
    apply_mul _ _ _ _ hAi c hBi, apply_mul _ _ _ _ hAh c hBh, mulVec_mulVec, hi,
    one_mulVec, ← add_vecMul, ← add_vecMul, ← add_vecMul]
  congr 1
  abel

theorem mlsH2_eq_mlsHm (bdd gamma g : Fin k → K) (j : Fin dim) (h : H) :
    mlsH2 P bdd gamma g j h = mlsHm P bdd gamma g g j j h := by
  unfold mlsH2 mlsHm
  simp only [two_smul, add_mulVec, add_vecMul]
  congr 1
  · rw [sub_add_eq_sub_sub]
    abel_nf

end

/-- The structure of a fit function: what the wrappers for one, two and three dimensions have in
common. -/
def Fits {dim : ℕ} (points : Fin n → Pt dim K) (values : Fin n → Fin r → K) (deg : ℕ)
    (w : Weight dim K) (grad hess : Bool) {k : ℕ} (bas : Basis dim (HIdx dim) k K)
    (P : Pre dim (HIdx dim) k n r K) (F : Fit dim r K) : Prop :=
  inv (accumulate (fun i => w.f (points i)) fun i => bas.b (points i)) = .ok P.invA ∧
  P.V = Matrix.of values ∧
  P.B = columns (fun i => w.f (points i)) (fun i => bas.b (points i)) ∧
  (∀ j, P.Ad j = accumulate (fun i => w.g (points i) j) (fun i => bas.b (points i)) ∧
    P.Bd j = columns (fun i => w.g (points i) j) (fun i => bas.b (points i))) ∧
  (∀ h, P.Add h = accumulate (fun i => w.G (points i) (dirs dim h).1 (dirs dim h).2)
      (fun i => bas.b (points i)) ∧
    P.Bdd h = columns (fun i => w.G (points i) (dirs dim h).1 (dirs dim h).2)
      (fun i => bas.b (points i))) ∧
  ∀ x, (F x).f = mlsF P (P.invA *ᵥ bas.b x) ∧
    (F x).g = (if grad then some fun j => mlsG P (P.invA *ᵥ bas.b x)
      (gammaD P (bas.d j x) (P.invA *ᵥ bas.b x) j) j else none) ∧
    (F x).H = (if hess then some fun h => mlsHm P (bas.dd h x) (P.invA *ᵥ bas.b x)
      (gammaD P (bas.d (dirs dim h).1 x) (P.invA *ᵥ bas.b x) (dirs dim h).1)
      (gammaD P (bas.d (dirs dim h).2 x) (P.invA *ᵥ bas.b x) (dirs dim h).2)
      (dirs dim h).1 (dirs dim h).2 h else none)

theorem bind_ok {α β : Type} {x : Py α} {f : α → Py β} {y : β} (h : x.bind f = .ok y) :
    ∃ a, x = .ok a ∧ f a = .ok y := by
  cases x with
  | error e => cases h
  | ok a => exact ⟨a, rfl, h⟩

theorem map_ok {α β : Type} {x : Py α} {f : α → β} {y : β} (h : x.map f = .ok y) :
    ∃ a, x = .ok a ∧ f a = y := by
  cases x with
  | error e => cases h
  | ok a => exact ⟨a, rfl, by injection h⟩

theorem wlsDim_status {dim k : ℕ} (points : Fin n → Pt dim K) (values : Fin n → Fin r → K)
    (deg : ℕ) (w : Weight dim K) (grad hess : Bool) (hdim : dim = 1 ∨ dim = 2 ∨ dim = 3)
    {bas : Basis dim (HIdx dim) k K} (hb : getPolynomial (K := K) deg dim = .ok ⟨k, bas⟩)
    (hk : kFormula deg dim = k) :
    (∀ B, inv (accumulate (fun i => w.f (points i)) fun i => bas.b (points i)) = .ok B →
      ∃ F, wlsDim dim points values deg w grad hess = .ok F) ∧
    (∀ err, inv (accumulate (fun i => w.f (points i)) fun i => bas.b (points i)) = .error err →
      wlsDim dim points values deg w grad hess = .error err) := by
  have key : ∀ {α β γ : Type} {x : Py α} {a : α} {z : Py β} {f : α → Py γ}, x = .ok a →
      (∃ g : β → γ, f a = z.map g) → (∀ b, z = .ok b → ∃ c, x.bind f = .ok c) ∧
        (∀ err, z = .error err → x.bind f = .error err) := by
    rintro α β γ x a z f rfl ⟨g, hf⟩
    constructor
    · rintro b rfl
      exact ⟨_, hf⟩
    · rintro err rfl
      exact hf
  have hmm : ∀ {α β γ : Type} (z : Py α) (f : α → β) (g : β → γ),
      (z.map f).map g = z.map fun a => g (f a) := by
    intro α β γ z f g
    cases z <;> rfl
  rcases hdim with rfl | rfl | rfl
  · refine key hb ?_
    have hp : preproc1 points values deg w bas.b = _ := if_neg (not_not.2 hk)
    exact ⟨_, (congrArg _ hp).trans (hmm _ _ _)⟩
  · refine key hb ?_
    have hp : preproc2 points values deg w bas.b = _ := if_neg (not_not.2 hk)
    exact ⟨_, (congrArg _ hp).trans (hmm _ _ _)⟩
  · refine key hb ?_
    have hp : preproc3 points values deg w bas.b = _ := if_neg (not_not.2 hk)
    exact ⟨_, (congrArg _ hp).trans (hmm _ _ _)⟩

theorem wlsDim_structure {dim : ℕ} (points : Fin n → Pt dim K) (values : Fin n → Fin r → K)
    (deg : ℕ) (w : Weight dim K) (grad hess : Bool) (F : Fit dim r K)
    (h : wlsDim dim points values deg w grad hess = .ok F) :
    ∃ k bas P, getPolynomial (K := K) deg dim = .ok ⟨k, bas⟩ ∧
      Fits points values deg w grad hess bas P F := by
  match dim, points, w, F, h with
  | 0, _, _, _, h => cases h
  | _ + 4, _, _, _, h => cases h
  | 1, points, w, F, h =>
    obtain ⟨⟨k, bas⟩, h1, h2⟩ := bind_ok h
    obtain ⟨P, h3, rfl⟩ := map_ok h2
    unfold preproc1 at h3
    split at h3
    · cases h3
    · obtain ⟨invA, h4, rfl⟩ := map_ok h3
      refine ⟨k, bas, _, h1, h4, rfl, rfl, fun j => ?_, fun h => ?_, fun x => ⟨rfl, rfl, ?_⟩⟩
      · fin_cases j; exact ⟨rfl, rfl⟩
      · cases h; exact ⟨rfl, rfl⟩
      · cases hess with
        | false => rfl
        | true =>
          refine congrArg some (funext fun h => ?_)
          cases h
          exact mlsH2_eq_mlsHm _ _ _ _ _ _
  | 2, points, w, F, h =>
    obtain ⟨⟨k, bas⟩, h1, h2⟩ := bind_ok h
    obtain ⟨P, h3, rfl⟩ := map_ok h2
    unfold preproc2 at h3
    split at h3
    · cases h3
    · obtain ⟨invA, h4, rfl⟩ := map_ok h3
      refine ⟨k, bas, _, h1, h4, rfl, rfl, fun j => ?_, fun h => ?_, fun x => ⟨rfl, rfl, ?_⟩⟩
      · fin_cases j <;> exact ⟨rfl, rfl⟩
      · cases h <;> exact ⟨rfl, rfl⟩
      · cases hess with
        | false => rfl
        | true =>
          refine congrArg some (funext fun h => ?_)
          cases h
          · exact mlsH2_eq_mlsHm _ _ _ _ _ _
          · exact mlsH2_eq_mlsHm _ _ _ _ _ _
          · rfl
  | 3, points, w, F, h =>
    obtain ⟨⟨k, bas⟩, h1, h2⟩ := bind_ok h
    obtain ⟨P, h3, rfl⟩ := map_ok h2
    unfold preproc3 at h3
    split at h3
    · cases h3
    · obtain ⟨invA, h4, rfl⟩ := map_ok h3
      refine ⟨k, bas, _, h1, h4, rfl, rfl, fun j => ?_, fun h => ?_, fun x => ⟨rfl, rfl, ?_⟩⟩
      · fin_cases j <;> exact ⟨rfl, rfl⟩
      · cases h <;> exact ⟨rfl, rfl⟩
      · cases hess with
        | false => rfl
        | true =>
          refine congrArg some (funext fun h => ?_)
          cases h
          · exact mlsH2_eq_mlsHm _ _ _ _ _ _
          · exact mlsH2_eq_mlsHm _ _ _ _ _ _
          · exact mlsH2_eq_mlsHm _ _ _ _ _ _
          · rfl
          · rfl
          · rfl

end

/-! ## The bases -/

section
variable {K : Type} [Field K] [LinearOrder K]

open MvPolynomial

/-- The exponents as a finitely supported function. -/
noncomputable def expo {dim : ℕ} (e : Fin dim → ℕ) : Fin dim →₀ ℕ := Finsupp.equivFunOnFinite.symm e

theorem expo_apply {dim : ℕ} (e : Fin dim → ℕ) (j : Fin dim) : expo e j = e j := rfl

theorem eval_mono {dim : ℕ} (e : Fin dim → ℕ) (c : K) (x : Pt dim K) :
    eval x (monomial (expo e) c) = c * ∏ j, x j ^ e j := by
  rw [eval_monomial, Finsupp.prod_fintype _ _ fun i => pow_zero _]
  rfl

theorem pderiv_mono {dim : ℕ} (e : Fin dim → ℕ) (c : K) (i : Fin dim) :
    pderiv i (monomial (expo e) c) =
      monomial (expo fun j => e j - if j = i then 1 else 0) (c * (e i : K)) := by
  have hs : expo e - Finsupp.single i 1 = expo fun j => e j - if j = i then 1 else 0 := by
    ext j
    rw [Finsupp.tsub_apply, expo_apply, expo_apply, Finsupp.single_apply]
    congr 1
    exact if_congr eq_comm rfl rfl
  rw [pderiv_monomial, hs]
  rfl

/-- A list of the exponents of the monomials up to the degree `deg`, each once. -/
structure IsExps (deg dim k : ℕ) (e : Fin k → Fin dim → ℕ) : Prop where
  inj : Function.Injective e
  le : ∀ a, ∑ j, e a j ≤ deg
  surj : ∀ m : Fin dim → ℕ, ∑ j, m j ≤ deg → ∃ a, e a = m

theorem exps11 : IsExps 1 1 2 ![![0], ![1]] := by
  refine ⟨by decide, by decide, fun m hm => ?_⟩
  have : ∀ p : Fin 2, ∃ a : Fin 2, (![![0], ![1]] : Fin 2 → Fin 1 → ℕ) a = ![(p : ℕ)] := by decide
  rw [Fin.sum_univ_one] at hm
  obtain ⟨a, ha⟩ := this ⟨m 0, by omega⟩
  refine ⟨a, ha.trans ?_⟩
  funext j
  fin_cases j
  rfl

theorem exps12 : IsExps 1 2 3 ![![0, 0], ![1, 0], ![0, 1]] := by
  refine ⟨by decide, by decide, fun m hm => ?_⟩
  have : ∀ p q : Fin 2, (p : ℕ) + q ≤ 1 → ∃ a : Fin 3,
      (![![0, 0], ![1, 0], ![0, 1]] : Fin 3 → Fin 2 → ℕ) a = ![(p : ℕ), (q : ℕ)] := by decide
  rw [Fin.sum_univ_two] at hm
  obtain ⟨a, ha⟩ := this ⟨m 0, by omega⟩ ⟨m 1, by omega⟩ hm
  refine ⟨a, ha.trans ?_⟩
  funext j
  fin_cases j <;> rfl

theorem exps13 : IsExps 1 3 4 ![![0, 0, 0], ![1, 0, 0], ![0, 1, 0], ![0, 0, 1]] := by
  refine ⟨by decide, by decide, fun m hm => ?_⟩
  have : ∀ p q s : Fin 2, (p : ℕ) + q + s ≤ 1 → ∃ a : Fin 4,
      (![![0, 0, 0], ![1, 0, 0], ![0, 1, 0], ![0, 0, 1]] : Fin 4 → Fin 3 → ℕ) a =
        ![(p : ℕ), (q : ℕ), (s : ℕ)] := by decide
  rw [Fin.sum_univ_three] at hm
  obtain ⟨a, ha⟩ := this ⟨m 0, by omega⟩ ⟨m 1, by omega⟩ ⟨m 2, by omega⟩ hm
  refine ⟨a, ha.trans ?_⟩
  funext j
  fin_cases j <;> rfl

theorem exps21 : IsExps 2 1 3 ![![0], ![1], ![2]] := by
  refine ⟨by decide, by decide, fun m hm => ?_⟩
  have : ∀ p : Fin 3, ∃ a : Fin 3, (![![0], ![1], ![2]] : Fin 3 → Fin 1 → ℕ) a = ![(p : ℕ)] := by
    decide
  rw [Fin.sum_univ_one] at hm
  obtain ⟨a, ha⟩ := this ⟨m 0, by omega⟩
  refine ⟨a, ha.trans ?_⟩
  funext j
  fin_cases j
  rfl

theorem exps22 : IsExps 2 2 6 ![![0, 0], ![1, 0], ![0, 1], ![2, 0], ![0, 2], ![1, 1]] := by
  refine ⟨by decide, by decide, fun m hm => ?_⟩
  have : ∀ p q : Fin 3, (p : ℕ) + q ≤ 2 → ∃ a : Fin 6,
      (![![0, 0], ![1, 0], ![0, 1], ![2, 0], ![0, 2], ![1, 1]] : Fin 6 → Fin 2 → ℕ) a =
        ![(p : ℕ), (q : ℕ)] := by decide
  rw [Fin.sum_univ_two] at hm
  obtain ⟨a, ha⟩ := this ⟨m 0, by omega⟩ ⟨m 1, by omega⟩ hm
  refine ⟨a, ha.trans ?_⟩
  funext j
  fin_cases j <;> rfl

theorem exps23 : IsExps 2 3 10 ![![0, 0, 0], ![1, 0, 0], ![0, 1, 0], ![0, 0, 1], ![2, 0, 0],
    ![0, 2, 0], ![0, 0, 2], ![1, 1, 0], ![1, 0, 1], ![0, 1, 1]] := by
  refine ⟨by decide, by decide, fun m hm => ?_⟩
  have : ∀ p q s : Fin 3, (p : ℕ) + q + s ≤ 2 → ∃ a : Fin 10,
      (![![0, 0, 0], ![1, 0, 0], ![0, 1, 0], ![0, 0, 1], ![2, 0, 0],
        ![0, 2, 0], ![0, 0, 2], ![1, 1, 0], ![1, 0, 1], ![0, 1, 1]] : Fin 10 → Fin 3 → ℕ) a =
        ![(p : ℕ), (q : ℕ), (s : ℕ)] := by decide
  rw [Fin.sum_univ_three] at hm
  obtain ⟨a, ha⟩ := this ⟨m 0, by omega⟩ ⟨m 1, by omega⟩ ⟨m 2, by omega⟩ hm
  refine ⟨a, ha.trans ?_⟩
  funext j
  fin_cases j <;> rfl

/-- The basis consists of the monomials with the given exponents and their derivatives. -/
def IsMonomials {dim k : ℕ} (bas : Basis dim (HIdx dim) k K) (e : Fin k → Fin dim → ℕ) : Prop :=
  ∀ (x : Pt dim K) (a : Fin k), bas.b x a = eval x (monomial (expo (e a)) (1 : K)) ∧
    (∀ j, bas.d j x a = eval x (pderiv j (monomial (expo (e a)) (1 : K)))) ∧
    (∀ h, bas.dd h x a = eval x (pderiv (dirs dim h).2 (pderiv (dirs dim h).1
      (monomial (expo (e a)) (1 : K)))))

theorem mono11 : IsMonomials (K := K) (dim := 1) poly11 ![![0], ![1]] := by
  intro x a
  simp only [pderiv_mono, eval_mono, Fin.prod_univ_one, one_mul]
  refine ⟨?_, fun j => ?_, fun h => ?_⟩
  · fin_cases a <;> simp [poly11]
  · fin_cases j; fin_cases a <;> simp [poly11]
  · cases h; fin_cases a <;> simp [poly11, dirs]

theorem mono21 : IsMonomials (K := K) (dim := 1) poly21 ![![0], ![1], ![2]] := by
  intro x a
  simp only [pderiv_mono, eval_mono, Fin.prod_univ_one, one_mul]
  refine ⟨?_, fun j => ?_, fun h => ?_⟩
  · fin_cases a <;> simp [poly21]
  · fin_cases j; fin_cases a <;> simp [poly21]
  · cases h; fin_cases a <;> simp [poly21, dirs]

theorem mono12 : IsMonomials (K := K) (dim := 2) poly12 ![![0, 0], ![1, 0], ![0, 1]] := by
  intro x a
  simp only [pderiv_mono, eval_mono, Fin.prod_univ_two, one_mul]
  refine ⟨?_, fun j => ?_, fun h => ?_⟩
  · fin_cases a <;> simp [poly12]
  · fin_cases j <;> fin_cases a <;> simp [poly12]
  · cases h <;> fin_cases a <;> simp [poly12, dirs]

theorem mono22 : IsMonomials (K := K) (dim := 2) poly22
    ![![0, 0], ![1, 0], ![0, 1], ![2, 0], ![0, 2], ![1, 1]] := by
  intro x a
  simp only [pderiv_mono, eval_mono, Fin.prod_univ_two, one_mul]
  refine ⟨?_, fun j => ?_, fun h => ?_⟩
  · fin_cases a <;> simp [poly22]
  · fin_cases j <;> fin_cases a <;> simp [poly22]
  · cases h <;> fin_cases a <;> simp [poly22, dirs]

theorem mono13 : IsMonomials (K := K) (dim := 3) poly13
    ![![0, 0, 0], ![1, 0, 0], ![0, 1, 0], ![0, 0, 1]] := by
  intro x a
  simp only [pderiv_mono, eval_mono, Fin.prod_univ_three, one_mul]
  refine ⟨?_, fun j => ?_, fun h => ?_⟩
  · fin_cases a <;> simp [poly13]
  · fin_cases j <;> fin_cases a <;> simp [poly13]
  · cases h <;> fin_cases a <;> simp [poly13, dirs]

theorem mono23 : IsMonomials (K := K) (dim := 3) poly23
    ![![0, 0, 0], ![1, 0, 0], ![0, 1, 0], ![0, 0, 1], ![2, 0, 0],
    ![0, 2, 0], ![0, 0, 2], ![1, 1, 0], ![1, 0, 1], ![0, 1, 1]] := by
  intro x a
  simp only [pderiv_mono, eval_mono, Fin.prod_univ_three, one_mul]
  refine ⟨?_, fun j => ?_, fun h => ?_⟩
  · fin_cases a <;> simp [poly23]
  · fin_cases j <;> fin_cases a <;> simp [poly23]
  · cases h <;> fin_cases a <;> simp [poly23, dirs]

/-- The supported combinations of degree and dimension. -/
theorem getPolynomial_spec {deg dim k : ℕ} {bas : Basis dim (HIdx dim) k K}
    (h : getPolynomial deg dim = .ok ⟨k, bas⟩) :
    (dim = 1 ∨ dim = 2 ∨ dim = 3) ∧ (deg = 1 ∨ deg = 2) ∧ kFormula deg dim = k ∧
      ∃ e, IsExps deg dim k e ∧ IsMonomials bas e := by
  match dim, bas, h with
  | 0, _, h => cases h
  | _ + 4, _, h => cases h
  | 1, bas, h => match deg, h with
    | 0, h => cases h
    | 1, h => cases h; exact ⟨by simp, by simp, rfl, _, exps11, mono11⟩
    | 2, h => cases h; exact ⟨by simp, by simp, rfl, _, exps21, mono21⟩
    | _ + 3, h => cases h
  | 2, bas, h => match deg, h with
    | 0, h => cases h
    | 1, h => cases h; exact ⟨by simp, by simp, rfl, _, exps12, mono12⟩
    | 2, h => cases h; exact ⟨by simp, by simp, rfl, _, exps22, mono22⟩
    | _ + 3, h => cases h
  | 3, bas, h => match deg, h with
    | 0, h => cases h
    | 1, h => cases h; exact ⟨by simp, by simp, rfl, _, exps13, mono13⟩
    | 2, h => cases h; exact ⟨by simp, by simp, rfl, _, exps23, mono23⟩
    | _ + 3, h => cases h

theorem getPolynomial_exists {deg dim : ℕ} (hd : dim = 1 ∨ dim = 2 ∨ dim = 3)
    (hg : deg = 1 ∨ deg = 2) : ∃ k bas, getPolynomial (K := K) deg dim = .ok ⟨k, bas⟩ := by
  rcases hd with rfl | rfl | rfl <;> rcases hg with rfl | rfl <;> exact ⟨_, _, rfl⟩

theorem degree_expo {dim : ℕ} (m : Fin dim →₀ ℕ) : ∑ i ∈ m.support, m i = ∑ j, m j := by
  refine Finset.sum_subset (Finset.subset_univ _) fun j _ hj => ?_
  exact Finsupp.notMem_support_iff.1 hj

/-- A polynomial of bounded degree is the combination of the listed monomials. -/
theorem poly_expand {deg dim k : ℕ} {e : Fin k → Fin dim → ℕ} (he : IsExps deg dim k e)
    (p : MvPolynomial (Fin dim) K) (hp : p.totalDegree ≤ deg) :
    p = ∑ a, coeff (expo (e a)) p • monomial (expo (e a)) (1 : K) := by
  ext m
  rw [coeff_sum]
  simp only [coeff_smul, coeff_monomial, smul_eq_mul, mul_ite, mul_one, mul_zero]
  by_cases hm : ∑ j, m j ≤ deg
  · obtain ⟨a, ha⟩ := he.surj (fun j => m j) hm
    have hem : expo (e a) = m := by
      ext j
      rw [expo_apply, ha]
    rw [Finset.sum_eq_single a]
    · rw [if_pos hem, hem]
    · intro b _ hb
      rw [if_neg]
      intro h
      apply hb
      apply he.inj
      rw [ha]
      funext j
      rw [← h]
      rfl
    · intro h
      exact absurd (Finset.mem_univ _) h
  · rw [coeff_eq_zero_of_totalDegree_lt (by rw [degree_expo]; omega), eq_comm]
    refine Finset.sum_eq_zero fun a _ => ?_
    rw [if_neg]
    intro h
    apply hm
    have := he.le a
    rw [← h]
    exact this

theorem totalDegree_expand {deg dim k : ℕ} {e : Fin k → Fin dim → ℕ} (he : IsExps deg dim k e)
    (c : Fin k → K) : (∑ a, c a • monomial (expo (e a)) (1 : K)).totalDegree ≤ deg := by
  refine (totalDegree_finsetSum _ _).trans (Finset.sup_le fun a _ => ?_)
  refine (totalDegree_smul_le _ _).trans ?_
  refine (totalDegree_monomial_le _ _).trans ?_
  show ∑ i ∈ (expo (e a)).support, expo (e a) i ≤ deg
  rw [degree_expo]
  exact he.le a

theorem coeff_expand {deg dim k : ℕ} {e : Fin k → Fin dim → ℕ} (he : IsExps deg dim k e)
    (c : Fin k → K) (a : Fin k) :
    coeff (expo (e a)) (∑ b, c b • monomial (expo (e b)) (1 : K)) = c a := by
  rw [coeff_sum]
  simp only [coeff_smul, coeff_monomial, smul_eq_mul, mul_ite, mul_one, mul_zero]
  rw [Finset.sum_eq_single a]
  · rw [if_pos rfl]
  · intro b _ hb
    rw [if_neg]
    intro h
    exact hb (he.inj (Finsupp.equivFunOnFinite.symm.injective h))
  · intro h
    exact absurd (Finset.mem_univ _) h

variable {deg dim k : ℕ} {e : Fin k → Fin dim → ℕ} {bas : Basis dim (HIdx dim) k K}

theorem eval_expand (hm : IsMonomials bas e) (c : Fin k → K) (x : Pt dim K) :
    eval x (∑ a, c a • monomial (expo (e a)) (1 : K)) = ∑ a, bas.b x a * c a := by
  rw [map_sum]
  refine Finset.sum_congr rfl fun a _ => ?_
  rw [smul_eval, (hm x a).1, mul_comm]

theorem eval_pderiv_expand (hm : IsMonomials bas e) (c : Fin k → K) (x : Pt dim K) (j : Fin dim) :
    eval x (pderiv j (∑ a, c a • monomial (expo (e a)) (1 : K))) = ∑ a, bas.d j x a * c a := by
  rw [map_sum, map_sum]
  refine Finset.sum_congr rfl fun a _ => ?_
  rw [Derivation.map_smul, smul_eval, (hm x a).2.1, mul_comm]

theorem eval_pderiv2_expand (hm : IsMonomials bas e) (c : Fin k → K) (x : Pt dim K)
    (h : HIdx dim) :
    eval x (pderiv (dirs dim h).2 (pderiv (dirs dim h).1
      (∑ a, c a • monomial (expo (e a)) (1 : K)))) = ∑ a, bas.dd h x a * c a := by
  rw [map_sum, map_sum, map_sum]
  refine Finset.sum_congr rfl fun a _ => ?_
  rw [Derivation.map_smul, Derivation.map_smul, smul_eval, (hm x a).2.2, mul_comm]

end

end Verif.LS
