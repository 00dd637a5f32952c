import Verif.Model.LinUtils
import Mathlib.LinearAlgebra.Matrix.Permutation
import Mathlib.LinearAlgebra.CrossProduct
import Mathlib.Analysis.Matrix.PosDef
import Mathlib.LinearAlgebra.Matrix.Charpoly.Eigs
import Mathlib.Tactic.LinearCombination
import Mathlib.Tactic.FinCases
import Mathlib.Tactic.Linarith
import Mathlib.Tactic.Positivity

/-!
# Properties C71-C76: permutation tensor, unit vectors, symmetry, definiteness, squeezing
-/

set_option linter.unusedSectionVars false

namespace Verif.Lin.Props
open Verif Verif.Lin Matrix

/-! ## C71 -/

theorem foldl_update {α : Type} [DecidableEq α] (g : α → ℤ) (l : List α) (arr : α → ℤ) (y : α) :
    (l.foldl (fun arr x => fun y => if y = x then g x else arr y) arr) y =
      if y ∈ l then g y else arr y := by
  induction l generalizing arr with
  | nil => simp
  | cons x l ih =>
    rw [List.foldl_cons, ih]
    by_cases h1 : y ∈ l
    · simp [h1]
    · by_cases h2 : y = x
      · subst h2; simp [h1]
      · simp [h1, h2]

theorem tensor_eq (dim : ℕ) (y : List (Fin dim)) :
    permutationTensor dim y =
      if y.Perm (List.finRange dim) then (permMatrix dim y).det else 0 := by
  unfold permutationTensor
  rw [foldl_update fun x => (permMatrix dim x).det]
  simp only [List.mem_permutations]

/-- C71: for a permutation the entry is its sign. -/
theorem C71_permutation {dim : ℕ} (σ : Equiv.Perm (Fin dim)) :
    permutationTensor dim (List.ofFn σ) = Equiv.Perm.sign σ := by
  rw [tensor_eq, if_pos]
  · have h : permMatrix dim (List.ofFn σ) = σ.permMatrix ℤ := by
      ext i j
      unfold permMatrix
      rw [List.getElem?_ofFn, dif_pos i.2]
      simp only [Option.some.injEq, Fin.eta, Equiv.Perm.permMatrix, PEquiv.toMatrix_apply,
        Equiv.toPEquiv_apply, Option.mem_some_iff]
    rw [h, Matrix.det_permutation]
    simp
  · refine (List.perm_ext_iff_of_nodup (List.nodup_ofFn.2 σ.injective) (List.nodup_finRange dim)).2
      fun a => ?_
    simp only [List.mem_ofFn, List.mem_finRange, iff_true]
    exact σ.surjective a

/-- C71: all other entries are zero. -/
theorem C71_zero {dim : ℕ} (f : Fin dim → Fin dim) (hf : ¬ Function.Injective f) :
    permutationTensor dim (List.ofFn f) = 0 := by
  rw [tensor_eq, if_neg]
  intro h
  exact hf (List.nodup_ofFn.1 ((h.nodup_iff).2 (List.nodup_finRange dim)))

/-- C71: exchanging two indices changes the sign. -/
theorem C71_antisymmetric {dim : ℕ} (f : Fin dim → Fin dim) (i j : Fin dim) (hij : i ≠ j) :
    permutationTensor dim (List.ofFn (f ∘ Equiv.swap i j)) = -permutationTensor dim (List.ofFn f) := by
  by_cases hf : Function.Injective f
  · obtain ⟨σ, rfl⟩ : ∃ σ : Equiv.Perm (Fin dim), f = σ :=
      ⟨Equiv.ofBijective f (Finite.injective_iff_bijective.1 hf), rfl⟩
    have h : (σ : Fin dim → Fin dim) ∘ Equiv.swap i j = (σ * Equiv.swap i j : Equiv.Perm (Fin dim)) :=
      rfl
    rw [h, C71_permutation, C71_permutation, Equiv.Perm.sign_mul, Equiv.Perm.sign_swap hij]
    simp
  · rw [C71_zero f hf, C71_zero _ fun h => hf ?_, neg_zero]
    have := h.comp (Equiv.swap i j).injective
    rwa [Function.comp_assoc, ← Equiv.coe_trans, Equiv.swap_swap, Equiv.coe_refl,
      Function.comp_id] at this

/-- C71: contracted with the rows of a matrix it gives the determinant. -/
theorem C71_determinant {dim : ℕ} (A : Matrix (Fin dim) (Fin dim) ℝ) :
    ∑ f : Fin dim → Fin dim, (permutationTensor dim (List.ofFn f) : ℝ) * ∏ i, A i (f i) = A.det := by
  rw [← Matrix.det_transpose, Matrix.det_apply]
  have h1 : ∑ f : Fin dim → Fin dim, (permutationTensor dim (List.ofFn f) : ℝ) * ∏ i, A i (f i) =
      ∑ f ∈ Finset.univ.filter (fun f : Fin dim → Fin dim => Function.Injective f),
        (permutationTensor dim (List.ofFn f) : ℝ) * ∏ i, A i (f i) := by
    rw [Finset.sum_filter]
    refine Finset.sum_congr rfl fun f _ => ?_
    split_ifs with hf
    · rfl
    · rw [C71_zero f hf]
      simp
  rw [h1]
  symm
  refine Finset.sum_bij (fun σ _ => (σ : Fin dim → Fin dim)) (fun σ _ => ?_) (fun σ _ τ _ h => ?_)
    (fun f hf => ?_) fun σ _ => ?_
  · simp only [Finset.mem_filter, Finset.mem_univ, true_and]
    exact σ.injective
  · exact DFunLike.coe_injective h
  · have hf' : Function.Injective f := (Finset.mem_filter.1 hf).2
    exact ⟨Equiv.ofBijective f (Finite.injective_iff_bijective.1 hf'), Finset.mem_univ _, rfl⟩
  · rw [C71_permutation]
    simp only [Matrix.transpose_apply]
    rw [Units.smul_def, zsmul_eq_mul]

/-- C71: in three dimensions the components of the cross product follow. -/
theorem C71_cross (a b : Fin 3 → ℝ) (i : Fin 3) :
    crossProduct a b i = ∑ j, ∑ k, (permutationTensor 3 [i, j, k] : ℝ) * a j * b k := by
  have key : ∀ i j k : Fin 3, permutationTensor 3 [i, j, k] =
      ((j : ℤ) - i) * ((k : ℤ) - i) * ((k : ℤ) - j) / 2 := by
    intro i j k
    rw [tensor_eq, Matrix.det_fin_three]
    simp only [permMatrix]
    revert i j k
    decide
  simp only [key]
  fin_cases i <;> simp [crossProduct, Fin.sum_univ_succ] <;> ring

/-! ## C72 -/

/-- C72: an index within the vector gives the vector with the value at this place and zeros elsewhere. -/
theorem C72_unit_vector_partial {K : Type} [Semiring K] (length index : ℕ) (value : K)
    (h : index < length) :
    ∃ v, unitBasisVector (length : ℤ) (index : ℤ) value = .ok v ∧ v.length = length ∧
      v[index]? = some value ∧ ∀ i < length, i ≠ index → v[i]? = some 0 := by
  have hl : max (length : ℤ).toNat ((index : ℤ).toNat + 1) = length := by
    simp only [Int.toNat_natCast]
    omega
  refine ⟨_, by unfold unitBasisVector; rw [if_neg (by omega)], ?_, ?_, fun i hi hne => ?_⟩
  · rw [List.length_map, List.length_range, hl]
  · rw [List.getElem?_map, hl, List.getElem?_range h]
    simp
  · rw [List.getElem?_map, hl, List.getElem?_range hi]
    simp [hne]

/-- C72 fails for an index beyond the length (the vector is longer than asked for) and for a negative
index (an exception). -/
theorem C72_index_violated {K : Type} [Semiring K] (length index : ℕ) (value : K)
    (h : length ≤ index) :
    (∃ v, unitBasisVector (length : ℤ) (index : ℤ) value = .ok v ∧ v.length = index + 1) ∧
    ∀ i : ℤ, i < 0 → unitBasisVector (length : ℤ) i value = .error .value := by
  refine ⟨⟨_, by unfold unitBasisVector; rw [if_neg (by omega)], ?_⟩, fun i hi => ?_⟩
  · rw [List.length_map, List.length_range]
    simp only [Int.toNat_natCast]
    omega
  · unfold unitBasisVector
    rw [if_pos (.inr hi)]

example : unitBasisVector 4 2 (5 : ℤ) = .ok [0, 0, 5, 0] := by decide

/-! ## C73 -/

/-- C73: a symmetric matrix is recognized with every positive tolerance. -/
theorem C73_symmetric {n : ℕ} (A : Matrix (Fin n) (Fin n) ℝ) (hA : Aᵀ = A) (tol : ℝ) (ht : 0 < tol) :
    ∃ p, isSymmetric A tol = .ok p ∧ p := by
  unfold isSymmetric
  rw [dif_pos rfl]
  refine ⟨_, rfl, ?_⟩
  have : ∀ i j, A i j - A (Fin.cast rfl j) (Fin.cast rfl i) = 0 := fun i j => by
    have := congrFun (congrFun hA j) i
    rw [Matrix.transpose_apply] at this
    rw [this]
    simp
  simp only [this]
  simpa using ht

/-- C73: if a square matrix is accepted, opposite entries differ by less than the tolerance; in
particular a matrix accepted with every positive tolerance is symmetric. -/
theorem C73_accepted {n : ℕ} (A : Matrix (Fin n) (Fin n) ℝ) (tol : ℝ) (p : Prop)
    (h : isSymmetric A tol = .ok p) (hp : p) (i j : Fin n) : |A i j - A j i| < tol := by
  unfold isSymmetric at h
  rw [dif_pos rfl] at h
  injection h with h
  rw [← h] at hp
  refine lt_of_le_of_lt ?_ hp
  rw [← Real.sqrt_sq_eq_abs]
  refine Real.sqrt_le_sqrt ?_
  calc (A i j - A j i) ^ 2 ≤ ∑ j, (A i j - A j i) ^ 2 :=
        Finset.single_le_sum (f := fun j => (A i j - A j i) ^ 2) (fun _ _ => sq_nonneg _)
          (Finset.mem_univ j)
    _ ≤ ∑ i, ∑ j, (A i j - A j i) ^ 2 :=
        Finset.single_le_sum (f := fun i => ∑ j, (A i j - A j i) ^ 2)
          (fun _ _ => Finset.sum_nonneg fun _ _ => sq_nonneg _) (Finset.mem_univ i)

/-- C73: rectangular matrices that are neither a row nor a column are refused. -/
theorem C73_refused {m n : ℕ} (A : Matrix (Fin m) (Fin n) ℝ) (tol : ℝ) (h : m ≠ n) (hm : m ≠ 1)
    (hn : n ≠ 1) : isSymmetric A tol = .error .value := by
  unfold isSymmetric
  rw [dif_neg h, dif_neg hm, dif_neg hn]

/-- C73 fails for rows and columns: of equal entries they are called symmetric, though not square. -/
theorem C73_row_violated (n : ℕ) (hn : 1 ≠ n) (c tol : ℝ) (ht : 0 < tol) :
    ∃ p, isSymmetric (fun (_ : Fin 1) (_ : Fin n) => c) tol = .ok p ∧ p := by
  unfold isSymmetric
  rw [dif_neg hn, dif_pos rfl]
  exact ⟨_, rfl, by simpa using ht⟩

/-- C73: `is_hermitian` looks at the shape only: it holds exactly if all axes have the same length. -/
theorem C73_hermitian_partial (s0 : ℕ) (rest : List ℕ) :
    ∃ b, isHermitian (s0 :: rest) = .ok b ∧ (b = true ↔ ∀ s ∈ rest, s = s0) := by
  refine ⟨_, rfl, ?_⟩
  simp

/-- C73 fails for `is_hermitian`: a matrix that is not symmetric is accepted. -/
theorem C73_hermitian_violated :
    isHermitian [2, 2] = .ok true ∧ (!![(0 : ℝ), 1; 0, 0])ᵀ ≠ !![0, 1; 0, 0] := by
  refine ⟨rfl, fun h => ?_⟩
  have := congrFun (congrFun h 0) 1
  simp at this

example : ∃ p, isSymmetric !![(1 : ℝ), 2; 2, 3] (1 / 10) = .ok p ∧ p :=
  C73_symmetric _ (by ext i j; fin_cases i <;> fin_cases j <;> rfl) _ (by norm_num)

/-! ## C74 -/

section
variable {n : ℕ}

/-- Eigenvalues have eigenvectors. -/
theorem mem_eigvals (A : Matrix (Fin n) (Fin n) ℝ) (z : ℂ) :
    z ∈ eigvals A ↔ ∃ x : Fin n → ℂ, x ≠ 0 ∧ A.map (algebraMap ℝ ℂ) *ᵥ x = z • x := by
  unfold eigvals
  rw [Polynomial.mem_roots (Matrix.charpoly_monic _).ne_zero, Polynomial.IsRoot,
    Matrix.eval_charpoly, ← Matrix.exists_mulVec_eq_zero_iff]
  refine exists_congr fun x => and_congr_right fun _ => ?_
  rw [Matrix.sub_mulVec, sub_eq_zero]
  have : (Matrix.scalar (Fin n) z) *ᵥ x = z • x := by
    ext i
    simp [Matrix.scalar_apply, Matrix.mulVec_diagonal]
  rw [this]
  exact eq_comm

/-- The quadratic form. -/
def quad (A : Matrix (Fin n) (Fin n) ℝ) (x : Fin n → ℝ) : ℝ := x ⬝ᵥ A *ᵥ x

/-- The real part of an eigenvalue in terms of the quadratic form. -/
theorem eig_re (A : Matrix (Fin n) (Fin n) ℝ) (z : ℂ) (x : Fin n → ℂ)
    (h : A.map (algebraMap ℝ ℂ) *ᵥ x = z • x) :
    quad A (fun i => (x i).re) + quad A (fun i => (x i).im) =
      z.re * ((fun i => (x i).re) ⬝ᵥ (fun i => (x i).re) +
        (fun i => (x i).im) ⬝ᵥ (fun i => (x i).im)) := by
  have h1 : ∀ i, (A *ᵥ fun i => (x i).re) i = z.re * (x i).re - z.im * (x i).im := fun i => by
    have := congrArg Complex.re (congrFun h i)
    simp only [Matrix.mulVec, dotProduct, Matrix.map_apply, Pi.smul_apply, smul_eq_mul,
      Complex.mul_re, Complex.re_sum, Complex.coe_algebraMap, Complex.ofReal_re, Complex.ofReal_im,
      zero_mul, sub_zero] at this
    simpa [Matrix.mulVec, dotProduct] using this
  have h2 : ∀ i, (A *ᵥ fun i => (x i).im) i = z.re * (x i).im + z.im * (x i).re := fun i => by
    have := congrArg Complex.im (congrFun h i)
    simp only [Matrix.mulVec, dotProduct, Matrix.map_apply, Pi.smul_apply, smul_eq_mul,
      Complex.mul_im, Complex.im_sum, Complex.coe_algebraMap, Complex.ofReal_re, Complex.ofReal_im,
      zero_mul, add_zero] at this
    simpa [Matrix.mulVec, dotProduct] using this
  unfold quad
  simp only [dotProduct, h1, h2]
  rw [← Finset.sum_add_distrib, ← Finset.sum_add_distrib, Finset.mul_sum]
  refine Finset.sum_congr rfl fun i _ => ?_
  ring

theorem dot_self_nonneg (x : Fin n → ℝ) : 0 ≤ x ⬝ᵥ x :=
  Finset.sum_nonneg fun _ _ => mul_self_nonneg _

theorem dot_pos_of_ne (x : Fin n → ℂ) (hx : x ≠ 0) :
    0 < (fun i => (x i).re) ⬝ᵥ (fun i => (x i).re) + (fun i => (x i).im) ⬝ᵥ (fun i => (x i).im) := by
  have h1 := dot_self_nonneg fun i => (x i).re
  have h2 := dot_self_nonneg fun i => (x i).im
  rcases (add_nonneg h1 h2).lt_or_eq with h | h
  · exact h
  · exfalso
    refine hx (funext fun i => ?_)
    have e1 : (fun i => (x i).re) ⬝ᵥ (fun i => (x i).re) = 0 := by linarith
    have e2 : (fun i => (x i).im) ⬝ᵥ (fun i => (x i).im) = 0 := by linarith
    rw [dotProduct_self_eq_zero] at e1 e2
    exact Complex.ext (congrFun e1 i) (congrFun e2 i)

/-- C74: a positive definite matrix, symmetric or not, is recognized as such. -/
theorem C74_recognized (A : Matrix (Fin n) (Fin n) ℝ) (tol : ℝ)
    (h : ∀ x, x ≠ 0 → tol * (x ⬝ᵥ x) < x ⬝ᵥ A *ᵥ x) : isPosDef A tol := by
  intro z hz
  obtain ⟨x, hx, hAx⟩ := (mem_eigvals A z).1 hz
  have h1 := eig_re A z x hAx
  have h2 := dot_pos_of_ne x hx
  have hle : ∀ u : Fin n → ℝ, tol * (u ⬝ᵥ u) ≤ quad A u := fun u => by
    by_cases hu : u = 0
    · subst hu
      simp [quad]
    · exact (h u hu).le
  refine .inl ?_
  have h3 : tol * ((fun i => (x i).re) ⬝ᵥ (fun i => (x i).re) +
      (fun i => (x i).im) ⬝ᵥ (fun i => (x i).im)) <
      quad A (fun i => (x i).re) + quad A (fun i => (x i).im) := by
    rw [mul_add]
    by_cases hu : (fun i => (x i).re) = 0
    · have hv : (fun i => (x i).im) ≠ 0 := fun hv =>
        hx (funext fun i => Complex.ext (congrFun hu i) (congrFun hv i))
      exact add_lt_add_of_le_of_lt (hle _) (h _ hv)
    · exact add_lt_add_of_lt_of_le (h _ hu) (hle _)
  rw [h1] at h3
  exact lt_of_mul_lt_mul_right h3 h2.le

theorem real_eig (A : Matrix (Fin n) (Fin n) ℝ) (μ : ℝ) (x : Fin n → ℝ) (hx : x ≠ 0)
    (h : A *ᵥ x = μ • x) : (μ : ℂ) ∈ eigvals A := by
  rw [mem_eigvals]
  refine ⟨fun i => (x i : ℂ), fun h0 => hx (funext fun i => ?_), funext fun i => ?_⟩
  · exact Complex.ofReal_eq_zero.1 (congrFun h0 i)
  · have := congrFun h i
    simp only [Matrix.mulVec, dotProduct, Matrix.map_apply, Pi.smul_apply, smul_eq_mul,
      Complex.coe_algebraMap] at this ⊢
    rw [← Complex.ofReal_mul, ← this]
    push_cast
    rfl

/-- A symmetric matrix whose eigenvalues exceed a bound. -/
theorem quad_of_eigenvalues (A : Matrix (Fin n) (Fin n) ℝ) (hA : Aᵀ = A) (tol : ℝ) :
    ((∀ μ : ℝ, (μ : ℂ) ∈ eigvals A → tol < μ) → ∀ x, x ≠ 0 → tol * (x ⬝ᵥ x) < x ⬝ᵥ A *ᵥ x) ∧
    ((∀ μ : ℝ, (μ : ℂ) ∈ eigvals A → tol ≤ μ) → ∀ x, tol * (x ⬝ᵥ x) ≤ x ⬝ᵥ A *ᵥ x) := by
  have hB : (A - tol • (1 : Matrix (Fin n) (Fin n) ℝ)).IsHermitian := by
    rw [Matrix.IsHermitian, Matrix.conjTranspose_eq_transpose_of_trivial, Matrix.transpose_sub, hA,
      Matrix.transpose_smul, Matrix.transpose_one]
  have hmem : ∀ i, ((hB.eigenvalues i + tol : ℝ) : ℂ) ∈ eigvals A := fun i => by
    refine real_eig A _ (hB.eigenvectorBasis i) (fun h0 => ?_) ?_
    · have := hB.eigenvectorBasis.orthonormal.1 i
      rw [show hB.eigenvectorBasis i = 0 from by ext j; exact congrFun h0 j, norm_zero] at this
      exact zero_ne_one this
    · have := hB.mulVec_eigenvectorBasis i
      rw [Matrix.sub_mulVec, Matrix.smul_mulVec, Matrix.one_mulVec, sub_eq_iff_eq_add] at this
      rw [this, add_smul]
  have hq : ∀ x : Fin n → ℝ, x ⬝ᵥ (A - tol • (1 : Matrix (Fin n) (Fin n) ℝ)) *ᵥ x =
      x ⬝ᵥ A *ᵥ x - tol * (x ⬝ᵥ x) := fun x => by
    rw [Matrix.sub_mulVec, Matrix.smul_mulVec, Matrix.one_mulVec, dotProduct_sub, dotProduct_smul,
      smul_eq_mul]
  constructor
  · intro h x hx
    have hpd := hB.posDef_iff_eigenvalues_pos.2 fun i => by
      have := h _ (hmem i)
      linarith
    have := hpd.dotProduct_mulVec_pos hx
    rw [star_trivial, hq] at this
    linarith
  · intro h x
    have hpd := hB.posSemidef_iff_eigenvalues_nonneg.2 fun i => by
      have := h _ (hmem i)
      simp only [Pi.zero_apply]
      linarith
    have := hpd.dotProduct_mulVec_nonneg x
    rw [star_trivial, hq] at this
    linarith

/-- C74: for symmetric matrices the answer is that of the quadratic form. -/
theorem C74_symmetric (A : Matrix (Fin n) (Fin n) ℝ) (hA : Aᵀ = A) (tol : ℝ) :
    isPosDef A tol ↔ ∀ x, x ≠ 0 → tol * (x ⬝ᵥ x) < x ⬝ᵥ A *ᵥ x := by
  refine ⟨fun h => (quad_of_eigenvalues A hA tol).1 fun μ hμ => ?_, C74_recognized A tol⟩
  rcases h _ hμ with h | ⟨-, h⟩
  · simpa using h
  · simp at h

/-- Eigenvalues of a symmetric matrix are real. -/
theorem eig_im (A : Matrix (Fin n) (Fin n) ℝ) (hA : Aᵀ = A) (z : ℂ) (hz : z ∈ eigvals A) :
    z.im = 0 := by
  have hH : (A.map (algebraMap ℝ ℂ)).IsHermitian := by
    ext i j
    rw [Matrix.conjTranspose_apply, Matrix.map_apply, Matrix.map_apply, Complex.coe_algebraMap]
    have := congrFun (congrFun hA i) j
    rw [Matrix.transpose_apply] at this
    simp [this]
  unfold eigvals at hz
  rw [hH.roots_charpoly_eq_eigenvalues, Multiset.mem_map] at hz
  obtain ⟨i, -, rfl⟩ := hz
  simp

/-- C74: semidefiniteness of symmetric matrices. -/
theorem C74_semidefinite (A : Matrix (Fin n) (Fin n) ℝ) (hA : Aᵀ = A) :
    isPosSemidef A ↔ ∀ x, 0 ≤ x ⬝ᵥ A *ᵥ x := by
  constructor
  · intro h x
    have := (quad_of_eigenvalues A hA 0).2 (fun μ hμ => by
      rcases h _ hμ with h | ⟨h, -⟩
      · simpa using h.le
      · simpa using h.ge) x
    simpa using this
  · intro h z hz
    obtain ⟨x, hx, hAx⟩ := (mem_eigvals A z).1 hz
    have h1 := eig_re A z x hAx
    have h2 := dot_pos_of_ne x hx
    have h3 : 0 ≤ z.re := by
      by_contra hneg
      have := mul_neg_of_neg_of_pos (not_le.1 hneg) h2
      have h4 := h fun i => (x i).re
      have h5 := h fun i => (x i).im
      unfold quad at h1
      linarith
    rcases h3.lt_or_eq with h | h
    · exact .inl h
    · exact .inr ⟨h.symm, (eig_im A hA z hz).ge⟩

/-- C74 fails for matrices that are not symmetric: this one is accepted as positive definite, though
its quadratic form is negative at `(1, -1)`. -/
theorem C74_nonsymmetric_violated :
    isPosDef !![(1 : ℝ), 3; 0, 1] 0 ∧
      ![(1 : ℝ), -1] ⬝ᵥ !![(1 : ℝ), 3; 0, 1] *ᵥ ![1, -1] < 0 := by
  constructor
  · intro z hz
    obtain ⟨x, hx, h⟩ := (mem_eigvals _ z).1 hz
    have h0 := congrFun h 0
    have h1 := congrFun h 1
    simp [Matrix.mulVec, dotProduct, Fin.sum_univ_succ] at h0 h1
    have hz1 : z = 1 := by
      by_cases hx1 : x 1 = 0
      · have hx0 : x 0 ≠ 0 := fun hx0 => hx (funext fun i => by fin_cases i <;> simpa)
        rw [hx1, mul_zero, add_zero] at h0
        exact (mul_right_cancel₀ hx0 (by rw [one_mul]; exact h0)).symm
      · exact (mul_right_cancel₀ hx1 (by rw [one_mul]; exact h1)).symm
    rw [hz1]
    exact .inl (by simp)
  · simp [Matrix.mulVec, dotProduct, Fin.sum_univ_succ]
    norm_num

/-- C74 fails for semidefinite matrices that are not symmetric: the quadratic form of this one is
zero, but it is rejected because of its imaginary eigenvalues. -/
theorem C74_semidefinite_violated :
    ¬ isPosSemidef !![(0 : ℝ), 1; -1, 0] ∧
      ∀ x : Fin 2 → ℝ, x ⬝ᵥ !![(0 : ℝ), 1; -1, 0] *ᵥ x = 0 := by
  constructor
  · intro h
    have hm : (-Complex.I) ∈ eigvals !![(0 : ℝ), 1; -1, 0] := by
      rw [mem_eigvals]
      refine ⟨![1, -Complex.I], fun h => by simpa using congrFun h 0, ?_⟩
      ext i
      fin_cases i <;> simp [Matrix.mulVec, dotProduct, Fin.sum_univ_succ]
    rcases h _ hm with h | ⟨-, h⟩
    · simp at h
    · simp at h
      norm_num at h
  · intro x
    simp [Matrix.mulVec, dotProduct, Fin.sum_univ_succ]
    ring

/-- C75: whatever is drawn, the random positive semidefinite matrix is symmetric, is semidefinite, and
is recognized as such. -/
theorem C75_semidefinite (A : Matrix (Fin n) (Fin n) ℝ) :
    (randomPosSemidef A)ᵀ = randomPosSemidef A ∧
      (∀ x, 0 ≤ x ⬝ᵥ randomPosSemidef A *ᵥ x) ∧ isPosSemidef (randomPosSemidef A) := by
  have hs : (randomPosSemidef A)ᵀ = randomPosSemidef A := by
    unfold randomPosSemidef
    rw [Matrix.transpose_mul, Matrix.transpose_transpose]
  have hq : ∀ x, 0 ≤ x ⬝ᵥ randomPosSemidef A *ᵥ x := fun x => by
    unfold randomPosSemidef
    rw [← Matrix.mulVec_mulVec, Matrix.dotProduct_mulVec, Matrix.vecMul_transpose]
    exact dot_self_nonneg _
  exact ⟨hs, hq, (C74_semidefinite _ hs).2 hq⟩

/-- C75: whatever is drawn, the random positive definite matrix is symmetric, all its eigenvalues are
real and at least `alpha`, and it is recognized as positive definite for `alpha > 0`. -/
theorem C75_definite (A : Matrix (Fin n) (Fin n) ℝ) (alpha : ℝ) :
    (randomPosDef A alpha)ᵀ = randomPosDef A alpha ∧
      (∀ (z : ℂ) (x : Fin n → ℂ), x ≠ 0 →
        (randomPosDef A alpha).map (algebraMap ℝ ℂ) *ᵥ x = z • x → z.im = 0 ∧ alpha ≤ z.re) ∧
      (0 < alpha → isPosDef (randomPosDef A alpha) 0) := by
  have hs : (randomPosDef A alpha)ᵀ = randomPosDef A alpha := by
    unfold randomPosDef
    rw [Matrix.transpose_add, Matrix.transpose_mul, Matrix.transpose_transpose, Matrix.transpose_smul,
      Matrix.transpose_one]
  have hq : ∀ x, alpha * (x ⬝ᵥ x) ≤ x ⬝ᵥ randomPosDef A alpha *ᵥ x := fun x => by
    unfold randomPosDef
    rw [Matrix.add_mulVec, ← Matrix.mulVec_mulVec, Matrix.smul_mulVec, Matrix.one_mulVec,
      dotProduct_add, dotProduct_smul, smul_eq_mul, Matrix.dotProduct_mulVec, ← Matrix.mulVec_transpose]
    have := dot_self_nonneg (Aᵀ *ᵥ x)
    linarith
  refine ⟨hs, fun z x hx hAx => ⟨eig_im _ hs z ((mem_eigvals _ z).2 ⟨x, hx, hAx⟩), ?_⟩,
    fun ha => C74_recognized _ _ fun x hx => ?_⟩
  · have h1 := eig_re _ z x hAx
    have h2 := dot_pos_of_ne x hx
    have h3 := add_le_add (hq fun i => (x i).re) (hq fun i => (x i).im)
    rw [← mul_add] at h3
    unfold quad at h1
    rw [h1] at h3
    exact le_of_mul_le_mul_right h3 h2
  · have h1 := hq x
    have h2 : 0 < x ⬝ᵥ x := (dot_self_nonneg x).lt_of_ne' fun h => hx (dotProduct_self_eq_zero.1 h)
    rw [zero_mul]
    exact lt_of_lt_of_le (mul_pos ha h2) h1

end

/-! ## C76 -/

section
variable {K : Type}

/-- C76: squeezing an array removes its unit axes, keeps all others in order, and keeps the elements;
the number of elements still fits the shape. -/
theorem C76_array (a : NArr K) (ha : a.data.length = a.shape.prod) :
    ∃ b, squeezed true none (.arr a) = .arr b ∧ b.data = a.data ∧ b.shape = a.shape.filter (· ≠ 1) ∧
      b.data.length = b.shape.prod ∧ 1 ∉ b.shape := by
  refine ⟨npSqueeze a, rfl, rfl, rfl, ?_, ?_⟩
  · show a.data.length = (a.shape.filter (· ≠ 1)).prod
    rw [ha]
    induction a.shape with
    | nil => rfl
    | cons s l ih =>
      by_cases h : s = 1
      · subst h
        simpa using ih
      · rw [List.filter_cons_of_pos (by simpa using h), List.prod_cons, List.prod_cons, ih]
  · show 1 ∉ a.shape.filter (· ≠ 1)
    simp

/-- C76: the keyword argument overrides the default of the decorator; without squeezing the result is
returned unchanged. -/
theorem C76_switch (default b : Bool) (r : Ret K) :
    squeezed default (some b) r = squeezed b none r ∧ squeezed false none r = r ∧
      squeezed default none r = squeezed default (some default) r := by
  refine ⟨rfl, rfl, rfl⟩

/-- An array without its unit axes, or anything else left alone. -/
def IsSqueezed (r s : Ret K) : Prop :=
  (∃ a b, r = .arr a ∧ s = .arr b ∧ b.data = a.data ∧ b.shape = a.shape.filter (· ≠ 1)) ∨
    (∀ a, r ≠ .arr a) ∧ s = r

/-- C76: members of tuples and values of dictionaries are squeezed one by one; the keys of a dictionary
and everything that is not an array stay as they are.  A tuple comes back as a list. -/
theorem C76_containers (l : List (Ret K)) (d : List (String × Ret K)) (k : K) :
    (∃ l', squeezed true none (.tuple l) = .list l' ∧ l'.length = l.length ∧
      ∀ (i : ℕ) (r : Ret K), l[i]? = some r → ∃ s, l'[i]? = some s ∧ IsSqueezed r s) ∧
    (∃ d', squeezed true none (.dict d) = .dict d' ∧ d'.map Prod.fst = d.map Prod.fst ∧
      ∀ (i : ℕ) (p : String × Ret K), d[i]? = some p →
        ∃ s, d'[i]? = some (p.1, s) ∧ IsSqueezed p.2 s) ∧
    squeezed true none (.other k) = .other k ∧ squeezed true none (.list l) = .list l := by
  have key : ∀ r : Ret K, IsSqueezed r (squeezeIfArray r) := by
    intro r
    cases r with
    | arr a => exact .inl ⟨a, _, rfl, rfl, rfl, rfl⟩
    | _ => exact .inr ⟨by simp, rfl⟩
  refine ⟨⟨_, rfl, by simp, fun i r h => ⟨_, ?_, key r⟩⟩,
    ⟨_, rfl, ?_, fun i p h => ⟨_, ?_, key p.2⟩⟩, rfl, rfl⟩
  · rw [List.getElem?_map, h]
    rfl
  · simp
  · rw [List.getElem?_map, h]
    rfl

/-- C76 fails for the kind of container: a tuple of arrays does not come back as a tuple, and a list of
arrays is not squeezed. -/
theorem C76_tuple_violated (l l' : List (Ret K)) (a : NArr K) (ha : 1 ∈ a.shape) :
    squeezed true none (.tuple l) ≠ .tuple l' ∧
    squeezed true none (.list [.arr a]) ≠ .list [.arr (npSqueeze a)] := by
  refine ⟨fun h => (by cases h), fun h => ?_⟩
  injection h with h
  injection h with h _
  injection h with h
  have h1 : a.shape = a.shape.filter (· ≠ 1) := congrArg NArr.shape h
  rw [h1] at ha
  simp at ha

example : squeezed true none (.arr (⟨[1, 2, 1], [5, 7]⟩ : NArr ℕ)) = .arr ⟨[2], [5, 7]⟩ := rfl

end

end Verif.Lin.Props
