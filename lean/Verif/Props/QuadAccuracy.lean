import Verif.Proofs.QuadAccuracy

/-! # C143: Gauss quadrature is exact for polynomials and close to the integral of continuous functions -/

set_option linter.unusedSectionVars false

namespace Verif.Numint.Props
open Verif Verif.Numint MeasureTheory Set

/-- What the documentation of numpy promises about `leggauss(n)`: `n` points in the interval with weights that are not
negative, and exact integrals of the powers up to `2 n - 1`. -/
structure IsGauss (rule : List (ℝ × ℝ)) (n : ℕ) : Prop where
  size : rule.length = n
  inside : ∀ q ∈ rule, q.1 ∈ II
  weights : ∀ q ∈ rule, 0 ≤ q.2
  exact : ∀ k < 2 * n, quad1 rule (fun x => x ^ k) = ∫ x in (-1 : ℝ)..1, x ^ k

section
variable {lg : LegGauss ℝ} {n1 n2 n3 : ℕ}

theorem quad1_one {r : List (ℝ × ℝ)} {n : ℕ} (h : IsGauss r n) (hn : 0 < n) : quad1 r (fun _ => 1) = 2 := by
  have := h.exact 0 (by omega)
  simp only [pow_zero] at this
  rw [this, intervalIntegral.integral_const]
  norm_num

theorem one_form (h1 : 0 < n1) :
    gaussPoints lg [n1] = .ok (.one ((lg n1).map Prod.fst, (lg n1).map Prod.snd)) := by
  simp [gaussPoints, gaussPoints1d, h1.ne', Except.map]

theorem zip_rule (r : List (ℝ × ℝ)) : (r.map Prod.fst).zip (r.map Prod.snd) = r := columns_eq r

theorem mem_two {γ δ : Type} {xs : List γ} {ys : List δ} {q : γ × δ} (h : q ∈ pairs xs ys) : q.1 ∈ xs ∧ q.2 ∈ ys := by
  unfold pairs at h
  obtain ⟨a, ha, hq⟩ := List.mem_flatMap.mp h
  obtain ⟨b, hb, rfl⟩ := List.mem_map.mp hq
  exact ⟨ha, hb⟩

/-- The points of the two dimensional rule are in the square, the weights are not negative. -/
theorem two_mem (g1 : IsGauss (lg n1) n1) (g2 : IsGauss (lg n2) n2) (h1 : 0 < n1) (h2 : 0 < n2) :
    ∃ pos w, gaussPoints lg [n1, n2] = .ok (.two pos w) ∧ (∀ q ∈ pos.zip w, q.1 ∈ II ×ˢ II ∧ 0 ≤ q.2) ∧
      ∀ f g : ℝ → ℝ, quad pos w (fun p => f p.1 * g p.2) = quad1 (lg n1) f * quad1 (lg n2) g := by
  have e := (C59_two lg n1 n2 h1 h2 g1.size g2.size).1
  refine ⟨_, _, e, fun q hq => ?_, fun f g => ?_⟩
  · rw [List.zip_map'] at hq
    obtain ⟨p, hp, rfl⟩ := List.mem_map.mp hq
    obtain ⟨a, b⟩ := mem_two hp
    exact ⟨⟨g1.inside p.1 a, g2.inside p.2 b⟩, mul_nonneg (g1.weights _ a) (g2.weights _ b)⟩
  · obtain ⟨pos, w, e', hp⟩ := (C59_product lg n1 n2 n1 h1 h2 h1 g1.size g2.size g1.size f g f).1
    rw [e] at e'
    cases e'
    exact hp

/-- The same for the three dimensional rule. -/
theorem three_mem (g1 : IsGauss (lg n1) n1) (g2 : IsGauss (lg n2) n2) (g3 : IsGauss (lg n3) n3) (h1 : 0 < n1)
    (h2 : 0 < n2) (h3 : 0 < n3) :
    ∃ pos w, gaussPoints lg [n1, n2, n3] = .ok (.three pos w) ∧
      (∀ q ∈ pos.zip w, q.1 ∈ II ×ˢ II ×ˢ II ∧ 0 ≤ q.2) ∧
      ∀ f g h : ℝ → ℝ, quad pos w (fun p => f p.1 * g p.2.1 * h p.2.2) =
        quad1 (lg n1) f * quad1 (lg n2) g * quad1 (lg n3) h := by
  have e := (C59_three lg n1 n2 n3 h1 h2 h3 g1.size g2.size g3.size).1
  refine ⟨_, _, e, fun q hq => ?_, fun f g h => ?_⟩
  · rw [List.zip_map'] at hq
    obtain ⟨p, hp, rfl⟩ := List.mem_map.mp hq
    obtain ⟨a, b⟩ := mem_two hp
    obtain ⟨b, c⟩ := mem_two b
    exact ⟨⟨g1.inside p.1 a, g2.inside p.2.1 b, g3.inside p.2.2 c⟩,
      mul_nonneg (mul_nonneg (g1.weights _ a) (g2.weights _ b)) (g3.weights _ c)⟩
  · obtain ⟨pos, w, e', hp⟩ := (C59_product lg n1 n2 n3 h1 h2 h3 g1.size g2.size g3.size f g h).2
    rw [e] at e'
    cases e'
    exact hp

open MvPolynomial in
/-- C143: in one, two and three dimensions polynomials of degree below `2 n` in each of the variables are integrated
exactly. -/
theorem C143_polynomials (g1 : IsGauss (lg n1) n1) (g2 : IsGauss (lg n2) n2) (g3 : IsGauss (lg n3) n3) (h1 : 0 < n1)
    (h2 : 0 < n2) (h3 : 0 < n3) :
    (∃ pos w, gaussPoints lg [n1] = .ok (.one (pos, w)) ∧ ∀ P : MvPolynomial (Fin 1) ℝ, degreeOf 0 P < 2 * n1 →
      quad pos w (fun x => eval ![x] P) = ∫ x in (-1 : ℝ)..1, eval ![x] P) ∧
    (∃ pos w, gaussPoints lg [n1, n2] = .ok (.two pos w) ∧ ∀ P : MvPolynomial (Fin 2) ℝ, degreeOf 0 P < 2 * n1 →
      degreeOf 1 P < 2 * n2 → quad pos w (fun p => eval ![p.1, p.2] P) = int2 fun p => eval ![p.1, p.2] P) ∧
    (∃ pos w, gaussPoints lg [n1, n2, n3] = .ok (.three pos w) ∧ ∀ P : MvPolynomial (Fin 3) ℝ,
      degreeOf 0 P < 2 * n1 → degreeOf 1 P < 2 * n2 → degreeOf 2 P < 2 * n3 →
      quad pos w (fun p => eval ![p.1, p.2.1, p.2.2] P) = int3 fun p => eval ![p.1, p.2.1, p.2.2] P) := by
  refine ⟨⟨_, _, one_form h1, fun P hP => ?_⟩, ?_, ?_⟩
  · simp only [eval_eq', Fin.prod_univ_one, Matrix.cons_val_zero]
    rw [int1_terms, quad_sum]
    refine Finset.sum_congr rfl fun m hm => ?_
    rw [quad_mul]
    have := g1.exact (m 0) ((monomial_le_degreeOf 0 hm).trans_lt hP)
    unfold quad
    rw [zip_rule]
    exact congrArg _ this
  · obtain ⟨pos, w, e, -, hp⟩ := two_mem g1 g2 h1 h2
    refine ⟨pos, w, e, fun P hP hQ => ?_⟩
    simp only [eval_eq', Fin.prod_univ_two, Matrix.cons_val_zero, Matrix.cons_val_one]
    rw [int2_terms, quad_sum]
    refine Finset.sum_congr rfl fun m hm => ?_
    rw [quad_mul, hp (fun x => x ^ m 0) (fun y => y ^ m 1), g1.exact _ ((monomial_le_degreeOf 0 hm).trans_lt hP),
      g2.exact _ ((monomial_le_degreeOf 1 hm).trans_lt hQ)]
  · obtain ⟨pos, w, e, -, hp⟩ := three_mem g1 g2 g3 h1 h2 h3
    refine ⟨pos, w, e, fun P hP hQ hR => ?_⟩
    simp only [eval_eq', Fin.prod_univ_three, Matrix.cons_val_zero, Matrix.cons_val_one, Matrix.cons_val]
    rw [int3_terms, quad_sum]
    refine Finset.sum_congr rfl fun m hm => ?_
    rw [quad_mul, hp (fun x => x ^ m 0) (fun y => y ^ m 1) (fun z => z ^ m 2),
      g1.exact _ ((monomial_le_degreeOf 0 hm).trans_lt hP), g2.exact _ ((monomial_le_degreeOf 1 hm).trans_lt hQ),
      g3.exact _ ((monomial_le_degreeOf 2 hm).trans_lt hR)]

open MvPolynomial in
/-- C143: the quadrature of a continuous function differs from its integral by at most twice the size of the interval,
square or cube, times the distance from any polynomial that is integrated exactly. -/
theorem C143_accuracy (g1 : IsGauss (lg n1) n1) (g2 : IsGauss (lg n2) n2) (g3 : IsGauss (lg n3) n3) (h1 : 0 < n1)
    (h2 : 0 < n2) (h3 : 0 < n3) :
    (∃ pos w, gaussPoints lg [n1] = .ok (.one (pos, w)) ∧ ∀ (P : MvPolynomial (Fin 1) ℝ) (f : ℝ → ℝ) (E : ℝ),
      degreeOf 0 P < 2 * n1 → ContinuousOn f II → (∀ x ∈ II, |f x - eval ![x] P| ≤ E) →
      |quad pos w f - ∫ x in (-1 : ℝ)..1, f x| ≤ 4 * E) ∧
    (∃ pos w, gaussPoints lg [n1, n2] = .ok (.two pos w) ∧ ∀ (P : MvPolynomial (Fin 2) ℝ) (f : ℝ × ℝ → ℝ) (E : ℝ),
      degreeOf 0 P < 2 * n1 → degreeOf 1 P < 2 * n2 → ContinuousOn f (II ×ˢ II) →
      (∀ p ∈ II ×ˢ II, |f p - eval ![p.1, p.2] P| ≤ E) → |quad pos w f - int2 f| ≤ 8 * E) ∧
    (∃ pos w, gaussPoints lg [n1, n2, n3] = .ok (.three pos w) ∧
      ∀ (P : MvPolynomial (Fin 3) ℝ) (f : ℝ × ℝ × ℝ → ℝ) (E : ℝ),
      degreeOf 0 P < 2 * n1 → degreeOf 1 P < 2 * n2 → degreeOf 2 P < 2 * n3 → ContinuousOn f (II ×ˢ II ×ˢ II) →
      (∀ p ∈ II ×ˢ II ×ˢ II, |f p - eval ![p.1, p.2.1, p.2.2] P| ≤ E) → |quad pos w f - int3 f| ≤ 16 * E) := by
  obtain ⟨⟨pos1, w1, e1, x1⟩, ⟨pos2, w2, e2, x2⟩, pos3, w3, e3, x3⟩ := C143_polynomials g1 g2 g3 h1 h2 h3
  refine ⟨⟨pos1, w1, e1, fun P f E hP hf hE => ?_⟩, ⟨pos2, w2, e2, fun P f E hP hQ hf hE => ?_⟩,
    ⟨pos3, w3, e3, fun P f E hP hQ hR hf hE => ?_⟩⟩
  · rw [one_form h1] at e1
    cases e1
    obtain ⟨F, hF⟩ := extend1 hf
    have a := quad_close (pos := (lg n1).map Prod.fst) (w := (lg n1).map Prod.snd) (f := f) (g := fun x => eval ![x] P)
      (E := E) (V := 2) (fun q hq => by
        rw [zip_rule] at hq
        exact ⟨g1.weights q hq, hE _ (g1.inside q hq)⟩) (by
        unfold quad
        rw [zip_rule]
        exact quad1_one g1 h1)
    have b := int1_close (f := F) (g := fun x => eval ![x] P) F.continuous
      (by simp only [eval_eq', Fin.prod_univ_one, Matrix.cons_val_zero]; fun_prop)
      (E := E) fun x hx => by rw [hF x hx]; exact hE x hx
    rw [int1_congr hF, ← x1 P hP] at b
    rw [abs_le] at a b ⊢
    constructor <;> linarith [a.1, a.2, b.1, b.2]
  · obtain ⟨pos, w, e, hm, hp⟩ := two_mem g1 g2 h1 h2
    rw [e2] at e
    cases e
    obtain ⟨F, hF⟩ := extend2 hf
    have a := quad_close (pos := pos2) (w := w2) (f := f) (g := fun p => eval ![p.1, p.2] P) (E := E) (V := 4)
      (fun q hq => ⟨(hm q hq).2, hE _ (hm q hq).1⟩) (by
        have := hp (fun _ => 1) (fun _ => 1)
        rw [quad1_one g1 h1, quad1_one g2 h2] at this
        simp only [mul_one] at this
        rw [this]
        norm_num)
    have b := int2_close (f := F) (g := fun p => eval ![p.1, p.2] P) F.continuous
      (by simp only [eval_eq', Fin.prod_univ_two, Matrix.cons_val_zero, Matrix.cons_val_one]; fun_prop)
      (E := E) fun x hx => by rw [hF x hx]; exact hE x hx
    rw [int2_congr hF, ← x2 P hP hQ] at b
    rw [abs_le] at a b ⊢
    constructor <;> linarith [a.1, a.2, b.1, b.2]
  · obtain ⟨pos, w, e, hm, hp⟩ := three_mem g1 g2 g3 h1 h2 h3
    rw [e3] at e
    cases e
    obtain ⟨F, hF⟩ := extend3 hf
    have a := quad_close (pos := pos3) (w := w3) (f := f) (g := fun p => eval ![p.1, p.2.1, p.2.2] P) (E := E) (V := 8)
      (fun q hq => ⟨(hm q hq).2, hE _ (hm q hq).1⟩) (by
        have := hp (fun _ => 1) (fun _ => 1) (fun _ => 1)
        rw [quad1_one g1 h1, quad1_one g2 h2, quad1_one g3 h3] at this
        simp only [mul_one] at this
        rw [this]
        norm_num)
    have b := int3_close (f := F) (g := fun p => eval ![p.1, p.2.1, p.2.2] P) F.continuous
      (by simp only [eval_eq', Fin.prod_univ_three, Matrix.cons_val_zero, Matrix.cons_val_one, Matrix.cons_val]
          fun_prop)
      (E := E) fun x hx => by rw [hF x hx]; exact hE x hx
    rw [int3_congr hF, ← x3 P hP hQ hR] at b
    rw [abs_le] at a b ⊢
    constructor <;> linarith [a.1, a.2, b.1, b.2]

end

open MvPolynomial in
/-- C143: for every continuous function and every accuracy there is a number of points from which on the quadrature is
that accurate, in one, two and three dimensions. -/
theorem C143_converges (lg : LegGauss ℝ) {ε : ℝ} (hε : 0 < ε) :
    (∀ f : ℝ → ℝ, ContinuousOn f II → ∃ m, ∀ n ≥ m, IsGauss (lg n) n →
      ∃ pos w, gaussPoints lg [n] = .ok (.one (pos, w)) ∧ |quad pos w f - ∫ x in (-1 : ℝ)..1, f x| ≤ ε) ∧
    (∀ f : ℝ × ℝ → ℝ, ContinuousOn f (II ×ˢ II) → ∃ m, ∀ n1 ≥ m, ∀ n2 ≥ m, IsGauss (lg n1) n1 → IsGauss (lg n2) n2 →
      ∃ pos w, gaussPoints lg [n1, n2] = .ok (.two pos w) ∧ |quad pos w f - int2 f| ≤ ε) ∧
    (∀ f : ℝ × ℝ × ℝ → ℝ, ContinuousOn f (II ×ˢ II ×ˢ II) → ∃ m, ∀ n1 ≥ m, ∀ n2 ≥ m, ∀ n3 ≥ m,
      IsGauss (lg n1) n1 → IsGauss (lg n2) n2 → IsGauss (lg n3) n3 →
      ∃ pos w, gaussPoints lg [n1, n2, n3] = .ok (.three pos w) ∧ |quad pos w f - int3 f| ≤ ε) := by
  have hII : IsCompact II := isCompact_Icc
  refine ⟨fun f hf => ?_, fun f hf => ?_, fun f hf => ?_⟩
  · obtain ⟨F, hF⟩ := extend1 hf
    obtain ⟨P, hP⟩ := weierstrass (d := 1) ![ContinuousMap.id ℝ] (fun p q h => h 0) F hII (E := ε / 4) (by linarith)
    refine ⟨degreeOf 0 P + 1, fun n hn g => ?_⟩
    obtain ⟨⟨pos, w, e, h⟩, -, -⟩ := C143_accuracy g g g (by omega) (by omega) (by omega)
    refine ⟨pos, w, e, (h P f (ε / 4) (by omega) hf fun x hx => ?_).trans (by linarith)⟩
    have := hP x hx
    rw [abs_sub_comm, hF x hx] at this
    convert this using 5
    ext i
    fin_cases i
    rfl
  · obtain ⟨F, hF⟩ := extend2 hf
    obtain ⟨P, hP⟩ := weierstrass (d := 2) ![⟨Prod.fst, continuous_fst⟩, ⟨Prod.snd, continuous_snd⟩]
      (fun p q h => Prod.ext (h 0) (h 1)) F (hII.prod hII) (E := ε / 8) (by linarith)
    refine ⟨degreeOf 0 P + degreeOf 1 P + 1, fun n1 hn1 n2 hn2 g1 g2 => ?_⟩
    obtain ⟨-, ⟨pos, w, e, h⟩, -⟩ := C143_accuracy g1 g2 g1 (by omega) (by omega) (by omega)
    refine ⟨pos, w, e, (h P f (ε / 8) (by omega) (by omega) hf fun x hx => ?_).trans (by linarith)⟩
    have := hP x hx
    rw [abs_sub_comm, hF x hx] at this
    convert this using 5
    ext i
    fin_cases i <;> rfl
  · obtain ⟨F, hF⟩ := extend3 hf
    obtain ⟨P, hP⟩ := weierstrass (d := 3) ![⟨fun p : ℝ × ℝ × ℝ => p.1, by fun_prop⟩,
        ⟨fun p : ℝ × ℝ × ℝ => p.2.1, by fun_prop⟩, ⟨fun p : ℝ × ℝ × ℝ => p.2.2, by fun_prop⟩]
      (fun p q h => Prod.ext (h 0) (Prod.ext (h 1) (h 2))) F (hII.prod (hII.prod hII)) (E := ε / 16) (by linarith)
    refine ⟨degreeOf 0 P + degreeOf 1 P + degreeOf 2 P + 1, fun n1 hn1 n2 hn2 n3 hn3 g1 g2 g3 => ?_⟩
    obtain ⟨-, -, pos, w, e, h⟩ := C143_accuracy g1 g2 g3 (by omega) (by omega) (by omega)
    refine ⟨pos, w, e, (h P f (ε / 16) (by omega) (by omega) (by omega) hf fun x hx => ?_).trans (by linarith)⟩
    have := hP x hx
    rw [abs_sub_comm, hF x hx] at this
    convert this using 5
    ext i
    fin_cases i <;> rfl

/-- The rule with one point. -/
theorem gauss_one : IsGauss [(0, 2)] 1 where
  size := rfl
  inside := by simp
  weights := by simp
  exact := by
    intro k hk
    interval_cases k
    · simp [quad1]; norm_num
    · simp [quad1]

/-- The rule with two points. -/
theorem gauss_two : IsGauss [(-(1 / √3), 1), (1 / √3, 1)] 2 where
  size := rfl
  inside := by
    have h : 1 / √3 ≤ 1 := by
      rw [div_le_one (by positivity)]
      exact Real.one_le_sqrt.mpr (by norm_num)
    have h0 : 0 ≤ 1 / √3 := by positivity
    intro q hq
    simp only [List.mem_cons, List.not_mem_nil, or_false] at hq
    rcases hq with rfl | rfl
    · exact ⟨by linarith, by linarith⟩
    · exact ⟨by linarith, by linarith⟩
  weights := by simp
  exact := by
    have h3 : (1 / √3) ^ 2 = 1 / 3 := by
      rw [div_pow, Real.sq_sqrt (by norm_num)]
      norm_num
    intro k hk
    rw [integral_pow]
    simp only [quad1, List.map_cons, List.map_nil, List.sum_cons, List.sum_nil, add_zero, one_mul]
    interval_cases k
    · norm_num
    · norm_num
    · rw [neg_sq, h3]; norm_num
    · rw [Odd.neg_pow (by decide)]; norm_num

/-- One point in the first direction, two in the second: `x y ^ 2` is integrated exactly. -/
example : ∃ lg : LegGauss ℝ, IsGauss (lg 1) 1 ∧ IsGauss (lg 2) 2 ∧ ∃ pos w, gaussPoints lg [1, 2] = .ok (.two pos w) ∧
    quad pos w (fun p => MvPolynomial.eval ![p.1, p.2] (MvPolynomial.X 0 * MvPolynomial.X 1 ^ 2)) =
      int2 fun p => MvPolynomial.eval ![p.1, p.2] (MvPolynomial.X 0 * MvPolynomial.X 1 ^ 2) := by
  refine ⟨fun n => if n = 1 then [(0, 2)] else [(-(1 / √3), 1), (1 / √3, 1)], gauss_one, gauss_two, ?_⟩
  obtain ⟨-, ⟨pos, w, e, h⟩, -⟩ := C143_polynomials (lg := fun n => if n = 1 then [(0, 2)] else
    [(-(1 / √3), 1), (1 / √3, 1)]) (n1 := 1) (n2 := 2) (n3 := 1) gauss_one gauss_two gauss_one one_pos two_pos one_pos
  refine ⟨pos, w, e, h _ ?_ ?_⟩
  · refine (MvPolynomial.degreeOf_mul_le _ _ _).trans_lt ?_
    have := MvPolynomial.degreeOf_pow_le (0 : Fin 2) (MvPolynomial.X 1 : MvPolynomial (Fin 2) ℝ) 2
    simp [MvPolynomial.degreeOf_X] at this ⊢
    omega
  · refine (MvPolynomial.degreeOf_mul_le _ _ _).trans_lt ?_
    have := MvPolynomial.degreeOf_pow_le (1 : Fin 2) (MvPolynomial.X 1 : MvPolynomial (Fin 2) ℝ) 2
    simp [MvPolynomial.degreeOf_X] at this ⊢

end Verif.Numint.Props
