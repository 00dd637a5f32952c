import Verif.Props.QuadAccuracy
import Mathlib.LinearAlgebra.Lagrange
import Mathlib.LinearAlgebra.FiniteDimensional.Lemmas
import Mathlib.RingTheory.Polynomial.Basic
import Mathlib.Topology.Order.IntermediateValue
import Mathlib.Topology.Algebra.Polynomial

/-! # There are Gauss rules with any number of points -/

set_option linter.unusedSectionVars false

namespace Verif.Numint.Props
open Verif Verif.Numint MeasureTheory Set Polynomial

/-- The integral of a polynomial over the interval. -/
noncomputable def II1 : ℝ[X] →ₗ[ℝ] ℝ where
  toFun p := ∫ x in (-1 : ℝ)..1, p.eval x
  map_add' p q := by
    simp only [eval_add]
    exact intervalIntegral.integral_add (p.continuous_aeval.intervalIntegrable _ _ : IntervalIntegrable (fun x => p.eval x) _ _ _)
      (q.continuous_aeval.intervalIntegrable _ _ : IntervalIntegrable (fun x => q.eval x) _ _ _)
  map_smul' c p := by
    simp only [eval_smul, smul_eq_mul, RingHom.id_apply]
    exact intervalIntegral.integral_const_mul _ _

theorem eval_cont (p : ℝ[X]) : Continuous fun x => p.eval x := p.continuous

theorem II1_pos {p : ℝ[X]} (hp : ∀ x ∈ II, 0 ≤ p.eval x) (h0 : II1 p = 0) : p = 0 := by
  by_contra hne
  have : ∃ c ∈ Icc (-1 : ℝ) 1, 0 < p.eval c := by
    by_contra hc
    push Not at hc
    refine hne (Polynomial.eq_zero_of_infinite_isRoot p ?_)
    refine Infinite.mono (fun x hx => ?_) (Icc_infinite (show (-1 : ℝ) < 1 by norm_num))
    exact le_antisymm (hc x hx) (hp x hx)
  have := intervalIntegral.integral_pos (show (-1 : ℝ) < 1 by norm_num) (eval_cont p).continuousOn
    (fun x hx => hp x ⟨hx.1.le, hx.2⟩) this
  exact this.ne' h0

/-- A polynomial of degree at most `n` that is orthogonal to those of lower degree. -/
theorem exists_orthogonal (n : ℕ) :
    ∃ q : ℝ[X], q ≠ 0 ∧ q.natDegree ≤ n ∧ ∀ r : ℝ[X], r.degree < n → II1 (q * r) = 0 := by
  let e := (degreeLTEquiv ℝ (n + 1)).symm
  let L : (Fin (n + 1) → ℝ) →ₗ[ℝ] (Fin n → ℝ) := LinearMap.pi fun k =>
    II1 ∘ₗ (LinearMap.mulRight ℝ (X ^ (k : ℕ) : ℝ[X])) ∘ₗ (degreeLT ℝ (n + 1)).subtype ∘ₗ e.toLinearMap
  have hk : LinearMap.ker L ≠ ⊥ := LinearMap.ker_ne_bot_of_finrank_lt (by simp)
  obtain ⟨c, hc, hc0⟩ := Submodule.exists_mem_ne_zero_of_ne_bot hk
  have hq0 : (e c : ℝ[X]) ≠ 0 := by
    intro h
    exact hc0 (e.map_eq_zero_iff.mp (Subtype.ext h))
  have hdeg : (e c : ℝ[X]).degree < (n + 1 : ℕ) := mem_degreeLT.mp (e c).2
  refine ⟨e c, hq0, ?_, fun r hr => ?_⟩
  · exact Nat.lt_succ_iff.mp ((natDegree_lt_iff_degree_lt hq0).mpr hdeg)
  · have hz : ∀ k < n, II1 ((e c : ℝ[X]) * X ^ k) = 0 := fun k hk => congrFun (LinearMap.mem_ker.mp hc) ⟨k, hk⟩
    rcases eq_or_ne r 0 with rfl | hr0
    · simp
    have hn : r.natDegree < n := (natDegree_lt_iff_degree_lt hr0).mpr hr
    rw [r.as_sum_range' n hn, Finset.mul_sum, map_sum]
    refine Finset.sum_eq_zero fun k hk => ?_
    rw [← C_mul_X_pow_eq_monomial, mul_left_comm, ← smul_eq_C_mul, map_smul, hz k (Finset.mem_range.mp hk), smul_zero]

section
variable {n : ℕ} {q : ℝ[X]} (hq0 : q ≠ 0) (hqn : q.natDegree ≤ n) (hq : ∀ r : ℝ[X], r.degree < n → II1 (q * r) = 0)

include hq0 hqn hq

/-- An orthogonal polynomial has no factors that do not change sign. -/
theorem no_sign {t : ℝ[X]} (ht : t ∣ q) (hs : (∀ x ∈ II, 0 ≤ t.eval x) ∨ ∀ x ∈ II, t.eval x ≤ 0) :
    t.natDegree = 0 := by
  obtain ⟨s, rfl⟩ := ht
  by_contra hd
  have ht0 : t ≠ 0 := left_ne_zero_of_mul hq0
  have hs0 : s ≠ 0 := right_ne_zero_of_mul hq0
  rw [natDegree_mul ht0 hs0] at hqn
  have h := hq s ((natDegree_lt_iff_degree_lt hs0).mp (by omega))
  have hne : t * s * s ≠ 0 := mul_ne_zero hq0 hs0
  rcases hs with hs | hs
  · refine hne (II1_pos (fun x hx => ?_) h)
    rw [mul_assoc, eval_mul, eval_mul]
    exact mul_nonneg (hs x hx) (mul_self_nonneg _)
  · refine neg_ne_zero.mpr hne (II1_pos (fun x hx => ?_) (by rw [map_neg, h, neg_zero]))
    rw [mul_assoc, eval_neg, eval_mul, eval_mul, Left.nonneg_neg_iff]
    exact mul_nonpos_of_nonpos_of_nonneg (hs x hx) (mul_self_nonneg _)

theorem orth_degree : q.natDegree = n := by
  by_contra hd
  have h := hq q ((natDegree_lt_iff_degree_lt hq0).mp (by omega))
  exact mul_ne_zero hq0 hq0 (II1_pos (fun x _ => by rw [eval_mul]; exact mul_self_nonneg _) h)

/-- It has as many different roots in the interval as its degree says. -/
theorem orth_roots : q.roots.Nodup ∧ q.roots.card = n ∧ ∀ a ∈ q.roots, a ∈ II := by
  refine ⟨?_, ?_, ?_⟩
  · rw [Multiset.nodup_iff_count_le_one]
    intro a
    by_contra hc
    rw [count_roots, not_le] at hc
    have hd : (X - C a) ^ 2 ∣ q := (le_rootMultiplicity_iff hq0).mp hc
    have := no_sign hq0 hqn hq hd (.inl fun x _ => by rw [eval_pow]; exact sq_nonneg _)
    rw [natDegree_pow, natDegree_X_sub_C] at this
    omega
  · obtain ⟨s, h1, h2, h3⟩ := exists_prod_multiset_X_sub_C_mul q
    have hs0 : s ≠ 0 := by
      rintro rfl
      rw [mul_zero] at h1
      exact hq0 h1.symm
    have hr : ∀ x, s.eval x ≠ 0 := by
      intro x hx
      have : x ∈ s.roots := (mem_roots hs0).mpr hx
      rw [h3] at this
      simp at this
    have hs : (∀ x ∈ II, 0 ≤ s.eval x) ∨ ∀ x ∈ II, s.eval x ≤ 0 := by
      by_contra hc
      push Not at hc
      obtain ⟨⟨a, -, ha⟩, b, -, hb⟩ := hc
      obtain ⟨c, hc⟩ := mem_range_of_exists_le_of_exists_ge (eval_cont s) ⟨a, ha.le⟩ ⟨b, hb.le⟩
      exact hr c hc
    have := no_sign hq0 hqn hq (Dvd.intro_left _ h1) hs
    rw [this, add_zero, orth_degree hq0 hqn hq] at h2
    exact h2
  · intro a ha
    have hd : X - C a ∣ q := dvd_iff_isRoot.mpr (isRoot_of_mem_roots ha)
    by_contra hc
    have : (X - C a).natDegree = 0 := by
      refine no_sign hq0 hqn hq hd ?_
      simp only [eval_sub, eval_X, eval_C]
      rw [mem_Icc, not_and_or, not_le, not_le] at hc
      rcases hc with h | h
      · exact .inl fun x hx => by linarith [hx.1]
      · exact .inr fun x hx => by linarith [hx.2]
    rw [natDegree_X_sub_C] at this
    exact one_ne_zero this

end

/-- There is a Gauss rule with `n` points. -/
theorem gauss_exists (n : ℕ) : ∃ rule, IsGauss rule n := by
  obtain ⟨q, hq0, hqn, hq⟩ := exists_orthogonal n
  obtain ⟨hnd, hcard, hin⟩ := orth_roots hq0 hqn hq
  have hdeg := orth_degree hq0 hqn hq
  set s := q.roots.toFinset with hs
  have hsc : s.card = n := by rw [hs, Multiset.toFinset_card_of_nodup hnd, hcard]
  have hinj : InjOn (id : ℝ → ℝ) s := injOn_id _
  let w : ℝ → ℝ := fun a => II1 (Lagrange.basis s id a)
  have low : ∀ p : ℝ[X], p.degree < n → II1 p = ∑ a ∈ s, w a * p.eval a := by
    intro p hp
    conv_lhs => rw [Lagrange.eq_interpolate (f := p) hinj (by rw [hsc]; exact hp)]
    rw [Lagrange.interpolate_apply, map_sum]
    refine Finset.sum_congr rfl fun a _ => ?_
    rw [← smul_eq_C_mul, map_smul, smul_eq_mul, mul_comm]
    rfl
  have high : ∀ p : ℝ[X], p.degree < (2 * n : ℕ) → II1 p = ∑ a ∈ s, w a * p.eval a := by
    intro p hp
    have hdm := EuclideanDomain.div_add_mod p q
    have hqd : q.degree = n := by rw [degree_eq_natDegree hq0, hdeg]
    have hmod : (p % q).degree < n := by
      rw [← hqd]
      exact EuclideanDomain.mod_lt p hq0
    have hdiv : (p / q).degree < n := by
      rcases eq_or_ne (p / q) 0 with h | h
      · rw [h, degree_zero]
        exact WithBot.bot_lt_coe n
      · have hd : (q * (p / q)).degree < (2 * n : ℕ) := by
          rw [eq_sub_of_add_eq hdm]
          refine (degree_sub_le _ _).trans_lt (max_lt hp (hmod.trans_le ?_))
          exact_mod_cast (by omega : n ≤ 2 * n)
        have h2 := (natDegree_lt_iff_degree_lt (mul_ne_zero hq0 h)).mpr hd
        rw [natDegree_mul hq0 h, hdeg] at h2
        exact (natDegree_lt_iff_degree_lt h).mp (by omega)
    have e1 : II1 p = II1 (p % q) := by
      conv_lhs => rw [← hdm]
      rw [map_add, hq _ hdiv, zero_add]
    rw [e1, low _ hmod]
    refine Finset.sum_congr rfl fun a ha => ?_
    have hroot : q.eval a = 0 := isRoot_of_mem_roots (Multiset.mem_toFinset.mp ha)
    have : p.eval a = (p % q).eval a := by
      conv_lhs => rw [← hdm]
      rw [eval_add, eval_mul, hroot, zero_mul, zero_add]
    rw [this]
  refine ⟨s.toList.map fun a => (a, w a), ?_, ?_, ?_, ?_⟩
  · rw [List.length_map, Finset.length_toList, hsc]
  · intro p hp
    obtain ⟨a, ha, rfl⟩ := List.mem_map.mp hp
    exact hin a (Multiset.mem_toFinset.mp (Finset.mem_toList.mp ha))
  · intro p hp
    obtain ⟨a, ha, rfl⟩ := List.mem_map.mp hp
    have ha := Finset.mem_toList.mp ha
    have hpos : 0 < n := hsc ▸ Finset.card_pos.mpr ⟨a, ha⟩
    have h := high (Lagrange.basis s id a * Lagrange.basis s id a) (by
      rw [degree_mul, Lagrange.degree_basis hinj ha, hsc, ← Nat.cast_add]
      exact_mod_cast (by omega : n - 1 + (n - 1) < 2 * n))
    rw [Finset.sum_eq_single a] at h
    · have e : (Lagrange.basis s id a).eval a = 1 := Lagrange.eval_basis_self hinj ha
      rw [eval_mul, e, mul_one, mul_one] at h
      show 0 ≤ w a
      rw [← h]
      exact intervalIntegral.integral_nonneg (by norm_num) fun x _ => by rw [eval_mul]; exact mul_self_nonneg _
    · intro b hb hba
      have e : (Lagrange.basis s id a).eval b = 0 := Lagrange.eval_basis_of_ne (v := id) hba.symm hb
      rw [eval_mul, e, mul_zero, mul_zero]
    · exact fun h => absurd ha h
  · intro k hk
    have h := high (X ^ k) (by rw [degree_X_pow]; exact_mod_cast hk)
    have e : II1 (X ^ k) = ∫ x in (-1 : ℝ)..1, x ^ k := by
      show ∫ x in (-1 : ℝ)..1, (X ^ k : ℝ[X]).eval x = _
      simp
    rw [← e, h]
    unfold quad1
    rw [List.map_map]
    simp only [eval_pow, eval_X]
    exact Finset.sum_map_toList s _

theorem quad1_poly {rule : List (ℝ × ℝ)} {N : ℕ}
    (h : ∀ k < N, quad1 rule (fun x => x ^ k) = ∫ x in (-1 : ℝ)..1, x ^ k) {p : ℝ[X]} (hp : p.degree < N) :
    quad1 rule (fun x => p.eval x) = II1 p := by
  rcases eq_or_ne p 0 with rfl | hp0
  · simp [quad1]
  have hn := (natDegree_lt_iff_degree_lt hp0).mpr hp
  have e : ∀ f : ℝ → ℝ, quad1 rule f = quad (rule.map Prod.fst) (rule.map Prod.snd) f := by
    intro f
    unfold quad quad1
    rw [zip_rule]
  have h1 : (fun x => p.eval x) = fun x => ∑ k ∈ Finset.range N, p.coeff k * x ^ k :=
    funext fun x => eval_eq_sum_range' hn x
  rw [e, h1, quad_sum]
  conv_rhs => rw [p.as_sum_range' N hn]
  rw [map_sum]
  refine Finset.sum_congr rfl fun k hk => ?_
  rw [quad_mul, ← e, h k (Finset.mem_range.mp hk), ← C_mul_X_pow_eq_monomial, ← smul_eq_C_mul, map_smul, smul_eq_mul]
  show _ = _ * ∫ x in (-1 : ℝ)..1, (X ^ k : ℝ[X]).eval x
  simp

theorem quad1_single {l : List (ℝ × ℝ)} (hn : (l.map Prod.fst).Nodup) {a w : ℝ} (ha : (a, w) ∈ l) {g : ℝ → ℝ}
    (h1 : g a = 1) (h0 : ∀ p ∈ l, p.1 ≠ a → g p.1 = 0) : quad1 l g = w := by
  unfold quad1
  induction l with
  | nil => cases ha
  | cons p l ih =>
    rw [List.map_cons, List.nodup_cons] at hn
    rw [List.map_cons, List.sum_cons]
    rcases List.mem_cons.mp ha with rfl | ha
    · have : (l.map fun p => p.2 * g p.1).sum = 0 := by
        refine List.sum_eq_zero fun x hx => ?_
        obtain ⟨p, hp, rfl⟩ := List.mem_map.mp hx
        rw [h0 p (List.mem_cons_of_mem _ hp) fun e => hn.1 ?_, mul_zero]
        exact List.mem_map.mpr ⟨p, hp, e⟩
      rw [this, h1]
      simp
    · rw [ih hn.2 ha fun p hp => h0 p (List.mem_cons_of_mem _ hp), h0 p List.mem_cons_self fun e => hn.1 ?_, mul_zero,
        zero_add]
      rw [e]
      exact List.mem_map_of_mem (f := Prod.fst) ha

/-- The points of an exact rule. -/
noncomputable abbrev nodes (rule : List (ℝ × ℝ)) : Finset ℝ := (rule.map Prod.fst).toFinset

/-- What is known about a rule with `n` points that is exact up to the degree `2 n - 1`. -/
theorem gauss_nodes {rule : List (ℝ × ℝ)} {n : ℕ} (hl : rule.length = n)
    (h : ∀ k < 2 * n, quad1 rule (fun x => x ^ k) = ∫ x in (-1 : ℝ)..1, x ^ k) :
    (rule.map Prod.fst).Nodup ∧ (nodes rule).card = n ∧
      (∀ r : ℝ[X], r.degree < n → II1 (Lagrange.nodal (nodes rule) id * r) = 0) ∧
      (∀ p ∈ rule, p.1 ∈ II) ∧
      ∀ p ∈ rule, p.2 = II1 (Lagrange.basis (nodes rule) id p.1 * Lagrange.basis (nodes rule) id p.1) := by
  set T := nodes rule with hTdef
  have hT : T.card ≤ n := by
    refine (List.toFinset_card_le _).trans ?_
    rw [List.length_map, hl]
  let q : ℝ[X] := Lagrange.nodal T id
  have hq0 : q ≠ 0 := Lagrange.nodal_ne_zero
  have hqd : q.natDegree = T.card := Lagrange.natDegree_nodal
  have hroot : ∀ p ∈ rule, q.eval p.1 = 0 := fun p hp =>
    Lagrange.eval_nodal_at_node (v := id) (List.mem_toFinset.mpr (List.mem_map_of_mem hp))
  have hq : ∀ r : ℝ[X], r.degree < n → II1 (q * r) = 0 := by
    intro r hr
    rcases eq_or_ne r 0 with rfl | hr0
    · simp
    have hd : (q * r).degree < (2 * n : ℕ) := by
      refine (natDegree_lt_iff_degree_lt (mul_ne_zero hq0 hr0)).mp ?_
      rw [natDegree_mul hq0 hr0]
      have := (natDegree_lt_iff_degree_lt hr0).mpr hr
      omega
    rw [← quad1_poly h hd]
    refine List.sum_eq_zero fun x hx => ?_
    obtain ⟨p, hp, rfl⟩ := List.mem_map.mp hx
    show p.2 * (q * r).eval p.1 = 0
    rw [eval_mul, hroot p hp, zero_mul, mul_zero]
  have hqn : q.natDegree ≤ n := hqd.trans_le hT
  have hc : T.card = n := hqd.symm.trans (orth_degree hq0 hqn hq)
  have hnd : (rule.map Prod.fst).Nodup := by
    have : (↑(rule.map Prod.fst) : Multiset ℝ).Nodup := by
      rw [← Multiset.toFinset_card_eq_card_iff_nodup]
      show T.card = _
      rw [hc, Multiset.coe_card, List.length_map, hl]
    exact this
  have hinj : InjOn (id : ℝ → ℝ) T := injOn_id _
  refine ⟨hnd, hc, hq, fun p hp => ?_, fun p hp => ?_⟩
  · exact (orth_roots hq0 hqn hq).2.2 p.1 ((mem_roots hq0).mpr (hroot p hp))
  · have ha : p.1 ∈ T := List.mem_toFinset.mpr (List.mem_map_of_mem hp)
    have hpos : 0 < n := hc ▸ Finset.card_pos.mpr ⟨_, ha⟩
    let b := Lagrange.basis T id p.1
    have hb1 : b.eval p.1 = 1 := Lagrange.eval_basis_self (v := id) hinj ha
    have e := quad1_poly h (p := b * b) (by
      rw [degree_mul, Lagrange.degree_basis hinj ha, hc, ← Nat.cast_add]
      exact_mod_cast (by omega : n - 1 + (n - 1) < 2 * n))
    rw [quad1_single hnd (a := p.1) (w := p.2) hp (by rw [eval_mul, hb1, mul_one]) fun p' hp' hne => by
      have : b.eval p'.1 = 0 :=
        Lagrange.eval_basis_of_ne (v := id) hne.symm (List.mem_toFinset.mpr (List.mem_map_of_mem hp'))
      rw [eval_mul, this, mul_zero]] at e
    exact e

/-- A rule with `n` points that is exact up to the degree `2 n - 1` has its points in the interval and weights that are
not negative. -/
theorem gauss_of_exact {rule : List (ℝ × ℝ)} {n : ℕ} (hl : rule.length = n)
    (h : ∀ k < 2 * n, quad1 rule (fun x => x ^ k) = ∫ x in (-1 : ℝ)..1, x ^ k) : IsGauss rule n := by
  obtain ⟨-, -, -, h4, h5⟩ := gauss_nodes hl h
  refine ⟨hl, h4, fun p hp => ?_, h⟩
  rw [h5 p hp]
  exact intervalIntegral.integral_nonneg (by norm_num) fun x _ => by rw [eval_mul]; exact mul_self_nonneg _

/-- There is one rule only, up to the order of its points. -/
theorem gauss_unique {r r' : List (ℝ × ℝ)} {n : ℕ} (g : IsGauss r n) (g' : IsGauss r' n) : r.Perm r' := by
  obtain ⟨a1, a2, a3, a4, a5⟩ := gauss_nodes g.size g.exact
  obtain ⟨b1, b2, b3, b4, b5⟩ := gauss_nodes g'.size g'.exact
  have hq : Lagrange.nodal (nodes r) (id : ℝ → ℝ) = Lagrange.nodal (nodes r') id := by
    have hd : (Lagrange.nodal (nodes r) (id : ℝ → ℝ) - Lagrange.nodal (nodes r') id).degree < n := by
      have := degree_sub_lt_left (p := Lagrange.nodal (nodes r) (id : ℝ → ℝ)) (q := Lagrange.nodal (nodes r') id)
        (by rw [Lagrange.degree_nodal, Lagrange.degree_nodal, a2, b2]) Lagrange.nodal_ne_zero
        (by rw [Lagrange.nodal_monic.leadingCoeff, Lagrange.nodal_monic.leadingCoeff])
      rwa [Lagrange.degree_nodal, a2] at this
    have h := congrArg₂ (· - ·) (a3 _ hd) (b3 _ hd)
    simp only [sub_self] at h
    rw [← map_sub, ← sub_mul] at h
    have := II1_pos (fun x _ => by rw [eval_mul]; exact mul_self_nonneg _) h
    exact sub_eq_zero.mp (mul_self_eq_zero.mp this)
  have hT : nodes r = nodes r' := by
    ext x
    have e : ∀ T : Finset ℝ, x ∈ T ↔ (Lagrange.nodal T (id : ℝ → ℝ)).eval x = 0 := by
      intro T
      rw [Lagrange.eval_nodal, Finset.prod_eq_zero_iff]
      constructor
      · exact fun h => ⟨x, h, sub_self _⟩
      · rintro ⟨y, hy, h⟩
        rwa [sub_eq_zero.mp h]
    rw [e, e, hq]
  have sub : ∀ {s s' : List (ℝ × ℝ)}, nodes s = nodes s' →
      (∀ p ∈ s, p.2 = II1 (Lagrange.basis (nodes s) id p.1 * Lagrange.basis (nodes s) id p.1)) →
      (∀ p ∈ s', p.2 = II1 (Lagrange.basis (nodes s') id p.1 * Lagrange.basis (nodes s') id p.1)) →
      ∀ p ∈ s, p ∈ s' := by
    intro s s' hs h1 h2 p hp
    have : p.1 ∈ nodes s' := hs ▸ List.mem_toFinset.mpr (List.mem_map_of_mem hp)
    obtain ⟨p', hp', e⟩ := List.mem_map.mp (List.mem_toFinset.mp this)
    have : p' = p := Prod.ext e (by rw [h2 p' hp', h1 p hp, e, hs])
    rwa [← this]
  exact (List.perm_ext_iff_of_nodup (List.Nodup.of_map _ a1) (List.Nodup.of_map _ b1)).mpr fun p =>
    ⟨sub hT a5 b5 p, sub hT.symm b5 a5 p⟩

end Verif.Numint.Props
