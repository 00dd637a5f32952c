import Mathlib.Analysis.Calculus.LocalExtr.Rolle
import Mathlib.Analysis.Calculus.IteratedDeriv.Defs
import Mathlib.Analysis.Calculus.ContDiff.Deriv
import Mathlib.Analysis.Calculus.Deriv.Polynomial
import Mathlib.LinearAlgebra.Lagrange
import Mathlib.Data.Finset.Sort
import Mathlib.Tactic.FieldSimp
import Mathlib.Tactic.Linarith

/-! # The error of polynomial interpolation -/

namespace Verif.Lag
open Polynomial

/-- a function and a polynomial that agree at `n + 1` places have the same `n`-th derivative somewhere between -/
theorem agree_somewhere : ∀ (n : ℕ) (f : ℝ → ℝ) (q : ℝ[X]) (z : ℕ → ℝ), ContDiff ℝ n f → (∀ i < n, z i < z (i + 1)) →
    (∀ i ≤ n, f (z i) = q.eval (z i)) →
    ∃ ξ, z 0 ≤ ξ ∧ ξ ≤ z n ∧ iteratedDeriv n f ξ = (derivative^[n] q).eval ξ
  | 0, f, q, z, _, _, h => ⟨z 0, le_rfl, le_rfl, by simpa using h 0 le_rfl⟩
  | n + 1, f, q, z, hf, hz, h => by
    have hf' : ContDiff ℝ ((n : WithTop ℕ∞) + 1) f := by exact_mod_cast hf
    obtain ⟨hd, -, hc⟩ := contDiff_succ_iff_deriv.mp hf'
    have hroot : ∀ i, ∃ c, i ≤ n → z i < c ∧ c < z (i + 1) ∧ deriv f c = (derivative q).eval c := by
      intro i
      by_cases hi : i ≤ n
      · have hcont : ContinuousOn (fun x => f x - q.eval x) (Set.Icc (z i) (z (i + 1))) :=
          (hd.continuous.sub q.differentiable.continuous).continuousOn
        obtain ⟨c, hc1, hc2⟩ := exists_deriv_eq_zero (f := fun x => f x - q.eval x) (hz i (by omega)) hcont
          (by rw [h i (by omega), h (i + 1) (by omega)]; simp)
        refine ⟨c, fun _ => ⟨hc1.1, hc1.2, ?_⟩⟩
        have h2 : deriv (fun x => f x - q.eval x) c = deriv f c - (derivative q).eval c := by
          have h3 : HasDerivAt (fun x => f x - q.eval x) (deriv f c - (derivative q).eval c) c :=
            (hd c).hasDerivAt.sub (q.hasDerivAt c)
          exact h3.deriv
        rw [h2] at hc2
        linarith
      · exact ⟨0, fun h => absurd h hi⟩
    choose c hcs using hroot
    obtain ⟨ξ, h1, h2, h3⟩ := agree_somewhere n (deriv f) (derivative q) c hc
      (fun i hi => (hcs i (by omega)).2.1.trans (hcs (i + 1) (by omega)).1)
      (fun i hi => (hcs i hi).2.2)
    refine ⟨ξ, (hcs 0 (by omega)).1.le.trans h1, h2.trans (hcs n le_rfl).2.1.le, ?_⟩
    rw [iteratedDeriv_succ', h3]
    rfl

/-- the same for any `n + 1` places -/
theorem agree_finset {n : ℕ} {f : ℝ → ℝ} (hf : ContDiff ℝ n f) (q : ℝ[X]) (s : Finset ℝ) (hs : s.card = n + 1)
    (h : ∀ x ∈ s, f x = q.eval x) (a b : ℝ) (hab : ∀ x ∈ s, a ≤ x ∧ x ≤ b) :
    ∃ ξ, a ≤ ξ ∧ ξ ≤ b ∧ iteratedDeriv n f ξ = (derivative^[n] q).eval ξ := by
  set e := s.orderEmbOfFin hs with he
  have hmem : ∀ i, e i ∈ s := fun i => s.orderEmbOfFin_mem hs i
  obtain ⟨ξ, h1, h2, h3⟩ := agree_somewhere n f q (fun i => if hi : i < n + 1 then e ⟨i, hi⟩ else 0) hf
    (fun i hi => by
      rw [dif_pos (show i < n + 1 by omega), dif_pos (show i + 1 < n + 1 by omega)]
      exact e.strictMono (by simp))
    (fun i hi => by
      rw [dif_pos (show i < n + 1 by omega)]
      exact h _ (hmem _))
  rw [dif_pos (show 0 < n + 1 by omega)] at h1
  rw [dif_pos (show n < n + 1 by omega)] at h2
  exact ⟨ξ, (hab _ (hmem _)).1.trans h1, h2.trans (hab _ (hmem _)).2, h3⟩

theorem top_derivative {n : ℕ} {q : ℝ[X]} (hq : q.natDegree ≤ n) (ξ : ℝ) :
    (derivative^[n] q).eval ξ = n.factorial * q.coeff n := by
  have : derivative^[n] q = C ((n.factorial : ℝ) * q.coeff n) := by
    ext m
    rw [coeff_iterate_derivative, coeff_C]
    split
    · rename_i hm
      subst hm
      simp [Nat.descFactorial_self]
    · rename_i hm
      rw [coeff_eq_zero_of_natDegree_lt (by omega)]
      simp
  rw [this, eval_C]

/-- the remainder of interpolation -/
theorem remainder {s : Finset ℝ} {f : ℝ → ℝ} (hf : ContDiff ℝ s.card f) {p : ℝ[X]} (hp : p.degree < s.card)
    (h : ∀ x ∈ s, p.eval x = f x) (t a b : ℝ) (hab : ∀ x ∈ s, a ≤ x ∧ x ≤ b) (ha : a ≤ t) (hb : t ≤ b) :
    ∃ ξ, a ≤ ξ ∧ ξ ≤ b ∧
      f t - p.eval t = iteratedDeriv s.card f ξ / s.card.factorial * ∏ x ∈ s, (t - x) := by
  by_cases ht : t ∈ s
  · refine ⟨t, ha, hb, ?_⟩
    rw [h t ht, Finset.prod_eq_zero ht (sub_self t)]
    simp
  · have hw : (Lagrange.nodal s id).eval t ≠ 0 := by
      rw [Lagrange.eval_nodal]
      refine Finset.prod_ne_zero_iff.mpr fun x hx h0 => ht ?_
      have : t = x := by simpa [sub_eq_zero] using h0
      rwa [this]
    set w := (Lagrange.nodal s id).eval t with hwdef
    set c := (f t - p.eval t) / w with hc
    set q : ℝ[X] := p + C c * Lagrange.nodal s id with hq
    have hdeg : q.natDegree ≤ s.card := by
      refine (natDegree_add_le _ _).trans (max_le ?_ ?_)
      · exact natDegree_le_of_degree_le hp.le
      · exact (natDegree_C_mul_le _ _).trans (Lagrange.natDegree_nodal (s := s) (v := id)).le
    have hco : q.coeff s.card = c := by
      have h1 : p.coeff s.card = 0 := coeff_eq_zero_of_degree_lt hp
      have h2 : (Lagrange.nodal s (id : ℝ → ℝ)).coeff s.card = 1 := by
        have := (Lagrange.nodal_monic (s := s) (v := (id : ℝ → ℝ))).coeff_natDegree
        rwa [Lagrange.natDegree_nodal] at this
      rw [hq, coeff_add, coeff_C_mul, h1, h2]
      ring
    obtain ⟨ξ, h1, h2, h3⟩ := agree_finset hf q (insert t s) (Finset.card_insert_of_notMem ht)
      (by
        intro x hx
        rcases Finset.mem_insert.mp hx with rfl | hx
        · rw [hq, eval_add, eval_mul, eval_C, ← hwdef, hc]
          field_simp
          ring
        · have : (Lagrange.nodal s (id : ℝ → ℝ)).eval x = 0 :=
            Lagrange.eval_nodal_at_node (v := (id : ℝ → ℝ)) hx
          rw [hq, eval_add, eval_mul, this, h x hx]
          ring)
      a b (by
        intro x hx
        rcases Finset.mem_insert.mp hx with rfl | hx
        · exact ⟨ha, hb⟩
        · exact hab x hx)
    refine ⟨ξ, h1, h2, ?_⟩
    rw [h3, top_derivative hdeg, hco, hc]
    have hprod : ∏ x ∈ s, (t - x) = w := by rw [hwdef, Lagrange.eval_nodal]; rfl
    have hfac : (s.card.factorial : ℝ) ≠ 0 := by exact_mod_cast Nat.factorial_ne_zero _
    rw [hprod]
    field_simp

end Verif.Lag
