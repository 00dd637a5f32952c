import Verif.Props.ParallelTensors
import Mathlib.Algebra.BigOperators.Field

/-! # Parallel loops: tensors of fourth order, inverses, approximation, loops that leave their arrays (C123) -/

set_option linter.unusedSectionVars false

namespace Verif.Par.Props

open Verif.Par

section
variable {K : Type} [Field K] [LinearOrder K]

attribute [local irreducible] tr3333

/-- A row of tensors per iteration. -/
theorem tr4_grid {size : ℕ → ℕ} {N nX : ℕ} {q : ℕ → ℕ} {body : ℕ → Prog K Unit} {m0 : Mem K}
    (hbody : ∀ i, body i = loop nX fun j => tr3333 (q i) ((i * nX + j) * 81)) (hz : ∀ o, m0 (0, o) = 0)
    (h0 : size 0 = N * nX * 81) (h2 : size 2 = N * nX * 81) (hq : ∀ i < N, q i + 9 ≤ size 1) :
    Computes size N body m0 fun m =>
      (∀ i < N, ∀ j < nX, ∀ a < 3, ∀ b < 3, ∀ c < 3, ∀ d < 3,
        m (0, (i * nX + j) * 81 + (((a * 3 + b) * 3 + c) * 3 + d)) =
        ∑ p ∈ Finset.range 3, ∑ t ∈ Finset.range 3, ∑ r ∈ Finset.range 3, ∑ s ∈ Finset.range 3,
          m0 (1, q i + a * 3 + p) * m0 (1, q i + b * 3 + t) * m0 (1, q i + c * 3 + r) * m0 (1, q i + d * 3 + s) *
            m0 (2, (i * nX + j) * 81 + (((p * 3 + t) * 3 + r) * 3 + s))) ∧ ∀ l : Loc, l.1 ≠ 0 → m l = m0 l := by
  have hidx : ∀ i j : ℕ, (i * nX + j) * 81 = i * (nX * 81) + j * 81 := by intro i j; ring
  let G : ℕ → ℕ → K := fun i f =>
    ∑ e ∈ Finset.range 81, m0 (1, q i + f % 81 / 27 * 3 + e / 27) * m0 (1, q i + f % 81 / 9 % 3 * 3 + e / 9 % 3) *
        m0 (1, q i + f % 81 / 3 % 3 * 3 + e / 3 % 3) * m0 (1, q i + f % 81 % 3 * 3 + e % 3) *
          m0 (2, (i * nX + f / 81) * 81 + e)
  refine Computes.mono (computes_blocks (M := nX * 81) (g := G) fun i hi => ?_) ?_
  · rw [hbody]
    refine wp_mono _ (wp_loop nX _ (fun j y => y = written m0 (i * (nX * 81)) (j * 81) (G i)) ?_ ?_) ?_
    · rw [Nat.zero_mul, written_zero]
    · rintro j hj x rfl
      have e1 := idx_le (M := 81) (idx_lt hi hj)
      have e2 := hidx i j
      refine wp_mono _ (wp_tr3333 (m0 := m0) (hq i hi) (by omega) (by omega)
        (fun l hl => written_off _ _ _ _ _ fun hh => hl hh.1) fun r hr => ?_) ?_
      · rw [hidx, Nat.add_assoc]
        exact ownB_block (idx_lt hj hr)
      · rintro - y rfl
        funext l
        obtain ⟨a, o⟩ := l
        by_cases h1 : a = 0 ∧ (i * nX + j) * 81 ≤ o ∧ o < (i * nX + j) * 81 + 81
        · obtain ⟨rfl, ha, hb⟩ := h1
          obtain ⟨r, rfl⟩ : ∃ r, o = (i * nX + j) * 81 + r := ⟨o - (i * nX + j) * 81, by omega⟩
          have hr : r < 81 := by omega
          rw [written_at _ _ _ _ _ hr, written_off _ _ _ _ _ (by simp only; omega), hz, zero_add, hidx,
            Nat.add_assoc, written_at _ _ _ _ _ (by omega)]
          simp only [G, div_row hr, mod_row hr, hidx]
        · rw [written_off _ _ _ _ _ h1]
          unfold written
          simp only
          by_cases h3 : a = 0 ∧ i * (nX * 81) ≤ o ∧ o < i * (nX * 81) + j * 81
          · rw [if_pos h3, if_pos (by omega)]
          · rw [if_neg h3, if_neg (by omega)]
    · rintro - y rfl r hr
      exact written_at _ _ _ _ _ hr
  · rintro m ⟨hm, hr⟩
    refine ⟨fun i hi j hj a ha b hb c hc d hd => ?_, hr⟩
    have hlt : ((a * 3 + b) * 3 + c) * 3 + d < 81 := by omega
    rw [hidx, Nat.add_assoc, hm i hi _ (idx_lt hj hlt)]
    simp only [G, div_row hlt, mod_row hlt]
    rw [sum_digits]
    refine Finset.sum_congr rfl fun p hp => Finset.sum_congr rfl fun t ht => Finset.sum_congr rfl fun r hr =>
      Finset.sum_congr rfl fun s hs => ?_
    simp only [Finset.mem_range] at hp ht hr hs
    have d1 : ∀ u v w x : ℕ, v < 3 → w < 3 → x < 3 → (((u * 3 + v) * 3 + w) * 3 + x) / 27 = u := by omega
    have d2 : ∀ u v w x : ℕ, v < 3 → w < 3 → x < 3 → (((u * 3 + v) * 3 + w) * 3 + x) / 9 % 3 = v := by omega
    have d3 : ∀ u v w x : ℕ, v < 3 → w < 3 → x < 3 → (((u * 3 + v) * 3 + w) * 3 + x) / 3 % 3 = w := by omega
    have d4 : ∀ u v w x : ℕ, v < 3 → w < 3 → x < 3 → (((u * 3 + v) * 3 + w) * 3 + x) % 3 = x := by omega
    rw [d1 a b c d hb hc hd, d2 a b c d hb hc hd, d3 a b c d hb hc hd, d4 a b c d hb hc hd,
      d1 p t r s ht hr hs, d2 p t r s ht hr hs, d3 p t r s ht hr hs, d4 p t r s ht hr hs, hidx, Nat.add_assoc]

/-- **C123** for the transformation of stacks of tensors of fourth order, into an array of zeros: one matrix for each tensor, one for each
stack of a stack of stacks, one for all. -/
theorem C123_tr4 (size : ℕ → ℕ) (N nX : ℕ) (m0 : Mem K) (hz : ∀ o, m0 (0, o) = 0) :
    (size 0 = N * 81 → size 1 = N * 9 → size 2 = N * 81 → Computes size N tr3333MultiBody m0 fun m =>
      (∀ i < N, ∀ a < 3, ∀ b < 3, ∀ c < 3, ∀ d < 3, m (0, i * 81 + (((a * 3 + b) * 3 + c) * 3 + d)) =
        ∑ p ∈ Finset.range 3, ∑ t ∈ Finset.range 3, ∑ r ∈ Finset.range 3, ∑ s ∈ Finset.range 3,
          m0 (1, i * 9 + a * 3 + p) * m0 (1, i * 9 + b * 3 + t) * m0 (1, i * 9 + c * 3 + r) *
            m0 (1, i * 9 + d * 3 + s) * m0 (2, i * 81 + (((p * 3 + t) * 3 + r) * 3 + s))) ∧
      ∀ l : Loc, l.1 ≠ 0 → m l = m0 l) ∧
    (size 0 = N * nX * 81 → size 1 = N * 9 → size 2 = N * nX * 81 → Computes size N (tr3333Multi2Body nX) m0 fun m =>
      (∀ i < N, ∀ j < nX, ∀ a < 3, ∀ b < 3, ∀ c < 3, ∀ d < 3,
        m (0, (i * nX + j) * 81 + (((a * 3 + b) * 3 + c) * 3 + d)) =
        ∑ p ∈ Finset.range 3, ∑ t ∈ Finset.range 3, ∑ r ∈ Finset.range 3, ∑ s ∈ Finset.range 3,
          m0 (1, i * 9 + a * 3 + p) * m0 (1, i * 9 + b * 3 + t) * m0 (1, i * 9 + c * 3 + r) *
            m0 (1, i * 9 + d * 3 + s) * m0 (2, (i * nX + j) * 81 + (((p * 3 + t) * 3 + r) * 3 + s))) ∧
      ∀ l : Loc, l.1 ≠ 0 → m l = m0 l) ∧
    (size 0 = N * 81 → size 1 = 9 → size 2 = N * 81 → Computes size N tr3333Multi3Body m0 fun m =>
      (∀ i < N, ∀ a < 3, ∀ b < 3, ∀ c < 3, ∀ d < 3, m (0, i * 81 + (((a * 3 + b) * 3 + c) * 3 + d)) =
        ∑ p ∈ Finset.range 3, ∑ t ∈ Finset.range 3, ∑ r ∈ Finset.range 3, ∑ s ∈ Finset.range 3,
          m0 (1, a * 3 + p) * m0 (1, b * 3 + t) * m0 (1, c * 3 + r) * m0 (1, d * 3 + s) *
            m0 (2, i * 81 + (((p * 3 + t) * 3 + r) * 3 + s))) ∧
      ∀ l : Loc, l.1 ≠ 0 → m l = m0 l) := by
  refine ⟨fun h0 h1 h2 => ?_, fun h0 h1 h2 => ?_, fun h0 h1 h2 => ?_⟩
  · exact tr4_stack (m0 := m0) (q := fun i => i * 9) (body := tr3333MultiBody) (fun _ => rfl) hz h0 h2
      fun i hi => by omega
  · exact tr4_grid (m0 := m0) (q := fun i => i * 9) (body := tr3333Multi2Body nX) (fun _ => rfl) hz h0 h2
      fun i hi => by omega
  · simpa only [Nat.zero_add] using tr4_stack (m0 := m0) (q := fun _ => 0) (body := tr3333Multi3Body)
      (fun _ => rfl) hz h0 h2 fun _ _ => by omega

/-! ## Inverses -/

/-- The determinant as the code computes it. -/
def detOf (A : ℕ → K) : K :=
  A 0 * A 4 * A 8 - A 0 * A 5 * A 7 - A 1 * A 3 * A 8 + A 1 * A 5 * A 6 + A 2 * A 3 * A 7 - A 2 * A 4 * A 6

theorem cofactor_inverse (A : ℕ → K) (h : detOf A ≠ 0) {r s : ℕ} (hr : r < 3) (hs : s < 3) :
    ∑ c ∈ Finset.range 3, A (r * 3 + c) * (cofactor A (c * 3 + s) / detOf A) = if r = s then 1 else 0 := by
  have key : ∑ c ∈ Finset.range 3, A (r * 3 + c) * cofactor A (c * 3 + s) = if r = s then detOf A else 0 := by
    interval_cases r <;> interval_cases s <;>
      simp [Finset.sum_range_succ, cofactor, detOf] <;> ring
  have : ∑ c ∈ Finset.range 3, A (r * 3 + c) * (cofactor A (c * 3 + s) / detOf A) =
      (∑ c ∈ Finset.range 3, A (r * 3 + c) * cofactor A (c * 3 + s)) / detOf A := by
    rw [Finset.sum_div]
    exact Finset.sum_congr rfl fun c _ => by rw [mul_div_assoc]
  rw [this, key]
  split
  · exact div_self h
  · exact zero_div _

theorem det_blocks (m0 : Mem K) (o : ℕ) :
    (Matrix.of fun r c : Fin 3 => m0 (1, o + (r.val * 3 + c.val))).det = detOf fun r => m0 (1, o + r) := by
  rw [Matrix.det_fin_three]
  simp [detOf]

/-- The matrix read into a private array. -/
def readA (m0 : Mem K) (i : ℕ) : ℕ → K := fun c => if c < 9 then m0 (1, i * 9 + c) else 0

theorem detOf_readA (m0 : Mem K) (i : ℕ) : detOf (readA m0 i) = detOf fun r => m0 (1, i * 9 + r) := by
  simp [detOf, readA]

theorem reads_readA {size : ℕ → ℕ} {M N i : ℕ} {m0 : Mem K} (h1 : size 1 = N * 9) (hi : i < N) :
    Reads size (visB M i) (tab 9 fun r => rd 1 (i * 9 + r)) m0 (readA m0 i) :=
  reads_tab 9 _ (fun c => m0 (1, i * 9 + c)) fun c hc => reads_in (by omega) (by omega) rfl

theorem inverse_post {size : ℕ → ℕ} {N : ℕ} {body : ℕ → Prog K Unit} {m0 : Mem K}
    (h : Computes size N body m0 fun m =>
      (∀ i < N, ∀ r < 9, m (0, i * 9 + r) = cofactor (readA m0 i) r / detOf (readA m0 i)) ∧
        ∀ l : Loc, l.1 ≠ 0 → m l = m0 l) :
    Computes size N body m0 fun m =>
      (∀ i < N, (Matrix.of fun r c : Fin 3 => m0 (1, i * 9 + (r.val * 3 + c.val))).det ≠ 0 →
        ∀ r < 3, ∀ s < 3, ∑ c ∈ Finset.range 3, m0 (1, i * 9 + (r * 3 + c)) * m (0, i * 9 + (c * 3 + s)) =
          if r = s then 1 else 0) ∧ ∀ l : Loc, l.1 ≠ 0 → m l = m0 l := by
  refine h.mono ?_
  rintro m ⟨hm, hr⟩
  refine ⟨fun i hi hd r hr s hs => ?_, hr⟩
  rw [det_blocks, ← detOf_readA] at hd
  rw [← cofactor_inverse _ hd hr hs]
  refine Finset.sum_congr rfl fun c hc => ?_
  have hc := Finset.mem_range.1 hc
  rw [hm i hi _ (by omega)]
  congr 1
  unfold readA
  rw [if_pos (by omega)]

/-- **C123** for the inversion of stacks of 3x3 matrices: what is left in place of a regular matrix is its inverse, whatever the other matrices
are. -/
theorem C123_inv3x3 (size : ℕ → ℕ) (N : ℕ) (h0 : size 0 = N * 9) (h1 : size 1 = N * 9) (m0 : Mem K) :
    (Computes size N inv3x3Body m0 fun m =>
      (∀ i < N, (Matrix.of fun r c : Fin 3 => m0 (1, i * 9 + (r.val * 3 + c.val))).det ≠ 0 →
        ∀ r < 3, ∀ s < 3, ∑ c ∈ Finset.range 3, m0 (1, i * 9 + (r * 3 + c)) * m (0, i * 9 + (c * 3 + s)) =
          if r = s then 1 else 0) ∧ ∀ l : Loc, l.1 ≠ 0 → m l = m0 l) ∧
    Computes size N inv3x3Bulk2Body m0 fun m =>
      (∀ i < N, (Matrix.of fun r c : Fin 3 => m0 (1, i * 9 + (r.val * 3 + c.val))).det ≠ 0 →
        ∀ r < 3, ∀ s < 3, ∑ c ∈ Finset.range 3, m0 (1, i * 9 + (r * 3 + c)) * m (0, i * 9 + (c * 3 + s)) =
          if r = s then 1 else 0) ∧ ∀ l : Loc, l.1 ≠ 0 → m l = m0 l := by
  refine ⟨inverse_post ?_, inverse_post ?_⟩
  · refine computes_blocks (M := 9) (g := fun i r => cofactor (readA m0 i) r / detOf (readA m0 i)) fun i hi => ?_
    refine (reads_readA h1 hi).wp _ ?_
    have own : ∀ r < 9, mineB 9 i (0, i * 9 + r) := fun r hr => ownB_block hr
    have bnd : ∀ r < 9, i * 9 + r < size 0 := fun r hr => by omega
    generalize readA m0 i = A
    refine ⟨bnd 0 (by omega), own 0 (by omega), bnd 1 (by omega), own 1 (by omega), bnd 2 (by omega),
      own 2 (by omega), bnd 3 (by omega), own 3 (by omega), bnd 4 (by omega), own 4 (by omega), bnd 5 (by omega),
      own 5 (by omega), bnd 6 (by omega), own 6 (by omega), bnd 7 (by omega), own 7 (by omega), bnd 8 (by omega),
      own 8 (by omega), ?_⟩
    have hmem : ∀ x, x = written m0 (i * 9) 9 (cofactor A) →
        wp size (visB 9 i) (mineB 9 i) (loop 9 fun r => do wr 0 (i * 9 + r) ((← rd 0 (i * 9 + r)) / detOf A)) x
          fun _ y => ∀ r < 9, y (0, i * 9 + r) = cofactor A r / detOf A := by
      rintro x rfl
      refine wp_mono _ (wp_loop 9 _ (fun j y =>
        y = written (written m0 (i * 9) 9 (cofactor A)) (i * 9) j fun r => cofactor A r / detOf A)
        (written_zero _ _ _).symm ?_) ?_
      · rintro j hj x rfl
        have hread := reads_rd (size := size)
          (m := written (written m0 (i * 9) 9 (cofactor A)) (i * 9) j fun r => cofactor A r / detOf A)
          (bnd j hj) (vis := visB 9 i) (.inl (own j hj))
        rw [written_off _ (i * 9) j _ (0, i * 9 + j) (by simp only; omega), written_at _ _ _ _ _ hj] at hread
        refine hread.wp _ ⟨bnd j hj, own j hj, ?_⟩
        exact written_succ _ _ _ fun r => cofactor A r / detOf A
      · rintro - y rfl r hr
        exact written_at _ _ _ _ _ hr
    refine hmem _ ?_
    rw [← written_succ, ← written_succ, ← written_succ, ← written_succ, ← written_succ, ← written_succ,
      ← written_succ, ← written_succ, ← written_succ, written_zero]
    rfl
  · refine computes_blocks (M := 9) (g := fun i r => cofactor (readA m0 i) r / detOf (readA m0 i)) fun i hi => ?_
    refine (reads_readA h1 hi).wp _ ?_
    exact wp_assign_block (fun c hc => reads_ret _ _) (by omega)

/-! ## Moving least squares -/

theorem update_same {m : Mem K} {l : Loc} {v : K} (h : m l = v) : m = Function.update m l v := by
  subst h
  exact (Function.update_eq_self l m).symm

/-- **C123** for `_approximate_2d` and `_approximate_nd`: `nS` source points with `nD` numbers each, neighbours among them. -/
theorem C123_approximate (size : ℕ → ℕ) (ix : K → ℕ) (nT nN nS nD : ℕ) (h0 : size 0 = nT * nD)
    (h1 : size 1 = nS * nD) (h2 : size 2 = nT * nN) (h3 : size 3 = nT * nN) (m0 : Mem K)
    (hn : ∀ i < nT, ∀ k < nN, ix (m0 (2, i * nN + k)) < nS) :
    ∀ body : ℕ → Prog K Unit, body = approximate2dBody ix nN nD ∨ body = approximateNdBody ix nN nD →
    Computes size nT body m0 fun m =>
      (∀ i < nT, ∀ j < nD, m (0, i * nD + j) = m0 (0, i * nD + j) + ∑ k ∈ Finset.range nN,
        m0 (1, ix (m0 (2, i * nN + k)) * nD + j) * m0 (3, i * nN + k)) ∧ ∀ l : Loc, l.1 ≠ 0 → m l = m0 l := by
  rintro body (rfl | rfl)
  · refine computes_blocks (M := nD) (g := fun i j => m0 (0, i * nD + j) + ∑ k ∈ Finset.range nN,
        m0 (1, ix (m0 (2, i * nN + k)) * nD + j) * m0 (3, i * nN + k)) fun i hi => ?_
    refine wp_mono _ (wp_add_each (off := i * nD) (a := fun j => ∑ k ∈ Finset.range nN,
        m0 (1, ix (m0 (2, i * nN + k)) * nD + j) * m0 (3, i * nN + k)) (m := m0) fun j hj x hx => ?_) ?_
    · have hown : mineB nD i (0, i * nD + j) := ownB_block hj
      have hb : i * nD + j < size 0 := by rw [h0]; exact idx_lt hi hj
      refine wp_loop nN _ (fun k y => y = Function.update x (0, i * nD + j) (x (0, i * nD + j) +
        ∑ k' ∈ Finset.range k, m0 (1, ix (m0 (2, i * nN + k')) * nD + j) * m0 (3, i * nN + k'))) ?_ ?_
      · exact update_same (by simp)
      · rintro k hk y rfl
        have hy : ∀ l : Loc, l.1 ≠ 0 → Function.update x (0, i * nD + j) (x (0, i * nD + j) +
            ∑ k' ∈ Finset.range k, m0 (1, ix (m0 (2, i * nN + k')) * nD + j) * m0 (3, i * nN + k')) l = m0 l := by
          intro l hl
          rw [Function.update_of_ne, hx l hl]
          rintro rfl
          exact hl rfl
        have b2 := idx_lt hi hk
        refine (reads_in (m0 := m0) (by omega) (by rw [h2]; exact b2) (hy _ (by simp))).wp _ ?_
        refine (reads_in (m0 := m0) (by omega) (by rw [h1]; exact idx_lt (hn i hi k hk) hj) (hy _ (by simp))).wp _ ?_
        refine (reads_in (m0 := m0) (by omega) (by rw [h3]; exact b2) (hy _ (by simp))).wp _ ?_
        refine (reads_rd hb (vis := visB nD i) (.inl hown)).wp _ ?_
        refine ⟨hb, hown, ?_⟩
        show Function.update _ _ _ = _
        rw [Function.update_idem, Function.update_self, Finset.sum_range_succ, add_assoc]
    · rintro - y rfl r hr
      exact written_at _ _ _ _ _ hr
  · refine computes_blocks (M := nD) (g := fun i j => m0 (0, i * nD + j) + ∑ k ∈ Finset.range nN,
        m0 (1, ix (m0 (2, i * nN + k)) * nD + j) * m0 (3, i * nN + k)) fun i hi => ?_
    refine wp_mono _ (wp_accumulate (off := i * nD) (n := nD) (a := fun k j =>
        m0 (1, ix (m0 (2, i * nN + k)) * nD + j) * m0 (3, i * nN + k)) (m := m0) fun k hk x hx => ?_) ?_
    · have b2 := idx_lt hi hk
      refine (reads_in (m0 := m0) (by omega) (by rw [h2]; exact b2) (hx _ (by simp))).wp _ ?_
      refine (reads_in (m0 := m0) (by omega) (by rw [h3]; exact b2) (hx _ (by simp))).wp _ ?_
      refine wp_add_each fun j hj y hy => ?_
      have hown : mineB nD i (0, i * nD + j) := ownB_block hj
      have hb : i * nD + j < size 0 := by rw [h0]; exact idx_lt hi hj
      refine (reads_rd (m := y) hb (vis := visB nD i) (.inl hown)).wp _ ?_
      refine (reads_in (m0 := m0) (by omega) (by rw [h1]; exact idx_lt (hn i hi k hk) hj)
        (by rw [hy _ (by simp), hx _ (by simp)])).wp _ ?_
      exact ⟨hb, hown, rfl⟩
    · rintro - y rfl r hr
      exact written_at _ _ _ _ _ hr

/-! ## Loops that leave their arrays -/

/-- The program cannot come to its end. -/
def NeverEnds {α : Type} (size : ℕ → ℕ) : Prog K α → Prop
  | .ret _ => False
  | .load l k => l.2 < size l.1 → ∀ v, NeverEnds size (k v)
  | .store l _ k => l.2 < size l.1 → NeverEnds size k

theorem neverEnds_bind {α β : Type} {size : ℕ → ℕ} (p : Prog K α) (f : α → Prog K β)
    (h : ∀ a, NeverEnds size (f a)) : NeverEnds size (p.bind f) := by
  induction p with
  | ret a => exact h a
  | load l k ih => exact fun _ v => ih v
  | store l v k ih => exact fun _ => ih

theorem neverEnds_first {α β : Type} {size : ℕ → ℕ} (p : Prog K α) (f : α → Prog K β)
    (h : NeverEnds size p) : NeverEnds size (p.bind f) := by
  induction p with
  | ret a => exact h.elim
  | load l k ih => exact fun hl v => ih v (h hl v)
  | store l v k ih => exact fun hl => ih (h hl)

theorem neverEnds_thread {size : ℕ → ℕ} {body : ℕ → Prog K Unit} {is : List ℕ} {i : ℕ} (hi : i ∈ is)
    (h : NeverEnds size (body i)) : NeverEnds size (thread body is) := by
  induction is with
  | nil => exact absurd hi List.not_mem_nil
  | cons j js ih =>
    rcases List.mem_cons.1 hi with rfl | hi
    · exact neverEnds_first _ _ h
    · exact neverEnds_bind _ _ fun _ => ih hi

theorem neverEnds_run {size : ℕ → ℕ} (sched : List ℕ) {s s' : State K} {w : ℕ} {p : Prog K Unit}
    (hw : s.threads[w]? = some p) (hp : NeverEnds size p) (hs : interleave size sched s = some s') :
    ¬ s'.finished := by
  induction sched generalizing s p with
  | nil =>
    obtain rfl := Option.some.inj hs
    intro hf
    rw [hf p (List.mem_of_getElem? hw)] at hp
    exact hp
  | cons u us ih =>
    unfold interleave at hs
    cases hst : stepAt size u s with
    | none => rw [hst] at hs; cases hs
    | some t =>
      rw [hst] at hs
      have hlt : w < s.threads.length := (List.getElem?_eq_some_iff.1 hw).1
      obtain ⟨p', h1, h2⟩ : ∃ p', t.threads[w]? = some p' ∧ NeverEnds size p' := by
        unfold stepAt at hst
        by_cases hu : u = w
        · subst hu
          rw [hw] at hst
          cases p with
          | ret a => exact hp.elim
          | load l k =>
            simp only at hst
            split at hst
            · obtain rfl := Option.some.inj hst
              exact ⟨_, List.getElem?_set_self hlt, hp ‹_› _⟩
            · cases hst
          | store l v k =>
            simp only at hst
            split at hst
            · obtain rfl := Option.some.inj hst
              exact ⟨_, List.getElem?_set_self hlt, hp ‹_›⟩
            · cases hst
        · refine ⟨p, ?_, hp⟩
          revert hst
          cases s.threads[u]? with
          | none => intro h; obtain rfl := Option.some.inj h; exact hw
          | some r =>
            cases r with
            | ret a => intro h; obtain rfl := Option.some.inj h; exact hw
            | load l k =>
              intro hst
              simp only at hst
              split at hst
              · obtain rfl := Option.some.inj hst
                rw [← hw]
                exact List.getElem?_set_ne hu
              · cases hst
            | store l v k =>
              intro hst
              simp only at hst
              split at hst
              · obtain rfl := Option.some.inj hst
                rw [← hw]
                exact List.getElem?_set_ne hu
              · cases hst
      exact ih h1 h2 hs

theorem never_finished {size : ℕ → ℕ} {N : ℕ} {body : ℕ → Prog K Unit} {i : ℕ} (hi : i < N)
    (h : NeverEnds size (body i)) (m0 : Mem K) (plan : List (List ℕ)) (hp : plan.flatten.Perm (List.range N))
    (sched : List ℕ) (s : State K) (hs : prange size body plan sched m0 = some s) : ¬ s.finished := by
  have : i ∈ plan.flatten := hp.mem_iff.2 (List.mem_range.2 hi)
  obtain ⟨is, h1, h2⟩ := List.mem_flatten.1 this
  obtain ⟨w, hw, rfl⟩ := List.mem_iff_getElem.1 h1
  refine neverEnds_run sched (w := w) (p := thread body plan[w]) ?_ (neverEnds_thread h2 h) hs
  simp [hw]

/-- **C123** is false for `count_cols_csr`, whatever the matrix is: with index pointers of any length `n ≥ 1`, no execution comes to its end
without an access outside the arrays (it reads `indptr[n]`). -/
theorem C123_count_cols_csr_violated (size : ℕ → ℕ) (ix : K → ℕ) (n : ℕ) (hn : 1 ≤ n) (h1 : size 1 = n)
    (m0 : Mem K) (plan : List (List ℕ)) (hp : plan.flatten.Perm (List.range n)) (sched : List ℕ) (s : State K)
    (hs : prange size (countColsCsrBody ix) plan sched m0 = some s) : ¬ s.finished := by
  refine never_finished (i := n - 1) (by omega) ?_ m0 plan hp sched s hs
  intro h
  simp only at h
  omega

/-- **C123** is false for `_show_frame` with fewer rows than columns (a frame of two vectors in space): the loop runs over the number of columns,
and no execution comes to its end without an access outside the arrays. -/
theorem C123_show_frame_violated (size : ℕ → ℕ) (nR d : ℕ) (hR : nR < d) (h2 : size 2 = nR * d)
    (m0 : Mem K) (plan : List (List ℕ)) (hp : plan.flatten.Perm (List.range d)) (sched : List ℕ) (s : State K)
    (hs : prange size (showVectorsBody d) plan sched m0 = some s) : ¬ s.finished := by
  refine never_finished (i := nR) hR ?_ m0 plan hp sched s hs
  obtain ⟨e, rfl⟩ : ∃ e, d = e + 1 := ⟨d - 1, by omega⟩
  refine neverEnds_first _ _ ?_
  refine neverEnds_bind _ _ fun t => ?_
  refine neverEnds_first _ _ ?_
  refine neverEnds_bind _ _ fun v => ?_
  refine neverEnds_first _ _ ?_
  refine neverEnds_bind _ _ fun v => ?_
  intro h
  simp only at h
  omega

end

/-! ## Concrete executions -/

/-- Arrays given by lists. -/
def memOf (l : List (List ℚ)) : Mem ℚ := fun p => ((l[p.1]?).getD [])[p.2]?.getD 0

/-- The first cells of the result, when all threads are done. -/
def seen (n : ℕ) (r : Option (State ℚ)) : Option (List ℚ) := do
  let s ← r
  if s.threads.all fun p => match p with | .ret _ => true | _ => false then
    return (List.range n).map fun o => s.mem (0, o)
  else none

/-- Two threads that execute iterations 2, 0 and 1 of `repeat([5, 7], 3)`, in two interleavings. -/
example : seen 6 (prange (fun a => if a = 0 then 6 else 2) (repeatBody 2) [[2, 0], [1]]
      [0, 1, 0, 1, 0, 0, 0, 1, 1, 0, 0, 0] (memOf [[], [5, 7]])) = some [5, 7, 5, 7, 5, 7] ∧
    seen 6 (prange (fun a => if a = 0 then 6 else 2) (repeatBody 2) [[2, 0], [1]]
      [0, 0, 0, 0, 0, 0, 0, 0, 1, 1, 1, 1] (memOf [[], [5, 7]])) = some [5, 7, 5, 7, 5, 7] := by
  constructor <;> decide +kernel

/-- The statement depends on the interleaving where iterations share a cell: two increments of one cell, of which one may be lost.  So
`Computes` is false of such a loop. -/
example : seen 1 (prange (fun _ => 1) (fun _ => do wr 0 0 ((← rd 0 0) + 1)) [[0], [1]] [0, 0, 1, 1] (memOf [])) = some [2] ∧
    seen 1 (prange (fun _ => 1) (fun _ => do wr 0 0 ((← rd 0 0) + 1)) [[0], [1]] [0, 1, 0, 1] (memOf [])) = some [1] := by
  constructor <;> decide +kernel

/-- `_approximate_2d` with two targets, two neighbours and one number per point: the hypotheses hold. -/
example : ∀ i < 2, ∀ k < 2, (fun x : ℚ => x.num.toNat) (memOf [[], [10, 20, 30], [0, 2, 1, 2], [1, 2, 3, 4]] (2, i * 2 + k)) < 3 := by
  decide +kernel

example : seen 2 (prange (fun a => [2, 3, 4, 4].getD a 0) (approximate2dBody (fun x : ℚ => x.num.toNat) 2 1) [[0], [1]]
      ((List.replicate 10 [0, 1]).flatten) (memOf [[], [10, 20, 30], [0, 2, 1, 2], [1, 2, 3, 4]])) = some [70, 180] := by
  decide +kernel

/-- `inv3x3_bulk`: the determinant of `diag(1, 2, 4)` is not zero. -/
example : seen 9 (prange (fun _ => 9) inv3x3Body [[0]] (List.replicate 36 0) (memOf [[], [1, 0, 0, 0, 2, 0, 0, 0, 4]])) =
    some [1, 0, 0, 0, 1 / 2, 0, 0, 0, 1 / 4] := by
  decide +kernel

/-- `linspace([0], [6], 4)` with the step 2. -/
example : seen 4 (linspaceRun (fun a => if a = 0 then 4 else 1) 4 1 [[1], [0]] [0, 1, 0, 1, 0, 1]
    (memOf [[], [0], [6], [2]])) = some [0, 2, 4, 6] := by
  decide +kernel

/-- `find1d([7, 5], [5, 7, 5])`. -/
example : seen 2 (prange (fun a => if a = 2 then 3 else 2) (findBody (fun _ => 99) 3 1) [[0], [1]]
    ((List.replicate 5 [1, 0]).flatten) (memOf [[], [7, 5], [5, 7, 5]])) = some [1, 0] := by
  decide +kernel

/-- `repeat_diagonal_2d([[1, 2]], 2)`. -/
example : seen 8 (prange (fun a => if a = 0 then 8 else 2) (repeatDiagonalBody 2 1 2) [[0], [1]]
    ((List.replicate 4 [1, 0]).flatten) (memOf [[], [1, 2]])) = some [1, 2, 0, 0, 0, 0, 1, 2] := by
  decide +kernel

/-- `Q A Qᵀ` for two tensors and one rotation by a right angle. -/
example : seen 8 (prange (fun a => if a = 1 then 4 else 8) (trSingleBody 2) [[1, 0]]
    (List.replicate 80 0) (memOf [[], [0, -1, 1, 0], [1, 2, 3, 4, 5, 6, 7, 8]])) = some [4, -3, -2, 1, 8, -7, -6, 5] := by
  decide +kernel

/-- A frame of two vectors in space leaves the array, as does counting the columns of a matrix with one row. -/
example : prange (fun a => if a = 1 then 9 else 6) (showVectorsBody 3) [[2]] (List.replicate 40 0)
      (memOf [[], [1, 0, 0, 0, 1, 0, 0, 0, 1], [1, 2, 3, 4, 5, 6]]) = none := by
  rfl

example : prange (fun _ => 2) (countColsCsrBody fun x : ℚ => x.num.toNat) [[1, 0]] [0]
      (memOf [[], [0, 1], [4, 4]]) = none := by
  rfl

end Verif.Par.Props
