import Verif.Props.Parallel
import Mathlib.LinearAlgebra.Matrix.Determinant.Basic
import Mathlib.Tactic.FinCases
import Mathlib.Tactic.NormNum

/-! # Parallel loops over blocks (C123) -/

set_option linter.unusedSectionVars false

namespace Verif.Par.Props

open Verif.Par

section
variable {K : Type} [Field K] [LinearOrder K]

/-! ## Lemmas -/

theorem Computes.mono {V : Type} {size : ℕ → ℕ} {N : ℕ} {body : ℕ → Prog V Unit} {m0 : Mem V}
    {p q : Mem V → Prop} (h : Computes size N body m0 p) (hpq : ∀ m, p m → q m) : Computes size N body m0 q := by
  intro plan hp
  obtain ⟨h1, h2⟩ := h plan hp
  refine ⟨fun sched => ?_, h2⟩
  obtain ⟨s, h3, h4⟩ := h1 sched
  exact ⟨s, h3, fun hf => hpq _ (h4 hf)⟩

/-- The value of `firstHit`. -/
def hit (x : K) (m : Mem K) : ℕ → Option ℕ
  | 0 => none
  | n + 1 => (hit x m n).or (if m (2, n) = x then some n else none)

theorem reads_firstHit {size : ℕ → ℕ} {M i n : ℕ} {x : K} {m : Mem K} (h : n ≤ size 2) :
    Reads size (visB M i) (firstHit x n) m (hit x m n) := by
  induction n with
  | zero => exact reads_ret _ _
  | succ n ih =>
    refine reads_bind (ih (by omega)) ?_
    refine reads_bind (reads_in (m0 := m) (by omega) (by omega) rfl) ?_
    exact reads_ret _ _

theorem hit_none {x : K} {m : Mem K} {n : ℕ} (h : ∀ k < n, m (2, k) ≠ x) : hit x m n = none := by
  induction n with
  | zero => rfl
  | succ n ih =>
    unfold hit
    rw [ih fun k hk => h k (by omega), if_neg (h n (by omega))]
    rfl

theorem hit_first {x : K} {m : Mem K} {n k : ℕ} (hk : k < n) (hx : m (2, k) = x) (h : ∀ j < k, m (2, j) ≠ x) :
    hit x m n = some k := by
  induction n with
  | zero => omega
  | succ n ih =>
    unfold hit
    by_cases hn : k < n
    · rw [ih hn]; rfl
    · obtain rfl : k = n := by omega
      rw [hit_none h, if_pos hx]
      rfl

/-- **C123** for `find1d` (`nC = 1`) and `find2d`: each number gets the position of its first occurrence; the junk of one number that is missing
does not touch the others. -/
theorem C123_find (size : ℕ → ℕ) (junk : ℕ → K) (N nC n : ℕ) (h0 : size 0 = N * nC) (h1 : size 1 = N * nC)
    (h2 : size 2 = n) (m0 : Mem K) :
    Computes size N (findBody junk n nC) m0 fun m =>
      (∀ i < N, ∀ c < nC,
        (∀ k < n, m0 (2, k) = m0 (1, i * nC + c) → (∀ j < k, m0 (2, j) ≠ m0 (1, i * nC + c)) →
          m (0, i * nC + c) = (k : K)) ∧
        ((∀ k < n, m0 (2, k) ≠ m0 (1, i * nC + c)) → m (0, i * nC + c) = junk (i * nC + c))) ∧
        ∀ l : Loc, l.1 ≠ 0 → m l = m0 l := by
  refine Computes.mono (computes_blocks (M := nC) (g := fun i c =>
    match hit (m0 (1, i * nC + c)) m0 n with
    | some k => (k : K)
    | none => junk (i * nC + c)) fun i hi => ?_) ?_
  · refine wp_assign_block (fun c hc => ?_) (by rw [h0]; exact idx_le hi)
    refine reads_bind (reads_in (m0 := m0) (by omega) (by rw [h1]; exact idx_lt hi hc) rfl) ?_
    refine reads_bind (reads_firstHit (by omega)) ?_
    cases hit (m0 (1, i * nC + c)) m0 n <;> exact reads_ret _ _
  · rintro m ⟨hm, hr⟩
    refine ⟨fun i hi c hc => ⟨fun k hk hx hj => ?_, fun hno => ?_⟩, hr⟩
    · rw [hm i hi c hc, hit_first hk hx hj]
    · rw [hm i hi c hc, hit_none hno]

/-- **C123** for `repeat_diagonal_2d`. -/
theorem C123_repeat_diagonal (size : ℕ → ℕ) (N nR nC : ℕ) (h0 : size 0 = N * nR * (nC * N)) (h1 : size 1 = nR * nC)
    (m0 : Mem K) (hz : ∀ o, m0 (0, o) = 0) :
    Computes size N (repeatDiagonalBody N nR nC) m0 fun m =>
      (∀ i < N, ∀ r < nR, ∀ j < N, ∀ c < nC, m (0, (i * nR + r) * (nC * N) + (j * nC + c)) =
        if i = j then m0 (1, r * nC + c) else 0) ∧ ∀ l : Loc, l.1 ≠ 0 → m l = m0 l := by
  have hidx : ∀ i r C : ℕ, (i * nR + r) * (nC * N) + C = i * (nR * (nC * N)) + (r * (nC * N) + C) := by
    intro i r C; ring
  refine Computes.mono (computes_blocks (M := nR * (nC * N)) (g := fun i e =>
    if e % (nC * N) / nC = i then m0 (1, e / (nC * N) * nC + e % (nC * N) % nC) else 0) fun i hi => ?_) ?_
  · refine wp_mono _ (wp_loop nR _ (fun r y => (∀ R < nR, ∀ C < nC * N,
      y (0, i * (nR * (nC * N)) + (R * (nC * N) + C)) =
        if R < r ∧ C / nC = i then m0 (1, R * nC + C % nC) else 0) ∧ ∀ l : Loc, l.1 ≠ 0 → y l = m0 l)
      ⟨fun R _ C _ => by rw [if_neg (by omega)]; exact hz _, fun _ _ => rfl⟩ ?_) ?_
    · intro r hr x hx
      refine wp_mono _ (wp_loop nC _ (fun c y => (∀ R < nR, ∀ C < nC * N,
        y (0, i * (nR * (nC * N)) + (R * (nC * N) + C)) =
          if (R < r ∨ R = r ∧ C % nC < c) ∧ C / nC = i then m0 (1, R * nC + C % nC) else 0) ∧
          ∀ l : Loc, l.1 ≠ 0 → y l = m0 l) ⟨fun R hR C hC => ?_, hx.2⟩ ?_) ?_
      · rw [hx.1 R hR C hC]
        refine if_congr ?_ rfl rfl
        simp
      · intro c hc y hy
        have hcol : i * nC + c < nC * N := by rw [Nat.mul_comm nC N]; exact idx_lt hi hc
        refine (reads_in (m0 := m0) (M := nR * (nC * N)) (by omega) (by rw [h1]; exact idx_lt hr hc)
          (hy.2 _ (by simp))).wp _ ?_
        have hin : r * (nC * N) + (i * nC + c) < nR * (nC * N) := idx_lt hr hcol
        rw [hidx]
        refine ⟨?_, ownB_block hin, ?_⟩
        · simp only
          rw [h0, Nat.mul_assoc]
          exact idx_lt hi hin
        · refine ⟨fun R hR C hC => ?_, fun l hl => ?_⟩
          · by_cases he : R = r ∧ C = i * nC + c
            · obtain ⟨rfl, rfl⟩ := he
              rw [Function.update_self, if_pos ⟨.inr ⟨rfl, by rw [mod_row hc]; omega⟩, div_row hc⟩, mod_row hc]
            · rw [Function.update_of_ne, hy.1 R hR C hC]
              · refine if_congr ?_ rfl rfl
                constructor
                · rintro ⟨h | h, h'⟩
                  · exact ⟨.inl h, h'⟩
                  · exact ⟨.inr ⟨h.1, by omega⟩, h'⟩
                · rintro ⟨h | h, h'⟩
                  · exact ⟨.inl h, h'⟩
                  · refine ⟨.inr ⟨h.1, ?_⟩, h'⟩
                    have : C % nC ≠ c := by
                      rintro rfl
                      refine he ⟨h.1, ?_⟩
                      rw [← h', Nat.mul_comm]
                      exact (Nat.div_add_mod C nC).symm
                    omega
              · intro hh
                simp only [Prod.mk.injEq, true_and] at hh
                have hh' : R * (nC * N) + C = r * (nC * N) + (i * nC + c) := by omega
                have q1 := congrArg (· / (nC * N)) hh'
                have q2 := congrArg (· % (nC * N)) hh'
                simp only [div_row hC, div_row hcol, mod_row hC, mod_row hcol] at q1 q2
                exact he ⟨q1, q2⟩
          · rw [Function.update_of_ne, hy.2 l hl]
            rintro rfl
            exact hl rfl
      · rintro - y hy
        refine ⟨fun R hR C hC => ?_, hy.2⟩
        rw [hy.1 R hR C hC]
        refine if_congr ?_ rfl rfl
        have hpos : C / nC = i → C % nC < nC := by
          intro _
          refine Nat.mod_lt _ (Nat.pos_of_ne_zero ?_)
          rintro rfl
          omega
        constructor
        · rintro ⟨h | h, h'⟩
          · exact ⟨by omega, h'⟩
          · exact ⟨by omega, h'⟩
        · rintro ⟨h, h'⟩
          refine ⟨?_, h'⟩
          have := hpos h'
          omega
    · rintro - y hy e he
      have hW : 0 < nC * N := by
        rcases Nat.eq_zero_or_pos (nC * N) with h | h
        · rw [h] at he; omega
        · exact h
      have e1 : e / (nC * N) < nR := by
        rw [Nat.div_lt_iff_lt_mul hW]
        exact he
      have := hy.1 _ e1 _ (Nat.mod_lt e hW)
      rw [Nat.mul_comm (e / _), Nat.div_add_mod] at this
      rw [this]
      exact if_congr (by simp [e1]) rfl rfl
  · rintro m ⟨hm, hr⟩
    refine ⟨fun i hi r hr j hj c hc => ?_, hr⟩
    have hcol : j * nC + c < nC * N := by rw [Nat.mul_comm nC N]; exact idx_lt hj hc
    rw [hidx, hm i hi _ (idx_lt hr hcol), mod_row hcol, div_row hcol, div_row hc, mod_row hc]
    exact if_congr eq_comm rfl rfl

/-! ## `linspace` -/

theorem alone_of_wp {size : ℕ → ℕ} {vis mine : Loc → Prop} (p : Prog K Unit) {m : Mem K} {Q : Unit → Mem K → Prop}
    (h : wp size vis mine p m Q) : ∃ m', alone size p m = some m' ∧ Q () m' := by
  induction p generalizing m with
  | ret a => exact ⟨m, rfl, h⟩
  | load l k ih =>
    obtain ⟨m', h1, h2⟩ := ih _ h.2.2
    exact ⟨m', by unfold alone; rw [if_pos h.1]; exact h1, h2⟩
  | store l v k ih =>
    obtain ⟨m', h1, h2⟩ := ih h.2.2
    exact ⟨m', by unfold alone; rw [if_pos h.1]; exact h1, h2⟩

theorem copyRow_run {size : ℕ → ℕ} {src row d : ℕ} {m : Mem K} (hs : src ≠ 0) (h1 : d ≤ size src)
    (h0 : row * d + d ≤ size 0) :
    alone size (copyRow src row d) m = some (written m (row * d) d fun r => m (src, r)) := by
  obtain ⟨m', g1, g2⟩ := alone_of_wp (size := size) (vis := fun _ => True) (mine := fun _ => True)
    (copyRow src row d) (m := m) (Q := fun _ y => y = written m (row * d) d fun r => m (src, r))
    (wp_fill _ _ _ _ (fun c hc x hx => by
      have := reads_rd (size := size) (m := x) (a := src) (o := c) (by omega) (vis := fun _ => True) trivial
      rwa [hx _ (by simp [hs])] at this) h0 fun _ _ => trivial)
  rw [g1, g2]

/-- Row `i + 1` belongs to iteration `i`. -/
def ownRow (d : ℕ) (l : Loc) : Option ℕ := if l.1 = 0 ∧ l.2 / d ≠ 0 then some (l.2 / d - 1) else none

/-- **C123** for `linspace` of vectors: at least two points, `step` already computed. -/
theorem C123_linspace (size : ℕ → ℕ) (N d : ℕ) (hN : 2 ≤ N) (h0 : size 0 = N * d) (h1 : size 1 = d)
    (h2 : size 2 = d) (h3 : size 3 = d) (m0 : Mem K) (plan : List (List ℕ))
    (hp : plan.flatten.Perm (List.range (N - 2))) :
    (∀ sched, ∃ s, linspaceRun size N d plan sched m0 = some s ∧ (s.finished →
      (∀ r < d, s.mem (0, r) = m0 (1, r) ∧ s.mem (0, (N - 1) * d + r) = m0 (2, r) ∧
        ∀ i, 0 < i → i < N - 1 → s.mem (0, i * d + r) = m0 (1, r) + (i : K) * m0 (3, r)) ∧
      ∀ l : Loc, l.1 ≠ 0 → s.mem l = m0 l)) ∧
    ∃ B, ∀ sched, (∀ w < plan.length, B ≤ sched.count w) →
      ∃ s, linspaceRun size N d plan sched m0 = some s ∧ s.finished := by
  let m1 : Mem K := written m0 (0 * d) d fun r => m0 (1, r)
  have hin : ∀ l : Loc, l.1 ≠ 0 → m1 l = m0 l := fun l hl => written_off _ _ _ _ _ fun h => hl h.1
  have first : alone size (copyRow 1 0 d) m0 = some m1 :=
    copyRow_run (by omega) (by omega) (by
      rw [h0]; exact idx_le (by omega))
  have hown : ∀ i r, r < d → ownRow d (0, (i + 1) * d + r) = some i := by
    intro i r hr
    unfold ownRow
    rw [if_pos ⟨rfl, by simp only [div_row hr]; omega⟩]
    simp only [div_row hr, Nat.add_sub_cancel]
  have last : ∀ m : Mem K, alone size (copyRow 2 (N - 1) d) m =
      some (written m ((N - 1) * d) d fun r => m (2, r)) := fun m =>
    copyRow_run (by omega) (by omega) (by rw [h0]; exact idx_le (by omega))
  obtain ⟨k1, k2⟩ := prange_correct (size := size) (ownRow d) (body := linspaceBody d) (m0 := m1)
    (Q := fun i y => ∀ r < d, y (0, (i + 1) * d + r) = m0 (1, r) + ((i + 1 : ℕ) : K) * m0 (3, r)) (N := N - 2)
    (fun i x y hxy hx r hr => by rw [hxy _ (.inl (hown i r hr)), hx r hr])
    (fun i hi => by
      refine wp_mono _ (wp_assign ((i + 1) * d) d _ (fun r => m0 (1, r) + ((i + 1 : ℕ) : K) * m0 (3, r))
        (fun c hc => ?_) (by rw [h0]; exact idx_le (by omega)) fun r hr => hown i r hr) ?_
      · have r1 := reads_rd (size := size) (m := m1) (a := 1) (o := c) (by omega)
          (vis := fun l => ownRow d l = some i ∨ ownRow d l = none) (.inr (if_neg (by simp)))
        have r3 := reads_rd (size := size) (m := m1) (a := 3) (o := c) (by omega)
          (vis := fun l => ownRow d l = some i ∨ ownRow d l = none) (.inr (if_neg (by simp)))
        rw [hin _ (by simp)] at r1 r3
        refine reads_bind r1 ?_
        refine reads_bind r3 ?_
        exact reads_ret _ _
      · rintro - y rfl r hr
        exact written_at _ _ _ _ _ hr) plan hp
  have run : ∀ sched s, prange size (linspaceBody d) plan sched m1 = some s →
      linspaceRun size N d plan sched m0 =
        some ⟨s.threads, written s.mem ((N - 1) * d) d fun r => s.mem (2, r)⟩ := by
    intro sched s hs
    unfold linspaceRun
    simp only [first, hs, last, Option.bind_eq_bind, Option.bind_some, Option.pure_def]
  refine ⟨fun sched => ?_, ?_⟩
  · obtain ⟨s, h4, h5⟩ := k1 sched
    refine ⟨_, run sched s h4, fun hf => ?_⟩
    obtain ⟨g1, g2⟩ := h5 hf
    have hinp : ∀ l : Loc, l.1 ≠ 0 → s.mem l = m0 l := fun l hl => by
      rw [g2 l fun i _ => ?_, hin l hl]
      unfold ownRow
      rw [if_neg (fun h => hl h.1)]
      simp
    have hrow : ∀ i r, i < N - 1 → r < d →
        written s.mem ((N - 1) * d) d (fun r => s.mem (2, r)) (0, i * d + r) = s.mem (0, i * d + r) := by
      intro i r hi hr
      have := idx_le (M := d) hi
      exact written_off _ _ _ _ _ (by simp only; omega)
    dsimp only
    refine ⟨fun r hr => ⟨?_, ?_, fun i hi hi' => ?_⟩, fun l hl => ?_⟩
    · have := hrow 0 r (by omega) hr
      rw [Nat.zero_mul, Nat.zero_add] at this
      rw [this, g2 _ fun i _ => ?_]
      · have := written_at m0 (0 * d) d (fun r => m0 (1, r)) r hr
        rw [Nat.zero_mul, Nat.zero_add] at this
        have e : m1 = written m0 (0 * d) d fun r => m0 (1, r) := rfl
        rw [e, Nat.zero_mul]
        exact this
      · unfold ownRow
        rw [if_neg (by simp [Nat.div_eq_of_lt hr])]
        simp
    · rw [written_at _ _ _ _ _ hr, hinp _ (by simp)]
    · rw [hrow i r hi' hr]
      have := g1 (i - 1) (by omega) r hr
      rw [Nat.sub_add_cancel hi] at this
      exact this
    · rw [written_off _ _ _ _ _ fun h => hl h.1, hinp l hl]
  · obtain ⟨B, hB⟩ := k2
    refine ⟨B, fun sched hs => ?_⟩
    obtain ⟨s, h4, h5⟩ := hB sched hs
    exact ⟨_, run sched s h4, h5⟩

/-! ## Tensors of second order -/

theorem wp_congruence {size : ℕ → ℕ} {M i d q o : ℕ} {m m0 : Mem K} (hq : q + d * d ≤ size 1)
    (ho : o + d * d ≤ size 2) (h0 : o + d * d ≤ size 0) (hm : ∀ l : Loc, l.1 ≠ 0 → m l = m0 l)
    (hmine : ∀ r < d * d, mineB M i (0, o + r)) :
    wp size (visB M i) (mineB M i) (congruence d q o) m fun _ y => y = written m o (d * d) fun e =>
      ∑ c ∈ Finset.range d, (∑ b ∈ Finset.range d, m0 (1, q + e / d * d + b) * m0 (2, o + b * d + c)) *
        m0 (1, q + e % d * d + c) := by
  have hdm : ∀ e < d * d, e / d < d ∧ e % d < d := by
    intro e he
    have hd : 0 < d := by
      rcases Nat.eq_zero_or_pos d with h | h
      · subst h; simp at he
      · exact h
    exact ⟨(Nat.div_lt_iff_lt_mul hd).2 he, Nat.mod_lt _ hd⟩
  refine (reads_tab (d * d) _ (fun e => ∑ b ∈ Finset.range d, m0 (1, q + e / d * d + b) * m0 (2, o + b * d + e % d))
    fun e he => ?_).wp _ ?_
  · obtain ⟨e1, e2⟩ := hdm e he
    refine reads_sum d _ _ fun b hb => ?_
    have f1 := idx_lt e1 hb
    have f2 := idx_lt hb e2
    refine reads_bind (reads_in (by omega) (by omega) (hm _ (by simp))) ?_
    refine reads_bind (reads_in (by omega) (by omega) (hm _ (by simp))) ?_
    exact reads_ret _ _
  · refine wp_assign o (d * d) _ _ (fun e he => ?_) h0 hmine
    obtain ⟨e1, e2⟩ := hdm e he
    refine reads_sum d _ _ fun c hc => ?_
    have f1 := idx_lt e2 hc
    refine reads_bind (reads_in (by omega) (by omega) (hm _ (by simp))) ?_
    simp only [if_pos (idx_lt e1 hc), div_row hc, mod_row hc]
    exact reads_ret _ _

/-- One tensor per iteration. -/
theorem tr2_stack {size : ℕ → ℕ} {N d : ℕ} {q : ℕ → ℕ} {body : ℕ → Prog K Unit} {m0 : Mem K}
    (hbody : ∀ i, body i = congruence d (q i) (i * (d * d)))
    (h0 : size 0 = N * (d * d)) (h2 : size 2 = N * (d * d)) (hq : ∀ i < N, q i + d * d ≤ size 1) :
    Computes size N body m0 fun m =>
      (∀ i < N, ∀ r < d, ∀ s < d, m (0, i * (d * d) + (r * d + s)) =
        ∑ c ∈ Finset.range d, (∑ b ∈ Finset.range d, m0 (1, q i + r * d + b) * m0 (2, i * (d * d) + b * d + c)) *
          m0 (1, q i + s * d + c)) ∧ ∀ l : Loc, l.1 ≠ 0 → m l = m0 l := by
  refine Computes.mono (computes_blocks (M := d * d) (g := fun i e =>
    ∑ c ∈ Finset.range d, (∑ b ∈ Finset.range d, m0 (1, q i + e / d * d + b) * m0 (2, i * (d * d) + b * d + c)) *
      m0 (1, q i + e % d * d + c)) fun i hi => ?_) ?_
  · rw [hbody]
    have := idx_le (M := d * d) hi
    refine wp_mono _ (wp_congruence (m0 := m0) (hq i hi) (by omega) (by omega) (fun _ _ => rfl)
      fun r hr => ownB_block hr) ?_
    rintro - y rfl r hr
    exact written_at _ _ _ _ _ hr
  · rintro m ⟨hm, hr⟩
    refine ⟨fun i hi r hr s hs => ?_, hr⟩
    rw [hm i hi _ (idx_lt hr hs), div_row hs, mod_row hs]

/-- A row of tensors per iteration. -/
theorem tr2_grid {size : ℕ → ℕ} {N nX d : ℕ} {q : ℕ → ℕ} {body : ℕ → Prog K Unit} {m0 : Mem K}
    (hbody : ∀ i, body i = loop nX fun j => congruence d (q i) ((i * nX + j) * (d * d)))
    (h0 : size 0 = N * nX * (d * d)) (h2 : size 2 = N * nX * (d * d)) (hq : ∀ i < N, q i + d * d ≤ size 1) :
    Computes size N body m0 fun m =>
      (∀ i < N, ∀ j < nX, ∀ r < d, ∀ s < d, m (0, (i * nX + j) * (d * d) + (r * d + s)) =
        ∑ c ∈ Finset.range d,
          (∑ b ∈ Finset.range d, m0 (1, q i + r * d + b) * m0 (2, (i * nX + j) * (d * d) + b * d + c)) *
            m0 (1, q i + s * d + c)) ∧ ∀ l : Loc, l.1 ≠ 0 → m l = m0 l := by
  have hidx : ∀ i j : ℕ, (i * nX + j) * (d * d) = i * (nX * (d * d)) + j * (d * d) := by intro i j; ring
  let G : ℕ → ℕ → K := fun i e => ∑ c ∈ Finset.range d,
    (∑ b ∈ Finset.range d, m0 (1, q i + e % (d * d) / d * d + b) *
      m0 (2, (i * nX + e / (d * d)) * (d * d) + b * d + c)) * m0 (1, q i + e % (d * d) % d * d + c)
  refine Computes.mono (computes_blocks (M := nX * (d * d)) (g := G) fun i hi => ?_) ?_
  · rw [hbody]
    refine wp_mono _ (wp_rows (off := i * (nX * (d * d))) (d := d * d) (g := G i) fun j hj x hx => ?_) ?_
    · have e1 := idx_le (M := d * d) (idx_lt hi hj)
      refine wp_mono _ (wp_congruence (m0 := m0) (hq i hi) (by omega) (by omega) hx fun r hr => ?_) ?_
      · rw [hidx, Nat.add_assoc]
        exact ownB_block (idx_lt hj hr)
      · rintro - y rfl
        rw [← hidx]
        refine written_congr fun r hr => ?_
        simp only [G, div_row hr, mod_row hr]
    · rintro - y rfl r hr
      exact written_at _ _ _ _ _ hr
  · rintro m ⟨hm, hr⟩
    refine ⟨fun i hi j hj r hr s hs => ?_, hr⟩
    rw [hidx, Nat.add_assoc, hm i hi _ (idx_lt hj (idx_lt hr hs))]
    simp only [G, div_row (idx_lt hr hs), mod_row (idx_lt hr hs), div_row hs, mod_row hs, hidx]

/-- **C123** for the transformation `Q A Qᵀ` of stacks of tensors: one matrix for all, one for each, and the same for stacks of
stacks. -/
theorem C123_tr2 (size : ℕ → ℕ) (N nX d : ℕ) (m0 : Mem K) :
    (size 0 = N * (d * d) → size 1 = d * d → size 2 = N * (d * d) →
      Computes size N (trSingleBody d) m0 fun m =>
        (∀ i < N, ∀ r < d, ∀ s < d, m (0, i * (d * d) + (r * d + s)) = ∑ c ∈ Finset.range d,
          (∑ b ∈ Finset.range d, m0 (1, r * d + b) * m0 (2, i * (d * d) + b * d + c)) * m0 (1, s * d + c)) ∧
        ∀ l : Loc, l.1 ≠ 0 → m l = m0 l) ∧
    (size 0 = N * (d * d) → size 1 = N * (d * d) → size 2 = N * (d * d) →
      Computes size N (trMultiBody d) m0 fun m =>
        (∀ i < N, ∀ r < d, ∀ s < d, m (0, i * (d * d) + (r * d + s)) = ∑ c ∈ Finset.range d,
          (∑ b ∈ Finset.range d, m0 (1, i * (d * d) + r * d + b) * m0 (2, i * (d * d) + b * d + c)) *
            m0 (1, i * (d * d) + s * d + c)) ∧
        ∀ l : Loc, l.1 ≠ 0 → m l = m0 l) ∧
    (size 0 = N * nX * (d * d) → size 1 = d * d → size 2 = N * nX * (d * d) →
      Computes size N (trSingle2Body nX d) m0 fun m =>
        (∀ i < N, ∀ j < nX, ∀ r < d, ∀ s < d, m (0, (i * nX + j) * (d * d) + (r * d + s)) = ∑ c ∈ Finset.range d,
          (∑ b ∈ Finset.range d, m0 (1, r * d + b) * m0 (2, (i * nX + j) * (d * d) + b * d + c)) *
            m0 (1, s * d + c)) ∧
        ∀ l : Loc, l.1 ≠ 0 → m l = m0 l) ∧
    (size 0 = N * nX * (d * d) → size 1 = N * (d * d) → size 2 = N * nX * (d * d) →
      Computes size N (trMulti2Body nX d) m0 fun m =>
        (∀ i < N, ∀ j < nX, ∀ r < d, ∀ s < d, m (0, (i * nX + j) * (d * d) + (r * d + s)) = ∑ c ∈ Finset.range d,
          (∑ b ∈ Finset.range d,
            m0 (1, i * (d * d) + r * d + b) * m0 (2, (i * nX + j) * (d * d) + b * d + c)) *
              m0 (1, i * (d * d) + s * d + c)) ∧
        ∀ l : Loc, l.1 ≠ 0 → m l = m0 l) := by
  refine ⟨fun h0 h1 h2 => ?_, fun h0 h1 h2 => ?_, fun h0 h1 h2 => ?_, fun h0 h1 h2 => ?_⟩
  · simpa only [Nat.zero_add] using tr2_stack (m0 := m0) (q := fun _ => 0) (body := trSingleBody d) (fun _ => rfl)
      h0 h2 fun _ _ => by omega
  · exact tr2_stack (m0 := m0) (q := fun i => i * (d * d)) (body := trMultiBody d) (fun _ => rfl) h0 h2
      fun i hi => by rw [h1]; exact idx_le hi
  · simpa only [Nat.zero_add] using tr2_grid (m0 := m0) (q := fun _ => 0) (body := trSingle2Body nX d)
      (fun _ => rfl) h0 h2 fun _ _ => by omega
  · exact tr2_grid (m0 := m0) (q := fun i => i * (d * d)) (body := trMulti2Body nX d) (fun _ => rfl) h0 h2
      fun i hi => by rw [h1]; exact idx_le hi

/-! ## Tensors of fourth order -/

theorem sum_blocks (n d : ℕ) (f : ℕ → K) :
    ∑ e ∈ Finset.range (n * d), f e = ∑ i ∈ Finset.range n, ∑ j ∈ Finset.range d, f (i * d + j) := by
  induction n with
  | zero => simp
  | succ n ih => rw [Nat.add_mul, Nat.one_mul, Finset.sum_range_add, ih, Finset.sum_range_succ]

theorem sum_digits (f : ℕ → K) :
    ∑ e ∈ Finset.range 81, f e = ∑ p ∈ Finset.range 3, ∑ q ∈ Finset.range 3, ∑ r ∈ Finset.range 3,
      ∑ s ∈ Finset.range 3, f (((p * 3 + q) * 3 + r) * 3 + s) := by
  rw [show 81 = 3 * 3 * 3 * 3 from rfl, sum_blocks (3 * 3 * 3) 3, sum_blocks (3 * 3) 3, sum_blocks 3 3]

/-- A loop that adds to all cells of a block in each round. -/
theorem wp_accumulate {size : ℕ → ℕ} {vis mine : Loc → Prop} {off n R : ℕ} {f : ℕ → Prog K Unit} {a : ℕ → ℕ → K}
    {m : Mem K}
    (h : ∀ e < R, ∀ x : Mem K, (∀ l : Loc, l.1 ≠ 0 → x l = m l) →
      wp size vis mine (f e) x fun _ y => y = written x off n fun r => x (0, off + r) + a e r) :
    wp size vis mine (loop R f) m fun _ y => y = written m off n fun r =>
      m (0, off + r) + ∑ e ∈ Finset.range R, a e r := by
  refine wp_loop R f (fun e y => y = written m off n fun r => m (0, off + r) + ∑ e' ∈ Finset.range e, a e' r) ?_ ?_
  · funext l
    obtain ⟨b, o⟩ := l
    unfold written
    split
    · rename_i hc
      obtain ⟨rfl, h2, h3⟩ := hc
      simp only [Finset.range_zero, Finset.sum_empty, add_zero]
      congr 2
      omega
    · rfl
  · rintro e he x rfl
    refine wp_mono _ (h e he _ fun l hl => written_off _ _ _ _ _ fun hh => hl hh.1) ?_
    rintro - y rfl
    funext l
    obtain ⟨b, o⟩ := l
    by_cases hc : b = 0 ∧ off ≤ o ∧ o < off + n
    · obtain ⟨rfl, h2, h3⟩ := hc
      obtain ⟨r, rfl⟩ : ∃ r, o = off + r := ⟨o - off, by omega⟩
      rw [written_at _ _ _ _ _ (by omega), written_at _ _ _ _ _ (by omega), written_at _ _ _ _ _ (by omega),
        Finset.sum_range_succ, add_assoc]
    · rw [written_off _ _ _ _ _ hc, written_off _ _ _ _ _ hc, written_off _ _ _ _ _ hc]

/-- A loop that adds to each cell of a block once. -/
theorem wp_add_each {size : ℕ → ℕ} {vis mine : Loc → Prop} {off n : ℕ} {f : ℕ → Prog K Unit} {a : ℕ → K}
    {m : Mem K}
    (h : ∀ j < n, ∀ x : Mem K, (∀ l : Loc, l.1 ≠ 0 → x l = m l) →
      wp size vis mine (f j) x fun _ y => y = Function.update x (0, off + j) (x (0, off + j) + a j)) :
    wp size vis mine (loop n f) m fun _ y => y = written m off n fun r => m (0, off + r) + a r := by
  refine wp_loop n f (fun j y => y = written m off j fun r => m (0, off + r) + a r) (written_zero _ _ _).symm ?_
  rintro j hj x rfl
  refine wp_mono _ (h j hj _ fun l hl => written_off _ _ _ _ _ fun hh => hl hh.1) ?_
  rintro - y rfl
  rw [written_off _ _ _ _ (0, off + j) (by simp only; omega)]
  exact written_succ m off j fun r => m (0, off + r) + a r

theorem wp_tr3333 {size : ℕ → ℕ} {M i q o : ℕ} {m m0 : Mem K} (hq : q + 9 ≤ size 1) (ho : o + 81 ≤ size 2)
    (h0 : o + 81 ≤ size 0) (hm : ∀ l : Loc, l.1 ≠ 0 → m l = m0 l) (hmine : ∀ r < 81, mineB M i (0, o + r)) :
    wp size (visB M i) (mineB M i) (tr3333 q o) m fun _ y => y = written m o 81 fun f =>
      m (0, o + f) + ∑ e ∈ Finset.range 81, m0 (1, q + f / 27 * 3 + e / 27) * m0 (1, q + f / 9 % 3 * 3 + e / 9 % 3) *
        m0 (1, q + f / 3 % 3 * 3 + e / 3 % 3) * m0 (1, q + f % 3 * 3 + e % 3) * m0 (2, o + e) := by
  unfold tr3333
  generalize hn : 81 = n at *
  refine wp_accumulate (a := fun e f => m0 (1, q + f / 27 * 3 + e / 27) * m0 (1, q + f / 9 % 3 * 3 + e / 9 % 3) *
        m0 (1, q + f / 3 % 3 * 3 + e / 3 % 3) * m0 (1, q + f % 3 * 3 + e % 3) * m0 (2, o + e))
    fun e he x hx => ?_
  refine wp_add_each fun f hf y hy => ?_
  have hy' : ∀ l : Loc, l.1 ≠ 0 → y l = m0 l := fun l hl => by rw [hy l hl, hx l hl, hm l hl]
  refine (reads_in (m0 := m0) (by omega) (by omega) (hy' _ (by simp))).wp _ ?_
  refine (reads_in (m0 := m0) (by omega) (by omega) (hy' _ (by simp))).wp _ ?_
  refine (reads_in (m0 := m0) (by omega) (by omega) (hy' _ (by simp))).wp _ ?_
  refine (reads_in (m0 := m0) (by omega) (by omega) (hy' _ (by simp))).wp _ ?_
  refine (reads_in (m0 := m0) (by omega) (by omega) (hy' _ (by simp))).wp _ ?_
  refine (reads_rd (m := y) (by omega) (vis := visB M i) (.inl (hmine f hf))).wp _ ?_
  exact ⟨by simp only; omega, hmine f hf, rfl⟩

attribute [local irreducible] tr3333

/-- One tensor per iteration. -/
theorem tr4_stack {size : ℕ → ℕ} {N : ℕ} {q : ℕ → ℕ} {body : ℕ → Prog K Unit} {m0 : Mem K}
    (hbody : ∀ i, body i = tr3333 (q i) (i * 81)) (hz : ∀ o, m0 (0, o) = 0)
    (h0 : size 0 = N * 81) (h2 : size 2 = N * 81) (hq : ∀ i < N, q i + 9 ≤ size 1) :
    Computes size N body m0 fun m =>
      (∀ i < N, ∀ a < 3, ∀ b < 3, ∀ c < 3, ∀ d < 3, m (0, i * 81 + (((a * 3 + b) * 3 + c) * 3 + d)) =
        ∑ p ∈ Finset.range 3, ∑ t ∈ Finset.range 3, ∑ r ∈ Finset.range 3, ∑ s ∈ Finset.range 3,
          m0 (1, q i + a * 3 + p) * m0 (1, q i + b * 3 + t) * m0 (1, q i + c * 3 + r) * m0 (1, q i + d * 3 + s) *
            m0 (2, i * 81 + (((p * 3 + t) * 3 + r) * 3 + s))) ∧ ∀ l : Loc, l.1 ≠ 0 → m l = m0 l := by
  refine Computes.mono (computes_blocks (M := 81) (g := fun i f =>
    ∑ e ∈ Finset.range 81, m0 (1, q i + f / 27 * 3 + e / 27) * m0 (1, q i + f / 9 % 3 * 3 + e / 9 % 3) *
        m0 (1, q i + f / 3 % 3 * 3 + e / 3 % 3) * m0 (1, q i + f % 3 * 3 + e % 3) * m0 (2, i * 81 + e))
    fun i hi => ?_) ?_
  · rw [hbody]
    refine wp_mono _ (wp_tr3333 (m0 := m0) (hq i hi) (by omega) (by omega) (fun _ _ => rfl)
      fun r hr => ownB_block hr) ?_
    rintro - y rfl r hr
    rw [written_at _ _ _ _ _ hr, hz, zero_add]
  · rintro m ⟨hm, hr⟩
    refine ⟨fun i hi a ha b hb c hc d hd => ?_, hr⟩
    rw [hm i hi _ (by omega), sum_digits]
    refine Finset.sum_congr rfl fun p hp => Finset.sum_congr rfl fun t ht => Finset.sum_congr rfl fun r hr =>
      Finset.sum_congr rfl fun s hs => ?_
    simp only [Finset.mem_range] at hp ht hr hs
    have d1 : ∀ u v w x : ℕ, v < 3 → w < 3 → x < 3 → (((u * 3 + v) * 3 + w) * 3 + x) / 27 = u := by omega
    have d2 : ∀ u v w x : ℕ, v < 3 → w < 3 → x < 3 → (((u * 3 + v) * 3 + w) * 3 + x) / 9 % 3 = v := by omega
    have d3 : ∀ u v w x : ℕ, v < 3 → w < 3 → x < 3 → (((u * 3 + v) * 3 + w) * 3 + x) / 3 % 3 = w := by omega
    have d4 : ∀ u v w x : ℕ, v < 3 → w < 3 → x < 3 → (((u * 3 + v) * 3 + w) * 3 + x) % 3 = x := by omega
    rw [d1 a b c d hb hc hd, d2 a b c d hb hc hd, d3 a b c d hb hc hd, d4 a b c d hb hc hd,
      d1 p t r s ht hr hs, d2 p t r s ht hr hs, d3 p t r s ht hr hs, d4 p t r s ht hr hs]

end

end Verif.Par.Props
