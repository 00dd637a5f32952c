import Verif.Proofs.Parallel
import Mathlib.Tactic.FieldSimp
import Mathlib.Tactic.IntervalCases
import Mathlib.Tactic.LinearCombination

/-! # Parallel loops, read by read and write by write (C123) -/

set_option linter.unusedSectionVars false

namespace Verif.Par.Props

open Verif.Par

/-- Whatever threads the `N` iterations are given to and however their accesses are interleaved, the loop never leaves the arrays, and the
memory has the property when all threads are done; they are done when each of them had enough turns. -/
def Computes {V : Type} (size : ℕ → ℕ) (N : ℕ) (body : ℕ → Prog V Unit) (m0 : Mem V) (post : Mem V → Prop) :
    Prop :=
  ∀ plan : List (List ℕ), plan.flatten.Perm (List.range N) →
    (∀ sched, ∃ s, prange size body plan sched m0 = some s ∧ (s.finished → post s.mem)) ∧
    ∃ B, ∀ sched, (∀ w < plan.length, B ≤ sched.count w) →
      ∃ s, prange size body plan sched m0 = some s ∧ s.finished

/-! ## Lemmas -/

section
variable {K : Type} [Field K] [LinearOrder K]

/-- Blocks of `M` cells. -/
def ownB (M : ℕ) (l : Loc) : Option ℕ := if l.1 = 0 then some (l.2 / M) else none

theorem ownB_block {M i r : ℕ} (hr : r < M) : ownB M (0, i * M + r) = some i := by
  unfold ownB
  rw [if_pos rfl]
  congr 1
  rw [Nat.mul_comm, Nat.mul_add_div (by omega), Nat.div_eq_of_lt hr, Nat.add_zero]

theorem ownB_input {M a o : ℕ} (ha : a ≠ 0) : ownB M (a, o) = none := if_neg ha

abbrev visB (M i : ℕ) : Loc → Prop := fun l => ownB M l = some i ∨ ownB M l = none
abbrev mineB (M i : ℕ) : Loc → Prop := fun l => ownB M l = some i

theorem idx_lt {N M i r : ℕ} (hi : i < N) (hr : r < M) : i * M + r < N * M := by
  have : (i + 1) * M ≤ N * M := Nat.mul_le_mul_right M hi
  rw [Nat.add_mul, Nat.one_mul] at this
  omega

theorem idx_le {N M i : ℕ} (hi : i < N) : i * M + M ≤ N * M := by
  have : (i + 1) * M ≤ N * M := Nat.mul_le_mul_right M hi
  rw [Nat.add_mul, Nat.one_mul] at this
  omega

theorem computes_blocks {V : Type} {size : ℕ → ℕ} {N M : ℕ} {body : ℕ → Prog V Unit} {m0 : Mem V}
    {g : ℕ → ℕ → V}
    (hb : ∀ i < N, wp size (visB M i) (mineB M i) (body i) m0 fun _ y => ∀ r < M, y (0, i * M + r) = g i r) :
    Computes size N body m0 fun m =>
      (∀ i < N, ∀ r < M, m (0, i * M + r) = g i r) ∧ ∀ l : Loc, l.1 ≠ 0 → m l = m0 l := by
  intro plan hp
  obtain ⟨h1, h2⟩ := prange_correct (ownB M) (Q := fun i y => ∀ r < M, y (0, i * M + r) = g i r)
    (fun i x y hxy hx r hr => by rw [hxy _ (.inl (ownB_block hr)), hx r hr]) hb plan hp
  refine ⟨fun sched => ?_, h2⟩
  obtain ⟨s, h3, h4⟩ := h1 sched
  refine ⟨s, h3, fun hf => ⟨(h4 hf).1, fun l hl => (h4 hf).2 l fun i _ => ?_⟩⟩
  unfold ownB
  rw [if_neg hl]
  simp

theorem computes_cells {V : Type} {size : ℕ → ℕ} {N : ℕ} {body : ℕ → Prog V Unit} {m0 : Mem V} {g : ℕ → V}
    (hb : ∀ i < N, wp size (visB 1 i) (mineB 1 i) (body i) m0 fun _ y => y (0, i) = g i) :
    Computes size N body m0 fun m => (∀ i < N, m (0, i) = g i) ∧ ∀ l : Loc, l.1 ≠ 0 → m l = m0 l := by
  intro plan hp
  obtain ⟨h1, h2⟩ := computes_blocks (M := 1) (g := fun i _ => g i)
    (fun i hi => wp_mono _ (hb i hi) fun _ y hy r hr => by
      obtain rfl : r = 0 := by omega
      simpa using hy) plan hp
  refine ⟨fun sched => ?_, h2⟩
  obtain ⟨s, h3, h4⟩ := h1 sched
  refine ⟨s, h3, fun hf => ⟨fun i hi => ?_, (h4 hf).2⟩⟩
  have := (h4 hf).1 i hi 0 (by omega)
  simpa using this

theorem reads_in {V : Type} {size : ℕ → ℕ} {M i a o : ℕ} {m m0 : Mem V} (ha : a ≠ 0) (hb : o < size a)
    (hm : m (a, o) = m0 (a, o)) : Reads size (visB M i) (rd a o) m (m0 (a, o)) := by
  have := reads_rd (V := V) (m := m) hb (vis := visB M i) (.inr (ownB_input ha))
  rwa [hm] at this

/-- A cell written by its iteration. -/
theorem wp_cell {V : Type} {size : ℕ → ℕ} {i : ℕ} {m : Mem V} {v : V} (hb : i < size 0) :
    wp size (visB 1 i) (mineB 1 i) (wr 0 i v) m fun _ y => y (0, i) = v := by
  refine ⟨hb, ?_, ?_⟩
  · have := ownB_block (M := 1) (i := i) (r := 0) (by omega)
    simpa using this
  · exact Function.update_self _ _ _

theorem wp_fill_block {size : ℕ → ℕ} {M i : ℕ} {f : ℕ → Prog K K} {g : ℕ → K} {m : Mem K}
    (h : ∀ c < M, ∀ x : Mem K, (∀ l : Loc, l.1 ≠ 0 → x l = m l) → Reads size (visB M i) (f c) x (g c))
    (hb : i * M + M ≤ size 0) :
    wp size (visB M i) (mineB M i) (fill (i * M) M f) m fun _ y => ∀ r < M, y (0, i * M + r) = g r := by
  refine wp_mono _ (wp_fill (i * M) M f g (fun c hc x hx => h c hc x fun l hl => hx l fun hh => hl hh.1) hb
    fun r hr => ownB_block hr) ?_
  rintro - y rfl r hr
  exact written_at _ _ _ _ _ hr

theorem wp_assign_block {size : ℕ → ℕ} {M i : ℕ} {f : ℕ → Prog K K} {g : ℕ → K} {m : Mem K}
    (h : ∀ c < M, Reads size (visB M i) (f c) m (g c)) (hb : i * M + M ≤ size 0) :
    wp size (visB M i) (mineB M i) (assign (i * M) M f) m fun _ y => ∀ r < M, y (0, i * M + r) = g r := by
  refine wp_mono _ (wp_assign (i * M) M f g h hb fun r hr => ownB_block hr) ?_
  rintro - y rfl r hr
  exact written_at _ _ _ _ _ hr

/-! ## Copies -/

/-- **C123** for `repeat` and `repeat1d`. -/
theorem C123_repeat (size : ℕ → ℕ) (N M : ℕ) (h0 : size 0 = N * M) (h1 : size 1 = M) (m0 : Mem K) :
    Computes size N (repeatBody M) m0 fun m =>
      (∀ i < N, ∀ r < M, m (0, i * M + r) = m0 (1, r)) ∧ ∀ l : Loc, l.1 ≠ 0 → m l = m0 l := by
  refine computes_blocks (g := fun _ r => m0 (1, r)) fun i hi => ?_
  refine wp_fill_block (fun c hc x hx => ?_) (by rw [h0]; exact idx_le hi)
  exact reads_in (by omega) (by omega) (hx _ (by simp))

/-- **C123** for `tile` and `tile1d`. -/
theorem C123_tile (size : ℕ → ℕ) (cast : K → K) (N M : ℕ) (h0 : size 0 = N * M) (h1 : size 1 = M)
    (h2 : size 2 = M) (m0 : Mem K) :
    Computes size N (tileBody cast M) m0 fun m =>
      (∀ i < N, ∀ r < M, m (0, i * M + r) = cast (m0 (1, r) + (i : K) * m0 (2, r))) ∧
        ∀ l : Loc, l.1 ≠ 0 → m l = m0 l := by
  refine computes_blocks (g := fun i r => cast (m0 (1, r) + (i : K) * m0 (2, r))) fun i hi => ?_
  refine wp_fill_block (fun c hc x hx => ?_) (by rw [h0]; exact idx_le hi)
  refine reads_bind (reads_in (by omega) (by omega) (hx _ (by simp))) ?_
  refine reads_bind (reads_in (by omega) (by omega) (hx _ (by simp))) ?_
  exact reads_ret _ _

/-- **C123** for the comparison of rows. -/
theorem C123_equal_rows (size : ℕ → ℕ) (cast : K → K) (nX nY d : ℕ) (h0 : size 0 = nX * nY)
    (h1 : nX * d ≤ size 1) (h2 : nY * d ≤ size 2) (m0 : Mem K) :
    Computes size nX (equalRowsBody cast nY d) m0 fun m =>
      (∀ i < nX, ∀ j < nY, m (0, i * nY + j) =
        cast (∑ c ∈ Finset.range d, |m0 (1, i * d + c) - m0 (2, j * d + c)|)) ∧
        ∀ l : Loc, l.1 ≠ 0 → m l = m0 l := by
  refine computes_blocks (g := fun i j => cast (∑ c ∈ Finset.range d, |m0 (1, i * d + c) - m0 (2, j * d + c)|))
    fun i hi => ?_
  refine wp_fill_block (fun j hj x hx => ?_) (by rw [h0]; exact idx_le hi)
  refine reads_bind (reads_sum d _ (fun c => |m0 (1, i * d + c) - m0 (2, j * d + c)|) fun c hc => ?_) ?_
  · refine reads_bind (reads_in (by omega) (lt_of_lt_of_le (idx_lt hi hc) h1) (hx _ (by simp))) ?_
    refine reads_bind (reads_in (by omega) (lt_of_lt_of_le (idx_lt hj hc) h2) (hx _ (by simp))) ?_
    exact reads_ret _ _
  · exact reads_ret _ _

/-- **C123** for `_to_range_1d_`. -/
theorem C123_to_range (size : ℕ → ℕ) (cast : K → K) (a b : K) (N : ℕ) (h0 : size 0 = N) (h1 : size 1 = N)
    (m0 : Mem K) :
    Computes size N (toRangeBody cast a b) m0 fun m =>
      (∀ i < N, m (0, i) = cast (a + b * m0 (1, i))) ∧ ∀ l : Loc, l.1 ≠ 0 → m l = m0 l := by
  refine computes_cells fun i hi => ?_
  exact (reads_in (m0 := m0) (by omega) (by omega) rfl).wp _ (wp_cell (by omega))

/-- **C123** for `bin_centers`. -/
theorem C123_bin_centers (size : ℕ → ℕ) (cast : K → K) (N : ℕ) (h0 : size 0 = N) (h1 : size 1 = N + 1)
    (m0 : Mem K) :
    Computes size N (binCentersBody cast) m0 fun m =>
      (∀ i < N, m (0, i) = cast ((m0 (1, i) + m0 (1, i + 1)) / 2)) ∧ ∀ l : Loc, l.1 ≠ 0 → m l = m0 l := by
  refine computes_cells fun i hi => ?_
  refine (reads_in (m0 := m0) (by omega) (by omega) rfl).wp _ ?_
  exact (reads_in (m0 := m0) (by omega) (by omega) rfl).wp _ (wp_cell (by omega))

/-- **C123** for `get_shape_sp` and `count_cols`. -/
theorem C123_widths (size : ℕ → ℕ) (N : ℕ) (h0 : size 0 = N) (h1 : size 1 = N + 1) (m0 : Mem K) :
    Computes size N widthsBody m0 fun m =>
      (∀ i < N, m (0, i) = m0 (1, i + 1) - m0 (1, i)) ∧ ∀ l : Loc, l.1 ≠ 0 → m l = m0 l := by
  refine computes_cells fun i hi => ?_
  refine (reads_in (m0 := m0) (by omega) (by omega) rfl).wp _ ?_
  exact (reads_in (m0 := m0) (by omega) (by omega) rfl).wp _ (wp_cell (by omega))

/-- **C123** for `linspace1d`. -/
theorem C123_linspace1d (size : ℕ → ℕ) (start di : K) (N : ℕ) (h0 : size 0 = N) (m0 : Mem K) :
    Computes size N (linspace1dBody start di) m0 fun m =>
      (∀ i < N, m (0, i) = start + (i : K) * di) ∧ ∀ l : Loc, l.1 ≠ 0 → m l = m0 l :=
  computes_cells fun _ hi => wp_cell (by omega)

/-! ## Matrices -/

theorem reads_rowTimes {size : ℕ → ℕ} {M i d q a r : ℕ} {m m0 : Mem K} (hq : q + r * d + d ≤ size 1)
    (ha : a + d ≤ size 2) (hm : ∀ l : Loc, l.1 ≠ 0 → m l = m0 l) :
    Reads size (visB M i) (rowTimes d q a r) m
      (∑ c ∈ Finset.range d, m0 (1, q + r * d + c) * m0 (2, a + c)) := by
  refine reads_sum d _ _ fun c hc => ?_
  refine reads_bind (reads_in (by omega) (by omega) (hm _ (by simp))) ?_
  refine reads_bind (reads_in (by omega) (by omega) (hm _ (by simp))) ?_
  exact reads_ret _ _

/-- **C123** for `_show_vectors`: a stack of `N` vectors; and for `_show_frame`, with `N = d` rows. -/
theorem C123_show_vectors (size : ℕ → ℕ) (N d : ℕ) (h0 : size 0 = N * d) (h1 : size 1 = d * d)
    (h2 : size 2 = N * d) (m0 : Mem K) :
    Computes size N (showVectorsBody d) m0 fun m =>
      (∀ i < N, ∀ r < d, m (0, i * d + r) = ∑ c ∈ Finset.range d, m0 (1, r * d + c) * m0 (2, i * d + c)) ∧
        ∀ l : Loc, l.1 ≠ 0 → m l = m0 l := by
  refine computes_blocks (g := fun i r => ∑ c ∈ Finset.range d, m0 (1, r * d + c) * m0 (2, i * d + c))
    fun i hi => ?_
  refine wp_assign_block (fun r hr => ?_) (by rw [h0]; exact idx_le hi)
  have := reads_rowTimes (size := size) (M := d) (i := i) (d := d) (q := 0) (a := i * d) (r := r) (m := m0)
    (m0 := m0) (by rw [h1, Nat.zero_add]; exact idx_le hr) (by rw [h2]; exact idx_le hi) (fun _ _ => rfl)
  simpa only [Nat.zero_add] using this

/-- **C123** for `_show_vectors_multi`. -/
theorem C123_show_vectors_multi (size : ℕ → ℕ) (N d : ℕ) (h0 : size 0 = N * d) (h1 : size 1 = N * (d * d))
    (h2 : size 2 = N * d) (m0 : Mem K) :
    Computes size N (showVectorsMultiBody d) m0 fun m =>
      (∀ i < N, ∀ r < d, m (0, i * d + r) =
        ∑ c ∈ Finset.range d, m0 (1, i * (d * d) + r * d + c) * m0 (2, i * d + c)) ∧
        ∀ l : Loc, l.1 ≠ 0 → m l = m0 l := by
  refine computes_blocks
    (g := fun i r => ∑ c ∈ Finset.range d, m0 (1, i * (d * d) + r * d + c) * m0 (2, i * d + c)) fun i hi => ?_
  refine wp_assign_block (fun r hr => ?_) (by rw [h0]; exact idx_le hi)
  refine reads_rowTimes ?_ (by rw [h2]; exact idx_le hi) (fun _ _ => rfl)
  have e1 := idx_le (M := d * d) hi
  have e2 := idx_le (M := d) hr
  omega

/-- A block written row by row. -/
theorem wp_rows {size : ℕ → ℕ} {vis mine : Loc → Prop} {off n d : ℕ} {f : ℕ → Prog K Unit} {g : ℕ → K} {m : Mem K}
    (h : ∀ j < n, ∀ x : Mem K, (∀ l : Loc, l.1 ≠ 0 → x l = m l) →
      wp size vis mine (f j) x fun _ y => y = written x (off + j * d) d fun c => g (j * d + c)) :
    wp size vis mine (loop n f) m fun _ y => y = written m off (n * d) g := by
  refine wp_loop n f (fun j y => y = written m off (j * d) g) ?_ ?_
  · rw [Nat.zero_mul, written_zero]
  · rintro j hj x rfl
    refine wp_mono _ (h j hj _ fun l hl => written_off _ _ _ _ _ fun hh => hl hh.1) ?_
    rintro - y rfl
    funext l
    obtain ⟨a, o⟩ := l
    unfold written
    simp only
    have e : (j + 1) * d = j * d + d := by rw [Nat.add_mul, Nat.one_mul]
    by_cases h1 : a = 0 ∧ off + j * d ≤ o ∧ o < off + j * d + d
    · rw [if_pos h1, if_pos (by omega)]
      congr 1
      omega
    · rw [if_neg h1]
      by_cases h2 : a = 0 ∧ off ≤ o ∧ o < off + j * d
      · rw [if_pos h2, if_pos (by omega)]
      · rw [if_neg h2, if_neg (by omega)]

theorem div_row {d j c : ℕ} (hc : c < d) : (j * d + c) / d = j := by
  rw [Nat.mul_comm, Nat.mul_add_div (by omega), Nat.div_eq_of_lt hc, Nat.add_zero]

theorem mod_row {d j c : ℕ} (hc : c < d) : (j * d + c) % d = c := by
  rw [Nat.mul_comm, Nat.mul_add_mod, Nat.mod_eq_of_lt hc]

theorem written_congr {m : Mem K} {off n : ℕ} {g g' : ℕ → K} (h : ∀ r < n, g r = g' r) :
    written m off n g = written m off n g' := by
  funext l
  unfold written
  split
  · exact h _ (by omega)
  · rfl

/-- **C123** for `_show_frames`. -/
theorem C123_show_frames (size : ℕ → ℕ) (N d : ℕ) (h0 : size 0 = N * (d * d)) (h1 : size 1 = d * d)
    (h2 : size 2 = N * (d * d)) (m0 : Mem K) :
    Computes size N (showFramesBody d) m0 fun m =>
      (∀ i < N, ∀ j < d, ∀ r < d, m (0, i * (d * d) + (j * d + r)) =
        ∑ c ∈ Finset.range d, m0 (1, r * d + c) * m0 (2, i * (d * d) + j * d + c)) ∧
        ∀ l : Loc, l.1 ≠ 0 → m l = m0 l := by
  have key := computes_blocks (size := size) (N := N) (M := d * d) (body := showFramesBody d) (m0 := m0)
    (g := fun i e => ∑ c ∈ Finset.range d, m0 (1, e % d * d + c) * m0 (2, i * (d * d) + e / d * d + c))
    fun i hi => ?_
  · intro plan hp
    obtain ⟨k1, k2⟩ := key plan hp
    refine ⟨fun sched => ?_, k2⟩
    obtain ⟨s, k3, k4⟩ := k1 sched
    refine ⟨s, k3, fun hf => ⟨fun i hi j hj r hr => ?_, (k4 hf).2⟩⟩
    rw [(k4 hf).1 i hi _ (idx_lt hj hr), div_row hr, mod_row hr]
  · refine wp_mono _ (wp_rows (off := i * (d * d)) (d := d)
      (g := fun e => ∑ c ∈ Finset.range d, m0 (1, e % d * d + c) * m0 (2, i * (d * d) + e / d * d + c))
      fun j hj x hx => ?_) ?_
    · have e1 := idx_le (M := d * d) hi
      have e2 := idx_le (M := d) hj
      refine wp_mono _ (wp_assign (i * (d * d) + j * d) d _
        (fun r => ∑ c ∈ Finset.range d, m0 (1, r * d + c) * m0 (2, i * (d * d) + j * d + c))
        (fun r hr => ?_) (by omega) fun r hr => ?_) ?_
      · have := reads_rowTimes (size := size) (M := d * d) (i := i) (d := d) (q := 0) (a := i * (d * d) + j * d)
          (r := r) (m := x) (m0 := m0) (by rw [h1, Nat.zero_add]; exact idx_le hr) (by omega) hx
        simpa only [Nat.zero_add] using this
      · rw [Nat.add_assoc]
        exact ownB_block (idx_lt hj hr)
      · rintro - y rfl
        refine written_congr fun r hr => ?_
        rw [div_row hr, mod_row hr]
    · rintro - y rfl r hr
      exact written_at _ _ _ _ _ hr

/-- **C123** for `_show_frames_multi`. -/
theorem C123_show_frames_multi (size : ℕ → ℕ) (N d : ℕ) (h0 : size 0 = N * (d * d)) (h1 : size 1 = N * (d * d))
    (h2 : size 2 = N * (d * d)) (m0 : Mem K) :
    Computes size N (showFramesMultiBody d) m0 fun m =>
      (∀ i < N, ∀ j < d, ∀ r < d, m (0, i * (d * d) + (j * d + r)) =
        ∑ c ∈ Finset.range d, m0 (1, i * (d * d) + r * d + c) * m0 (2, i * (d * d) + j * d + c)) ∧
        ∀ l : Loc, l.1 ≠ 0 → m l = m0 l := by
  have key := computes_blocks (size := size) (N := N) (M := d * d) (body := showFramesMultiBody d) (m0 := m0)
    (g := fun i e =>
      ∑ c ∈ Finset.range d, m0 (1, i * (d * d) + e % d * d + c) * m0 (2, i * (d * d) + e / d * d + c))
    fun i hi => ?_
  · intro plan hp
    obtain ⟨k1, k2⟩ := key plan hp
    refine ⟨fun sched => ?_, k2⟩
    obtain ⟨s, k3, k4⟩ := k1 sched
    refine ⟨s, k3, fun hf => ⟨fun i hi j hj r hr => ?_, (k4 hf).2⟩⟩
    rw [(k4 hf).1 i hi _ (idx_lt hj hr), div_row hr, mod_row hr]
  · refine wp_mono _ (wp_rows (off := i * (d * d)) (d := d)
      (g := fun e =>
        ∑ c ∈ Finset.range d, m0 (1, i * (d * d) + e % d * d + c) * m0 (2, i * (d * d) + e / d * d + c))
      fun j hj x hx => ?_) ?_
    · have e1 := idx_le (M := d * d) hi
      have e2 := idx_le (M := d) hj
      refine wp_mono _ (wp_assign (i * (d * d) + j * d) d _
        (fun r => ∑ c ∈ Finset.range d, m0 (1, i * (d * d) + r * d + c) * m0 (2, i * (d * d) + j * d + c))
        (fun r hr => ?_) (by omega) fun r hr => ?_) ?_
      · have e3 := idx_le (M := d) hr
        exact reads_rowTimes (by omega) (by omega) hx
      · rw [Nat.add_assoc]
        exact ownB_block (idx_lt hj hr)
      · rintro - y rfl
        refine written_congr fun r hr => ?_
        rw [div_row hr, mod_row hr]
    · rintro - y rfl r hr
      exact written_at _ _ _ _ _ hr

/-- **C123** for `_transpose_multi`. -/
theorem C123_transpose (size : ℕ → ℕ) (N d : ℕ) (h0 : size 0 = N * (d * d)) (h1 : size 1 = N * (d * d))
    (m0 : Mem K) :
    Computes size N (transposeBody d) m0 fun m =>
      (∀ i < N, ∀ r < d, ∀ c < d, m (0, i * (d * d) + (r * d + c)) = m0 (1, i * (d * d) + (c * d + r))) ∧
        ∀ l : Loc, l.1 ≠ 0 → m l = m0 l := by
  have key := computes_blocks (size := size) (N := N) (M := d * d) (body := transposeBody d) (m0 := m0)
    (g := fun i e => m0 (1, i * (d * d) + (e % d * d + e / d)))
    fun i hi => ?_
  · intro plan hp
    obtain ⟨k1, k2⟩ := key plan hp
    refine ⟨fun sched => ?_, k2⟩
    obtain ⟨s, k3, k4⟩ := k1 sched
    refine ⟨s, k3, fun hf => ⟨fun i hi j hj r hr => ?_, (k4 hf).2⟩⟩
    rw [(k4 hf).1 i hi _ (idx_lt hj hr), div_row hr, mod_row hr]
  · refine wp_mono _ (wp_rows (off := i * (d * d)) (d := d)
      (g := fun e => m0 (1, i * (d * d) + (e % d * d + e / d))) fun j hj x hx => ?_) ?_
    · have e1 := idx_le (M := d * d) hi
      have e2 := idx_le (M := d) hj
      refine wp_mono _ (wp_fill (i * (d * d) + j * d) d _ (fun c => m0 (1, i * (d * d) + (c * d + j)))
        (fun c hc y hy => ?_) (by omega) fun r hr => ?_) ?_
      · have e3 := idx_lt hc hj
        have : Reads size (visB (d * d) i) (rd 1 (i * (d * d) + (c * d + j))) y
            (m0 (1, i * (d * d) + (c * d + j))) :=
          reads_in (by omega) (by omega) (by
            rw [hy _ (by simp), hx _ (by simp)])
        rw [Nat.add_assoc]
        exact this
      · rw [Nat.add_assoc]
        exact ownB_block (idx_lt hj hr)
      · rintro - y rfl
        refine written_congr fun r hr => ?_
        rw [div_row hr, mod_row hr]
    · rintro - y rfl r hr
      exact written_at _ _ _ _ _ hr

/-- **C123** for `vpath`. -/
theorem C123_vpath (size : ℕ → ℕ) (cast : K → K) (N d : ℕ) (h0 : size 0 = N * d) (h1 : size 1 = d)
    (h2 : size 2 = N) (h3 : size 3 = d) (m0 : Mem K) :
    Computes size N (vpathBody cast d) m0 fun m =>
      (∀ i < N, ∀ r < d, m (0, i * d + r) = cast (m0 (1, r) + m0 (2, i) * m0 (3, r))) ∧
        ∀ l : Loc, l.1 ≠ 0 → m l = m0 l := by
  refine computes_blocks (g := fun i r => cast (m0 (1, r) + m0 (2, i) * m0 (3, r))) fun i hi => ?_
  refine wp_assign_block (fun r hr => ?_) (by rw [h0]; exact idx_le hi)
  refine reads_bind (reads_in (by omega) (by omega) rfl) ?_
  refine reads_bind (reads_in (by omega) (by omega) rfl) ?_
  refine reads_bind (reads_in (by omega) (by omega) rfl) ?_
  exact reads_ret _ _

theorem reads_squares {size : ℕ → ℕ} {M N i j d : ℕ} {m0 : Mem K} (hi : i < N) (h1 : size 1 = N * d) :
    Reads size (visB M j) (sumLoop d fun c => do return (← rd 1 (i * d + c)) * (← rd 1 (i * d + c))) m0
      (∑ c ∈ Finset.range d, m0 (1, i * d + c) * m0 (1, i * d + c)) := by
  refine reads_sum d _ _ fun c hc => ?_
  refine reads_bind (reads_in (by omega) (by rw [h1]; exact idx_lt hi hc) rfl) ?_
  refine reads_bind (reads_in (by omega) (by rw [h1]; exact idx_lt hi hc) rfl) ?_
  exact reads_ret _ _

/-- **C123** for `normalize2d` and `norm2d`. -/
theorem C123_norms (size : ℕ → ℕ) (rt cast : K → K) (N d : ℕ) (h1 : size 1 = N * d) (m0 : Mem K) :
    (size 0 = N * d → Computes size N (normalizeBody rt cast d) m0 fun m =>
      (∀ i < N, ∀ r < d, m (0, i * d + r) = cast (m0 (1, i * d + r) /
        rt (∑ c ∈ Finset.range d, m0 (1, i * d + c) * m0 (1, i * d + c)))) ∧
        ∀ l : Loc, l.1 ≠ 0 → m l = m0 l) ∧
    (size 0 = N → Computes size N (normBody rt d) m0 fun m =>
      (∀ i < N, m (0, i) = rt (∑ c ∈ Finset.range d, m0 (1, i * d + c) * m0 (1, i * d + c))) ∧
        ∀ l : Loc, l.1 ≠ 0 → m l = m0 l) := by
  refine ⟨fun h0 => ?_, fun h0 => ?_⟩
  · refine computes_blocks (g := fun i r => cast (m0 (1, i * d + r) /
        rt (∑ c ∈ Finset.range d, m0 (1, i * d + c) * m0 (1, i * d + c)))) fun i hi => ?_
    refine (reads_squares hi h1).wp _ ?_
    refine wp_assign_block (fun r hr => ?_) (by rw [h0]; exact idx_le hi)
    refine reads_bind (reads_in (by omega) (by rw [h1]; exact idx_lt hi hr) rfl) ?_
    exact reads_ret _ _
  · refine computes_cells fun i hi => ?_
    exact (reads_squares hi h1).wp _ (wp_cell (by omega))

end

end Verif.Par.Props
