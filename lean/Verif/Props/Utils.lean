import Verif.Proofs.Utils
import Mathlib.Tactic.NormNum
import Mathlib.Data.Rat.Floor

/-!
# Properties of the array utilities (C32 - C39)

`sched` always is an arbitrary order of the iterations of a parallel loop.
-/

set_option linter.unusedSectionVars false

namespace Verif.Utils.Props
open Verif Verif.Utils

variable {K : Type} [Field K] [LinearOrder K] [FloorRing K]

/-! ## C32 – clipping -/

/-- The bound can be stored in the array: any number in a float array, an integer in an
integer array. -/
def Storable (dt : DType) (x : K) : Prop := dt = .float ∨ ∃ z : ℤ, x = z

theorem store_storable [IsStrictOrderedRing K] {dt : DType} {x : K} (h : Storable dt x) :
    store dt x = x := by
  rcases h with rfl | ⟨z, rfl⟩
  · rfl
  · cases dt
    · rfl
    · exact trunc_int z

theorem clip1d_cell [IsStrictOrderedRing K] {dt : DType} {lo hi : K} (h : lo ≤ hi)
    (hlo : Storable dt lo) (hhi : Storable dt hi) (a : List K) :
    clip1d dt a lo hi = a.map fun x => if x < lo then lo else if x > hi then hi else x := by
  unfold clip1d
  rw [List.map_map, store_storable hlo, store_storable hhi]
  apply List.map_congr_left
  intro x _
  simp only [Function.comp_apply]
  split
  · rw [if_neg (not_lt.mpr h)]
  · rfl

/-- C32 for bounds that can be stored in the array (always so for float arrays): the result
lies in `[lo, hi]`, cells inside the interval are unchanged, clipping again changes nothing
and clipping is monotone. Missing: integer arrays with non-integer bounds, where it is false
(`C32_integer_array_fails`). -/
theorem C32_clip_partial [IsStrictOrderedRing K] (dt : DType) (lo hi : K) (h : lo ≤ hi)
    (hlo : Storable dt lo) (hhi : Storable dt hi) (a : List K) :
    (clip1d dt a lo hi).length = a.length ∧
    (∀ y ∈ clip1d dt a lo hi, lo ≤ y ∧ y ≤ hi) ∧
    (∀ (i : ℕ) (x : K), a[i]? = some x → lo ≤ x → x ≤ hi → (clip1d dt a lo hi)[i]? = some x) ∧
    clip1d dt (clip1d dt a lo hi) lo hi = clip1d dt a lo hi ∧
    (∀ b : List K, List.Forall₂ (· ≤ ·) a b →
      List.Forall₂ (· ≤ ·) (clip1d dt a lo hi) (clip1d dt b lo hi)) := by
  simp only [clip1d_cell h hlo hhi]
  refine ⟨by simp, ?_, ?_, ?_, ?_⟩
  · intro y hy
    obtain ⟨x, -, rfl⟩ := List.mem_map.mp hy
    split
    · exact ⟨le_rfl, h⟩
    · split
      · exact ⟨h, le_rfl⟩
      · rename_i h1 h2; exact ⟨not_lt.mp h1, not_lt.mp h2⟩
  · intro i x hx h1 h2
    rw [List.getElem?_map, hx, Option.map_some, if_neg (not_lt.mpr h1), if_neg (not_lt.mpr h2)]
  · rw [List.map_map]
    apply List.map_congr_left
    intro x _
    simp only [Function.comp_apply]
    by_cases h1 : x < lo
    · simp [h1, not_lt.mpr h]
    · by_cases h2 : x > hi
      · simp [h1, h2, not_lt.mpr h]
      · simp [h1, h2]
  · intro b hab
    rw [List.forall₂_map_left_iff, List.forall₂_map_right_iff]
    refine hab.imp ?_
    intro x y hxy
    split_ifs <;> first | exact le_rfl | linarith

example : clip1d .float [(9 : ℚ)/10, 5/2, 6/5] 1 (3/2) = [1, 3/2, 6/5] := by
  simp [clip1d, store]; norm_num

/-- C32 fails for integer arrays with fractional bounds: the stored bound is truncated. -/
theorem C32_integer_array_fails : clip1d .int [(0 : ℚ)] (1/2) (3/2) = [0] := by
  simp only [clip1d, List.map_cons, List.map_nil]
  norm_num [store, trunc]

/-! ## C33 – flattening, repeating, tiling -/

/-- C33: `flatten2dC` puts `a[i, j]` at `i * J + j`. -/
theorem C33_flattenC (I J : ℕ) (a : ℕ → ℕ → K) :
    (flatten2dC I J a).length = I * J ∧
    ∀ i j, i < I → j < J → (flatten2dC I J a)[i * J + j]? = some (a i j) := by
  rw [flatten2dC_eq]
  constructor
  · simp [List.length_flatten, Function.comp_def]
  · intro i j hi hj
    rw [flatten_rows_get (J := J) _ (by simp) i j hj]
    simp [hi, hj]

/-- C33: `flatten2dF` puts `a[i, j]` at `j * I + i`. -/
theorem C33_flattenF (I J : ℕ) (a : ℕ → ℕ → K) :
    (flatten2dF I J a).length = I * J ∧
    ∀ i j, i < I → j < J → (flatten2dF I J a)[j * I + i]? = some (a i j) := by
  rw [flatten2dF_eq]
  constructor
  · simp [List.length_flatten, Function.comp_def, mul_comm]
  · intro i j hi hj
    rw [flatten_rows_get (J := I) _ (by simp) j i hi]
    simp [hi, hj]

/-- C33: `flatten2d` honours the order: `a[i, j]` is at `i * J + j` for "C" and at `j * I + i` for
"F". -/
theorem C33_flatten2d (I J : ℕ) (a : ℕ → ℕ → K) :
    ∃ c f, flatten2d I J a "C" = some c ∧ flatten2d I J a "F" = some f ∧
      c.length = I * J ∧ f.length = I * J ∧
      ∀ i j, i < I → j < J → c[i * J + j]? = some (a i j) ∧ f[j * I + i]? = some (a i j) := by
  obtain ⟨h1, h2⟩ := C33_flattenC I J a
  obtain ⟨h3, h4⟩ := C33_flattenF I J a
  exact ⟨_, _, by simp [flatten2d], by simp [flatten2d], h1, h3, fun i j hi hj => ⟨h2 i j hi hj, h4 i j hi hj⟩⟩

/-- C33: `repeat` returns `N` copies. -/
theorem C33_repeat {α : Type} (zero a : α) (N : ℕ) (sched : List ℕ) (hs : IsSchedule N sched) :
    repeatBlock zero a N sched = List.replicate N a := by
  unfold repeatBlock
  rw [foldl_set_schedule (fun _ => a) hs _ (by simp)]
  simp

/-- C33: `repeat1d` has `a[r]` at `i * M + r` for every repetition `i`. -/
theorem C33_repeat1d (a : List K) (N : ℕ) (sched : List ℕ) (hs : IsSchedule N sched) :
    (repeat1d a N sched).length = N * a.length ∧
    ∀ i r, i < N → (hr : r < a.length) → (repeat1d a N sched)[i * a.length + r]? = some a[r] := by
  obtain ⟨h1, h2⟩ := foldl_slice (fun _ => a) (fun _ => rfl) sched
    (fun i hi => List.mem_range.mp ((hs.mem_iff).mp hi)) (List.replicate (N * a.length) 0) (by simp)
  refine ⟨h1, fun i r hi hr => ?_⟩
  have := h2 i r hi hr
  rw [if_pos (by rw [hs.mem_iff]; simpa using hi)] at this
  unfold repeat1d
  simp only
  rw [this, List.getElem?_eq_getElem hr]

/-- Block `i` of `tile` is `a + i * da` (in the dtype of `a`). -/
theorem tile_spec (dt : DType) (a da : ℕ → ℕ → K) (N : ℕ) (sched : List ℕ) (hs : IsSchedule N sched) :
    (tile dt a da N sched).length = N ∧
    ∀ i < N, ∃ blk, (tile dt a da N sched)[i]? = some blk ∧
      ∀ r c, blk r c = store dt (a r c + i * da r c) := by
  unfold tile
  rw [foldl_set_schedule (fun i => fun r c => store dt (a r c + (i : K) * da r c)) hs _ (by simp)]
  refine ⟨by simp, fun i hi => ⟨_, by rw [List.getElem?_map, List.getElem?_range hi]; rfl, fun r c => rfl⟩⟩

/-- `tile1d` has `a[r] + i * da[r]` at `i * M + r` (in the dtype of `a`). -/
theorem tile1d_spec (dt : DType) (a da : List K) (hl : da.length = a.length) (N : ℕ)
    (sched : List ℕ) (hs : IsSchedule N sched) :
    ∃ res, tile1d dt a da N sched = .ok res ∧ res.length = N * a.length ∧
      ∀ i r, i < N → (hr : r < a.length) →
        res[i * a.length + r]? = some (store dt (a[r] + i * da[r])) := by
  obtain ⟨h1, h2⟩ := foldl_slice
    (fun i => List.zipWith (fun x d => store dt (x + (i : K) * d)) a da) (M := a.length)
    (fun i => by simp [hl]) sched
    (fun i hi => List.mem_range.mp ((hs.mem_iff).mp hi)) (List.replicate (N * a.length) 0) (by simp)
  refine ⟨_, by simp only [tile1d, hl, ne_eq, not_true_eq_false, if_false], h1, fun i r hi hr => ?_⟩
  rw [h2 i r hi hr, if_pos (by rw [hs.mem_iff]; simpa using hi),
    List.getElem?_eq_getElem (by simp [hl, hr]), List.getElem_zipWith]

/-- `y` is what an array of the dtype keeps of `x`: `x` itself, or, for integers, the whole number next to it
on the side of zero. -/
def Keeps (x : K) : DType → K → Prop
  | .float, y => y = x
  | .int, y => (∃ z : ℤ, y = z) ∧ |x - y| < 1 ∧ |y| ≤ |x| ∧ 0 ≤ x * y

theorem keeps_store [IsStrictOrderedRing K] (dt : DType) (x : K) : Keeps x dt (store dt x) := by
  cases dt with
  | float => rfl
  | int =>
    show (∃ z : ℤ, trunc x = z) ∧ |x - trunc x| < 1 ∧ |trunc x| ≤ |x| ∧ 0 ≤ x * trunc x
    unfold trunc
    split
    · next h =>
      have h1 := Int.floor_le x
      have h2 := Int.lt_floor_add_one x
      have h3 : (0 : K) ≤ (⌊x⌋ : ℤ) := by exact_mod_cast Int.floor_nonneg.2 h
      refine ⟨⟨_, rfl⟩, ?_, ?_, mul_nonneg h h3⟩
      · rw [abs_of_nonneg (by linarith)]; linarith
      · rw [abs_of_nonneg h3, abs_of_nonneg h]; exact h1
    · next h =>
      have h := not_le.1 h
      have h1 := Int.le_ceil x
      have h2 := Int.ceil_lt_add_one x
      have h3 : ((⌈x⌉ : ℤ) : K) ≤ 0 := by
        have := Int.ceil_le (a := x) (z := 0)
        exact_mod_cast this.2 (by simpa using h.le)
      refine ⟨⟨_, rfl⟩, ?_, ?_, mul_nonneg_of_nonpos_of_nonpos h.le h3⟩
      · rw [abs_of_nonpos (by linarith)]; linarith
      · rw [abs_of_nonpos h3, abs_of_neg h]; linarith

/-- C33: block `i` of `tile` is `a + i * da` (as far as the dtype of `a` keeps it). -/
theorem C33_tile [IsStrictOrderedRing K] (dt : DType) (a da : ℕ → ℕ → K) (N : ℕ)
    (sched : List ℕ) (hs : IsSchedule N sched) :
    (tile dt a da N sched).length = N ∧
    ∀ i < N, ∃ blk, (tile dt a da N sched)[i]? = some blk ∧
      ∀ r c, Keeps (a r c + i * da r c) dt (blk r c) := by
  obtain ⟨h1, h2⟩ := tile_spec dt a da N sched hs
  refine ⟨h1, fun i hi => ?_⟩
  obtain ⟨blk, e, h⟩ := h2 i hi
  exact ⟨blk, e, fun r c => h r c ▸ keeps_store dt _⟩

/-- C33: `tile1d` has `a[r] + i * da[r]` at `i * M + r` (as far as the dtype of `a` keeps it). -/
theorem C33_tile1d [IsStrictOrderedRing K] (dt : DType) (a da : List K) (hl : da.length = a.length) (N : ℕ)
    (sched : List ℕ) (hs : IsSchedule N sched) :
    ∃ res, tile1d dt a da N sched = .ok res ∧ res.length = N * a.length ∧
      ∀ i r, i < N → (hr : r < a.length) →
        ∃ y, res[i * a.length + r]? = some y ∧ Keeps (a[r] + i * da[r]) dt y := by
  obtain ⟨res, h1, h2, h3⟩ := tile1d_spec dt a da hl N sched hs
  exact ⟨res, h1, h2, fun i r hi hr => ⟨_, h3 i r hi hr, keeps_store dt _⟩⟩

/-- C33: `repeat_diagonal_2d` has the block on the diagonal and zeros elsewhere: row `r` of
block row `k` and column `c` of block column `l`. -/
theorem C33_repeat_diagonal (nR nC : ℕ) (a : ℕ → ℕ → K) (N : ℕ) (sched : List ℕ)
    (hs : IsSchedule N sched) (k l r c : ℕ) (hk : k < N) (hr : r < nR) (hc : c < nC) :
    repeatDiagonal nR nC a sched (k * nR + r) (l * nC + c) = if k = l then a r c else 0 := by
  rw [repeatDiagonal_get nR nC a sched k l r c hr hc]
  have : k ∈ sched := by rw [hs.mem_iff]; simpa using hk
  simp [this]

/-- C33, `bin_centers` for float edges: the midpoints. Missing: integer edges, where it is
false (`C33_bin_centers_integer_edges`). -/
theorem C33_bin_centers_partial (edges : List K) (sched : List ℕ)
    (hs : IsSchedule (edges.length - 1) sched) :
    (binCenters .float edges sched).length = edges.length - 1 ∧
    ∀ i, (h : i + 1 < edges.length) →
      (binCenters .float edges sched)[i]? = some ((edges[i] + edges[i + 1]) / 2) := by
  unfold binCenters
  rw [foldl_set_schedule (fun i => store .float ((edges.getD i 0 + edges.getD (i + 1) 0) / 2)) hs _ (by simp)]
  refine ⟨by simp, fun i h => ?_⟩
  rw [List.getElem?_map, List.getElem?_range (by omega)]
  simp [store, List.getD_eq_getElem?_getD, h, show i < edges.length by omega]

/-- The centre of the bin `[0, 1]` is reported as 0 if the edges are integers. -/
theorem C33_bin_centers_integer_edges (sched : List ℕ) (hs : IsSchedule 1 sched) :
    binCenters .int [(0 : ℚ), 1] sched = [0] := by
  unfold binCenters
  rw [foldl_set_schedule (fun i => store .int (([(0 : ℚ), 1].getD i 0 + [(0 : ℚ), 1].getD (i + 1) 0) / 2))
    hs _ (by simp)]
  norm_num [store, trunc, List.range, List.range.loop]

example : IsSchedule 3 [2, 0, 1] := by unfold IsSchedule; decide

example : repeat1d [(1 : ℚ), 2] 3 [2, 0, 1] = [1, 2, 1, 2, 1, 2] := by
  simp [repeat1d, assignSlice, List.replicate]

/-! ## C34 – independence of the schedule -/

theorem mem_product {I J : ℕ} {p : ℕ × ℕ} :
    p ∈ (List.range I) ×ˢ (List.range J) ↔ p.1 < I ∧ p.2 < J := by
  obtain ⟨i, j⟩ := p
  change (i, j) ∈ List.product _ _ ↔ _
  rw [List.pair_mem_product]; simp

/-- C34: each kernel returns the same array for every two orders of its iterations. -/
theorem C34_schedule_independent (N : ℕ) (s t : List ℕ) (hs : IsSchedule N s) (ht : IsSchedule N t) :
    (∀ (α : Type) (zero a : α), repeatBlock zero a N s = repeatBlock zero a N t) ∧
    (∀ a : List K, repeat1d a N s = repeat1d a N t) ∧
    (∀ dt (a da : ℕ → ℕ → K), tile dt a da N s = tile dt a da N t) ∧
    (∀ dt (a da : List K), tile1d dt a da N s = tile1d dt a da N t) ∧
    (∀ nR nC (a : ℕ → ℕ → K), ∀ r < N * nR, ∀ c < N * nC,
      repeatDiagonal nR nC a s r c = repeatDiagonal nR nC a t r c) ∧
    (∀ dt (e : List K), e.length = N + 1 → binCenters dt e s = binCenters dt e t) ∧
    (∀ dt (v : List K) src tgt, v.length = N → toRange1d dt v src tgt s = toRange1d dt v src tgt t) ∧
    (∀ junk (a space : List K), a.length = N → find1d junk a space s = find1d junk a space t) ∧
    (∀ (α : Type) (a : List (List α)), a.length = N → countCols a s = countCols a t) := by
  refine ⟨?_, ?_, ?_, ?_, ?_, ?_, ?_, ?_, ?_⟩
  · intro α zero a; rw [C33_repeat zero a N s hs, C33_repeat zero a N t ht]
  · intro a
    obtain ⟨l1, g1⟩ := C33_repeat1d a N s hs
    obtain ⟨l2, g2⟩ := C33_repeat1d a N t ht
    exact ext_blocks l1 l2 (fun i r hi hr => by rw [g1 i r hi hr, g2 i r hi hr])
  · intro dt a da
    unfold tile
    rw [foldl_set_schedule (fun i => fun r c => store dt (a r c + (i : K) * da r c)) hs _ (by simp),
      foldl_set_schedule (fun i => fun r c => store dt (a r c + (i : K) * da r c)) ht _ (by simp)]
  · intro dt a da
    by_cases hl : da.length = a.length
    · obtain ⟨r1, e1, l1, g1⟩ := tile1d_spec dt a da hl N s hs
      obtain ⟨r2, e2, l2, g2⟩ := tile1d_spec dt a da hl N t ht
      rw [e1, e2, ext_blocks l1 l2 (fun i r hi hr => by rw [g1 i r hi hr, g2 i r hi hr])]
    · simp [tile1d, hl]
  · intro nR nC a r hr c hc
    have hR : 0 < nR := by
      rcases Nat.eq_zero_or_pos nR with rfl | h
      · simp at hr
      · exact h
    have hC : 0 < nC := by
      rcases Nat.eq_zero_or_pos nC with rfl | h
      · simp at hc
      · exact h
    rw [← Nat.div_add_mod' r nR, ← Nat.div_add_mod' c nC]
    have hk : r / nR < N := by rw [Nat.div_lt_iff_lt_mul hR]; exact hr
    rw [C33_repeat_diagonal nR nC a N s hs _ _ _ _ hk (Nat.mod_lt _ hR) (Nat.mod_lt _ hC),
      C33_repeat_diagonal nR nC a N t ht _ _ _ _ hk (Nat.mod_lt _ hR) (Nat.mod_lt _ hC)]
  · intro dt e he
    unfold binCenters
    rw [foldl_set_schedule (fun i => store dt ((e.getD i 0 + e.getD (i + 1) 0) / 2)) hs _ (by simp [he]),
      foldl_set_schedule (fun i => store dt ((e.getD i 0 + e.getD (i + 1) 0) / 2)) ht _ (by simp [he])]
  · intro dt v src tgt hv
    unfold toRange1d toRangeKernel
    simp only
    rw [foldl_set_schedule (fun i => store dt (_ + _ * v.getD i 0)) hs _ (by simp [hv]),
      foldl_set_schedule (fun i => store dt (_ + _ * v.getD i 0)) ht _ (by simp [hv])]
  · intro junk a space ha
    unfold find1d
    rw [foldl_set_schedule (fun i => firstHit (junk i) (a.getD i 0) space) hs _ (by simp [ha]),
      foldl_set_schedule (fun i => firstHit (junk i) (a.getD i 0) space) ht _ (by simp [ha])]
  · intro α a ha
    unfold countCols
    rw [foldl_set_schedule (fun i => (a.getD i []).length) hs _ (by simp [ha]),
      foldl_set_schedule (fun i => (a.getD i []).length) ht _ (by simp [ha])]

/-- C34 for the doubly parallel row comparison. -/
theorem C34_equal_rows [IsStrictOrderedRing K] (dt : DType) (x y : List (List K)) (tol : K) (s t : List (ℕ × ℕ))
    (hs : s.Perm ((List.range x.length) ×ˢ (List.range y.length)))
    (ht : t.Perm ((List.range x.length) ×ˢ (List.range y.length))) :
    equalRowsNjit dt x y tol s = equalRowsNjit dt x y tol t := by
  unfold equalRowsNjit
  apply List.filter_congr
  intro p hp
  rw [foldl_update (fun p => store dt (rowDist (x.getD p.1 []) (y.getD p.2 []))) s,
    foldl_update (fun p => store dt (rowDist (x.getD p.1 []) (y.getD p.2 []))) t,
    if_pos (hs.mem_iff.mpr hp), if_pos (ht.mem_iff.mpr hp)]

/-- C33/C34, `count_cols`: the row lengths. -/
theorem C34_count_cols {α : Type} (a : List (List α)) (sched : List ℕ) (hs : IsSchedule a.length sched) :
    countCols a sched = a.map List.length := by
  unfold countCols
  rw [foldl_set_schedule (fun i => (a.getD i []).length) hs _ (by simp)]
  apply List.ext_getElem?
  intro i
  by_cases h : i < a.length
  · simp [h]
  · simp [h]

/-! ## C35 – mapping between ranges -/

/-- C35 for float arrays: there is an affine map that takes the ends of the source interval
to the ends of the target interval, `to_range_1d` applies it to every value, values of the
source interval land in the target interval, and mapping back restores every value.
Missing: integer arrays, where the results are truncated (`C35_integer_values_fail`). -/
theorem C35_to_range_partial [IsStrictOrderedRing K] (vals : List K) (s0 s1 t0 t1 : K) (hs : s0 ≠ s1)
    (sched : List ℕ) (hsch : IsSchedule vals.length sched) :
    ∃ α β : K, α + β * s0 = t0 ∧ α + β * s1 = t1 ∧
      toRange1d .float vals (some (s0, s1)) (some (t0, t1)) sched = .ok (vals.map fun x => α + β * x) ∧
      (∀ x, s0 ≤ x → x ≤ s1 → t0 ≤ t1 → t0 ≤ α + β * x ∧ α + β * x ≤ t1) ∧
      (t0 ≠ t1 → toRange1d .float (vals.map fun x => α + β * x) (some (t0, t1)) (some (s0, s1)) sched =
        .ok vals) := by
  have hne : s1 - s0 ≠ 0 := sub_ne_zero.mpr (Ne.symm hs)
  have key : ∀ (w : List K) (a0 a1 b0 b1 : K), a0 ≠ a1 → w.length = vals.length →
      toRange1d .float w (some (a0, a1)) (some (b0, b1)) sched =
        .ok (w.map fun x => ((b0 + b1) / 2 - (b1 - b0) / (a1 - a0) * (a0 + a1) / 2) +
          (b1 - b0) / (a1 - a0) * x) := by
    intro w a0 a1 b0 b1 hab hw
    unfold toRange1d toRangeKernel
    simp only [Option.getD_some]
    rw [if_neg (sub_ne_zero.mpr (Ne.symm hab))]
    rw [foldl_set_schedule (fun i => store .float (_ + _ * w.getD i 0)) (hw ▸ hsch : IsSchedule w.length sched) _ (by simp)]
    refine congrArg Except.ok ?_
    apply List.ext_getElem?
    intro i
    by_cases h : i < w.length
    · simp [h, store]
    · simp [h]
  refine ⟨(t0 + t1) / 2 - (t1 - t0) / (s1 - s0) * (s0 + s1) / 2, (t1 - t0) / (s1 - s0), ?_, ?_,
    key vals s0 s1 t0 t1 hs rfl, ?_, ?_⟩
  · field_simp; ring
  · field_simp; ring
  · intro x h0 h1 ht
    have hlt : s0 < s1 := lt_of_le_of_ne (le_trans h0 h1) hs
    have hpos : 0 < s1 - s0 := by linarith
    have e1 : (t0 + t1) / 2 - (t1 - t0) / (s1 - s0) * (s0 + s1) / 2 + (t1 - t0) / (s1 - s0) * x =
        t0 + (t1 - t0) * ((x - s0) / (s1 - s0)) := by field_simp; ring
    have q0 : 0 ≤ (x - s0) / (s1 - s0) := div_nonneg (by linarith) hpos.le
    have q1 : (x - s0) / (s1 - s0) ≤ 1 := by rw [div_le_one hpos]; linarith
    rw [e1]
    constructor <;> nlinarith
  · intro ht
    have hne' : t1 - t0 ≠ 0 := sub_ne_zero.mpr (Ne.symm ht)
    rw [key _ t0 t1 s0 s1 ht (by simp), List.map_map]
    refine congrArg Except.ok ?_
    conv_rhs => rw [← List.map_id vals]
    apply List.map_congr_left
    intro x _
    simp only [Function.comp_apply, id]
    field_simp
    ring

/-- C35: a degenerate source interval raises. -/
theorem C35_degenerate (dt : DType) (vals : List K) (s0 : K) (target : Option (K × K)) (sched : List ℕ) :
    toRange1d dt vals (some (s0, s0)) target sched = .error .zeroDiv := by
  simp [toRange1d, toRangeKernel]

/-- C35: the defaults are `[0, 1]` and `[-1, 1]`. -/
theorem C35_defaults (dt : DType) (vals : List K) (sched : List ℕ) :
    toRange1d dt vals none none sched = toRange1d dt vals (some (0, 1)) (some (-1, 1)) sched := rfl

/-- C35 fails for integer arrays: 1 in `[0, 3]` is mapped to 0 in `[0, 1]`. -/
theorem C35_integer_values_fail (sched : List ℕ) (hs : IsSchedule 1 sched) :
    toRange1d .int [(1 : ℚ)] (some (0, 3)) (some (0, 1)) sched = .ok [0] := by
  unfold toRange1d toRangeKernel
  simp only [Option.getD_some]
  rw [if_neg (by norm_num), foldl_set_schedule (fun i => store .int (_ + _ * [(1 : ℚ)].getD i 0)) hs _ (by simp)]
  refine congrArg Except.ok ?_
  simp only [List.range, List.range.loop, List.map_cons, List.map_nil, List.getD_cons_zero]
  norm_num [store, trunc]

example : IsSchedule ([0, 1/2, 1] : List ℚ).length [1, 0, 2] := by unfold IsSchedule; decide

/-! ## C36 – index search -/

/-- `k` is the first position of `a` in `space`. -/
def FirstAt (space : List K) (a : K) (k : ℕ) : Prop :=
  space[k]? = some a ∧ ∀ j < k, space[j]? ≠ some a

theorem firstHit_spec (junk : ℕ) (a : K) (space : List K) (h : a ∈ space) :
    FirstAt space a (firstHit junk a space) := by
  unfold firstHit
  cases hf : space.findIdx? (fun s => decide (a = s)) with
  | none =>
    rw [List.findIdx?_eq_none_iff] at hf
    have := hf a h
    simp at this
  | some k =>
    rw [List.findIdx?_eq_some_iff_getElem] at hf
    obtain ⟨hk, h1, h2⟩ := hf
    change FirstAt space a k
    constructor
    · rw [List.getElem?_eq_getElem hk]
      simp only [decide_eq_true_eq] at h1
      rw [← h1]
    · intro j hj he
      have := h2 j hj
      have hjl : j < space.length := by omega
      rw [List.getElem?_eq_getElem hjl] at he
      simp only [Option.some.injEq] at he
      simp [he] at this

/-- C36, the part that holds: every element that occurs in the search space gets its first
position. Missing: "raises if there is none" is false in the compiled code, see
`C36_missing_element_unnoticed`. -/
theorem C36_find1d_partial (junk : ℕ → ℕ) (arr space : List K) (sched : List ℕ)
    (hs : IsSchedule arr.length sched) :
    (find1d junk arr space sched).length = arr.length ∧
    ∀ i, (h : i < arr.length) → arr[i] ∈ space →
      ∃ k, (find1d junk arr space sched)[i]? = some k ∧ FirstAt space arr[i] k := by
  unfold find1d
  rw [foldl_set_schedule (fun i => firstHit (junk i) (arr.getD i 0) space) hs _ (by simp)]
  refine ⟨by simp, fun i h hm => ?_⟩
  refine ⟨firstHit (junk i) arr[i] space, ?_, firstHit_spec _ _ _ hm⟩
  rw [List.getElem?_map, List.getElem?_range h]
  simp [List.getD_eq_getElem?_getD, h]

/-- C36 for two-dimensional arrays. -/
theorem C36_find2d_partial (junk : ℕ → ℕ → ℕ) (arr : List (List K)) (space : List K) (sched : List ℕ)
    (scheds : ℕ → List ℕ) (hs : IsSchedule arr.length sched)
    (hss : ∀ i, (h : i < arr.length) → IsSchedule arr[i].length (scheds i)) :
    (find2d junk arr space sched scheds).length = arr.length ∧
    ∀ i, (h : i < arr.length) → ∀ j, (hj : j < arr[i].length) → arr[i][j] ∈ space →
      ∃ row k, (find2d junk arr space sched scheds)[i]? = some row ∧ row.length = arr[i].length ∧
        row[j]? = some k ∧ FirstAt space arr[i][j] k := by
  unfold find2d
  rw [foldl_set_schedule (fun i => find1d (junk i) (arr.getD i []) space (scheds i)) hs _ (by simp)]
  refine ⟨by simp, fun i h j hj hm => ?_⟩
  obtain ⟨hl, hg⟩ := C36_find1d_partial (junk i) arr[i] space (scheds i) (hss i h)
  obtain ⟨k, hk, hf⟩ := hg j hj hm
  refine ⟨_, k, ?_, hl, hk, hf⟩
  rw [List.getElem?_map, List.getElem?_range h]
  simp [List.getD_eq_getElem?_getD, h]

/-- C36, violation: for an element that does not occur no exception is raised; the result is
whatever lies in memory (any value `v` is possible). -/
theorem C36_missing_element_unnoticed (space : List K) (a : K) (h : a ∉ space) (v : ℕ) :
    find1d (fun _ => v) [a] space [0] = [v] := by
  have : firstHit v a space = v := by
    unfold firstHit
    have : space.findIdx? (fun s => decide (a = s)) = none := by
      rw [List.findIdx?_eq_none_iff]
      intro x hx
      simp only [decide_eq_false_iff_not]
      rintro rfl
      exact h hx
    rw [this]
  simp [find1d, this]

example : find1d (fun _ => 0) [(5 : ℚ), 7] [9, 7, 5, 7] [1, 0] = [2, 1] := by
  simp [find1d, firstHit, List.findIdx?_cons]

/-! ## C37 – equal rows -/

theorem equalRows_mem [IsStrictOrderedRing K] (dt : DType) (x y : List (List K)) (tol : K) (sched : List (ℕ × ℕ))
    (hs : sched.Perm ((List.range x.length) ×ˢ (List.range y.length))) (i j : ℕ) :
    (i, j) ∈ equalRowsNjit dt x y tol sched ↔ i < x.length ∧ j < y.length ∧
      store dt (rowDist (x.getD i []) (y.getD j [])) ≤ tol := by
  unfold equalRowsNjit
  rw [List.mem_filter, mem_product]
  constructor
  · rintro ⟨⟨h1, h2⟩, h3⟩
    rw [foldl_update (fun p => store dt (rowDist (x.getD p.1 []) (y.getD p.2 []))) sched,
      if_pos (hs.mem_iff.mpr (mem_product.mpr ⟨h1, h2⟩))] at h3
    exact ⟨h1, h2, by simpa using h3⟩
  · rintro ⟨h1, h2, h3⟩
    refine ⟨⟨h1, h2⟩, ?_⟩
    rw [foldl_update (fun p => store dt (rowDist (x.getD p.1 []) (y.getD p.2 []))) sched,
      if_pos (hs.mem_iff.mpr (mem_product.mpr ⟨h1, h2⟩))]
    simpa using h3

theorem equalRowsSquare_eq (dt : DType) (x y : List (List K)) (tol : K) (sched : List (ℕ × ℕ))
    (h : x.length = y.length) : equalRowsSquare dt x y tol sched = equalRowsNjit dt x y tol sched := by
  unfold equalRowsSquare equalRowsNjit
  simp [h]

/-- C37 for float data (first argument of float dtype), equal and different numbers of rows
alike: the pairs whose rows differ by at most `tol` in the sum norm, in particular all pairs
of equal rows. Missing: integer data (`C37_integer_*`) and an integer first argument. -/
theorem C37_float_partial [IsStrictOrderedRing K] (dty : DType) (d : ℕ) (x y : List (List K)) (tol : K)
    (htol : 0 ≤ tol) (hx : ∀ r ∈ x, r.length = d) (hy : ∀ r ∈ y, r.length = d) (sched : List (ℕ × ℕ))
    (hs : sched.Perm ((List.range x.length) ×ˢ (List.range y.length))) :
    ∃ res, indicesOfEqualRows .float dty d d x y tol sched = .ok res ∧
      (∀ i j, (i, j) ∈ res ↔ ∃ (hi : i < x.length) (hj : j < y.length),
        (List.zipWith (fun a b => |a - b|) x[i] y[j]).sum ≤ tol) ∧
      (∀ i j, (hi : i < x.length) → (hj : j < y.length) → x[i] = y[j] → (i, j) ∈ res) := by
  have hres : indicesOfEqualRows .float dty d d x y tol sched =
      .ok (equalRowsNjit .float x y tol sched) := by
    unfold indicesOfEqualRows
    simp only [ne_eq, not_true_eq_false, if_false]
    have : ((DType.float == DType.int) && (dty == DType.int)) = false := rfl
    rw [this]
    simp only [Bool.false_eq_true, if_false]
    split
    · rename_i h; rw [equalRowsSquare_eq _ _ _ _ _ (by simpa using h)]
    · rfl
  have hmem : ∀ i j, (i, j) ∈ equalRowsNjit .float x y tol sched ↔
      ∃ (hi : i < x.length) (hj : j < y.length),
        (List.zipWith (fun a b => |a - b|) x[i] y[j]).sum ≤ tol := by
    intro i j
    rw [equalRows_mem _ _ _ _ _ hs]
    constructor
    · rintro ⟨hi, hj, h⟩
      refine ⟨hi, hj, ?_⟩
      simpa [store, rowDist, List.getD_eq_getElem?_getD, hi, hj] using h
    · rintro ⟨hi, hj, h⟩
      refine ⟨hi, hj, ?_⟩
      simpa [store, rowDist, List.getD_eq_getElem?_getD, hi, hj] using h
  refine ⟨_, hres, hmem, fun i j hi hj he => (hmem i j).mpr ⟨hi, hj, ?_⟩⟩
  have h0 : rowDist x[i] y[j] = 0 := (rowDist_eq_zero (by
    rw [hx _ (List.getElem_mem hi), hy _ (List.getElem_mem hj)])).mpr he
  unfold rowDist at h0
  rw [h0]; exact htol

/-- C37 for integer data with different numbers of rows: exactly the pairs of equal rows. -/
theorem C37_integer_rectangular_partial [IsStrictOrderedRing K] (d : ℕ) (x y : List (List K)) (tol : K)
    (hx : ∀ r ∈ x, r.length = d ∧ ∀ v ∈ r, ∃ z : ℤ, v = z)
    (hy : ∀ r ∈ y, r.length = d ∧ ∀ v ∈ r, ∃ z : ℤ, v = z) (hne : x.length ≠ y.length)
    (sched : List (ℕ × ℕ)) (hs : sched.Perm ((List.range x.length) ×ˢ (List.range y.length))) :
    ∃ res, indicesOfEqualRows .int .int d d x y tol sched = .ok res ∧
      ∀ i j, (i, j) ∈ res ↔ ∃ (hi : i < x.length) (hj : j < y.length), x[i] = y[j] := by
  refine ⟨equalRowsNjit .int x y 0 sched, by simp [indicesOfEqualRows, hne], fun i j => ?_⟩
  rw [equalRows_mem _ _ _ _ _ hs]
  have hint : ∀ a b : List K, (∀ v ∈ a, ∃ z : ℤ, v = z) → (∀ v ∈ b, ∃ z : ℤ, v = z) →
      ∃ z : ℤ, rowDist a b = z := by
    intro a
    induction a with
    | nil => intro b _ _; exact ⟨0, by simp [rowDist]⟩
    | cons u a ih =>
      intro b ha hb
      cases b with
      | nil => exact ⟨0, by simp [rowDist]⟩
      | cons w b =>
        obtain ⟨z, hz⟩ := ih b (fun v hv => ha v (by simp [hv])) (fun v hv => hb v (by simp [hv]))
        obtain ⟨zu, rfl⟩ := ha u (by simp)
        obtain ⟨zw, rfl⟩ := hb w (by simp)
        refine ⟨|zu - zw| + z, ?_⟩
        have : rowDist ((zu : K) :: a) ((zw : K) :: b) = |(zu : K) - zw| + rowDist a b := by
          simp [rowDist]
        rw [this, hz]; push_cast; rfl
  constructor
  · rintro ⟨hi, hj, h⟩
    refine ⟨hi, hj, ?_⟩
    have gx := hx _ (List.getElem_mem hi)
    have gy := hy _ (List.getElem_mem hj)
    obtain ⟨z, hz⟩ := hint x[i] y[j] gx.2 gy.2
    simp only [List.getD_eq_getElem?_getD, List.getElem?_eq_getElem hi, List.getElem?_eq_getElem hj,
      Option.getD_some, hz, store, trunc_int] at h
    have h0 := rowDist_nonneg x[i] y[j]
    rw [hz] at h0
    exact (rowDist_eq_zero (by rw [gx.1, gy.1])).mp (by rw [hz]; exact le_antisymm h h0)
  · rintro ⟨hi, hj, he⟩
    refine ⟨hi, hj, ?_⟩
    have : rowDist x[i] y[j] = 0 := (rowDist_eq_zero (by rw [he])).mpr he
    simp only [List.getD_eq_getElem?_getD, List.getElem?_eq_getElem hi, List.getElem?_eq_getElem hj,
      Option.getD_some, this, store]
    simp [trunc]

/-- C37, violation: for integer data with equal numbers of rows only rows with the same index
are compared, whatever the data are. -/
theorem C37_integer_square_diagonal (d : ℕ) (x y : List (List K)) (tol : K) (h : x.length = y.length)
    (sched : List (ℕ × ℕ)) (res : List (ℕ × ℕ))
    (hres : indicesOfEqualRows .int .int d d x y tol sched = .ok res) :
    ∀ p ∈ res, p.1 = p.2 := by
  simp only [indicesOfEqualRows, ne_eq, not_true_eq_false, if_false, h, beq_self_eq_true,
    Bool.and_self, if_true, Except.ok.injEq] at hres
  subst hres
  intro p hp
  obtain ⟨i, -, rfl⟩ := List.mem_map.mp hp
  rfl

/-- Witness: rows 0 of `[[1],[2]]` and 1 of `[[2],[1]]` are equal but nothing is found; as
floats both pairs are found. -/
theorem C37_integer_square_fails (sched : List (ℕ × ℕ))
    (hs : sched.Perm ((List.range 2) ×ˢ (List.range 2))) :
    indicesOfEqualRows .int .int 1 1 [[(1 : ℚ)], [2]] [[2], [1]] 0 sched = .ok [] ∧
    ∃ res, indicesOfEqualRows .float .float 1 1 [[(1 : ℚ)], [2]] [[2], [1]] 0 sched = .ok res ∧
      (0, 1) ∈ res ∧ (1, 0) ∈ res := by
  constructor
  · simp [indicesOfEqualRows, List.range, List.range.loop]
  · obtain ⟨res, h1, -, h3⟩ := C37_float_partial .float 1 [[(1 : ℚ)], [2]] [[2], [1]] 0 le_rfl (by simp)
      (by simp) sched hs
    exact ⟨res, h1, h3 0 1 (by simp) (by simp) rfl, h3 1 0 (by simp) (by simp) rfl⟩

/-- C37, violation: if the first array is of integer dtype and the second of float dtype the
distances are truncated, so that `[1]` and `[1.5]` count as equal. -/
theorem C37_mixed_dtypes_fail (sched : List (ℕ × ℕ)) (hs : sched.Perm ((List.range 1) ×ˢ (List.range 1))) :
    indicesOfEqualRows .int .float 1 1 [[(1 : ℚ)]] [[3/2]] (1/1000000000000) sched = .ok [(0, 0)] := by
  have h1 : indicesOfEqualRows .int .float 1 1 [[(1 : ℚ)]] [[3/2]] (1/1000000000000) sched =
      .ok (equalRowsNjit .int [[(1 : ℚ)]] [[3/2]] (1/1000000000000) sched) := by
    simp [indicesOfEqualRows, equalRowsSquare_eq]
  rw [h1]
  refine congrArg Except.ok ?_
  have h2 : (0, 0) ∈ equalRowsNjit .int [[(1 : ℚ)]] [[3/2]] (1/1000000000000) sched := by
    rw [equalRows_mem _ _ _ _ _ hs]
    refine ⟨by simp, by simp, ?_⟩
    have : rowDist [(1 : ℚ)] [3/2] = 1/2 := by simp [rowDist]; norm_num
    simp only [List.getD_cons_zero, this, store, trunc]
    norm_num
  unfold equalRowsNjit at h2 ⊢
  simp only [List.length_cons, List.length_nil, List.range, List.range.loop] at h2 ⊢
  rw [List.mem_filter] at h2
  have hp : ([0] ×ˢ [0] : List (ℕ × ℕ)) = [(0, 0)] := rfl
  rw [hp]
  simp only [List.filter_cons, List.filter_nil, h2.2, if_true]

/-! ## C38 – `count_cols_csr` -/

/-- The number of stored entries of each row of a CSR structure. -/
def rowCounts (indptr : List ℕ) : List ℤ :=
  (List.range (indptr.length - 1)).map fun i => (indptr.getD (i + 1) 0 : ℤ) - indptr.getD i 0

theorem countColsCsr_eq (jp : ℕ → ℕ) (ji : ℕ → ℤ) (indptr : List ℕ) (indices : List ℤ) (sched : List ℕ)
    (hs : IsSchedule indptr.length sched) :
    countColsCsr jp ji indptr indices sched = (List.range indptr.length).map fun i =>
      (indices[(indptr[i + 1]?).getD (jp (i + 1))]?).getD (ji ((indptr[i + 1]?).getD (jp (i + 1)))) -
      (indices[(indptr[i]?).getD (jp i)]?).getD (ji ((indptr[i]?).getD (jp i))) := by
  unfold countColsCsr
  rw [foldl_set_schedule (fun i =>
    (indices[(indptr[i + 1]?).getD (jp (i + 1))]?).getD (ji ((indptr[i + 1]?).getD (jp (i + 1)))) -
      (indices[(indptr[i]?).getD (jp i)]?).getD (ji ((indptr[i]?).getD (jp i)))) hs _ (by simp)]

/-- What holds of C38: if the column indices are `0, 1, 2, ...` the entry of every row but the
last is right. Missing: everything else; see the two violations. -/
theorem C38_counts_partial (jp : ℕ → ℕ) (ji : ℕ → ℤ) (indptr : List ℕ) (indices : List ℤ)
    (hidx : ∀ k, (h : k < indices.length) → indices[k] = k) (sched : List ℕ)
    (hs : IsSchedule indptr.length sched) (i : ℕ) (a b : ℕ) (h0 : indptr[i]? = some a)
    (h1 : indptr[i + 1]? = some b) (ha : a < indices.length) (hb : b < indices.length) :
    (countColsCsr jp ji indptr indices sched)[i]? = some ((b : ℤ) - a) := by
  have hi : i < indptr.length := (List.getElem?_eq_some_iff.mp h0).1
  rw [countColsCsr_eq jp ji indptr indices sched hs, List.getElem?_map, List.getElem?_range hi]
  simp [h0, h1, ha, hb, hidx]

/-- C38, violation: the result has one entry more than the matrix has rows, always. -/
theorem C38_one_entry_too_many (jp : ℕ → ℕ) (ji : ℕ → ℤ) (indptr : List ℕ) (indices : List ℤ)
    (hne : indptr ≠ []) (sched : List ℕ) (hs : IsSchedule indptr.length sched) :
    (countColsCsr jp ji indptr indices sched).length = (rowCounts indptr).length + 1 := by
  rw [countColsCsr_eq jp ji indptr indices sched hs]
  have := List.length_pos_of_ne_nil hne
  simp [rowCounts]; omega

/-- C38, violation: the counts are differences of column indices. The first row of the
2 x 10 matrix with entries at (0,0), (0,5), (1,7) has two entries but 7 is returned. -/
theorem C38_wrong_count (jp : ℕ → ℕ) (ji : ℕ → ℤ) (sched : List ℕ) (hs : IsSchedule 3 sched) :
    rowCounts [0, 2, 3] = [2, 1] ∧ (countColsCsr jp ji [0, 2, 3] [0, 5, 7] sched)[0]? = some 7 := by
  refine ⟨rfl, ?_⟩
  rw [countColsCsr_eq jp ji [0, 2, 3] [0, 5, 7] sched hs]
  rfl

example : ∀ k, (h : k < [(0 : ℤ), 1, 2, 3].length) → [(0 : ℤ), 1, 2, 3][k] = k := by decide

/-! ## C39 – shapes -/

/-- C39: `atleastnd` never raises on a well-formed array, gives dimension `max n ndim`, the
same elements in the same order, and only unit axes in front (`front` without `back`) or
behind (otherwise). -/
theorem C39_atleastnd {α : Type} (x : ArrayLike α) (n : ℕ) (front back : Bool)
    (hwf : (asArray x).shape.prod = (asArray x).data.length) :
    ∃ r k, atleastnd x n front back = .ok r ∧ r.shape.length = max n (asArray x).shape.length ∧
      r.data = (asArray x).data ∧ r.shape.prod = r.data.length ∧
      k = n - (asArray x).shape.length ∧
      (front = true ∧ back = false → r.shape = List.replicate k 1 ++ (asArray x).shape) ∧
      (¬ (front = true ∧ back = false) → r.shape = (asArray x).shape ++ List.replicate k 1) := by
  unfold atleastnd
  by_cases h : (asArray x).shape.length ≥ n
  · have h0 : n - (asArray x).shape.length = 0 := by omega
    refine ⟨asArray x, _, by simp [h], by omega, rfl, hwf, rfl, ?_, ?_⟩ <;> simp [h0]
  · have hf : (front && !back) = true ↔ front = true ∧ back = false := by simp
    by_cases hfb : front = true ∧ back = false
    · refine ⟨⟨List.replicate (n - (asArray x).shape.length) 1 ++ (asArray x).shape, (asArray x).data⟩, _,
        ?_, ?_, rfl, ?_, rfl, fun _ => rfl, fun h' => absurd hfb h'⟩
      · simp only [ge_iff_le] at h ⊢
        rw [if_neg h, if_pos (hf.mpr hfb), reshape, if_pos (by simp [hwf])]
      · simp; omega
      · simp [hwf]
    · refine ⟨⟨(asArray x).shape ++ List.replicate (n - (asArray x).shape.length) 1, (asArray x).data⟩, _,
        ?_, ?_, rfl, ?_, rfl, fun h' => absurd h' hfb, fun _ => rfl⟩
      · simp only [ge_iff_le] at h ⊢
        rw [if_neg h, if_neg (fun h' => hfb (hf.mp h')), reshape, if_pos (by simp [hwf])]
      · simp; omega
      · simp [hwf]

/-- C39: a number becomes an array of `max n 1` unit axes. -/
theorem C39_number {α : Type} (x : α) (n : ℕ) (front back : Bool) :
    atleastnd (.number x) n front back = .ok ⟨List.replicate (max n 1) 1, [x]⟩ := by
  obtain ⟨r, k, h1, h2, h3, -, hk, h5, h6⟩ := C39_atleastnd (.number x) n front back rfl
  rw [h1]
  have hs : r.shape = List.replicate (max n 1) 1 := by
    simp only [asArray, List.length_cons, List.length_nil] at h2 h5 h6 hk
    subst hk
    apply List.eq_replicate_iff.mpr
    refine ⟨by omega, ?_⟩
    intro b hb
    by_cases hfb : front = true ∧ back = false
    · rw [h5 hfb] at hb; simp at hb; omega
    · rw [h6 hfb] at hb; simp at hb; omega
  cases r; simp_all [asArray]

/-- C39: `matrixform` turns `n` numbers into an `n × 1` array, keeps matrices and rejects
arrays of higher dimension. -/
theorem C39_matrixform {α : Type} (data : List α) :
    matrixform (.array ⟨[data.length], data⟩) = .ok ⟨[data.length, 1], data⟩ ∧
    (∀ (x : α), matrixform (.number x) = .ok ⟨[1, 1], [x]⟩) ∧
    (∀ m n, matrixform (.array ⟨[m, n], data⟩) = .ok ⟨[m, n], data⟩) ∧
    (∀ shape, 2 < shape.length → matrixform (.array ⟨shape, data⟩) = .error .assertion) := by
  refine ⟨by simp [matrixform, asArray, reshape], fun x => by simp [matrixform, asArray, reshape],
    fun m n => by simp [matrixform, asArray], fun shape h => by simp [matrixform, asArray, h]⟩

/-- Finding: a zero-dimensional array is returned as it is, not as a matrix. -/
theorem C39_matrixform_zero_dim {α : Type} (x : α) :
    matrixform (.array ⟨[], [x]⟩) = .ok ⟨[], [x]⟩ := by simp [matrixform, asArray]

example : atleastnd (.array ⟨[2], [1, 1]⟩ : ArrayLike ℕ) 3 true false = .ok ⟨[1, 1, 2], [1, 1]⟩ ∧
    atleastnd (.array ⟨[2], [1, 1]⟩ : ArrayLike ℕ) 3 true true = .ok ⟨[2, 1, 1], [1, 1]⟩ :=
  ⟨rfl, rfl⟩

end Verif.Utils.Props
