import Verif.Proofs.Sparse

/-!
# Properties of the sparse containers (C27 - C30, C61)
-/

set_option linter.unusedSectionVars false

namespace Verif.Sparse.Props
open Verif Verif.Sparse

variable {α : Type}

/-! ## C27 -/

/-- `rows` are the rows of an array of shape `(n, m)`. -/
def IsMatrix (n m : ℕ) (rows : List (List α)) : Prop := rows.length = n ∧ ∀ r ∈ rows, r.length = m

/-- The CSR arrays fit together: one pointer more than rows, starting at 0, nondecreasing, and
ending at the number of stored values. -/
structure Valid (n : ℕ) (c : Csr α) : Prop where
  ptr_len : c.indptr.length = n + 1
  ptr_zero : c.indptr[0]? = some 0
  ptr_mono : ∀ i, i < n → c.indptr.getD i 0 ≤ c.indptr.getD (i + 1) 0
  ptr_last : c.indptr[n]? = some c.data.length
  idx_len : c.indices.length = c.data.length

theorem sum_replicate_take (n m i : ℕ) (hi : i ≤ n) : ((List.replicate n m).take i).sum = i * m := by
  rw [List.take_replicate, Nat.min_eq_left hi]; simp

theorem ofDense_pieces {n m : ℕ} {rows : List (List α)} (h : IsMatrix n m rows) (i : ℕ) (hi : i < n) :
    ∃ r, rows[i]? = some r ∧ r.length = m ∧ slice (ofDense n m rows).data (i * m) ((i + 1) * m) = r ∧
      slice (ofDense n m rows).indices (i * m) ((i + 1) * m) = List.range m ∧
      (ofDense n m rows).indptr[i]? = some (i * m) ∧ (ofDense n m rows).indptr[i + 1]? = some ((i + 1) * m) := by
  obtain ⟨hl, hr⟩ := h
  have hi' : i < rows.length := by omega
  have hw : rows.map List.length = List.replicate n m := by
    rw [List.eq_replicate_iff]
    refine ⟨by simp [hl], ?_⟩
    intro b hb
    obtain ⟨r, hr', rfl⟩ := List.mem_map.mp hb
    exact hr r hr'
  have hw2 : (List.replicate n (List.range m)).map List.length = List.replicate n m := by simp
  refine ⟨rows[i], by simp [hi'], hr _ (List.getElem_mem hi'), ?_, ?_, ?_, ?_⟩
  · have := slice_flatten rows i hi'
    rw [hw, sum_replicate_take n m i (by omega), sum_replicate_take n m (i + 1) (by omega)] at this
    exact this
  · have := slice_flatten (List.replicate n (List.range m)) i (by simpa using hi)
    rw [hw2, sum_replicate_take n m i (by omega), sum_replicate_take n m (i + 1) (by omega)] at this
    simpa [ofDense] using this
  · simp [ofDense, show i < n + 1 by omega]
  · simp [ofDense, show i + 1 < n + 1 by omega]

theorem dense_lengths {n m : ℕ} {rows : List (List α)} (h : IsMatrix n m rows) :
    (ofDense n m rows).data.length = n * m ∧ (ofDense n m rows).indices.length = n * m := by
  obtain ⟨hl, hr⟩ := h
  constructor
  · simp only [ofDense, List.length_flatten]
    have : rows.map List.length = List.replicate n m := by
      rw [List.eq_replicate_iff]
      refine ⟨by simp [hl], ?_⟩
      intro b hb
      obtain ⟨r, hr', rfl⟩ := List.mem_map.mp hb
      exact hr r hr'
    rw [this]; simp
  · simp [ofDense, List.length_flatten]

/-- C27: converting a dense array and back returns the array, cell by cell, with its shape;
`row(i)` and `irow(i)` are the cells of row `i` and their columns. -/
theorem C27_dense_round_trip [AddMonoid α] (n m : ℕ) (rows : List (List α)) (h : IsMatrix n m rows) :
    (ofDense n m rows).shape = (n, (m : ℤ)) ∧
    ∀ i r, rows[i]? = some r →
      (∀ j, j < m → r[j]? = some ((ofDense n m rows).toNumpy i j)) ∧
      (ofDense n m rows).row i = .ok r ∧ (ofDense n m rows).irow i = .ok (List.range m) := by
  refine ⟨rfl, fun i r hr => ?_⟩
  have hi : i < n := by
    have := (List.getElem?_eq_some_iff.mp hr).1
    rw [← h.1]; exact this
  obtain ⟨r', h1, h2, h3, h4, h5, h6⟩ := ofDense_pieces h i hi
  rw [hr] at h1
  obtain rfl := Option.some.inj h1
  obtain ⟨d1, d2⟩ := dense_lengths h
  have hle : (i + 1) * m ≤ n * m := Nat.mul_le_mul_right m hi
  refine ⟨fun j hj => ?_, ?_, ?_⟩
  · rw [toNumpy_eq _ i j _ _ h5 h6 (by omega) (by omega), h3, h4, ← h2, colSum_range]
    simp [show j < r.length by omega]
  · rw [(row_eq _ i _ _ h5 h6).1, h3]
  · rw [(row_eq _ i _ _ h5 h6).2, h4]

/-- C27: for every valid structure `row(i)` and `irow(i)` have equal lengths, each cell of the
matrix is the sum of the values of its row listed with its column, and the rows together are
the stored data, in order. -/
theorem C27_rows_are_stored_entries [AddMonoid α] (n : ℕ) (c : Csr α) (hv : Valid n c) :
    ∃ (rs : List (List α)) (is : List (List ℕ)), rs.length = n ∧ is.length = n ∧
      rs.flatten = c.data ∧ is.flatten = c.indices ∧
      ∀ i, i < n → ∃ r ix, rs[i]? = some r ∧ is[i]? = some ix ∧ r.length = ix.length ∧
        c.row i = .ok r ∧ c.irow i = .ok ix ∧
        ∀ j, c.toNumpy i j = (((ix.zip r).filter (fun p => p.1 = j)).map Prod.snd).sum := by
  let ptr : ℕ → ℕ := fun i => if i ≤ n then c.indptr.getD i 0 else c.indptr.getD n 0
  have hp0 : ptr 0 = 0 := by simp [ptr, List.getD_eq_getElem?_getD, hv.ptr_zero]
  have hmono : ∀ i, ptr i ≤ ptr (i + 1) := by
    intro i
    simp only [ptr]
    rcases lt_trichotomy i n with hi | hi | hi
    · rw [if_pos (by omega), if_pos (by omega)]; exact hv.ptr_mono i hi
    · subst hi; rw [if_pos le_rfl, if_neg (by omega)]
    · rw [if_neg (by omega), if_neg (by omega)]
  have hn : ptr n = c.data.length := by
    simp [ptr, List.getD_eq_getElem?_getD, hv.ptr_last]
  have hle : ∀ i, i ≤ n → ptr i ≤ c.data.length := by
    intro i hi
    rw [← hn]
    exact monotone_nat_of_le_succ hmono hi
  refine ⟨(List.range n).map (fun i => slice c.data (ptr i) (ptr (i + 1))),
    (List.range n).map (fun i => slice c.indices (ptr i) (ptr (i + 1))), by simp, by simp, ?_, ?_, ?_⟩
  · rw [flatten_slices c.data ptr hp0 hmono, hn, List.take_length]
  · rw [flatten_slices c.indices ptr hp0 hmono, hn, ← hv.idx_len, List.take_length]
  · intro i hi
    have ha : c.indptr[i]? = some (ptr i) := by
      simp [ptr, List.getD_eq_getElem?_getD, show i ≤ n by omega, hv.ptr_len, show i < n + 1 by omega]
    have hb : c.indptr[i + 1]? = some (ptr (i + 1)) := by
      simp [ptr, List.getD_eq_getElem?_getD, show i + 1 ≤ n by omega, hv.ptr_len, show i + 1 < n + 1 by omega]
    refine ⟨_, _, by rw [List.getElem?_map, List.getElem?_range hi]; rfl,
      by rw [List.getElem?_map, List.getElem?_range hi]; rfl, ?_, (row_eq c i _ _ ha hb).1,
      (row_eq c i _ _ ha hb).2, fun j => ?_⟩
    · simp [slice, hv.idx_len]
    · exact toNumpy_eq c i j _ _ ha hb (by rw [hv.idx_len]; exact hle _ (by omega)) (hle _ (by omega))

/-- C27: the arrays of a SciPy matrix and arrays with a given shape are taken over. -/
theorem C27_taken_over (data : List α) (indices indptr : List ℕ) (shape : ℕ × ℕ) (sched : List ℕ) :
    ofScipy data indices indptr shape = ⟨data, indices, indptr, (shape.1, (shape.2 : ℤ))⟩ ∧
    ofArrays data indices indptr (some (shape.1, (shape.2 : ℤ))) sched =
      .ok (ofScipy data indices indptr shape) := ⟨rfl, rfl⟩

/-- C27: `eye(n)` is the identity matrix. -/
theorem C27_eye [AddMonoidWithOne α] (n i j : ℕ) (hi : i < n) :
    (eye n : Csr α).toNumpy i j = if i = j then 1 else 0 := by
  have ha : (eye n : Csr α).indptr[i]? = some i := by simp [eye, show i < n + 1 by omega]
  have hb : (eye n : Csr α).indptr[i + 1]? = some (i + 1) := by simp [eye, show i + 1 < n + 1 by omega]
  rw [toNumpy_eq _ i j _ _ ha hb (by simp [eye]; omega) (by simp [eye]; omega)]
  have h1 : slice (eye n : Csr α).indices i (i + 1) = [i] := by
    apply List.ext_getElem?
    intro k
    cases k with
    | zero => simp [slice, eye, hi]
    | succ k => simp [slice, eye]
  have h2 : slice (eye n : Csr α).data i (i + 1) = [1] := by
    apply List.ext_getElem?
    intro k
    cases k with
    | zero => simp [slice, eye, hi]
    | succ k => simp [slice, eye]; omega
  rw [h1, h2]
  by_cases h : i = j
  · simp [colSum, h]
  · simp [colSum, h]

/-- Row indices beyond the last row raise. -/
theorem C27_row_out_of_range (n : ℕ) (c : Csr α) (hl : c.indptr.length = n + 1) (i : ℕ) (hi : n ≤ i) :
    c.row i = .error .index ∧ c.irow i = .error .index := by
  unfold Csr.row Csr.irow
  rw [pyIdx_nat, pyIdx_nat_succ]
  have h2 : pyGet c.indptr (i + 1) = .error .index := pyGet_error (by omega)
  rw [h2]
  rcases Nat.lt_or_ge i (n + 1) with h | h
  · rw [pyGet_ok (by omega)]; exact ⟨rfl, rfl⟩
  · rw [pyGet_error (by omega)]; exact ⟨rfl, rfl⟩

/-- Finding: negative row indices are accepted but do not count from the end: `row(-1)` is
always empty and `row(-2)` is the last row. -/
theorem C27_negative_row [AddMonoid α] (n : ℕ) (c : Csr α) (hv : Valid (n + 1) c) :
    c.row (-1) = .ok [] ∧ c.row (-2) = c.row n := by
  have hl := hv.ptr_len
  have hm1 : pyIdx c.indptr (-1) = .ok c.data.length := by
    have : (((c.indptr.length : ℤ) + -1)).toNat = n + 1 := by omega
    simp only [pyIdx, this]
    rw [if_neg (by omega), if_pos (by omega)]
    exact pyGet_eq_ok_iff.mpr hv.ptr_last
  have h0 : pyIdx c.indptr ((-1 : ℤ) + 1) = .ok 0 := by
    have : pyIdx c.indptr ((-1 : ℤ) + 1) = pyGet c.indptr 0 := by simp [pyIdx]
    rw [this]
    exact pyGet_eq_ok_iff.mpr hv.ptr_zero
  constructor
  · unfold Csr.row
    rw [hm1, h0]
    simp [bind, Except.bind, pure, Except.pure, slice]
  · unfold Csr.row
    have hm2 : pyIdx c.indptr (-2) = pyIdx c.indptr n := by
      have : (((c.indptr.length : ℤ) + -2)).toNat = n := by omega
      rw [pyIdx_nat]
      simp only [pyIdx, this]
      rw [if_neg (by omega), if_pos (by omega)]
    have hm3 : pyIdx c.indptr ((-2 : ℤ) + 1) = pyIdx c.indptr ((n : ℤ) + 1) := by
      rw [show (-2 : ℤ) + 1 = -1 by norm_num, hm1, pyIdx_nat_succ]
      exact (pyGet_eq_ok_iff.mpr hv.ptr_last).symm
    rw [hm2, hm3]

/-- Finding: without a shape the number of columns is the largest number of entries of a
row, so entries may lie outside of the matrix: here column 3 of a 1 x 1 matrix. -/
theorem C27_missing_shape (sched : List ℕ) (hs : Utils.IsSchedule 1 sched) :
    ofArrays [(5 : ℤ)] [3] [0, 1] none sched = .ok ⟨[5], [3], [0, 1], (1, 1)⟩ := by
  have h := getShapeSp_eq [1] sched hs 1 (by simp) (by simp)
  have e : (List.range ([1].length + 1)).map (fun i => ([1].take i).sum) = [0, 1] := rfl
  rw [e] at h
  simp only [ofArrays, h]
  rfl

example : IsMatrix 2 3 [[1, 0, (2 : ℤ)], [0, 0, 3]] := ⟨rfl, by simp⟩
example : Valid 3 (⟨[1, 2, 3, 4, 5, 6], [0, 2, 2, 0, 1, 2], [0, 2, 3, 6], (3, 3)⟩ : Csr ℤ) :=
  ⟨rfl, rfl, by decide, rfl, rfl⟩

/-! ## C28 -/

/-- C28: a jagged array with at least one row becomes the zero padded matrix. -/
theorem C28_jagged_to_csr [AddMonoid α] (rows : List (List α)) (hne : rows ≠ []) (sched : List ℕ)
    (hs : Utils.IsSchedule rows.length sched) :
    ∃ c, ∃ w : ℕ, ofAwkward rows sched = .ok c ∧ c.shape = (rows.length, (w : ℤ)) ∧
      (∃ r ∈ rows, r.length = w) ∧ (∀ r ∈ rows, r.length ≤ w) ∧
      ∀ i r, rows[i]? = some r →
        (∀ j, c.toNumpy i j = if h : j < r.length then r[j] else 0) ∧
        c.row i = .ok r ∧ c.irow i = .ok (List.range r.length) := by
  have hcc := Utils.Props.C34_count_cols rows sched hs
  have hne' : (rows.map List.length) ≠ [] := by simpa using hne
  obtain ⟨w, hw⟩ : ∃ w, (rows.map List.length).max? = some w := by
    cases h : (rows.map List.length).max? with
    | none => exact absurd (List.max?_eq_none_iff.mp h) hne'
    | some w => exact ⟨w, rfl⟩
  obtain ⟨hw1, hw2⟩ := (List.max?_eq_some_iff).mp hw
  have hshape := getShapeSp_eq (rows.map List.length) sched (by simpa using hs) w hw1 hw2
  refine ⟨⟨rows.flatten, ((rows.map List.length).map List.range).flatten,
    (List.range ((rows.map List.length).length + 1)).map (fun i => ((rows.map List.length).take i).sum),
    ((rows.map List.length).length, (w : ℤ))⟩, w, ?_, by simp, ?_, ?_, ?_⟩
  · unfold ofAwkward
    simp only [hcc, jaggedToCsrData_eq, hshape]
    rfl
  · obtain ⟨r, hr, h⟩ := List.mem_map.mp hw1
    exact ⟨r, hr, h⟩
  · intro r hr
    exact hw2 _ (List.mem_map.mpr ⟨r, hr, rfl⟩)
  · intro i r hr
    obtain ⟨hi, rfl⟩ := List.getElem?_eq_some_iff.mp hr
    set c : Csr α := ⟨rows.flatten, ((rows.map List.length).map List.range).flatten,
      (List.range ((rows.map List.length).length + 1)).map (fun i => ((rows.map List.length).take i).sum),
      ((rows.map List.length).length, (w : ℤ))⟩ with hc
    have ha : c.indptr[i]? = some ((rows.map List.length).take i).sum := by
      simp only [hc, List.getElem?_map, List.length_map,
        List.getElem?_range (show i < rows.length + 1 by omega)]
      rfl
    have hb : c.indptr[i + 1]? = some ((rows.map List.length).take (i + 1)).sum := by
      simp only [hc, List.getElem?_map, List.length_map,
        List.getElem?_range (show i + 1 < rows.length + 1 by omega)]
      rfl
    have hd : slice c.data ((rows.map List.length).take i).sum ((rows.map List.length).take (i + 1)).sum =
        rows[i] := slice_flatten rows i hi
    have hx : slice c.indices ((rows.map List.length).take i).sum
        ((rows.map List.length).take (i + 1)).sum = List.range rows[i].length := by
      have h1 : ((rows.map List.length).map List.range).map List.length = rows.map List.length := by
        simp
      have h2 := slice_flatten ((rows.map List.length).map List.range) i (by simpa using hi)
      rw [h1] at h2
      simp only [hc]
      rw [h2]
      simp
    have hle := take_sum_le (rows.map List.length) (i + 1)
    have hlen1 : c.data.length = (rows.map List.length).sum := by simp [hc, List.length_flatten]
    have hlen2 : c.indices.length = (rows.map List.length).sum := by
      simp [hc, List.length_flatten, Function.comp_def]
    refine ⟨fun j => ?_, ?_, ?_⟩
    · rw [toNumpy_eq c i j _ _ ha hb (by omega) (by omega), hd, hx, colSum_range]
      split
      · rename_i h; simp [h]
      · rename_i h; simp [h]
    · rw [(row_eq c i _ _ ha hb).1, hd]
    · rw [(row_eq c i _ _ ha hb).2, hx]

/-- Without rows the conversion raises. -/
theorem C28_no_rows : ofAwkward ([] : List (List α)) [] = .error .value := rfl

/-- C28 at the class: both ways of storing the rows give the same matrix. -/
theorem C28_to_csr [AddMonoid α] (w : Wrapped α) (hne : w.rows ≠ [])
    (hw : ∀ n m rows, w = .np n m rows → IsMatrix n m rows) :
    ∃ c, w.toCsr = .ok c ∧ ∀ i r, w.rows[i]? = some r →
      ∀ j, (h : j < r.length) → c.toNumpy i j = r[j] := by
  cases w with
  | np n m rows =>
    refine ⟨_, rfl, fun i r hr j hj => ?_⟩
    have hm := hw n m rows rfl
    have hlen : r.length = m := hm.2 r (List.mem_of_getElem? hr)
    have := ((C27_dense_round_trip n m rows hm).2 i r hr).1 j (by omega)
    rw [List.getElem?_eq_getElem hj] at this
    exact (Option.some.inj this).symm
  | ak rows =>
    obtain ⟨c, _, h1, -, -, -, h2⟩ := C28_jagged_to_csr rows hne _ (List.Perm.refl _)
    refine ⟨c, h1, fun i r hr j hj => ?_⟩
    rw [(h2 i r hr).1 j, dif_pos hj]

example : (([[1], [2, 3]] : List (List ℤ)) ≠ []) ∧ Utils.IsSchedule 2 [1, 0] := by
  refine ⟨by simp, ?_⟩; unfold Utils.IsSchedule; decide

/-! ## C29 -/

theorem forceNumpy_rows (w : Wrapped α) (force : Bool) : (forceNumpy w force).rows = w.rows := by
  unfold forceNumpy
  cases w with
  | np n m rows => rfl
  | ak rows =>
    simp only
    split_ifs <;> rfl

/-- C29: flat data and cuts are stored as the rows cut from the data, and flattening returns
data and cuts; so does `flatten(return_cuts=True)`. -/
theorem C29_round_trip (data : List α) (cuts : List ℕ) (h : cuts.sum = data.length) (force : Bool) :
    ∃ J, init (.arr1 data) (some cuts) force = .ok J ∧ J.flatten = data ∧ J.widths = cuts ∧
      J.flattenCuts = (cuts, data) ∧ J.size = data.length ∧ J.rows.length = cuts.length ∧
      ∀ i, i < cuts.length →
        J.rows[i]? = some ((data.drop (cuts.take i).sum).take (cuts.getD i 0)) := by
  obtain ⟨h1, h2, h3⟩ := unflatten_eq data cuts h
  have hw : (forceNumpy (.ak (ASO.unflatten data cuts)) force).widths = cuts := by
    unfold Wrapped.widths
    rw [forceNumpy_rows, cc_eq]; exact h2
  have hf : (forceNumpy (.ak (ASO.unflatten data cuts)) force).flatten = data := by
    unfold Wrapped.flatten
    rw [forceNumpy_rows]; exact h1
  refine ⟨forceNumpy (.ak (ASO.unflatten data cuts)) force, ?_, hf, hw, ?_, ?_, ?_, ?_⟩
  · simp [init, getData, akUnflatten, h, bind, Except.bind, pure, Except.pure]
  · unfold Wrapped.flattenCuts
    rw [hw]
    exact congrArg _ hf
  · unfold Wrapped.size
    rw [hw, h]
  · rw [forceNumpy_rows]
    have := congrArg List.length h2
    change (ASO.unflatten data cuts).length = _
    simpa using this
  · intro i hi
    rw [forceNumpy_rows]
    change (ASO.unflatten data cuts)[i]? = _
    rw [h3 i hi]
    congr 1
    have hT := List.take_succ_eq_append_getElem hi
    unfold slice
    rw [hT, List.sum_append, List.drop_take]
    simp [List.getD_eq_getElem?_getD, hi]

/-- C29: what is neither an array, a list nor an awkward array is refused with a TypeError, whatever the cuts. -/
theorem C29_refused (cuts : Option (List ℕ)) (force : Bool) :
    init (.other : Data α) cuts force = .error .type ∧ init (.arrN : Data α) cuts force = .error .assertion := ⟨rfl, rfl⟩

/-- C29: cuts that do not fit are rejected. -/
theorem C29_bad_cuts (data : List α) (cuts : List ℕ) (h : cuts.sum ≠ data.length) (force : Bool) :
    init (.arr1 data) (some cuts) force = .error .value ∧
    init (.arr1 data) none force = .error .assertion := by
  simp [init, getData, akUnflatten, h, bind, Except.bind]

/-- C29: lists of lists and awkward arrays keep their rows, 2d arrays too. -/
theorem C29_rows (rows : List (List α)) (n m : ℕ) (cuts : Option (List ℕ)) (force : Bool) :
    (∃ J, init (.lists rows) cuts force = .ok J ∧ J.rows = rows) ∧
    (∃ J, init (.awkward rows) cuts force = .ok J ∧ J.rows = rows) ∧
    (∃ J, init (.arr2 n m rows) cuts force = .ok J ∧ J.rows = rows ∧ J.shape = (n, .inl m)) := by
  refine ⟨⟨_, rfl, forceNumpy_rows _ _⟩, ⟨_, rfl, forceNumpy_rows _ _⟩, ⟨_, rfl, rfl, rfl⟩⟩

/-- C29: widths are the lengths of the rows, the size is their sum, `is_jagged` tells whether
two rows differ in length (and raises without rows). -/
theorem C29_topology (w : Wrapped α) :
    w.widths = w.rows.map List.length ∧ w.size = w.flatten.length ∧
    (w.rows ≠ [] → ∃ b, w.isJagged = .ok b ∧
      (b = true ↔ ∃ r ∈ w.rows, ∃ r' ∈ w.rows, r.length ≠ r'.length)) ∧
    (w.rows = [] → w.isJagged = .error .index) := by
  have hw : w.widths = w.rows.map List.length := cc_eq _
  refine ⟨hw, ?_, ?_, ?_⟩
  · unfold Wrapped.size Wrapped.flatten
    rw [hw, List.length_flatten]
  · intro hne
    unfold Wrapped.isJagged
    rw [hw]
    cases hr : w.rows with
    | nil => exact absurd hr hne
    | cons r0 rs =>
      refine ⟨_, rfl, ?_⟩
      simp only [Bool.not_eq_true', ← Bool.not_eq_true, List.all_eq_true, not_forall]
      constructor
      · rintro ⟨x, hx, hne'⟩
        obtain ⟨r, hr', rfl⟩ := List.mem_map.mp hx
        exact ⟨r, hr', r0, by simp, by simpa using hne'⟩
      · rintro ⟨r, hr1, r', hr2, hne'⟩
        by_cases h : r.length = r0.length
        · exact ⟨r'.length, List.mem_map.mpr ⟨r', hr2, rfl⟩, by
            simp only [beq_iff_eq]; intro h'; exact hne' (h.trans h'.symm)⟩
        · exact ⟨r.length, List.mem_map.mpr ⟨r, hr1, rfl⟩, by simpa using h⟩
  · intro he
    unfold Wrapped.isJagged
    rw [hw, he]
    rfl

/-- C29, the shape: with `force_numpy` regular data (at least one row) have a pair of numbers
as shape, everything else the number of rows and the widths. -/
theorem C29_shape (rows : List (List α)) (force : Bool) :
    (∀ m, rows ≠ [] → (∀ r ∈ rows, r.length = m) → force = true →
      (forceNumpy (.ak rows) force).shape = (rows.length, .inl m)) ∧
    ((force = false ∨ rows = [] ∨ ∃ r ∈ rows, ∃ r' ∈ rows, r.length ≠ r'.length) →
      (forceNumpy (.ak rows) force).shape = (rows.length, .inr (rows.map List.length))) := by
  constructor
  · intro m hne hall hf
    have hrep : rows.map List.length = List.replicate rows.length m := by
      rw [List.eq_replicate_iff]
      refine ⟨by simp, ?_⟩
      intro b hb
      obtain ⟨r, hr, rfl⟩ := List.mem_map.mp hb
      exact hall r hr
    have hpos : rows.length ≠ 0 := by simpa using hne
    have hd : (cc rows).dedup.length = 1 := by
      rw [cc_eq, hrep, List.replicate_dedup hpos]; rfl
    have hh : (cc rows).headD 0 = m := by
      rw [cc_eq]
      cases rows with
      | nil => exact absurd rfl hne
      | cons r rs => exact hall r (by simp)
    simp only [forceNumpy, hf, hd, hh, if_true, Wrapped.shape]
  · intro h
    have hak : forceNumpy (.ak rows) force = .ak rows := by
      unfold forceNumpy
      simp only
      split_ifs with h1 h2
      · exfalso
        rw [cc_eq] at h2
        obtain ⟨v, hv⟩ := List.length_eq_one_iff.mp h2
        have hmem : ∀ r ∈ rows, r.length = v := by
          intro r hr
          have : r.length ∈ (rows.map List.length).dedup :=
            List.mem_dedup.mpr (List.mem_map.mpr ⟨r, hr, rfl⟩)
          rw [hv] at this
          simpa using this
        rcases h with h | h | ⟨r, hr, r', hr', hne⟩
        · simp [h1] at h
        · subst h; simp at h2
        · exact hne ((hmem r hr).trans (hmem r' hr').symm)
      · rfl
      · rfl
    rw [hak]
    simp [Wrapped.shape, cc_eq]

/-- C29: `vstack` (and `concatenate` along the first axis) appends the rows. -/
theorem C29_vstack (js : List (Wrapped α)) (hne : js ≠ []) :
    ∃ J, vstack js = .ok J ∧ J.rows = (js.map Wrapped.rows).flatten := by
  have hsum : (js.map Wrapped.widths).flatten.sum = (js.map Wrapped.flatten).flatten.length := by
    rw [List.length_flatten, List.sum_flatten, List.map_map, List.map_map]
    congr 1
    apply List.map_congr_left
    intro w _
    exact (C29_topology w).2.1
  have hv : vstack js = init (.arr1 (js.map Wrapped.flatten).flatten)
      (some (js.map Wrapped.widths).flatten) true := by
    cases js with
    | nil => exact absurd rfl hne
    | cons j js => rfl
  have e1 : (js.map Wrapped.flatten).flatten = ((js.map Wrapped.rows).flatten).flatten := by
    rw [List.flatten_flatten, List.map_map]; rfl
  have e2 : (js.map Wrapped.widths).flatten = ((js.map Wrapped.rows).flatten).map List.length := by
    rw [List.map_flatten, List.map_map]
    congr 1
    apply List.map_congr_left
    intro w _
    exact (C29_topology w).1
  refine ⟨forceNumpy (.ak (ASO.unflatten (js.map Wrapped.flatten).flatten
    (js.map Wrapped.widths).flatten)) true, ?_, ?_⟩
  · rw [hv]
    simp only [init, getData, akUnflatten, hsum, if_true, bind, Except.bind, pure, Except.pure]
  · rw [forceNumpy_rows]
    change ASO.unflatten _ _ = _
    rw [e1, e2]
    have := ASO.Props.unflatten_map id ((js.map Wrapped.rows).flatten)
    simpa using this

/-- Finding: `concatenate` ignores the axis: with `axis=1` it stacks vertically. -/
theorem C29_concatenate_ignores_axis (js : List (Wrapped α)) (axis : ℕ) :
    concatenate js axis = vstack js := rfl

example : ([3, 3, 4] : List ℕ).sum = [1, 2, 3, 4, 5, 6, 7, 8, 9, 10].length := rfl

/-! ## C61 – lists of 2d arrays -/

/-- C61, the part that holds: the fallback branch stacks the rows of all arrays. Missing: the
constructor never takes this branch (`C61_list_of_arrays_fails`). -/
theorem C61_fallback_partial (ms : List (List (List α))) (cuts : Option (List ℕ)) :
    getData (.mats ms) cuts true = .ok (.two (.ak ms.flatten)) := by
  have e1 : (ms.map List.flatten).flatten = ms.flatten.flatten := List.flatten_flatten.symm
  have e2 : (ms.map (List.map List.length)).flatten = ms.flatten.map List.length :=
    List.map_flatten.symm
  have hsum : (ms.flatten.map List.length).sum = ms.flatten.flatten.length := by
    rw [List.length_flatten]
  have hu := ASO.Props.unflatten_map id ms.flatten
  simp only [List.map_id, List.map_id_fun] at hu
  simp only [getData, e1, e2, akUnflatten, hsum, if_true, bind, Except.bind, pure, Except.pure, hu]

/-- C61, violation: the constructor keeps a list of 2d arrays as a three-dimensional array
whose widths are the numbers of rows of the items. -/
theorem C61_list_of_arrays_fails (ms : List (List (List α))) (cuts : Option (List ℕ)) :
    ∃ g, getData (.mats ms) cuts false = .ok g ∧ g.widths = ms.map List.length ∧
      (∀ w, g ≠ .two w) :=
  ⟨.three ms, rfl, cc_eq ms, fun w => by simp⟩

example : (∃ g, getData (.mats [[[1, 2, (3 : ℤ)]], [[4], [5]]]) none false = .ok g ∧ g.widths = [1, 2]) ∧
    getData (.mats [[[1, 2, (3 : ℤ)]], [[4], [5]]]) none true = .ok (.two (.ak [[1, 2, 3], [4], [5]])) :=
  ⟨⟨_, rfl, rfl⟩, C61_fallback_partial _ _⟩

/-! ## C30 -/

theorem pyGets_getD {β : Type} (l : List β) (d : β) (inds : List ℕ) (h : ∀ i ∈ inds, i < l.length) :
    pyGets l inds = .ok (inds.map fun i => l.getD i d) :=
  pyGets_eq_map _ (fun i hi => by simp [h i hi])

theorem zip_filter {β : Type} (data : List β) (rows cols : List ℤ) (d : β) (h1 : data.length = rows.length)
    (h2 : rows.length = cols.length) (P : ℤ → ℤ → Bool) :
    (((List.range rows.length).filter (fun k => P (rows.getD k 0) (cols.getD k 0))).map
      (fun k => (data.getD k d, rows.getD k 0, cols.getD k 0))) =
      (data.zip (rows.zip cols)).filter (fun e => P e.2.1 e.2.2) := by
  have hz : data.zip (rows.zip cols) =
      (List.range rows.length).map (fun k => (data.getD k d, rows.getD k 0, cols.getD k 0)) := by
    apply List.ext_getElem?
    intro k
    by_cases hk : k < rows.length
    · have hk1 : k < data.length := by omega
      have hk2 : k < cols.length := by omega
      simp [List.zip, hk, hk1, hk2]
    · rw [List.getElem?_eq_none (by simp; omega), List.getElem?_eq_none (by simp; omega)]
  rw [hz, List.filter_map]
  rfl

/-- The entries of a triplet array. -/
def entries (t : List α × List ℤ × List ℤ) : List (α × ℤ × ℤ) := t.1.zip (t.2.1.zip t.2.2)

theorem spdata_core (data : List α) (rows cols : List ℤ) (h1 : data.length = rows.length)
    (h2 : rows.length = cols.length) (P : ℤ → ℤ → Bool) :
    ∃ t : List α × List ℤ × List ℤ,
      (let inds := (List.range rows.length).filter (fun k => P (rows.getD k 0) (cols.getD k 0))
       (do return (← take data inds, ← take rows inds, ← take cols inds) : Py _) = .ok t) ∧
      t.1.length = t.2.1.length ∧ t.2.1.length = t.2.2.length ∧
      entries t = (entries (data, rows, cols)).filter (fun e => P e.2.1 e.2.2) := by
  cases hd : data with
  | nil =>
    subst hd
    have : rows = [] := List.eq_nil_of_length_eq_zero h1.symm
    subst this
    exact ⟨([], [], []), rfl, rfl, rfl, rfl⟩
  | cons d ds =>
    rw [← hd]
    set inds := (List.range rows.length).filter (fun k => P (rows.getD k 0) (cols.getD k 0)) with hi
    have hlt : ∀ i ∈ inds, i < rows.length := fun i h => List.mem_range.mp (List.mem_filter.mp h).1
    refine ⟨(inds.map (fun i => data.getD i d), inds.map (fun i => rows.getD i 0),
      inds.map (fun i => cols.getD i 0)), ?_, by simp, by simp, ?_⟩
    · simp only [take]
      rw [pyGets_getD data d inds (fun i h => by have := hlt i h; omega),
        pyGets_getD rows 0 inds hlt, pyGets_getD cols 0 inds (fun i h => by have := hlt i h; omega)]
      rfl
    · unfold entries
      simp only
      rw [← zip_filter data rows cols d h1 h2 P, ← hi, List.zip_map', List.zip_map']

/-- C30: the lower part has, in order and aligned, exactly the entries with `row ≥ col`, the
upper part those with `row ≤ col`. -/
theorem C30_lower_upper (data : List α) (rows cols : List ℤ) (h1 : data.length = rows.length)
    (h2 : rows.length = cols.length) :
    ∃ lo up, lowerSpdata data rows cols = .ok lo ∧ upperSpdata data rows cols = .ok up ∧
      lo.1.length = lo.2.1.length ∧ lo.2.1.length = lo.2.2.length ∧
      up.1.length = up.2.1.length ∧ up.2.1.length = up.2.2.length ∧
      entries lo = (entries (data, rows, cols)).filter (fun e => decide (e.2.2 ≤ e.2.1)) ∧
      entries up = (entries (data, rows, cols)).filter (fun e => decide (e.2.1 ≤ e.2.2)) := by
  obtain ⟨lo, l1, l2, l3, l4⟩ := spdata_core data rows cols h1 h2 (fun r c => decide (r ≥ c))
  obtain ⟨up, u1, u2, u3, u4⟩ := spdata_core data rows cols h1 h2 (fun r c => decide (c ≥ r))
  refine ⟨lo, up, ?_, ?_, l2, l3, u2, u3, l4, u4⟩
  · simp only [lowerSpdata, h2, ne_eq, not_true_eq_false, if_false]
    simp only [h2] at l1
    exact l1
  · simp only [upperSpdata, h2, ne_eq, not_true_eq_false, if_false]
    simp only [h2] at u1
    exact u1

/-- C30: together the two parts have every entry once, the diagonal ones twice. -/
theorem C30_cover (data : List α) (rows cols : List ℤ) (h1 : data.length = rows.length)
    (h2 : rows.length = cols.length) :
    ∃ lo up, lowerSpdata data rows cols = .ok lo ∧ upperSpdata data rows cols = .ok up ∧
      (∀ e ∈ entries (data, rows, cols), e ∈ entries lo ∨ e ∈ entries up) ∧
      (∀ e, e ∈ entries lo ∧ e ∈ entries up ↔ e ∈ entries (data, rows, cols) ∧ e.2.1 = e.2.2) ∧
      (entries lo).length + (entries up).length = data.length +
        (entries (data, rows, cols)).countP (fun e => e.2.1 = e.2.2) := by
  obtain ⟨lo, up, a, b, -, -, -, -, e1, e2⟩ := C30_lower_upper data rows cols h1 h2
  refine ⟨lo, up, a, b, ?_, ?_, ?_⟩
  · intro e he
    rw [e1, e2, List.mem_filter, List.mem_filter]
    rcases le_total e.2.2 e.2.1 with h | h
    · left; exact ⟨he, by simpa using h⟩
    · right; exact ⟨he, by simpa using h⟩
  · intro e
    rw [e1, e2, List.mem_filter, List.mem_filter]
    simp only [decide_eq_true_eq]
    constructor
    · rintro ⟨⟨h, h3⟩, -, h4⟩; exact ⟨h, by omega⟩
    · rintro ⟨h, h3⟩; exact ⟨⟨h, by omega⟩, h, by omega⟩
  · rw [e1, e2]
    have hl : data.length = (entries (data, rows, cols)).length := by
      simp [entries, h1, h2]
    rw [hl]
    generalize entries (data, rows, cols) = l
    induction l with
    | nil => rfl
    | cons e l ih =>
      rcases lt_trichotomy e.2.1 e.2.2 with h | h | h
      · rw [List.filter_cons_of_neg (by simp; omega), List.filter_cons_of_pos (by simp; omega),
          List.countP_cons_of_neg (by simp; omega)]
        simp only [List.length_cons]; omega
      · rw [List.filter_cons_of_pos (by simp; omega), List.filter_cons_of_pos (by simp; omega),
          List.countP_cons_of_pos (by simp; omega)]
        simp only [List.length_cons]; omega
      · rw [List.filter_cons_of_pos (by simp; omega), List.filter_cons_of_neg (by simp; omega),
          List.countP_cons_of_neg (by simp; omega)]
        simp only [List.length_cons]; omega

example : lowerSpdata ["a", "b", "c"] [0, 1, 2] [1, 0, 2] = .ok (["b", "c"], [1, 2], [0, 2]) := rfl

end Verif.Sparse.Props
