import Verif.Proofs.ArraySetOps
import Verif.Props.Utils

/-!
# C31 – `unique2d`
-/

set_option linter.unusedSectionVars false

namespace Verif.ASO.Props
open Verif Verif.ASO

/-- The positions of a `nR × nC` array, row by row. -/
def positions (nR nC : ℕ) : List (ℕ × ℕ) := (List.range nR) ×ˢ (List.range nC)

/-- C31 for a regular array: the kernel does not fail; the unique array is strictly
increasing and has exactly the values present; `unique[inverse]` is the array; counts and
positions of every value are exact and in row-major order. -/
theorem C31_dense_kernel (nR nC : ℕ) (data : ℕ → ℕ → ℤ) :
    ∃ res, unique2dNjit nR nC data = .ok res ∧
      res.unique.Pairwise (· < ·) ∧
      (∀ v, v ∈ res.unique ↔ ∃ r < nR, ∃ c < nC, data r c = v) ∧
      (∀ r < nR, ∀ c < nC, res.unique[res.inverse r c]? = some (data r c)) ∧
      res.counts.length = res.unique.length ∧
      (∀ (i : ℕ) (v : ℤ), res.unique[i]? = some v →
        res.counts[i]? = some ((positions nR nC).countP (fun p => data p.1 p.2 = v)) ∧
        res.indices v = some ((positions nR nC).filter (fun p => data p.1 p.2 = v))) ∧
      (∀ v, v ∉ res.unique → res.indices v = none) := by
  set ps : List (ℕ × ℕ) := (List.range nR) ×ˢ (List.range nC) with hps
  set flat := ps.map (fun p => data p.1 p.2) with hflat
  set u := npUnique flat with hu
  have hnd : u.Nodup := npUnique_nodup flat
  have hcl := countLoop_eq u hnd flat (fun v hv => (npUnique_mem flat v).mpr hv) flat.length le_rfl
  simp only [List.take_length, Nat.sub_self, List.replicate_zero, List.append_nil] at hcl
  have hmem : ∀ p ∈ ps, p.1 < nR ∧ p.2 < nC := fun p hp => Utils.Props.mem_product.mp hp
  have hgetinv : ∀ r < nR, ∀ c < nC,
      (flat.map (fun v => u.idxOf v)).getD (r * nC + c) 0 = u.idxOf (data r c) := by
    intro r hr c hc
    rw [List.getD_eq_getElem?_getD, List.getElem?_map, hflat, List.getElem?_map, hps, product_get hr hc]
    rfl
  have hkey : ∀ p ∈ ps, data p.1 p.2 ∈ u := fun p hp =>
    (npUnique_mem flat _).mpr (List.mem_map.mpr ⟨p, hp, rfl⟩)
  obtain ⟨t, ht, ht1, ht2⟩ := indexLoop_eq (0, 0) u hnd (fun p : ℕ × ℕ => data p.1 p.2)
    (fun p => (flat.map (fun v => u.idxOf v)).getD (p.1 * nC + p.2) 0) ps
    (fun p hp => ⟨hkey p hp, hgetinv _ (hmem p hp).1 _ (hmem p hp).2⟩) []
    (List.replicate u.length 0, mkIndices (0, 0) u (u.map (fun v => flat.count v)))
    (by simp)
    (by
      intro v
      simp only [mkIndices_eq _ u hnd, List.filter_nil, List.nil_append]
      split
      · rename_i hv
        have hlt : u.idxOf v < u.length := List.idxOf_lt_length_iff.mpr hv
        rw [List.getD_eq_getElem?_getD, List.getElem?_map, List.getElem?_eq_getElem hlt]
        simp only [List.getElem_idxOf, Option.map_some, Option.getD_some]
        congr 2
        rw [hflat, List.count_eq_countP, List.countP_map, List.countP_eq_length_filter]
        congr 1
      · rfl)
  refine ⟨⟨u, t.1, fun r c => (flat.map (fun v => u.idxOf v)).getD (r * nC + c) 0, t.2⟩, ?_,
    npUnique_sorted flat, ?_, ?_, ?_, ?_, ?_⟩
  · unfold unique2dNjit
    simp only [← hps, ← hflat, ← hu]
    rw [hcl]
    simp only [bind, Except.bind]
    rw [ht]
    rfl
  · intro v
    simp only
    rw [hu, npUnique_mem, hflat, List.mem_map]
    constructor
    · rintro ⟨p, hp, rfl⟩
      exact ⟨p.1, (hmem p hp).1, p.2, (hmem p hp).2, rfl⟩
    · rintro ⟨r, hr, c, hc, rfl⟩
      exact ⟨(r, c), Utils.Props.mem_product.mpr ⟨hr, hc⟩, rfl⟩
  · intro r hr c hc
    simp only
    rw [hgetinv r hr c hc]
    have hm := hkey (r, c) (Utils.Props.mem_product.mpr ⟨hr, hc⟩)
    rw [List.getElem?_eq_getElem (List.idxOf_lt_length_iff.mpr hm), List.getElem_idxOf]
  · simp only [ht1, List.length_map]
  · intro i v hi
    simp only at hi ⊢
    obtain ⟨hlt, rfl⟩ := List.getElem?_eq_some_iff.mp hi
    refine ⟨?_, ?_⟩
    · rw [ht1, List.getElem?_map, hi]
      simp [List.countP_eq_length_filter, positions, hps]
    · rw [ht2, if_pos (List.getElem_mem hlt)]
      simp [positions, hps]
  · intro v hv
    simp only
    rw [ht2, if_neg hv]

/-- C31 for the flat kernel used with jagged arrays. -/
theorem C31_flat_kernel (flat : List ℤ) :
    ∃ res, unique1d flat = .ok res ∧
      res.unique.Pairwise (· < ·) ∧
      (∀ v, v ∈ res.unique ↔ v ∈ flat) ∧
      res.inverse = flat.map (fun v => res.unique.idxOf v) ∧
      res.counts.length = res.unique.length ∧
      (∀ (i : ℕ) (v : ℤ), res.unique[i]? = some v →
        res.counts[i]? = some (flat.count v) ∧
        res.indices v = some ((List.range flat.length).filter (fun k => flat[k]? = some v))) ∧
      (∀ v, v ∉ res.unique → res.indices v = none) := by
  set u := npUnique flat with hu
  have hnd : u.Nodup := npUnique_nodup flat
  have hcl := countLoop_eq u hnd flat (fun v hv => (npUnique_mem flat v).mpr hv) flat.length le_rfl
  simp only [List.take_length, Nat.sub_self, List.replicate_zero, List.append_nil] at hcl
  have hgk : ∀ k, (hk : k < flat.length) → flat.getD k 0 = flat[k] := by
    intro k hk; simp [List.getD_eq_getElem?_getD, hk]
  have hflat : (List.range flat.length).map (fun k => flat.getD k 0) = flat := by
    apply List.ext_getElem?
    intro k
    by_cases hk : k < flat.length
    · simp [hk]
    · simp [hk]
  obtain ⟨t, ht, ht1, ht2⟩ := indexLoop_eq 0 u hnd (fun k : ℕ => flat.getD k 0)
    (fun k => (flat.map (fun v => u.idxOf v)).getD k 0) (List.range flat.length)
    (fun k hk => by
      have hk := List.mem_range.mp hk
      refine ⟨?_, ?_⟩
      · rw [hgk k hk]; exact (npUnique_mem flat _).mpr (List.getElem_mem hk)
      · simp [List.getD_eq_getElem?_getD, hk]) []
    (List.replicate u.length 0, mkIndices 0 u (u.map (fun v => flat.count v)))
    (by simp)
    (by
      intro v
      simp only [mkIndices_eq _ u hnd, List.filter_nil, List.nil_append]
      split
      · rename_i hv
        have hlt : u.idxOf v < u.length := List.idxOf_lt_length_iff.mpr hv
        rw [List.getD_eq_getElem?_getD, List.getElem?_map, List.getElem?_eq_getElem hlt]
        simp only [List.getElem_idxOf, Option.map_some, Option.getD_some]
        congr 2
        conv_lhs => rw [← hflat, List.count_eq_countP, List.countP_map, List.countP_eq_length_filter]
        congr 1
      · rfl)
  have hfilter : ∀ v, (List.range flat.length).filter (fun k => decide (flat.getD k 0 = v)) =
      (List.range flat.length).filter (fun k => decide (flat[k]? = some v)) := by
    intro v
    apply List.filter_congr
    intro k hk
    have hk := List.mem_range.mp hk
    simp [List.getD_eq_getElem?_getD, hk]
  refine ⟨⟨u, t.1, flat.map (fun v => u.idxOf v), t.2⟩, ?_, npUnique_sorted flat,
    fun v => npUnique_mem flat v, rfl, ?_, ?_, ?_⟩
  · unfold unique1d
    simp only [← hu]
    rw [hcl]
    simp only [bind, Except.bind]
    rw [ht]
    rfl
  · simp only [ht1, List.length_map]
  · intro i v hi
    simp only at hi ⊢
    obtain ⟨hlt, rfl⟩ := List.getElem?_eq_some_iff.mp hi
    refine ⟨?_, ?_⟩
    · rw [ht1, List.getElem?_map, hi]
      simp only [List.nil_append, Option.map_some]
      conv_rhs => rw [← hflat, List.count_eq_countP, List.countP_map, List.countP_eq_length_filter]
      congr 2
    · rw [ht2, if_pos (List.getElem_mem hlt)]
      simp only [List.nil_append, hfilter]
  · intro v hv
    simp only
    rw [ht2, if_neg hv]

theorem unflatten_map {α β : Type} (f : α → β) (rows : List (List α)) :
    unflatten (rows.flatten.map f) (rows.map List.length) = rows.map (List.map f) := by
  induction rows with
  | nil => rfl
  | cons r rows ih =>
    simp only [List.flatten_cons, List.map_append, List.map_cons, unflatten]
    rw [List.take_left' (by simp), List.drop_left' (by simp), ih]

/-- C31, what `unique2d` returns for a regular array: the values described by
`C31_dense_kernel`, in the documented order. -/
theorem C31_dense (nR nC : ℕ) (data : ℕ → ℕ → ℤ) (ri rv rc : Bool) (sched : List ℕ) :
    ∃ res, unique2dNjit nR nC data = .ok res ∧
      unique2d (.dense nR nC data) ri rv rc sched = .ok
        ([Out.unique res.unique] ++ (if ri then [Out.index2 res.indices] else []) ++
          (if rv then [Out.inverse2 res.inverse] else []) ++
          (if rc then [Out.counts res.counts] else [])) := by
  obtain ⟨res, h, -⟩ := C31_dense_kernel nR nC data
  exact ⟨res, h, by simp only [unique2d, uniqueDense, h]; rfl⟩

/-- C31, what `unique2d` returns for an awkward array: the inverse has the rows of the array
and each of its cells points to the value of the cell in the unique array; unique, counts and
index lists are those of the flat array (`C31_flat_kernel`). -/
theorem C31_awkward (rows : List (List ℤ)) (ri rv rc : Bool) (sched : List ℕ)
    (hs : Utils.IsSchedule rows.length sched) :
    ∃ res inverse, unique1d rows.flatten = .ok res ∧
      unique2d (.awkward rows) ri rv rc sched = .ok
        ([Out.unique res.unique] ++ (if ri then [Out.index1 res.indices] else []) ++
          (if rv then [Out.inverseJ inverse] else []) ++ (if rc then [Out.counts res.counts] else [])) ∧
      inverse.map (List.map fun k => res.unique[k]?) = rows.map (List.map some) := by
  obtain ⟨res, h, -, hm, hi, -⟩ := C31_flat_kernel rows.flatten
  refine ⟨res, unflatten res.inverse (Utils.countCols rows sched), h, by
    simp only [unique2d, uniqueAwkward, h]; rfl, ?_⟩
  rw [Utils.Props.C34_count_cols rows sched hs, hi, unflatten_map, List.map_map]
  apply List.map_congr_left
  intro r hr
  simp only [Function.comp_apply, List.map_map]
  apply List.map_congr_left
  intro v hv
  have : v ∈ res.unique := (hm v).mpr (List.mem_flatten.mpr ⟨r, hr, hv⟩)
  simp only [Function.comp_apply]
  rw [List.getElem?_eq_getElem (List.idxOf_lt_length_iff.mpr this), List.getElem_idxOf]

/-- C31, all of it for a regular array: `unique2d` returns the unique array, then the parts asked for; the
unique array is strictly increasing and has exactly the values present, `unique[inverse]` is the array,
counts and positions of every value are exact and in row-major order. -/
theorem C31_unique2d (nR nC : ℕ) (data : ℕ → ℕ → ℤ) (ri rv rc : Bool) (sched : List ℕ) :
    ∃ unique indices inverse counts,
      unique2d (.dense nR nC data) ri rv rc sched = .ok
        ([Out.unique unique] ++ (if ri then [Out.index2 indices] else []) ++
          (if rv then [Out.inverse2 inverse] else []) ++ (if rc then [Out.counts counts] else [])) ∧
      unique.Pairwise (· < ·) ∧ (∀ v, v ∈ unique ↔ ∃ r < nR, ∃ c < nC, data r c = v) ∧
      (∀ r < nR, ∀ c < nC, unique[inverse r c]? = some (data r c)) ∧
      counts.length = unique.length ∧
      (∀ (i : ℕ) (v : ℤ), unique[i]? = some v →
        counts[i]? = some ((positions nR nC).countP (fun p => data p.1 p.2 = v)) ∧
        indices v = some ((positions nR nC).filter (fun p => data p.1 p.2 = v))) ∧
      (∀ v, v ∉ unique → indices v = none) := by
  obtain ⟨res, h, h'⟩ := C31_dense_kernel nR nC data
  exact ⟨_, _, _, _, by simp only [unique2d, uniqueDense, h]; rfl, h'⟩

/-- C31, all of it for a jagged array: the inverse has the rows of the array, the positions are those in
the flat array. -/
theorem C31_unique2d_jagged (rows : List (List ℤ)) (ri rv rc : Bool) (sched : List ℕ)
    (hs : Utils.IsSchedule rows.length sched) :
    ∃ unique indices inverse counts,
      unique2d (.awkward rows) ri rv rc sched = .ok
        ([Out.unique unique] ++ (if ri then [Out.index1 indices] else []) ++
          (if rv then [Out.inverseJ inverse] else []) ++ (if rc then [Out.counts counts] else [])) ∧
      unique.Pairwise (· < ·) ∧ (∀ v, v ∈ unique ↔ ∃ r ∈ rows, v ∈ r) ∧
      inverse.map (List.map fun k => unique[k]?) = rows.map (List.map some) ∧
      counts.length = unique.length ∧
      (∀ (i : ℕ) (v : ℤ), unique[i]? = some v →
        counts[i]? = some ((rows.map (List.count v)).sum) ∧
        indices v = some ((List.range rows.flatten.length).filter
          (fun k => rows.flatten[k]? = some v))) ∧
      (∀ v, v ∉ unique → indices v = none) := by
  obtain ⟨res, h, h1, h2, -, h4, h5, h6⟩ := C31_flat_kernel rows.flatten
  obtain ⟨res', inverse, h', hret, hinv⟩ := C31_awkward rows ri rv rc sched hs
  have : res' = res := by
    rw [h] at h'
    exact (Except.ok.inj h').symm
  subst this
  refine ⟨_, _, inverse, _, hret, h1, fun v => ?_, hinv, h4, fun i v hv => ?_, h6⟩
  · rw [h2, List.mem_flatten]
  · obtain ⟨e1, e2⟩ := h5 i v hv
    exact ⟨by rw [e1, List.count_flatten], e2⟩

/-- C31, `JaggedArray`: rows of equal width are treated as a regular array, others as an
awkward array; other types are rejected. -/
theorem C31_jagged (rows : List (List ℤ)) (ri rv rc : Bool) (sched : List ℕ) (hne : rows ≠ []) :
    ((∀ r ∈ rows, ∀ r' ∈ rows, r.length = r'.length) →
      unique2d (.jagged rows) ri rv rc sched = unique2d (.dense rows.length (rows.headD []).length
        (fun i j => (rows.getD i []).getD j 0)) ri rv rc sched) ∧
    ((∃ r ∈ rows, ∃ r' ∈ rows, r.length ≠ r'.length) →
      unique2d (.jagged rows) ri rv rc sched = unique2d (.awkward rows) ri rv rc sched) ∧
    unique2d .other ri rv rc sched = .error .type := by
  cases rows with
  | nil => exact absurd rfl hne
  | cons row rows =>
    refine ⟨fun h => ?_, fun h => ?_, rfl⟩
    · simp only [unique2d]
      rw [if_pos]
      · rfl
      · rw [List.all_eq_true]
        intro r hr
        simpa using h r hr row (by simp)
    · simp only [unique2d]
      rw [if_neg]
      rw [List.all_eq_true]
      intro hall
      obtain ⟨r, hr, r', hr', hd⟩ := h
      have h1 := hall r hr
      have h2 := hall r' hr'
      simp only [beq_iff_eq] at h1 h2
      exact hd (h1.trans h2.symm)

example : ∃ res, unique2dNjit 2 3 (fun i j => if i = 1 ∧ j = 2 then 4 else (j : ℤ) + 1) = .ok res ∧
    ((1 : ℤ) ∈ res.unique) ∧ res.indices 1 = some [(0, 0), (1, 0)] := by
  obtain ⟨res, h, -, hm, -, -, hi, -⟩ := C31_dense_kernel 2 3 (fun i j => if i = 1 ∧ j = 2 then 4 else (j : ℤ) + 1)
  have h1 : (1 : ℤ) ∈ res.unique := (hm 1).mpr ⟨0, by simp, 0, by simp, by simp⟩
  obtain ⟨k, hk⟩ := List.getElem?_of_mem h1
  refine ⟨res, h, h1, ?_⟩
  rw [(hi k 1 hk).2]
  decide

end Verif.ASO.Props
