import Verif.Model.JaggedUnique
import Verif.Props.ArraySetOps
import Verif.Props.Sparse

set_option linter.unusedSectionVars false

/-!
# C138: unique values of a jagged array
-/

namespace Verif.JagUnique.Props
open Verif Verif.Sparse Verif.Sparse.Props Verif.ASO Verif.ASO.Props

/-- A jagged array of integers: an array has a shape, and there are numbers in an awkward array. -/
def Proper : Wrapped ℤ → Prop
  | .np n m rows => IsMatrix n m rows
  | .ak rows => rows.flatten ≠ []

/-- Input that such an array is made of. -/
def Integers : Data ℤ → Prop
  | .arr1 flat => flat ≠ []
  | .arr2 n m rows => IsMatrix n m rows
  | .lists rows => rows.flatten ≠ []
  | .awkward rows => rows.flatten ≠ []
  | _ => True

theorem dedup_one {l : List ℕ} (h : l.dedup.length = 1) : ∀ x ∈ l, x = l.headD 0 := by
  obtain ⟨a, ha⟩ := List.length_eq_one_iff.mp h
  have h1 : ∀ x ∈ l, x = a := fun x hx => by
    have := List.mem_dedup.mpr hx
    rw [ha] at this
    simpa using this
  intro x hx
  cases l with
  | nil => simp at hx
  | cons y l => rw [h1 x hx, List.headD_cons, h1 y (by simp)]

theorem force_proper {rows : List (List ℤ)} (h : rows.flatten ≠ []) (force : Bool) :
    Proper (forceNumpy (.ak rows) force) := by
  unfold forceNumpy
  dsimp only
  split_ifs with h1 h2
  · refine ⟨rfl, fun r hr => ?_⟩
    exact dedup_one h2 _ (by rw [cc_eq]; exact List.mem_map.mpr ⟨r, hr, rfl⟩)
  · exact h
  · exact h

/-- the constructor makes such arrays of such input -/
theorem made {data : Data ℤ} {cuts : Option (List ℕ)} {force : Bool} {w : Wrapped ℤ}
    (h : init data cuts force = .ok w) (hd : Integers data) : Proper w := by
  cases data with
  | arr1 flat =>
    cases cuts with
    | none => cases h
    | some cuts =>
      by_cases hs : cuts.sum = flat.length
      · have hi : init (.arr1 flat) (some cuts) force = .ok (forceNumpy (.ak (ASO.unflatten flat cuts)) force) := by
          simp [init, getData, akUnflatten, hs, bind, Except.bind, pure, Except.pure]
        rw [hi] at h
        cases h
        refine force_proper ?_ force
        rw [(unflatten_eq flat cuts hs).1]
        exact hd
      · rw [(C29_bad_cuts flat cuts hs force).1] at h
        cases h
  | arr2 n m rows => cases h; exact hd
  | arrN => cases h
  | lists rows => cases h; exact force_proper hd force
  | mats ms => cases h
  | awkward rows => cases h; exact force_proper hd force
  | other => cases h

/-- the value in row `i` and column `j`, if there is one -/
def at? (rows : List (List ℤ)) (i j : ℕ) : Option ℤ := rows[i]?.bind (·[j]?)

/-- The dictionary returned with `return_index` has exactly the values of `unique` as keys and lists for each of
them all positions where it is found: rows and columns, or positions in the flat array. -/
def Locates (rows : List (List ℤ)) (u : List ℤ) : Out → Prop
  | .index2 f => (∀ v, v ∈ u ↔ (f v).isSome) ∧ ∀ v ps, f v = some ps → ps.Nodup ∧
      ∀ i j, (i, j) ∈ ps ↔ at? rows i j = some v
  | .index1 f => (∀ v, v ∈ u ↔ (f v).isSome) ∧ ∀ v ks, f v = some ks → ks.Nodup ∧
      ∀ k, k ∈ ks ↔ rows.flatten[k]? = some v
  | _ => False

/-- The array returned with `return_inverse` has the shape of the jagged array, and `unique[inverse]` is the
jagged array. -/
def Rebuilds (rows : List (List ℤ)) (u : List ℤ) : Out → Prop
  | .inverse2 g => ∀ i j v, at? rows i j = some v → u[g i j]? = some v
  | .inverseJ g => g.map (List.map fun k => u[k]?) = rows.map (List.map some)
  | _ => False

theorem matrix_at {n m : ℕ} {rows : List (List ℤ)} (h : IsMatrix n m rows) (i j : ℕ) (v : ℤ) :
    at? rows i j = some v ↔ i < n ∧ j < m ∧ (rows.getD i []).getD j 0 = v := by
  unfold at?
  by_cases hi : i < rows.length
  · have hr : rows[i].length = m := h.2 _ (List.getElem_mem hi)
    have hg : rows.getD i [] = rows[i] := by
      rw [List.getD_eq_getElem?_getD, List.getElem?_eq_getElem hi, Option.getD_some]
    rw [List.getElem?_eq_getElem hi, Option.bind_some, hg]
    by_cases hj : j < rows[i].length
    · rw [List.getElem?_eq_getElem hj, List.getD_eq_getElem?_getD, List.getElem?_eq_getElem hj, Option.getD_some]
      have h1 : i < n := h.1 ▸ hi
      have h2 : j < m := hr ▸ hj
      simp [h1, h2]
    · rw [List.getElem?_eq_none (by omega)]
      have h2 : ¬ j < m := hr ▸ hj
      simp [h2]
  · rw [List.getElem?_eq_none (by omega)]
    have h1 : ¬ i < n := h.1 ▸ hi
    simp [h1]

theorem flat_positions {n m : ℕ} {rows : List (List ℤ)} (h : IsMatrix n m rows) :
    (positions n m).map (fun p => (rows.getD p.1 []).getD p.2 0) = rows.flatten := by
  have h1 : ∀ i < n, (List.range m).map (fun j => (rows.getD i []).getD j 0) = rows.getD i [] := by
    intro i hi
    have hi' : i < rows.length := h.1 ▸ hi
    have hr : rows[i].length = m := h.2 _ (List.getElem_mem hi')
    rw [List.getD_eq_getElem?_getD, List.getElem?_eq_getElem hi', Option.getD_some]
    refine List.ext_getElem (by simp [hr]) fun j h1 h2 => ?_
    simp [List.getElem?_eq_getElem h2]
  have h2 : (List.range n).map (fun i => rows.getD i []) = rows := by
    refine List.ext_getElem (by simp [h.1]) fun j h1 h2 => ?_
    simp [List.getElem?_eq_getElem h2]
  unfold positions
  show ((List.range n).flatMap fun a => (List.range m).map (Prod.mk a)).map _ = _
  rw [List.map_flatMap]
  have h3 : ∀ i ∈ List.range n, ((List.range m).map (Prod.mk i)).map
      (fun p : ℕ × ℕ => (rows.getD p.1 []).getD p.2 0) = rows.getD i [] := by
    intro i hi
    rw [List.map_map]
    exact h1 i (List.mem_range.mp hi)
  rw [List.flatMap_def, List.map_congr_left h3, h2]

theorem count_rows (rows : List (List ℤ)) (v : ℤ) : (rows.map (List.count v)).sum = rows.flatten.count v := by
  rw [List.count_flatten]

/-- C138: what `np.unique(J, …)` and `J.unique(…)` return for flags given by keyword, for every jagged array of
integers: the sorted unique values, then what was asked for; counts, positions and inverse are right. -/
theorem C138_unique_partial (w : Wrapped ℤ) (hw : Proper w) (ri rv rc : Bool) (sched : List ℕ)
    (hs : Utils.IsSchedule w.rows.length sched) :
    ∃ u x y c, npUnique w 0 false ri rv rc sched = .ok
        ([Out.unique u] ++ (if ri then [x] else []) ++ (if rv then [y] else []) ++
          (if rc then [Out.counts c] else [])) ∧
      u.Pairwise (· < ·) ∧ (∀ v, v ∈ u ↔ v ∈ w.flatten) ∧ Locates w.rows u x ∧ Rebuilds w.rows u y ∧
      c.length = u.length ∧ ∀ (i : ℕ) (v : ℤ), u[i]? = some v → c[i]? = some (w.flatten.count v) := by
  cases w with
  | np n m rows =>
    have hw : IsMatrix n m rows := hw
    obtain ⟨u, f, g, c, h1, h2, h3, h4, h5, h6, h7⟩ :=
      C31_unique2d n m (fun i j => (rows.getD i []).getD j 0) ri rv rc sched
    have hf := flat_positions hw
    have hcount : ∀ v : ℤ, (positions n m).countP (fun p => (rows.getD p.1 []).getD p.2 0 = v) =
        rows.flatten.count v := by
      intro v
      rw [← hf, List.count, List.countP_map]
      congr 1
    refine ⟨u, .index2 f, .inverse2 g, c, h1, h2, ?_, ⟨?_, ?_⟩, ?_, h5, ?_⟩
    · intro v
      show v ∈ u ↔ v ∈ rows.flatten
      rw [h3 v, ← hf, List.mem_map]
      constructor
      · rintro ⟨r, hr, c, hc, h⟩
        exact ⟨(r, c), Utils.Props.mem_product.mpr ⟨hr, hc⟩, h⟩
      · rintro ⟨p, hp, h⟩
        obtain ⟨h8, h9⟩ := Utils.Props.mem_product.mp hp
        exact ⟨p.1, h8, p.2, h9, h⟩
    · intro v
      constructor
      · intro hv
        obtain ⟨i, hi⟩ := List.mem_iff_getElem?.mp hv
        rw [(h6 i v hi).2]
        rfl
      · intro hv
        by_contra hn
        rw [h7 v hn] at hv
        cases hv
    · intro v ps hps
      have hv : v ∈ u := by
        by_contra hn
        rw [h7 v hn] at hps
        cases hps
      obtain ⟨i, hi⟩ := List.mem_iff_getElem?.mp hv
      rw [(h6 i v hi).2] at hps
      cases hps
      refine ⟨List.Nodup.filter _ (List.Nodup.product List.nodup_range List.nodup_range), fun a b => ?_⟩
      rw [List.mem_filter]
      show (a, b) ∈ positions n m ∧ _ ↔ at? rows a b = some v
      rw [matrix_at hw]
      unfold positions
      rw [Utils.Props.mem_product]
      simp only [decide_eq_true_eq]
      tauto
    · intro i j v hv
      obtain ⟨hi, hj, h⟩ := (matrix_at hw i j v).mp hv
      rw [h4 i hi j hj, h]
    · intro i v hv
      rw [(h6 i v hv).1, hcount v]
      rfl
  | ak rows =>
    obtain ⟨u, f, g, c, h1, h2, h3, h4, h5, h6, h7⟩ := C31_unique2d_jagged rows ri rv rc sched hs
    refine ⟨u, .index1 f, .inverseJ g, c, h1, h2, ?_, ⟨?_, ?_⟩, h4, h5, ?_⟩
    · intro v
      show v ∈ u ↔ v ∈ rows.flatten
      rw [h3 v, List.mem_flatten]
    · intro v
      constructor
      · intro hv
        obtain ⟨i, hi⟩ := List.mem_iff_getElem?.mp hv
        rw [(h6 i v hi).2]
        rfl
      · intro hv
        by_contra hn
        rw [h7 v hn] at hv
        cases hv
    · intro v ks hks
      have hv : v ∈ u := by
        by_contra hn
        rw [h7 v hn] at hks
        cases hks
      obtain ⟨i, hi⟩ := List.mem_iff_getElem?.mp hv
      rw [(h6 i v hi).2] at hks
      cases hks
      refine ⟨List.Nodup.filter _ List.nodup_range, fun k => ?_⟩
      rw [List.mem_filter, List.mem_range]
      simp only [decide_eq_true_eq]
      refine ⟨fun h => h.2, fun h => ⟨?_, h⟩⟩
      by_contra hn
      have h : rows.flatten[k]? = some v := h
      rw [List.getElem?_eq_none (by omega)] at h
      cases h
    · intro i v hv
      rw [(h6 i v hv).1, count_rows]
      rfl

/-- C138: for an array made with the default settings `unique2d(J, …)` gives the same as `np.unique(J, …)`. -/
theorem C138_same_partial (data : Data ℤ) (cuts : Option (List ℕ)) (w : Wrapped ℤ) (hd : Integers data)
    (h : init data cuts true = .ok w) (hne : w.rows ≠ []) (ri rv rc : Bool) (sched : List ℕ) :
    unique2dOf w ri rv rc sched = npUnique w 0 false ri rv rc sched := by
  have hnp : ∀ n m (rows : List (List ℤ)), rows ≠ [] → IsMatrix n m rows →
      unique2dOf (.np n m rows) ri rv rc sched = npUnique (.np n m rows) 0 false ri rv rc sched := by
    intro n m rows hr hm
    obtain ⟨b, hb, hj⟩ := (C29_topology (Wrapped.np n m rows)).2.2.1 hr
    have : b = false := by
      rw [← Bool.not_eq_true]
      intro h
      obtain ⟨r, h1, r', h2, h3⟩ := hj.mp h
      exact h3 ((hm.2 r h1).trans (hm.2 r' h2).symm)
    subst this
    unfold unique2dOf
    rw [hb]
    rfl
  have key : ∀ rows : List (List ℤ), rows ≠ [] → unique2dOf (forceNumpy (.ak rows) true) ri rv rc sched =
      npUnique (forceNumpy (.ak rows) true) 0 false ri rv rc sched := by
    intro rows hr
    unfold forceNumpy
    simp only [if_true]
    split_ifs with h2
    · refine hnp _ _ _ hr ⟨rfl, fun r hr => ?_⟩
      exact dedup_one h2 _ (by rw [cc_eq]; exact List.mem_map.mpr ⟨r, hr, rfl⟩)
    · obtain ⟨b, hb, hj⟩ := (C29_topology (Wrapped.ak rows)).2.2.1 hr
      have : b = true := by
        rw [hj]
        by_contra hn
        push Not at hn
        refine h2 ?_
        rw [cc_eq]
        cases rows with
        | nil => exact absurd rfl hr
        | cons r rows =>
          have : (List.map List.length (r :: rows)).dedup = [r.length] := by
            have hall : List.map List.length (r :: rows) = List.replicate (rows.length + 1) r.length := by
              refine List.eq_replicate_iff.mpr ⟨by simp, fun x hx => ?_⟩
              obtain ⟨q, hq, rfl⟩ := List.mem_map.mp hx
              exact hn q hq r (by show r ∈ r :: rows; simp)
            rw [hall, List.replicate_dedup (by omega)]
          rw [this]
          rfl
      subst this
      unfold unique2dOf
      rw [hb]
      rfl
  cases data with
  | arr1 flat =>
    cases cuts with
    | none => cases h
    | some cuts =>
      by_cases hs : cuts.sum = flat.length
      · have hi : init (.arr1 flat) (some cuts) true = .ok (forceNumpy (.ak (ASO.unflatten flat cuts)) true) := by
          simp [init, getData, akUnflatten, hs, bind, Except.bind, pure, Except.pure]
        rw [hi] at h
        cases h
        rw [forceNumpy_rows] at hne
        exact key _ hne
      · rw [(C29_bad_cuts flat cuts hs true).1] at h
        cases h
  | arr2 n m rows => cases h; exact hnp n m rows hne hd
  | arrN => cases h
  | lists rows =>
    cases h
    rw [forceNumpy_rows] at hne
    exact key _ hne
  | mats ms => cases h
  | awkward rows =>
    cases h
    rw [forceNumpy_rows] at hne
    exact key _ hne
  | other => cases h

/-- how often a value is found, read off what `return_counts=True` returns -/
def tally : Py (List Out) → ℤ → ℕ
  | .ok [.unique u, .counts c], v => (c[u.idxOf v]?).getD 0
  | _, _ => 0

/-- C138: the values and counts returned tell for every number how often it is found. -/
theorem C138_counts (w : Wrapped ℤ) (hw : Proper w) (sched : List ℕ)
    (hs : Utils.IsSchedule w.rows.length sched) (v : ℤ) :
    tally (npUnique w 0 false false false true sched) v = w.flatten.count v := by
  obtain ⟨u, x, y, c, h1, h2, h3, -, -, h6, h7⟩ := C138_unique_partial w hw false false true sched hs
  rw [h1]
  show (c[u.idxOf v]?).getD 0 = _
  by_cases hv : v ∈ u
  · have hl := List.idxOf_lt_length_of_mem hv
    rw [h7 (u.idxOf v) v (by rw [List.getElem?_eq_getElem hl, List.getElem_idxOf hl])]
    rfl
  · rw [List.idxOf_eq_length hv, List.getElem?_eq_none (by omega)]
    exact (List.count_eq_zero.mpr fun h => hv ((h3 v).mpr h)).symm

/-- C138: if jagged arrays are joined, the counts of their unique values add up. -/
theorem C138_joined (js : List (Wrapped ℤ)) (hne : js ≠ []) (hp : ∀ j ∈ js, Proper j)
    (hn : ∃ j ∈ js, j.flatten ≠ []) (scheds : Wrapped ℤ → List ℕ)
    (hs : ∀ w, Utils.IsSchedule w.rows.length (scheds w)) :
    ∃ w, concatenate js 0 = .ok w ∧ ∀ v,
      tally (npUnique w 0 false false false true (scheds w)) v =
        (js.map fun j => tally (npUnique j 0 false false false true (scheds j)) v).sum := by
  obtain ⟨w, h1, h2⟩ := C29_vstack js hne
  refine ⟨w, h1, fun v => ?_⟩
  have hw : Proper w := by
    cases js with
    | nil => exact absurd rfl hne
    | cons j js =>
      refine made (h1 : init (.arr1 _) (some _) true = .ok w) ?_
      obtain ⟨k, hk, hk'⟩ := hn
      intro h0
      refine hk' ?_
      exact List.flatten_eq_nil_iff.mp h0 _ (List.mem_map.mpr ⟨k, hk, rfl⟩)
  rw [C138_counts w hw _ (hs w) v]
  have h3 : js.map (fun j => tally (npUnique j 0 false false false true (scheds j)) v) =
      js.map fun j => j.flatten.count v :=
    List.map_congr_left fun j hj => C138_counts j (hp j hj) _ (hs j) v
  rw [h3]
  show w.rows.flatten.count v = _
  have h4 : ∀ l : List (Wrapped ℤ), ((l.map Wrapped.rows).flatten.flatten).count v =
      (l.map fun j => j.flatten.count v).sum := by
    intro l
    induction l with
    | nil => rfl
    | cons j l ih =>
      rw [List.map_cons, List.flatten_cons, List.flatten_append, List.count_append, ih, List.map_cons,
        List.sum_cons]
      rfl
  rw [h2]
  exact h4 js

/-- C138: flags without their keywords, as `np.unique` takes them, and keywords that only `np.unique` has are
refused. -/
theorem C138_positional_violated (w : Wrapped ℤ) (k : ℕ) (unknown ri rv rc : Bool) (sched : List ℕ) :
    npUnique w (k + 1) unknown ri rv rc sched = .error .type ∧
    npUnique w 0 true ri rv rc sched = .error .type := ⟨rfl, rfl⟩

/-- C138: the same rows, made with and without `force_numpy`: the positions of a value are rows and columns in
one case and positions in the flat array in the other. -/
theorem C138_positions_violated :
    ∃ (rows : List (List ℤ)) (w w' : Wrapped ℤ) (f : ℤ → Option (List (ℕ × ℕ))) (f' : ℤ → Option (List ℕ))
      (u u' : List ℤ),
      init (.lists rows) none true = .ok w ∧ init (.lists rows) none false = .ok w' ∧ w.rows = w'.rows ∧
      npUnique w 0 false true false false [0, 1] = .ok [.unique u, .index2 f] ∧
      npUnique w' 0 false true false false [0, 1] = .ok [.unique u', .index1 f'] ∧
      f 2 = some [(0, 1), (1, 0)] ∧ f' 2 = some [1, 2] := by
  obtain ⟨u, f, g, c, h1, -, h3, -, -, h6, -⟩ :=
    C31_unique2d 2 2 (fun i j => (([[1, 2], [2, 3]] : List (List ℤ)).getD i []).getD j 0) true false false [0, 1]
  obtain ⟨u', f', g', c', h1', -, h3', -, -, h6', -⟩ :=
    C31_unique2d_jagged [[1, 2], [2, 3]] true false false [0, 1] (List.Perm.refl _)
  refine ⟨[[1, 2], [2, 3]], .np 2 2 [[1, 2], [2, 3]], .ak [[1, 2], [2, 3]], f, f', u, u', by rfl, rfl, rfl, h1, h1',
    ?_, ?_⟩
  · obtain ⟨i, hi⟩ := List.mem_iff_getElem?.mp ((h3 2).mpr ⟨0, by omega, 1, by omega, rfl⟩)
    rw [(h6 i 2 hi).2]
    decide
  · obtain ⟨i, hi⟩ := List.mem_iff_getElem?.mp ((h3' 2).mpr ⟨[1, 2], by simp, by simp⟩)
    rw [(h6' i 2 hi).2]
    decide

/-- C138: with `force_numpy=False` and rows of equal widths `unique2d(J)` raises, `np.unique(J)` does not. -/
theorem C138_unforced_violated :
    ∃ (rows : List (List ℤ)) (w : Wrapped ℤ) (u : List ℤ), init (.lists rows) none false = .ok w ∧ Proper w ∧
      unique2dOf w false false false [0, 1] = .error .generic ∧
      npUnique w 0 false false false false [0, 1] = .ok [.unique u] ∧ 2 ∈ u := by
  have hp : Proper (.ak [[1, 2], [2, 3]]) := by intro h; simp at h
  obtain ⟨u, x, y, c, h1, -, h3, -⟩ :=
    C138_unique_partial (.ak [[1, 2], [2, 3]]) hp false false false [0, 1] (List.Perm.refl _)
  exact ⟨[[1, 2], [2, 3]], .ak [[1, 2], [2, 3]], u, rfl, hp, by rfl, h1, (h3 2).mpr (by decide)⟩

/-- C138: for an array without rows `unique2d(J)` raises, `np.unique(J)` returns no values. -/
theorem C138_empty_violated :
    ∃ (w : Wrapped ℤ), init (.arr2 0 3 []) none true = .ok w ∧ Proper w ∧
      unique2dOf w false false false [] = .error .index ∧
      npUnique w 0 false false false false [] = .ok [.unique []] := by
  have hp : Proper (.np 0 3 []) := ⟨rfl, by simp⟩
  obtain ⟨u, x, y, c, h1, -, h3, -⟩ := C138_unique_partial (.np 0 3 []) hp false false false [] (List.Perm.refl _)
  have hu : u = [] := List.eq_nil_iff_forall_not_mem.mpr fun v hv => by
    have := (h3 v).mp hv
    simp [Wrapped.flatten, Wrapped.rows] at this
  rw [hu] at h1
  exact ⟨.np 0 3 [], rfl, hp, by rfl, h1⟩

/-- two jagged arrays, one of them regular: 2 is found three times in both together -/
example : ∃ w, concatenate [.np 1 2 [[2, 2]], .ak [[1], [2, 3]]] 0 = .ok w ∧
    tally (npUnique w 0 false false false true (List.range w.rows.length)) 2 = 3 := by
  have p1 : Proper (.np 1 2 [[2, 2]]) := ⟨rfl, by simp⟩
  have p2 : Proper (.ak [[1], [2, 3]]) := by intro h; simp at h
  obtain ⟨w, h1, h2⟩ := C138_joined [.np 1 2 [[2, 2]], .ak [[1], [2, 3]]] (by simp)
    (by
      intro j hj
      simp only [List.mem_cons, List.not_mem_nil, or_false] at hj
      rcases hj with rfl | rfl
      · exact p1
      · exact p2)
    ⟨_, List.mem_cons_self .., by simp [Wrapped.flatten, Wrapped.rows]⟩ (fun w => List.range w.rows.length)
    (fun w => List.Perm.refl _)
  refine ⟨w, h1, ?_⟩
  rw [h2]
  simp only [List.map_cons, List.map_nil, List.sum_cons, List.sum_nil]
  rw [C138_counts _ p1 _ (List.Perm.refl _), C138_counts _ p2 _ (List.Perm.refl _)]
  decide

end Verif.JagUnique.Props
