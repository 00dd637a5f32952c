import Verif.Model.Knn
import Verif.Proofs.TrKernels
import Mathlib.Data.List.GetD
import Mathlib.Data.List.Perm.Basic
import Mathlib.Data.List.Perm.Subperm
import Mathlib.Data.List.NodupEquivFin
import Mathlib.Data.Rat.Floor
import Mathlib.Algebra.Order.BigOperators.Group.List
import Mathlib.Algebra.BigOperators.Ring.List
import Mathlib.Tactic.Ring
import Mathlib.Tactic.FieldSimp
import Mathlib.Tactic.Linarith

/-!
# C57, C58: neighbour search and averaging
-/

set_option linter.unusedSectionVars false

namespace Verif.Knn.Props
open Verif Verif.Utils Verif.Tr Verif.Knn

section
variable {P K : Type} [Field K] [LinearOrder K]

/-- The distance is below the bound, if there is one. -/
def Within (bound : Option K) (d : K) : Prop := ∀ b, bound = some b → d < b

/-- What `KDTree.query` promises for one target: `k` indices; those below the number of points
belong to different points within the bound, nearest first, the rest is filled with the number of
points; a point left out is not nearer than any point returned, and the row is then full. -/
structure RowOK (dist : P → P → K) (X : List P) (y : P) (k : ℕ) (bound : Option K) (row : List ℕ) :
    Prop where
  length : row.length = k
  le : ∀ i ∈ row, i ≤ X.length
  within : ∀ i ∈ row, ∀ x, X[i]? = some x → Within bound (dist x y)
  nodup : (row.filter fun i => decide (i < X.length)).Nodup
  nearest : ∀ (j : ℕ) x, X[j]? = some x → Within bound (dist x y) → j ∉ row →
    ∀ i ∈ row, ∃ x', X[i]? = some x' ∧ dist x' y ≤ dist x y
  sorted : row.Pairwise fun i j => ∀ x', X[j]? = some x' → ∃ x, X[i]? = some x ∧ dist x y ≤ dist x' y

/-- The query keeps its promise. -/
def QueryOK (dist : P → P → K) (q : Query P K) : Prop :=
  ∀ X y k bound, RowOK dist X y k bound (q X y k bound)

/-- Without a bound, and with enough points, all indices are valid. -/
theorem RowOK.valid {dist : P → P → K} {X : List P} {y : P} {k : ℕ} {row : List ℕ}
    (h : RowOK dist X y k none row) (hk : k ≤ X.length) : ∀ i ∈ row, i < X.length := by
  by_contra hc
  push Not at hc
  obtain ⟨i, hi, hle⟩ := hc
  have hall : ∀ j < X.length, j ∈ row := by
    intro j hj
    by_contra hjr
    obtain ⟨x', hx', -⟩ := h.nearest j X[j] (List.getElem?_eq_getElem hj) (fun b hb => by cases hb) hjr i hi
    have := (List.getElem?_eq_some_iff.1 hx').1
    omega
  have hsub : (List.range X.length) ⊆ row.filter fun i => decide (i < X.length) := by
    intro j hj
    have hj' := List.mem_range.1 hj
    exact List.mem_filter.2 ⟨hall j hj', by simpa using hj'⟩
  have h1 := (List.subperm_of_subset List.nodup_range hsub).length_le
  rw [List.length_range] at h1
  have h2 : (row.filter fun i => decide (i < X.length)).length < row.length := by
    refine lt_of_le_of_ne (List.length_filter_le _ _) fun heq => ?_
    have := List.length_filter_eq_length_iff.1 heq i hi
    simp at this
    omega
  have := h.length
  omega

/-! ## A query that keeps the promise -/

/-- Nearer than the limit, if there is one. -/
def nearer (dist : P → P → K) (y : P) (bound : Option K) (x : P) : Bool :=
  match bound with
  | none => true
  | some b => decide (dist x y < b)

/-- Exhaustive search. -/
def brute [Inhabited P] (dist : P → P → K) : Query P K := fun X y k bound =>
  let cand := (List.range X.length).filter fun i => nearer dist y bound (X.getD i default)
  let best := (cand.insertionSort fun i j =>
    dist (X.getD i default) y ≤ dist (X.getD j default) y).take k
  best ++ List.replicate (k - best.length) X.length

theorem brute_ok [Inhabited P] [IsStrictOrderedRing K] (dist : P → P → K) :
    QueryOK dist (brute dist) := by
  intro X y k bound
  unfold brute
  simp only
  set f : ℕ → K := fun i => dist (X.getD i default) y with hf
  set c : ℕ → Bool := fun i => nearer dist y bound (X.getD i default) with hc
  set s := ((List.range X.length).filter c).insertionSort fun i j => f i ≤ f j with hs
  have hget : ∀ {i : ℕ} {x : P}, X[i]? = some x → f i = dist x y := by
    intro i x h
    simp only [hf, List.getD_eq_getElem?_getD, h, Option.getD_some]
  have hcw : ∀ {i : ℕ} {x : P}, X[i]? = some x → (c i = true ↔ Within bound (dist x y)) := by
    intro i x h
    have h1 := hget h
    simp only [hf] at h1
    simp only [hc, nearer, Within]
    rw [← h1]
    cases bound with
    | none => simp
    | some b => simp
  have hperm : s.Perm ((List.range X.length).filter c) := List.perm_insertionSort _ _
  haveI : Std.Total fun i j : ℕ => f i ≤ f j := ⟨fun a b => le_total _ _⟩
  haveI : IsTrans ℕ fun i j : ℕ => f i ≤ f j := ⟨fun a b c => le_trans⟩
  have hsorted : s.Pairwise fun i j => f i ≤ f j := List.pairwise_insertionSort _ _
  have hmem : ∀ {i}, i ∈ s ↔ i < X.length ∧ c i = true := by
    intro i
    rw [hperm.mem_iff, List.mem_filter, List.mem_range]
  have hnd : s.Nodup := hperm.nodup_iff.2 (List.nodup_range.filter _)
  have htk : ∀ {i}, i ∈ s.take k → i ∈ s := fun h => List.mem_of_mem_take h
  have hrep : ∀ {i}, i ∈ List.replicate (k - (s.take k).length) X.length → i = X.length :=
    fun h => List.eq_of_mem_replicate h
  have hnone : ∀ {x : P}, X[X.length]? ≠ some x := by simp
  refine ⟨?_, ?_, ?_, ?_, ?_, ?_⟩
  · rw [List.length_append, List.length_replicate, List.length_take]
    omega
  · intro i hi
    rcases List.mem_append.1 hi with h | h
    · exact (hmem.1 (htk h)).1.le
    · exact (hrep h).le
  · intro i hi x hx
    rcases List.mem_append.1 hi with h | h
    · exact (hcw hx).1 (hmem.1 (htk h)).2
    · rw [hrep h] at hx
      exact absurd hx hnone
  · rw [List.filter_append, List.nodup_append]
    have h2 : (List.replicate (k - (s.take k).length) X.length).filter
        (fun i => decide (i < X.length)) = [] := by
      rw [List.filter_eq_nil_iff]
      intro a ha
      rw [hrep ha]
      simp
    rw [h2]
    exact ⟨(hnd.sublist (List.take_sublist _ _)).filter _, List.nodup_nil,
      fun a _ b hb => by cases hb⟩
  · intro j x hx hw hj i hi
    have hjs : j ∈ s := hmem.2 ⟨(List.getElem?_eq_some_iff.1 hx).1, (hcw hx).2 hw⟩
    have hjn : j ∉ s.take k := fun h => hj (List.mem_append_left _ h)
    have hjd : j ∈ s.drop k := by
      rw [← List.take_append_drop k s] at hjs
      exact (List.mem_append.1 hjs).resolve_left hjn
    have hlen : k < s.length := by
      by_contra h
      rw [List.drop_eq_nil_of_le (not_lt.1 h)] at hjd
      cases hjd
    rcases List.mem_append.1 hi with h | h
    · obtain ⟨x', hx'⟩ : ∃ x', X[i]? = some x' :=
        ⟨_, List.getElem?_eq_getElem (hmem.1 (htk h)).1⟩
      refine ⟨x', hx', ?_⟩
      rw [← hget hx, ← hget hx']
      rw [← List.take_append_drop k s, List.pairwise_append] at hsorted
      exact hsorted.2.2 i h j hjd
    · rw [List.length_take, min_eq_left hlen.le, Nat.sub_self] at h
      cases h
  · rw [List.pairwise_append]
    refine ⟨?_, ?_, ?_⟩
    · refine ((hsorted.sublist (List.take_sublist k s)).imp_of_mem ?_)
      intro a b ha hb hab x' hx'
      refine ⟨_, List.getElem?_eq_getElem (hmem.1 (htk ha)).1, ?_⟩
      rw [← hget (List.getElem?_eq_getElem (hmem.1 (htk ha)).1), ← hget hx']
      exact hab
    · refine List.pairwise_of_forall_mem_list fun a ha b hb x' hx' => ?_
      rw [hrep hb] at hx'
      exact absurd hx' hnone
    · intro a ha b hb x' hx'
      rw [hrep hb] at hx'
      exact absurd hx' hnone

/-! ## C58 -/

/-- C58 without a limit: for two or more neighbours, and at least as many points, every target gets
`k` different points, nearest first, and all other points are at least as far as these. -/
theorem C58_nearest (libs : Libs) (q : Query P K) (dist : P → P → K) (hq : QueryOK dist q)
    (X Y : List P) (backend : String) (k : ℕ) (hk : 2 ≤ k) (hn : k ≤ X.length)
    (hb : backend = "scipy" ∨ backend = "sklearn" ∧ libs.hasSklearn = true) :
    ∃ rows, kNearest libs q X (some Y) backend k none = .ok (.rows rows) ∧
      rows.length = Y.length ∧
      ∀ (t : ℕ) (row : List ℕ) (y : P), rows[t]? = some row → Y[t]? = some y →
        row.length = k ∧ row.Nodup ∧ (∀ i ∈ row, i < X.length) ∧
        (∀ i ∈ row, ∀ j, j ∉ row → ∀ x x', X[i]? = some x → X[j]? = some x' →
          dist x y ≤ dist x' y) ∧
        row.Pairwise (fun i j => ∀ x x', X[i]? = some x → X[j]? = some x' → dist x y ≤ dist x' y) := by
  refine ⟨Y.map fun y => q X y k none, ?_, List.length_map _, ?_⟩
  · have h1 : scipyQuery q X Y k none = .ok (.rows (Y.map fun y => q X y k none)) := by
      unfold scipyQuery
      rw [if_neg (by omega), if_neg (by omega)]
    rcases hb with rfl | ⟨rfl, hs⟩
    · unfold kNearest
      rw [if_pos rfl]
      simp only [h1, ite_self]
    · unfold kNearest
      rw [if_neg (by decide), if_pos rfl, if_neg (by simp [hs])]
      simp only
      unfold sklearnQuery
      rw [if_neg (by omega)]
  · intro t row y hrow hy
    rw [List.getElem?_map, hy] at hrow
    injection hrow with hrow
    subst hrow
    have hr := hq X y k none
    have hv := hr.valid hn
    refine ⟨hr.length, ?_, hv, ?_, ?_⟩
    · have := hr.nodup
      rwa [List.filter_eq_self.2 fun i hi => by simpa using hv i hi] at this
    · intro i hi j hj x x' hx hx'
      obtain ⟨x₂, h1, h2⟩ := hr.nearest j x' hx' (fun b hb => by cases hb) hj i hi
      rw [hx] at h1
      injection h1 with h1
      rwa [h1]
    · refine hr.sorted.imp fun {i j} h x x' hx hx' => ?_
      obtain ⟨x₂, h1, h2⟩ := h x' hx'
      rw [hx] at h1
      injection h1 with h1
      rwa [h1]

/-- C58 with a limit, for `scipy` before 1.6.0: all neighbours returned are nearer than the limit,
the missing ones are marked by the number of points, and no point within the limit is missing unless
`k` others are at least as near. -/
theorem C58_limit_partial (libs : Libs) (hl : libs.oldScipy = true) (q : Query P K)
    (dist : P → P → K) (hq : QueryOK dist q) (X Y : List P) (k : ℕ) (hk : 2 ≤ k) (limit : K) :
    ∃ rows, kNearest libs q X (some Y) "scipy" k (some limit) = .ok (.rows rows) ∧
      rows.length = Y.length ∧
      ∀ (t : ℕ) (row : List ℕ) (y : P), rows[t]? = some row → Y[t]? = some y →
        row.length = k ∧ (∀ i ∈ row, i = X.length ∨ ∃ x, X[i]? = some x ∧ dist x y < limit) ∧
        (∀ (j : ℕ) x, X[j]? = some x → dist x y < limit → j ∉ row →
          ∀ i ∈ row, ∃ x', X[i]? = some x' ∧ dist x' y ≤ dist x y) := by
  refine ⟨Y.map fun y => q X y k (some limit), ?_, List.length_map _, ?_⟩
  · unfold kNearest
    rw [if_pos rfl]
    simp only [hl, if_true]
    unfold scipyQuery
    rw [if_neg (by omega), if_neg (by omega)]
  · intro t row y hrow hy
    rw [List.getElem?_map, hy] at hrow
    injection hrow with hrow
    subst hrow
    have hr := hq X y k (some limit)
    refine ⟨hr.length, fun i hi => ?_, fun j x hx hd hj i hi => ?_⟩
    · rcases (hr.le i hi).lt_or_eq with h | h
      · exact .inr ⟨_, List.getElem?_eq_getElem h,
          hr.within i hi _ (List.getElem?_eq_getElem h) limit rfl⟩
      · exact .inl h
    · exact hr.nearest j x hx (fun b hb => by injection hb with hb; rwa [← hb]) hj i hi

/-- C58: since `scipy` 1.6.0 the limit has no effect at all. -/
theorem C58_limit_ignored (libs : Libs) (hl : libs.oldScipy = false) (q : Query P K) (X : List P)
    (Y : Option (List P)) (k : ℕ) (limit : Option K) :
    kNearest libs q X Y "scipy" k limit = kNearest libs q X Y "scipy" k none := by
  unfold kNearest
  rw [if_pos rfl, if_pos rfl]
  cases Y with
  | none => rfl
  | some Y => simp [hl]

end

/-- C58 fails: of the points 0 and 10, both are returned as neighbours of 0 within the distance 1,
whatever correct query is used. -/
theorem C58_limit_violated (libs : Libs) (hl : libs.oldScipy = false) (q : Query ℚ ℚ)
    (hq : QueryOK (fun x y => |x - y|) q) :
    kNearest libs q [0, 10] (some [0]) "scipy" 2 (some 1) = .ok (.rows [[0, 1]]) := by
  rw [C58_limit_ignored libs hl]
  obtain ⟨rows, h1, h2, h3⟩ := C58_nearest libs q _ hq [0, 10] [0] "scipy" 2 le_rfl (by decide)
    (.inl rfl)
  rw [h1]
  match rows, h2, h3 with
  | [row], _, h3 =>
    obtain ⟨hlen, hnd, hv, -, hp⟩ := h3 0 row 0 rfl rfl
    match row, hlen, hnd, hv, hp with
    | [a, b], _, hnd, hv, hp =>
      have ha : a < 2 := hv a (by simp)
      have hb : b < 2 := hv b (by simp)
      have hab : a ≠ b := fun h => by subst h; simp at hnd
      have h0 := List.rel_of_pairwise_cons hp (List.mem_singleton.2 rfl)
      have : a = 0 ∧ b = 1 := by
        have hcase : (a = 0 ∧ b = 1) ∨ (a = 1 ∧ b = 0) := by omega
        rcases hcase with h | ⟨rfl, rfl⟩
        · exact h
        · exact absurd (h0 10 0 rfl rfl) (by decide +kernel)
      rw [this.1, this.2]

/-- The hypothesis can be met. -/
example : QueryOK (fun x y : ℚ => |x - y|) (brute fun x y => |x - y|) := brute_ok _

section
variable {P K : Type} [Field K] [LinearOrder K]

/-- C58: calls that raise an exception: no target points (though documented as optional), a limit
with `sklearn`, a missing library, an unknown backend. -/
theorem C58_refused (libs : Libs) (q : Query P K) (X : List P) (Y : Option (List P)) (k : ℕ)
    (limit : Option K) (backend : String) :
    kNearest libs q X none "scipy" k limit = .error .generic ∧
    (limit ≠ none → libs.hasSklearn = true → kNearest libs q X Y "sklearn" k limit = .error .type) ∧
    (libs.hasSklearn = false → kNearest libs q X Y "sklearn" k limit = .error .generic) ∧
    (backend ≠ "scipy" → backend ≠ "sklearn" →
      kNearest libs q X Y backend k limit = .error .generic) := by
  refine ⟨?_, fun hl hs => ?_, fun hs => ?_, fun h1 h2 => ?_⟩
  · unfold kNearest
    rw [if_pos rfl]
  · unfold kNearest
    rw [if_neg (by decide), if_pos rfl, if_neg (by simp [hs])]
    cases limit with
    | none => exact absurd rfl hl
    | some l => rfl
  · unfold kNearest
    rw [if_neg (by decide), if_pos rfl, if_pos (by simp [hs])]
  · unfold kNearest
    rw [if_neg h1, if_neg h2]

end

/-! ## C57 -/

section
variable {P K : Type} [Field K] [LinearOrder K] [FloorRing K] [IsStrictOrderedRing K]

theorem foldl_store (f : ℕ → K) (l : List ℕ) (e : K) :
    l.foldl (fun e nb => store .float (e + f nb)) e = e + (l.map f).sum := by
  induction l generalizing e with
  | nil => simp
  | cons a l ih => rw [List.foldl_cons, ih, List.map_cons, List.sum_cons]; simp [store, add_assoc]

theorem foldl_mapIdx (f : ℕ → ℕ → K) (l : List ℕ) (row : List K) (j : ℕ) :
    (l.foldl (fun row nb => row.mapIdx fun j e => store .float (e + f nb j)) row)[j]? =
      (row[j]?).map fun e => e + (l.map fun nb => f nb j).sum := by
  induction l generalizing row with
  | nil => simp
  | cons a l ih =>
    rw [List.foldl_cons, ih, List.getElem?_mapIdx]
    cases row[j]? with
    | none => rfl
    | some e => simp [store, add_assoc]

theorem foldl_mapIdx_length (f : ℕ → ℕ → K → K) (l : List ℕ) (row : List K) :
    (l.foldl (fun row nb => row.mapIdx fun j e => f nb j e) row).length = row.length := by
  induction l generalizing row with
  | nil => rfl
  | cons a l ih => rw [List.foldl_cons, ih, List.length_mapIdx]

/-- The result of both kernels, entry by entry. -/
theorem kernels (sched : List ℕ) (inner : ℕ → List ℕ) (v : Values K) (hdt : v.dt = .float)
    (rows : List (List ℕ)) (factor : K) (hs : IsSchedule rows.length sched)
    (hi : ∀ i < rows.length, IsSchedule v.nD (inner i)) (t : ℕ) (row : List ℕ)
    (hrow : rows[t]? = some row) :
    ∃ r, (if v.nd then approximateNd sched v rows factor
      else approximate2d sched inner v rows factor)[t]? = some r ∧ r.length = v.nD ∧
      ∀ j < v.nD, r[j]? = some ((row.map fun nb => v.a nb j).sum * factor) := by
  have ht : t < rows.length := (List.getElem?_eq_some_iff.1 hrow).1
  have hrd : rd [] rows t = row := rd_eq _ _ _ _ hrow
  have hrep : ∀ j < v.nD, (List.replicate v.nD (0 : K))[j]? = some 0 := fun j hj => by
    rw [List.getElem?_replicate, if_pos hj]
  cases hnd : v.nd with
  | true =>
    simp only [if_true]
    unfold approximateNd
    rw [loop1_get _ _ hs _ _ _ ht, List.getElem?_map, hrow]
    refine ⟨_, rfl, ?_, fun j hj => ?_⟩
    · rw [hrd, foldl_mapIdx_length (fun nb j e => store v.dt (e + v.a nb j * factor)),
        List.length_replicate]
    · rw [hrd, hdt, foldl_mapIdx (fun nb j => v.a nb j * factor), hrep j hj, Option.map_some,
        zero_add, List.sum_map_mul_right]
  | false =>
    simp only [Bool.false_eq_true, if_false]
    unfold approximate2d
    rw [loop1_get _ _ hs _ _ _ ht, List.getElem?_map, hrow]
    refine ⟨_, rfl, ?_, fun j hj => ?_⟩
    · rw [loop1_length, List.length_replicate]
    · rw [loop1_get _ _ (hi t ht) _ _ _ hj, hrep j hj, Option.map_some, hrd, hdt,
        foldl_store (fun nb => v.a nb j * factor), zero_add, List.sum_map_mul_right]

/-- C57: with float data, two or more neighbours and at least as many source points, without a limit,
every approximated value is the mean of the values at `k` different sources, none of them farther
than any other source. -/
theorem C57_mean (libs : Libs) (q : Query P K) (dist : P → P → K) (hq : QueryOK dist q)
    (sched : List ℕ) (inner : ℕ → List ℕ) (A : Approximator P K) (XT : List P)
    (hs : IsSchedule XT.length sched) (hi : ∀ i < XT.length, IsSchedule A.Y.nD (inner i))
    (hdt : A.Y.dt = .float) (k : ℕ) (hA : A.k = some k ∨ A.k = none ∧ k = 4) (hk : 2 ≤ k)
    (hn : k ≤ A.X.length)
    (hb : A.backend.getD "scipy" = "scipy" ∨
      A.backend.getD "scipy" = "sklearn" ∧ libs.hasSklearn = true)
    (hlim : A.maxDistance = none) :
    ∃ res, approximate libs q sched inner A XT = .ok res ∧ res.length = XT.length ∧
      ∀ (t : ℕ) (y : P), XT[t]? = some y → ∃ (row : List ℕ) (r : List K),
        row.length = k ∧ row.Nodup ∧ (∀ i ∈ row, i < A.X.length) ∧
        (∀ i ∈ row, ∀ j, j ∉ row → ∀ x x', A.X[i]? = some x → A.X[j]? = some x' →
          dist x y ≤ dist x' y) ∧
        res[t]? = some r ∧ r.length = A.Y.nD ∧
        ∀ j < A.Y.nD, r[j]? = some ((row.map fun nb => A.Y.a nb j).sum / (k : ℕ)) := by
  obtain ⟨rows, h1, h2, h3⟩ := C58_nearest libs q dist hq A.X XT (A.backend.getD "scipy")
    k hk hn hb
  have hkk : numNeighbours A.k = k := by
    unfold numNeighbours
    rcases hA with h | ⟨h, rfl⟩
    · rw [h]
      exact if_neg (by omega)
    · rw [h]
  unfold approximate
  rw [hkk, hlim, h1]
  refine ⟨_, rfl, ?_, ?_⟩
  · split
    · unfold approximateNd
      rw [loop1_length, List.length_map, h2]
    · unfold approximate2d
      rw [loop1_length, List.length_map, h2]
  · intro t y hy
    have ht : t < rows.length := by rw [h2]; exact (List.getElem?_eq_some_iff.1 hy).1
    have hrow : rows[t]? = some rows[t] := List.getElem?_eq_getElem ht
    obtain ⟨g1, g2, g3, g4, -⟩ := h3 t rows[t] y hrow hy
    rw [← h2] at hs hi
    obtain ⟨r, hr, hl, he⟩ := kernels sched inner A.Y hdt rows (1 / ((k : ℕ) : K)) hs
      hi t rows[t] hrow
    exact ⟨rows[t], r, g1, g2, g3, g4, hr, hl, fun j hj => by rw [he j hj, mul_one_div]⟩

/-- C57: an approximated value lies between bounds on the values at the sources, and constant data
are reproduced. -/
theorem C57_bounds (libs : Libs) (q : Query P K) (dist : P → P → K) (hq : QueryOK dist q)
    (sched : List ℕ) (inner : ℕ → List ℕ) (A : Approximator P K) (XT : List P)
    (hs : IsSchedule XT.length sched) (hi : ∀ i < XT.length, IsSchedule A.Y.nD (inner i))
    (hdt : A.Y.dt = .float) (k : ℕ) (hA : A.k = some k ∨ A.k = none ∧ k = 4) (hk : 2 ≤ k)
    (hn : k ≤ A.X.length)
    (hb : A.backend.getD "scipy" = "scipy" ∨
      A.backend.getD "scipy" = "sklearn" ∧ libs.hasSklearn = true)
    (hlim : A.maxDistance = none) (lo hi' : ℕ → K)
    (hlo : ∀ i < A.X.length, ∀ j < A.Y.nD, lo j ≤ A.Y.a i j)
    (hhi : ∀ i < A.X.length, ∀ j < A.Y.nD, A.Y.a i j ≤ hi' j) :
    ∃ res, approximate libs q sched inner A XT = .ok res ∧ res.length = XT.length ∧
      ∀ r ∈ res, r.length = A.Y.nD ∧ ∀ (j : ℕ) (e : K), r[j]? = some e → lo j ≤ e ∧ e ≤ hi' j := by
  obtain ⟨res, h1, h2, h3⟩ := C57_mean libs q dist hq sched inner A XT hs hi hdt k hA hk hn hb hlim
  refine ⟨res, h1, h2, fun r hr => ?_⟩
  obtain ⟨t, ht, rfl⟩ := List.mem_iff_getElem.1 hr
  obtain ⟨row, r', g1, -, g3, -, g5, g6, g7⟩ := h3 t _ (List.getElem?_eq_getElem (h2 ▸ ht))
  rw [List.getElem?_eq_getElem ht] at g5
  injection g5 with g5
  rw [g5]
  refine ⟨g6, fun j e he => ?_⟩
  have hj : j < A.Y.nD := by
    rw [← g6]
    exact (List.getElem?_eq_some_iff.1 he).1
  rw [g7 j hj] at he
  injection he with he
  rw [← he]
  have hpos : (0 : K) < (k : ℕ) := by
    have : 0 < k := by omega
    exact_mod_cast this
  constructor
  · rw [le_div_iff₀ hpos]
    have := List.card_nsmul_le_sum (row.map fun nb => A.Y.a nb j) (lo j) (fun x hx => by
      obtain ⟨i, hi, rfl⟩ := List.mem_map.1 hx
      exact hlo i (g3 i hi) j hj)
    rw [List.length_map, g1, nsmul_eq_mul] at this
    linarith
  · rw [div_le_iff₀ hpos]
    have := List.sum_le_card_nsmul (row.map fun nb => A.Y.a nb j) (hi' j) (fun x hx => by
      obtain ⟨i, hi, rfl⟩ := List.mem_map.1 hx
      exact hhi i (g3 i hi) j hj)
    rw [List.length_map, g1, nsmul_eq_mul] at this
    linarith

/-- C57: constant data are reproduced. -/
theorem C57_constant (libs : Libs) (q : Query P K) (dist : P → P → K) (hq : QueryOK dist q)
    (sched : List ℕ) (inner : ℕ → List ℕ) (A : Approximator P K) (XT : List P)
    (hs : IsSchedule XT.length sched) (hi : ∀ i < XT.length, IsSchedule A.Y.nD (inner i))
    (hdt : A.Y.dt = .float) (k : ℕ) (hA : A.k = some k ∨ A.k = none ∧ k = 4) (hk : 2 ≤ k)
    (hn : k ≤ A.X.length)
    (hb : A.backend.getD "scipy" = "scipy" ∨
      A.backend.getD "scipy" = "sklearn" ∧ libs.hasSklearn = true)
    (hlim : A.maxDistance = none) (c : ℕ → K)
    (hc : ∀ i < A.X.length, ∀ j < A.Y.nD, A.Y.a i j = c j) :
    approximate libs q sched inner A XT =
      .ok (List.replicate XT.length ((List.range A.Y.nD).map c)) := by
  obtain ⟨res, h1, h2, h3⟩ := C57_bounds libs q dist hq sched inner A XT hs hi hdt k hA hk hn hb hlim c c
    (fun i h j h' => (hc i h j h').ge) (fun i h j h' => (hc i h j h').le)
  rw [h1]
  refine congrArg _ (List.eq_replicate_iff.2 ⟨h2, fun r hr => ?_⟩)
  obtain ⟨hl, he⟩ := h3 r hr
  refine List.ext_getElem (by rw [hl, List.length_map, List.length_range]) fun j hj hj' => ?_
  rw [List.getElem_map, List.getElem_range]
  have := he j _ (List.getElem?_eq_getElem hj)
  exact le_antisymm this.2 this.1

/-- C57: a single neighbour is refused. -/
theorem C57_one_neighbour_violated (libs : Libs) (q : Query P K) (sched : List ℕ)
    (inner : ℕ → List ℕ) (A : Approximator P K) (XT : List P) (hk : A.k = some 1)
    (hb : A.backend.getD "scipy" = "scipy") (e : List (List K)) :
    approximate libs q sched inner A XT ≠ .ok e := by
  unfold approximate
  rw [hk, hb]
  unfold kNearest
  rw [if_pos rfl]
  simp only [scipyQuery, numNeighbours]
  cases libs.oldScipy <;> simp

end

/-- The distance of numbers. -/
def absDist (x y : ℚ) : ℚ := |x - y|

/-- Four points with one value each. -/
def four (dt : DType) (f : ℕ → ℚ) : Approximator ℚ ℚ where
  X := [0, 1, 2, 3]
  Y := { n := 4, nD := 1, nd := false, dt := dt, a := fun i _ => f i }
  backend := none
  k := none
  maxDistance := none

/-- C57 fails for integer data: the constant one is approximated by zero. -/
theorem C57_integer_violated :
    approximate ⟨false, false⟩ (brute absDist) [0] (fun _ => [0]) (four .int fun _ => 1) [1] =
      .ok [[0]] := by
  decide +kernel

/-- C57 fails with fewer points than neighbours: the result depends on what is behind the data in
memory. -/
theorem C57_few_points_violated (m : ℚ) :
    approximate ⟨false, false⟩ (brute absDist) [0] (fun _ => [0])
      { X := [0, 1], Y := ⟨2, 1, false, .float, fun i _ => if i < 2 then 1 else m⟩, backend := none,
        k := some 3, maxDistance := none } [0] = .ok [[(2 + m) / 3]] := by
  have h : brute absDist [0, 1] 0 3 none = [0, 1, 2] := by decide +kernel
  simp [approximate, kNearest, scipyQuery, numNeighbours, h, approximate2d, loop1, rd, store]
  ring

/-- C57 fails with a limit that leaves too few neighbours (`scipy` before 1.6.0). -/
theorem C57_limit_violated (m : ℚ) :
    approximate ⟨true, false⟩ (brute absDist) [0] (fun _ => [0])
      { X := [0, 10], Y := ⟨2, 1, false, .float, fun i _ => if i < 2 then 1 else m⟩, backend := none,
        k := some 2, maxDistance := some 1 } [0] = .ok [[(1 + m) / 2]] := by
  have h : brute absDist [0, 10] 0 2 (some 1) = [0, 2] := by decide +kernel
  simp [approximate, kNearest, scipyQuery, numNeighbours, h, approximate2d, loop1, rd, store]
  ring

/-- Non-trivial data meeting the hypotheses, and the value obtained. -/
example : approximate ⟨false, false⟩ (brute absDist) [1, 0] (fun _ => [0])
    (four .float fun i => i ^ 2) [1, 2] = .ok [[7 / 2], [7 / 2]] := by
  decide +kernel

example (c : ℚ) : approximate ⟨false, false⟩ (brute absDist) [1, 0] (fun _ => [0])
    (four .float fun _ => c) [1, 7] = .ok [[c], [c]] :=
  C57_constant ⟨false, false⟩ (brute absDist) absDist (brute_ok _) [1, 0] (fun _ => [0])
    (four .float fun _ => c) [1, 7] (by unfold IsSchedule; decide) (fun i _ => List.Perm.refl _)
    rfl 4 (.inr ⟨rfl, rfl⟩) (by decide) (by show 4 ≤ 4; decide) (.inl rfl) rfl (fun _ => c) (fun _ _ _ _ => rfl)

end Verif.Knn.Props
