import Verif.Proofs.MlsObj

/-!
# C109: `MLSApproximator` as an object
-/

set_option linter.unusedSectionVars false

namespace Verif.MlsObj.Props
open Verif Verif.Utils Verif.Tr Verif.Knn Verif.Knn.Props Verif.MlsObj

section
variable {K : Type} [Field K] [LinearOrder K] [IsStrictOrderedRing K] [FloorRing K]

/-- The source points assigned last. -/
def lastSources (X : NdArray K) : List (Op K) → NdArray K
  | [] => X
  | .sources X' :: ops => lastSources X' ops
  | _ :: ops => lastSources X ops

/-- The data assigned last, with their dtype. -/
def lastValues (Y : NdArray K × DType) : List (Op K) → NdArray K × DType
  | [] => Y
  | .values Y' dt :: ops => lastValues (Y', dt) ops
  | _ :: ops => lastValues Y ops

/-- C109: whatever was done with an approximator before (calls for other targets, whether they failed or not,
assignments of neighbours, factors, sources and data), `approximate` returns what a new approximator made from the
sources and data assigned last returns. -/
theorem C109_history (libs : Libs) (q : Query (List K) K) (ops : List (Op K)) (A : Mls K) (sched : List ℕ)
    (inner : ℕ → List ℕ) (junk : ℕ → ℕ → K) (XT : ArrayLike K) :
    ((A.run libs q ops).approximate libs q sched inner junk XT).1 =
      ((Mls.new (lastSources A.xs ops) (lastValues (A.ys, A.dt) ops).1 (lastValues (A.ys, A.dt) ops).2 A.backend A.k
        A.maxDistance).approximate libs q sched inner junk XT).1 := by
  induction ops generalizing A with
  | nil => exact approximate_congr _ _ _ _ _ _ _ _ rfl rfl rfl rfl rfl rfl
  | cons op ops ih =>
    have h := ih (A.step libs q op)
    unfold Mls.run at h ⊢
    rw [List.foldl_cons, h]
    cases op with
    | neighbours N => rfl
    | factors F => rfl
    | sources X => rfl
    | values Y dt => rfl
    | call s i j T =>
      obtain ⟨h1, h2, h3, h4, h5, h6⟩ := approximate_keeps libs q s i j A T
      simp only [Mls.step, lastSources, lastValues, h1, h2, h3, h4, h5, h6]

/-- C109 fails: neighbours and factors that are assigned are not used; the call replaces them. -/
theorem C109_assigned_violated (libs : Libs) (q : Query (List K) K) (A : Mls K) (N : NdArray ℕ) (F : NdArray K)
    (sched : List ℕ) (inner : ℕ → List ℕ) (junk : ℕ → ℕ → K) (XT : ArrayLike K) :
    ((A.run libs q [.neighbours N, .factors F]).approximate libs q sched inner junk XT).1 =
      (A.approximate libs q sched inner junk XT).1 :=
  approximate_congr _ _ _ _ _ _ _ _ rfl rfl rfl rfl rfl rfl

/-- C109, partial: with sources and targets of `m` coordinates in the rows of arrays with two axes (or, for numbers,
with one), data of any shape in an array with one axis more, floats, two or more neighbours and enough sources,
the result has an entry for every target and every component of a datum, in the order of the targets: the mean of the
data at the neighbours.  The neighbours and factors used can be read from the object afterwards.  Axes of length one
are missing in the shape of the result.

Missing, because it is false: results for one target have an axis for the targets (`C109_shape_violated`), the
coordinates of a point are a target (`C109_point_violated`), targets with several leading axes
(`C109_leading_axes_violated`), neighbours and factors that are assigned are used (`C109_assigned_violated`). -/
theorem C109_values_partial (libs : Libs) (q : Query (List K) K) (dist : List K → List K → K) (hq : QueryOK dist q)
    (sched : List ℕ) (inner : ℕ → List ℕ) (junk : ℕ → ℕ → K) (A : Mls K) (XT : NdArray K) (m : ℕ) (comps : List ℕ)
    (Xs Ts Ys : List (List K)) (hX : ∀ x ∈ Xs, x.length = m) (hT : ∀ x ∈ Ts, x.length = m)
    (hY : ∀ y ∈ Ys, y.length = comps.prod) (hn : Ys.length = Xs.length)
    (hAx : A.xs = ⟨[Xs.length, m], Xs.flatten⟩ ∨ m = 1 ∧ A.xs = ⟨[Xs.length], Xs.flatten⟩)
    (hXT : XT = ⟨[Ts.length, m], Ts.flatten⟩ ∨ m = 1 ∧ XT = ⟨[Ts.length], Ts.flatten⟩)
    (hAy : A.ys = ⟨Ys.length :: comps, Ys.flatten⟩) (hdt : A.dt = .float)
    (hs : IsSchedule Ts.length sched) (hi : ∀ i < Ts.length, IsSchedule comps.prod (inner i))
    (k : ℕ) (hA : A.k = some k ∨ A.k = none ∧ k = 4) (hk : 2 ≤ k) (hkn : k ≤ Xs.length)
    (hb : A.backend.getD "scipy" = "scipy" ∨ A.backend.getD "scipy" = "sklearn" ∧ libs.hasSklearn = true)
    (hlim : A.maxDistance = none) :
    ∃ (res : List (List K)) (rows : List (List ℕ)),
      (A.approximate libs q sched inner junk (.array XT)).1 =
        .ok ⟨(Ts.length :: comps).filter (· ≠ 1), res.flatten⟩ ∧
      (A.approximate libs q sched inner junk (.array XT)).2 =
        { A with
          neighbours := some ⟨[Ts.length, k], rows.flatten⟩
          factors := some ⟨[Ts.length, k], List.replicate (Ts.length * k) (1 / (k : K))⟩ } ∧
      res.length = Ts.length ∧ rows.length = Ts.length ∧
      ∀ (t : ℕ) (y : List K), Ts[t]? = some y → ∃ (row : List ℕ) (r : List K),
        rows[t]? = some row ∧ res[t]? = some r ∧
        row.length = k ∧ row.Nodup ∧ (∀ i ∈ row, i < Xs.length) ∧
        (∀ i ∈ row, ∀ j, j ∉ row → ∀ x x', Xs[i]? = some x → Xs[j]? = some x' → dist x y ≤ dist x' y) ∧
        r.length = comps.prod ∧
        ∀ j < comps.prod, r[j]? = some ((row.map fun i => (Ys.getD i []).getD j 0).sum / (k : K)) := by
  obtain ⟨rows, h1, h2, h3⟩ := C58_nearest libs q dist hq Xs Ts (A.backend.getD "scipy") k hk hkn hb
  have hkk : numNeighbours A.k = k := by
    unfold numNeighbours
    rcases hA with h | ⟨h, rfl⟩
    · rw [h]
      exact if_neg (by omega)
    · rw [h]
  have hrl : ∀ r ∈ rows, r.length = k := fun r hr => by
    obtain ⟨t, ht, rfl⟩ := List.mem_iff_getElem.1 hr
    have ht' : t < Ts.length := h2 ▸ ht
    exact (h3 t rows[t] Ts[t] (List.getElem?_eq_getElem ht) (List.getElem?_eq_getElem ht')).1
  have hsrch := search_ok libs q m Xs Ts (A.backend.getD "scipy") k hX hT rows hb h1
  -- the data with at least two axes
  obtain ⟨Y, hYe, hYs, hYd, hYc, hYf⟩ : ∃ Y : NdArray K,
      (if A.ys.shape.length = 1 then atleastnd (.array A.ys) 2 true true else .ok A.ys : Py (NdArray K)) = .ok Y ∧
        Y.shape.headD 0 = Ys.length ∧ Y.data = Ys.flatten ∧ Y.shape.tail.prod = comps.prod ∧
        ∃ a cs, Y.shape = a :: cs ∧ (Ts.length :: cs).filter (· ≠ 1) = (Ts.length :: comps).filter (· ≠ 1) := by
    rw [hAy]
    cases comps with
    | nil =>
      have hl : Ys.flatten.length = Ys.length := singletons Ys fun y hy => by rw [hY y hy]; rfl
      refine ⟨⟨[Ys.length, 1], Ys.flatten⟩, ?_, rfl, rfl, rfl, _, _, rfl, ?_⟩
      · simp [atleastnd, asArray, reshape, hl]
      · simp [List.filter_cons]
    | cons c cs =>
      refine ⟨⟨Ys.length :: c :: cs, Ys.flatten⟩, ?_, rfl, rfl, rfl, _, _, rfl, rfl⟩
      rw [if_neg (by simp)]
  obtain ⟨a, cs, hYsh, hfil⟩ := hYf
  have hv : valuesOf junk A.dt Y = ⟨Ys.length, comps.prod, decide (2 < Y.shape.length), .float,
      fun i j => if i < Ys.length then (Ys.flatten[i * comps.prod + j]?).getD 0 else junk i j⟩ := by
    unfold valuesOf
    rw [hYs, hYd, hYc, hdt]
  set v := valuesOf junk A.dt Y with hvdef
  set res := (if v.nd then approximateNd sched v rows (1 / (k : K)) else approximate2d sched inner v rows (1 / (k : K)))
    with hres
  have hev : evaluate sched inner junk A.dt Y ⟨[Ts.length, k], rows.flatten⟩ (1 / (k : K)) =
      .ok ⟨(Ts.length :: comps).filter (· ≠ 1), res.flatten⟩ := by
    unfold evaluate
    rw [hYsh]
    simp only [squeeze, hfil]
    rw [hres, ← hYsh, ← hvdef, ← h2, groups_flatten k rows hrl]
    have : v.nd = decide (2 < Y.shape.length) := by rw [hv]
    rw [this]
    by_cases h : 2 < Y.shape.length <;> simp [h]
  have hrun : A.approximate libs q sched inner junk (.array XT) =
      (evaluate sched inner junk A.dt Y ⟨[Ts.length, k], rows.flatten⟩ (1 / (k : K)),
        { A with
          neighbours := some ⟨[Ts.length, k], rows.flatten⟩
          factors := some ⟨[Ts.length, k], rows.flatten.map fun _ => 1 / (k : K)⟩ }) := by
    unfold Mls.approximate
    rw [atleast_points m Xs A.xs hX hAx, atleast_points m Ts XT hT hXT]
    simp only
    rw [hkk, hlim, hsrch]
    simp only
    rw [hYe]
    rfl
  refine ⟨res, rows, ?_, ?_, ?_, h2, ?_⟩
  · rw [hrun, hev]
  · rw [hrun]
    have : rows.flatten.map (fun _ => 1 / (k : K)) = List.replicate (Ts.length * k) (1 / (k : K)) := by
      rw [List.map_const', length_flatten_eq k rows hrl, h2]
    rw [this]
  · rw [hres]
    split
    · unfold approximateNd
      rw [loop1_length, List.length_map, h2]
    · unfold approximate2d
      rw [loop1_length, List.length_map, h2]
  · intro t y hy
    have ht : t < rows.length := by rw [h2]; exact (List.getElem?_eq_some_iff.1 hy).1
    have hrow : rows[t]? = some rows[t] := List.getElem?_eq_getElem ht
    obtain ⟨g1, g2, g3, g4, -⟩ := h3 t rows[t] y hrow hy
    rw [← h2] at hs hi
    have hnD : v.nD = comps.prod := by rw [hv]
    obtain ⟨r, hr, hl, he⟩ := kernels sched inner v (by rw [hv]) rows (1 / (k : K)) hs
      (fun i h => hnD ▸ hi i h) t rows[t] hrow
    refine ⟨rows[t], r, hrow, hr, g1, g2, g3, g4, hl.trans hnD, fun j hj => ?_⟩
    rw [he j (hnD ▸ hj), mul_one_div]
    refine congrArg (fun s => some (s / (k : K))) (congrArg List.sum (List.map_congr_left fun i hi' => ?_))
    have hiY : i < Ys.length := hn ▸ g3 i hi'
    rw [hv]
    simp only [if_pos hiY]
    rw [flatten_get comps.prod Ys hY i j Ys[i] (List.getElem?_eq_getElem hiY) hj, List.getD_eq_getElem _ _ hiY,
      List.getD_eq_getElem?_getD]

/-- C109 fails for the coordinates of one point with several of them: they are taken for a list of targets with one
coordinate each. -/
theorem C109_point_violated (libs : Libs) (q : Query (List K) K) (sched : List ℕ) (inner : ℕ → List ℕ)
    (junk : ℕ → ℕ → K) (A : Mls K) (n m : ℕ) (X : List K) (hA : A.xs = ⟨[n, m], X⟩) (hm : m ≠ 1)
    (point : List K) (hb : A.backend.getD "scipy" = "scipy") :
    (A.approximate libs q sched inner junk (.array ⟨[point.length], point⟩)).1 = .error .value := by
  unfold Mls.approximate
  rw [hA, hb]
  simp [atleastnd, asArray, reshape, search, Ne.symm hm]

/-- C109: sources with three or more axes, and targets in the rows of an array whose rows do not have as many entries as
there are coordinates, raise `ValueError`, and the object stays as it was. -/
theorem C109_refused (libs : Libs) (q : Query (List K) K) (sched : List ℕ) (inner : ℕ → List ℕ)
    (junk : ℕ → ℕ → K) (A : Mls K) (hb : A.backend.getD "scipy" = "scipy") (N m' : ℕ) (T : List K)
    (h : 2 < A.xs.shape.length ∨ ∃ n m X, A.xs = ⟨[n, m], X⟩ ∧ m ≠ m') :
    A.approximate libs q sched inner junk (.array ⟨[N, m'], T⟩) = (.error .value, A) := by
  unfold Mls.approximate
  rw [hb]
  rcases h with h | ⟨n, m, X, hA, hm⟩
  · have h1 : atleastnd (.array A.xs) 2 true true = .ok A.xs := by
      simp [atleastnd, asArray, h.le]
    have h2 : ∀ Y k d, search libs q A.xs Y "scipy" k d = .error .value := by
      intro Y k d
      generalize A.xs = X at h
      obtain ⟨shape, data⟩ := X
      rcases shape with _ | ⟨a, _ | ⟨b, _ | ⟨c, l⟩⟩⟩ <;> simp [search] at h ⊢
    rw [h1]
    simp [atleastnd, asArray, h2]
  · rw [hA]
    simp [atleastnd, asArray, search, Ne.symm hm]

end

deriving instance DecidableEq for NdArray

/-- The distance of points on a line. -/
def lineDist (x y : List ℚ) : ℚ := |x.headD 0 - y.headD 0|

/-- Four points on a line with two values each. -/
def exMls (k : ℕ) : Mls ℚ := Mls.new ⟨[4, 1], [0, 1, 2, 3]⟩ ⟨[4, 2], [1, 10, 2, 20, 3, 30, 4, 40]⟩ .float none (some k) none

/-- The hypotheses of `C109_refused` can be met. -/
example : (exMls 2).approximate ⟨false, false⟩ (brute lineDist) [0] (fun _ => [0, 1]) (fun _ _ => 0)
    (.array ⟨[1, 2], [0, 1]⟩) = (.error .value, exMls 2) :=
  C109_refused _ _ _ _ _ _ rfl 1 2 _ (.inr ⟨4, 1, _, rfl, by decide⟩)

/-- C109 fails for a single target: the result has the shape `(2,)` instead of `(1, 2)`. -/
theorem C109_shape_violated :
    ((exMls 2).approximate ⟨false, false⟩ (brute lineDist) [0] (fun _ => [0, 1]) (fun _ _ => 0)
      (.array ⟨[1, 1], [0]⟩)).1 = .ok ⟨[2], [3 / 2, 15]⟩ := by
  decide +kernel

/-- C109 fails for targets with two leading axes: with two neighbours they are refused; with one neighbour, the values
found for the targets in a row are mixed: the result for the targets 0 and 3 is the mean of their values. -/
theorem C109_leading_axes_violated :
    ((exMls 2).approximate ⟨false, false⟩ (brute lineDist) [0] (fun _ => [0, 1]) (fun _ _ => 0)
      (.array ⟨[1, 2, 1], [0, 3]⟩)).1 = .error .type ∧
    ((exMls 1).approximate ⟨false, false⟩ (brute lineDist) [0] (fun _ => [0, 1]) (fun _ _ => 0)
      (.array ⟨[1, 2, 1], [0, 3]⟩)).1 = .ok ⟨[2], [5 / 2, 25]⟩ := by
  constructor <;> decide +kernel

/-- The hypotheses of `C109_values_partial` can be met, and the result it describes. -/
example :
    ((exMls 2).approximate ⟨false, false⟩ (brute lineDist) [1, 0] (fun _ => [1, 0]) (fun _ _ => 0)
      (.array ⟨[2], [3, 0]⟩)).1 = .ok ⟨[2, 2], [7 / 2, 35, 3 / 2, 15]⟩ := by
  decide +kernel

example : ∃ (res : List (List ℚ)) (rows : List (List ℕ)),
    ((exMls 2).approximate ⟨false, false⟩ (brute lineDist) [1, 0] (fun _ => [1, 0]) (fun _ _ => 0)
      (.array ⟨[2], [3, 0]⟩)).1 = .ok ⟨[2, 2], res.flatten⟩ ∧ res.length = 2 ∧ rows.length = 2 := by
  obtain ⟨res, rows, h1, -, h3, h4, -⟩ := C109_values_partial ⟨false, false⟩ (brute lineDist) lineDist
    (brute_ok lineDist) [1, 0] (fun _ => [1, 0]) (fun _ _ => 0) (exMls 2) ⟨[2], [3, 0]⟩ 1 [2] [[0], [1], [2], [3]]
    [[3], [0]] [[1, 10], [2, 20], [3, 30], [4, 40]] (by decide) (by decide) (by decide) rfl (.inl rfl) (.inr ⟨rfl, rfl⟩)
    rfl rfl (by unfold IsSchedule; decide) (by unfold IsSchedule; decide) 2 (.inl rfl) le_rfl (by decide) (.inl rfl) rfl
  exact ⟨res, rows, h1, h3, h4⟩

/-- A history with a failing call, and the data assigned last. -/
example (libs : Libs) (q : Query (List ℚ) ℚ) (XT : ArrayLike ℚ) :
    (((exMls 2).run libs q [.call [0] (fun _ => [0]) (fun _ _ => 0) (.array ⟨[1, 2, 1], [0, 3]⟩),
      .values ⟨[4], [1, 2, 3, 4]⟩ .float, .neighbours ⟨[1], [0]⟩]).approximate libs q [0] (fun _ => [0])
        (fun _ _ => 0) XT).1 =
    ((Mls.new ⟨[4, 1], [0, 1, 2, 3]⟩ ⟨[4], [1, 2, 3, 4]⟩ .float none (some 2) none).approximate libs q [0]
      (fun _ => [0]) (fun _ _ => 0) XT).1 :=
  C109_history libs q _ (exMls 2) [0] (fun _ => [0]) (fun _ _ => 0) XT

end Verif.MlsObj.Props
