import Verif.Proofs.Graph
import Mathlib.Data.List.GetD
import Mathlib.Tactic.IntervalCases

/-!
# Level structures and pseudo-peripheral nodes

`Walk`, `IsDist`, `WellFormed`, `Connected`, `IsLevelStructure` and `widthOf` are the
specification: walks along the stored column indices, their least length, column indices below the
number of nodes, the partition by distance and the size of its largest level.
-/

namespace Verif.Graph.Props

/-- **C40.** If every node can be reached from the root, `rooted_level_structure` returns, and what
it returns is the partition of the nodes by their distance from the root: level `k` lists the nodes
at distance `k` in increasing order, no level is empty and every node is in one. -/
theorem C40_levels (a : Adj) (hw : WellFormed a) (root : ℕ) (hr : root < a.nN)
    (hc : ∀ v < a.nN, ∃ k, Walk a k root v) :
    ∃ F, ∀ fuel ≥ F, ∃ r, rootedLevelStructure a fuel root = some r ∧
      IsLevelStructure a root r.toList := by
  have h1 : ∀ v : Fin a.nN, ∃ k, IsDist a root v k := by
    intro v
    obtain ⟨k, hk⟩ := hc v v.isLt
    obtain ⟨d, -, hd⟩ := exists_dist hk
    exact ⟨d, hd⟩
  choose d hd using h1
  refine ⟨Finset.univ.sup d, fun fuel hf => ?_⟩
  obtain ⟨r, hr'⟩ := loop_terminates a hw root hr (Finset.univ.sup d)
    (fun v hv => ⟨d ⟨v, hv⟩, Finset.le_sup (Finset.mem_univ _), hd ⟨v, hv⟩⟩) fuel _
    (inv_start a root hr) (by simpa [start] using hf)
  exact ⟨r, hr', rls_spec a hw root hr fuel r hr'⟩

/-- **C40.** Every node is in exactly one level, once. -/
theorem C40_partition (a : Adj) (root : ℕ) (levels : List (List ℕ))
    (h : IsLevelStructure a root levels) (v : ℕ) (hv : v < a.nN) :
    ∃! k : ℕ, ∃ l : List ℕ, levels[k]? = some l ∧ l.count v = 1 := by
  obtain ⟨k, l, hl, hvl⟩ := h.cover v hv
  refine ⟨k, ⟨l, hl, ?_⟩, ?_⟩
  · exact List.count_eq_one_of_mem ((h.sorted k l hl).imp (fun hlt => by omega)) hvl
  · rintro j ⟨l', hl', hc⟩
    have hvl' : v ∈ l' := List.count_pos_iff.1 (by omega)
    exact ((h.mem j l' hl' v).1 hvl').2.unique ((h.mem k l hl v).1 hvl).2

/-- **C40.** There is only one such partition, so the property determines the result. -/
theorem C40_unique (a : Adj) (root : ℕ) (l l' : List (List ℕ)) (h : IsLevelStructure a root l)
    (h' : IsLevelStructure a root l') : l = l' := h.unique h'

/-- **C40, the limit.** If some node cannot be reached from the root, the loop never ends: the
graph has to be connected. -/
theorem C40_disconnected_never_returns (a : Adj) (hw : WellFormed a) (root : ℕ)
    (hr : root < a.nN) (v : ℕ) (hv : v < a.nN) (hun : ∀ k, ¬ Walk a k root v) (fuel : ℕ) :
    rootedLevelStructure a fuel root = none :=
  loop_diverges a hw root hr v hv hun fuel _ (inv_start a root hr)

/-- **C41.** On every connected graph `pseudo_peripheral_nodes` returns the last level of the level
structure of some node, followed by this node.  The structure is at least as deep as that of node 0
and no node of its last level has a deeper one, or one that is equally deep and narrower. -/
theorem C41_pseudo_peripheral (a : Adj) (hw : WellFormed a) (h0 : 0 < a.nN) (hc : Connected a) :
    ∃ F, ∀ fuel ≥ F, ∃ F', ∀ fuel' ≥ F', ∃ res root levels last,
      pseudoPeripheral a fuel fuel' = some res ∧ root < a.nN ∧
      IsLevelStructure a root levels ∧ levels.getLast? = some last ∧ res = last ++ [root] ∧
      (∀ levels0, IsLevelStructure a 0 levels0 → levels0.length ≤ levels.length) ∧
      ∀ u ∈ last, ∀ levels', IsLevelStructure a u levels' →
        levels'.length ≤ levels.length ∧
        (levels'.length = levels.length → widthOf levels ≤ widthOf levels') := by
  obtain ⟨D, hD⟩ := exists_bound a hc
  refine ⟨D, fun fuel hf => ?_⟩
  have hR : ∀ u < a.nN, ∃ r, rootedLevelStructure a fuel u = some r := fun u hu =>
    loop_terminates a hw u hu D (hD u hu) fuel _ (inv_start a u hu) (by simpa [start] using hf)
  have hB : ∀ s, SInv a s → pot a s ≤ (D + 1) * (a.nN + 2) + (a.nN + 1) := by
    rintro s ⟨root, hroot, hls, hlw⟩
    have hlen : s.length ≤ D + 1 := by
      have e1 : s.length = s.rls.level + 1 := by
        have := congrArg Prod.fst hlw
        simpa [lengthWidth] using this
      have hx := (toList_get s.rls s.rls.level _).2 ⟨le_rfl, rfl⟩
      obtain ⟨v, hv⟩ := List.exists_mem_of_ne_nil _ (hls.nonempty _ (List.mem_of_getElem? hx))
      obtain ⟨hvn, hd⟩ := (hls.mem _ _ hx v).1 hv
      obtain ⟨k, hk, hdk⟩ := hD root hroot v hvn
      have := hd.unique hdk
      omega
    unfold pot
    have := Nat.mul_le_mul_right (a.nN + 2) hlen
    omega
  refine ⟨(D + 1) * (a.nN + 2) + (a.nN + 1) + 1, fun fuel' hf' => ?_⟩
  obtain ⟨r0, hr0⟩ := hR 0 h0
  have hs0 := rls_spec a hw 0 h0 fuel r0 hr0
  have hinv : SInv a ⟨r0, (lengthWidth r0).1, (lengthWidth r0).2, false⟩ := ⟨0, h0, hs0, rfl⟩
  obtain ⟨s, e1, ⟨root, hroot, hls, hlw⟩, e3, e4⟩ :=
    search_spec a fuel hw hR _ hB fuel' _ hinv (by omega)
  have hx0 := (toList_get s.rls 0 _).2 ⟨Nat.zero_le _, rfl⟩
  have hroot0 : s.rls.lev 0 = [root] := by
    have hmem : ∀ v, v ∈ s.rls.lev 0 ↔ v = root := by
      intro v
      rw [hls.mem 0 _ hx0 v]
      constructor
      · rintro ⟨-, h, -⟩; exact h.symm
      · rintro rfl; exact ⟨hroot, rfl, by simp⟩
    have hnd : (s.rls.lev 0).Nodup := (hls.sorted 0 _ hx0).imp (fun hlt => by omega)
    exact List.perm_singleton.1 ((List.perm_ext_iff_of_nodup hnd (List.nodup_singleton _)).2
      (fun v => by rw [hmem v, List.mem_singleton]))
  have hlen : s.length = s.rls.toList.length := by
    have := congrArg Prod.fst hlw
    rwa [lengthWidth_eq] at this
  have hwid : s.width = widthOf s.rls.toList := by
    have := congrArg Prod.snd hlw
    rwa [lengthWidth_eq] at this
  refine ⟨s.rls.lev s.rls.level ++ [root], root, s.rls.toList, s.rls.lev s.rls.level, ?_, hroot,
    hls, ?_, rfl, ?_, ?_⟩
  · unfold pseudoPeripheral
    rw [hr0]
    simp only [Option.bind_eq_bind, Option.bind_some]
    rw [e1, hroot0]
    rfl
  · rw [List.getLast?_eq_getElem?, toList_get, toList_length]
    exact ⟨by omega, by simp⟩
  · intro l0 hl0
    rw [hl0.unique hs0, ← hlen]
    refine le_trans (le_of_eq ?_) e3
    rw [lengthWidth_eq]
  · intro u hu l' hl'
    have hun : u < a.nN :=
      ((hls.mem s.rls.level _ ((toList_get _ _ _).2 ⟨le_rfl, rfl⟩) u).1 hu).1
    obtain ⟨r, hr⟩ := hR u hun
    have hb := e4 u hu r hr
    have hrs := rls_spec a hw u hun fuel r hr
    rw [hl'.unique hrs]
    unfold Better at hb
    rw [lengthWidth_eq] at hb
    simp only [not_or, not_and, not_lt, gt_iff_lt] at hb
    rw [hlen, hwid] at hb
    exact hb

/-- **C41.** An undirected graph is connected in this sense if every node can be reached from
node 0. -/
theorem C41_undirected (a : Adj) (hs : ∀ u v, v ∈ a.irow u → u ∈ a.irow v)
    (hc : ∀ v < a.nN, ∃ k, Walk a k 0 v) :
    Connected a := by
  have happ : ∀ k l u v w, Walk a k u v → Walk a l v w → Walk a (k + l) u w := by
    intro k l u v w h
    induction l generalizing w with
    | zero => intro h'; rw [← (show v = w from h')]; exact h
    | succ l ih => rintro ⟨x, hx, hw⟩; exact ⟨x, ih x hx, hw⟩
  have hrev : ∀ k u v, Walk a k u v → Walk a k v u := by
    intro k
    induction k with
    | zero => intro u v h; exact h.symm
    | succ k ih =>
      rintro u v ⟨x, hx, hv⟩
      have h1 : Walk a 1 v x := ⟨v, rfl, hs x v hv⟩
      have := happ 1 k v x u h1 (ih u x hx)
      rwa [Nat.add_comm] at this
  intro u hu v hv
  obtain ⟨k, hk⟩ := hc u hu
  obtain ⟨l, hl⟩ := hc v hv
  exact ⟨k + l, happ k l u 0 v (hrev k 0 u hk) hl⟩

/-- The CSR arrays of the matrix whose row `u` has its nonzero entries in the columns `rows[u]`. -/
def ofRows (rows : List (List ℕ)) : Adj :=
  ⟨(List.range (rows.length + 1)).map fun k => (rows.take k).flatten.length, rows.flatten⟩

/-- **C40, C41.** The graph that is searched is the one given by the matrix: there are as many nodes
as rows, and a walk goes from `u` to the columns of row `u`. -/
theorem C40_graph_of_matrix (rows : List (List ℕ)) :
    (ofRows rows).nN = rows.length ∧
      ∀ (u : ℕ) (row : List ℕ), rows[u]? = some row → (ofRows rows).irow u = row := by
  refine ⟨by simp [ofRows, Adj.nN], fun u row h => ?_⟩
  obtain ⟨hu, hrow⟩ := List.getElem?_eq_some_iff.1 h
  have hptr : ∀ k ≤ rows.length, (ofRows rows).indptr.getD k 0 = (rows.take k).flatten.length := by
    intro k hk
    unfold ofRows
    simp only
    rw [List.getD_eq_getElem?_getD, List.getElem?_map, List.getElem?_range (by omega)]
    rfl
  have hsplit : rows.flatten = (rows.take (u + 1)).flatten ++ (rows.drop (u + 1)).flatten := by
    rw [← List.flatten_append, List.take_append_drop]
  have htake : (rows.take (u + 1)).flatten = (rows.take u).flatten ++ row := by
    rw [List.take_add_one, h]
    simp
  unfold Adj.irow
  rw [hptr u (by omega), hptr (u + 1) (by omega)]
  show ((rows.flatten).take _).drop _ = row
  rw [hsplit, List.take_left, htake, List.drop_left]

example : (ofRows [[1, 2], [0, 3, 4], [0], [1], [1]]).irow 1 = [0, 3, 4] :=
  (C40_graph_of_matrix _).2 1 _ rfl

/-! ### A concrete graph: the path 3 – 1 – 0 – 2 with a pendant node 4 at 1 -/

/-- neighbours: 0: {1, 2}, 1: {0, 3, 4}, 2: {0}, 3: {1}, 4: {1} -/
def path : Adj := ⟨[0, 2, 5, 6, 7, 8], [1, 2, 0, 3, 4, 0, 1, 1]⟩

theorem path_irow_large (u : ℕ) (h : 5 ≤ u) : path.irow u = [] := by
  have h1 : path.indptr.getD (u + 1) 0 = 0 :=
    List.getD_eq_default _ _ (by simpa [path] using h)
  unfold Adj.irow
  rw [h1, List.take_zero, List.drop_nil]

example : path.nN = 5 := rfl

theorem path_wellFormed : WellFormed path := by
  intro u v h
  by_cases hu : u < 5
  · have : ∀ u < 5, ∀ v ∈ path.irow u, v < path.nN := by decide
    exact this u hu v h
  · rw [path_irow_large u (by omega)] at h
    exact absurd h (List.not_mem_nil)

theorem path_reach : ∀ v < path.nN, ∃ k, Walk path k 0 v := by
  intro v hv
  have hv' : v < 5 := hv
  interval_cases v
  · exact ⟨0, rfl⟩
  · exact ⟨1, 0, rfl, by decide⟩
  · exact ⟨1, 0, rfl, by decide⟩
  · exact ⟨2, 1, ⟨0, rfl, by decide⟩, by decide⟩
  · exact ⟨2, 1, ⟨0, rfl, by decide⟩, by decide⟩

theorem path_symm : ∀ u v, v ∈ path.irow u → u ∈ path.irow v := by
  intro u v h
  by_cases hu : u < 5
  · have : ∀ u < 5, ∀ v ∈ path.irow u, u ∈ path.irow v := by decide
    exact this u hu v h
  · rw [path_irow_large u (by omega)] at h
    exact absurd h (List.not_mem_nil)

example : ∃ F, ∀ fuel ≥ F, ∃ r, rootedLevelStructure path fuel 0 = some r ∧
    IsLevelStructure path 0 r.toList :=
  C40_levels path path_wellFormed 0 (by decide) path_reach

example : (rootedLevelStructure path 9 0).map RLS.toList = some [[0], [1, 2], [3, 4]] := by decide

example : (rootedLevelStructure path 9 2).map RLS.toList = some [[2], [0], [1], [3, 4]] := by decide

example : ∃ k : ℕ, ∃ l : List ℕ, [[0], [1, 2], [3, 4]][k]? = some l ∧ List.count 4 l = 1 := ⟨2, _, rfl, rfl⟩

example : Connected path := C41_undirected path path_symm path_reach

/-- From node 0 the search moves to node 3, at distance 3 from node 2. -/
example : pseudoPeripheral path 9 9 = some [2, 3] := by decide

/-- Two nodes without an edge. -/
def twoNodes : Adj := ⟨[0, 0, 0], []⟩

theorem twoNodes_irow (u : ℕ) : twoNodes.irow u = [] := by simp [Adj.irow, twoNodes]

example (fuel : ℕ) : rootedLevelStructure twoNodes fuel 0 = none :=
  C40_disconnected_never_returns twoNodes (fun u v h => by simp [twoNodes_irow] at h) 0 (by decide) 1
    (by decide)
    (fun k h => by
      cases k with
      | zero => exact absurd h (by simp [Walk])
      | succ k => obtain ⟨w, -, hw⟩ := h; simp [twoNodes_irow] at hw) fuel

end Verif.Graph.Props
