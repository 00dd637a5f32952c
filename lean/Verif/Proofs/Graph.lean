import Verif.Model.Graph
import Mathlib.Data.List.Range
import Mathlib.Data.List.Count
import Mathlib.Data.Finset.Lattice.Fold
import Mathlib.Data.Fintype.Prod
import Mathlib.Tactic.Linarith

/-! # Helper lemmas about `Model/Graph.lean` -/

namespace Verif.Graph

/-! ### Walks and distances -/

/-- There is a walk with `k` steps from `u` to `v`. -/
def Walk (a : Adj) : ℕ → ℕ → ℕ → Prop
  | 0, u, v => u = v
  | k + 1, u, v => ∃ w, Walk a k u w ∧ v ∈ a.irow w

/-- `v` is at distance `k` from `u`: there is a walk with `k` steps and no shorter one. -/
def IsDist (a : Adj) (u v k : ℕ) : Prop := Walk a k u v ∧ ∀ j < k, ¬ Walk a j u v

/-- The column indices are numbers of nodes. -/
def WellFormed (a : Adj) : Prop := ∀ u v, v ∈ a.irow u → v < a.nN

theorem exists_dist {a : Adj} {u v k : ℕ} (h : Walk a k u v) : ∃ d ≤ k, IsDist a u v d := by
  induction k using Nat.strong_induction_on with
  | _ k ih =>
    by_cases hs : ∃ j < k, Walk a j u v
    · obtain ⟨j, hj, hw⟩ := hs
      obtain ⟨d, hd, hdd⟩ := ih j hj hw
      exact ⟨d, by omega, hdd⟩
    · push Not at hs
      exact ⟨k, le_rfl, h, hs⟩

theorem IsDist.unique {a : Adj} {u v k l : ℕ} (h : IsDist a u v k) (h' : IsDist a u v l) :
    k = l := by
  rcases lt_trichotomy k l with hlt | he | hlt
  · exact absurd h.1 (h'.2 k hlt)
  · exact he
  · exact absurd h'.1 (h.2 l hlt)

theorem Walk.lt {a : Adj} (hw : WellFormed a) {u v k : ℕ} (hu : u < a.nN) (h : Walk a k u v) :
    v < a.nN := by
  cases k with
  | zero => rw [← h]; exact hu
  | succ k => obtain ⟨w, -, hv⟩ := h; exact hw w v hv

/-- A node at distance `k + 1` has a predecessor at distance `k`. -/
theorem IsDist.pred {a : Adj} {u v k : ℕ} (h : IsDist a u v (k + 1)) :
    ∃ w, IsDist a u w k ∧ v ∈ a.irow w := by
  obtain ⟨⟨w, hw, hv⟩, hmin⟩ := h
  refine ⟨w, ⟨hw, fun j hj hwj => ?_⟩, hv⟩
  exact hmin (j + 1) (by omega) ⟨w, hwj, hv⟩

theorem IsDist.earlier {a : Adj} {u v k : ℕ} (h : IsDist a u v k) {j : ℕ} (hj : j ≤ k) :
    ∃ w, IsDist a u w j := by
  induction k generalizing v with
  | zero => exact ⟨v, by have : j = 0 := by omega
                         subst this; exact h⟩
  | succ k ih =>
    by_cases hjk : j = k + 1
    · subst hjk; exact ⟨v, h⟩
    · obtain ⟨w, hw, -⟩ := h.pred
      exact ih hw (by omega)

/-! ### The arrays of flags -/

theorem mark_iff (l : List ℕ) (s : ℕ → Bool) (v : ℕ) :
    mark l s v = true ↔ s v = true ∨ v ∈ l := by
  unfold mark
  induction l generalizing s with
  | nil => simp
  | cons a t ih =>
    rw [List.foldl_cons, ih]
    by_cases h : v = a
    · subst h; simp
    · simp [h]

theorem markAll_iff (a : Adj) (l : List ℕ) (s : ℕ → Bool) (v : ℕ) :
    (l.foldl (fun ls node => mark (a.irow node) ls) s) v = true ↔
      s v = true ∨ ∃ u ∈ l, v ∈ a.irow u := by
  induction l generalizing s with
  | nil => simp
  | cons b t ih =>
    rw [List.foldl_cons, ih, mark_iff]
    simp only [List.mem_cons, exists_eq_or_imp]
    tauto

theorem foldl_set (p : ℕ → Bool) (b : Bool) (l : List ℕ) (s : ℕ → Bool) (v : ℕ) :
    (l.foldl (fun ls i => if p i then Function.update ls i b else ls) s) v =
      if v ∈ l ∧ p v = true then b else s v := by
  induction l generalizing s with
  | nil => simp
  | cons a t ih =>
    rw [List.foldl_cons, ih]
    by_cases hp : p a = true
    · rw [if_pos hp]
      by_cases hva : v = a
      · subst hva; simp [hp]
      · simp [hva]
    · rw [if_neg hp]
      by_cases hva : v = a
      · subst hva; simp [hp]
      · simp [hva]

/-! ### The loop invariant -/

/-- After some passes: the levels so far are the distance classes, the marked nodes are those in
the levels, `nE` counts them. -/
structure Inv (a : Adj) (root : ℕ) (s : State) : Prop where
  lev : ∀ k ≤ s.rls.level, (s.rls.lev k).Pairwise (· < ·) ∧
    ∀ v, v ∈ s.rls.lev k ↔ v < a.nN ∧ IsDist a root v k
  nodes : ∀ v, s.nodes v = true ↔ v < a.nN ∧ ∃ k ≤ s.rls.level, IsDist a root v k
  nE : s.nE = ((List.range a.nN).filter s.nodes).length

theorem inv_start (a : Adj) (root : ℕ) (hr : root < a.nN) : Inv a root (start root) := by
  have h0 : ∀ v, IsDist a root v 0 ↔ root = v := fun v => ⟨fun h => h.1, fun h => ⟨h, by simp⟩⟩
  refine ⟨?_, ?_, ?_⟩
  · intro k hk
    have hk0 : k = 0 := by simpa [start] using hk
    subst hk0
    refine ⟨by simp [start], fun v => ?_⟩
    rw [h0]
    simp only [start, List.mem_singleton]
    constructor
    · rintro rfl; exact ⟨hr, rfl⟩
    · rintro ⟨-, rfl⟩; rfl
  · intro v
    simp only [start, Nat.le_zero_eq, exists_eq_left, h0]
    by_cases h : v = root
    · subst h; simp [hr]
    · simp [h, Ne.symm h]
  · simp only [start]
    have : (List.range a.nN).filter (Function.update (fun _ => false) root true) = [root] := by
      have h1 : (List.range a.nN).filter (Function.update (fun _ => false) root true) =
          (List.range a.nN).filter (· == root) := by
        apply List.filter_congr
        intro v _
        by_cases h : v = root
        · subst h; simp
        · simp [h]
      rw [h1, List.filter_beq, List.count_eq_one_of_mem List.nodup_range (by simpa using hr)]
      rfl
    rw [this]; rfl

theorem filter_or_length (l : List ℕ) (p q : ℕ → Bool)
    (h : ∀ v ∈ l, ¬ (p v = true ∧ q v = true)) :
    (l.filter fun v => p v || q v).length = (l.filter p).length + (l.filter q).length := by
  induction l with
  | nil => rfl
  | cons a t ih =>
    have ih' := ih fun v hv => h v (List.mem_cons_of_mem _ hv)
    have ha := h a List.mem_cons_self
    cases hp : p a <;> cases hq : q a <;> simp_all <;> omega

theorem inv_body (a : Adj) (hw : WellFormed a) (root : ℕ) (hr : root < a.nN) (s : State)
    (h : Inv a root s) : Inv a root (body a s) := by
  -- the new level
  have hnew : ∀ v, v < a.nN →
      (((List.range a.nN).foldl
        (fun ls iN => if s.nodes iN then Function.update ls iN false else ls)
        ((s.rls.lev s.rls.level).foldl (fun ls node => mark (a.irow node) ls)
          (fun _ => false))) v = true ↔ IsDist a root v (s.rls.level + 1)) := by
    intro v hv
    rw [foldl_set]
    have hmem : v ∈ List.range a.nN := List.mem_range.2 hv
    by_cases hn : s.nodes v = true
    · rw [if_pos ⟨hmem, hn⟩]
      simp only [Bool.false_eq_true, false_iff]
      intro hd
      obtain ⟨-, k, hk, hdk⟩ := (h.nodes v).1 hn
      have := hdk.unique hd
      omega
    · rw [if_neg (fun hc => hn hc.2), markAll_iff]
      simp only [Bool.false_eq_true, false_or]
      constructor
      · rintro ⟨u, hu, huv⟩
        obtain ⟨hun, hud⟩ := (((h.lev _ le_rfl).2 u).1 hu)
        have hwalk : Walk a (s.rls.level + 1) root v := ⟨u, hud.1, huv⟩
        obtain ⟨d, hd, hdd⟩ := exists_dist hwalk
        by_cases hdl : d = s.rls.level + 1
        · rw [← hdl]; exact hdd
        · exact absurd ((h.nodes v).2 ⟨hv, d, by omega, hdd⟩) hn
      · intro hd
        obtain ⟨w, hwd, hvw⟩ := hd.pred
        exact ⟨w, ((h.lev _ le_rfl).2 w).2 ⟨hwd.1.lt hw hr, hwd⟩, hvw⟩
  unfold body
  simp only
  generalize hls : (List.range a.nN).foldl
        (fun ls iN => if s.nodes iN then Function.update ls iN false else ls)
        ((s.rls.lev s.rls.level).foldl (fun ls node => mark (a.irow node) ls)
          (fun _ => false)) = ls at hnew
  refine ⟨?_, ?_, ?_⟩
  · intro k hk
    simp only at hk ⊢
    by_cases hkl : k = s.rls.level + 1
    · subst hkl
      rw [Function.update_self]
      refine ⟨List.Pairwise.filter _ List.pairwise_lt_range, fun v => ?_⟩
      rw [List.mem_filter, List.mem_range]
      constructor
      · rintro ⟨h1, h2⟩; exact ⟨h1, (hnew v h1).1 h2⟩
      · rintro ⟨h1, h2⟩; exact ⟨h1, (hnew v h1).2 h2⟩
    · rw [Function.update_of_ne hkl]
      exact h.lev k (by omega)
  · intro v
    simp only
    rw [foldl_set]
    simp only [List.mem_range]
    constructor
    · intro hc
      by_cases hl : v < a.nN ∧ ls v = true
      · exact ⟨hl.1, _, le_rfl, (hnew v hl.1).1 hl.2⟩
      · rw [if_neg hl] at hc
        obtain ⟨h1, k, h2, h3⟩ := (h.nodes v).1 hc
        exact ⟨h1, k, by omega, h3⟩
    · rintro ⟨hv, k, hk, hd⟩
      by_cases hkl : k = s.rls.level + 1
      · subst hkl
        rw [if_pos ⟨hv, (hnew v hv).2 hd⟩]
      · have := (h.nodes v).2 ⟨hv, k, by omega, hd⟩
        split
        · rfl
        · exact this
  · simp only
    rw [h.nE]
    have hf : (List.range a.nN).filter ((List.range a.nN).foldl
        (fun ns iN => if ls iN then Function.update ns iN true else ns) s.nodes) =
        (List.range a.nN).filter fun v => s.nodes v || ls v := by
      apply List.filter_congr
      intro v hv
      rw [foldl_set]
      cases hl : ls v <;> simp [hv]
    rw [hf, filter_or_length]
    intro v hv ⟨h1, h2⟩
    obtain ⟨-, k, hk, hd⟩ := (h.nodes v).1 h1
    have := hd.unique ((hnew v (List.mem_range.1 hv)).1 h2)
    omega

/-- What the loop returns satisfies the invariant and contains all nodes. -/
theorem loop_spec (a : Adj) (hw : WellFormed a) (root : ℕ) (hr : root < a.nN) (fuel : ℕ)
    (s : State) (h : Inv a root s) (r : RLS) (hl : loop a fuel s = some r) :
    ∃ s', Inv a root s' ∧ s'.rls = r ∧ ¬ s'.nE < a.nN := by
  induction fuel generalizing s with
  | zero =>
    unfold loop at hl
    split at hl
    · cases hl
    · rename_i hn
      simp only [Option.some.injEq] at hl
      exact ⟨s, h, hl, hn⟩
  | succ n ih =>
    unfold loop at hl
    split at hl
    · exact ih _ (inv_body a hw root hr s h) hl
    · rename_i hn
      simp only [Option.some.injEq] at hl
      exact ⟨s, h, hl, hn⟩

theorem all_of_count {n : ℕ} {p : ℕ → Bool} (h : ¬ ((List.range n).filter p).length < n) :
    ∀ v < n, p v = true := by
  intro v hv
  by_contra hc
  apply h
  calc ((List.range n).filter p).length < (List.range n).length := by
        apply List.length_filter_lt_length_iff_exists.2
        exact ⟨v, List.mem_range.2 hv, by simpa using hc⟩
    _ = n := List.length_range

theorem count_of_all {n : ℕ} {p : ℕ → Bool} (h : ∀ v < n, p v = true) :
    ¬ ((List.range n).filter p).length < n := by
  rw [List.filter_eq_self.2 (fun v hv => h v (List.mem_range.1 hv)), List.length_range]
  exact lt_irrefl n

theorem body_level (a : Adj) (s : State) : (body a s).rls.level = s.rls.level + 1 := rfl

/-- With enough fuel the loop ends if all nodes can be reached within `D` steps. -/
theorem loop_terminates (a : Adj) (hw : WellFormed a) (root : ℕ) (hr : root < a.nN) (D : ℕ)
    (hD : ∀ v < a.nN, ∃ k ≤ D, IsDist a root v k) (fuel : ℕ) (s : State) (h : Inv a root s)
    (hf : D ≤ s.rls.level + fuel) : ∃ r, loop a fuel s = some r := by
  induction fuel generalizing s with
  | zero =>
    unfold loop
    rw [if_neg]
    · exact ⟨_, rfl⟩
    · rw [h.nE]
      apply count_of_all
      intro v hv
      obtain ⟨k, hk, hd⟩ := hD v hv
      exact (h.nodes v).2 ⟨hv, k, by omega, hd⟩
  | succ n ih =>
    unfold loop
    split
    · exact ih _ (inv_body a hw root hr s h) (by rw [body_level]; omega)
    · exact ⟨_, rfl⟩

/-- If a node cannot be reached, the loop never ends. -/
theorem loop_diverges (a : Adj) (hw : WellFormed a) (root : ℕ) (hr : root < a.nN) (v : ℕ)
    (hv : v < a.nN) (hun : ∀ k, ¬ Walk a k root v) (fuel : ℕ) (s : State) (h : Inv a root s) :
    loop a fuel s = none := by
  have hlt : ∀ s, Inv a root s → s.nE < a.nN := by
    intro s h
    by_contra hc
    rw [h.nE] at hc
    obtain ⟨-, k, -, hd⟩ := (h.nodes v).1 (all_of_count hc v hv)
    exact hun k hd.1
  induction fuel generalizing s with
  | zero => unfold loop; rw [if_pos (hlt s h)]
  | succ n ih =>
    unfold loop
    rw [if_pos (hlt s h)]
    exact ih _ (inv_body a hw root hr s h)

/-- The last level that is entered is not empty: not all nodes were there before. -/
theorem loop_last (a : Adj) (hw : WellFormed a) (root : ℕ) (hr : root < a.nN) (fuel : ℕ)
    (s : State) (h : Inv a root s) (r : RLS) (hl : loop a fuel s = some r)
    (hne : s.rls.lev s.rls.level ≠ []) : r.lev r.level ≠ [] := by
  -- generalise: either no pass is made or the state before the last pass lacks a node
  induction fuel generalizing s with
  | zero =>
    unfold loop at hl
    split at hl
    · cases hl
    · simp only [Option.some.injEq] at hl; rw [← hl]; exact hne
  | succ n ih =>
    unfold loop at hl
    by_cases hlt : s.nE < a.nN
    · rw [if_pos hlt] at hl
      by_cases hemp : (body a s).rls.lev (body a s).rls.level = []
      · -- nothing new: then some node is unreachable and the loop would not end
        exfalso
        have hinv := inv_body a hw root hr s h
        have hno : ∀ v, ¬ IsDist a root v (s.rls.level + 1) := by
          intro v hd
          have := ((hinv.lev _ le_rfl).2 v).2 ⟨hd.1.lt hw hr, hd⟩
          rw [hemp] at this
          exact absurd this (List.not_mem_nil)
        obtain ⟨s', hs', -, hn'⟩ := loop_spec a hw root hr n (body a s) hinv r hl
        have hall : ∀ v < a.nN, s.nodes v = true := by
          intro v hv
          rw [hs'.nE] at hn'
          obtain ⟨-, k, -, hd⟩ := (hs'.nodes v).1 (all_of_count hn' v hv)
          refine (h.nodes v).2 ⟨hv, k, ?_, hd⟩
          by_contra hk
          obtain ⟨w, hw'⟩ := hd.earlier (j := s.rls.level + 1) (by omega)
          exact hno w hw'
        rw [h.nE] at hlt
        exact count_of_all hall hlt
      · exact ih _ (inv_body a hw root hr s h) hl hemp
    · rw [if_neg hlt] at hl
      simp only [Option.some.injEq] at hl; rw [← hl]; exact hne

/-- All nodes can be reached from all nodes. -/
def Connected (a : Adj) : Prop := ∀ u < a.nN, ∀ v < a.nN, ∃ k, Walk a k u v

/-- A common bound of all distances. -/
theorem exists_bound (a : Adj) (hc : Connected a) :
    ∃ D, ∀ u < a.nN, ∀ v < a.nN, ∃ k ≤ D, IsDist a u v k := by
  have h1 : ∀ u v : Fin a.nN, ∃ k, IsDist a u v k := by
    intro u v
    obtain ⟨k, hk⟩ := hc u u.isLt v v.isLt
    obtain ⟨d, -, hd⟩ := exists_dist hk
    exact ⟨d, hd⟩
  choose d hd using h1
  refine ⟨Finset.univ.sup fun p : Fin a.nN × Fin a.nN => d p.1 p.2, fun u hu v hv => ?_⟩
  refine ⟨d ⟨u, hu⟩ ⟨v, hv⟩, ?_, hd ⟨u, hu⟩ ⟨v, hv⟩⟩
  exact Finset.le_sup (f := fun p : Fin a.nN × Fin a.nN => d p.1 p.2)
    (Finset.mem_univ (⟨u, hu⟩, ⟨v, hv⟩))

/-! ### Level structures -/

/-- The dictionary as the list of its values. -/
def RLS.toList (r : RLS) : List (List ℕ) := (List.range (r.level + 1)).map r.lev

/-- The partition of the nodes by their distance from `root`. -/
structure IsLevelStructure (a : Adj) (root : ℕ) (levels : List (List ℕ)) : Prop where
  sorted : ∀ (k : ℕ) (l : List ℕ), levels[k]? = some l → l.Pairwise (· < ·)
  mem : ∀ (k : ℕ) (l : List ℕ), levels[k]? = some l →
    ∀ v, v ∈ l ↔ v < a.nN ∧ IsDist a root v k
  cover : ∀ v < a.nN, ∃ (k : ℕ) (l : List ℕ), levels[k]? = some l ∧ v ∈ l
  nonempty : ∀ l ∈ levels, l ≠ []

theorem toList_get (r : RLS) (k : ℕ) (l : List ℕ) :
    r.toList[k]? = some l ↔ k ≤ r.level ∧ r.lev k = l := by
  unfold RLS.toList
  rw [List.getElem?_map]
  by_cases hk : k < r.level + 1
  · rw [List.getElem?_range hk]
    simp only [Option.map_some, Option.some.injEq]
    constructor
    · intro h; exact ⟨by omega, h⟩
    · intro h; exact h.2
  · rw [List.getElem?_eq_none (by simpa using hk)]
    simp only [Option.map_none, reduceCtorEq, false_iff]
    intro h; omega

theorem toList_length (r : RLS) : r.toList.length = r.level + 1 := by simp [RLS.toList]

theorem rls_spec (a : Adj) (hw : WellFormed a) (root : ℕ) (hr : root < a.nN) (fuel : ℕ) (r : RLS)
    (h : rootedLevelStructure a fuel root = some r) : IsLevelStructure a root r.toList := by
  obtain ⟨s, hs, hsr, hn⟩ := loop_spec a hw root hr fuel _ (inv_start a root hr) r h
  have hlast := loop_last a hw root hr fuel _ (inv_start a root hr) r h (by simp [start])
  rw [hs.nE] at hn
  have hall := all_of_count hn
  subst hsr
  refine ⟨?_, ?_, ?_, ?_⟩
  · intro k l hk
    obtain ⟨hkl, rfl⟩ := (toList_get _ k l).1 hk
    exact (hs.lev k hkl).1
  · intro k l hk
    obtain ⟨hkl, rfl⟩ := (toList_get _ k l).1 hk
    exact (hs.lev k hkl).2
  · intro v hv
    obtain ⟨-, k, hk, hd⟩ := (hs.nodes v).1 (hall v hv)
    exact ⟨k, _, (toList_get _ k _).2 ⟨hk, rfl⟩, ((hs.lev k hk).2 v).2 ⟨hv, hd⟩⟩
  · intro l hl hnil
    obtain ⟨k, hk⟩ := List.mem_iff_getElem?.1 hl
    obtain ⟨hkl, rfl⟩ := (toList_get _ k l).1 hk
    obtain ⟨v, hv⟩ := List.exists_mem_of_ne_nil _ hlast
    obtain ⟨-, hd⟩ := ((hs.lev _ le_rfl).2 v).1 hv
    obtain ⟨w, hwd⟩ := hd.earlier hkl
    have := ((hs.lev k hkl).2 w).2 ⟨hwd.1.lt hw hr, hwd⟩
    rw [hnil] at this
    exact List.not_mem_nil this

theorem IsLevelStructure.level_eq {a : Adj} {root : ℕ} {l l' : List (List ℕ)}
    (h : IsLevelStructure a root l) (h' : IsLevelStructure a root l') (k : ℕ) (x x' : List ℕ)
    (hx : l[k]? = some x) (hx' : l'[k]? = some x') : x = x' := by
  apply List.Perm.eq_of_pairwise (le := (· < ·))
  · intro p q _ _ h1 h2; exact absurd h1 (by omega)
  · exact h.sorted k x hx
  · exact h'.sorted k x' hx'
  · apply (List.perm_ext_iff_of_nodup ?_ ?_).2
    · intro v; rw [h.mem k x hx, h'.mem k x' hx']
    · exact (h.sorted k x hx).imp (fun hlt => by omega)
    · exact (h'.sorted k x' hx').imp (fun hlt => by omega)

theorem IsLevelStructure.length_le {a : Adj} {root : ℕ} {l l' : List (List ℕ)}
    (h : IsLevelStructure a root l) (h' : IsLevelStructure a root l') : l.length ≤ l'.length := by
  by_contra hc
  have hlt : l'.length < l.length := by omega
  have hx : l[l'.length]? = some l[l'.length] := List.getElem?_eq_getElem hlt
  obtain ⟨v, hv⟩ := List.exists_mem_of_ne_nil _
    (h.nonempty _ (List.mem_of_getElem? hx))
  obtain ⟨hvn, hd⟩ := (h.mem _ _ hx v).1 hv
  obtain ⟨k, y, hy, hvy⟩ := h'.cover v hvn
  have hk := ((h'.mem k y hy v).1 hvy).2.unique hd
  have := (List.getElem?_eq_some_iff.1 hy).1
  omega

/-- The level structure of a root is unique. -/
theorem IsLevelStructure.unique {a : Adj} {root : ℕ} {l l' : List (List ℕ)}
    (h : IsLevelStructure a root l) (h' : IsLevelStructure a root l') : l = l' := by
  apply List.ext_getElem (le_antisymm (h.length_le h') (h'.length_le h))
  intro k h1 h2
  exact h.level_eq h' k _ _ (List.getElem?_eq_getElem h1) (List.getElem?_eq_getElem h2)

/-! ### The search -/

/-- The largest level. -/
def widthOf (levels : List (List ℕ)) : ℕ := (levels.map List.length).foldl max 0

theorem lengthWidth_eq (r : RLS) : lengthWidth r = (r.toList.length, widthOf r.toList) := by
  unfold lengthWidth widthOf
  rw [toList_length]
  congr 1
  unfold RLS.toList
  rw [List.map_map, List.foldl_map]
  rfl

theorem foldl_max_le (l : List ℕ) (b n : ℕ) (hb : b ≤ n) (h : ∀ x ∈ l, x ≤ n) :
    l.foldl max b ≤ n := by
  induction l generalizing b with
  | nil => exact hb
  | cons x t ih =>
    rw [List.foldl_cons]
    exact ih _ (max_le hb (h x List.mem_cons_self)) fun y hy => h y (List.mem_cons_of_mem _ hy)

theorem width_le {a : Adj} {root : ℕ} {l : List (List ℕ)} (h : IsLevelStructure a root l) :
    widthOf l ≤ a.nN := by
  apply foldl_max_le _ _ _ (Nat.zero_le _)
  intro x hx
  obtain ⟨y, hy, rfl⟩ := List.mem_map.1 hx
  obtain ⟨k, hk⟩ := List.mem_iff_getElem?.1 hy
  have hnd : y.Nodup := (h.sorted k y hk).imp (fun hlt => by omega)
  have hsub : y ⊆ List.range a.nN := fun v hv => List.mem_range.2 ((h.mem k y hk v).1 hv).1
  have := (List.subperm_of_subset hnd hsub).length_le
  simpa using this

/-- How far the search has come. -/
def pot (a : Adj) (s : Search) : ℕ := s.length * (a.nN + 2) + (a.nN + 1 - s.width)

/-- The state belongs to a level structure. -/
def SInv (a : Adj) (s : Search) : Prop :=
  ∃ root < a.nN, IsLevelStructure a root s.rls.toList ∧ (s.length, s.width) = lengthWidth s.rls

/-- The structure `i` is deeper than that of the state or equally deep and narrower. -/
def Better (i : RLS) (s : Search) : Prop :=
  (lengthWidth i).1 > s.length ∨ ((lengthWidth i).1 = s.length ∧ (lengthWidth i).2 < s.width)

theorem pot_lt (a : Adj) (root : ℕ) (i : RLS) (s : Search) (hi : IsLevelStructure a root i.toList)
    (hb : Better i s) : pot a s < pot a ⟨i, (lengthWidth i).1, (lengthWidth i).2, true⟩ := by
  have hw : (lengthWidth i).2 ≤ a.nN := by rw [lengthWidth_eq]; exact width_le hi
  unfold pot
  rcases hb with h | ⟨h1, h2⟩
  · have : (s.length + 1) * (a.nN + 2) ≤ (lengthWidth i).1 * (a.nN + 2) :=
      Nat.mul_le_mul_right _ h
    have h3 : (s.length + 1) * (a.nN + 2) = s.length * (a.nN + 2) + (a.nN + 2) := Nat.succ_mul _ _
    show _ < (lengthWidth i).1 * (a.nN + 2) + (a.nN + 1 - (lengthWidth i).2)
    omega
  · show _ < (lengthWidth i).1 * (a.nN + 2) + (a.nN + 1 - (lengthWidth i).2)
    rw [h1]
    omega

theorem inner_spec (a : Adj) (fuel : ℕ) (hw : WellFormed a)
    (hR : ∀ u < a.nN, ∃ r, rootedLevelStructure a fuel u = some r) (nodes : List ℕ)
    (hn : ∀ u ∈ nodes, u < a.nN) (s : Search) (hs : SInv a s) :
    ∃ s', nodes.foldlM (searchStep a fuel) s = some s' ∧ SInv a s' ∧ s.length ≤ s'.length ∧
      (s'.found = false → s' = s ∧ ∀ u ∈ nodes, ∀ r, rootedLevelStructure a fuel u = some r →
        ¬ Better r s) ∧
      (s' = s ∨ (pot a s < pot a s' ∧ s'.found = true)) := by
  induction nodes generalizing s with
  | nil => exact ⟨s, rfl, hs, le_rfl, fun _ => ⟨rfl, by simp⟩, Or.inl rfl⟩
  | cons u t ih =>
    have hu := hn u List.mem_cons_self
    have ht := fun v hv => hn v (List.mem_cons_of_mem _ hv)
    obtain ⟨r, hr⟩ := hR u hu
    have hspec := rls_spec a hw u hu fuel r hr
    by_cases hb : Better r s
    · have hstep : searchStep a fuel s u =
          some ⟨r, (lengthWidth r).1, (lengthWidth r).2, true⟩ := by
        unfold searchStep
        rw [hr]
        simp only [Option.bind_eq_bind, Option.bind_some]
        exact if_pos hb
      have hinv : SInv a ⟨r, (lengthWidth r).1, (lengthWidth r).2, true⟩ := ⟨u, hu, hspec, rfl⟩
      obtain ⟨s', h1, h2, h3, h4, h5⟩ := ih ht _ hinv
      have hp := pot_lt a u r s hspec hb
      have hlen : s.length ≤ (lengthWidth r).1 := by rcases hb with h | h <;> omega
      refine ⟨s', ?_, h2, le_trans hlen h3, ?_, ?_⟩
      · rw [List.foldlM_cons, hstep]; exact h1
      · intro hf
        have := (h4 hf).1
        rw [this] at hf
        cases hf
      · right
        rcases h5 with h5 | h5
        · rw [h5]; exact ⟨hp, rfl⟩
        · exact ⟨lt_trans hp h5.1, h5.2⟩
    · have hstep : searchStep a fuel s u = some s := by
        unfold searchStep
        rw [hr]
        simp only [Option.bind_eq_bind, Option.bind_some]
        exact if_neg hb
      obtain ⟨s', h1, h2, h3, h4, h5⟩ := ih ht s hs
      refine ⟨s', ?_, h2, h3, ?_, h5⟩
      · rw [List.foldlM_cons, hstep]; exact h1
      · intro hf
        refine ⟨(h4 hf).1, ?_⟩
        intro v hv r' hr'
        rcases List.mem_cons.1 hv with rfl | hv
        · rw [hr] at hr'
          cases hr'
          exact hb
        · exact (h4 hf).2 v hv r' hr'

theorem search_spec (a : Adj) (fuel : ℕ) (hw : WellFormed a)
    (hR : ∀ u < a.nN, ∃ r, rootedLevelStructure a fuel u = some r) (B : ℕ)
    (hB : ∀ s, SInv a s → pot a s ≤ B) (fuel' : ℕ) (s : Search) (hs : SInv a s)
    (hf : B < pot a s + fuel') :
    ∃ s', search a fuel fuel' s =
        some (s'.rls.lev s'.rls.level ++ (s'.rls.lev 0).take 1) ∧ SInv a s' ∧
      s.length ≤ s'.length ∧ ∀ u ∈ s'.rls.lev s'.rls.level, ∀ r,
        rootedLevelStructure a fuel u = some r → ¬ Better r s' := by
  induction fuel' generalizing s with
  | zero => have := hB s hs; omega
  | succ n ih =>
    obtain ⟨root, hroot, hls, hlw⟩ := hs
    have hs0 : SInv a { s with found := false } := ⟨root, hroot, hls, hlw⟩
    have hn : ∀ u ∈ s.rls.lev s.rls.level, u < a.nN := fun u hu =>
      ((hls.mem s.rls.level _ ((toList_get _ _ _).2 ⟨le_rfl, rfl⟩) u).1 hu).1
    obtain ⟨s', h1, h2, h3, h4, h5⟩ := inner_spec a fuel hw hR _ hn _ hs0
    unfold search
    simp only [h1, Option.bind_eq_bind, Option.bind_some]
    cases hfd : s'.found with
    | true =>
      have hp : pot a s < pot a s' := by
        rcases h5 with h5 | h5
        · rw [h5] at hfd; cases hfd
        · exact h5.1
      obtain ⟨s'', e1, e2, e3, e4⟩ := ih s' h2 (by omega)
      exact ⟨s'', by simpa using e1, e2, le_trans h3 e3, e4⟩
    | false =>
      obtain ⟨e1, e2⟩ := h4 hfd
      refine ⟨s', by simp, h2, h3, ?_⟩
      rw [e1]
      exact e2

end Verif.Graph
