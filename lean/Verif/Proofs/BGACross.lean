import Verif.Model.BGA
import Mathlib.Data.List.Sort
import Mathlib.Tactic.Linarith

set_option linter.unusedSectionVars false

namespace Verif.BGA

theorem setSlice_length {a b : List ℤ} {lo hi n : ℕ} (ha : a.length = n) (hb : b.length = n)
    (h1 : lo ≤ hi) (h2 : hi ≤ n) : (setSlice a b lo hi).length = n := by
  simp only [setSlice, List.length_append, List.length_take, List.length_drop]
  omega

theorem setSlice_get {a b : List ℤ} {lo hi n : ℕ} (ha : a.length = n) (hb : b.length = n)
    (h1 : lo ≤ hi) (h2 : hi ≤ n) (j : ℕ) (hj : j < n) :
    (setSlice a b lo hi)[j]? = if lo ≤ j ∧ j < hi then b[j]? else a[j]? := by
  unfold setSlice
  by_cases hlo : j < lo
  · rw [if_neg (by omega), List.append_assoc,
      List.getElem?_append_left (by rw [List.length_take]; omega), List.getElem?_take_of_lt hlo]
  · by_cases hhi : j < hi
    · rw [if_pos ⟨by omega, hhi⟩,
        List.getElem?_append_left (by simp only [List.length_append, List.length_take, List.length_drop]; omega),
        List.getElem?_append_right (by rw [List.length_take]; omega), List.getElem?_drop,
        List.length_take, ha, List.getElem?_take_of_lt (by omega)]
      congr 1; omega
    · rw [if_neg (by omega),
        List.getElem?_append_right (by simp only [List.length_append, List.length_take, List.length_drop]; omega),
        List.getElem?_drop]
      congr 1
      simp only [List.length_append, List.length_take, List.length_drop]
      omega

/-- number of elements `≤ j` of a strictly increasing list -/
theorem countP_le_of_sorted {l : List ℕ} (hs : l.Pairwise (· < ·)) {i j : ℕ}
    (hi : i + 1 < l.length) (h1 : l[i]'(by omega) ≤ j) (h2 : j < l[i + 1]) :
    l.countP (· ≤ j) = i + 1 := by
  rw [← List.take_append_drop (i + 1) l, List.countP_append]
  have e1 : (l.take (i + 1)).countP (· ≤ j) = i + 1 := by
    rw [List.countP_eq_length.mpr, List.length_take]
    · omega
    · intro a ha
      obtain ⟨k, hk, rfl⟩ := List.mem_iff_getElem.mp ha
      rw [List.length_take] at hk
      rw [List.getElem_take]
      simp only [decide_eq_true_eq]
      rcases Nat.lt_or_ge k i with hki | hki
      · have := List.pairwise_iff_getElem.mp hs k i (by omega) (by omega) hki
        omega
      · have : k = i := by omega
        subst this; exact h1
  have e2 : (l.drop (i + 1)).countP (· ≤ j) = 0 := by
    rw [List.countP_eq_zero]
    intro a ha
    obtain ⟨k, hk, rfl⟩ := List.mem_iff_getElem.mp ha
    rw [List.length_drop] at hk
    rw [List.getElem_drop]
    simp only [decide_eq_true_eq, not_le]
    rcases Nat.eq_zero_or_pos k with hk0 | hk0
    · subst hk0; exact h2
    · have := List.pairwise_iff_getElem.mp hs (i + 1) (i + 1 + k) (by omega) (by omega) (by omega)
      omega
  rw [e1, e2]

/-- the cut positions in order, with the two ends -/
theorem cuts_sorted {n : ℕ} {cuts : List ℕ} (hn : 3 ≤ n) (hnd : cuts.Nodup)
    (hr : ∀ c ∈ cuts, 1 ≤ c ∧ c < n - 1) :
    (([0, n] ++ cuts).mergeSort).Pairwise (· < ·) ∧
    (([0, n] ++ cuts).mergeSort).length = cuts.length + 2 ∧
    (([0, n] ++ cuts).mergeSort)[0]? = some 0 ∧
    (([0, n] ++ cuts).mergeSort)[cuts.length + 1]? = some n ∧
    (([0, n] ++ cuts).mergeSort).Perm ([0, n] ++ cuts) := by
  have hp : (([0, n] ++ cuts).mergeSort).Perm ([0, n] ++ cuts) := List.mergeSort_perm _ _
  have hle : (([0, n] ++ cuts).mergeSort).Pairwise (· ≤ ·) := List.pairwise_mergeSort' _ _
  have hnd' : ([0, n] ++ cuts).Nodup := by
    simp only [List.cons_append, List.nil_append, List.nodup_cons, List.mem_cons, not_or]
    refine ⟨⟨by omega, fun h => ?_⟩, fun h => ?_, hnd⟩
    · have := hr 0 h; omega
    · have := hr n h; omega
  have hs : (([0, n] ++ cuts).mergeSort).Pairwise (· < ·) := by
    have h2 : (([0, n] ++ cuts).mergeSort).Pairwise (· ≠ ·) := hp.nodup_iff.mpr hnd'
    exact (hle.and h2).imp fun h => lt_of_le_of_ne h.1 h.2
  have hlen : (([0, n] ++ cuts).mergeSort).length = cuts.length + 2 := by
    rw [hp.length_eq]; simp
  generalize hl : ([0, n] ++ cuts).mergeSort = l at *
  have hmem : ∀ a, a ∈ l ↔ a = 0 ∨ a = n ∨ a ∈ cuts := by
    intro a; rw [hp.mem_iff]; simp
  refine ⟨hs, hlen, ?_, ?_, hp⟩
  · rw [List.getElem?_eq_getElem (by omega)]
    congr 1
    obtain ⟨k, hk, hk0⟩ := List.mem_iff_getElem.mp ((hmem 0).mpr (Or.inl rfl))
    rcases Nat.eq_zero_or_pos k with h0 | h0
    · subst h0; exact hk0
    · have := List.pairwise_iff_getElem.mp hs 0 k (by omega) hk h0
      omega
  · rw [List.getElem?_eq_getElem (by omega)]
    congr 1
    obtain ⟨k, hk, hkn⟩ := List.mem_iff_getElem.mp ((hmem n).mpr (Or.inr (Or.inl rfl)))
    have hb : l[cuts.length + 1]'(by omega) ≤ n := by
      have := (hmem _).mp (List.getElem_mem (show cuts.length + 1 < l.length by omega))
      rcases this with h | h | h
      · omega
      · omega
      · have := hr _ h; omega
    rcases Nat.lt_or_ge k (cuts.length + 1) with h0 | h0
    · have := List.pairwise_iff_getElem.mp hs k (cuts.length + 1) hk (by omega) h0
      omega
    · have : k = cuts.length + 1 := by omega
      subst this; exact hkn

/-- which parent position `j` of the first child comes from -/
def fromFirst (cuts : List ℕ) (coin : Bool) (j : ℕ) : Bool :=
  (cuts.countP (· ≤ j) % 2 == 0) == coin

theorem crossLoop_spec {n : ℕ} {cuts : List ℕ} (hn : 3 ≤ n) (hnd : cuts.Nodup)
    (hr : ∀ c ∈ cuts, 1 ≤ c ∧ c < n - 1) (coin : Bool) {p1 p2 : List ℤ}
    (h1 : p1.length = n) (h2 : p2.length = n) (i : ℕ) (hi : i ≤ cuts.length + 1) :
    let all := ([0, n] ++ cuts).mergeSort
    let c := (List.range i).foldl (crossStep all coin p1 p2) (List.replicate n 0, List.replicate n 0)
    c.1.length = n ∧ c.2.length = n ∧
    ∀ j, j < n → j < all.getD i 0 →
      c.1[j]? = (if fromFirst cuts coin j then p1[j]? else p2[j]?) ∧
      c.2[j]? = (if fromFirst cuts coin j then p2[j]? else p1[j]?) := by
  intro all
  obtain ⟨hs, hlen, hfirst, hlast, hp⟩ := cuts_sorted hn hnd hr
  change all.Pairwise (· < ·) at hs
  change all.length = cuts.length + 2 at hlen
  change all[0]? = some 0 at hfirst
  change all[cuts.length + 1]? = some n at hlast
  change all.Perm ([0, n] ++ cuts) at hp
  induction i with
  | zero =>
    refine ⟨by simp, by simp, fun j _ hj => ?_⟩
    rw [List.getD_eq_getElem?_getD, hfirst] at hj
    simp at hj
  | succ i ih =>
    obtain ⟨l1, l2, hget⟩ := ih (by omega)
    have hgi : all.getD i 0 = all[i]'(by omega) := by
      rw [List.getD_eq_getElem?_getD, List.getElem?_eq_getElem (by omega)]; rfl
    have hgi1 : all.getD (i + 1) 0 = all[i + 1]'(by omega) := by
      rw [List.getD_eq_getElem?_getD, List.getElem?_eq_getElem (by omega)]; rfl
    have hlt : all[i]'(by omega) < all[i + 1]'(by omega) :=
      List.pairwise_iff_getElem.mp hs i (i + 1) (by omega) (by omega) (by omega)
    have hle : all[i + 1]'(by omega) ≤ n := by
      have := hp.mem_iff.mp (List.getElem_mem (show i + 1 < all.length by omega))
      simp only [List.cons_append, List.nil_append, List.mem_cons] at this
      rcases this with h | h | h
      · omega
      · omega
      · have := hr _ h; omega
    have hseg : ∀ j, j < n → all[i]'(by omega) ≤ j → j < all[i + 1]'(by omega) →
        fromFirst cuts coin j = ((i % 2 == 0) == coin) := by
      intro j hjn ha hb
      have := countP_le_of_sorted hs (by omega) ha hb
      rw [hp.countP_eq] at this
      simp only [List.cons_append, List.nil_append, List.countP_cons, Nat.zero_le, decide_true,
        if_true, decide_eq_true_eq, show ¬ (n ≤ j) by omega, if_false] at this
      have : cuts.countP (· ≤ j) = i := by omega
      rw [fromFirst, this]
    rw [List.range_succ, List.foldl_append]
    simp only [List.foldl_cons, List.foldl_nil]
    generalize (List.range i).foldl (crossStep all coin p1 p2)
      (List.replicate n 0, List.replicate n 0) = c at l1 l2 hget ⊢
    unfold crossStep
    simp only [hgi, hgi1]
    by_cases hc : ((i % 2 == 0) == coin) = true
    · rw [if_pos hc]
      refine ⟨setSlice_length l1 h1 (by omega) hle, setSlice_length l2 h2 (by omega) hle, ?_⟩
      intro j hjn hj
      rw [setSlice_get l1 h1 (by omega) hle j hjn, setSlice_get l2 h2 (by omega) hle j hjn]
      by_cases hji : all[i]'(by omega) ≤ j
      · have hin : all[i]'(by omega) ≤ j ∧ j < all[i + 1]'(by omega) := ⟨hji, hj⟩
        simp only [if_pos hin, hseg j hjn hji hj, hc, if_true, and_self]
      · have hin : ¬ (all[i]'(by omega) ≤ j ∧ j < all[i + 1]'(by omega)) := fun h => hji h.1
        simp only [if_neg hin]
        exact hget j hjn (by rw [hgi]; omega)
    · rw [if_neg hc]
      refine ⟨setSlice_length l1 h2 (by omega) hle, setSlice_length l2 h1 (by omega) hle, ?_⟩
      intro j hjn hj
      rw [setSlice_get l1 h2 (by omega) hle j hjn, setSlice_get l2 h1 (by omega) hle j hjn]
      by_cases hji : all[i]'(by omega) ≤ j
      · have hin : all[i]'(by omega) ≤ j ∧ j < all[i + 1]'(by omega) := ⟨hji, hj⟩
        simp only [if_pos hin, hseg j hjn hji hj, hc]
        simp
      · have hin : ¬ (all[i]'(by omega) ≤ j ∧ j < all[i + 1]'(by omega)) := fun h => hji h.1
        simp only [if_neg hin]
        exact hget j hjn (by rw [hgi]; omega)

theorem recombine_spec {n : ℕ} {cuts : List ℕ} (hn : 3 ≤ n) (hnd : cuts.Nodup)
    (hr : ∀ c ∈ cuts, 1 ≤ c ∧ c < n - 1) (coin : Bool) {p1 p2 : List ℤ}
    (h1 : p1.length = n) (h2 : p2.length = n) :
    ∃ c1 c2, recombine n cuts coin p1 p2 = .ok (c1, c2) ∧ c1.length = n ∧ c2.length = n ∧
      ∀ j, j < n →
        c1[j]? = (if fromFirst cuts coin j then p1[j]? else p2[j]?) ∧
        c2[j]? = (if fromFirst cuts coin j then p2[j]? else p1[j]?) := by
  obtain ⟨a, b, h⟩ := crossLoop_spec hn hnd hr coin h1 h2 (cuts.length + 1) le_rfl
  obtain ⟨-, -, -, hlast, -⟩ := cuts_sorted hn hnd hr
  refine ⟨_, _, by unfold recombine; rw [if_neg (by omega)], a, b, fun j hj => h j hj ?_⟩
  rw [List.getD_eq_getElem?_getD, hlast]
  exact hj

variable {K : Type} [Field K] [LinearOrder K]

theorem mutate_length {p_m : K} {draws : List K} {child : List ℤ} {n : ℕ}
    (h1 : draws.length = n) (h2 : child.length = n) : (mutate p_m draws child).length = n := by
  simp [mutate, h1, h2]

theorem mutate_get {p_m : K} {draws : List K} {child : List ℤ} {n : ℕ}
    (h1 : draws.length = n) (h2 : child.length = n) (j : ℕ) (hj : j < n) :
    (mutate p_m draws child)[j]? =
      some (if draws[j]'(by omega) > p_m then child[j]'(by omega) else 1 - child[j]'(by omega)) := by
  unfold mutate
  rw [List.getElem?_zipWith, List.getElem?_eq_getElem (by omega), List.getElem?_eq_getElem (by omega)]

/-- a 0/1 string of length `n` -/
def IsBits (n : ℕ) (g : List ℤ) : Prop := g.length = n ∧ ∀ b ∈ g, b = 0 ∨ b = 1

theorem isBits_iff {n : ℕ} {g : List ℤ} :
    IsBits n g ↔ g.length = n ∧ ∀ j, j < n → g[j]? = some 0 ∨ g[j]? = some 1 := by
  constructor
  · rintro ⟨h, hb⟩
    refine ⟨h, fun j hj => ?_⟩
    rw [List.getElem?_eq_getElem (by omega)]
    rcases hb _ (List.getElem_mem (show j < g.length by omega)) with h' | h' <;> simp [h']
  · rintro ⟨h, hb⟩
    refine ⟨h, fun b hb' => ?_⟩
    obtain ⟨j, hj, rfl⟩ := List.mem_iff_getElem.mp hb'
    have := hb j (by omega)
    rw [List.getElem?_eq_getElem hj] at this
    simpa using this

theorem mutate_bits {p_m : K} {draws : List K} {child : List ℤ} {n : ℕ}
    (h1 : draws.length = n) (h2 : IsBits n child) : IsBits n (mutate p_m draws child) := by
  rw [isBits_iff]
  refine ⟨mutate_length h1 h2.1, fun j hj => ?_⟩
  rw [mutate_get h1 h2.1 j hj]
  have := h2.2 _ (List.getElem_mem (show j < child.length by have := h2.1; omega))
  split
  · simpa using this
  · rcases this with h | h <;> simp [h]

theorem crossover_bits {p_c p_m : K} {n : ℕ} (hn : 3 ≤ n) {d : CrossDraw K}
    (hd : IsCrossDraw n d) {p1 p2 : List ℤ} (h1 : IsBits n p1) (h2 : IsBits n p2) :
    ∃ c1 c2, crossover p_c p_m n d p1 p2 = .ok (c1, c2) ∧ IsBits n c1 ∧ IsBits n c2 := by
  unfold crossover
  split
  · exact ⟨p1, p2, rfl, h1, h2⟩
  · rw [if_neg (by simp [h1.1, h2.1])]
    obtain ⟨c1, c2, hc, l1, l2, hget⟩ :=
      recombine_spec hn hd.nodup hd.range (decide (d.coin > 1 / 2)) h1.1 h2.1
    rw [hc]
    refine ⟨_, _, rfl, mutate_bits hd.mut1 ?_, mutate_bits hd.mut2 ?_⟩
    · rw [isBits_iff] at h1 h2 ⊢
      refine ⟨l1, fun j hj => ?_⟩
      rw [(hget j hj).1]
      split
      · exact h1.2 j hj
      · exact h2.2 j hj
    · rw [isBits_iff] at h1 h2 ⊢
      refine ⟨l2, fun j hj => ?_⟩
      rw [(hget j hj).2]
      split
      · exact h2.2 j hj
      · exact h1.2 j hj

end Verif.BGA
