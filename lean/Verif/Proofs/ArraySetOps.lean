import Verif.Model.ArraySetOps
import Verif.Proofs.Utils

set_option linter.unusedSectionVars false

namespace Verif.ASO
open Verif

theorem npUnique_mem (l : List ℤ) (v : ℤ) : v ∈ npUnique l ↔ v ∈ l := by
  simp [npUnique, List.mem_mergeSort]

theorem npUnique_nodup (l : List ℤ) : (npUnique l).Nodup := List.nodup_dedup _

theorem npUnique_sorted (l : List ℤ) : (npUnique l).Pairwise (· < ·) := by
  have h1 : (l.mergeSort (fun a b => decide (a ≤ b))).Pairwise (· ≤ ·) := by
    have := List.pairwise_mergeSort (le := fun a b : ℤ => decide (a ≤ b))
      (fun a b c h1 h2 => by simp at *; omega) (fun a b => by simp; omega) l
    simpa using this
  have h2 : (npUnique l).Pairwise (· ≤ ·) := h1.sublist (List.dedup_sublist _)
  have h3 := npUnique_nodup l
  exact (h2.and h3).imp (fun ⟨a, b⟩ => lt_of_le_of_ne a b)

/-- Folding `update` over the positions of a duplicate-free key list. -/
theorem foldl_dict {β : Type} (u : List ℤ) (hu : u.Nodup) (f : ℕ → β) (n : ℕ) (hn : n ≤ u.length) (v : ℤ) :
    ((List.range n).foldl (fun (m : ℤ → Option β) i => Function.update m (u.getD i 0) (some (f i)))
      (fun _ => none)) v = if u.idxOf v < n then some (f (u.idxOf v)) else none := by
  induction n with
  | zero => simp
  | succ n ih =>
    rw [List.range_succ, List.foldl_append]
    simp only [List.foldl_cons, List.foldl_nil]
    have hg : u.getD n 0 = u[n] := by simp [List.getD_eq_getElem?_getD, show n < u.length by omega]
    rw [hg]
    by_cases h : v = u[n]
    · subst h
      rw [Function.update_self, hu.idxOf_getElem]
      simp
    · rw [Function.update_of_ne h, ih (by omega)]
      have : u.idxOf v ≠ n := by
        intro he
        apply h
        have h1 : u.idxOf v < u.length := by omega
        have := List.getElem_idxOf h1
        rw [← this]
        simp only [he]
      by_cases h2 : u.idxOf v < n
      · rw [if_pos h2, if_pos (by omega)]
      · rw [if_neg h2, if_neg (by omega)]

theorem mkImap_eq (u : List ℤ) (hu : u.Nodup) (v : ℤ) (h : v ∈ u) : mkImap u v = some (u.idxOf v) := by
  unfold mkImap
  rw [foldl_dict u hu (fun i => i) _ le_rfl, if_pos (List.idxOf_lt_length_iff.mpr h)]

theorem mkIndices_eq {P : Type} (zero : P) (u : List ℤ) (hu : u.Nodup) (counts : List ℕ) (v : ℤ) :
    mkIndices zero u counts v =
      if v ∈ u then some (List.replicate (counts.getD (u.idxOf v) 0) zero) else none := by
  unfold mkIndices
  rw [foldl_dict u hu (fun i => List.replicate (counts.getD i 0) zero) _ le_rfl]
  simp only [List.idxOf_lt_length_iff]

/-- First loop. -/
theorem countLoop_eq (u : List ℤ) (hu : u.Nodup) (flat : List ℤ) (hmem : ∀ v ∈ flat, v ∈ u) (n : ℕ)
    (hn : n ≤ flat.length) :
    countLoop (mkImap u) flat n (List.replicate u.length 0, List.replicate flat.length 0) =
      .ok (u.map (fun v => (flat.take n).count v),
        (flat.take n).map (fun v => u.idxOf v) ++ List.replicate (flat.length - n) 0) := by
  induction n with
  | zero =>
    simp only [countLoop, List.range_zero, List.foldlM_nil, List.take_zero, List.count_nil,
      List.map_const', List.map_nil, List.nil_append, Nat.sub_zero]
    rfl
  | succ n ih =>
    unfold countLoop at ih ⊢
    rw [List.range_succ, List.foldlM_append, ih (by omega)]
    have hlt : n < flat.length := by omega
    have hg : flat.getD n 0 = flat[n] := by simp [List.getD_eq_getElem?_getD, hlt]
    have hm : flat[n] ∈ u := hmem _ (List.getElem_mem hlt)
    have hk := mkImap_eq u hu flat[n] hm
    have hidx : u.idxOf flat[n] < u.length := List.idxOf_lt_length_iff.mpr hm
    simp only [List.foldlM_cons, List.foldlM_nil, hg]
    have hd : dictGet (mkImap u) flat[n] = .ok (u.idxOf flat[n]) := by simp [dictGet, hk]
    rw [hd]
    refine congrArg Except.ok ?_
    have hT := List.take_succ_eq_append_getElem hlt
    have hlen : (flat.take n).length = n := by simp; omega
    generalize flat.take (n + 1) = T at hT
    generalize flat.take n = S at hT hlen
    subst hT
    refine Prod.ext ?_ ?_
    · simp only
      apply List.ext_getElem?
      intro i
      rw [List.getElem?_set]
      by_cases hi : i < u.length
      · by_cases he : u.idxOf flat[n] = i
        · subst he
          simp only [List.getD_eq_getElem?_getD]
          simp [hi]
        · have hne : u[i] ≠ flat[n] := by
            intro h2
            apply he
            rw [← h2, hu.idxOf_getElem]
          rw [if_neg he]
          simp [hi, List.count_cons, hne.symm]
      · have : u.idxOf flat[n] ≠ i := by omega
        rw [if_neg this]
        simp [hi]
    · simp only
      have h1 : (S.map (fun v => u.idxOf v)).length = n := by simpa using hlen
      rw [List.set_append, if_neg (by omega), h1, Nat.sub_self]
      obtain ⟨k, hk⟩ : ∃ k, flat.length - n = k + 1 := ⟨flat.length - n - 1, by omega⟩
      rw [hk, show flat.length - (n + 1) = k by omega, List.replicate_succ, List.set_cons_zero]
      simp

/-- Second loop: `qs` have been visited, `ps` are still to come. -/
theorem indexLoop_eq {P : Type} (zero : P) (u : List ℤ) (hu : u.Nodup) (key : P → ℤ) (inv : P → ℕ)
    (ps : List P) (hinv : ∀ p ∈ ps, key p ∈ u ∧ inv p = u.idxOf (key p)) (qs : List P)
    (s : List ℕ × (ℤ → Option (List P)))
    (h1 : s.1 = u.map (fun v => (qs.filter (fun p => key p = v)).length))
    (h2 : ∀ v, s.2 v = if v ∈ u then some (qs.filter (fun p => key p = v) ++
      List.replicate ((ps.filter (fun p => key p = v)).length) zero) else none) :
    ∃ t, indexLoop u inv ps s = .ok t ∧
      t.1 = u.map (fun v => ((qs ++ ps).filter (fun p => key p = v)).length) ∧
      ∀ v, t.2 v = if v ∈ u then some ((qs ++ ps).filter (fun p => key p = v)) else none := by
  induction ps generalizing qs s with
  | nil =>
    refine ⟨s, rfl, by simpa using h1, fun v => ?_⟩
    simpa using h2 v
  | cons p ps ih =>
    obtain ⟨hp1, hp2⟩ := hinv p (by simp)
    have hlt : u.idxOf (key p) < u.length := List.idxOf_lt_length_iff.mpr hp1
    have hget : u.getD (inv p) 0 = key p := by
      rw [hp2, List.getD_eq_getElem?_getD, List.getElem?_eq_getElem hlt]
      simp
    have hcnt : s.1.getD (inv p) 0 = (qs.filter (fun q => key q = key p)).length := by
      rw [h1, hp2, List.getD_eq_getElem?_getD, List.getElem?_map, List.getElem?_eq_getElem hlt]
      simp
    have hl : dictGet s.2 (key p) = .ok (qs.filter (fun q => key q = key p) ++
        List.replicate (((p :: ps).filter (fun q => key q = key p)).length) zero) := by
      simp [dictGet, h2, hp1]
    have hstep : indexLoop u inv (p :: ps) s = indexLoop u inv ps
        (s.1.set (inv p) (s.1.getD (inv p) 0 + 1),
          Function.update s.2 (key p) (some ((qs.filter (fun q => key q = key p) ++
            List.replicate (((p :: ps).filter (fun q => key q = key p)).length) zero).set
              (s.1.getD (inv p) 0) p))) := by
      unfold indexLoop
      rw [List.foldlM_cons]
      simp only [hget, hl]
      rfl
    rw [hstep]
    have hset : ((qs.filter (fun q => key q = key p) ++
            List.replicate (((p :: ps).filter (fun q => key q = key p)).length) zero).set
              (s.1.getD (inv p) 0) p) = (qs ++ [p]).filter (fun q => key q = key p) ++
            List.replicate ((ps.filter (fun q => key q = key p)).length) zero := by
      rw [hcnt, List.set_append, if_neg (by omega), Nat.sub_self]
      simp [List.filter_append, List.replicate_succ]
    rw [hset]
    obtain ⟨t, ht, ht1, ht2⟩ := ih (fun q hq => hinv q (by simp [hq])) (qs ++ [p])
      (s.1.set (inv p) (s.1.getD (inv p) 0 + 1),
          Function.update s.2 (key p) (some ((qs ++ [p]).filter (fun q => key q = key p) ++
            List.replicate ((ps.filter (fun q => key q = key p)).length) zero)))
      (by
        simp only
        rw [hcnt, h1, hp2]
        apply List.ext_getElem?
        intro i
        rw [List.getElem?_set]
        by_cases hi : i < u.length
        · by_cases he : u.idxOf (key p) = i
          · subst he
            simp [hi, List.filter_append]
          · have hne : key p ≠ u[i] := by
              intro h3
              apply he
              rw [h3, hu.idxOf_getElem]
            rw [if_neg he]
            simp [hi, List.filter_append, hne]
        · rw [if_neg (by omega)]
          simp [hi])
      (by
        intro v
        simp only
        by_cases hv : v = key p
        · subst hv
          rw [Function.update_self, if_pos hp1]
        · rw [Function.update_of_ne hv, h2 v]
          have : ¬ key p = v := fun h => hv h.symm
          simp [List.filter_append, this])
    refine ⟨t, ht, ?_, ?_⟩
    · simpa using ht1
    · simpa using ht2

theorem product_get {I J : ℕ} {i j : ℕ} (hi : i < I) (hj : j < J) :
    ((List.range I) ×ˢ (List.range J))[i * J + j]? = some (i, j) := by
  have h : ((List.range I) ×ˢ (List.range J)) =
      ((List.range I).map fun i => (List.range J).map fun j => (i, j)).flatten := by
    change List.product _ _ = _
    simp [List.product, List.flatMap]
  rw [h, Utils.flatten_rows_get (J := J) _ (by simp) i j hj]
  simp [hi, hj]

end Verif.ASO
