import Verif.Model.Einsum
import Verif.Proofs.Frames
import Mathlib.Data.List.Sort
import Mathlib.Data.List.Nodup
import Mathlib.Tactic.IntervalCases

/-! # Helper lemmas about `einsum` -/

set_option linter.unusedSectionVars false

namespace Verif.Frames

section
variable {n : ℕ} {K : Type} [Field K] [LinearOrder K] [NeZero n]

theorem letterValue_out {out inner : List ℕ} (hd : out.Nodup) (t : Fin out.length → Fin n)
    (s : Fin inner.length → Fin n) (p : ℕ) (hp : p < out.length) {l : ℕ} (hl : out[p] = l) :
    letterValue out inner t s l = t ⟨p, hp⟩ := by
  unfold letterValue
  have : out.idxOf l = p := by rw [← hl]; exact hd.idxOf_getElem p hp
  rw [dif_pos (by rw [this]; exact hp)]
  congr 1
  exact Fin.ext this

theorem letterValue_inner {out inner : List ℕ} (hd : inner.Nodup) (t : Fin out.length → Fin n)
    (s : Fin inner.length → Fin n) (p : ℕ) (hp : p < inner.length) {l : ℕ} (hl : inner[p] = l)
    (ho : l ∉ out) : letterValue out inner t s l = s ⟨p, hp⟩ := by
  unfold letterValue
  have : inner.idxOf l = p := by rw [← hl]; exact hd.idxOf_getElem p hp
  rw [dif_neg (by rw [List.idxOf_lt_length_iff]; exact ho), dif_pos (by rw [this]; exact hp)]
  congr 1
  exact Fin.ext this

/-- What `einsum` returns, if the letters that occur once and the others are known. -/
theorem einsum_eq (ops : List (EinsumOp n K)) (out inner : List ℕ)
    (hout : out.Pairwise (· < ·)) (hin : inner.Pairwise (· < ·))
    (ho : ∀ l, l ∈ out ↔ (ops.flatMap EinsumOp.letters).count l = 1)
    (hi : ∀ l, l ∈ inner ↔ 1 < (ops.flatMap EinsumOp.letters).count l)
    (h26 : ∀ l ∈ ops.flatMap EinsumOp.letters, l < 26) :
    einsum ops = .ok ⟨out.length, fun t => ∑ s : Fin inner.length → Fin n,
      (ops.map fun o => o.arr fun k => letterValue out inner t s (o.letters.get k)).prod⟩ := by
  have hlt : ∀ l, 0 < (ops.flatMap EinsumOp.letters).count l → l < 26 :=
    fun l hl => h26 l (List.count_pos_iff.1 hl)
  have e1 : ((List.range 26).filter fun l => (ops.flatMap EinsumOp.letters).count l == 1) = out := by
    refine List.Pairwise.eq_of_mem_iff (r := (· < ·)) (List.pairwise_lt_range.filter _) hout fun l => ?_
    rw [List.mem_filter, List.mem_range, ho]
    simp only [beq_iff_eq]
    exact ⟨fun h => h.2, fun h => ⟨hlt l (by omega), h⟩⟩
  have e2 : ((List.range 26).filter fun l => decide (1 < (ops.flatMap EinsumOp.letters).count l)) =
      inner := by
    refine List.Pairwise.eq_of_mem_iff (r := (· < ·)) (List.pairwise_lt_range.filter _) hin fun l => ?_
    rw [List.mem_filter, List.mem_range, hi]
    simp only [decide_eq_true_eq]
    exact ⟨fun h => h.2, fun h => ⟨hlt l (by omega), h⟩⟩
  unfold einsum
  simp only
  rw [if_pos (by simpa only [List.all_eq_true, decide_eq_true_eq] using h26), e1, e2]

/-- Arrays are equal if they have the same number of axes and the same values. -/
theorem arr_ext {p q : ℕ} {x : (Fin p → Fin n) → K} {y : (Fin q → Fin n) → K} (h : q = p)
    (hxy : ∀ t : Fin p → Fin n, x t = y fun k => t (k.cast h)) : (⟨p, x⟩ : Arr n K) = ⟨q, y⟩ := by
  subst h
  congr 1
  funext t
  exact hxy t

theorem sum_cast {p q : ℕ} (h : q = p) (f : (Fin p → Fin n) → K) :
    ∑ s : Fin p → Fin n, f s = ∑ s : Fin q → Fin n, f fun k => s (k.cast h.symm) := by
  subst h
  rfl

theorem prod_range_map {r : ℕ} (f : ℕ → K) (g : Fin r → K) (h : ∀ k : Fin r, f k = g k) :
    ((List.range r).map f).prod = ∏ k, g k := by
  rw [← List.prod_ofFn, List.ofFn_eq_map, ← List.map_coe_finRange_eq_range, List.map_map]
  congr 1
  exact List.map_congr_left fun k _ => h k

/-- The letters of the command that transforms a tensor. -/
theorem transform_letters (Q : Mat n K) (r : ℕ) (a : (Fin r → Fin n) → K) :
    (transformOperands Q r a).flatMap EinsumOp.letters =
      ((List.range r).flatMap fun k => [k, r + k]) ++ List.range' r r := by
  unfold transformOperands
  rw [List.flatMap_append, List.flatMap_map]
  simp

theorem transform_count (r l : ℕ) :
    (((List.range r).flatMap fun k => [k, r + k]) ++ List.range' r r).count l =
      if l < r then 1 else if l < 2 * r then 2 else 0 := by
  have h1 : ∀ m, ((List.range m).flatMap fun k => [k, r + k]).count l =
      (if l < m then 1 else 0) + if r ≤ l ∧ l < r + m then 1 else 0 := by
    intro m
    induction m with
    | zero => simp
    | succ m ih =>
      rw [List.range_succ, List.flatMap_append, List.count_append, ih]
      simp only [List.flatMap_cons, List.flatMap_nil, List.append_nil, List.count_cons, List.count_nil,
        beq_iff_eq]
      split_ifs <;> omega
  rw [List.count_append, h1]
  have h2 : (List.range' r r).count l = if r ≤ l ∧ l < r + r then 1 else 0 := by
    rw [List.Nodup.count (List.nodup_range' ..)]
    simp [List.mem_range'_1]
  rw [h2]
  split_ifs <;> omega

/-- `transform_components` multiplies every index with the matrix. -/
theorem transformLetters_ok (Q : Mat n K) (r : ℕ) (a : (Fin r → Fin n) → K) (hr : r ≤ 13) :
    transformLetters Q ⟨r, a⟩ =
      .ok ⟨r, fun t => ∑ s : Fin r → Fin n, (∏ k, Q (t k) (s k)) * a s⟩ := by
  show einsum (transformOperands Q r a) = _
  rw [einsum_eq _ (List.range r) (List.range' r r) List.pairwise_lt_range (List.pairwise_lt_range' ..)]
  · congr 1
    refine arr_ext (by simp) fun t => ?_
    rw [sum_cast (q := r) (by simp)]
    refine Finset.sum_congr rfl fun s _ => ?_
    unfold transformOperands
    rw [List.map_append, List.prod_append, List.map_map]
    have hout : ∀ k : ℕ, ∀ hk : k < r, letterValue (List.range r) (List.range' r r) t
        (fun k => s (k.cast (by simp))) k = t ⟨k, by simpa using hk⟩ := fun k hk =>
      letterValue_out (List.nodup_range) _ _ k (by simpa using hk) (by simp)
    have hinn : ∀ k : ℕ, ∀ hk : k < r, letterValue (List.range r) (List.range' r r) t
        (fun k => s (k.cast (by simp))) (r + k) = s ⟨k, hk⟩ := fun k hk =>
      letterValue_inner (List.nodup_range' ..) _ _ k (by simpa using hk) (by simp) (by simp)
    congr 1
    · refine prod_range_map _ _ fun k => ?_
      simp only [Function.comp]
      show Q (letterValue _ _ t _ k.val) (letterValue _ _ t _ (r + k.val)) = _
      rw [hout k.val k.isLt, hinn k.val k.isLt]
      rfl
    · simp only [List.map_cons, List.map_nil, List.prod_cons, List.prod_nil, mul_one]
      congr 1
      funext k
      rw [show (List.range' r r).get (k.cast List.length_range'.symm) = r + k.val by simp]
      exact hinn k.val k.isLt
  · intro l
    rw [transform_letters, transform_count, List.mem_range]
    split_ifs <;> simp_all
  · intro l
    rw [transform_letters, transform_count, List.mem_range'_1]
    split_ifs <;> simp <;> omega
  · intro l hl
    rw [transform_letters] at hl
    have := List.count_pos_iff.2 hl
    rw [transform_count] at this
    split_ifs at this <;> omega

theorem transformLetters_refused (Q : Mat n K) (r : ℕ) (a : (Fin r → Fin n) → K) (hr : 13 < r) :
    transformLetters Q ⟨r, a⟩ = .error .value := by
  unfold transformLetters einsum
  simp only
  rw [if_neg]
  rw [transform_letters]
  simp only [List.all_eq_true, decide_eq_true_eq, not_forall]
  exact ⟨2 * r - 1, List.mem_append_right _ (by rw [List.mem_range'_1]; omega), by omega⟩

theorem mem_set_range' {a m i c l : ℕ} (hi : i < m) :
    l ∈ (List.range' a m).set i c ↔ (a ≤ l ∧ l < a + m ∧ l ≠ a + i) ∨ l = c := by
  rw [List.mem_iff_getElem]
  constructor
  · rintro ⟨k, hk, rfl⟩
    rw [List.getElem_set]
    simp only [List.length_set, List.length_range'] at hk
    split_ifs with h
    · exact .inr rfl
    · left
      simp only [List.getElem_range']
      omega
  · rintro (⟨h1, h2, h3⟩ | rfl)
    · refine ⟨l - a, by simp; omega, ?_⟩
      rw [List.getElem_set, if_neg (by omega)]
      simp only [List.getElem_range']
      omega
    · exact ⟨i, by simpa using hi, by simp⟩

theorem mem_erase_range' {a m i l : ℕ} :
    l ∈ (List.range' a m).eraseIdx i ↔ a ≤ l ∧ l < a + m ∧ l ≠ a + i := by
  rw [List.mem_eraseIdx_iff_getElem?]
  constructor
  · rintro ⟨k, hk, h⟩
    rw [List.getElem?_eq_some_iff] at h
    obtain ⟨h1, h2⟩ := h
    simp only [List.length_range', List.getElem_range'] at h1 h2
    omega
  · rintro ⟨h1, h2, h3⟩
    refine ⟨l - a, by omega, ?_⟩
    rw [List.getElem?_eq_some_iff]
    refine ⟨by simp; omega, ?_⟩
    simp only [List.getElem_range']
    omega

theorem count_set_range' {a m i c l : ℕ} (hi : i < m) (hc : a + m ≤ c) :
    ((List.range' a m).set i c).count l = if (a ≤ l ∧ l < a + m ∧ l ≠ a + i) ∨ l = c then 1 else 0 := by
  rw [List.Nodup.count ((List.nodup_range' ..).set (by rw [List.mem_range'_1]; omega))]
  simp only [mem_set_range' hi]

theorem contract_letters (r s : ℕ) (x : (Fin (r + 1) → Fin n) → K) (y : (Fin (s + 1) → Fin n) → K)
    (ax bx : ℕ) :
    (contractOperands ⟨r + 1, x⟩ ⟨s + 1, y⟩ ax bx).flatMap EinsumOp.letters =
      (List.range' 0 (r + 1)).set ax (r + 1 + (s + 1)) ++
        (List.range' (r + 1) (s + 1)).set bx (r + 1 + (s + 1)) := by
  rw [← List.range_eq_range']
  simp [contractOperands]

/-- The contraction: the sum over the common index, the other indices in their order. -/
theorem contract_ok (r s : ℕ) (x : (Fin (r + 1) → Fin n) → K) (y : (Fin (s + 1) → Fin n) → K)
    (ia : Fin (r + 1)) (ib : Fin (s + 1)) (h26 : r + s + 3 ≤ 26) :
    einsum (contractOperands ⟨r + 1, x⟩ ⟨s + 1, y⟩ ia ib) = .ok ⟨r + s, contract x y ia ib⟩ := by
  have ha : ∀ p : Fin r, ∀ h, ((List.range' 0 (r + 1)).eraseIdx ia)[p.val]'h = (ia.succAbove p).val := by
    intro p h
    rw [List.getElem_eraseIdx]
    split_ifs with hlt
    · rw [Fin.succAbove_of_castSucc_lt _ _ (by simpa [Fin.lt_def] using hlt)]
      simp
    · rw [Fin.succAbove_of_le_castSucc _ _ (by simpa [Fin.le_def] using hlt)]
      simp
  have hb : ∀ p : Fin s, ∀ h, ((List.range' (r + 1) (s + 1)).eraseIdx ib)[p.val]'h =
      r + 1 + (ib.succAbove p).val := by
    intro p h
    rw [List.getElem_eraseIdx]
    split_ifs with hlt
    · rw [Fin.succAbove_of_castSucc_lt _ _ (by simpa [Fin.lt_def] using hlt)]
      simp
    · rw [Fin.succAbove_of_le_castSucc _ _ (by simpa [Fin.le_def] using hlt)]
      simp
  set O := (List.range' 0 (r + 1)).eraseIdx ia ++ (List.range' (r + 1) (s + 1)).eraseIdx ib with hO
  have hla : ((List.range' 0 (r + 1)).eraseIdx ia).length = r := by
    rw [List.length_eraseIdx_of_lt (by simpa using ia.isLt)]; simp
  have hlb : ((List.range' (r + 1) (s + 1)).eraseIdx ib).length = s := by
    rw [List.length_eraseIdx_of_lt (by simpa using ib.isLt)]; simp
  have hlen : O.length = r + s := by rw [hO, List.length_append, hla, hlb]
  have hsorted : O.Pairwise (· < ·) := by
    rw [hO, List.pairwise_append]
    refine ⟨(List.pairwise_lt_range' ..).sublist (List.eraseIdx_sublist ..),
      (List.pairwise_lt_range' ..).sublist (List.eraseIdx_sublist ..), fun u hu v hv => ?_⟩
    rw [mem_erase_range'] at hu hv
    omega
  have hO1 : ∀ (p : Fin r) (h : p.val < O.length), O[p.val] = (ia.succAbove p).val := by
    intro p h
    simp only [hO]
    rw [List.getElem_append_left (by rw [hla]; exact p.isLt)]
    exact ha p _
  have hO2 : ∀ (p : Fin s) (h : r + p.val < O.length), O[r + p.val] = r + 1 + (ib.succAbove p).val := by
    intro p h
    simp only [hO]
    rw [List.getElem_append_right (by rw [hla]; omega)]
    simp only [hla, Nat.add_sub_cancel_left]
    exact hb p _
  have hmem : ∀ l, l ∈ O ↔ (l < r + 1 ∧ l ≠ ia) ∨ (r + 1 ≤ l ∧ l < r + 1 + (s + 1) ∧ l ≠ r + 1 + ib) := by
    intro l
    rw [hO, List.mem_append, mem_erase_range', mem_erase_range']
    omega
  have hcount : ∀ l, ((contractOperands ⟨r + 1, x⟩ ⟨s + 1, y⟩ ia ib).flatMap EinsumOp.letters).count l =
      (if (0 ≤ l ∧ l < 0 + (r + 1) ∧ l ≠ 0 + ia) ∨ l = r + 1 + (s + 1) then 1 else 0) +
      if (r + 1 ≤ l ∧ l < r + 1 + (s + 1) ∧ l ≠ r + 1 + ib) ∨ l = r + 1 + (s + 1) then 1 else 0 := by
    intro l
    rw [contract_letters, List.count_append, count_set_range' ia.isLt (by omega),
      count_set_range' ib.isLt le_rfl]
  rw [einsum_eq _ O [r + 1 + (s + 1)] hsorted (by simp)]
  · congr 1
    refine arr_ext hlen.symm fun t => ?_
    unfold contract
    rw [sum_cast (q := 1) (by simp)]
    rw [← (Equiv.funUnique (Fin 1) (Fin n)).symm.sum_comp]
    refine Finset.sum_congr rfl fun c _ => ?_
    have hc : ∀ v : Fin 1 → Fin n, v = (fun _ => c) → letterValue O [r + 1 + (s + 1)] t
        (fun k => v (k.cast (by simp))) (r + 1 + (s + 1)) = c := by
      rintro v rfl
      exact letterValue_inner (by simp) _ _ 0 (by simp) (by simp) (by rw [hmem]; omega)
    have hv : ((Equiv.funUnique (Fin 1) (Fin n)).symm c) = fun _ => c := rfl
    rw [hv]
    simp only [contractOperands, List.map_cons, List.map_nil, List.prod_cons, List.prod_nil, mul_one]
    congr 1
    · congr 1
      refine (Fin.insertNth_eq_iff.2 ⟨?_, ?_⟩).symm
      · show c = letterValue O _ t _ (((List.range (r + 1)).set ia (r + 1 + (s + 1)))[ia.val]'(by simpa using ia.isLt))
        rw [List.getElem_set_self]
        exact (hc _ rfl).symm
      · funext p
        rw [Fin.removeNth_apply]
        show t _ = letterValue O _ t _
          (((List.range (r + 1)).set ia (r + 1 + (s + 1)))[(ia.succAbove p).val]'(by simpa using (ia.succAbove p).isLt))
        rw [List.getElem_set_ne (fun h => Fin.succAbove_ne ia p (Fin.ext h.symm))]
        rw [letterValue_out hsorted.nodup t _ p.val (by rw [hlen]; omega) (by rw [hO1 p]; simp)]
        rfl
    · congr 1
      refine (Fin.insertNth_eq_iff.2 ⟨?_, ?_⟩).symm
      · show c = letterValue O _ t _
          (((List.range' (r + 1) (s + 1)).set ib (r + 1 + (s + 1)))[ib.val]'(by simpa using ib.isLt))
        rw [List.getElem_set_self]
        exact (hc _ rfl).symm
      · funext p
        rw [Fin.removeNth_apply]
        show t _ = letterValue O _ t _
          (((List.range' (r + 1) (s + 1)).set ib (r + 1 + (s + 1)))[(ib.succAbove p).val]'(by simpa using (ib.succAbove p).isLt))
        rw [List.getElem_set_ne (fun h => Fin.succAbove_ne ib p (Fin.ext h.symm))]
        rw [letterValue_out hsorted.nodup t _ (r + p.val) (by rw [hlen]; omega) (by rw [hO2 p]; simp)]
        rfl
  · intro l
    rw [hmem, hcount]
    have := ia.isLt
    have := ib.isLt
    split_ifs <;> simp <;> omega
  · intro l
    rw [hcount, List.mem_singleton]
    split_ifs <;> simp <;> omega
  · intro l hl
    rw [contract_letters, List.mem_append, mem_set_range' ia.isLt, mem_set_range' ib.isLt] at hl
    omega

/-- Too many letters are refused. -/
theorem contract_refused (r s : ℕ) (x : (Fin (r + 1) → Fin n) → K) (y : (Fin (s + 1) → Fin n) → K)
    (ia : Fin (r + 1)) (ib : Fin (s + 1)) (h26 : 26 < r + s + 3) :
    einsum (contractOperands ⟨r + 1, x⟩ ⟨s + 1, y⟩ ia ib) = .error .value := by
  unfold einsum
  simp only
  rw [if_neg]
  rw [contract_letters]
  simp only [List.all_eq_true, decide_eq_true_eq, not_forall]
  exact ⟨r + 1 + (s + 1), List.mem_append_left _ ((mem_set_range' ia.isLt).2 (.inr rfl)), by omega⟩

end
end Verif.Frames
