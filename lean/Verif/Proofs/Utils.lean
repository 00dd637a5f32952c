import Verif.Model.Utils
import Mathlib.Data.List.Flatten
import Mathlib.Algebra.Order.BigOperators.Group.List
import Mathlib.Tactic.Ring
import Mathlib.Tactic.Linarith
import Mathlib.Tactic.FieldSimp

/-! # Lemmas about the array utilities -/

set_option linter.unusedSectionVars false

namespace Verif.Utils
open Verif

/-! ## Loops that write single cells -/

theorem foldl_set_length {α : Type} (f : ℕ → α) (sched : List ℕ) (init : List α) :
    (sched.foldl (fun r i => r.set i (f i)) init).length = init.length := by
  induction sched generalizing init with
  | nil => rfl
  | cons i is ih => rw [List.foldl_cons, ih, List.length_set]

theorem foldl_set_get {α : Type} (f : ℕ → α) (sched : List ℕ) (init : List α) (j : ℕ)
    (hj : j < init.length) :
    (sched.foldl (fun r i => r.set i (f i)) init)[j]? =
      if j ∈ sched then some (f j) else init[j]? := by
  induction sched generalizing init with
  | nil => simp
  | cons i is ih =>
    rw [List.foldl_cons, ih _ (by simpa using hj)]
    by_cases h : j ∈ is
    · simp [h]
    · by_cases hij : i = j
      · subst hij; simp [h, hj]
      · have hji : ¬ j = i := fun e => hij e.symm
        simp [h, hij, hji]

theorem foldl_set_schedule {α : Type} (f : ℕ → α) {N : ℕ} {sched : List ℕ}
    (hs : IsSchedule N sched) (init : List α) (hi : init.length = N) :
    sched.foldl (fun r i => r.set i (f i)) init = (List.range N).map f := by
  apply List.ext_getElem?
  intro j
  by_cases hj : j < N
  · rw [foldl_set_get _ _ _ _ (by omega), if_pos (by rw [hs.mem_iff]; simpa using hj)]
    simp [hj]
  · rw [List.getElem?_eq_none (by rw [foldl_set_length]; omega), List.getElem?_eq_none (by simp; omega)]

/-! ## Loops that write slices -/

theorem assignSlice_length {α : Type} (res : List α) (lo : ℕ) (v : List α)
    (h : lo + v.length ≤ res.length) : (assignSlice res lo v).length = res.length := by
  simp only [assignSlice, List.length_append, List.length_take, List.length_drop]
  omega

theorem assignSlice_get {α : Type} (res : List α) (lo : ℕ) (v : List α)
    (h : lo + v.length ≤ res.length) (j : ℕ) :
    (assignSlice res lo v)[j]? =
      if lo ≤ j ∧ j < lo + v.length then v[j - lo]? else res[j]? := by
  have hl : (res.take lo).length = lo := by rw [List.length_take]; omega
  simp only [assignSlice]
  by_cases h1 : j < lo
  · rw [if_neg (by omega), List.append_assoc, List.getElem?_append_left (by omega),
      List.getElem?_take_of_lt h1]
  · rw [List.append_assoc, List.getElem?_append_right (by omega), hl]
    by_cases h2 : j < lo + v.length
    · rw [if_pos ⟨by omega, h2⟩, List.getElem?_append_left (by omega)]
    · rw [if_neg (by omega), List.getElem?_append_right (by omega), List.getElem?_drop]
      congr 1
      omega

theorem foldl_slice {α : Type} (f : ℕ → List α) {M N : ℕ} (hf : ∀ i, (f i).length = M)
    (sched : List ℕ) (hs : ∀ i ∈ sched, i < N) (init : List α) (hi : init.length = N * M) :
    (sched.foldl (fun r i => assignSlice r (i * M) (f i)) init).length = N * M ∧
    ∀ i r, i < N → r < M →
      (sched.foldl (fun r i => assignSlice r (i * M) (f i)) init)[i * M + r]? =
        if i ∈ sched then (f i)[r]? else init[i * M + r]? := by
  induction sched generalizing init with
  | nil => exact ⟨hi, by simp⟩
  | cons k ks ih =>
    have hk : k < N := hs k (by simp)
    have hfit : k * M + (f k).length ≤ init.length := by
      rw [hf, hi]
      calc k * M + M = (k + 1) * M := by ring
        _ ≤ N * M := Nat.mul_le_mul_right _ hk
    obtain ⟨h1, h2⟩ := ih (fun i h => hs i (by simp [h])) (assignSlice init (k * M) (f k))
      (by rw [assignSlice_length _ _ _ hfit, hi])
    refine ⟨by simpa using h1, fun i r hiN hr => ?_⟩
    rw [List.foldl_cons, h2 i r hiN hr]
    by_cases hik : i ∈ ks
    · simp [hik]
    · rw [if_neg hik, assignSlice_get _ _ _ hfit, hf]
      by_cases he : i = k
      · subst he
        rw [if_pos ⟨by omega, by omega⟩, if_pos (by simp)]
        congr 1; omega
      · have : ¬ (k * M ≤ i * M + r ∧ i * M + r < k * M + M) := by
          rintro ⟨a, b⟩
          rcases Nat.lt_or_gt_of_ne he with hlt | hgt
          · have : (i + 1) * M ≤ k * M := Nat.mul_le_mul_right _ hlt
            have : (i + 1) * M = i * M + M := by ring
            omega
          · have : (k + 1) * M ≤ i * M := Nat.mul_le_mul_right _ hgt
            have : (k + 1) * M = k * M + M := by ring
            omega
        rw [if_neg this, if_neg (by simp [he, hik])]

/-- cells of a flat array of `N` blocks of length `M` -/
theorem ext_blocks {α : Type} {N M : ℕ} {a b : List α} (ha : a.length = N * M) (hb : b.length = N * M)
    (h : ∀ i r, i < N → r < M → a[i * M + r]? = b[i * M + r]?) : a = b := by
  apply List.ext_getElem?
  intro j
  by_cases hj : j < N * M
  · have hM : 0 < M := by
      rcases Nat.eq_zero_or_pos M with rfl | h
      · simp at hj
      · exact h
    have := h (j / M) (j % M) (by rw [Nat.div_lt_iff_lt_mul hM]; exact hj) (Nat.mod_lt _ hM)
    rwa [Nat.div_add_mod'] at this
  · rw [List.getElem?_eq_none (by omega), List.getElem?_eq_none (by omega)]

/-! ## Loops with a running index -/

section
variable {K : Type} [Field K] [LinearOrder K] [FloorRing K]

theorem foldl_push {ι : Type} (g : ι → K) (l : List ι) (pre post : List K) (h : l.length ≤ post.length) :
    l.foldl (fun (s : List K × ℕ) x => (s.1.set s.2 (g x), s.2 + 1)) (pre ++ post, pre.length) =
      (pre ++ l.map g ++ post.drop l.length, pre.length + l.length) := by
  induction l generalizing pre post with
  | nil => simp
  | cons x l ih =>
    cases post with
    | nil => simp at h
    | cons p post =>
      rw [List.foldl_cons]
      have h1 : (pre ++ p :: post).set pre.length (g x) = (pre ++ [g x]) ++ post := by
        rw [List.set_append_right _ _ le_rfl]; simp
      simp only [h1]
      have h2 : pre.length + 1 = (pre ++ [g x]).length := by simp
      rw [h2, ih (pre ++ [g x]) post (by simpa using h)]
      simp
      omega

theorem foldl_push2 {ι κ : Type} (g : ι → κ → K) (l : List ι) (m : List κ) (pre post : List K)
    (h : l.length * m.length = post.length) :
    l.foldl (fun (s : List K × ℕ) x =>
        m.foldl (fun s y => (s.1.set s.2 (g x y), s.2 + 1)) s) (pre ++ post, pre.length) =
      (pre ++ (l.map fun x => m.map (g x)).flatten, pre.length + l.length * m.length) := by
  induction l generalizing pre post with
  | nil =>
    have : post = [] := List.eq_nil_of_length_eq_zero (by simpa using h.symm)
    simp [this]
  | cons x l ih =>
    have hlen : m.length + l.length * m.length = post.length := by
      rw [← h, List.length_cons]; ring
    rw [List.foldl_cons, foldl_push (g x) m pre post (by omega)]
    have h2 : pre.length + m.length = (pre ++ m.map (g x)).length := by simp
    rw [h2, ih (pre ++ m.map (g x)) (post.drop m.length) (by rw [List.length_drop]; omega)]
    simp
    ring

theorem flatten_rows_get {α : Type} {J : ℕ} (rows : List (List α)) (hr : ∀ r ∈ rows, r.length = J)
    (i j : ℕ) (hj : j < J) : rows.flatten[i * J + j]? = (rows[i]?).bind (fun r => r[j]?) := by
  induction rows generalizing i with
  | nil => simp
  | cons r rows ih =>
    have hl := hr r (by simp)
    rw [List.flatten_cons]
    cases i with
    | zero => rw [Nat.zero_mul, Nat.zero_add, List.getElem?_append_left (by omega)]; simp
    | succ i =>
      rw [List.getElem?_append_right (by rw [hl]; nlinarith), hl,
        show (i + 1) * J + j - J = i * J + j by rw [Nat.succ_mul]; omega,
        ih (fun r h => hr r (by simp [h]))]
      simp

theorem flatten2dC_eq (I J : ℕ) (a : ℕ → ℕ → K) :
    flatten2dC I J a = ((List.range I).map fun i => (List.range J).map (a i)).flatten := by
  have := foldl_push2 (K := K) a (List.range I) (List.range J) [] (List.replicate (I * J) 0) (by simp)
  unfold flatten2dC
  simp only [List.nil_append, List.length_nil] at this
  rw [this]

theorem flatten2dF_eq (I J : ℕ) (a : ℕ → ℕ → K) :
    flatten2dF I J a = ((List.range J).map fun j => (List.range I).map (fun i => a i j)).flatten := by
  have := foldl_push2 (K := K) (fun j i => a i j) (List.range J) (List.range I) []
    (List.replicate (I * J) 0) (by simp [mul_comm])
  unfold flatten2dF
  simp only [List.nil_append, List.length_nil] at this
  rw [this]

/-! ## Block diagonal -/

theorem repeatDiagonal_get (nR nC : ℕ) (a : ℕ → ℕ → K) (sched : List ℕ) (k l r c : ℕ)
    (hr : r < nR) (hc : c < nC) :
    repeatDiagonal nR nC a sched (k * nR + r) (l * nC + c) =
      if k = l ∧ k ∈ sched then a r c else 0 := by
  have hcell : ∀ (m n x y : ℕ), x < n → ((m * n ≤ y * n + x ∧ y * n + x < m * n + n) ↔ m = y) := by
    intro m n x y hx
    constructor
    · rintro ⟨h1, h2⟩
      rcases Nat.lt_trichotomy m y with h | h | h
      · have : (m + 1) * n ≤ y * n := Nat.mul_le_mul_right _ h
        have : (m + 1) * n = m * n + n := by ring
        omega
      · exact h
      · have : (y + 1) * n ≤ m * n := Nat.mul_le_mul_right _ h
        have : (y + 1) * n = y * n + n := by ring
        omega
    · rintro rfl; omega
  unfold repeatDiagonal
  suffices H : ∀ init : ℕ → ℕ → K, (sched.foldl
      (fun res i => fun r c =>
        if i * nR ≤ r ∧ r < i * nR + nR ∧ i * nC ≤ c ∧ c < i * nC + nC then
          a (r - i * nR) (c - i * nC)
        else res r c) init) (k * nR + r) (l * nC + c) =
      if k = l ∧ k ∈ sched then a r c else init (k * nR + r) (l * nC + c) by
    rw [H]
  induction sched with
  | nil => intro init; simp
  | cons i is ih =>
    intro init
    rw [List.foldl_cons, ih]
    by_cases h1 : k = l ∧ k ∈ is
    · rw [if_pos h1, if_pos ⟨h1.1, by simp [h1.2]⟩]
    · rw [if_neg h1]
      have e1 := hcell i nR r k hr
      have e2 := hcell i nC c l hc
      by_cases h2 : i = k ∧ i = l
      · obtain ⟨rfl, rfl⟩ := h2
        have a1 := e1.mpr rfl
        have a2 := e2.mpr rfl
        rw [if_pos ⟨a1.1, a1.2, a2.1, a2.2⟩, if_pos ⟨rfl, by simp⟩]
        congr 1 <;> omega
      · have hn : ¬ (i * nR ≤ k * nR + r ∧ k * nR + r < i * nR + nR ∧ i * nC ≤ l * nC + c ∧
            l * nC + c < i * nC + nC) := by
          rintro ⟨b1, b2, b3, b4⟩
          exact h2 ⟨e1.mp ⟨b1, b2⟩, e2.mp ⟨b3, b4⟩⟩
        rw [if_neg hn, if_neg]
        rintro ⟨rfl, hm⟩
        rcases List.mem_cons.mp hm with rfl | hm
        · exact h2 ⟨rfl, rfl⟩
        · exact h1 ⟨rfl, hm⟩

/-! ## Casts -/

theorem store_float (x : K) : store .float x = x := rfl

theorem trunc_int (z : ℤ) [IsStrictOrderedRing K] : trunc ((z : ℤ) : K) = z := by
  unfold trunc; split <;> simp

/-! ## Row distances -/

variable [IsStrictOrderedRing K]

theorem rowDist_nonneg (x y : List K) : 0 ≤ rowDist x y := by
  apply List.sum_nonneg
  intro z hz
  rw [List.zipWith_eq_zipWith_take_min] at hz
  obtain ⟨i, hi, rfl⟩ := List.mem_iff_getElem.mp hz
  rw [List.getElem_zipWith]
  exact abs_nonneg _

theorem rowDist_eq_zero {x y : List K} (h : x.length = y.length) : rowDist x y = 0 ↔ x = y := by
  induction x generalizing y with
  | nil =>
    have : y = [] := List.eq_nil_of_length_eq_zero h.symm
    simp [this, rowDist]
  | cons a x ih =>
    cases y with
    | nil => simp at h
    | cons b y =>
      have h0 := rowDist_nonneg x y
      have e : rowDist (a :: x) (b :: y) = |a - b| + rowDist x y := by simp [rowDist]
      rw [e, add_eq_zero_iff_of_nonneg (abs_nonneg _) h0, ih (by simpa using h), abs_eq_zero,
        sub_eq_zero]
      simp

theorem foldl_update {ι : Type} [DecidableEq ι] (f : ι → K) (sched : List ι) (init : ι → K) (p : ι) :
    (sched.foldl (fun (R : ι → K) p => Function.update R p (f p)) init) p =
      if p ∈ sched then f p else init p := by
  induction sched generalizing init with
  | nil => simp
  | cons q qs ih =>
    rw [List.foldl_cons, ih]
    by_cases h : p ∈ qs
    · simp [h]
    · by_cases hq : p = q
      · subst hq; simp [h]
      · simp [h, hq]

end
end Verif.Utils
