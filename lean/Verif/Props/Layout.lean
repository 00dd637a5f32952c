import Verif.Model.Layout
import Mathlib.Tactic.Linarith
import Mathlib.Tactic.Ring
import Mathlib.Algebra.Order.Ring.Int
import Mathlib.Algebra.BigOperators.Group.List.Basic

/-! # C127: tensors hold the components they are given, whatever their layout in memory -/

set_option linter.unusedSectionVars false

namespace Verif.Layout.Props
open Verif Verif.Layout

/-- The index is one of an array of this shape. -/
def Valid : List ℕ → List ℕ → Prop
  | [], [] => True
  | n :: ns, i :: is => i < n ∧ Valid ns is
  | _, _ => False

theorem mem_indices {shape idx : List ℕ} : idx ∈ indices shape ↔ Valid shape idx := by
  induction shape generalizing idx with
  | nil => cases idx <;> simp [indices, Valid]
  | cons n ns ih =>
    cases idx with
    | nil => simp [indices, Valid]
    | cons i is =>
      simp only [indices, List.mem_flatMap, List.mem_range, List.mem_map, List.cons.injEq, Valid]
      constructor
      · rintro ⟨k, hk, t, ht, rfl, rfl⟩
        exact ⟨hk, ih.1 ht⟩
      · rintro ⟨h1, h2⟩
        exact ⟨i, h1, is, ih.2 h2, rfl, rfl⟩

theorem Valid.length {shape idx : List ℕ} (h : Valid shape idx) : idx.length = shape.length := by
  induction shape generalizing idx with
  | nil => cases idx with
    | nil => rfl
    | cons => exact h.elim
  | cons n ns ih => cases idx with
    | nil => exact h.elim
    | cons i is => simp [ih h.2]

theorem valid_no_zero {shape idx : List ℕ} (h : Valid shape idx) : 0 ∉ shape := by
  induction shape generalizing idx with
  | nil => simp
  | cons n ns ih =>
    cases idx with
    | nil => exact h.elim
    | cons i is =>
      have := h.1
      simp only [List.mem_cons, not_or]
      exact ⟨by omega, ih h.2⟩

/-- Places in C order lie inside of the block. -/
theorem place_c_bounds {shape idx : List ℕ} (h : Valid shape idx) :
    0 ≤ place (cStrides shape) idx ∧ place (cStrides shape) idx < shape.prod := by
  induction shape generalizing idx with
  | nil => cases idx with
    | nil => simp [place, cStrides]
    | cons => exact h.elim
  | cons n ns ih =>
    cases idx with
    | nil => exact h.elim
    | cons i is =>
      obtain ⟨h1, h2⟩ := ih h.2
      simp only [cStrides, place, List.prod_cons]
      have hi : (i : ℤ) + 1 ≤ n := by exact_mod_cast h.1
      have hp : (0 : ℤ) ≤ (ns.prod : ℕ) := Int.natCast_nonneg _
      refine ⟨by positivity, ?_⟩
      push_cast
      push_cast at h2 hp
      nlinarith

theorem place_c_inj {shape a b : List ℕ} (ha : Valid shape a) (hb : Valid shape b)
    (h : place (cStrides shape) a = place (cStrides shape) b) : a = b := by
  induction shape generalizing a b with
  | nil => cases a <;> cases b <;> first | rfl | exact ha.elim | exact hb.elim
  | cons n ns ih =>
    cases a with
    | nil => exact ha.elim
    | cons i is =>
      cases b with
      | nil => exact hb.elim
      | cons j js =>
        have ba := place_c_bounds ha.2
        have bb := place_c_bounds hb.2
        simp only [cStrides, place] at h
        have hij : i = j := by
          by_contra hne
          rcases Nat.lt_or_gt_of_ne hne with hlt | hlt
          · have : (i : ℤ) + 1 ≤ j := by exact_mod_cast hlt
            nlinarith
          · have : (j : ℤ) + 1 ≤ i := by exact_mod_cast hlt
            nlinarith
        subst hij
        rw [ih ha.2 hb.2 (by linarith)]

/-- Places in Fortran order: what remains after the first axis is a multiple of `k * n`. -/
theorem place_f_inj {shape a b : List ℕ} (k : ℕ) (hk : 0 < k) (ha : Valid shape a) (hb : Valid shape b)
    (h : place (fStrides k shape) a = place (fStrides k shape) b) : a = b := by
  have scale : ∀ (shape idx : List ℕ) (k n : ℕ), place (fStrides (k * n) shape) idx = k * place (fStrides n shape) idx := by
    intro shape
    induction shape with
    | nil => intro idx k n; simp [fStrides, place]
    | cons m ms ih =>
      intro idx k n
      cases idx with
      | nil => simp [fStrides, place]
      | cons i is =>
        simp only [fStrides, place, Nat.mul_assoc, ih is k (n * m)]
        push_cast
        ring
  induction shape generalizing a b k with
  | nil => cases a <;> cases b <;> first | rfl | exact ha.elim | exact hb.elim
  | cons n ns ih =>
    cases a with
    | nil => exact ha.elim
    | cons i is =>
      cases b with
      | nil => exact hb.elim
      | cons j js =>
        simp only [fStrides, place] at h
        rw [scale ns is k n, scale ns js k n] at h
        have h' : (i : ℤ) + place (fStrides n ns) is = j + place (fStrides n ns) js := by
          have hk' : (k : ℤ) ≠ 0 := by exact_mod_cast hk.ne'
          exact mul_left_cancel₀ hk' (by linarith)
        have e1 := scale ns is n 1
        have e2 := scale ns js n 1
        rw [Nat.mul_one] at e1 e2
        rw [e1, e2] at h'
        have hn : 0 < n := Nat.lt_of_le_of_lt (Nat.zero_le _) ha.1
        have hij : i = j := by
          have h1 := ha.1
          have h2 := hb.1
          have := congrArg (fun z : ℤ => z % n) h'
          simp only [Int.add_mul_emod_self_left] at this
          rw [Int.emod_eq_of_lt (Int.natCast_nonneg _) (by exact_mod_cast h1),
            Int.emod_eq_of_lt (Int.natCast_nonneg _) (by exact_mod_cast h2)] at this
          exact_mod_cast this
        subst hij
        have : place (fStrides 1 ns) is = place (fStrides 1 ns) js := by
          have hn' : (n : ℤ) ≠ 0 := by exact_mod_cast hn.ne'
          exact mul_left_cancel₀ hn' (by linarith)
        rw [ih 1 Nat.one_pos ha.2 hb.2 this]

variable {K : Type} [Inhabited K]

/-- A copy has the items of the original, if no two items share a place. -/
theorem copyTo_get (a : Arr K) (strides : List ℤ)
    (hinj : ∀ x y, Valid a.shape x → Valid a.shape y → place strides x = place strides y → x = y) (idx : List ℕ)
    (hv : Valid a.shape idx) : (a.copyTo strides).get idx = a.get idx := by
  have h : ∃ y, (indices a.shape).find? (fun i => decide (place strides i = place strides idx)) = some y := by
    cases hf : (indices a.shape).find? (fun i => decide (place strides i = place strides idx)) with
    | some y => exact ⟨y, rfl⟩
    | none =>
      rw [List.find?_eq_none] at hf
      exact absurd (by simp) (hf idx (mem_indices.2 hv))
  obtain ⟨y, hy⟩ := h
  have h1 := List.find?_some hy
  have h2 := mem_indices.1 (List.mem_of_find?_eq_some hy)
  have : y = idx := hinj y idx h2 hv (of_decide_eq_true h1)
  subst this
  simp only [Arr.get, Arr.copyTo, zero_add, hy]

theorem sameLayout_refl (shape : List ℕ) (s : List ℤ) : sameLayout shape s s = true := by
  unfold sameLayout
  rw [Bool.or_eq_true, List.all_eq_true]
  refine .inr fun x hx => ?_
  obtain ⟨a, b, c⟩ := x
  have h := (List.of_mem_zip hx).2
  have : b = c := by
    clear hx
    induction s with
    | nil => simp at h
    | cons y s ih =>
      simp only [List.zip_cons_cons, List.mem_cons, Prod.mk.injEq] at h
      rcases h with ⟨rfl, rfl⟩ | h
      · rfl
      · exact ih h
  simp [this]

theorem copyTo_c_get (a : Arr K) (idx : List ℕ) (hv : Valid a.shape idx) :
    (a.copyTo (cStrides a.shape)).get idx = a.get idx :=
  copyTo_get a _ (fun _ _ hx hy => place_c_inj hx hy) idx hv

/-- Arrays in C order are read as they are. -/
theorem fromBuffer_copy_c (a : Arr K) : ∃ r, fromBuffer (a.copyTo (cStrides a.shape)) = .ok r ∧ r.shape = a.shape ∧
    ∀ idx, Valid a.shape idx → r.get idx = a.get idx := by
  have hc : (a.copyTo (cStrides a.shape)).isC = true := sameLayout_refl _ _
  refine ⟨a.copyTo (cStrides a.shape), ?_, rfl, copyTo_c_get a⟩
  unfold fromBuffer
  rw [hc]
  rfl

theorem copyK_c (a : Arr K) (h : a.isC = true) : a.copyK = a.copyTo (cStrides a.shape) := by
  unfold Arr.copyK
  rw [h]
  rfl

/-- **C127.** A tensor made from an array has the shape and the components of the array, whatever its layout: transposed views,
slices with any steps, also negative ones, broadcast axes, Fortran order, empty arrays and single items. -/
theorem C127_default (a : Arr K) :
    ∃ r, ofArray a true = .ok r ∧ r.shape = a.shape ∧ ∀ idx, Valid a.shape idx → r.get idx = a.get idx := by
  unfold ofArray
  simp only [if_true]
  unfold Arr.ascont
  split
  · rename_i h
    rw [copyK_c a h]
    exact fromBuffer_copy_c a
  · have hc : (a.copyTo (cStrides a.shape)).isC = true := sameLayout_refl _ _
    rw [copyK_c _ hc]
    obtain ⟨r, h1, h2, h3⟩ := fromBuffer_copy_c (a.copyTo (cStrides a.shape))
    exact ⟨r, h1, h2, fun idx hv => (h3 idx hv).trans (copyTo_c_get a idx hv)⟩

/-- **C127, partial.** With `contiguous=False` this is so for arrays in C order.  Missing, because it is false: other layouts, see
`C127_fortran_violated` and `C127_refused_violated`. -/
theorem C127_as_is_partial (a : Arr K) (h : a.isC = true) :
    ∃ r, ofArray a false = .ok r ∧ r.shape = a.shape ∧ ∀ idx, Valid a.shape idx → r.get idx = a.get idx := by
  unfold ofArray
  simp only [Bool.false_eq_true, if_false]
  rw [copyK_c a h]
  exact fromBuffer_copy_c a

/-- **C127.** Nested lists, unless `order="F"` is given. -/
theorem C127_lists_partial (shape : List ℕ) (items : List ℕ → K) (order : Order) (ho : order ≠ .F) :
    ∃ r, ofLists shape items order = .ok r ∧ r.shape = shape ∧ ∀ idx, Valid shape idx → r.get idx = items idx := by
  -- the list is an array whose item at an index is the item of the list there
  have key : ∀ buf : Arr K, buf.shape = shape → buf.strides = cStrides shape → buf.offset = 0 →
      buf.mem = (fun z => match (indices shape).find? fun idx => decide (place (cStrides shape) idx = z) with
        | some idx => items idx
        | none => default) →
      ∃ r, fromBuffer buf.copyK = .ok r ∧ r.shape = shape ∧ ∀ idx, Valid shape idx → r.get idx = items idx := by
    intro buf h1 h2 h3 h4
    have hc : buf.isC = true := by
      unfold Arr.isC
      rw [h1, h2]
      exact sameLayout_refl _ _
    rw [copyK_c buf hc]
    obtain ⟨r, r1, r2, r3⟩ := fromBuffer_copy_c buf
    refine ⟨r, r1, r2.trans h1, fun idx hv => (r3 idx (h1 ▸ hv)).trans ?_⟩
    unfold Arr.get
    rw [h2, h3, h4, zero_add]
    have h : ∃ y, (indices shape).find? (fun i => decide (place (cStrides shape) i = place (cStrides shape) idx)) =
        some y := by
      cases hf : (indices shape).find? (fun i => decide (place (cStrides shape) i = place (cStrides shape) idx)) with
      | some y => exact ⟨y, rfl⟩
      | none =>
        rw [List.find?_eq_none] at hf
        exact absurd (by simp) (hf idx (mem_indices.2 hv))
    obtain ⟨y, hy⟩ := h
    have hp := List.find?_some hy
    have e := place_c_inj (mem_indices.1 (List.mem_of_find?_eq_some hy)) hv (of_decide_eq_true hp)
    subst e
    simp only [hy]
  cases order with
  | F => exact absurd rfl ho
  | K => exact key _ rfl rfl rfl rfl
  | A => exact key _ rfl rfl rfl rfl
  | C => exact key _ rfl rfl rfl rfl

/-- A Fortran ordered array of more than one axis, laid out as it would be by NumPy. -/
theorem copyK_f (a : Arr K) (hf : a.isF = true) (hc : a.isC = false) (hd : 1 < a.shape.length) :
    a.copyK = a.copyTo (fStrides 1 a.shape) := by
  unfold Arr.copyK
  rw [hc, hf]
  rw [if_neg (by simp; omega), if_pos rfl]

/-- **C127 is violated.** A square matrix in Fortran order (a transposed view, say), given with `contiguous=False`, is transposed:
the tensor has the component `a[j, i]` at `(i, j)`.  No exception is raised. -/
theorem C127_fortran_violated (a : Arr K) (n : ℕ) (hs : a.shape = [n, n]) (hf : a.isF = true)
    (hc : a.isC = false) :
    ∃ r, ofArray a false = .ok r ∧ r.shape = [n, n] ∧ ∀ i j, i < n → j < n → r.get [i, j] = a.get [j, i] := by
  have hk := copyK_f a hf hc (by rw [hs]; exact Nat.one_lt_two)
  have hfb : (a.copyTo (fStrides 1 a.shape)).isF = true := sameLayout_refl _ _
  unfold ofArray
  simp only [Bool.false_eq_true, if_false]
  rw [hk]
  unfold fromBuffer
  rw [hfb, Bool.or_true, if_pos rfl]
  refine ⟨_, rfl, hs, fun i j hi hj => ?_⟩
  have hg := copyTo_get a (fStrides 1 a.shape) (fun _ _ hx hy => place_f_inj 1 Nat.one_pos hx hy) [j, i]
    (by rw [hs]; exact ⟨hj, hi, trivial⟩)
  rw [← hg]
  unfold Arr.get
  have : (a.copyTo (fStrides 1 a.shape)).shape = [n, n] := hs
  simp only [this]
  congr 2
  show place (cStrides [n, n]) [i, j] = place (fStrides 1 a.shape) [j, i]
  rw [hs]
  simp [cStrides, fStrides, place]
  ring

/-- **C127 is violated.** Nested lists with `order="F"`: a square matrix is transposed. -/
theorem C127_order_violated (n : ℕ) (items : List ℕ → K) (hn : 1 < n) :
    ∃ r, ofLists [n, n] items .F = .ok r ∧ r.shape = [n, n] ∧
      ∀ i j, i < n → j < n → r.get [i, j] = items [j, i] := by
  let buf : Arr K :=
    { shape := [n, n], strides := fStrides 1 [n, n], offset := 0
      mem := fun z =>
        match (indices [n, n]).find? fun idx => decide (place (fStrides 1 [n, n]) idx = z) with
        | some idx => items idx
        | none => default }
  have hget : ∀ i j, i < n → j < n → buf.get [i, j] = items [i, j] := by
    intro i j hi hj
    have hv : Valid [n, n] [i, j] := ⟨hi, hj, trivial⟩
    unfold Arr.get
    show (match (indices [n, n]).find? fun idx =>
        decide (place (fStrides 1 [n, n]) idx = 0 + place (fStrides 1 [n, n]) [i, j]) with
      | some idx => items idx
      | none => default) = _
    rw [zero_add]
    have h : ∃ y, (indices [n, n]).find? (fun x => decide (place (fStrides 1 [n, n]) x = place (fStrides 1 [n, n]) [i, j])) =
        some y := by
      cases hf : (indices [n, n]).find? (fun x => decide (place (fStrides 1 [n, n]) x = place (fStrides 1 [n, n]) [i, j])) with
      | some y => exact ⟨y, rfl⟩
      | none =>
        rw [List.find?_eq_none] at hf
        exact absurd (by simp) (hf [i, j] (mem_indices.2 hv))
    obtain ⟨y, hy⟩ := h
    have hp := List.find?_some hy
    have e := place_f_inj 1 Nat.one_pos (mem_indices.1 (List.mem_of_find?_eq_some hy)) hv (of_decide_eq_true hp)
    subst e
    simp only [hy]
  have hc : buf.isC = false := by
    have h0 : n ≠ 0 := by omega
    have h1 : n ≠ 1 := by omega
    have h2 : (1 : ℤ) ≠ n := by exact_mod_cast (by omega : 1 ≠ n)
    simp [Arr.isC, sameLayout, buf, cStrides, fStrides, h0.symm, h1, h2]
  obtain ⟨r, h1, h2, h3⟩ := C127_fortran_violated buf n rfl (sameLayout_refl _ _) hc
  exact ⟨r, h1, h2, fun i j hi hj => (h3 i j hi hj).trans (hget j i hj hi)⟩

/-- **C127 is violated.** With `contiguous=False` an array whose axes are neither in C order nor in Fortran order is refused with a
`ValueError`: `a.transpose(0, 2, 1)` of an array `a` of shape `(2, 2, 2)`, whatever its items. -/
theorem C127_refused_violated (mem : ℤ → K) :
    ofArray (⟨[2, 2, 2], [4, 1, 2], 0, mem⟩ : Arr K) false = .error .value := by
  have hs : sortedAxes [4, 1, 2] = [0, 2, 1] := by
    unfold sortedAxes
    simp [List.range_succ, List.mergeSort, List.MergeSort.Internal.splitInTwo]
  have hk : kStrides [2, 2, 2] [4, 1, 2] = [4, 1, 2] := by
    unfold kStrides
    rw [hs]
    rfl
  unfold ofArray
  simp only [Bool.false_eq_true, if_false]
  have h1 : (⟨[2, 2, 2], [4, 1, 2], 0, mem⟩ : Arr K).isC = false := by
    show sameLayout [2, 2, 2] [4, 1, 2] (cStrides [2, 2, 2]) = false
    decide
  have h2 : (⟨[2, 2, 2], [4, 1, 2], 0, mem⟩ : Arr K).isF = false := by
    show sameLayout [2, 2, 2] [4, 1, 2] (fStrides 1 [2, 2, 2]) = false
    decide
  have h3 : (⟨[2, 2, 2], [4, 1, 2], 0, mem⟩ : Arr K).copyK =
      (⟨[2, 2, 2], [4, 1, 2], 0, mem⟩ : Arr K).copyTo [4, 1, 2] := by
    unfold Arr.copyK
    rw [h1, h2, hk]
    rfl
  rw [h3]
  unfold fromBuffer
  rw [if_neg]
  show ¬ (sameLayout [2, 2, 2] [4, 1, 2] (cStrides [2, 2, 2]) || sameLayout [2, 2, 2] [4, 1, 2] (fStrides 1 [2, 2, 2])) = true
  decide

/-- `np.arange(4).reshape(2, 2).T[::-1]` -/
example : ∃ r, ofArray (⟨[2, 2], [-1, 2], 1, fun z => z⟩ : Arr ℤ) true = .ok r ∧
    r.get [0, 0] = 1 ∧ r.get [0, 1] = 3 ∧ r.get [1, 0] = 0 ∧ r.get [1, 1] = 2 := by
  obtain ⟨r, h1, -, h3⟩ := C127_default (⟨[2, 2], [-1, 2], 1, fun z => z⟩ : Arr ℤ)
  refine ⟨r, h1, ?_, ?_, ?_, ?_⟩
  · rw [h3 [0, 0] (by simp [Valid])]; rfl
  · rw [h3 [0, 1] (by simp [Valid])]; rfl
  · rw [h3 [1, 0] (by simp [Valid])]; rfl
  · rw [h3 [1, 1] (by simp [Valid])]; rfl

/-- `np.arange(4).reshape(2, 2).T` meets the hypotheses of `C127_fortran_violated`. -/
example : (⟨[2, 2], [1, 2], 0, fun z => z⟩ : Arr ℤ).isF = true ∧ (⟨[2, 2], [1, 2], 0, fun z => z⟩ : Arr ℤ).isC = false := by
  constructor <;> decide

end Verif.Layout.Props
