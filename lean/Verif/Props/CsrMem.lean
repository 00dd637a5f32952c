import Verif.Proofs.CsrMem

/-!
# C110: CSR matrices are copies, their rows are views; number formats
-/

namespace Verif.CsrMem.Props
open Verif Verif.Rnd Verif.CsrMem

/-- The matrix `c` has these data, column indices, row pointers and this shape. -/
def Holds (s : State) (c : ℕ) (data indices indptr : List ℚ) (shape : ℕ × ℤ) : Prop :=
  ∃ o, s.objs[c]? = some o ∧ s.bufs o.data = data ∧ s.bufs o.indices = indices ∧ s.bufs o.indptr = indptr ∧
    o.shape = shape

/-- The operation writes to none but the arrays and matrices that existed in the state `s`. -/
def Old (s : State) : Op → Prop
  | .write b _ _ => b < s.next
  | .setRow c _ _ _ => c < s.objs.length
  | .setIrow c _ _ _ => c < s.objs.length
  | _ => True

/-- C110: what the theorems below assume of the state holds after any session that starts without matrices. -/
theorem C110_sessions (s : State) (h : s.objs = []) (ops : List Op) : Good (run s ops) :=
  run_good s ⟨fun c o hc => by simp [h] at hc, fun c c' o o' hc => by simp [h] at hc⟩ ops

theorem fresh (s : State) (hg : Good s) (t : State) (ht : Good t) (c : ℕ) (o : Obj) (hc : t.objs[c]? = some o)
    (ho : s.next ≤ o.data) (hobj : ∀ (c : ℕ) (o : Obj), s.objs[c]? = some o → t.objs[c]? = some o) (ops : List Op)
    (hops : ∀ op ∈ ops, Old s op) :
    Holds (run t ops) c (t.bufs o.data) (t.bufs o.indices) (t.bufs o.indptr) o.shape := by
  induction ops generalizing t with
  | nil => exact ⟨o, hc, rfl, rfl, rfl, rfl⟩
  | cons op ops ih =>
    have he := step_eff t op
    obtain ⟨h1, h2, h3⟩ := ht.own c o hc
    have hnw : ∀ b, s.next ≤ b → ¬ Writes t b op := by
      intro b hb hw
      have hold := hops op List.mem_cons_self
      cases op with
      | write b' k v => exact absurd (show b' < s.next from hold) (by rw [show b' = b from hw]; omega)
      | setRow c' i k v =>
        obtain ⟨o', ho', rfl⟩ := hw
        have hlt : c' < s.objs.length := hold
        have := hobj c' _ (List.getElem?_eq_getElem hlt)
        rw [ho'] at this
        have := (hg.own c' _ (List.getElem?_eq_getElem hlt)).2.2
        rename_i h
        rw [← Option.some.inj h] at this
        omega
      | setIrow c' i k v =>
        obtain ⟨o', ho', rfl⟩ := hw
        have hlt : c' < s.objs.length := hold
        have h := hobj c' _ (List.getElem?_eq_getElem hlt)
        rw [ho'] at h
        obtain ⟨g1, -, g3⟩ := hg.own c' _ (List.getElem?_eq_getElem hlt)
        rw [← Option.some.inj h] at g1 g3
        omega
      | array l => exact hw
      | ofArrays d i p sh => exact hw
      | ofDense a n m => exact hw
      | row c' i => exact hw
      | irow c' i => exact hw
      | toScipy c' => exact hw
    have := ih (step t op).1 (he.good ht) (he.objs c o hc)
      (fun c' o' h => he.objs c' o' (hobj c' o' h)) (fun op' h => hops op' (List.mem_cons_of_mem _ h))
    rwa [he.bufs _ (by omega) (hnw _ ho), he.bufs _ (by omega) (hnw _ (by omega)),
      he.bufs _ (by omega) (hnw _ (by omega))] at this

/-- C110: a matrix made from three arrays (or from a SciPy matrix with these arrays) holds their values in double
precision and 32 bits, and no writing to arrays and matrices that existed before changes it; all matrices that
existed before stay as they are. -/
theorem C110_copy (s : State) (hg : Good s) (d i p : ℕ) (hd : d < s.next) (hi : i < s.next) (hp : p < s.next)
    (shape : ℕ × ℤ) :
    ∃ s' c, step s (.ofArrays d i p shape) = (s', .ok (.csr c)) ∧
      (∀ (c' : ℕ) (D I P : List ℚ) (sh : ℕ × ℤ), Holds s c' D I P sh → Holds s' c' D I P sh) ∧
      ∀ ops : List Op, (∀ op ∈ ops, Old s op) →
        Holds (run s' ops) c ((s.bufs d).map float64) ((s.bufs i).map int32) ((s.bufs p).map int32) shape := by
  refine ⟨s.newCsr (s.bufs d) (s.bufs i) (s.bufs p) shape, s.objs.length, ?_, ?_, fun ops hops => ?_⟩
  · simp only [step]
    rw [if_pos ⟨hd, hi, hp⟩]
  · rintro c' D I P sh ⟨o, h0, h1, h2, h3, h4⟩
    have he := Eff.newCsr s (.array []) (s.bufs d) (s.bufs i) (s.bufs p) shape
    obtain ⟨g1, g2, g3⟩ := hg.own c' o h0
    exact ⟨o, he.objs c' o h0, by rw [he.bufs _ (by omega) (fun h => h), h1],
      by rw [he.bufs _ (by omega) (fun h => h), h2], by rw [he.bufs _ (by omega) (fun h => h), h3], h4⟩
  · have he := Eff.newCsr s (.array []) (s.bufs d) (s.bufs i) (s.bufs p) shape
    obtain ⟨h1, h2, h3⟩ := newCsr_bufs s (s.bufs d) (s.bufs i) (s.bufs p) shape
    have := fresh s hg _ (he.good hg) s.objs.length _ (newCsr_obj s _ _ _ shape) le_rfl he.objs ops hops
    rwa [h1, h2, h3] at this

/-- C110: a matrix made from a dense array with less than 2³¹ entries: its rows are the rows of the array in double
precision, their column indices are counted from zero, and no writing to what existed before changes them. -/
theorem C110_dense (s : State) (hg : Good s) (a m : ℕ) (ha : a < s.next) (rows : List (List ℚ))
    (hr : ∀ r ∈ rows, r.length = m) (hrows : s.bufs a = rows.flatten) (hsmall : rows.length * m < 2 ^ 31)
    (hm : m < 2 ^ 31) :
    ∃ s' c, step s (.ofDense a rows.length m) = (s', .ok (.csr c)) ∧
      ∀ ops : List Op, (∀ op ∈ ops, Old s op) → ∀ (i : ℕ) (r : List ℚ), rows[i]? = some r →
        (step (run s' ops) (.row c i)).2 = .ok (.values (r.map float64)) ∧
        (step (run s' ops) (.irow c i)).2 = .ok (.values ((List.range m).map fun j : ℕ => (j : ℚ))) := by
  have hlen : rows.flatten.length = rows.length * m := by
    clear hrows hsmall
    induction rows with
    | nil => simp
    | cons r rows ih =>
      rw [List.flatten_cons, List.length_append, ih fun r' h => hr r' (List.mem_cons_of_mem _ h),
        hr r List.mem_cons_self, List.length_cons]
      ring
  set I : List ℚ := (List.replicate rows.length (List.range m)).flatten.map fun j : ℕ => (j : ℚ) with hI
  set P : List ℚ := (List.range (rows.length + 1)).map fun k : ℕ => ((k * m : ℕ) : ℚ) with hP
  refine ⟨s.newCsr (s.bufs a) I P (rows.length, m), s.objs.length, ?_, fun ops hops i r hir => ?_⟩
  · simp only [step]
    rw [if_pos ⟨ha, by rw [hrows, hlen]⟩]
  have he := Eff.newCsr s (.array []) (s.bufs a) I P (rows.length, m)
  obtain ⟨h1, h2, h3⟩ := newCsr_bufs s (s.bufs a) I P (rows.length, m)
  obtain ⟨o, g0, g1, g2, g3, -⟩ := fresh s hg _ (he.good hg) s.objs.length _
    (newCsr_obj s _ _ _ (rows.length, m)) le_rfl he.objs ops hops
  simp only [h1, h2, h3] at g1 g2 g3
  have hi : i < rows.length := (List.getElem?_eq_some_iff.1 hir).1
  have hP' : P.map int32 = P := by
    rw [hP, List.map_map]
    refine List.map_congr_left fun k hk => ?_
    have hk' : k ≤ rows.length := by have := List.mem_range.1 hk; omega
    have : k * m ≤ rows.length * m := Nat.mul_le_mul_right _ hk'
    exact int32_nat _ (by omega)
  have hI' : I.map int32 = I := by
    rw [hI, List.map_map]
    refine List.map_congr_left fun j hj => ?_
    obtain ⟨l, hl, hj⟩ := List.mem_flatten.1 hj
    rw [List.eq_of_mem_replicate hl] at hj
    exact int32_nat _ ((List.mem_range.1 hj).trans hm)
  have hb : (run (s.newCsr (s.bufs a) I P (rows.length, m)) ops).bounds o i = .ok (i * m, (i + 1) * m) := by
    have e1 : ∀ k, k ≤ rows.length → P[k]? = some ((k * m : ℕ) : ℚ) := fun k hk => by
      rw [hP, List.getElem?_map, List.getElem?_range (by omega)]; rfl
    unfold State.bounds
    rw [g3, hP']
    unfold Sparse.pyIdx pyGet
    rw [if_pos (by omega), if_pos (by omega)]
    have n1 : ((i : ℤ)).toNat = i := by omega
    have n2 : ((i : ℤ) + 1).toNat = i + 1 := by omega
    rw [n1, n2, e1 i (by omega), e1 (i + 1) (by omega)]
    have f1 : ⌊((i * m : ℕ) : ℚ)⌋.toNat = i * m := by rw [Int.floor_natCast, Int.toNat_natCast]
    have f2 : ⌊(((i + 1) * m : ℕ) : ℚ)⌋.toNat = (i + 1) * m := by rw [Int.floor_natCast, Int.toNat_natCast]
    show Except.ok (⌊((i * m : ℕ) : ℚ)⌋.toNat, ⌊(((i + 1) * m : ℕ) : ℚ)⌋.toNat) = _
    rw [f1, f2]
  have hslice : ∀ (α : Type) (L : List (List α)) (j : ℕ) (x : List α), (∀ l ∈ L, l.length = m) → L[j]? = some x →
      Sparse.slice L.flatten (j * m) ((j + 1) * m) = x := by
    intro α L
    induction L with
    | nil => intro j x _ h; simp at h
    | cons l L ih =>
      intro j x hL h
      have hl := hL l List.mem_cons_self
      cases j with
      | zero =>
        obtain rfl : l = x := by simpa using h
        simp [Sparse.slice, ← hl]
      | succ j =>
        rw [List.getElem?_cons_succ] at h
        have := ih j x (fun l' h' => hL l' (List.mem_cons_of_mem _ h')) h
        unfold Sparse.slice at this ⊢
        have e1 : (j + 1) * m = l.length + j * m := by rw [hl]; ring
        have e2 : (j + 1 + 1) * m = l.length + (j + 1) * m := by rw [hl]; ring
        rw [List.flatten_cons, e2, List.take_append, e1, List.drop_append]
        rw [List.take_of_length_le (by omega), List.drop_eq_nil_of_le (by omega), List.nil_append,
          Nat.add_sub_cancel_left, Nat.add_sub_cancel_left]
        rw [← e1]
        simpa [hl] using this
  have hmapslice : ∀ (α β : Type) (f : α → β) (l : List α) (x y : ℕ),
      Sparse.slice (l.map f) x y = (Sparse.slice l x y).map f := by
    intro α β f l x y
    simp [Sparse.slice, List.map_drop, List.map_take]
  refine ⟨?_, ?_⟩
  · simp only [step, g0, hb, g1, Except.map]
    rw [hmapslice, hrows, hslice _ rows i r hr hir]
  · simp only [step, g0, hb, g2, hI', Except.map]
    rw [hI, hmapslice, hslice _ _ i (List.range m) (fun l hl => by
      rw [List.eq_of_mem_replicate hl, List.length_range]) (by
      rw [List.getElem?_replicate, if_pos hi])]

/-- C110: an entry of a row can be assigned: the row has the new value at this place, the other rows, all column
indices and all other matrices stay as they are. -/
theorem C110_row_view (s : State) (hg : Good s) (c : ℕ) (D I : List ℚ) (P : List ℕ) (shape : ℕ × ℤ)
    (h : Holds s c D I (P.map fun p : ℕ => (p : ℚ)) shape) (hmono : P.Pairwise (· ≤ ·)) (hlast : ∀ p ∈ P, p ≤ D.length)
    (i k a b : ℕ) (ha : P[i]? = some a) (hb : P[i + 1]? = some b) (hk : a + k < b) (v : ℚ) :
    ∃ s' r, step s (.setRow c i k v) = (s', .ok .unit) ∧ (step s (.row c i)).2 = .ok (.values r) ∧
      (step s' (.row c i)).2 = .ok (.values (r.set k v)) ∧ k < r.length ∧
      (∀ i' : ℕ, i' ≠ i → (step s' (.row c i')).2 = (step s (.row c i')).2) ∧
      (∀ i' : ℤ, (step s' (.irow c i')).2 = (step s (.irow c i')).2) ∧
      ∀ c', c' ≠ c → ∀ D' I' P' sh, Holds s c' D' I' P' sh → Holds s' c' D' I' P' sh := by
  obtain ⟨o, h0, h1, h2, h3, h4⟩ := h
  obtain ⟨g1, g2, g3⟩ := hg.own c o h0
  have hblen : b ≤ D.length := hlast b (List.mem_of_getElem? hb)
  have hbd : ∀ (t : State) (x y j : ℕ), t.bufs o.indptr = P.map (fun p : ℕ => (p : ℚ)) → P[j]? = some x →
      P[j + 1]? = some y → t.bounds o (j : ℤ) = .ok (x, y) := by
    intro t x y j ht hx hy
    unfold State.bounds
    rw [ht]
    unfold Sparse.pyIdx pyGet
    rw [if_pos (by omega), if_pos (by omega)]
    have n1 : ((j : ℤ)).toNat = j := by omega
    have n2 : ((j : ℤ) + 1).toNat = j + 1 := by omega
    rw [n1, n2, List.getElem?_map, List.getElem?_map, hx, hy]
    have f1 : ⌊(x : ℚ)⌋.toNat = x := by rw [Int.floor_natCast, Int.toNat_natCast]
    have f2 : ⌊(y : ℚ)⌋.toNat = y := by rw [Int.floor_natCast, Int.toNat_natCast]
    show Except.ok (⌊(x : ℚ)⌋.toNat, ⌊(y : ℚ)⌋.toNat) = _
    rw [f1, f2]
  set s' : State := { s with bufs := Function.update s.bufs o.data ((s.bufs o.data).set (a + k) v) } with hs'
  have e0 : s'.objs = s.objs := rfl
  have e1 : s'.bufs o.data = D.set (a + k) v := by
    show Function.update _ _ _ _ = _
    rw [Function.update_self, h1]
  have eo : ∀ x, x ≠ o.data → s'.bufs x = s.bufs x := fun x hx => Function.update_of_ne hx _ _
  have e2 : s'.bufs o.indices = s.bufs o.indices := eo _ (by omega)
  have e3 : s'.bufs o.indptr = s.bufs o.indptr := eo _ (by omega)
  have hbs : ∀ j, s'.bounds o j = s.bounds o j := fun j => by unfold State.bounds; rw [e3]
  have hb0 := hbd s a b i h3 ha hb
  have hsl : (Sparse.slice D a b).length = b - a := slice_length D a b hblen
  refine ⟨s', Sparse.slice D a b, ?_, ?_, ?_, by omega, ?_, ?_, ?_⟩
  · simp only [step, h0, hb0, State.setSlice]
    rw [h1, if_pos (by omega), hs', h1]
  · simp only [step, h0, hb0, h1, Except.map]
  · simp only [step, e0, h0, hbs, hb0, e1, Except.map]
    rw [(slice_set D a b (a + k) v).2 k rfl]
  · intro i' hne
    simp only [step, e0, h0, hbs]
    rcases hx : P[i']? with _ | x
    · have : s.bounds o (i' : ℤ) = .error .index := by
        unfold State.bounds
        rw [h3]
        unfold Sparse.pyIdx pyGet
        rw [if_pos (by omega)]
        have n1 : ((i' : ℤ)).toNat = i' := by omega
        rw [n1, List.getElem?_map, hx]
        rfl
      rw [this]
      rfl
    rcases hy : P[i' + 1]? with _ | y
    · have : s.bounds o (i' : ℤ) = .error .index := by
        unfold State.bounds
        rw [h3]
        unfold Sparse.pyIdx pyGet
        rw [if_pos (by omega), if_pos (by omega)]
        have n1 : ((i' : ℤ)).toNat = i' := by omega
        have n2 : ((i' : ℤ) + 1).toNat = i' + 1 := by omega
        rw [n1, n2, List.getElem?_map, List.getElem?_map, hx, hy]
        rfl
      rw [this]
      rfl
    rw [hbd s x y i' h3 hx hy]
    simp only [Except.map, e1, h1]
    rw [(slice_set D x y (a + k) v).1]
    have hp : ∀ (j l p q : ℕ), j < l → P[j]? = some p → P[l]? = some q → p ≤ q := by
      intro j l p q hjl hj hl
      obtain ⟨q1, q2⟩ := List.getElem?_eq_some_iff.1 hj
      obtain ⟨q3, q4⟩ := List.getElem?_eq_some_iff.1 hl
      have := List.pairwise_iff_getElem.1 hmono j l q1 q3 hjl
      omega
    rcases lt_or_gt_of_ne hne with hlt | hgt
    · right
      rcases Nat.lt_or_ge (i' + 1) i with h' | h'
      · have := hp (i' + 1) i y a h' hy ha
        omega
      · have : i' + 1 = i := by omega
        rw [this, ha] at hy
        have := Option.some.inj hy
        omega
    · left
      rcases Nat.lt_or_ge (i + 1) i' with h' | h'
      · have := hp (i + 1) i' b x h' hb hx
        omega
      · have : i + 1 = i' := by omega
        rw [← this, hb] at hx
        have := Option.some.inj hx
        omega
  · intro i'
    simp only [step, e0, h0, hbs, e2]
  · rintro c' hne D' I' P' sh ⟨o', k0, k1, k2, k3, k4⟩
    obtain ⟨m1, m2, m3⟩ := hg.own c' o' k0
    have hap : o'.data + 2 < o.data ∨ o.data + 2 < o'.data := by
      rcases lt_or_gt_of_ne hne with hlt | hgt
      · exact .inl (hg.apart c' c o' o k0 h0 hlt)
      · exact .inr (hg.apart c c' o o' h0 k0 hgt)
    exact ⟨o', k0, by rw [eo _ (by omega), k1], by rw [eo _ (by omega), k2], by rw [eo _ (by omega), k3], k4⟩

/-- C110: a column index of a row can be assigned: the row has the new column at this place, the columns of the other
rows, all values and all other matrices stay as they are. -/
theorem C110_irow_view (s : State) (hg : Good s) (c : ℕ) (D I : List ℚ) (P : List ℕ) (shape : ℕ × ℤ)
    (h : Holds s c D I (P.map fun p : ℕ => (p : ℚ)) shape) (hmono : P.Pairwise (· ≤ ·)) (hlast : ∀ p ∈ P, p ≤ I.length)
    (i k a b : ℕ) (ha : P[i]? = some a) (hb : P[i + 1]? = some b) (hk : a + k < b) (v : ℚ) :
    ∃ s' r, step s (.setIrow c i k v) = (s', .ok .unit) ∧ (step s (.irow c i)).2 = .ok (.values r) ∧
      (step s' (.irow c i)).2 = .ok (.values (r.set k v)) ∧ k < r.length ∧
      (∀ i' : ℕ, i' ≠ i → (step s' (.irow c i')).2 = (step s (.irow c i')).2) ∧
      (∀ i' : ℤ, (step s' (.row c i')).2 = (step s (.row c i')).2) ∧
      ∀ c', c' ≠ c → ∀ D' I' P' sh, Holds s c' D' I' P' sh → Holds s' c' D' I' P' sh := by
  obtain ⟨o, h0, h1, h2, h3, h4⟩ := h
  obtain ⟨g1, g2, g3⟩ := hg.own c o h0
  have hblen : b ≤ I.length := hlast b (List.mem_of_getElem? hb)
  have hbd : ∀ (t : State) (x y j : ℕ), t.bufs o.indptr = P.map (fun p : ℕ => (p : ℚ)) → P[j]? = some x →
      P[j + 1]? = some y → t.bounds o (j : ℤ) = .ok (x, y) := by
    intro t x y j ht hx hy
    unfold State.bounds
    rw [ht]
    unfold Sparse.pyIdx pyGet
    rw [if_pos (by omega), if_pos (by omega)]
    have n1 : ((j : ℤ)).toNat = j := by omega
    have n2 : ((j : ℤ) + 1).toNat = j + 1 := by omega
    rw [n1, n2, List.getElem?_map, List.getElem?_map, hx, hy]
    have f1 : ⌊(x : ℚ)⌋.toNat = x := by rw [Int.floor_natCast, Int.toNat_natCast]
    have f2 : ⌊(y : ℚ)⌋.toNat = y := by rw [Int.floor_natCast, Int.toNat_natCast]
    show Except.ok (⌊(x : ℚ)⌋.toNat, ⌊(y : ℚ)⌋.toNat) = _
    rw [f1, f2]
  set s' : State := { s with bufs := Function.update s.bufs o.indices ((s.bufs o.indices).set (a + k) v) } with hs'
  have e0 : s'.objs = s.objs := rfl
  have e1 : s'.bufs o.indices = I.set (a + k) v := by
    show Function.update _ _ _ _ = _
    rw [Function.update_self, h2]
  have eo : ∀ x, x ≠ o.indices → s'.bufs x = s.bufs x := fun x hx => Function.update_of_ne hx _ _
  have e2 : s'.bufs o.data = s.bufs o.data := eo _ (by omega)
  have e3 : s'.bufs o.indptr = s.bufs o.indptr := eo _ (by omega)
  have hbs : ∀ j, s'.bounds o j = s.bounds o j := fun j => by unfold State.bounds; rw [e3]
  have hb0 := hbd s a b i h3 ha hb
  have hsl : (Sparse.slice I a b).length = b - a := slice_length I a b hblen
  refine ⟨s', Sparse.slice I a b, ?_, ?_, ?_, by omega, ?_, ?_, ?_⟩
  · simp only [step, h0, hb0, State.setSlice]
    rw [h2, if_pos (by omega), hs', h2]
  · simp only [step, h0, hb0, h2, Except.map]
  · simp only [step, e0, h0, hbs, hb0, e1, Except.map]
    rw [(slice_set I a b (a + k) v).2 k rfl]
  · intro i' hne
    simp only [step, e0, h0, hbs]
    rcases hx : P[i']? with _ | x
    · have : s.bounds o (i' : ℤ) = .error .index := by
        unfold State.bounds
        rw [h3]
        unfold Sparse.pyIdx pyGet
        rw [if_pos (by omega)]
        have n1 : ((i' : ℤ)).toNat = i' := by omega
        rw [n1, List.getElem?_map, hx]
        rfl
      rw [this]
      rfl
    rcases hy : P[i' + 1]? with _ | y
    · have : s.bounds o (i' : ℤ) = .error .index := by
        unfold State.bounds
        rw [h3]
        unfold Sparse.pyIdx pyGet
        rw [if_pos (by omega), if_pos (by omega)]
        have n1 : ((i' : ℤ)).toNat = i' := by omega
        have n2 : ((i' : ℤ) + 1).toNat = i' + 1 := by omega
        rw [n1, n2, List.getElem?_map, List.getElem?_map, hx, hy]
        rfl
      rw [this]
      rfl
    rw [hbd s x y i' h3 hx hy]
    simp only [Except.map, e1, h2]
    rw [(slice_set I x y (a + k) v).1]
    have hp : ∀ (j l p q : ℕ), j < l → P[j]? = some p → P[l]? = some q → p ≤ q := by
      intro j l p q hjl hj hl
      obtain ⟨q1, q2⟩ := List.getElem?_eq_some_iff.1 hj
      obtain ⟨q3, q4⟩ := List.getElem?_eq_some_iff.1 hl
      have := List.pairwise_iff_getElem.1 hmono j l q1 q3 hjl
      omega
    rcases lt_or_gt_of_ne hne with hlt | hgt
    · right
      rcases Nat.lt_or_ge (i' + 1) i with h' | h'
      · have := hp (i' + 1) i y a h' hy ha
        omega
      · have : i' + 1 = i := by omega
        rw [this, ha] at hy
        have := Option.some.inj hy
        omega
    · left
      rcases Nat.lt_or_ge (i + 1) i' with h' | h'
      · have := hp (i + 1) i' b x h' hb hx
        omega
      · have : i + 1 = i' := by omega
        rw [← this, hb] at hx
        have := Option.some.inj hx
        omega
  · intro i'
    simp only [step, e0, h0, hbs, e2]
  · rintro c' hne D' I' P' sh ⟨o', k0, k1, k2, k3, k4⟩
    obtain ⟨m1, m2, m3⟩ := hg.own c' o' k0
    have hap : o'.data + 2 < o.data ∨ o.data + 2 < o'.data := by
      rcases lt_or_gt_of_ne hne with hlt | hgt
      · exact .inl (hg.apart c' c o' o k0 h0 hlt)
      · exact .inr (hg.apart c c' o o' h0 k0 hgt)
    exact ⟨o', k0, by rw [eo _ (by omega), k1], by rw [eo _ (by omega), k2], by rw [eo _ (by omega), k3], k4⟩

/-- C110: `to_scipy` copies nothing: what is written to the values of the SciPy matrix is written to the matrix. -/
theorem C110_scipy_shared (s : State) (hg : Good s) (c : ℕ) (D I P : List ℚ) (shape : ℕ × ℤ)
    (h : Holds s c D I P shape) :
    ∃ d i p, step s (.toScipy c) = (s, .ok (.arrays d i p shape)) ∧ s.bufs d = D ∧ s.bufs i = I ∧ s.bufs p = P ∧
      ∀ (k : ℕ) (v : ℚ), k < D.length → ∃ s', step s (.write d k v) = (s', .ok .unit) ∧
        Holds s' c (D.set k v) I P shape := by
  obtain ⟨o, h0, h1, h2, h3, h4⟩ := h
  obtain ⟨g1, g2, g3⟩ := hg.own c o h0
  refine ⟨o.data, o.indices, o.indptr, ?_, h1, h2, h3, fun k v hk => ?_⟩
  · simp only [step, h0, h4]
  · refine ⟨{ s with bufs := Function.update s.bufs o.data (D.set k v) }, ?_, o, h0, Function.update_self .., ?_, ?_, h4⟩
    · simp only [step]
      rw [if_pos (by omega), h1, if_pos hk]
    · show Function.update _ _ _ _ = _
      rw [Function.update_of_ne (by omega), h2]
    · show Function.update _ _ _ _ = _
      rw [Function.update_of_ne (by omega), h3]

/-- C110: integers of up to 53 bits and all numbers that are in double precision already are kept as values, and
integers of 32 bits as indices. -/
theorem C110_formats :
    (∀ n : ℤ, |n| ≤ 2 ^ 53 → float64 n = n) ∧ (∀ x : ℚ, float64 (float64 x) = float64 x) ∧
    ∀ n : ℤ, -2 ^ 31 ≤ n → n < 2 ^ 31 → int32 n = n :=
  ⟨float64_int, fun x => (binary_rounding 53 (by norm_num)).idem x, int32_int⟩

/-- C110 fails for larger integers: of a matrix with the single value 2⁵³ + 1 in column 2³¹, the value is stored as
2⁵³ and the column as -2³¹. -/
theorem C110_large_violated (s : State) (hg : Good s) (d i p : ℕ) (hd : d < s.next) (hi : i < s.next)
    (hp : p < s.next) (h1 : s.bufs d = [2 ^ 53 + 1]) (h2 : s.bufs i = [2 ^ 31]) (h3 : s.bufs p = [0, 1]) :
    ∃ s' c, step s (.ofArrays d i p (1, 2 ^ 31 + 1)) = (s', .ok (.csr c)) ∧
      Holds s' c [2 ^ 53] [-2 ^ 31] [0, 1] (1, 2 ^ 31 + 1) := by
  obtain ⟨s', c, e1, -, e2⟩ := C110_copy s hg d i p hd hi hp (1, 2 ^ 31 + 1)
  refine ⟨s', c, e1, ?_⟩
  have : Holds s' c _ _ _ _ := e2 [] (by simp)
  rw [h1, h2, h3] at this
  have f1 : float64 (2 ^ 53 + 1) = 2 ^ 53 := by decide +kernel
  have f2 : int32 (2 ^ 31) = -2 ^ 31 := by decide +kernel
  have f3 : int32 0 = 0 := by decide +kernel
  have f4 : int32 1 = 1 := by decide +kernel
  simpa [f1, f2, f3, f4] using this

/-- A session: an array, a matrix made from it, an assignment to the array and to an entry of the matrix. -/
def exState : State := run ⟨fun _ => [], 0, []⟩ [.array [1, 2, 3, 4], .ofDense 0 2 2, .write 0 1 7, .setRow 0 1 0 5]

example : (step exState (.row 0 0)).2 = .ok (.values [1, 2]) ∧ (step exState (.row 0 1)).2 = .ok (.values [5, 4]) ∧
    exState.bufs 0 = [1, 7, 3, 4] := by
  decide +kernel

/-- The hypotheses of `C110_dense` can be met. -/
example : ∃ s' c, step (run ⟨fun _ => [], 0, []⟩ [.array [1, 2, 3, 4]]) (.ofDense 0 2 2) = (s', .ok (.csr c)) ∧
    ∀ ops : List Op, (∀ op ∈ ops, Old (run ⟨fun _ => [], 0, []⟩ [.array [1, 2, 3, 4]]) op) →
      (step (run s' ops) (.row c (1 : ℕ))).2 = .ok (.values ([3, 4].map float64)) := by
  obtain ⟨s', c, h1, h2⟩ := C110_dense (run ⟨fun _ => [], 0, []⟩ [.array [1, 2, 3, 4]])
    (C110_sessions _ rfl _) 0 2 (by decide) [[1, 2], [3, 4]] (by decide) rfl (by decide) (by decide)
  exact ⟨s', c, h1, fun ops hops => (h2 ops hops 1 [3, 4] rfl).1⟩

/-- The hypotheses of `C110_row_view` can be met. -/
example : ∃ (s' : State) (r : List ℚ), step exState (.setRow 0 (1 : ℕ) 1 9) = (s', .ok .unit) ∧
    (step s' (.row 0 (1 : ℕ))).2 = .ok (.values (r.set 1 9)) := by
  obtain ⟨s', r, h1, -, h2, -⟩ := C110_row_view exState (C110_sessions _ rfl _) 0 [1, 2, 5, 4] [0, 1, 0, 1] [0, 2, 4] (2, 2)
    ⟨⟨1, 2, 3, (2, 2)⟩, by decide +kernel, by decide +kernel, by decide +kernel, by decide +kernel, rfl⟩ (by decide)
    (by decide) 1 1 2 4 rfl rfl (by decide) 9
  exact ⟨s', r, h1, h2⟩

/-- The hypotheses of `C110_irow_view` can be met. -/
example : ∃ (s' : State) (r : List ℚ), step exState (.setIrow 0 (1 : ℕ) 1 9) = (s', .ok .unit) ∧
    (step s' (.irow 0 (1 : ℕ))).2 = .ok (.values (r.set 1 9)) := by
  obtain ⟨s', r, h1, -, h2, -⟩ := C110_irow_view exState (C110_sessions _ rfl _) 0 [1, 2, 5, 4] [0, 1, 0, 1] [0, 2, 4]
    (2, 2) ⟨⟨1, 2, 3, (2, 2)⟩, by decide +kernel, by decide +kernel, by decide +kernel, by decide +kernel, rfl⟩ (by decide)
    (by decide) 1 1 2 4 rfl rfl (by decide) 9
  exact ⟨s', r, h1, h2⟩

end Verif.CsrMem.Props
