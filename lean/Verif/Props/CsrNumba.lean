import Verif.Proofs.CsrNumba
import Verif.Props.CsrMem

/-!
# C117: CSR matrices in compiled code
-/

namespace Verif.CsrNb.Props
open Verif Verif.Rnd Verif.CsrMem Verif.CsrMem.Props Verif.CsrNb

/-- The statement outside of compiled code that corresponds to an instruction, for the matrix `c`, which is `o`. -/
def twin (c : ℕ) (o : Obj) : Instr → Op
  | .row i => .row c i
  | .irow i => .irow c i
  | .setRow i k v => .setRow c i k v
  | .setIrow i k v => .setIrow c i k v
  | .setData k v => .write o.data k v
  | .setIndices k v => .write o.indices k v

/-- Statements one after the other, up to the first exception. -/
def session : State → List Op → Py (State × List Ret)
  | s, [] => .ok (s, [])
  | s, x :: xs =>
    match step s x with
    | (_, .error e) => .error e
    | (t, .ok r) =>
      match session t xs with
      | .error e => .error e
      | .ok q => .ok (q.1, r :: q.2)

theorem exec_twin {s t : State} {c : ℕ} {o : Obj} (hc : s.objs[c]? = some o) {x : Instr} {r : Ret}
    (h : step s (twin c o x) = (t, .ok r)) : exec s (unbox o) x = some (t, r) := by
  cases x with
  | row i =>
    simp only [twin, step, hc] at h
    obtain ⟨rfl, h'⟩ := Prod.mk.inj h
    cases hb : s.bounds o i with
    | error e => rw [hb] at h'; cases h'
    | ok ab =>
      rw [hb] at h'
      obtain rfl := Except.ok.inj h'
      simp only [exec, nbBounds_eq hb]
      rfl
  | irow i =>
    simp only [twin, step, hc] at h
    obtain ⟨rfl, h'⟩ := Prod.mk.inj h
    cases hb : s.bounds o i with
    | error e => rw [hb] at h'; cases h'
    | ok ab =>
      rw [hb] at h'
      obtain rfl := Except.ok.inj h'
      simp only [exec, nbBounds_eq hb]
      rfl
  | setRow i k v =>
    simp only [twin, step, hc] at h
    cases hb : s.bounds o i with
    | error e => rw [hb] at h; cases (Prod.mk.inj h).2
    | ok ab =>
      rw [hb] at h
      simp only [exec, nbBounds_eq hb]
      exact poke_eq h
  | setIrow i k v =>
    simp only [twin, step, hc] at h
    cases hb : s.bounds o i with
    | error e => rw [hb] at h; cases (Prod.mk.inj h).2
    | ok ab =>
      rw [hb] at h
      simp only [exec, nbBounds_eq hb]
      exact poke_eq h
  | setData k v =>
    simp only [twin, step] at h
    by_cases h1 : o.data < s.next
    · rw [if_pos h1] at h
      by_cases h2 : k < (s.bufs o.data).length
      · rw [if_pos h2] at h
        obtain ⟨rfl, h'⟩ := Prod.mk.inj h
        obtain rfl := Except.ok.inj h'
        simp only [exec, poke, unbox, Nat.zero_add, if_pos h2]
      · rw [if_neg h2] at h; cases (Prod.mk.inj h).2
    · rw [if_neg h1] at h; cases (Prod.mk.inj h).2
  | setIndices k v =>
    simp only [twin, step] at h
    by_cases h1 : o.indices < s.next
    · rw [if_pos h1] at h
      by_cases h2 : k < (s.bufs o.indices).length
      · rw [if_pos h2] at h
        obtain ⟨rfl, h'⟩ := Prod.mk.inj h
        obtain rfl := Except.ok.inj h'
        simp only [exec, poke, unbox, Nat.zero_add, if_pos h2]
      · rw [if_neg h2] at h; cases (Prod.mk.inj h).2
    · rw [if_neg h1] at h; cases (Prod.mk.inj h).2

/-- C117, partial: if the statements of a compiled function raise nothing outside of compiled code, then inside they give the same
values and leave the same memory behind; in particular what is written there is seen outside.

Missing, because it is false: statements that raise outside raise inside (`C117_outside_violated`). -/
theorem C117_same_partial (c : ℕ) (o : Obj) (body : List Instr) : ∀ (s t : State) (rs : List Ret), s.objs[c]? = some o →
    session s (body.map (twin c o)) = .ok (t, rs) → exec' (unbox o) s body = some (t, rs) := by
  induction body with
  | nil =>
    intro s t rs _ h
    obtain ⟨rfl, rfl⟩ := Prod.mk.inj (Except.ok.inj h)
    rfl
  | cons x xs ih =>
    intro s t rs hc h
    rw [List.map_cons, session] at h
    cases hx : step s (twin c o x) with
    | mk s1 r1 =>
      rw [hx] at h
      cases r1 with
      | error e => cases h
      | ok r1 =>
        simp only at h
        cases hs : session s1 (xs.map (twin c o)) with
        | error e => rw [hs] at h; cases h
        | ok q =>
          rw [hs] at h
          obtain ⟨rfl, rfl⟩ := Prod.mk.inj (Except.ok.inj h)
          have ho := (step_eff s (twin c o x)).objs c o hc
          rw [hx] at ho
          have e2 := ih s1 q.1 q.2 ho hs
          rw [exec', exec_twin hc hx]
          simp only [bind, Option.bind, e2]
          rfl

/-- All numbers of the matrix `c` are what its arrays can hold: doubles, and integers of 32 bits. -/
def Fits (s : State) (c : ℕ) : Prop :=
  ∃ o, s.objs[c]? = some o ∧ (∀ x ∈ s.bufs o.data, binary 53 x = x) ∧
    (∀ x ∈ s.bufs o.indices, ∃ n : ℤ, x = n ∧ -2 ^ 31 ≤ n ∧ n < 2 ^ 31) ∧
    (∀ x ∈ s.bufs o.indptr, ∃ n : ℤ, x = n ∧ -2 ^ 31 ≤ n ∧ n < 2 ^ 31)

theorem int32_range (x : ℚ) : ∃ n : ℤ, int32 x = n ∧ -2 ^ 31 ≤ n ∧ n < 2 ^ 31 :=
  ⟨_, rfl, by have := Int.emod_nonneg (⌊x⌋ + 2 ^ 31) (b := 2 ^ 32) (by norm_num); omega,
    by have := Int.emod_lt_of_pos (⌊x⌋ + 2 ^ 31) (b := 2 ^ 32) (by norm_num); omega⟩

theorem newCsr_fits (s : State) (d i p : List ℚ) (sh : ℕ × ℤ) : Fits (s.newCsr d i p sh) s.objs.length := by
  obtain ⟨h1, h2, h3⟩ := newCsr_bufs s d i p sh
  refine ⟨_, newCsr_obj s d i p sh, ?_, ?_, ?_⟩
  · show ∀ x ∈ (s.newCsr d i p sh).bufs s.next, _
    rw [h1]
    intro x hx
    obtain ⟨y, -, rfl⟩ := List.mem_map.mp hx
    exact (binary_rounding 53 (by norm_num)).idem y
  · show ∀ x ∈ (s.newCsr d i p sh).bufs (s.next + 1), _
    rw [h2]
    intro x hx
    obtain ⟨y, -, rfl⟩ := List.mem_map.mp hx
    exact int32_range y
  · show ∀ x ∈ (s.newCsr d i p sh).bufs (s.next + 2), _
    rw [h3]
    intro x hx
    obtain ⟨y, -, rfl⟩ := List.mem_map.mp hx
    exact int32_range y

/-- C117: the numbers of every new matrix fit its arrays, whatever it is made of. -/
theorem C117_fits (s s' : State) (c : ℕ) (op : Op) (h : step s op = (s', .ok (.csr c))) : Fits s' c := by
  cases op with
  | ofArrays d i p sh =>
    simp only [step] at h
    split at h
    · obtain ⟨rfl, h'⟩ := Prod.mk.inj h
      obtain rfl := Ret.csr.inj (Except.ok.inj h')
      exact newCsr_fits _ _ _ _ _
    · cases (Prod.mk.inj h).2
  | ofDense a n m =>
    simp only [step] at h
    split at h
    · obtain ⟨rfl, h'⟩ := Prod.mk.inj h
      obtain rfl := Ret.csr.inj (Except.ok.inj h')
      exact newCsr_fits _ _ _ _ _
    · cases (Prod.mk.inj h).2
  | array l => cases Except.ok.inj (Prod.mk.inj h).2
  | row c' i =>
    simp only [step] at h
    split at h
    · cases (Prod.mk.inj h).2
    · rename_i o _
      have h := (Prod.mk.inj h).2
      cases hb : s.bounds o i with
      | error e => rw [hb] at h; cases h
      | ok ab => rw [hb] at h; cases Except.ok.inj h
  | irow c' i =>
    simp only [step] at h
    split at h
    · cases (Prod.mk.inj h).2
    · rename_i o _
      have h := (Prod.mk.inj h).2
      cases hb : s.bounds o i with
      | error e => rw [hb] at h; cases h
      | ok ab => rw [hb] at h; cases Except.ok.inj h
  | setRow c' i k v =>
    simp only [step] at h
    split at h
    · cases (Prod.mk.inj h).2
    · split at h
      · cases (Prod.mk.inj h).2
      · unfold State.setSlice at h
        split at h
        · cases Except.ok.inj (Prod.mk.inj h).2
        · cases (Prod.mk.inj h).2
  | setIrow c' i k v =>
    simp only [step] at h
    split at h
    · cases (Prod.mk.inj h).2
    · split at h
      · cases (Prod.mk.inj h).2
      · unfold State.setSlice at h
        split at h
        · cases Except.ok.inj (Prod.mk.inj h).2
        · cases (Prod.mk.inj h).2
  | toScipy c' =>
    simp only [step] at h
    split at h
    · cases (Prod.mk.inj h).2
    · cases Except.ok.inj (Prod.mk.inj h).2
  | write b k v =>
    simp only [step] at h
    split at h
    · split at h
      · cases Except.ok.inj (Prod.mk.inj h).2
      · cases (Prod.mk.inj h).2
    · cases (Prod.mk.inj h).2

/-- The value written, if any, is one that the array can hold. -/
def Writable : Instr → Prop
  | .setRow _ _ v | .setData _ v => binary 53 v = v
  | .setIrow _ _ v | .setIndices _ v => ∃ n : ℤ, v = n ∧ -2 ^ 31 ≤ n ∧ n < 2 ^ 31
  | .row _ | .irow _ => True

/-- C117: the numbers of a matrix still fit its arrays after a compiled function has written to it. -/
theorem C117_fits_kept (c : ℕ) (o : Obj) (body : List Instr) : ∀ (s : State) (q : State × List Ret), Good s →
    s.objs[c]? = some o → (∀ x ∈ body, Writable x) → Fits s c → exec' (unbox o) s body = some q → Fits q.1 c := by
  induction body with
  | nil =>
    intro s q _ _ _ hf h
    obtain rfl := Option.some.inj h
    exact hf
  | cons x xs ih =>
    intro s q hg hc hw hf h
    obtain ⟨r, q', hr, hq, rfl⟩ := exec'_cons h
    obtain ⟨e1, e2, e3⟩ := exec_bufs hr
    have hg' : Good r.1 := ⟨fun c o h => by rw [e3]; exact hg.own c o (by rwa [e2] at h),
      fun c c' o o' h h' => hg.apart c c' o o' (by rwa [e2] at h) (by rwa [e2] at h')⟩
    have hc' : r.1.objs[c]? = some o := by rw [e2]; exact hc
    refine ih r.1 q' hg' hc' (fun y hy => hw y (List.mem_cons_of_mem _ hy)) ?_ hq
    obtain ⟨o1, ho1, f1, f2, f3⟩ := hf
    obtain rfl := Option.some.inj (hc.symm.trans ho1)
    obtain ⟨g1, g2, g3⟩ := hg.own c o hc
    have hx := hw x List.mem_cons_self
    have kd : ∀ a k v, binary 53 v = v → poke s o.data a k v = some r → Fits r.1 c := by
      intro a k v hv hp
      obtain ⟨p1, -, -, p4⟩ := poke_bufs (s' := r.1) (r := r.2) hp
      refine ⟨o, hc', fun y hy => ?_, ?_, ?_⟩
      · rcases p4 y hy with rfl | hy
        · exact hv
        · exact f1 y hy
      · rw [p1 _ (by omega)]; exact f2
      · rw [p1 _ (by omega)]; exact f3
    have ki : ∀ a k (v : ℚ), (∃ n : ℤ, v = n ∧ -2 ^ 31 ≤ n ∧ n < 2 ^ 31) → poke s o.indices a k v = some r → Fits r.1 c := by
      intro a k v hv hp
      obtain ⟨p1, -, -, p4⟩ := poke_bufs (s' := r.1) (r := r.2) hp
      refine ⟨o, hc', ?_, fun y hy => ?_, ?_⟩
      · rw [p1 _ (by omega)]; exact f1
      · rcases p4 y hy with rfl | hy
        · exact hv
        · exact f2 y hy
      · rw [p1 _ (by omega)]; exact f3
    have kr : ∀ (g : ℕ × ℕ → Ret) i, (nbBounds s (unbox o) i).map (fun ab => (s, g ab)) = some r → Fits r.1 c := by
      intro g i hm
      obtain ⟨ab, -, rfl⟩ := Option.map_eq_some_iff.mp hm
      exact ⟨o, hc, f1, f2, f3⟩
    cases x with
    | row i => exact kr _ i hr
    | irow i => exact kr _ i hr
    | setRow i k v =>
      obtain ⟨ab, -, hp⟩ := Option.bind_eq_some_iff.mp hr
      exact kd _ _ _ hx hp
    | setIrow i k v =>
      obtain ⟨ab, -, hp⟩ := Option.bind_eq_some_iff.mp hr
      exact ki _ _ _ hx hp
    | setData k v => exact kd _ _ _ hx hr
    | setIndices k v => exact ki _ _ _ hx hr

/-- C117: a compiled function that returns the matrix it was given returns a new matrix with the same content, namely the one the
function has left behind; the matrix given has this content, too.  Both are then independent: what compiled functions write to
one of them does not change the other one, and neither do statements about things that existed before. -/
theorem C117_returned (s : State) (hg : Good s) (c : ℕ) (body : List Instr) (u : State) (rs : List Ret)
    (h : call s c body = some (u, rs)) :
    ∃ (o : Obj) (t : State) (d : ℕ), s.objs[c]? = some o ∧ exec' (unbox o) s body = some (t, rs.dropLast) ∧
      rs.getLast? = some (.csr d) ∧ d ≠ c ∧ Good u ∧
      Holds u c (t.bufs o.data) (t.bufs o.indices) (t.bufs o.indptr) o.shape ∧
      (Fits t c → Holds u d (t.bufs o.data) (t.bufs o.indices) (t.bufs o.indptr) o.shape) ∧
      (∀ (body' : List Instr) (q : State × List Ret), exec' (unbox o) u body' = some q → ∀ D I P sh,
        Holds u d D I P sh → Holds q.1 d D I P sh) ∧
      (∀ o', u.objs[d]? = some o' → ∀ (body' : List Instr) (q : State × List Ret), exec' (unbox o') u body' = some q →
        ∀ (c' : ℕ) D I P sh, c' < s.objs.length → Holds u c' D I P sh → Holds q.1 c' D I P sh) ∧
      (∀ (ops : List Op), (∀ op ∈ ops, Old t op) → ∀ D I P sh, Holds u d D I P sh → Holds (run u ops) d D I P sh) := by
  unfold call at h
  obtain ⟨o, ho, h⟩ := Option.bind_eq_some_iff.mp h
  obtain ⟨⟨t, rs'⟩, ht, h⟩ := Option.bind_eq_some_iff.mp h
  obtain ⟨rfl, rfl⟩ := Prod.mk.inj (Option.some.inj h)
  obtain ⟨e1, e2, e3⟩ := exec'_bufs body ht
  simp only at e1 e2 e3
  have hgt : Good t := ⟨fun c o h => by rw [e3]; exact hg.own c o (by rwa [e2] at h),
    fun c c' o o' h h' => hg.apart c c' o o' (by rwa [e2] at h) (by rwa [e2] at h')⟩
  have hot : t.objs[c]? = some o := by rw [e2]; exact ho
  have hlt : c < t.objs.length := (List.getElem?_eq_some_iff.1 hot).1
  have heff := Eff.newCsr t (.array []) (t.bufs o.data) (t.bufs o.indices) (t.bufs o.indptr) o.shape
  have hgu : Good (box t (unbox o)) := heff.good hgt
  obtain ⟨b1, b2, b3⟩ := newCsr_bufs t (t.bufs o.data) (t.bufs o.indices) (t.bufs o.indptr) o.shape
  have hobj := newCsr_obj t (t.bufs o.data) (t.bufs o.indices) (t.bufs o.indptr) o.shape
  obtain ⟨g1, g2, g3⟩ := hgt.own c o hot
  have hnot : ∀ b, ¬ Writes t b (.array []) := fun b hw => hw
  have hcu : Holds (box t (unbox o)) c (t.bufs o.data) (t.bufs o.indices) (t.bufs o.indptr) o.shape :=
    ⟨o, heff.objs c o hot, heff.bufs _ (by omega) (hnot _), heff.bufs _ (by omega) (hnot _), heff.bufs _ (by omega) (hnot _), rfl⟩
  refine ⟨o, t, t.objs.length, ho, by simpa using ht, by simp, by omega, hgu, hcu, ?_, ?_, ?_, ?_⟩
  · rintro ⟨o1, h1, f1, f2, f3⟩
    obtain rfl := Option.some.inj (hot.symm.trans h1)
    refine ⟨_, hobj, ?_, ?_, ?_, rfl⟩
    · show (box t (unbox o)).bufs t.next = _
      refine b1.trans ?_
      conv_rhs => rw [← List.map_id (t.bufs o.data)]
      exact List.map_congr_left fun x hx => f1 x hx
    · show (box t (unbox o)).bufs (t.next + 1) = _
      refine b2.trans ?_
      conv_rhs => rw [← List.map_id (t.bufs o.indices)]
      refine List.map_congr_left fun x hx => ?_
      obtain ⟨n, rfl, l1, l2⟩ := f2 x hx
      exact int32_int n l1 l2
    · show (box t (unbox o)).bufs (t.next + 2) = _
      refine b3.trans ?_
      conv_rhs => rw [← List.map_id (t.bufs o.indptr)]
      refine List.map_congr_left fun x hx => ?_
      obtain ⟨n, rfl, l1, l2⟩ := f3 x hx
      exact int32_int n l1 l2
  · rintro body' q hq D I P sh ⟨o', h1, h2, h3, h4, h5⟩
    obtain ⟨w1, w2, w3⟩ := exec'_bufs body' hq
    obtain rfl := Option.some.inj (hobj.symm.trans h1)
    refine ⟨_, by rw [w2]; exact hobj, ?_, ?_, ?_, h5⟩
    · exact (w1 _ (by show t.next ≠ o.data; omega) (by show t.next ≠ o.indices; omega)).trans h2
    · exact (w1 _ (by show t.next + 1 ≠ o.data; omega) (by show t.next + 1 ≠ o.indices; omega)).trans h3
    · exact (w1 _ (by show t.next + 2 ≠ o.data; omega) (by show t.next + 2 ≠ o.indices; omega)).trans h4
  · rintro o' ho' body' q hq c' D I P sh hc' ⟨o2, h1, h2, h3, h4, h5⟩
    obtain rfl := Option.some.inj (hobj.symm.trans ho')
    obtain ⟨w1, w2, w3⟩ := exec'_bufs body' hq
    have hc2 : t.objs[c']? = some o2 := by
      rw [← h1]
      exact (heff.objs c' _ (by rw [e2]; exact List.getElem?_eq_getElem hc')).symm ▸ (by
        rw [e2]; exact List.getElem?_eq_getElem hc')
    obtain ⟨k1, k2, k3⟩ := hgt.own c' o2 hc2
    refine ⟨o2, by rw [w2]; exact h1, ?_, ?_, ?_, h5⟩
    · exact (w1 _ (by show o2.data ≠ t.next; omega) (by show o2.data ≠ t.next + 1; omega)).trans h2
    · exact (w1 _ (by show o2.indices ≠ t.next; omega) (by show o2.indices ≠ t.next + 1; omega)).trans h3
    · exact (w1 _ (by show o2.indptr ≠ t.next; omega) (by show o2.indptr ≠ t.next + 1; omega)).trans h4
  · rintro ops hops D I P sh ⟨o', h1, h2, h3, h4, h5⟩
    obtain rfl := Option.some.inj (hobj.symm.trans h1)
    have := fresh t hgt (box t (unbox o)) hgu t.objs.length _ hobj (le_refl _) heff.objs ops hops
    rw [h2, h3, h4, h5] at this
    exact this

/-- C117: a row outside of the matrix, with a number that is neither that of a row nor counted from the end of the row pointers:
`IndexError` outside of compiled code, memory outside of the arrays inside.  Rows counted from the end are those of `C117_same_partial`. -/
theorem C117_rows (s : State) (c : ℕ) (o : Obj) (hc : s.objs[c]? = some o) (i : ℤ)
    (hi : (s.bufs o.indptr).length ≤ i + 1 ∨ i < -(s.bufs o.indptr).length) :
    step s (.row c i) = (s, .error .index) ∧ step s (.irow c i) = (s, .error .index) ∧
      exec s (unbox o) (.row i) = none ∧ exec s (unbox o) (.irow i) = none := by
  have hp : s.bounds o i = .error .index := by
    unfold State.bounds
    rcases hi with hi | hi
    · have e : ∀ j : ℤ, (s.bufs o.indptr).length ≤ j → Sparse.pyIdx (s.bufs o.indptr) j = .error .index := by
        intro j hj
        unfold Sparse.pyIdx
        rw [if_pos (by omega)]
        unfold pyGet
        rw [List.getElem?_eq_none (by omega)]
      cases ha : Sparse.pyIdx (s.bufs o.indptr) i with
      | error e' =>
        have : e' = .index := by
          unfold Sparse.pyIdx pyGet at ha
          split at ha
          · split at ha
            · cases ha
            · exact (Except.error.inj ha).symm
          · split at ha
            · split at ha
              · cases ha
              · exact (Except.error.inj ha).symm
            · exact (Except.error.inj ha).symm
        rw [this]; rfl
      | ok a => rw [e (i + 1) hi]; rfl
    · have : Sparse.pyIdx (s.bufs o.indptr) i = .error .index := by
        unfold Sparse.pyIdx
        rw [if_neg (by omega), if_neg (by omega)]
      rw [this]; rfl
  have hn : nbBounds s (unbox o) i = none := by
    unfold nbBounds
    show (nbIdx (s.bufs o.indptr) i).bind (fun a => (nbIdx (s.bufs o.indptr) (i + 1)).bind _) = none
    rcases hi with hi | hi
    · have : nbIdx (s.bufs o.indptr) (i + 1) = none := by
        unfold nbIdx
        have h1 : ¬ i + 1 < 0 := by omega
        simp only [if_neg h1]
        exact List.getElem?_eq_none (by omega)
      rw [this]
      cases nbIdx (s.bufs o.indptr) i <;> rfl
    · have : nbIdx (s.bufs o.indptr) i = none := by
        unfold nbIdx
        have h1 : i < 0 := by omega
        have h2 : i + ((s.bufs o.indptr).length : ℤ) < 0 := by omega
        simp only [if_pos h1, if_pos h2]
      rw [this]; rfl
  refine ⟨?_, ?_, ?_, ?_⟩
  · simp only [step, hc, hp]; rfl
  · simp only [step, hc, hp]; rfl
  · simp only [exec, hn]; rfl
  · simp only [exec, hn]; rfl

/-- The matrix with the rows `1 2` and `3 4`. -/
def exState : State := run ⟨fun _ => [], 0, []⟩ [.array [1, 2, 3, 4], .ofDense 0 2 2]

/-- C117 fails outside of a row: assigning to the third item of a row of two raises `IndexError`, and changes nothing, outside of
compiled code; inside it changes the next row. -/
theorem C117_outside_violated :
    ∃ (s t : State) (c : ℕ) (o : Obj), Good s ∧ s.objs[c]? = some o ∧
      step s (.setRow c 0 2 9) = (s, .error .index) ∧ (step s (.row c 1)).2 = .ok (.values [3, 4]) ∧
      exec s (unbox o) (.setRow 0 2 9) = some (t, .unit) ∧ (step t (.row c 1)).2 = .ok (.values [9, 4]) := by
  refine ⟨exState, { bufs := Function.update exState.bufs 1 [1, 2, 9, 4], next := exState.next, objs := exState.objs }, 0,
    ⟨1, 2, 3, (2, 2)⟩, C110_sessions _ rfl _, by decide +kernel, ?_, by decide +kernel, ?_, by decide +kernel⟩
  · have hb : exState.bounds ⟨1, 2, 3, (2, 2)⟩ 0 = .ok (0, 2) := by decide +kernel
    have ho : exState.objs[0]? = some ⟨1, 2, 3, (2, 2)⟩ := by decide +kernel
    have hl : ¬ 2 < (Sparse.slice (exState.bufs 1) 0 2).length := by decide +kernel
    simp only [step, ho, hb, State.setSlice, if_neg hl]
  · have hb : nbBounds exState ⟨1, 2, 3, (2, 2)⟩ 0 = some (0, 2) := by decide +kernel
    have hl : min 0 (exState.bufs 1).length + 2 < (exState.bufs 1).length := by decide +kernel
    have hv : (exState.bufs 1).set (min 0 (exState.bufs 1).length + 2) 9 = [1, 2, 9, 4] := by decide +kernel
    simp only [exec, unbox, hb, Option.bind_some, poke, if_pos hl, hv]

/-! ## Cases -/

example : ∃ o, exState.objs[0]? = some o ∧ ∃ t, session exState ([Instr.setRow 1 0 7, .row 1, .irow (-2), .setData 0 5].map
    (twin 0 o)) = .ok (t, [.unit, .values [7, 4], .values [0, 1], .unit]) ∧ t.bufs o.data = [5, 2, 7, 4] := by
  refine ⟨⟨1, 2, 3, (2, 2)⟩, by decide +kernel, ?_⟩
  have h : ∃ q, session exState ([Instr.setRow 1 0 7, .row 1, .irow (-2), .setData 0 5].map (twin 0 ⟨1, 2, 3, (2, 2)⟩)) = .ok q ∧
      q.2 = [.unit, .values [7, 4], .values [0, 1], .unit] ∧ q.1.bufs 1 = [5, 2, 7, 4] := by
    exact ⟨_, rfl, by decide +kernel, by decide +kernel⟩
  obtain ⟨q, h1, h2, h3⟩ := h
  exact ⟨q.1, by rw [h1, ← h2], h3⟩

example : Good exState ∧ Fits exState 0 ∧ ∃ q, call exState 0 [.setRow 1 0 7] = some q ∧ q.2 = [.unit, .csr 1] := by
  refine ⟨C110_sessions _ rfl _, ?_, _, rfl, by decide +kernel⟩
  exact C117_fits (run ⟨fun _ => [], 0, []⟩ [.array [1, 2, 3, 4]]) exState 0 (.ofDense 0 2 2)
    (Prod.ext rfl (by decide +kernel))

end Verif.CsrNb.Props
