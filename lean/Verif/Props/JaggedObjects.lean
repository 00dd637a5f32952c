import Verif.Proofs.JaggedObjects

/-!
# Property C100: jagged arrays as containers
-/

set_option linter.unusedSectionVars false

namespace Verif.JagObj.Props
open Verif Verif.Sparse

section
variable {α : Type}

/-- `J.to_list()` is `L`. -/
def ToList (s : State α) (j : ℕ) (L : List (List α)) : Prop :=
  ∃ o, s.objs[j]? = some o ∧ s.rows o = L

/-- `J` wraps the 2d array `b`. -/
def Wraps (s : State α) (j b : ℕ) : Prop := (step s (.toArray j)).2 = .ok (.array b)

theorem wraps_iff (s : State α) (j b : ℕ) : Wraps s j b ↔ s.objs[j]? = some (.np b) := by
  unfold Wraps
  cases h : s.objs[j]? with
  | none => simp [step, State.obj, h, State.tryDo]
  | some o => cases o <;> simp [step, State.obj, h, State.tryDo]

/-- C100: what the theorems below assume of the state holds after any session that starts with rectangular
arrays and without jagged arrays. -/
theorem C100_sessions (s : State α) (h0 : s.objs = [])
    (h : ∀ b, b < s.next → ∀ r ∈ (s.bufs b).rows, r.length = (s.bufs b).m) (ops : List (Op α)) :
    Good (run s ops) :=
  run_good s ⟨h, by simp [h0]⟩ ops

/-- C100: a jagged array is a sequence of its rows: the length is their number, indices count from either
end, and other indices raise an IndexError. -/
theorem C100_sequence (s : State α) (j : ℕ) (L : List (List α)) (h : ToList s j L) :
    (step s (.len j)).2 = .ok (.nat L.length) ∧
      (∀ (i : ℕ) (hi : i < L.length), (step s (.getRow j i)).2 = .ok (.row L[i]) ∧
        (step s (.getRow j ((i : ℤ) - L.length))).2 = .ok (.row L[i])) ∧
      ∀ i : ℤ, i < -(L.length : ℤ) ∨ (L.length : ℤ) ≤ i → (step s (.getRow j i)).2 = .error .index := by
  obtain ⟨o, ho, rfl⟩ := h
  have hobj := obj_some ho
  refine ⟨by simp [step, hobj, State.tryDo], fun i hi => ⟨?_, ?_⟩, fun i hi => ?_⟩
  · have : position (s.rows o).length (i : ℤ) = .ok i := by
      simp [position, hi]
    simp [step, hobj, State.tryDo, this, pyGet_ok hi, Except.map]
  · have : position (s.rows o).length ((i : ℤ) - (s.rows o).length) = .ok i := by
      unfold position
      rw [if_neg (by omega), if_pos (by omega)]
      congr 1
      omega
    simp [step, hobj, State.tryDo, this, pyGet_ok hi, Except.map]
  · have : position (s.rows o).length i = .error .index := by
      unfold position
      split_ifs with h1 h2 h3
      · omega
      · rfl
      · omega
      · rfl
    simp [step, hobj, State.tryDo, this]

/-- C100: the items of the rows, and an IndexError outside of the row. -/
theorem C100_item (s : State α) (j : ℕ) (L : List (List α)) (h : ToList s j L) (i : ℕ)
    (hi : i < L.length) :
    (∀ (k : ℕ) (hk : k < L[i].length), (step s (.getItem j i k)).2 = .ok (.item L[i][k])) ∧
      ∀ k : ℕ, L[i].length ≤ k → (step s (.getItem j i k)).2 = .error .index := by
  obtain ⟨o, ho, rfl⟩ := h
  have hobj := obj_some ho
  have hp : position (s.rows o).length (i : ℤ) = .ok i := by simp [position, hi]
  refine ⟨fun k hk => ?_, fun k hk => ?_⟩
  · have hq : position (s.rows o)[i].length (k : ℤ) = .ok k := by simp [position, hk]
    simp [step, hobj, State.tryDo, hp, pyGet_ok hi, hq, pyGet_ok hk, Except.map]
  · have hq : position (s.rows o)[i].length (k : ℤ) = .error .index := by
      simp [position, Nat.not_lt.2 hk]
    simp [step, hobj, State.tryDo, hp, pyGet_ok hi, hq]

/-- C100: whatever happens, a jagged array goes on to exist with the same number of rows and the same
number of items in every row. -/
theorem C100_widths (s : State α) (hg : Good s) (ops : List (Op α)) (j : ℕ) (L : List (List α))
    (h : ToList s j L) :
    ∃ L', ToList (run s ops) j L' ∧ L'.map List.length = L.map List.length := by
  obtain ⟨o, ho, rfl⟩ := h
  exact ⟨_, ⟨o, run_obj s hg ops ho, rfl⟩, run_widths s hg ops o (List.mem_of_getElem? ho)⟩

/-- C100, for jagged arrays that wrap a NumPy array: after `J[i, k] = v` the rows are the same but for
this item. -/
theorem C100_set_item_partial (s : State α) (hg : Good s) (j b : ℕ) (hb : Wraps s j b)
    (L : List (List α)) (h : ToList s j L) (i k : ℕ) (v : α) (hi : i < L.length)
    (hk : k < L[i].length) :
    (step s (.setItem j i k v)).2 = .ok .unit ∧
      ToList (step s (.setItem j i k v)).1 j (L.set i (L[i].set k v)) := by
  rw [wraps_iff] at hb
  obtain ⟨o, ho, rfl⟩ := h
  rw [hb] at ho
  cases ho
  have hbn := hg.refs b (List.mem_of_getElem? hb)
  have hi' : i < (s.bufs b).rows.length := hi
  have hm : (s.bufs b).rows[i].length = (s.bufs b).m := hg.rect b hbn _ (List.getElem_mem hi')
  have hk' : k < (s.bufs b).m := hm ▸ hk
  have hp : position (s.bufs b).rows.length (i : ℤ) = .ok i := by simp [position, hi']
  have hq : position (s.bufs b).m (k : ℤ) = .ok k := by simp [position, hk']
  have e : step s (.setItem j i k v) =
      ({ s with bufs := Function.update s.bufs b ((s.bufs b).set i k v) }, .ok .unit) := by
    simp [step, obj_some hb, State.tryDo, hp, hq]
  rw [e]
  refine ⟨rfl, .np b, hb, ?_⟩
  simp only [State.rows, Function.update_self, Buf.set]
  rw [List.modify_eq_set_getElem?]
  simp [hi']

/-- C100, for jagged arrays that wrap a NumPy array: after `J[i] = row` with a row of the same length
the rows are the same but for this one; a row of another length (other than one) is refused. -/
theorem C100_set_row_partial (s : State α) (hg : Good s) (j b : ℕ) (hb : Wraps s j b)
    (L : List (List α)) (h : ToList s j L) (i : ℕ) (row : List α) (hi : i < L.length) :
    (row.length = L[i].length → (step s (.setRow j i row)).2 = .ok .unit ∧
      ToList (step s (.setRow j i row)).1 j (L.set i row)) ∧
    (row.length ≠ L[i].length → row.length ≠ 1 →
      step s (.setRow j i row) = (s, .error .value)) := by
  rw [wraps_iff] at hb
  obtain ⟨o, ho, rfl⟩ := h
  rw [hb] at ho
  cases ho
  have hbn := hg.refs b (List.mem_of_getElem? hb)
  have hi' : i < (s.bufs b).rows.length := hi
  have hm : (s.bufs b).rows[i].length = (s.bufs b).m := hg.rect b hbn _ (List.getElem_mem hi')
  have hp : position (s.bufs b).rows.length (i : ℤ) = .ok i := by simp [position, hi']
  constructor
  · intro hr
    have ha : assignRow (s.bufs b).m row = .ok row := by
      unfold assignRow
      exact if_pos (hr.trans hm)
    have e : step s (.setRow j i row) = (⟨Function.update s.bufs b
        ⟨(s.bufs b).m, (s.bufs b).rows.set i row⟩, s.next, s.objs⟩, .ok .unit) := by
      simp [step, obj_some hb, State.tryDo, hp, ha]
    rw [e]
    exact ⟨rfl, .np b, hb, by simp [State.rows]⟩
  · intro hr h1
    have ha : assignRow (s.bufs b).m row = .error .value := by
      have h2 : row.length ≠ (s.bufs b).m := fun e => hr (e.trans hm.symm)
      unfold assignRow
      rw [if_neg h2]
      match row, h1 with
      | [], _ => rfl
      | _ :: _ :: _, _ => rfl
    simp [step, obj_some hb, State.tryDo, hp, ha]

/-- C100: an operation writes to no other object than the array it names or the array of the jagged array
it names: a jagged array that wraps another array, or none, keeps its rows. -/
theorem C100_others (s : State α) (hg : Good s) (j j' b : ℕ) (hb : Wraps s j b) (hb' : ¬ Wraps s j' b)
    (L' : List (List α)) (h : ToList s j' L') (i k : ℤ) (v : α) (row : List α) :
    ToList (step s (.setItem j i k v)).1 j' L' ∧ ToList (step s (.setRow j i row)).1 j' L' := by
  rw [wraps_iff] at hb hb'
  obtain ⟨o, ho, rfl⟩ := h
  have key : ∀ op : Op α, (∀ c, Writes s c op → c = b) → ToList (step s op).1 j' (s.rows o) := by
    intro op hop
    have he := step_eff s hg op
    refine ⟨o, he.obj_keep ho, ?_⟩
    cases o with
    | ak rows => rfl
    | np c =>
      have hc : c ≠ b := fun e => hb' (e ▸ ho)
      have := (he.bufs c (hg.refs c (List.mem_of_getElem? ho))).2 fun hw => hc (hop c hw)
      simp only [State.rows, this]
  constructor <;> apply key <;> intro c hw <;> cases hw <;> simp_all

/-- C100 is violated: jagged arrays, the rows of which have different lengths, cannot be assigned to,
at any time: the assignment of a row or an item that would fit raises a TypeError. -/
theorem C100_assign_violated (s : State α) (hg : Good s) (rows : List (List α)) (force : Bool)
    (hr : ∃ r ∈ rows, ∃ r' ∈ rows, r.length ≠ r'.length) :
    ∃ s' j, step s (.fromLists rows force) = (s', .ok (.jagged j)) ∧ ∀ (ops : List (Op α)),
      (∀ (i : ℤ) (row : List α), step (run s' ops) (.setRow j i row) = (run s' ops, .error .type)) ∧
      ∀ (i k : ℤ) (v : α), step (run s' ops) (.setItem j i k v) = (run s' ops, .error .type) := by
  have hw : s.wrap rows force = (s, .ak rows) := by
    rcases wrap_cases s rows force with e | ⟨m, hm, -⟩
    · exact e
    · obtain ⟨r, h1, r', h2, h3⟩ := hr
      exact absurd ((hm r h1).trans (hm r' h2).symm) h3
  refine ⟨_, s.objs.length, by simp only [step, hw]; rfl, fun ops => ?_⟩
  have hj : (run { s with objs := s.objs ++ [.ak rows] } ops).objs[s.objs.length]? = some (.ak rows) :=
    run_obj _ ((Eff.grow (op := .fromLists rows force) [.ak rows] (by simp)).good hg) ops (by simp)
  simp [step, obj_some hj, State.tryDo]

/-- C100 is violated: a jagged array made from a 2d array is no copy; at any time its rows are the rows
of the array of the user, so that writing to one of them changes the other. -/
theorem C100_shared_violated (s : State α) (hg : Good s) (b : ℕ) (hb : b < s.next) :
    ∃ s' j, step s (.fromArray b) = (s', .ok (.jagged j)) ∧ ∀ (ops : List (Op α)),
      ToList (run s' ops) j ((run s' ops).bufs b).rows := by
  refine ⟨_, s.objs.length, by simp only [step, hb, if_true]; rfl, fun ops => ⟨.np b, ?_, rfl⟩⟩
  exact run_obj _ ((Eff.grow (op := .fromArray b) [.np b] (by simp [hb])).good hg) ops (by simp)

/-- The operation writes to none but the arrays and jagged arrays that existed in the state `s`. -/
def Old (s : State α) : Op α → Prop
  | .write b _ _ _ => b < s.next
  | .setRow j _ _ => j < s.objs.length
  | .setItem j _ _ _ => j < s.objs.length
  | _ => True

theorem fresh_aux (s : State α) (hg : Good s) (b j : ℕ) (hb : s.next ≤ b) (t : State α) (ht : Good t)
    (hbt : b < t.next) (hobj : ∀ (i : ℕ) (o : Obj α), s.objs[i]? = some o → t.objs[i]? = some o)
    (hj : t.objs[j]? = some (.np b)) (ops : List (Op α)) (hops : ∀ op ∈ ops, Old s op) :
    ToList (run t ops) j (t.rows (.np b)) := by
  induction ops generalizing t with
  | nil => exact ⟨_, hj, rfl⟩
  | cons op ops ih =>
    have he := step_eff t ht op
    have hnw : ¬ Writes t b op := by
      intro hw
      have hold := hops op List.mem_cons_self
      have aux : ∀ i, i < s.objs.length → t.objs[i]? = some (.np b) → False := fun i hi h => by
        have h1 := hobj i _ (List.getElem?_eq_getElem hi)
        rw [h] at h1
        have h2 := hg.refs b (by
          have : s.objs[i] = .np b := (Option.some.inj h1).symm
          rw [← this]; exact List.getElem_mem hi)
        omega
      cases hw with
      | write i k v h => simp only [Old] at hold; omega
      | setRow i _ _ h => exact aux i hold h
      | setItem i _ _ _ h => exact aux i hold h
    have hkeep := (he.bufs b hbt).2 hnw
    have := ih _ (he.good ht) (lt_of_lt_of_le hbt he.next_le)
      (fun i o h => he.obj_keep (hobj i o h)) (he.obj_keep hj) fun op h => hops op (List.mem_cons_of_mem _ h)
    simpa only [run_cons, State.rows, hkeep] using this

theorem fresh_wrap (s : State α) (hg : Good s) (op : Op α) (rows : List (List α)) (force : Bool)
    (hstep : step s op = (s.wrap rows force).1.push (s.wrap rows force).2) :
    ∃ s' j, step s op = (s', .ok (.jagged j)) ∧ ToList s' j rows ∧
      (∀ (i : ℕ) (L : List (List α)), ToList s i L → ToList s' i L) ∧
      ∀ (ops : List (Op α)), (∀ op ∈ ops, Old s op) → ToList (run s' ops) j rows := by
  obtain ⟨h1, h2, h3, h4, h5⟩ := wrap_push s rows force
  have hgood : Good ((s.wrap rows force).1.push (s.wrap rows force).2).1 :=
    (wrap_push_eff s op rows force).good hg
  refine ⟨((s.wrap rows force).1.push (s.wrap rows force).2).1, s.objs.length,
    hstep.trans (Prod.ext rfl h1), ⟨(s.wrap rows force).2, by rw [h2]; simp, h3⟩, ?_, ?_⟩
  · rintro i L ⟨o, ho, rfl⟩
    refine ⟨o, (wrap_push_eff s op rows force).obj_keep ho, ?_⟩
    cases o with
    | ak l => rfl
    | np b => simp only [State.rows, h5 b (hg.refs b (List.mem_of_getElem? ho))]
  · intro ops hops
    have hj : ((s.wrap rows force).1.push (s.wrap rows force).2).1.objs[s.objs.length]? =
        some (s.wrap rows force).2 := by rw [h2]; simp
    generalize hp : (s.wrap rows force).1.push (s.wrap rows force).2 = p at *
    cases e : (s.wrap rows force).2 with
    | ak l =>
      rw [e] at h3 hj
      exact ⟨.ak l, run_obj _ hgood ops hj, h3⟩
    | np b =>
      have hb := h4 b e
      rw [e] at h3 hj
      have := fresh_aux s hg b s.objs.length hb.ge _ hgood (hgood.refs b (List.mem_of_getElem? hj))
        (fun i o h => by
          have := (wrap_push_eff s op rows force).obj_keep h
          rwa [hp] at this) hj ops hops
      rw [h3] at this
      exact this

/-- C100: a jagged array made from lists has these rows and is independent of everything that exists:
no writing to older arrays and jagged arrays changes it. -/
theorem C100_lists (s : State α) (hg : Good s) (rows : List (List α)) (force : Bool) :
    ∃ s' j, step s (.fromLists rows force) = (s', .ok (.jagged j)) ∧ ToList s' j rows ∧
      (∀ (i : ℕ) (L : List (List α)), ToList s i L → ToList s' i L) ∧
      ∀ (ops : List (Op α)), (∀ op ∈ ops, Old s op) → ToList (run s' ops) j rows :=
  fresh_wrap s hg _ rows force rfl

theorem joined_ok (s : State α) (js : List ℕ) (Ls : List (List (List α)))
    (h : List.Forall₂ (ToList s) js Ls) :
    ∃ os, s.joined (js.map FArg.jagged) = .ok os ∧ os.map s.rows = Ls ∧ os.length = js.length := by
  induction h with
  | nil => exact ⟨[], rfl, rfl, rfl⟩
  | cons h1 _ ih =>
    obtain ⟨os, e1, e2, e3⟩ := ih
    obtain ⟨o, ho, rfl⟩ := h1
    exact ⟨o :: os, by simp [State.joined, obj_some ho, e1, Except.bind, Except.map], by simp [e2],
      by simp [e3]⟩

/-- C100: `np.concatenate` and `np.vstack` of jagged arrays give a new one with the rows of all, which is
independent of them: no writing to older arrays and jagged arrays changes it. -/
theorem C100_join (s : State α) (hg : Good s) (js : List ℕ) (hne : js ≠ [])
    (Ls : List (List (List α))) (h : List.Forall₂ (ToList s) js Ls) :
    ∃ s' j, step s (.join (js.map .jagged)) = (s', .ok (.jagged j)) ∧ ToList s' j Ls.flatten ∧
      (∀ (i : ℕ) (L : List (List α)), ToList s i L → ToList s' i L) ∧
      ∀ (ops : List (Op α)), (∀ op ∈ ops, Old s op) → ToList (run s' ops) j Ls.flatten := by
  obtain ⟨os, e1, e2, e3⟩ := joined_ok s js Ls h
  refine fresh_wrap s hg _ Ls.flatten true ?_
  cases os with
  | nil => exact absurd (List.length_eq_zero_iff.1 e3.symm) hne
  | cons o os =>
    simp only [step, e1, State.tryDo, stack_eq, e2]

/-- C100: anything else among the arguments of `np.concatenate` and `np.vstack` is refused with a
TypeError (if the jagged arrays before it exist). -/
theorem C100_join_refused (s : State α) (js : List ℕ) (Ls : List (List (List α)))
    (h : List.Forall₂ (ToList s) js Ls) (l : List FArg) :
    step s (.join (js.map .jagged ++ .other :: l)) = (s, .error .type) := by
  have : s.joined (js.map .jagged ++ .other :: l) = .error .type := by
    induction h with
    | nil => rfl
    | cons h1 _ ih =>
      obtain ⟨o, ho, rfl⟩ := h1
      simp [State.joined, obj_some ho, ih, Except.bind, Except.map]
  simp [step, this, State.tryDo]

/-- C100, for jagged arrays that wrap a NumPy array: a universal function is applied to every item; the
result is a new 2d array (no jagged array), and nothing that exists changes. -/
theorem C100_ufunc_partial (s : State α) (hg : Good s) (j b : ℕ) (hb : Wraps s j b)
    (L : List (List α)) (h : ToList s j L) (f : α → α) :
    ∃ s' c, step s (.ufunc f j) = (s', .ok (.array c)) ∧ (s'.bufs c).rows = L.map (·.map f) ∧
      s.next ≤ c ∧ (∀ c', c' < s.next → s'.bufs c' = s.bufs c') ∧
      ∀ (i : ℕ) (L' : List (List α)), ToList s i L' → ToList s' i L' := by
  rw [wraps_iff] at hb
  obtain ⟨o, ho, rfl⟩ := h
  rw [hb] at ho
  cases ho
  refine ⟨_, _, by simp only [step, obj_some hb, State.tryDo]; rfl, by simp [State.alloc, State.rows],
    le_rfl, fun c' hc => Function.update_of_ne hc.ne _ _, ?_⟩
  rintro i L' ⟨o, ho, rfl⟩
  refine ⟨o, ho, ?_⟩
  cases o with
  | ak l => rfl
  | np c =>
    have : c ≠ s.next := (hg.refs c (List.mem_of_getElem? ho)).ne
    simp only [State.rows, State.alloc, Function.update_of_ne this]

/-- C100 is violated: universal functions and operators, although the class announces them, raise for
every jagged array with rows of different lengths. -/
theorem C100_ufunc_violated (s : State α) (hg : Good s) (rows : List (List α)) (force : Bool)
    (hr : ∃ r ∈ rows, ∃ r' ∈ rows, r.length ≠ r'.length) :
    ∃ s' j, step s (.fromLists rows force) = (s', .ok (.jagged j)) ∧ ∀ (ops : List (Op α)) (f : α → α),
      step (run s' ops) (.ufunc f j) = (run s' ops, .error .value) := by
  have hw : s.wrap rows force = (s, .ak rows) := by
    rcases wrap_cases s rows force with e | ⟨m, hm, -⟩
    · exact e
    · obtain ⟨r, h1, r', h2, h3⟩ := hr
      exact absurd ((hm r h1).trans (hm r' h2).symm) h3
  refine ⟨_, s.objs.length, by simp only [step, hw]; rfl, fun ops f => ?_⟩
  have hj : (run { s with objs := s.objs ++ [.ak rows] } ops).objs[s.objs.length]? = some (.ak rows) :=
    run_obj _ ((Eff.grow (op := .fromLists rows force) [.ak rows] (by simp)).good hg) ops (by simp)
  simp [step, obj_some hj, State.tryDo]

end

/-! ## Examples -/

/-- One array with two rows. -/
def exState : State ℤ := ⟨fun _ => ⟨2, [[1, 2], [3, 4]]⟩, 1, []⟩

/-- The state is a good one, and so are all that follow. -/
example (ops : List (Op ℤ)) : Good (run exState ops) :=
  C100_sessions exState rfl (fun _ _ r hr => by
    simp only [exState, List.mem_cons, List.not_mem_nil, or_false] at hr ⊢
    rcases hr with rfl | rfl <;> rfl) ops

/-- A regular jagged array sharing its array with the user, a jagged one, and their concatenation. -/
def exOps : List (Op ℤ) :=
  [.fromArray 0, .fromLists [[5], [6, 7]] true, .join [.jagged 0, .jagged 1]]

example : ToList (run exState exOps) 2 [[1, 2], [3, 4], [5], [6, 7]] := ⟨_, rfl, rfl⟩

/-- Writing to the regular one changes the array of the user, not the concatenation. -/
example : ((run exState (exOps ++ [.setItem 0 (-1) 0 9])).bufs 0).rows = [[1, 2], [9, 4]] ∧
    ToList (run exState (exOps ++ [.setItem 0 (-1) 0 9])) 2 [[1, 2], [3, 4], [5], [6, 7]] :=
  ⟨rfl, _, rfl, rfl⟩

/-- Writing to the array changes the regular one. -/
example : ToList (run exState (exOps ++ [.write 0 1 1 8])) 0 [[1, 2], [3, 8]] := ⟨_, rfl, rfl⟩

example : Wraps (run exState exOps) 0 0 ∧ ¬ Wraps (run exState exOps) 1 0 :=
  ⟨rfl, fun h => by rw [wraps_iff] at h; cases h⟩

end Verif.JagObj.Props
