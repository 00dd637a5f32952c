import Verif.Model.JaggedObjects
import Verif.Props.Sparse

/-!
# Lemmas on sessions with jagged arrays
-/

set_option linter.unusedSectionVars false

namespace Verif.JagObj
open Verif Verif.Sparse

section
variable {α : Type}

/-- The arrays in memory are rectangular, and the jagged arrays refer to existing arrays. -/
structure Good (s : State α) : Prop where
  rect : ∀ b, b < s.next → ∀ r ∈ (s.bufs b).rows, r.length = (s.bufs b).m
  refs : ∀ b, Obj.np b ∈ s.objs → b < s.next

/-- The operation writes to the array `b`. -/
inductive Writes (s : State α) (b : ℕ) : Op α → Prop where
  | write (i k : ℕ) (v : α) : b < s.next → Writes s b (.write b i k v)
  | setRow (j : ℕ) (i : ℤ) (row : List α) : s.objs[j]? = some (.np b) → Writes s b (.setRow j i row)
  | setItem (j : ℕ) (i k : ℤ) (v : α) : s.objs[j]? = some (.np b) → Writes s b (.setItem j i k v)

/-- What an operation can do to the state. -/
inductive Eff (s : State α) (op : Op α) : State α → Prop where
  | grow (l : List (Obj α)) : (∀ b, Obj.np b ∈ l → b < s.next) → Eff s op { s with objs := s.objs ++ l }
  | alloc (m : ℕ) (rows : List (List α)) (l : List (Obj α)) : (∀ r ∈ rows, r.length = m) →
      (∀ b, Obj.np b ∈ l → b = s.next) →
      Eff s op { bufs := Function.update s.bufs s.next ⟨m, rows⟩, next := s.next + 1,
                 objs := s.objs ++ l }
  | update (b : ℕ) (rows : List (List α)) : Writes s b op → b < s.next →
      rows.map List.length = (s.bufs b).rows.map List.length →
      Eff s op { s with bufs := Function.update s.bufs b { s.bufs b with rows := rows } }

theorem Eff.id (s : State α) (op : Op α) : Eff s op s := by
  have := Eff.grow (s := s) (op := op) [] (by simp)
  simpa using this

theorem tryDo_eff (s : State α) (op : Op α) {β : Type} (x : Py β) (f : β → State α × Py (Ret α))
    (h : ∀ b, x = .ok b → Eff s op (f b).1) : Eff s op (s.tryDo x f).1 := by
  cases x with
  | error e => exact Eff.id s op
  | ok b => exact h b rfl

theorem obj_ok {s : State α} {j : ℕ} {o : Obj α} (h : s.obj j = .ok o) : s.objs[j]? = some o := by
  unfold State.obj at h
  cases e : s.objs[j]? with
  | none => simp [e] at h
  | some x => simp only [e, Except.ok.injEq] at h; rw [h]

theorem obj_some {s : State α} {j : ℕ} {o : Obj α} (h : s.objs[j]? = some o) : s.obj j = .ok o := by
  simp [State.obj, h]

/-- The two ways a list of rows is stored. -/
theorem wrap_cases (s : State α) (rows : List (List α)) (force : Bool) :
    (s.wrap rows force = (s, .ak rows)) ∨
      ∃ m, (∀ r ∈ rows, r.length = m) ∧ s.wrap rows force = ((s.alloc m rows).1, .np s.next) := by
  unfold State.wrap forceNumpy
  cases force with
  | false => exact .inl rfl
  | true =>
    simp only [if_true]
    by_cases h : (cc rows).dedup.length = 1
    · simp only [h, if_true]
      refine .inr ⟨(cc rows).headD 0, fun r hr => ?_, rfl⟩
      obtain ⟨m, hm⟩ := List.length_eq_one_iff.1 h
      have hall : ∀ x ∈ cc rows, x = m := fun x hx => by
        have := List.mem_dedup.2 hx
        rw [hm] at this
        simpa using this
      have h1 : r.length ∈ cc rows := by
        rw [cc_eq]; exact List.mem_map_of_mem hr
      rw [hall _ h1]
      cases e : cc rows with
      | nil => rw [e] at h1; simp at h1
      | cons y ys => exact (hall y (by rw [e]; simp)).symm
    · simp [h]

theorem wrap_push_eff (s : State α) (op : Op α) (rows : List (List α)) (force : Bool) :
    Eff s op ((s.wrap rows force).1.push (s.wrap rows force).2).1 := by
  rcases wrap_cases s rows force with e | ⟨m, hm, e⟩
  · rw [e]
    exact Eff.grow [.ak rows] (by simp)
  · rw [e]
    exact Eff.alloc m rows [.np s.next] hm (by simp)

theorem Buf.set_lengths (b : Buf α) (i k : ℕ) (v : α) :
    (b.set i k v).rows.map List.length = b.rows.map List.length := by
  simp only [Buf.set]
  apply List.ext_getElem?
  intro n
  simp only [List.getElem?_map, List.getElem?_modify]
  by_cases h : i = n
  · subst h
    cases b.rows[i]? <;> simp
  · simp [h]

theorem position_lt {n : ℕ} {i : ℤ} {p : ℕ} (h : position n i = .ok p) : p < n := by
  unfold position at h
  split_ifs at h with h1 h2 h3 <;> simp only [Except.ok.injEq] at h <;> omega

theorem assignRow_length {m : ℕ} {row r : List α} (h : assignRow m row = .ok r) : r.length = m := by
  unfold assignRow at h
  split_ifs at h with h1
  · simp only [Except.ok.injEq] at h; rw [← h, h1]
  · split at h
    · simp only [Except.ok.injEq] at h; rw [← h]; simp
    · cases h

theorem step_eff (s : State α) (hg : Good s) (op : Op α) : Eff s op (step s op).1 := by
  cases op with
  | write b i k v =>
    simp only [step]
    split_ifs with h1 h2
    · exact Eff.update b _ (.write i k v h1) h1 (Buf.set_lengths _ _ _ _)
    · exact Eff.id _ _
    · exact Eff.id _ _
  | fromArray b =>
    simp only [step]
    split_ifs with h1
    · exact Eff.grow [.np b] (by simp [h1])
    · exact Eff.id _ _
  | fromLists rows force => exact wrap_push_eff s _ rows force
  | getRow j i =>
    exact tryDo_eff s _ _ _ fun o _ => tryDo_eff s _ _ _ fun p _ => Eff.id _ _
  | getItem j i k =>
    exact tryDo_eff s _ _ _ fun o _ => tryDo_eff s _ _ _ fun p _ => tryDo_eff s _ _ _ fun r _ =>
      tryDo_eff s _ _ _ fun q _ => Eff.id _ _
  | setRow j i row =>
    refine tryDo_eff s _ _ _ fun o ho => ?_
    cases o with
    | ak rows => exact Eff.id _ _
    | np b =>
      have hj := obj_ok ho
      have hb := hg.refs b (List.mem_of_getElem? hj)
      refine tryDo_eff s _ _ _ fun p hp => tryDo_eff s _ _ _ fun r hr => ?_
      refine Eff.update b _ (.setRow j i row hj) hb ?_
      have hp := position_lt hp
      rw [List.map_set, assignRow_length hr, ← hg.rect b hb _ (List.getElem_mem hp)]
      have := List.set_getElem_self (as := (s.bufs b).rows.map List.length) (i := p) (by simpa using hp)
      simpa using this
  | setItem j i k v =>
    refine tryDo_eff s _ _ _ fun o ho => ?_
    cases o with
    | ak rows => exact Eff.id _ _
    | np b =>
      have hj := obj_ok ho
      have hb := hg.refs b (List.mem_of_getElem? hj)
      refine tryDo_eff s _ _ _ fun p hp => tryDo_eff s _ _ _ fun q hq => ?_
      exact Eff.update b _ (.setItem j i k v hj) hb (Buf.set_lengths _ _ _ _)
  | len j => exact tryDo_eff s _ _ _ fun o _ => Eff.id _ _
  | join js =>
    refine tryDo_eff s _ _ _ fun os _ => ?_
    cases os with
    | nil => exact Eff.id _ _
    | cons o os => exact tryDo_eff s _ _ _ fun rows _ => wrap_push_eff s _ rows true
  | toArray j =>
    refine tryDo_eff s _ _ _ fun o _ => ?_
    cases o <;> exact Eff.id _ _
  | ufunc f j =>
    refine tryDo_eff s _ _ _ fun o ho => ?_
    cases o with
    | ak rows => exact Eff.id _ _
    | np b =>
      have hb := hg.refs b (List.mem_of_getElem? (obj_ok ho))
      have := Eff.alloc (s := s) (op := .ufunc f j) (s.bufs b).m ((s.bufs b).rows.map (·.map f)) []
        (fun r hr => by
          obtain ⟨r', h', rfl⟩ := List.mem_map.1 hr
          simpa using hg.rect b hb r' h') (by simp)
      simpa [State.alloc] using this

theorem Eff.good {s s' : State α} {op : Op α} (hg : Good s) (h : Eff s op s') : Good s' := by
  cases h with
  | grow l hl =>
    refine ⟨hg.rect, fun b hb => ?_⟩
    rcases List.mem_append.1 hb with h | h
    · exact hg.refs b h
    · exact hl b h
  | alloc m rows l hr hl =>
    refine ⟨fun b hb r hr' => ?_, fun b hb => ?_⟩
    · by_cases e : b = s.next
      · subst e
        simp only [Function.update_self] at hr' ⊢
        exact hr r hr'
      · simp only [Function.update_of_ne e] at hr' ⊢
        exact hg.rect b (by simp only at hb; omega) r hr'
    · rcases List.mem_append.1 hb with h | h
      · exact Nat.lt_succ_of_lt (hg.refs b h)
      · rw [hl b h]; exact Nat.lt_succ_self _
  | update b rows hw hb hl =>
    refine ⟨fun b' hb' r hr => ?_, hg.refs⟩
    by_cases e : b' = b
    · subst e
      simp only [Function.update_self] at hr ⊢
      have h1 : r.length ∈ rows.map List.length := List.mem_map_of_mem hr
      rw [hl] at h1
      obtain ⟨r', h2, h3⟩ := List.mem_map.1 h1
      rw [← h3]
      exact hg.rect _ hb r' h2
    · simp only [Function.update_of_ne e] at hr ⊢
      exact hg.rect b' hb' r hr

theorem Eff.objs {s s' : State α} {op : Op α} (h : Eff s op s') : ∃ l, s'.objs = s.objs ++ l := by
  cases h with
  | grow l => exact ⟨l, rfl⟩
  | alloc m rows l => exact ⟨l, rfl⟩
  | update b rows => exact ⟨[], by simp⟩

theorem Eff.obj_keep {s s' : State α} {op : Op α} (h : Eff s op s') {j : ℕ} {o : Obj α}
    (hj : s.objs[j]? = some o) : s'.objs[j]? = some o := by
  obtain ⟨l, e⟩ := h.objs
  rw [e, List.getElem?_append_left (List.getElem?_eq_some_iff.1 hj).1]
  exact hj

theorem Eff.next_le {s s' : State α} {op : Op α} (h : Eff s op s') : s.next ≤ s'.next := by
  cases h with
  | grow l => exact le_rfl
  | alloc m rows l => exact Nat.le_succ _
  | update b rows => exact le_rfl

/-- The arrays that existed keep their shape, and those that are not written to keep their numbers. -/
theorem Eff.bufs {s s' : State α} {op : Op α} (h : Eff s op s') (b : ℕ) (hb : b < s.next) :
    (s'.bufs b).rows.map List.length = (s.bufs b).rows.map List.length ∧
      (¬ Writes s b op → s'.bufs b = s.bufs b) := by
  cases h with
  | grow l => exact ⟨rfl, fun _ => rfl⟩
  | alloc m rows l =>
    have e : b ≠ s.next := by omega
    simp [Function.update_of_ne e]
  | update b' rows hw hb' hl =>
    by_cases e : b = b'
    · subst e
      simp only [Function.update_self]
      exact ⟨hl, fun h => absurd hw h⟩
    · simp [Function.update_of_ne e]

theorem run_cons (s : State α) (op : Op α) (ops : List (Op α)) :
    run s (op :: ops) = run (step s op).1 ops := rfl

theorem run_good (s : State α) (hg : Good s) (ops : List (Op α)) : Good (run s ops) := by
  induction ops generalizing s with
  | nil => exact hg
  | cons op ops ih => exact ih _ ((step_eff s hg op).good hg)

theorem run_obj (s : State α) (hg : Good s) (ops : List (Op α)) {j : ℕ} {o : Obj α}
    (hj : s.objs[j]? = some o) : (run s ops).objs[j]? = some o := by
  induction ops generalizing s with
  | nil => exact hj
  | cons op ops ih =>
    exact ih _ ((step_eff s hg op).good hg) ((step_eff s hg op).obj_keep hj)

theorem run_widths (s : State α) (hg : Good s) (ops : List (Op α)) (o : Obj α) (ho : o ∈ s.objs) :
    ((run s ops).rows o).map List.length = (s.rows o).map List.length := by
  cases o with
  | ak rows => rfl
  | np b =>
    have hb := hg.refs b ho
    induction ops generalizing s with
    | nil => rfl
    | cons op ops ih =>
      have he := step_eff s hg op
      have h1 : Obj.np b ∈ (step s op).1.objs := by
        obtain ⟨l, e⟩ := he.objs
        rw [e]; exact List.mem_append_left _ ho
      rw [run_cons, ih _ (he.good hg) h1 (lt_of_lt_of_le hb he.next_le)]
      exact (he.bufs b hb).1

/-- Joining the flat data and cutting them again gives the rows one after the other. -/
theorem stack_eq (s : State α) (os : List (Obj α)) :
    s.stack os = .ok (os.map s.rows).flatten := by
  have e1 : (os.map fun o => (s.rows o).flatten).flatten = ((os.map s.rows).flatten).flatten := by
    rw [List.flatten_flatten, List.map_map]; rfl
  have e2 : (os.map fun o => cc (s.rows o)).flatten = ((os.map s.rows).flatten).map List.length := by
    rw [List.map_flatten, List.map_map]
    congr 1
    apply List.map_congr_left
    intro o _
    exact cc_eq _
  rw [State.stack, e1, e2, akUnflatten, if_pos (by rw [List.length_flatten])]
  have := ASO.Props.unflatten_map id ((os.map s.rows).flatten)
  simp only [Except.ok.injEq]
  simpa using this

/-- What is stored when rows are wrapped. -/
theorem wrap_push (s : State α) (rows : List (List α)) (force : Bool) :
    let p := (s.wrap rows force).1.push (s.wrap rows force).2
    p.2 = .ok (.jagged s.objs.length) ∧ p.1.objs = s.objs ++ [(s.wrap rows force).2] ∧
      p.1.rows (s.wrap rows force).2 = rows ∧
      (∀ b, (s.wrap rows force).2 = .np b → b = s.next) ∧
      (∀ b, b < s.next → p.1.bufs b = s.bufs b) := by
  rcases wrap_cases s rows force with e | ⟨m, hm, e⟩
  · simp [e, State.push, State.rows]
  · simp only [e, State.push, State.rows, State.alloc, Function.update_self, true_and]
    refine ⟨fun b hb => by simpa using hb.symm, fun b hb => Function.update_of_ne (by omega) _ _⟩

end

end Verif.JagObj
