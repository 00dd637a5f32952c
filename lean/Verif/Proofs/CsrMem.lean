import Verif.Model.CsrMem
import Verif.Proofs.Rounding

/-!
# Lemmas on `Verif.Model.CsrMem`
-/

namespace Verif.CsrMem
open Verif Verif.Rnd

/-- The three arrays of every matrix are next to each other and in use, those of older matrices come first. -/
structure Good (s : State) : Prop where
  own : ∀ (c : ℕ) (o : Obj), s.objs[c]? = some o →
    o.indices = o.data + 1 ∧ o.indptr = o.data + 2 ∧ o.data + 2 < s.next
  apart : ∀ (c c' : ℕ) (o o' : Obj), s.objs[c]? = some o → s.objs[c']? = some o' → c < c' → o.data + 2 < o'.data

/-- The operation may write to the array `b`. -/
def Writes (s : State) (b : ℕ) : Op → Prop
  | .write b' _ _ => b' = b
  | .setRow c _ _ _ => ∃ o, s.objs[c]? = some o ∧ o.data = b
  | .setIrow c _ _ _ => ∃ o, s.objs[c]? = some o ∧ o.indices = b
  | _ => False

/-- What an operation does: the arrays in use keep their values unless they are written to, objects stay. -/
structure Eff (s : State) (op : Op) (t : State) : Prop where
  next : s.next ≤ t.next
  bufs : ∀ b, b < s.next → ¬ Writes s b op → t.bufs b = s.bufs b
  objs : ∀ (c : ℕ) (o : Obj), s.objs[c]? = some o → t.objs[c]? = some o
  good : Good s → Good t

theorem Eff.refl (s : State) (op : Op) : Eff s op s := ⟨le_rfl, fun _ _ _ => rfl, fun _ _ h => h, fun h => h⟩

theorem alloc_bufs (s : State) (l : List ℚ) (b : ℕ) (h : b < s.next) : (s.alloc l).bufs b = s.bufs b :=
  Function.update_of_ne (by omega) _ _

theorem Eff.alloc (s : State) (op : Op) (l : List ℚ) : Eff s op (s.alloc l) :=
  ⟨Nat.le_succ _, fun b h _ => alloc_bufs s l b h, fun _ _ h => h, fun g => ⟨fun c o h => by
    obtain ⟨h1, h2, h3⟩ := g.own c o h
    exact ⟨h1, h2, h3.trans (Nat.lt_succ_self _)⟩, g.apart⟩⟩

theorem newCsr_bufs (s : State) (d i p : List ℚ) (sh : ℕ × ℤ) :
    (s.newCsr d i p sh).bufs s.next = d.map float64 ∧ (s.newCsr d i p sh).bufs (s.next + 1) = i.map int32 ∧
      (s.newCsr d i p sh).bufs (s.next + 2) = p.map int32 := by
  refine ⟨?_, ?_, ?_⟩ <;> simp [State.newCsr, State.alloc, Function.update]
  intro h
  omega

theorem newCsr_obj (s : State) (d i p : List ℚ) (sh : ℕ × ℤ) :
    (s.newCsr d i p sh).objs[s.objs.length]? = some ⟨s.next, s.next + 1, s.next + 2, sh⟩ := by
  simp [State.newCsr, State.alloc]

theorem Eff.newCsr (s : State) (op : Op) (d i p : List ℚ) (sh : ℕ × ℤ) : Eff s op (s.newCsr d i p sh) := by
  have hobj : (s.newCsr d i p sh).objs = s.objs ++ [⟨s.next, s.next + 1, s.next + 2, sh⟩] := rfl
  have hnext : (s.newCsr d i p sh).next = s.next + 3 := rfl
  refine ⟨by omega, fun b h _ => ?_, fun c o h => ?_, fun g => ⟨fun c o h => ?_, fun c c' o o' h h' hlt => ?_⟩⟩
  · simp only [State.newCsr]
    rw [alloc_bufs _ _ _ (by simp [State.alloc]; omega), alloc_bufs _ _ _ (by simp [State.alloc]; omega),
      alloc_bufs _ _ _ h]
  · rw [hobj, List.getElem?_append_left (List.getElem?_eq_some_iff.1 h).1, h]
  · rw [hobj] at h
    rcases lt_or_ge c s.objs.length with hc | hc
    · rw [List.getElem?_append_left hc] at h
      obtain ⟨h1, h2, h3⟩ := g.own c o h
      exact ⟨h1, h2, by omega⟩
    · rw [List.getElem?_append_right hc] at h
      have : c - s.objs.length = 0 := by
        have := (List.getElem?_eq_some_iff.1 h).1
        simpa using this
      rw [this] at h
      obtain rfl := Option.some.inj h
      exact ⟨rfl, rfl, by rw [hnext]; exact Nat.lt_succ_self _⟩
  · rw [hobj] at h h'
    rcases lt_or_ge c' s.objs.length with hc' | hc'
    · rw [List.getElem?_append_left hc'] at h'
      rw [List.getElem?_append_left (hlt.trans hc')] at h
      exact g.apart c c' o o' h h' hlt
    · rw [List.getElem?_append_right hc'] at h'
      have h0 : c' - s.objs.length = 0 := by
        have := (List.getElem?_eq_some_iff.1 h').1
        simpa using this
      rw [h0] at h'
      obtain rfl := Option.some.inj h'
      rw [List.getElem?_append_left (by omega)] at h
      exact (g.own c o h).2.2

theorem Eff.update (s : State) (op : Op) (b : ℕ) (l : List ℚ) (h : Writes s b op) :
    Eff s op { s with bufs := Function.update s.bufs b l } :=
  ⟨le_rfl, fun b' _ hw => Function.update_of_ne (by rintro rfl; exact hw h) _ _, fun _ _ h => h,
    fun g => ⟨g.own, g.apart⟩⟩

theorem step_eff (s : State) (op : Op) : Eff s op (step s op).1 := by
  cases op with
  | array l => exact Eff.alloc s _ l
  | ofArrays d i p sh =>
    simp only [step]
    split
    · exact Eff.newCsr s _ _ _ _ _
    · exact Eff.refl s _
  | ofDense a n m =>
    simp only [step]
    split
    · exact Eff.newCsr s _ _ _ _ _
    · exact Eff.refl s _
  | row c i =>
    simp only [step]
    split <;> exact Eff.refl s _
  | irow c i =>
    simp only [step]
    split <;> exact Eff.refl s _
  | setRow c i k v =>
    simp only [step]
    split
    · exact Eff.refl s _
    · rename_i o ho
      split
      · exact Eff.refl s _
      · simp only [State.setSlice]
        split
        · exact Eff.update s _ _ _ ⟨o, ho, rfl⟩
        · exact Eff.refl s _
  | setIrow c i k v =>
    simp only [step]
    split
    · exact Eff.refl s _
    · rename_i o ho
      split
      · exact Eff.refl s _
      · simp only [State.setSlice]
        split
        · exact Eff.update s _ _ _ ⟨o, ho, rfl⟩
        · exact Eff.refl s _
  | toScipy c =>
    simp only [step]
    split <;> exact Eff.refl s _
  | write b k v =>
    simp only [step]
    split
    · split
      · exact Eff.update s _ _ _ rfl
      · exact Eff.refl s _
    · exact Eff.refl s _

theorem run_good (s : State) (h : Good s) (ops : List Op) : Good (run s ops) := by
  induction ops generalizing s with
  | nil => exact h
  | cons op ops ih => exact ih _ ((step_eff s op).good h)

theorem float64_int (n : ℤ) (h : |n| ≤ 2 ^ 53) : float64 n = n := by
  have := binary_exact 53 (by norm_num) n 0 h
  simpa [float64] using this

theorem int32_int (n : ℤ) (h1 : -2 ^ 31 ≤ n) (h2 : n < 2 ^ 31) : int32 n = n := by
  unfold int32
  rw [Int.floor_intCast, Int.emod_eq_of_lt (by linarith) (by linarith)]
  simp

theorem int32_nat (n : ℕ) (h : n < 2 ^ 31) : int32 (n : ℚ) = n := by
  have := int32_int n (by omega) (by omega)
  simpa using this

/-- Slices of a list that was changed at one place. -/
theorem slice_set (l : List ℚ) (a b p : ℕ) (v : ℚ) :
    (p < a ∨ b ≤ p → Sparse.slice (l.set p v) a b = Sparse.slice l a b) ∧
    (∀ k, p = a + k → Sparse.slice (l.set p v) a b = (Sparse.slice l a b).set k v) := by
  unfold Sparse.slice
  refine ⟨fun h => ?_, fun k hk => ?_⟩
  · rcases h with h | h
    · rw [List.take_set, List.drop_set_of_lt h]
    · rw [List.take_set, List.set_eq_of_length_le (by rw [List.length_take]; omega)]
  · subst hk
    rw [List.take_set, List.drop_set, if_neg (by omega)]
    congr 1
    omega

theorem slice_length (l : List ℚ) (a b : ℕ) (h : b ≤ l.length) : (Sparse.slice l a b).length = b - a := by
  unfold Sparse.slice
  rw [List.length_drop, List.length_take, min_eq_left h]

end Verif.CsrMem
