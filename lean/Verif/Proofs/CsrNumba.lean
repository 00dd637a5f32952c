import Verif.Model.CsrNumba
import Verif.Proofs.CsrMem

/-! Helper lemmas for C117. -/

namespace Verif.CsrNb
open Verif Verif.CsrMem

theorem nbIdx_eq {α : Type} {l : List α} {i : ℤ} {a : α} (h : Sparse.pyIdx l i = .ok a) : nbIdx l i = some a := by
  unfold Sparse.pyIdx at h
  unfold nbIdx
  have hg : ∀ n : ℕ, pyGet l n = .ok a → l[n]? = some a := by
    intro n hn
    unfold pyGet at hn
    cases e : l[n]? with
    | none => rw [e] at hn; cases hn
    | some x => rw [e] at hn; rw [Except.ok.inj hn]
  by_cases h0 : 0 ≤ i
  · rw [if_pos h0] at h
    have : ¬ i < 0 := by omega
    simp only [if_neg this]
    exact hg _ h
  · rw [if_neg h0] at h
    by_cases h1 : -(l.length : ℤ) ≤ i
    · rw [if_pos h1] at h
      have h2 : i < 0 := by omega
      have h3 : ¬ i + (l.length : ℤ) < 0 := by omega
      simp only [if_pos h2, if_neg h3]
      rw [add_comm]
      exact hg _ h
    · rw [if_neg h1] at h; cases h

theorem nbBounds_eq {s : State} {o : Obj} {i : ℤ} {ab : ℕ × ℕ} (h : s.bounds o i = .ok ab) :
    nbBounds s (unbox o) i = some ab := by
  unfold State.bounds at h
  unfold nbBounds
  cases ha : Sparse.pyIdx (s.bufs o.indptr) i with
  | error e => rw [ha] at h; cases h
  | ok a =>
    cases hb : Sparse.pyIdx (s.bufs o.indptr) (i + 1) with
    | error e => rw [ha, hb] at h; cases h
    | ok b =>
      rw [ha, hb] at h
      obtain rfl := Except.ok.inj h
      show (nbIdx (s.bufs o.indptr) i).bind _ = _
      rw [nbIdx_eq ha]
      show (nbIdx (s.bufs o.indptr) (i + 1)).bind _ = _
      rw [nbIdx_eq hb]
      rfl

theorem poke_eq {s s' : State} {buf a b k : ℕ} {v : ℚ} {r : Ret} (h : s.setSlice buf a b k v = (s', .ok r)) :
    poke s buf (min a (s.bufs buf).length) k v = some (s', r) := by
  unfold State.setSlice at h
  by_cases hk : k < (Sparse.slice (s.bufs buf) a b).length
  · rw [if_pos hk] at h
    have hl : k < min b (s.bufs buf).length - a := by
      unfold Sparse.slice at hk
      rwa [List.length_drop, List.length_take] at hk
    have hm : min a (s.bufs buf).length = a := by omega
    unfold poke
    rw [hm, if_pos (by omega)]
    obtain ⟨rfl, h2⟩ := Prod.mk.inj h
    rw [Except.ok.inj h2]
  · rw [if_neg hk] at h
    cases (Prod.mk.inj h).2

theorem poke_bufs {s s' : State} {buf a k : ℕ} {v : ℚ} {r : Ret} (h : poke s buf a k v = some (s', r)) :
    (∀ b, b ≠ buf → s'.bufs b = s.bufs b) ∧ s'.objs = s.objs ∧ s'.next = s.next ∧
      (∀ x ∈ s'.bufs buf, x = v ∨ x ∈ s.bufs buf) := by
  unfold poke at h
  split at h
  · obtain ⟨rfl, -⟩ := Prod.mk.inj (Option.some.inj h)
    refine ⟨fun b hb => Function.update_of_ne hb _ _, rfl, rfl, fun x hx => ?_⟩
    simp only [Function.update_self] at hx
    rcases List.mem_or_eq_of_mem_set hx with h | h
    · exact .inr h
    · exact .inl h
  · cases h

/-- What an instruction writes. -/
def value : Instr → Option ℚ
  | .setRow _ _ v => some v
  | .setIrow _ _ v => some v
  | .setData _ v => some v
  | .setIndices _ v => some v
  | _ => none

theorem exec_bufs {s : State} {m : Native} {x : Instr} {q : State × Ret} (h : exec s m x = some q) :
    (∀ b, b ≠ m.data → b ≠ m.indices → q.1.bufs b = s.bufs b) ∧ q.1.objs = s.objs ∧ q.1.next = s.next := by
  have key : ∀ buf a k v, poke s buf a k v = some q → (buf = m.data ∨ buf = m.indices) →
      (∀ b, b ≠ m.data → b ≠ m.indices → q.1.bufs b = s.bufs b) ∧ q.1.objs = s.objs ∧ q.1.next = s.next := by
    intro buf a k v hp hb
    obtain ⟨h1, h2, h3, -⟩ := poke_bufs (s' := q.1) (r := q.2) hp
    refine ⟨fun b hd hi => h1 b ?_, h2, h3⟩
    rcases hb with rfl | rfl <;> assumption
  have rd : ∀ (f : ℕ × ℕ → Ret) i, (nbBounds s m i).map (fun ab => (s, f ab)) = some q →
      (∀ b, b ≠ m.data → b ≠ m.indices → q.1.bufs b = s.bufs b) ∧ q.1.objs = s.objs ∧ q.1.next = s.next := by
    intro f i hm
    obtain ⟨ab, -, rfl⟩ := Option.map_eq_some_iff.mp hm
    exact ⟨fun _ _ _ => rfl, rfl, rfl⟩
  cases x with
  | row i => exact rd _ i h
  | irow i => exact rd _ i h
  | setRow i k v =>
    obtain ⟨ab, -, hp⟩ := Option.bind_eq_some_iff.mp h
    exact key _ _ _ _ hp (.inl rfl)
  | setIrow i k v =>
    obtain ⟨ab, -, hp⟩ := Option.bind_eq_some_iff.mp h
    exact key _ _ _ _ hp (.inr rfl)
  | setData k v => exact key _ _ _ _ h (.inl rfl)
  | setIndices k v => exact key _ _ _ _ h (.inr rfl)

theorem exec'_cons {m : Native} {s : State} {x : Instr} {xs : List Instr} {q : State × List Ret}
    (h : exec' m s (x :: xs) = some q) :
    ∃ r q', exec s m x = some r ∧ exec' m r.1 xs = some q' ∧ q = (q'.1, r.2 :: q'.2) := by
  rw [exec'] at h
  obtain ⟨r, hr, h⟩ := Option.bind_eq_some_iff.mp h
  obtain ⟨q', hq, h⟩ := Option.bind_eq_some_iff.mp h
  exact ⟨r, q', hr, hq, (Option.some.inj h).symm⟩

theorem exec'_bufs {m : Native} (xs : List Instr) : ∀ {s : State} {q : State × List Ret}, exec' m s xs = some q →
    (∀ b, b ≠ m.data → b ≠ m.indices → q.1.bufs b = s.bufs b) ∧ q.1.objs = s.objs ∧ q.1.next = s.next := by
  induction xs with
  | nil =>
    intro s q h
    obtain rfl := Option.some.inj h
    exact ⟨fun _ _ _ => rfl, rfl, rfl⟩
  | cons x xs ih =>
    intro s q h
    obtain ⟨r, q', hr, hq, rfl⟩ := exec'_cons h
    obtain ⟨a1, a2, a3⟩ := exec_bufs hr
    obtain ⟨b1, b2, b3⟩ := ih hq
    exact ⟨fun b hd hi => (b1 b hd hi).trans (a1 b hd hi), b2.trans a2, b3.trans a3⟩

end Verif.CsrNb
