import Verif.Model.TrKernels
import Mathlib.Tactic.Ring
import Mathlib.Tactic.FinCases
import Mathlib.Tactic.LinearCombination
import Mathlib.Tactic.FieldSimp
import Mathlib.Tactic.Tauto
import Mathlib.Data.List.Nodup
import Mathlib.Data.List.Range
import Mathlib.LinearAlgebra.Matrix.Notation
import Mathlib.LinearAlgebra.Matrix.Determinant.Basic

/-! Helper lemmas for the transformation kernels. -/

set_option linter.unusedSectionVars false

namespace Verif.Tr
open Verif Verif.Frames Verif.Utils

section
variable {α β γ : Type}

theorem foldl_modify_length (pos : γ → ℕ) (g : γ → β → β) (ps : List γ) (l : List β) :
    (ps.foldl (fun res p => res.modify (pos p) (g p)) l).length = l.length := by
  induction ps generalizing l with
  | nil => rfl
  | cons p ps ih => rw [List.foldl_cons, ih, List.length_modify]

theorem foldl_modify_none (pos : γ → ℕ) (g : γ → β → β) (ps : List γ) (l : List β) (k : ℕ)
    (h : ∀ p ∈ ps, pos p ≠ k) :
    (ps.foldl (fun res p => res.modify (pos p) (g p)) l)[k]? = l[k]? := by
  induction ps generalizing l with
  | nil => rfl
  | cons p ps ih =>
    rw [List.foldl_cons, ih _ fun q hq => h q (List.mem_cons_of_mem _ hq), List.getElem?_modify]
    simp [h p List.mem_cons_self]

/-- Every position is modified at most once: the entry at the position of `p` is modified by `p`. -/
theorem foldl_modify_at (pos : γ → ℕ) (g : γ → β → β) (ps : List γ) (l : List β)
    (hn : (ps.map pos).Nodup) (p : γ) (hp : p ∈ ps) :
    (ps.foldl (fun res p => res.modify (pos p) (g p)) l)[pos p]? = (l[pos p]?).map (g p) := by
  induction ps generalizing l with
  | nil => cases hp
  | cons q ps ih =>
    rw [List.map_cons, List.nodup_cons] at hn
    rw [List.foldl_cons]
    rcases List.mem_cons.1 hp with h | h
    · subst h
      rw [foldl_modify_none, List.getElem?_modify]
      · simp
      · intro r hr he
        exact hn.1 (List.mem_map.2 ⟨r, hr, he⟩)
    · have hne : pos q ≠ pos p := fun he => hn.1 (List.mem_map.2 ⟨p, h, he.symm⟩)
      rw [ih _ hn.2 h, List.getElem?_modify]
      simp [hne]

theorem loop1_get (sched : List ℕ) (n : ℕ) (hs : IsSchedule n sched) (body : ℕ → β → β)
    (res : List β) (k : ℕ) (hk : k < n) :
    (loop1 sched body res)[k]? = (res[k]?).map (body k) := by
  have := foldl_modify_at (fun i : ℕ => i) body sched res
    (by rw [List.map_id']; exact hs.nodup_iff.2 List.nodup_range) k (hs.mem_iff.2 (List.mem_range.2 hk))
  exact this

theorem loop1_length (sched : List ℕ) (body : ℕ → β → β) (res : List β) :
    (loop1 sched body res).length = res.length := foldl_modify_length (fun i : ℕ => i) body sched res

theorem loop2_eq (nX : ℕ) (sched : List ℕ) (inner : ℕ → List ℕ) (body : ℕ → ℕ → β → β)
    (res : List β) :
    loop2 nX sched inner body res =
      (sched.flatMap fun e => (inner e).map fun x => (e, x)).foldl
        (fun res p => res.modify (p.1 * nX + p.2) (body p.1 p.2)) res := by
  unfold loop2
  induction sched generalizing res with
  | nil => rfl
  | cons e sched ih =>
    rw [List.foldl_cons, List.flatMap_cons, List.foldl_append, ih, List.foldl_map]

theorem loop2_length (nX : ℕ) (sched : List ℕ) (inner : ℕ → List ℕ) (body : ℕ → ℕ → β → β)
    (res : List β) : (loop2 nX sched inner body res).length = res.length := by
  rw [loop2_eq]
  exact foldl_modify_length (fun p : ℕ × ℕ => p.1 * nX + p.2) (fun p => body p.1 p.2) _ _

theorem loop2_get (nE nX : ℕ) (sched : List ℕ) (inner : ℕ → List ℕ) (hs : IsSchedule nE sched)
    (hi : ∀ e < nE, IsSchedule nX (inner e)) (body : ℕ → ℕ → β → β) (res : List β) (k : ℕ)
    (hk : k < nE * nX) :
    (loop2 nX sched inner body res)[k]? = (res[k]?).map (body (k / nX) (k % nX)) := by
  have hX : 0 < nX := Nat.pos_of_ne_zero fun h => by subst h; simp at hk
  rw [loop2_eq]
  have hn : ((sched.flatMap fun e => (inner e).map fun x => (e, x)).map
      fun p : ℕ × ℕ => p.1 * nX + p.2).Nodup := by
    rw [List.map_flatMap]
    rw [List.nodup_flatMap]
    constructor
    · intro e he
      have hin := hi e (List.mem_range.1 (hs.mem_iff.1 he))
      rw [List.map_map]
      refine List.Nodup.map ?_ (hin.nodup_iff.2 List.nodup_range)
      intro x y hxy
      simpa using hxy
    · have hnd : sched.Nodup := hs.nodup_iff.2 List.nodup_range
      refine List.Pairwise.imp_of_mem ?_ hnd
      intro a b ha hb hab
      have hia := hi a (List.mem_range.1 (hs.mem_iff.1 ha))
      have hib := hi b (List.mem_range.1 (hs.mem_iff.1 hb))
      intro y hya hyb
      obtain ⟨pa, hpa, rfl⟩ := List.mem_map.1 hya
      obtain ⟨xa, hxa, rfl⟩ := List.mem_map.1 hpa
      obtain ⟨pb, hpb, he⟩ := List.mem_map.1 hyb
      obtain ⟨xb, hxb, rfl⟩ := List.mem_map.1 hpb
      simp only at he
      have h1 : xa < nX := List.mem_range.1 (hia.mem_iff.1 hxa)
      have h2 : xb < nX := List.mem_range.1 (hib.mem_iff.1 hxb)
      have e1 : (a * nX + xa) / nX = a := by
        rw [Nat.mul_comm, Nat.mul_add_div hX, Nat.div_eq_of_lt h1, Nat.add_zero]
      have e2 : (b * nX + xb) / nX = b := by
        rw [Nat.mul_comm, Nat.mul_add_div hX, Nat.div_eq_of_lt h2, Nat.add_zero]
      exact hab (by rw [← e1, ← e2, he])
  have hd : k / nX < nE := (Nat.div_lt_iff_lt_mul hX).2 hk
  have hp : (k / nX, k % nX) ∈ sched.flatMap fun e => (inner e).map fun x => (e, x) := by
    refine List.mem_flatMap.2 ⟨k / nX, hs.mem_iff.2 (List.mem_range.2 hd), List.mem_map.2
      ⟨k % nX, ?_, rfl⟩⟩
    exact (hi _ hd).mem_iff.2 (List.mem_range.2 (Nat.mod_lt _ hX))
  have hpos : k / nX * nX + k % nX = k := by rw [Nat.mul_comm]; exact Nat.div_add_mod k nX
  have := foldl_modify_at (fun p : ℕ × ℕ => p.1 * nX + p.2) (fun p => body p.1 p.2) _ res hn _ hp
  simp only [hpos] at this
  exact this

theorem rd_eq (junk : α) (l : List α) (i : ℕ) (x : α) (h : l[i]? = some x) : rd junk l i = x := by
  unfold rd; rw [h]; rfl

end

section
variable {K : Type} [Field K] [LinearOrder K] [FloorRing K]

/-- A loop in which exactly one round adds `v` to the observed entry. -/
theorem for3_at {σ : Type} (obs : σ → K) (body : ℕ → σ → σ) (x0 : ℕ) (P : Prop) [Decidable P] (v : K)
    (h : ∀ x s, obs (body x s) = if x0 = x ∧ P then obs s + v else obs s) (s : σ) :
    obs (for3 body s) = if x0 < 3 ∧ P then obs s + v else obs s := by
  have e : for3 body s = body 2 (body 1 (body 0 s)) := rfl
  rw [e, h, h, h]
  by_cases hP : P
  · rcases Nat.lt_or_ge x0 3 with hd | hd
    · have : x0 = 0 ∨ x0 = 1 ∨ x0 = 2 := by omega
      rcases this with rfl | rfl | rfl <;> simp [hP]
    · have h0 : x0 ≠ 0 := by omega
      have h1 : x0 ≠ 1 := by omega
      have h2 : x0 ≠ 2 := by omega
      have h3 : ¬ x0 < 3 := by omega
      simp [h0, h1, h2, h3]
  · simp [hP]

/-- What the loops over `i`, `j`, `k`, `m` add in one round over `p`, `q`, `r`, `s`. -/
theorem for3_addAt (v : ℕ → ℕ → ℕ → ℕ → K) (out : ℕ → ℕ → ℕ → ℕ → K) (a b c d : ℕ) :
    (for3 (fun i => for3 fun j => for3 fun k => for3 fun m =>
      addAt DType.float i j k m (v i j k m)) out) a b c d =
    if a < 3 ∧ b < 3 ∧ c < 3 ∧ d < 3 then out a b c d + v a b c d else out a b c d := by
  refine for3_at (fun s : ℕ → ℕ → ℕ → ℕ → K => s a b c d) _ a (b < 3 ∧ c < 3 ∧ d < 3)
    (v a b c d) (fun i s => ?_) out
  have e1 := for3_at (fun s : ℕ → ℕ → ℕ → ℕ → K => s a b c d)
    (fun j => for3 fun k => for3 fun m => addAt DType.float i j k m (v i j k m)) b
    (a = i ∧ c < 3 ∧ d < 3) (v a b c d) (fun j s => ?_) s
  · rw [e1]
    exact if_congr (by tauto) rfl rfl
  have e2 := for3_at (fun s : ℕ → ℕ → ℕ → ℕ → K => s a b c d)
    (fun k => for3 fun m => addAt DType.float i j k m (v i j k m)) c
    (a = i ∧ b = j ∧ d < 3) (v a b c d) (fun k s => ?_) s
  · rw [e2]
    exact if_congr (by tauto) rfl rfl
  have e3 := for3_at (fun s : ℕ → ℕ → ℕ → ℕ → K => s a b c d)
    (fun m => addAt DType.float i j k m (v i j k m)) d
    (a = i ∧ b = j ∧ c = k) (v a b c d) (fun m s => ?_) s
  · rw [e3]
    exact if_congr (by tauto) rfl rfl
  show (if a = i ∧ b = j ∧ c = k ∧ d = m then s i j k m + v i j k m else s a b c d) = _
  by_cases h : a = i ∧ b = j ∧ c = k ∧ d = m
  · obtain ⟨rfl, rfl, rfl, rfl⟩ := h
    simp
  · rw [if_neg h, if_neg (by tauto)]

/-- A loop whose body adds `w x` to the observed entry. -/
theorem for3_sum {σ : Type} (obs : σ → K) (body : ℕ → σ → σ) (w : ℕ → K)
    (h : ∀ x s, obs (body x s) = obs s + w x) (s : σ) :
    obs (for3 body s) = obs s + ∑ x : Fin 3, w x := by
  have e : for3 body s = body 2 (body 1 (body 0 s)) := rfl
  rw [Fin.sum_univ_three, e, h, h, h]
  show obs s + w 0 + w 1 + w 2 = obs s + (w 0 + w 1 + w 2)
  ring

theorem tr3333Out_eq (arr : T4 K) (Q : Mem2 K) (out : ℕ → ℕ → ℕ → ℕ → K) (i j k m : ℕ)
    (hi : i < 3) (hj : j < 3) (hk : k < 3) (hm : m < 3) :
    tr3333Out DType.float arr Q out i j k m = out i j k m +
      ∑ p : Fin 3, ∑ q : Fin 3, ∑ r : Fin 3, ∑ s : Fin 3,
        Q i p * Q j q * Q k r * Q m s * arr.a p q r s := by
  unfold tr3333Out
  refine for3_sum (fun s : ℕ → ℕ → ℕ → ℕ → K => s i j k m) _ (fun p => ∑ q : Fin 3, ∑ r : Fin 3,
    ∑ s : Fin 3, Q i p * Q j q * Q k r * Q m s * arr.a p q r s) (fun p s => ?_) out
  refine for3_sum (fun s : ℕ → ℕ → ℕ → ℕ → K => s i j k m) _ (fun q => ∑ r : Fin 3,
    ∑ s : Fin 3, Q i p * Q j q * Q k r * Q m s * arr.a p q r s) (fun q s => ?_) s
  refine for3_sum (fun s : ℕ → ℕ → ℕ → ℕ → K => s i j k m) _ (fun r =>
    ∑ s : Fin 3, Q i p * Q j q * Q k r * Q m s * arr.a p q r s) (fun r s => ?_) s
  refine for3_sum (fun s : ℕ → ℕ → ℕ → ℕ → K => s i j k m) _
    (fun t => Q i p * Q j q * Q k r * Q m t * arr.a p q r t) (fun t s => ?_) s
  have := for3_addAt (fun i j k m => Q i p * Q j q * Q k r * Q m t * arr.a p q r t) s i j k m
  rw [if_pos ⟨hi, hj, hk, hm⟩] at this
  exact this

/-- Entries outside the first three values of an index are not touched. -/
theorem tr3333Out_outside (arr : T4 K) (Q : Mem2 K) (out : ℕ → ℕ → ℕ → ℕ → K) (i j k m : ℕ)
    (h : ¬(i < 3 ∧ j < 3 ∧ k < 3 ∧ m < 3)) :
    tr3333Out DType.float arr Q out i j k m = out i j k m := by
  have z : ∀ {σ : Type} (obs : σ → K) (body : ℕ → σ → σ) (hb : ∀ x s, obs (body x s) = obs s)
      (s : σ), obs (for3 body s) = obs s := by
    intro σ obs body hb s
    have := for3_sum obs body (fun _ => 0) (fun x s => by rw [hb, add_zero]) s
    rw [this]; simp
  unfold tr3333Out
  refine z (fun s : ℕ → ℕ → ℕ → ℕ → K => s i j k m) _ (fun p s => ?_) out
  refine z (fun s : ℕ → ℕ → ℕ → ℕ → K => s i j k m) _ (fun q s => ?_) s
  refine z (fun s : ℕ → ℕ → ℕ → ℕ → K => s i j k m) _ (fun r s => ?_) s
  refine z (fun s : ℕ → ℕ → ℕ → ℕ → K => s i j k m) _ (fun t s => ?_) s
  have := for3_addAt (fun i j k m => Q i p * Q j q * Q k r * Q m t * arr.a p q r t) s i j k m
  rw [if_neg h] at this
  exact this

theorem detExpr3_eq (A : Mat 3 K) : detExpr3 A = A.det := by
  rw [Matrix.det_fin_three]
  unfold detExpr3
  ring

theorem adj3x3_eq (A : Mat 3 K) : adj3x3 A = A.adjugate := by
  rw [Matrix.adjugate_fin_three]
  unfold adj3x3
  ext i j
  fin_cases i <;> fin_cases j <;> simp

end

end Verif.Tr
