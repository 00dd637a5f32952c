import Verif.Model.EinsumPath
import Verif.Proofs.Einsum
import Mathlib.Algebra.BigOperators.Fin
import Mathlib.Data.List.Perm.Basic

/-! # Helper lemmas about the order of contractions -/

set_option linter.unusedSectionVars false

namespace Verif.Frames

section
variable {n : ℕ} {K : Type} [Field K] [LinearOrder K] [NeZero n]

/-- The value of an operand if the letters have values. -/
def EinsumOp.val (o : EinsumOp n K) (e : ℕ → Fin n) : K := o.arr fun k => e (o.letters.get k)

/-- The product of the values. -/
def prodVal (ops : List (EinsumOp n K)) (e : ℕ → Fin n) : K := (ops.map fun o => o.val e).prod

/-- Sum over all values of the letters. -/
def sumL : List ℕ → ((ℕ → Fin n) → K) → (ℕ → Fin n) → K
  | [], f, e => f e
  | l :: ls, f, e => ∑ x : Fin n, sumL ls f (Function.update e l x)

theorem val_congr (o : EinsumOp n K) {e e' : ℕ → Fin n} (h : ∀ l ∈ o.letters, e l = e' l) :
    o.val e = o.val e' := by
  unfold EinsumOp.val
  congr 1
  funext k
  exact h _ (List.get_mem _ _)

theorem prodVal_congr (ops : List (EinsumOp n K)) {e e' : ℕ → Fin n} (h : ∀ l ∈ lettersOf ops, e l = e' l) :
    prodVal ops e = prodVal ops e' := by
  unfold prodVal
  congr 1
  refine List.map_congr_left fun o ho => val_congr o fun l hl => h l ?_
  exact List.mem_flatMap.2 ⟨o, ho, hl⟩

theorem sumL_congr (ls : List ℕ) {f g : (ℕ → Fin n) → K} (h : ∀ e, f e = g e) (e : ℕ → Fin n) :
    sumL ls f e = sumL ls g e := by
  induction ls generalizing e with
  | nil => exact h e
  | cons l ls ih => exact Finset.sum_congr rfl fun x _ => ih _

theorem sumL_append (as bs : List ℕ) (f : (ℕ → Fin n) → K) (e : ℕ → Fin n) :
    sumL (as ++ bs) f e = sumL as (sumL bs f) e := by
  induction as generalizing e with
  | nil => rfl
  | cons a as ih => exact Finset.sum_congr rfl fun x _ => ih _

theorem sumL_perm {as bs : List ℕ} (h : as.Perm bs) (hd : as.Nodup) (f : (ℕ → Fin n) → K) (e : ℕ → Fin n) :
    sumL as f e = sumL bs f e := by
  induction h generalizing e with
  | nil => rfl
  | cons x _ ih => exact Finset.sum_congr rfl fun y _ => ih (List.nodup_cons.1 hd).2 _
  | swap x y l =>
    have hxy : y ≠ x := fun h => by simp [h] at hd
    simp only [sumL]
    rw [Finset.sum_comm]
    refine Finset.sum_congr rfl fun u _ => Finset.sum_congr rfl fun v _ => ?_
    rw [Function.update_comm hxy]
  | trans h1 _ ih1 ih2 => rw [ih1 hd, ih2 (h1.nodup hd)]

/-- A factor that does not depend on the letters summed over. -/
theorem sumL_mul (ls : List ℕ) (g f : (ℕ → Fin n) → K)
    (hg : ∀ l ∈ ls, ∀ e x, g (Function.update e l x) = g e) (e : ℕ → Fin n) :
    sumL ls (fun e => g e * f e) e = g e * sumL ls f e := by
  induction ls generalizing e with
  | nil => rfl
  | cons l ls ih =>
    simp only [sumL]
    rw [Finset.mul_sum]
    refine Finset.sum_congr rfl fun x _ => ?_
    rw [ih (fun m hm => hg m (List.mem_cons_of_mem _ hm)), hg l List.mem_cons_self]

/-- The values of the letters `ls` replaced. -/
def withValues (ls : List ℕ) (s : Fin ls.length → Fin n) (e : ℕ → Fin n) (l : ℕ) : Fin n :=
  if h : ls.idxOf l < ls.length then s ⟨ls.idxOf l, h⟩ else e l

/-- The sum over the values of letters as a sum over tuples. -/
theorem sumL_eq (ls : List ℕ) (hd : ls.Nodup) (f : (ℕ → Fin n) → K) (e : ℕ → Fin n) :
    sumL ls f e = ∑ s : Fin ls.length → Fin n, f (withValues ls s e) := by
  induction ls generalizing e with
  | nil =>
    symm
    exact (Fintype.sum_eq_single (fun k : Fin 0 => k.elim0)
      (fun s hs => absurd (funext fun k => k.elim0) hs)).trans rfl
  | cons l ls ih =>
    obtain ⟨hl, hd⟩ := List.nodup_cons.1 hd
    simp only [sumL]
    have key : ∀ (x : Fin n) (s : Fin ls.length → Fin n),
        withValues ls s (Function.update e l x) = withValues (l :: ls) (Fin.cons x s) e := by
      intro x s
      funext m
      unfold withValues
      by_cases hm : m = l
      · subst hm
        rw [dif_neg (by rw [List.idxOf_lt_length_iff]; exact hl),
          dif_pos (by rw [List.idxOf_lt_length_iff]; exact List.mem_cons_self), Function.update_self]
        have : (m :: ls).idxOf m = 0 := List.idxOf_cons_self
        simp only [this]
        rfl
      · have e1 : (l :: ls).idxOf m = ls.idxOf m + 1 := List.idxOf_cons_ne _ (Ne.symm hm)
        by_cases hin : m ∈ ls
        · rw [dif_pos (List.idxOf_lt_length_iff.2 hin),
            dif_pos (by rw [List.idxOf_lt_length_iff]; exact List.mem_cons_of_mem _ hin)]
          simp only [e1]
          rfl
        · rw [dif_neg (by rw [List.idxOf_lt_length_iff]; exact hin),
            dif_neg (by rw [List.idxOf_lt_length_iff]; simp [hm, hin]), Function.update_of_ne hm]
    refine Eq.trans ?_ ((Fin.consEquiv fun _ : Fin (ls.length + 1) => Fin n).sum_comp
      fun s => f (withValues (l :: ls) s e))
    rw [Fintype.sum_prod_type]
    refine Finset.sum_congr rfl fun x _ => ?_
    rw [ih hd]
    refine Finset.sum_congr rfl fun s _ => ?_
    rw [key]
    rfl

/-- A contraction is a sum over the letters that are not kept. -/
theorem contractTo_val (keep gone : List ℕ) (hk : keep.Nodup) (hg : gone.Nodup) (hdis : ∀ l ∈ gone, l ∉ keep)
    (ops : List (EinsumOp n K)) (hops : ∀ l ∈ lettersOf ops, l ∈ keep ∨ l ∈ gone) (e : ℕ → Fin n) :
    (contractTo keep gone ops).val e = sumL gone (prodVal ops) e := by
  rw [sumL_eq gone hg]
  show ∑ s : Fin gone.length → Fin n, _ = _
  refine Finset.sum_congr rfl fun s _ => ?_
  unfold prodVal
  congr 1
  refine List.map_congr_left fun o ho => ?_
  unfold EinsumOp.val
  congr 1
  funext k
  show letterValue keep gone (fun k => e (keep.get k)) s (o.letters.get k) = _
  have hl : o.letters.get k ∈ lettersOf ops := List.mem_flatMap.2 ⟨o, ho, List.get_mem _ _⟩
  generalize o.letters.get k = l at hl
  by_cases hin : l ∈ keep
  · obtain ⟨p, hp, rfl⟩ := List.getElem_of_mem hin
    rw [letterValue_out hk _ _ p hp rfl]
    unfold withValues
    rw [dif_neg (by rw [List.idxOf_lt_length_iff]; exact fun h => hdis _ h hin)]
    rfl
  · have hgo := (hops l hl).resolve_left hin
    obtain ⟨p, hp, rfl⟩ := List.getElem_of_mem hgo
    rw [letterValue_inner hg _ _ p hp rfl hin]
    unfold withValues
    rw [dif_pos (List.idxOf_lt_length_iff.2 hgo)]
    congr 1
    exact Fin.ext (hg.idxOf_getElem p hp).symm

theorem taken_left_perm {α : Type} (ps : List ℕ) (ops : List α) : (taken ps ops ++ left ps ops).Perm ops := by
  unfold taken left
  rw [← List.map_append]
  have h := (List.filter_append_perm (fun p : α × ℕ => decide (p.2 ∈ ps)) ops.zipIdx).map Prod.fst
  rwa [List.zipIdx_map_fst] at h

theorem prodVal_perm {a b : List (EinsumOp n K)} (h : a.Perm b) (e : ℕ → Fin n) :
    prodVal a e = prodVal b e := (h.map _).prod_eq

theorem prodVal_append (a b : List (EinsumOp n K)) (e : ℕ → Fin n) :
    prodVal (a ++ b) e = prodVal a e * prodVal b e := by
  unfold prodVal
  rw [List.map_append, List.prod_append]

theorem mem_lettersOf_perm {a b : List (EinsumOp n K)} (h : a.Perm b) (l : ℕ) :
    l ∈ lettersOf a ↔ l ∈ lettersOf b := (h.flatMap_right _).mem_iff

/-- The letters that are summed over in the end. -/
def innerOf (out : List ℕ) (ops : List (EinsumOp n K)) : List ℕ :=
  (List.range 26).filter fun l => l ∈ lettersOf ops && !decide (l ∈ out)

theorem mem_lettersOf_append (a b : List (EinsumOp n K)) (l : ℕ) :
    l ∈ lettersOf (a ++ b) ↔ l ∈ lettersOf a ∨ l ∈ lettersOf b := by
  unfold lettersOf
  rw [List.flatMap_append, List.mem_append]

/-- A step does not change what the operands amount to. -/
theorem contractStep_sum (out ps : List ℕ) (ops : List (EinsumOp n K)) (h26 : ∀ l ∈ lettersOf ops, l < 26)
    (e : ℕ → Fin n) :
    sumL (innerOf out (contractStep out ps ops)) (prodVal (contractStep out ps ops)) e =
      sumL (innerOf out ops) (prodVal ops) e ∧
    (∀ l ∈ lettersOf (contractStep out ps ops), l ∈ lettersOf ops) ∧
    (∀ l ∈ lettersOf ops, l ∈ out → l ∈ lettersOf (contractStep out ps ops)) := by
  have hperm := taken_left_perm ps ops
  unfold contractStep
  simp only
  generalize taken ps ops = C at hperm ⊢
  generalize left ps ops = R at hperm ⊢
  have hm : ∀ l, l ∈ lettersOf ops ↔ l ∈ lettersOf C ∨ l ∈ lettersOf R := fun l => by
    rw [← mem_lettersOf_perm hperm, mem_lettersOf_append]
  obtain ⟨keep, hkeep⟩ : ∃ k, k = (List.range 26).filter fun l =>
    l ∈ lettersOf C && (l ∈ lettersOf R || l ∈ out) := ⟨_, rfl⟩
  obtain ⟨gone, hgone⟩ : ∃ k, k = (List.range 26).filter fun l =>
    l ∈ lettersOf C && !(l ∈ lettersOf R || l ∈ out) := ⟨_, rfl⟩
  rw [← hkeep, ← hgone]
  have mk : ∀ l, l ∈ keep ↔ l ∈ lettersOf C ∧ (l ∈ lettersOf R ∨ l ∈ out) := fun l => by
    rw [hkeep, List.mem_filter, List.mem_range]
    simp only [Bool.and_eq_true, Bool.or_eq_true, decide_eq_true_eq]
    exact ⟨fun h => h.2, fun h => ⟨h26 l ((hm l).2 (.inl h.1)), h⟩⟩
  have mg : ∀ l, l ∈ gone ↔ l ∈ lettersOf C ∧ l ∉ lettersOf R ∧ l ∉ out := fun l => by
    rw [hgone, List.mem_filter, List.mem_range]
    simp only [Bool.and_eq_true, Bool.not_eq_true', Bool.or_eq_false_iff, decide_eq_true_eq,
      decide_eq_false_iff_not]
    exact ⟨fun h => h.2, fun h => ⟨h26 l ((hm l).2 (.inl h.1)), h⟩⟩
  have nk : keep.Nodup := hkeep ▸ List.nodup_range.filter _
  have ng : gone.Nodup := hgone ▸ List.nodup_range.filter _
  have hN : ∀ e, (contractTo keep gone C).val e = sumL gone (prodVal C) e := fun e =>
    contractTo_val keep gone nk ng (fun l h1 h2 => by
      have := (mg l).1 h1
      exact ((mk l).1 h2).2.elim this.2.1 this.2.2) C (fun l hl => by
        by_cases h : l ∈ lettersOf R ∨ l ∈ out
        · exact .inl ((mk l).2 ⟨hl, h⟩)
        · rw [not_or] at h
          exact .inr ((mg l).2 ⟨hl, h⟩)) e
  have hnew : ∀ l, l ∈ lettersOf (R ++ [contractTo keep gone C]) ↔ l ∈ lettersOf R ∨ l ∈ keep := fun l => by
    rw [mem_lettersOf_append]
    simp [lettersOf, contractTo]
  refine ⟨?_, fun l hl => ?_, fun l hl ho => ?_⟩
  · have hp : (innerOf out (R ++ [contractTo keep gone C]) ++ gone).Perm (innerOf out ops) := by
      refine (List.perm_ext_iff_of_nodup ?_ (List.nodup_range.filter _)).2 fun l => ?_
      · refine List.Nodup.append (List.nodup_range.filter _) ng fun l h1 h2 => ?_
        unfold innerOf at h1
        rw [List.mem_filter] at h1
        simp only [Bool.and_eq_true, decide_eq_true_eq, hnew] at h1
        have := (mg l).1 h2
        exact h1.2.1.elim this.2.1 fun h => ((mk l).1 h).2.elim this.2.1 this.2.2
      · unfold innerOf
        rw [List.mem_append, List.mem_filter, List.mem_filter, List.mem_range, mg]
        simp only [Bool.and_eq_true, Bool.not_eq_true', decide_eq_true_eq, decide_eq_false_iff_not, hnew, mk, hm]
        constructor
        · rintro (⟨h1, h2, h3⟩ | ⟨h1, h2, h3⟩)
          · exact ⟨h1, h2.elim .inr fun h => .inl h.1, h3⟩
          · exact ⟨h26 l ((hm l).2 (.inl h1)), .inl h1, h3⟩
        · rintro ⟨h1, h2, h3⟩
          by_cases hR : l ∈ lettersOf R
          · exact .inl ⟨h1, .inl hR, h3⟩
          · exact .inr ⟨h2.resolve_right hR, hR, h3⟩
    rw [← sumL_perm hp (hp.nodup_iff.2 (List.nodup_range.filter _)), sumL_append]
    refine sumL_congr _ (fun e => ?_) e
    rw [prodVal_append]
    have h1 : prodVal [contractTo keep gone C] e = sumL gone (prodVal C) e := by
      rw [← hN e]
      simp [prodVal]
    rw [h1, ← sumL_mul]
    · refine sumL_congr _ (fun e => ?_) e
      rw [← prodVal_append]
      exact prodVal_perm (List.perm_append_comm.trans hperm) e
    · intro l hl e x
      refine prodVal_congr R fun m hm => Function.update_of_ne ?_ _ _
      rintro rfl
      exact ((mg m).1 hl).2.1 hm
  · rcases (hnew l).1 hl with h | h
    · exact (hm l).2 (.inr h)
    · exact (hm l).2 (.inl ((mk l).1 h).1)
  · rw [hnew]
    rcases (hm l).1 hl with h | h
    · exact .inr ((mk l).2 ⟨h, .inr ho⟩)
    · exact .inl h

theorem length_taken {α : Type} (ps : List ℕ) (hd : ps.Nodup) (ops : List α) (h : ∀ p ∈ ps, p < ops.length) :
    (taken ps ops).length = ps.length := by
  unfold taken
  rw [List.length_map]
  have e : (ops.zipIdx.filter fun p => decide (p.2 ∈ ps)).length =
      ((List.range ops.length).filter fun p => decide (p ∈ ps)).length := by
    have : List.range ops.length = ops.zipIdx.map Prod.snd := by
      rw [List.zipIdx_map_snd, List.range_eq_range']
    rw [this, List.filter_map, List.length_map]
    rfl
  rw [e]
  refine List.Perm.length_eq ((List.perm_ext_iff_of_nodup (List.nodup_range.filter _) hd).2 fun p => ?_)
  rw [List.mem_filter, List.mem_range, decide_eq_true_eq]
  exact ⟨fun h => h.2, fun hp => ⟨h p hp, hp⟩⟩

theorem length_contractStep (out ps : List ℕ) (hd : ps.Nodup) (ops : List (EinsumOp n K))
    (h : ∀ p ∈ ps, p < ops.length) :
    (contractStep out ps ops).length = ops.length - ps.length + 1 := by
  have h1 := (taken_left_perm ps ops).length_eq
  rw [List.length_append, length_taken ps hd ops h] at h1
  show (left ps ops ++ [_]).length = _
  rw [List.length_append, List.length_singleton]
  omega

end
end Verif.Frames
