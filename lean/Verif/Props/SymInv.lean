import Verif.Model.SymInv
import Mathlib.LinearAlgebra.Matrix.NonsingularInverse
import Mathlib.LinearAlgebra.Matrix.Notation
import Mathlib.Tactic.FinCases
import Mathlib.Tactic.Ring
import Mathlib.Tactic.LinearCombination
import Mathlib.Algebra.Field.Rat

/-!
# C89: the symbolic inverse of a 3x3 matrix
-/

set_option linter.unusedSectionVars false

namespace Verif.SymInv.Props

open Verif.SymInv

section
variable {K : Type} [Field K] [DecidableEq K]

/-! ### Lemmas -/

theorem eval_subs1 (ρ : Sym → K) (s : Sym) (r : E K) (v : K) (hv : r.eval ρ = some v) (e : E K) :
    (subs1 s r e).eval ρ = e.eval (Function.update ρ s v) := by
  induction e with
  | num c => rfl
  | sym t =>
    unfold subs1
    by_cases h : t = s
    · rw [if_pos h, hv, h]
      simp [E.eval]
    · rw [if_neg h]
      simp [E.eval, h]
  | neg a ih => simp only [subs1, E.eval, ih]
  | add a b iha ihb => simp only [subs1, E.eval, iha, ihb]
  | mul a b iha ihb => simp only [subs1, E.eval, iha, ihb]
  | div a b iha ihb => simp only [subs1, E.eval, iha, ihb]

theorem eval_congr (ρ σ : Sym → K) (e : E K) (h : ∀ s ∈ e.syms, ρ s = σ s) :
    e.eval ρ = e.eval σ := by
  induction e with
  | num c => rfl
  | sym t => simp [E.eval, h t (by simp [E.syms])]
  | neg a ih => simp only [E.eval]; rw [ih h]
  | add a b iha ihb =>
    simp only [E.eval, E.syms, List.mem_append] at h ⊢
    rw [iha fun s hs => h s (.inl hs), ihb fun s hs => h s (.inr hs)]
  | mul a b iha ihb =>
    simp only [E.eval, E.syms, List.mem_append] at h ⊢
    rw [iha fun s hs => h s (.inl hs), ihb fun s hs => h s (.inr hs)]
  | div a b iha ihb =>
    simp only [E.eval, E.syms, List.mem_append] at h ⊢
    rw [iha fun s hs => h s (.inl hs), ihb fun s hs => h s (.inr hs)]

theorem eval_subs (ρ val : Sym → K) (l : List (Sym × E K)) (e : E K)
    (hv : ∀ p ∈ l, p.2.eval ρ = some (val p.1))
    (hl : l.Pairwise fun p q => q.1 ∈ p.2.syms → q.2 = .sym q.1) :
    (e.subs l).eval ρ = e.eval fun s => if s ∈ l.map Prod.fst then val s else ρ s := by
  induction l generalizing e with
  | nil => simp [E.subs]
  | cons p t ih =>
    obtain ⟨s, r⟩ := p
    rw [List.pairwise_cons] at hl
    show ((subs1 s r e).subs t).eval ρ = _
    rw [ih _ (fun p hp => hv p (List.mem_cons_of_mem _ hp)) hl.2]
    rw [eval_subs1 _ s r (val s)]
    · congr 1
      funext x
      by_cases hx : x = s
      · subst hx; simp
      · simp only [Function.update_of_ne hx, List.map_cons, List.mem_cons, hx, false_or]
    · rw [← hv (s, r) List.mem_cons_self]
      apply eval_congr
      intro x hx
      split
      · rename_i hm
        obtain ⟨q, hq, rfl⟩ := List.mem_map.1 hm
        have h1 := hv q (List.mem_cons_of_mem _ hq)
        rw [hl.1 q hq hx] at h1
        simp only [E.eval, Option.some.injEq] at h1
        exact h1.symm
      · rfl

/-- A matrix of three rows and columns. -/
def three (m : Fin 3 → Fin 3 → E K) : SMat K := ⟨3, 3, m⟩

/-- Row by row, `(i, j)` is before `(k, l)`. -/
def Before (i j k l : Fin 3) : Prop := i < k ∨ i = k ∧ j < l

/-- No entry contains the placeholder of a later entry, unless that entry is its placeholder. -/
def Harmless (m : Fin 3 → Fin 3 → E K) : Prop :=
  ∀ i j k l, Before i j k l → Sym.P k l ∈ (m i j).syms → m k l = .sym (.P k l)

theorem table_three (m : Fin 3 → Fin 3 → E K) : table (three m) =
    [(.P 0 0, m 0 0), (.P 0 1, m 0 1), (.P 0 2, m 0 2), (.P 1 0, m 1 0), (.P 1 1, m 1 1),
      (.P 1 2, m 1 2), (.P 2 0, m 2 0), (.P 2 1, m 2 1), (.P 2 2, m 2 2)] := rfl

theorem table_values (m : Fin 3 → Fin 3 → E K) (hm : Harmless m) (ρ : Sym → K)
    (M : Matrix (Fin 3) (Fin 3) K) (hM : ∀ i j, (m i j).eval ρ = some (M i j)) (e : E K) :
    ∃ σ : Sym → K, (∀ i j, σ (.P i j) = M i j) ∧ (e.subs (table (three m))).eval ρ = e.eval σ := by
  refine ⟨_, ?_, eval_subs ρ (fun s => match s with | .P i j => M i j | .other k => ρ (.other k))
    (table (three m)) e ?_ ?_⟩
  · intro i j
    rw [if_pos]
    rw [table_three]
    fin_cases i <;> fin_cases j <;> simp
  · intro p hp
    rw [table_three] at hp
    simp only [List.mem_cons, List.not_mem_nil, or_false] at hp
    rcases hp with h | h | h | h | h | h | h | h | h <;> subst h <;> exact hM _ _
  · rw [table_three]
    simp only [List.pairwise_cons, List.mem_cons, List.not_mem_nil, or_false, forall_eq_or_imp,
      forall_eq, IsEmpty.forall_iff, implies_true, List.Pairwise.nil, and_true]
    refine ⟨⟨?_, ?_, ?_, ?_, ?_, ?_, ?_, ?_⟩, ⟨?_, ?_, ?_, ?_, ?_, ?_, ?_⟩, ⟨?_, ?_, ?_, ?_, ?_, ?_⟩,
      ⟨?_, ?_, ?_, ?_, ?_⟩, ⟨?_, ?_, ?_, ?_⟩, ⟨?_, ?_, ?_⟩, ⟨?_, ?_⟩, ?_⟩ <;>
    exact hm _ _ _ _ (by unfold Before; decide)

theorem eval_minor (σ : Sym → K) (a b c d : Sym) :
    (minor a b c d : E K).eval σ = some (σ a * σ b - σ c * σ d) := by
  simp [minor, E.eval, sub_eq_add_neg]

theorem eval_detP (σ : Sym → K) (M : Matrix (Fin 3) (Fin 3) K) (h : ∀ i j, σ (.P i j) = M i j) :
    (detP : E K).eval σ = some M.det := by
  simp only [detP, E.eval, eval_minor, Option.map_some, Option.bind_some, h]
  rw [Matrix.det_fin_three]
  congr 1
  ring

theorem eval_adjP (σ : Sym → K) (M : Matrix (Fin 3) (Fin 3) K) (h : ∀ i j, σ (.P i j) = M i j)
    (i j : Fin 3) : (adjP i j : E K).eval σ = some (M.adjugate i j) := by
  simp only [adjP, eval_minor, h]
  congr 1
  rw [Matrix.adjugate_fin_three]
  fin_cases i <;> fin_cases j <;> simp <;> ring

/-! ## The theorems -/

/-- C89, partial: at every point where the entries have values and the determinant is not zero, the
result has the values of the inverse; where it is zero the result has no value.  The matrix may
contain any symbols other than the placeholders of the function, and these in their own places.
Missing: other matrices, for which it is false. -/
theorem C89_inverse_partial (m : Fin 3 → Fin 3 → E K) (hm : Harmless m) (ρ : Sym → K)
    (M : Matrix (Fin 3) (Fin 3) K) (hM : ∀ i j, (m i j).eval ρ = some (M i j)) :
    (M.det ≠ 0 → ∀ i j, (invSym (three m) i j).eval ρ = some (M⁻¹ i j)) ∧
    (M.det = 0 → ∀ i j, (invSym (three m) i j).eval ρ = none) := by
  constructor
  · intro hd i j
    obtain ⟨σ, h1, h2⟩ := table_values m hm ρ M hM (.div (adjP i j) detP)
    unfold invSym
    rw [h2]
    simp only [E.eval, eval_detP σ M h1, eval_adjP σ M h1, Option.bind_some]
    rw [if_neg hd, Matrix.inv_def]
    simp only [Matrix.smul_apply, smul_eq_mul, Ring.inverse_eq_inv']
    congr 1
    rw [div_eq_mul_inv, mul_comm]
  · intro hd i j
    obtain ⟨σ, h1, h2⟩ := table_values m hm ρ M hM (.div (adjP i j) detP)
    unfold invSym
    rw [h2]
    simp only [E.eval, eval_detP σ M h1, eval_adjP σ M h1, Option.bind_some]
    rw [if_pos hd]

/-- C89, partial: with `as_adj_det` the results have the values of the determinant and of the
adjugate, for singular matrices too. -/
theorem C89_adjugate_partial (m : Fin 3 → Fin 3 → E K) (hm : Harmless m) (ρ : Sym → K)
    (M : Matrix (Fin 3) (Fin 3) K) (hM : ∀ i j, (m i j).eval ρ = some (M i j)) :
    (detAdjSym (three m)).1.eval ρ = some M.det ∧
    ∀ i j, ((detAdjSym (three m)).2 i j).eval ρ = some (M.adjugate i j) := by
  constructor
  · obtain ⟨σ, h1, h2⟩ := table_values m hm ρ M hM detP
    unfold detAdjSym
    rw [h2]
    exact eval_detP σ M h1
  · intro i j
    obtain ⟨σ, h1, h2⟩ := table_values m hm ρ M hM (adjP i j)
    unfold detAdjSym
    simp only
    rw [h2]
    exact eval_adjP σ M h1 i j

end

/-! ### Examples and violations -/

/-- The hypotheses hold for the matrix of the placeholders itself, for numbers, and for a matrix with
other symbols. -/
example : Harmless (K := ℚ) (fun i j => .sym (.P i j)) ∧ Harmless (K := ℚ) (fun _ _ => .num 2) ∧
    Harmless (K := ℚ) ![![.sym (.other 0), .num 1, .num 0], ![.num 0, .num 2, .sym (.other 1)],
      ![.sym (.P 0 0), .num 0, .mul (.sym (.other 0)) (.sym (.other 0))]] := by
  refine ⟨fun i j k l _ h => rfl, fun i j k l _ h => ?_, ?_⟩
  · simp [E.syms] at h
  · intro i j k l hb h
    fin_cases i <;> fin_cases j <;> simp [E.syms] at h
    obtain ⟨rfl, rfl⟩ := h
    exfalso
    rcases hb with hb | ⟨hb, -⟩ <;> revert hb <;> decide

/-- C89 is violated: the transposed matrix of the placeholders: the replacements are made one after the
other, so `P_{12}` becomes `P_{21}` and then `P_{12}` again; the determinant of
`[[0, 2, 0], [1, 0, 0], [0, 0, 1]]` comes out as -4. -/
theorem C89_transposed_violated :
    ∃ ρ : Sym → ℚ,
      (Matrix.of fun i j : Fin 3 => ρ (.P j i)).det = -2 ∧
      (∀ i j, (E.sym (.P j i) : E ℚ).eval ρ = some (ρ (.P j i))) ∧
      (detAdjSym (three fun i j => (.sym (.P j i) : E ℚ))).1.eval ρ = some (-4) := by
  refine ⟨fun s => if s = .P 0 1 then 2 else if s = .P 1 0 then 1 else if s = .P 2 2 then 1 else 0,
    ?_, fun i j => rfl, ?_⟩
  · rw [Matrix.det_fin_three]; simp only [Matrix.of_apply]; decide +kernel
  · decide +kernel

/-- C89 is violated: a matrix of another shape is not refused: a 2x2 matrix of numbers gives nine
expressions in symbols that it does not contain. -/
theorem C89_shape_violated :
    Sym.P 2 2 ∈ (invSym (⟨2, 2, fun _ _ => .num 1⟩ : SMat ℚ) 0 0).syms := by
  decide +kernel

end Verif.SymInv.Props
