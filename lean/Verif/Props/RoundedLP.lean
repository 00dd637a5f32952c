import Verif.Proofs.RoundedLP
import Verif.Proofs.Rounding

set_option linter.unusedSectionVars false

/-!
# C120: linear programs whose numbers are rounded on the way to the solver
-/

namespace Verif.RLP.Props

open Verif.LP Verif.LP.Props Verif.Rnd Verif.RLP
open Verif.Rel (Relations Cls Attrs)

section
variable {V K : Type} [DecidableEq V] [Field K] [LinearOrder K] [IsStrictOrderedRing K]

/-! ### Vocabulary of the statements -/

/-- The point satisfies the equalities up to a tolerance. -/
def EqWithin (τ : K) (blk : Option (Mat K × List K)) (n : ℕ) (xs : List K) : Prop :=
  match blk with
  | none => True
  | some (A, b) => ∀ (i : ℕ) (v : K), b[i]? = some v → |rowDot A n i xs - v| ≤ τ

/-- The point satisfies the inequalities up to a tolerance. -/
def UbWithin (τ : K) (blk : Option (Mat K × List K)) (n : ℕ) (xs : List K) : Prop :=
  match blk with
  | none => True
  | some (A, b) => ∀ (i : ℕ) (v : K), b[i]? = some v → rowDot A n i xs ≤ v + τ

/-- The sizes of the terms of a linear function at a point, added up. -/
def size (vars : List V) (f : Func V K) (xs : List K) : K :=
  ((vars.zip xs).map fun t => |slope f t.1 * t.2|).sum + |f.eval fun _ => 0|

/-- A value misses the relation to zero by at most `ε`. -/
def MissesBy (o : Relations) (ε v : K) : Prop :=
  match o with
  | .eq => |v| ≤ ε
  | .le => v ≤ ε
  | .lt => v ≤ ε
  | .ge => -ε ≤ v
  | .gt => -ε ≤ v

/-! ### Auxiliary -/

theorem rows_spec {fl : K → K} {u : K} (h0 : fl 0 = 0) (sp : Bool) (vars : List V)
    (hn : vars.Nodup) (mult : Constraint V K → K × K × K) (hm : ∀ c, |(mult c).1| = 1)
    (cs : List (Constraint V K)) (hc : ∀ c ∈ cs, Linear vars c.fn)
    (hp : ∀ c ∈ cs, ∀ x ∈ vars, |fl (c.fn.coef x * (mult c).1) - c.fn.coef x * (mult c).1| ≤
      u * |c.fn.coef x * (mult c).1|) :
    ∃ blk, RLP.assemble fl sp vars mult cs = .ok blk ∧
      ∀ (xs : List K), xs.length = vars.length → ∃ r : ℕ → K,
        (∀ i c, cs[i]? = some c →
          |r i - (mult c).1 * (c.fn.eval (point vars xs) - c.fn.eval fun _ => 0)| ≤
          u * ((vars.zip xs).map fun t => |slope c.fn t.1 * t.2|).sum) ∧
        (∀ τ, EqWithin τ blk vars.length xs ↔ ∀ i c, cs[i]? = some c →
          |r i - rhs fl (-(fl (c.fn.eval fun _ => 0))) (mult c).2.1 (mult c).2.2| ≤ τ) ∧
        (∀ τ, UbWithin τ blk vars.length xs ↔ ∀ i c, cs[i]? = some c →
          r i ≤ rhs fl (-(fl (c.fn.eval fun _ => 0))) (mult c).2.1 (mult c).2.2 + τ) := by
  rcases RLP.assemble_spec fl h0 sp vars mult cs hc with
    ⟨h1, rfl⟩ | ⟨A, b, h1, -, hb, hA⟩
  · exact ⟨none, h1, fun xs _ => ⟨fun _ => 0, by simp, by simp [EqWithin], by simp [UbWithin]⟩⟩
  · refine ⟨some (A, b), h1, fun xs hl => ?_⟩
    refine ⟨fun i => rowDot A vars.length i xs, ?_, ?_, ?_⟩
    · intro i c hi
      exact row_near A vars hn i c.fn (hc c (List.mem_of_getElem? hi)) _ (hm c)
        (hp c (List.mem_of_getElem? hi)) xs hl (hA i c hi)
    · intro τ
      unfold EqWithin
      constructor
      · intro h i c hi
        exact h i _ (by rw [hb, List.getElem?_map, hi]; rfl)
      · intro h i v hv
        rw [hb, List.getElem?_map, Option.map_eq_some_iff] at hv
        obtain ⟨c, hi, rfl⟩ := hv
        exact h i c hi
    · intro τ
      unfold UbWithin
      constructor
      · intro h i c hi
        exact h i _ (by rw [hb, List.getElem?_map, hi]; rfl)
      · intro h i v hv
        rw [hb, List.getElem?_map, Option.map_eq_some_iff] at hv
        obtain ⟨c, hi, rfl⟩ := hv
        exact h i c hi

theorem mult_one (tiny : K) (o : Option Relations) : |(multipliers tiny o).1| = 1 := by
  rcases o with _ | o
  · simp [multipliers]
  · cases o <;> simp [multipliers]

/-- Right hand side of a strict inequality. -/
theorem strict_rhs {fl : K → K} (hr : IsRounding fl) {tiny : K} (ht : 0 < tiny) (v m : K)
    (hm : m = 1 ∨ m = -1) : rhs fl (-(fl v)) m (-tiny) ≤ -(fl v) * m := by
  rw [rhs_ne _ _ _ (by simpa using ht.ne')]
  have h1 : fl (-(fl v) * m) = -(fl v) * m := by
    rcases hm with rfl | rfl
    · rw [mul_one, hr.neg, hr.idem]
    · rw [neg_mul_neg, mul_one, hr.idem]
  calc fl (-(fl v) * m + -tiny) ≤ fl (-(fl v) * m) := hr.mono _ _ (by linarith)
    _ = _ := h1

/-! ### The statements -/

/-- **C120 (what a solution is worth).** Let the constraints be linear, built without callable
operators, strict or not, with arbitrary exact coefficients.  The translation succeeds, and a point
which satisfies the system handed to the solver up to a tolerance `τ` misses every one of the
constraints by at most `τ` plus one unit of rounding times the sizes of its terms. -/
theorem C120_satisfied {I B : Type} {fl : K → K} {u : K} (hr : IsRounding fl) (hp : Precise fl u)
    (tiny : K) (ht : 0 < tiny) (isInteger : V → Option Bool)
    (p : Problem V K I B) (mx : Bool) (hn : p.vars.Nodup) (hobj : ∀ x ∈ p.vars, x ∈ p.obj.vars)
    (hlin : ∀ c ∈ p.constraints, Linear p.vars c.fn)
    (hb : ∀ c ∈ p.constraints, BuiltWithoutCallable c.rel) :
    ∃ args, RLP.toScipy fl tiny isInteger p mx = .ok args ∧
      ∀ (τ : K) (xs : List K), xs.length = p.vars.length →
        EqWithin τ args.eq p.vars.length xs → UbWithin τ args.ub p.vars.length xs →
        ∀ c ∈ p.constraints, ∃ o, c.rel.op = some o ∧ c.rel.opfunc = o.toOpfunc ∧
          MissesBy o (τ + u * size p.vars c.fn xs) (c.fn.eval (point p.vars xs)) := by
  obtain ⟨beq, hbeq, hbeq'⟩ := rows_spec (precise_zero hp) p.sparsify p.vars hn (fun _ => (1, 1, 0))
    (fun _ => by simp) (eqsOf p) (fun c hc => hlin c (List.mem_of_mem_filter hc))
    (fun _ _ _ _ => hp _)
  obtain ⟨bub, hbub, hbub'⟩ := rows_spec (precise_zero hp) p.sparsify p.vars hn
    (fun c => multipliers tiny c.rel.op) (fun c => mult_one tiny _) (ieqsOf p)
    (fun c hc => hlin c (List.mem_of_mem_filter hc)) (fun _ _ _ _ => hp _)
  obtain ⟨args, hargs, h1, h2, -⟩ := RLP.toScipy_ok fl tiny isInteger p mx hobj hbeq hbub
  refine ⟨args, hargs, fun τ xs hl he hu c hc => ?_⟩
  rw [h1] at he
  rw [h2] at hu
  obtain ⟨r, hr1, hr2, -⟩ := hbeq' xs hl
  obtain ⟨s, hs1, -, hs3⟩ := hbub' xs hl
  rw [hr2] at he
  rw [hs3] at hu
  obtain ⟨o, ho, hf, hcls⟩ := built_spec (hb c hc)
  refine ⟨o, ho, hf, ?_⟩
  have hz := abs_le.1 (hp (c.fn.eval fun _ => 0))
  unfold size
  by_cases hoe : o = .eq
  · subst hoe
    have hmem : c ∈ eqsOf p := List.mem_filter.2 ⟨hc, by simpa using hcls⟩
    obtain ⟨i, hi, hic⟩ := List.getElem_of_mem hmem
    have hi' : (eqsOf p)[i]? = some c := by rw [List.getElem?_eq_getElem hi, hic]
    have e1 := abs_le.1 (hr1 i c hi')
    have e2 := abs_le.1 (he i c hi')
    simp only [rhs, if_true, mul_one, one_mul] at e1 e2
    unfold MissesBy
    rw [abs_le]
    constructor <;> linarith [e1.1, e1.2, e2.1, e2.2, hz.1, hz.2]
  · rw [if_neg hoe] at hcls
    have hmem : c ∈ ieqsOf p := List.mem_filter.2 ⟨hc, by simpa using hcls⟩
    obtain ⟨i, hi, hic⟩ := List.getElem_of_mem hmem
    have hi' : (ieqsOf p)[i]? = some c := by rw [List.getElem?_eq_getElem hi, hic]
    have e1 := abs_le.1 (hs1 i c hi')
    have e2 := hu i c hi'
    rw [ho] at e1 e2
    cases o with
    | eq => exact absurd rfl hoe
    | gt =>
      have e3 := strict_rhs hr ht (c.fn.eval fun _ => 0) (-1) (Or.inr rfl)
      simp only [multipliers] at e1 e2
      unfold MissesBy
      linarith [e1.1, e1.2, hz.1, hz.2]
    | lt =>
      have e3 := strict_rhs hr ht (c.fn.eval fun _ => 0) 1 (Or.inl rfl)
      simp only [multipliers] at e1 e2
      unfold MissesBy
      linarith [e1.1, e1.2, hz.1, hz.2]
    | ge =>
      simp only [multipliers, rhs, if_true] at e1 e2
      unfold MissesBy
      linarith [e1.1, e1.2, hz.1, hz.2]
    | le =>
      simp only [multipliers, rhs, if_true] at e1 e2
      unfold MissesBy
      linarith [e1.1, e1.2, hz.1, hz.2]

/-- **C120 (no feasible point is lost by more).** A point which fulfils the constraints (equalities
and non-strict inequalities) satisfies the system handed to the solver up to one unit of rounding
times the sizes of the terms. -/
theorem C120_kept {I B : Type} {fl : K → K} {u : K} (hp : Precise fl u)
    (tiny : K) (isInteger : V → Option Bool)
    (p : Problem V K I B) (mx : Bool) (hn : p.vars.Nodup) (hobj : ∀ x ∈ p.vars, x ∈ p.obj.vars)
    (hlin : ∀ c ∈ p.constraints, Linear p.vars c.fn)
    (hb : ∀ c ∈ p.constraints, BuiltWithoutCallable c.rel)
    (hns : ∀ c ∈ p.constraints, c.rel.op ≠ some .lt ∧ c.rel.op ≠ some .gt) :
    ∃ args, RLP.toScipy fl tiny isInteger p mx = .ok args ∧
      ∀ (τ : K) (xs : List K), xs.length = p.vars.length →
        (∀ c ∈ p.constraints, Fulfilled p.vars xs c) →
        (∀ c ∈ p.constraints, u * size p.vars c.fn xs ≤ τ) →
        EqWithin τ args.eq p.vars.length xs ∧ UbWithin τ args.ub p.vars.length xs := by
  obtain ⟨beq, hbeq, hbeq'⟩ := rows_spec (precise_zero hp) p.sparsify p.vars hn (fun _ => (1, 1, 0))
    (fun _ => by simp) (eqsOf p) (fun c hc => hlin c (List.mem_of_mem_filter hc))
    (fun _ _ _ _ => hp _)
  obtain ⟨bub, hbub, hbub'⟩ := rows_spec (precise_zero hp) p.sparsify p.vars hn
    (fun c => multipliers tiny c.rel.op) (fun c => mult_one tiny _) (ieqsOf p)
    (fun c hc => hlin c (List.mem_of_mem_filter hc)) (fun _ _ _ _ => hp _)
  obtain ⟨args, hargs, h1, h2, -⟩ := RLP.toScipy_ok fl tiny isInteger p mx hobj hbeq hbub
  refine ⟨args, hargs, fun τ xs hl hful hτ => ?_⟩
  obtain ⟨r, hr1, hr2, -⟩ := hbeq' xs hl
  obtain ⟨s, hs1, -, hs3⟩ := hbub' xs hl
  rw [h1, h2, hr2, hs3]
  constructor
  · intro i c hi
    have hm := List.mem_filter.1 (List.mem_of_getElem? hi)
    have hz := abs_le.1 (hp (c.fn.eval fun _ => 0))
    have e1 := abs_le.1 (hr1 i c hi)
    have e2 := hτ c hm.1
    have e3 := hful c hm.1
    obtain ⟨o, ho, hf, hcls⟩ := built_spec (hb c hm.1)
    have hoe : o = .eq := by
      by_contra h
      rw [if_neg h] at hcls
      have := hm.2
      simp [hcls] at this
    subst hoe
    simp only [Fulfilled, Attrs.relateValue, hf, Relations.toOpfunc, decide_eq_true_eq] at e3
    unfold size at e2
    simp only [rhs, if_true, mul_one, one_mul] at e1 ⊢
    rw [abs_le]
    constructor <;> linarith [e1.1, e1.2, hz.1, hz.2]
  · intro i c hi
    have hm := List.mem_filter.1 (List.mem_of_getElem? hi)
    have hz := abs_le.1 (hp (c.fn.eval fun _ => 0))
    have e1 := abs_le.1 (hs1 i c hi)
    have e2 := hτ c hm.1
    have e3 := hful c hm.1
    obtain ⟨o, ho, hf, hcls⟩ := built_spec (hb c hm.1)
    unfold size at e2
    cases o with
    | eq => have := hm.2; simp [hcls] at this
    | gt => exact absurd ho (hns c hm.1).2
    | lt => exact absurd ho (hns c hm.1).1
    | ge =>
      simp only [Fulfilled, Attrs.relateValue, hf, Relations.toOpfunc, decide_eq_true_eq] at e3
      simp only [ho, multipliers, rhs, if_true] at e1 ⊢
      linarith [e1.1, e1.2, hz.1, hz.2]
    | le =>
      simp only [Fulfilled, Attrs.relateValue, hf, Relations.toOpfunc, decide_eq_true_eq] at e3
      simp only [ho, multipliers, rhs, if_true] at e1 ⊢
      linarith [e1.1, e1.2, hz.1, hz.2]

/-- **C120 (numbers that are floats).** If the coefficients and the constants of all constraints
are floating point numbers (integers below `2 ^ 53`, say), nothing is lost: the system handed to
the solver has exactly the feasible set of the constraints. -/
theorem C120_representable {I B : Type} {fl : K → K} (hr : IsRounding fl) (tiny : K)
    (isInteger : V → Option Bool)
    (p : Problem V K I B) (mx : Bool) (hn : p.vars.Nodup) (hobj : ∀ x ∈ p.vars, x ∈ p.obj.vars)
    (hlin : ∀ c ∈ p.constraints, Linear p.vars c.fn)
    (hb : ∀ c ∈ p.constraints, BuiltWithoutCallable c.rel)
    (hns : ∀ c ∈ p.constraints, c.rel.op ≠ some .lt ∧ c.rel.op ≠ some .gt)
    (hfl : ∀ c ∈ p.constraints, (∀ x ∈ p.vars, fl (slope c.fn x) = slope c.fn x) ∧
      fl (c.fn.eval fun _ => 0) = c.fn.eval fun _ => 0) :
    ∃ args, RLP.toScipy fl tiny isInteger p mx = .ok args ∧
      ∀ xs : List K, xs.length = p.vars.length →
        ((∀ c ∈ p.constraints, Fulfilled p.vars xs c) ↔
          SatEq args.eq p.vars.length xs ∧ SatUb args.ub p.vars.length xs) := by
  have h0 : fl 0 = 0 := by
    have := hr.neg 0
    rw [neg_zero] at this
    linarith
  have hco : ∀ c ∈ p.constraints, ∀ x ∈ p.vars, fl (c.fn.coef x) = c.fn.coef x := by
    intro c hc x hx
    rw [← slope_eq c.fn p.vars hn (hlin c hc) x hx]
    exact (hfl c hc).1 x hx
  obtain ⟨beq, hbeq, hbeq'⟩ := rows_spec (u := 0) h0 p.sparsify p.vars hn (fun _ => (1, 1, 0))
    (fun _ => by simp) (eqsOf p) (fun c hc => hlin c (List.mem_of_mem_filter hc))
    (fun c hc x hx => by
      dsimp only
      rw [mul_one, hco c (List.mem_of_mem_filter hc) x hx, sub_self, abs_zero, zero_mul])
  obtain ⟨bub, hbub, hbub'⟩ := rows_spec (u := 0) h0 p.sparsify p.vars hn
    (fun c => multipliers tiny c.rel.op) (fun c => mult_one tiny _) (ieqsOf p)
    (fun c hc => hlin c (List.mem_of_mem_filter hc))
    (fun c hc x hx => by
      have h1 := hco c (List.mem_of_mem_filter hc) x hx
      have h2 : (multipliers tiny c.rel.op).1 = 1 ∨ (multipliers tiny c.rel.op).1 = -1 :=
        eq_or_eq_neg_of_abs_eq (mult_one tiny c.rel.op)
      rcases h2 with h2 | h2
      · rw [h2, mul_one, h1, sub_self, abs_zero, zero_mul]
      · rw [h2, mul_neg_one, hr.neg, h1, sub_self, abs_zero, zero_mul])
  obtain ⟨args, hargs, h1, h2, -⟩ := RLP.toScipy_ok fl tiny isInteger p mx hobj hbeq hbub
  refine ⟨args, hargs, fun xs hl => ?_⟩
  obtain ⟨r, hr1, hr2, -⟩ := hbeq' xs hl
  obtain ⟨s, hs1, -, hs3⟩ := hbub' xs hl
  have e1 : SatEq args.eq p.vars.length xs ↔ EqWithin 0 args.eq p.vars.length xs := by
    rcases args.eq with _ | ⟨A, b⟩
    · simp [SatEq, EqWithin]
    · simp only [SatEq, EqWithin, abs_nonpos_iff, sub_eq_zero]
  have e2 : SatUb args.ub p.vars.length xs ↔ UbWithin 0 args.ub p.vars.length xs := by
    rcases args.ub with _ | ⟨A, b⟩
    · simp [SatUb, UbWithin]
    · simp only [SatUb, UbWithin, add_zero]
  rw [e1, e2, h1, h2, hr2, hs3]
  constructor
  · intro hful
    constructor
    · intro i c hi
      have hm := List.mem_filter.1 (List.mem_of_getElem? hi)
      have e1 := hr1 i c hi
      rw [zero_mul, abs_nonpos_iff, sub_eq_zero] at e1
      have e3 := hful c hm.1
      obtain ⟨o, ho, hf, hcls⟩ := built_spec (hb c hm.1)
      have hoe : o = .eq := by
        by_contra h
        rw [if_neg h] at hcls
        have := hm.2
        simp [hcls] at this
      subst hoe
      simp only [Fulfilled, Attrs.relateValue, hf, Relations.toOpfunc, decide_eq_true_eq] at e3
      rw [e1, (hfl c hm.1).2, e3]
      simp [rhs]
    · intro i c hi
      have hm := List.mem_filter.1 (List.mem_of_getElem? hi)
      have e1 := hs1 i c hi
      rw [zero_mul, abs_nonpos_iff, sub_eq_zero] at e1
      have e3 := hful c hm.1
      obtain ⟨o, ho, hf, hcls⟩ := built_spec (hb c hm.1)
      rw [e1, (hfl c hm.1).2]
      cases o with
      | eq => have := hm.2; simp [hcls] at this
      | gt => exact absurd ho (hns c hm.1).2
      | lt => exact absurd ho (hns c hm.1).1
      | ge =>
        simp only [Fulfilled, Attrs.relateValue, hf, Relations.toOpfunc, decide_eq_true_eq] at e3
        simp only [ho, multipliers, rhs, if_true]
        linarith
      | le =>
        simp only [Fulfilled, Attrs.relateValue, hf, Relations.toOpfunc, decide_eq_true_eq] at e3
        simp only [ho, multipliers, rhs, if_true]
        linarith
  · rintro ⟨he, hu⟩ c hc
    obtain ⟨o, ho, hf, hcls⟩ := built_spec (hb c hc)
    unfold Fulfilled Attrs.relateValue
    rw [hf]
    by_cases hoe : o = .eq
    · subst hoe
      have hmem : c ∈ eqsOf p := List.mem_filter.2 ⟨hc, by simpa using hcls⟩
      obtain ⟨i, hi, hic⟩ := List.getElem_of_mem hmem
      have hi' : (eqsOf p)[i]? = some c := by rw [List.getElem?_eq_getElem hi, hic]
      have e1 := hr1 i c hi'
      have e2 := he i c hi'
      rw [zero_mul, abs_nonpos_iff, sub_eq_zero] at e1
      rw [abs_nonpos_iff, sub_eq_zero, e1, (hfl c hc).2] at e2
      simp only [rhs, if_true] at e2
      simp only [Relations.toOpfunc, decide_eq_true_eq]
      linarith
    · rw [if_neg hoe] at hcls
      have hmem : c ∈ ieqsOf p := List.mem_filter.2 ⟨hc, by simpa using hcls⟩
      obtain ⟨i, hi, hic⟩ := List.getElem_of_mem hmem
      have hi' : (ieqsOf p)[i]? = some c := by rw [List.getElem?_eq_getElem hi, hic]
      have e1 := hs1 i c hi'
      have e2 := hu i c hi'
      rw [zero_mul, abs_nonpos_iff, sub_eq_zero] at e1
      rw [e1, (hfl c hc).2, ho] at e2
      cases o with
      | eq => exact absurd rfl hoe
      | gt => exact absurd ho (hns c hc).2
      | lt => exact absurd ho (hns c hc).1
      | ge =>
        simp only [multipliers, rhs, if_true] at e2
        simp only [Relations.toOpfunc, decide_eq_true_eq]
        linarith
      | le =>
        simp only [multipliers, rhs, if_true] at e2
        simp only [Relations.toOpfunc, decide_eq_true_eq]
        linarith

/-- **C120 (objective).** A point at which the objective handed to the solver is at most `τ` above
its value at another one is, for the objective of the problem, at most `τ` and one unit of rounding
times the sizes of the terms at the two points worse than that one: no matter among which points
the solver searches, its best point is a best point of the problem up to that much. -/
theorem C120_objective {I B : Type} {fl : K → K} {u : K} (hp : Precise fl u)
    (tiny : K) (isInteger : V → Option Bool)
    (p : Problem V K I B) (mx : Bool) (hn : p.vars.Nodup) (hobj : Linear p.vars p.obj)
    (hlin : ∀ c ∈ p.constraints, Linear p.vars c.fn) :
    ∃ args, RLP.toScipy fl tiny isInteger p mx = .ok args ∧
      ∀ (τ : K) (xs ys : List K), xs.length = p.vars.length → ys.length = p.vars.length →
        (List.zipWith (· * ·) args.c xs).sum ≤ (List.zipWith (· * ·) args.c ys).sum + τ →
        let ε := τ + u * (((p.vars.zip xs).map fun t => |slope p.obj t.1 * t.2|).sum +
          ((p.vars.zip ys).map fun t => |slope p.obj t.1 * t.2|).sum)
        if mx then p.obj.eval (point p.vars ys) ≤ p.obj.eval (point p.vars xs) + ε
        else p.obj.eval (point p.vars xs) ≤ p.obj.eval (point p.vars ys) + ε := by
  obtain ⟨beq, hbeq, -⟩ := rows_spec (precise_zero hp) p.sparsify p.vars hn (fun _ => (1, 1, 0))
    (fun _ => by simp) (eqsOf p) (fun c hc => hlin c (List.mem_of_mem_filter hc))
    (fun _ _ _ _ => hp _)
  obtain ⟨bub, hbub, -⟩ := rows_spec (precise_zero hp) p.sparsify p.vars hn
    (fun c => multipliers tiny c.rel.op) (fun c => mult_one tiny _) (ieqsOf p)
    (fun c hc => hlin c (List.mem_of_mem_filter hc)) (fun _ _ _ _ => hp _)
  obtain ⟨args, hargs, -, -, h3, -⟩ := RLP.toScipy_ok fl tiny isInteger p mx
    (fun x hx => hobj.2.2.mem_iff.2 hx) hbeq hbub
  refine ⟨args, hargs, fun τ xs ys hx hy hle => ?_⟩
  have key : ∀ zs : List K, zs.length = p.vars.length →
      ∃ d, (List.zipWith (· * ·) args.c zs).sum = (if mx then -d else d) ∧
        |d - (p.obj.eval (point p.vars zs) - p.obj.eval fun _ => 0)| ≤
          u * ((p.vars.zip zs).map fun t => |slope p.obj t.1 * t.2|).sum := by
    intro zs hz
    refine ⟨(p.vars.map fun x => fl (p.obj.coef x * 1) * point p.vars zs x).sum, ?_, ?_⟩
    · rw [h3]
      conv_lhs => rw [← map_point hn hz]
      rw [List.zipWith_map, List.zipWith_self]
      cases mx
      · simp
      · simp only [if_true, mul_one]
        rw [← neg_one_mul (List.sum _), ← List.sum_map_mul_left]
        congr 1
        apply List.map_congr_left
        intro x _
        ring
    · rw [zip_sum p.obj p.vars hn hobj zs hz,
        p.obj.eval_affine hobj.1 p.vars hn hobj.2.2 hobj.2.1 (point p.vars zs),
        p.obj.eval_zero hobj.1, add_sub_cancel_left]
      have := sum_near (fl := fl) (u := u) 1 abs_one p.obj.coef (point p.vars zs) p.vars
        (fun _ _ => hp _)
      rwa [one_mul] at this
  obtain ⟨dx, ex, bx⟩ := key xs hx
  obtain ⟨dy, ey, by'⟩ := key ys hy
  rw [ex, ey] at hle
  have bx := abs_le.1 bx
  have by' := abs_le.1 by'
  cases mx
  · simp only [Bool.false_eq_true, if_false] at hle ⊢
    linarith [bx.1, bx.2, by'.1, by'.2]
  · simp only [if_true] at hle ⊢
    linarith [bx.1, bx.2, by'.1, by'.2]

end

/-! ### Cases and the violation -/

/-- `x/3 - 1 = 0` and `x - 3 = 0`. -/
def thirds (sparsify : Bool) : Problem ℕ ℚ Unit Unit :=
  ⟨⟨[0], [([0], 1)]⟩,
    [⟨⟨.equality, some .eq, Relations.eq.toOpfunc, none⟩, ⟨[0], [([0], 1 / 3), ([], -1)]⟩, true⟩,
     ⟨⟨.equality, some .eq, Relations.eq.toOpfunc, none⟩, ⟨[0], [([0], 1), ([], -3)]⟩, true⟩],
    [0], (), none, sparsify⟩

theorem thirds_linear (sp : Bool) : ∀ c ∈ (thirds sp).constraints, Linear (thirds sp).vars c.fn := by
  intro c hc
  simp only [thirds, List.mem_cons, List.not_mem_nil, or_false] at hc
  rcases hc with rfl | rfl
  · exact ⟨by unfold Func.Affine; decide, by unfold Func.Closed; decide, List.Perm.refl _⟩
  · exact ⟨by unfold Func.Affine; decide, by unfold Func.Closed; decide, List.Perm.refl _⟩

theorem thirds_built (sp : Bool) : ∀ c ∈ (thirds sp).constraints, BuiltWithoutCallable c.rel := by
  intro c hc
  simp only [thirds, List.mem_cons, List.not_mem_nil, or_false] at hc
  rcases hc with rfl | rfl <;> exact built_example .eq

/-- **C120: exactly feasible problems can become infeasible.** `x/3 = 1` and `x = 3` agree; after
the conversion to double precision no point satisfies both, whatever the format of the matrix. (A
solver with a tolerance above `2 ^ -53` finds the point, by `C120_kept`.) -/
theorem C120_infeasible_violated (sp : Bool) (tiny : ℚ) :
    (∀ c ∈ (thirds sp).constraints, Fulfilled (thirds sp).vars [3] c) ∧
    ∃ args, RLP.toScipy (binary 53) tiny (fun _ => none) (thirds sp) false = .ok args ∧
      ∀ xs : List ℚ, ¬ SatEq args.eq 1 xs := by
  constructor
  · intro c hc
    simp only [thirds, List.mem_cons, List.not_mem_nil, or_false] at hc
    rcases hc with rfl | rfl <;> (unfold Fulfilled; revert sp; decide +kernel)
  · have heqs : eqsOf (thirds sp) = (thirds sp).constraints := rfl
    have hz : binary 53 0 = 0 := by decide +kernel
    have hv : ∀ x ∈ (thirds sp).vars, x ∈ (thirds sp).obj.vars := by
      clear heqs; revert sp; decide +kernel
    have b0 : ((eqsOf (thirds sp)).map fun c =>
        rhs (binary 53) (-(binary 53 (c.fn.eval fun _ => 0))) 1 0)[0]? = some 1 := by
      clear heqs hv; revert sp; decide +kernel
    have b1 : ((eqsOf (thirds sp)).map fun c =>
        rhs (binary 53) (-(binary 53 (c.fn.eval fun _ => 0))) 1 0)[1]? = some 3 := by
      clear heqs hv b0; revert sp; decide +kernel
    rcases RLP.assemble_spec (binary 53) hz sp (thirds sp).vars (fun _ => (1, 1, 0))
      (eqsOf (thirds sp)) (by rw [heqs]; exact thirds_linear sp) with ⟨-, h⟩ | ⟨A, b, h1, -, hb, hA⟩
    · cases h
    · obtain ⟨args, hargs, he, -⟩ := RLP.toScipy_ok (binary 53) tiny (fun _ => none) (thirds sp)
        false hv (eq := some (A, b)) (ub := none) h1 rfl
      refine ⟨args, hargs, fun xs hsat => ?_⟩
      rw [he] at hsat
      have r0 := hsat 0 1 (by rw [hb]; exact b0)
      have r1 := hsat 1 3 (by rw [hb]; exact b1)
      have a0 := hA 0 _ rfl 0 0 rfl
      have a1 := hA 1 _ rfl 0 0 rfl
      simp only [rowDot, List.range_one, List.map_cons, List.map_nil, List.sum_cons,
        List.sum_nil, add_zero] at r0 r1
      rw [a0] at r0
      rw [a1] at r1
      have c1 : binary 53 (Func.coef (⟨[0], [([0], 1), ([], -3)]⟩ : Func ℕ ℚ) 0 * 1) = 1 := by
        decide +kernel
      have c0 : binary 53 (Func.coef (⟨[0], [([0], 1 / 3), ([], -1)]⟩ : Func ℕ ℚ) 0 * 1) * 3 ≠ 1 := by
        decide +kernel
      rw [c1, one_mul] at r1
      rw [r1] at r0
      exact c0 r0

/-- The hypotheses of the theorems above for that problem, and the bound at its solution. -/
example (sp : Bool) : IsRounding (binary 53) ∧ Precise (binary 53) (1 / 2 ^ 53) ∧
    (thirds sp).vars.Nodup ∧ Linear (thirds sp).vars (thirds sp).obj ∧
    (∀ c ∈ (thirds sp).constraints, Linear (thirds sp).vars c.fn) ∧
    (∀ c ∈ (thirds sp).constraints, BuiltWithoutCallable c.rel) ∧
    (∀ c ∈ (thirds sp).constraints, c.rel.op ≠ some .lt ∧ c.rel.op ≠ some .gt) ∧
    (∀ c ∈ (thirds sp).constraints, 1 / 2 ^ 53 * size (thirds sp).vars c.fn [3] ≤ 6 / 2 ^ 53) := by
  refine ⟨binary_rounding 53 (by norm_num), binary_precise 53 (by norm_num), by simp [thirds],
    ⟨by unfold Func.Affine; revert sp; decide +kernel, by unfold Func.Closed; revert sp; decide +kernel, List.Perm.refl _⟩,
    thirds_linear sp, thirds_built sp, ?_, ?_⟩
  · intro c hc
    simp only [thirds, List.mem_cons, List.not_mem_nil, or_false] at hc
    rcases hc with rfl | rfl <;> simp
  · intro c hc
    simp only [thirds, List.mem_cons, List.not_mem_nil, or_false] at hc
    rcases hc with rfl | rfl <;> (unfold size; revert sp; decide +kernel)

/-- Coefficients that are floating point numbers. -/
example : ∀ c ∈ [(⟨⟨.inequality, some .ge, Relations.ge.toOpfunc, none⟩, exFunc, true⟩ :
    Constraint ℕ ℚ)], (∀ x ∈ [1, 2], binary 53 (slope c.fn x) = slope c.fn x) ∧
      binary 53 (c.fn.eval fun _ => 0) = c.fn.eval fun _ => 0 := by
  intro c hc
  simp only [List.mem_cons, List.not_mem_nil, or_false] at hc
  subst hc
  exact ⟨by decide +kernel, by decide +kernel⟩

end Verif.RLP.Props
