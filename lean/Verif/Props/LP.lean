import Verif.Proofs.LP
import Mathlib.Data.List.GetD
import Mathlib.Tactic.NormNum
import Mathlib.Algebra.Order.Field.Rat

set_option linter.unusedSectionVars false

/-!
# C16–C19, C22: the linear program handed to the solver
-/

namespace Verif.LP.Props

open Verif Verif.LP
open Verif.Rel (Relations Cls Attrs OpArg Input construct)

section
variable {V K : Type} [DecidableEq V] [Field K] [LinearOrder K] [IsStrictOrderedRing K]

/-! ### Vocabulary of the statements -/

/-- `(A x)_i` for a matrix with `n` columns. -/
def rowDot (A : Mat K) (n i : ℕ) (xs : List K) : K :=
  ((List.range n).map fun j => A.entry i j * xs.getD j 0).sum

/-- The point satisfies the equality block (`None` means no equalities). -/
def SatEq (blk : Option (Mat K × List K)) (n : ℕ) (xs : List K) : Prop :=
  match blk with
  | none => True
  | some (A, b) => ∀ (i : ℕ) (v : K), b[i]? = some v → rowDot A n i xs = v

/-- The point satisfies the inequality block. -/
def SatUb (blk : Option (Mat K × List K)) (n : ℕ) (xs : List K) : Prop :=
  match blk with
  | none => True
  | some (A, b) => ∀ (i : ℕ) (v : K), b[i]? = some v → rowDot A n i xs ≤ v

/-- A linear constraint written in exactly the variables of the problem (in any order). -/
def Linear (vars : List V) (f : Func V K) : Prop := f.Affine ∧ f.Closed ∧ f.vars.Perm vars

/-- The constraint is fulfilled at the point at which the `j`-th variable of the problem has the
`j`-th value: what `relate` returns there. -/
def Fulfilled (vars : List V) (xs : List K) (c : Constraint V K) : Prop :=
  c.rel.relateValue (c.fn.eval (point vars xs)) = true

/-- The relation was built by one of the three constructors without a callable operator. -/
def BuiltWithoutCallable (a : Attrs K) : Prop :=
  ∃ (cls : Cls) (inp : Input) (op : OpArg K) (opStr : Option (List Char)),
    (∀ f, op ≠ .callable f) ∧ construct cls inp op opStr = .ok a

/-- Coefficients of a linear function, from its values: `f(e_x) - f(0)`. -/
def slope (f : Func V K) (x : V) : K :=
  f.eval (fun y => if y = x then 1 else 0) - f.eval (fun _ => 0)

/-! ### Auxiliary -/

theorem slope_eq (f : Func V K) (vars : List V) (hn : vars.Nodup) (h : Linear vars f) (x : V)
    (hx : x ∈ vars) : slope f x = f.coef x := by
  unfold slope
  rw [f.eval_affine h.1 vars hn h.2.2 h.2.1, f.eval_zero h.1]
  have : (vars.map fun y => f.coef y * (if y = x then 1 else 0)).sum = f.coef x := by
    rw [← sum_single hn hx (fun y => f.coef y)]
    congr 1
    apply List.map_congr_left
    intro y _
    by_cases hxy : y = x
    · subst hxy; simp
    · simp [hxy, Ne.symm hxy]
  rw [this]; ring

theorem rowDot_eq (A : Mat K) (vars : List V) (hn : vars.Nodup) (i : ℕ) (g : V → K) (m : K)
    (xs : List K) (hl : xs.length = vars.length)
    (hA : ∀ (j : ℕ) (x : V), vars[j]? = some x → A.entry i j = g x * m) :
    rowDot A vars.length i xs = m * (vars.map fun x => g x * point vars xs x).sum := by
  unfold rowDot
  have hmp := map_point hn hl
  have : ((List.range vars.length).map fun j => A.entry i j * xs.getD j 0) =
      vars.map fun x => m * (g x * point vars xs x) := by
    apply List.ext_getElem
    · simp
    · intro j h1 h2
      have hj : j < vars.length := by simpa using h2
      have hx : xs.getD j 0 = point vars xs vars[j] := by
        conv_lhs => rw [← hmp]
        rw [List.getD_eq_getElem _ _ (by simpa using hj)]
        simp
      simp only [List.getElem_map, List.getElem_range, hx, hA j _ (List.getElem?_eq_getElem hj)]
      ring
  rw [this, List.sum_map_mul_left]

/-- What `assemble` returns for linear constraints. -/
theorem assemble_spec (fl : K → K) (sp : Bool) (vars : List V)
    (mult : Constraint V K → K × K × K) (cs : List (Constraint V K))
    (hc : ∀ c ∈ cs, Linear vars c.fn) :
    assemble fl sp vars mult cs = .ok none ∧ cs = [] ∨
    ∃ A b, assemble fl sp vars mult cs = .ok (some (A, b)) ∧ cs ≠ [] ∧ A.nrows = cs.length ∧
      b = cs.map (fun c => rhs fl (-(c.fn.eval fun _ => 0)) (mult c).2.1 (mult c).2.2) ∧
      ∀ (i : ℕ) (c : Constraint V K), cs[i]? = some c → ∀ (j : ℕ) (x : V), vars[j]? = some x →
        A.entry i j = c.fn.coef x * (mult c).1 := by
  rcases Nat.eq_zero_or_pos cs.length with h0 | hpos
  · left
    have : cs = [] := List.length_eq_zero_iff.1 h0
    subst this
    exact ⟨by unfold assemble; rfl, rfl⟩
  · right
    have hrow : ∀ c ∈ cs, rowData fl vars mult c = .ok
        (vars.map (fun x => c.fn.coef x * (mult c).1),
          rhs fl (-(c.fn.eval fun _ => 0)) (mult c).2.1 (mult c).2.2) := by
      intro c hcm
      have h := hc c hcm
      have h1 : denseRow c.fn (mult c).1 vars = .ok (vars.map fun x => c.fn.coef x * (mult c).1) := by
        apply pyMap_ok
        intro x hx
        rw [dictGet_linear, if_pos (Or.inl (h.2.2.mem_iff.2 hx))]; rfl
      have h2 : c.fn.call (List.replicate vars.length (0 : K)) = .ok (c.fn.eval fun _ => 0) := by
        rw [c.fn.call_ok h.2.1 _ (by simp [h.2.2.length_eq])]
        congr 2
        funext x
        exact point_zero _ _ _
      simp [rowData, h1, h2, bind, Except.bind, pure, Except.pure]
    have hdd := pyMap_ok hrow
    have hdd' : denseData fl vars mult cs = .ok (cs.map fun c =>
        (vars.map (fun x => c.fn.coef x * (mult c).1),
          rhs fl (-(c.fn.eval fun _ => 0)) (mult c).2.1 (mult c).2.2)) := hdd
    have hent : ∀ (i : ℕ) (c : Constraint V K), cs[i]? = some c → ∀ (j : ℕ) (x : V),
        vars[j]? = some x → (Mat.dense ((cs.map fun c =>
          (vars.map (fun x => c.fn.coef x * (mult c).1),
            rhs fl (-(c.fn.eval fun _ => 0)) (mult c).2.1 (mult c).2.2)).map Prod.fst)).entry i j =
          c.fn.coef x * (mult c).1 := by
      intro i c hi j x hj
      simp [Mat.entry, List.getD_eq_getElem?_getD, hi, hj]
    have hne : ¬ cs.length = 0 := by omega
    have hne' : cs ≠ [] := by rintro rfl; simp at hne
    cases sp with
    | true =>
      rw [assemble_sparse, if_neg hne, hdd']
      refine ⟨_, _, rfl, hne', rfl, ?_, ?_⟩
      · simp
      · intro i c hi j x hj
        rw [sparse_entry]; exact hent i c hi j x hj
    | false =>
      rw [assemble_dense, if_neg hne, hdd']
      refine ⟨_, _, rfl, hne', by simp [Mat.nrows], ?_, hent⟩
      simp

/-- Condition under which the translation keeps the meaning of a constraint. -/
def Honoured (c : Constraint V K) : Prop :=
  (c.rel.cls = .equality ∧ ∀ v : K, c.rel.opfunc v 0 = true ↔ v = 0) ∨
  (c.rel.cls = .inequality ∧ (c.rel.op = none ∨ c.rel.op = some .le ∨ c.rel.op = some .eq) ∧
    ∀ v : K, c.rel.opfunc v 0 = true ↔ v ≤ 0) ∨
  (c.rel.cls = .inequality ∧ c.rel.op = some .ge ∧ ∀ v : K, c.rel.opfunc v 0 = true ↔ 0 ≤ v)

/-- Meaning of a block in terms of the values of the constraints. -/
theorem block_spec (fl : K → K) (sp : Bool) (vars : List V) (hn : vars.Nodup)
    (mult : Constraint V K → K × K × K) (cs : List (Constraint V K))
    (hc : ∀ c ∈ cs, Linear vars c.fn) :
    ∃ blk, assemble fl sp vars mult cs = .ok blk ∧
      ∀ xs : List K, xs.length = vars.length →
        (SatEq blk vars.length xs ↔ ∀ c ∈ cs,
          (mult c).1 * (c.fn.eval (point vars xs) - c.fn.eval fun _ => 0) =
            rhs fl (-(c.fn.eval fun _ => 0)) (mult c).2.1 (mult c).2.2) ∧
        (SatUb blk vars.length xs ↔ ∀ c ∈ cs,
          (mult c).1 * (c.fn.eval (point vars xs) - c.fn.eval fun _ => 0) ≤
            rhs fl (-(c.fn.eval fun _ => 0)) (mult c).2.1 (mult c).2.2) := by
  rcases assemble_spec fl sp vars mult cs hc with ⟨h1, rfl⟩ | ⟨A, b, h1, -, -, hb, hA⟩
  · exact ⟨none, h1, fun xs _ => by simp [SatEq, SatUb]⟩
  · refine ⟨some (A, b), h1, fun xs hl => ?_⟩
    have hrow : ∀ (i : ℕ) (c : Constraint V K), cs[i]? = some c →
        rowDot A vars.length i xs =
          (mult c).1 * (c.fn.eval (point vars xs) - c.fn.eval fun _ => 0) := by
      intro i c hi
      have h := hc c (List.mem_of_getElem? hi)
      rw [rowDot_eq A vars hn i c.fn.coef _ xs hl (hA i c hi),
        c.fn.eval_affine h.1 vars hn h.2.2 h.2.1 (point vars xs), c.fn.eval_zero h.1]
      ring
    have hall : ∀ R : K → K → Prop,
        (∀ (i : ℕ) (v : K), b[i]? = some v → R (rowDot A vars.length i xs) v) ↔
        ∀ c ∈ cs, R ((mult c).1 * (c.fn.eval (point vars xs) - c.fn.eval fun _ => 0))
          (rhs fl (-(c.fn.eval fun _ => 0)) (mult c).2.1 (mult c).2.2) := by
      intro R
      constructor
      · intro h c hcm
        obtain ⟨i, hi, hic⟩ := List.getElem_of_mem hcm
        have hi' : cs[i]? = some c := by rw [List.getElem?_eq_getElem hi, hic]
        rw [← hrow i c hi']
        apply h
        rw [hb, List.getElem?_map, hi']; rfl
      · intro h i v hv
        rw [hb, List.getElem?_map, Option.map_eq_some_iff] at hv
        obtain ⟨c, hi, rfl⟩ := hv
        rw [hrow i c hi]
        exact h c (List.mem_of_getElem? hi)
    exact ⟨hall (· = ·), hall (· ≤ ·)⟩

/-- The equalities and the inequalities among the constraints. -/
def eqsOf {I B : Type} (p : Problem V K I B) : List (Constraint V K) :=
  p.constraints.filter fun c => c.rel.cls = .equality

def ieqsOf {I B : Type} (p : Problem V K I B) : List (Constraint V K) :=
  p.constraints.filter fun c => c.rel.cls = .inequality

/-- `_to_scipy` succeeds if its two blocks do and the objective knows the variables. -/
theorem toScipy_ok {I B : Type} (fl : K → K) (tiny : K) (isInteger : V → Option Bool)
    (p : Problem V K I B) (mx : Bool) (hobj : ∀ x ∈ p.vars, x ∈ p.obj.vars)
    {ub eq : Option (Mat K × List K)}
    (heq : assemble fl p.sparsify p.vars (fun _ => (1, 1, 0)) (eqsOf p) = .ok eq)
    (hub : assemble fl p.sparsify p.vars (fun c => multipliers tiny c.rel.op) (ieqsOf p) = .ok ub) :
    ∃ args, toScipy fl tiny isInteger p mx = .ok args ∧ args.eq = eq ∧ args.ub = ub ∧
      args.c = (p.vars.map fun x => (if mx then p.obj.coef x * -1 else p.obj.coef x)) ∧
      args.bounds = p.bounds ∧
      args.integrality = (match p.integrality with
        | some i => some (.inl i)
        | none => if (p.vars.map fun v => truthy (isInteger v)).any id then
            some (.inr ((p.vars.map fun v => truthy (isInteger v)).map Bool.toNat)) else none) := by
  have hobj' : pyMap (fun x => dictGet p.obj.linearCoefficients [x]) p.vars =
      .ok (p.vars.map p.obj.coef) := by
    apply pyMap_ok
    intro x hx
    rw [dictGet_linear, if_pos (Or.inl (hobj x hx))]
  unfold eqsOf at heq
  unfold ieqsOf at hub
  unfold toScipy
  simp only [hobj', heq, hub, bind, Except.bind, pure, Except.pure]
  refine ⟨_, rfl, rfl, rfl, ?_, rfl, rfl⟩
  cases mx <;> simp

/-- The system for constraints whose meaning is kept. -/
theorem feasible_core {I B : Type} (fl : K → K) (tiny : K) (isInteger : V → Option Bool)
    (p : Problem V K I B) (mx : Bool) (hn : p.vars.Nodup) (hobj : ∀ x ∈ p.vars, x ∈ p.obj.vars)
    (hlin : ∀ c ∈ p.constraints, Linear p.vars c.fn)
    (hhon : ∀ c ∈ p.constraints, Honoured c) :
    ∃ args, toScipy fl tiny isInteger p mx = .ok args ∧
      ∀ xs : List K, xs.length = p.vars.length →
        ((∀ c ∈ p.constraints, Fulfilled p.vars xs c) ↔
          SatEq args.eq p.vars.length xs ∧ SatUb args.ub p.vars.length xs) := by
  obtain ⟨beq, hbeq, hbeq'⟩ := block_spec fl p.sparsify p.vars hn (fun _ => (1, 1, 0)) (eqsOf p)
    (fun c hc => hlin c (List.mem_of_mem_filter hc))
  obtain ⟨bub, hbub, hbub'⟩ := block_spec fl p.sparsify p.vars hn
    (fun c => multipliers tiny c.rel.op) (ieqsOf p)
    (fun c hc => hlin c (List.mem_of_mem_filter hc))
  obtain ⟨args, hargs, h1, h2, -⟩ := toScipy_ok fl tiny isInteger p mx hobj hbeq hbub
  refine ⟨args, hargs, fun xs hl => ?_⟩
  rw [h1, h2, (hbeq' xs hl).1, (hbub' xs hl).2]
  have heq : ∀ c ∈ p.constraints, c.rel.cls = .equality →
      ((1 : K) * (c.fn.eval (point p.vars xs) - c.fn.eval fun _ => 0) =
        rhs fl (-(c.fn.eval fun _ => 0)) 1 0 ↔ Fulfilled p.vars xs c) := by
    intro c hc hcls
    unfold Fulfilled Attrs.relateValue
    rcases hhon c hc with h | h | h
    · rw [h.2]; simp [rhs, sub_eq_add_neg]
    · rw [h.1] at hcls; cases hcls
    · rw [h.1] at hcls; cases hcls
  have hub : ∀ c ∈ p.constraints, c.rel.cls = .inequality →
      ((multipliers tiny c.rel.op).1 * (c.fn.eval (point p.vars xs) - c.fn.eval fun _ => 0) ≤
        rhs fl (-(c.fn.eval fun _ => 0)) (multipliers tiny c.rel.op).2.1
          (multipliers tiny c.rel.op).2.2 ↔ Fulfilled p.vars xs c) := by
    intro c hc hcls
    unfold Fulfilled Attrs.relateValue
    rcases hhon c hc with h | h | h
    · rw [h.1] at hcls; cases hcls
    · have hmul : multipliers tiny c.rel.op = (1, 1, 0) := by
        rcases h.2.1 with h | h | h <;> rw [h] <;> rfl
      rw [h.2.2, hmul]
      simp only [rhs, if_true]
      constructor <;> intro h <;> linarith
    · have hmul : multipliers tiny c.rel.op = (-1, -1, 0) := by rw [h.2.1]; rfl
      rw [h.2.2, hmul]
      simp only [rhs, if_true]
      constructor <;> intro h <;> linarith
  constructor
  · intro h
    refine ⟨fun c hc => ?_, fun c hc => ?_⟩
    · have hm := List.mem_filter.1 hc
      exact (heq c hm.1 (by simpa using hm.2)).2 (h c hm.1)
    · have hm := List.mem_filter.1 hc
      exact (hub c hm.1 (by simpa using hm.2)).2 (h c hm.1)
  · rintro ⟨h1, h2⟩ c hc
    have he : c.rel.cls = .equality → Fulfilled p.vars xs c := fun h =>
      (heq c hc h).1 (h1 c (List.mem_filter.2 ⟨hc, by simpa using h⟩))
    have hi : c.rel.cls = .inequality → Fulfilled p.vars xs c := fun h =>
      (hub c hc h).1 (h2 c (List.mem_filter.2 ⟨hc, by simpa using h⟩))
    rcases hhon c hc with h | h | h
    · exact he h.1
    · exact hi h.1
    · exact hi h.1

/-- Without a callable operator the class, the enum member and the decision function agree. -/
theorem built_spec {a : Attrs K} (h : BuiltWithoutCallable a) :
    ∃ o : Relations, a.op = some o ∧ a.opfunc = o.toOpfunc ∧
      a.cls = (if o = .eq then .equality else .inequality) := by
  obtain ⟨cls, inp, op, opStr, hop, h⟩ := h
  -- the operator seen by `__new__` is the one set by `__init__`
  have key : ∀ (o : Relations) (c : Cls), (c = .relation → False) →
      ∀ (txt : Option (List Char)),
      Rel.assertOp (⟨c, some o, o.toOpfunc, txt⟩ : Attrs K) = .ok a →
      ∃ o : Relations, a.op = some o ∧ a.opfunc = o.toOpfunc ∧
        a.cls = (if o = Relations.eq then Cls.equality else Cls.inequality) := by
    intro o c hc txt hm
    unfold Rel.assertOp at hm
    cases c with
    | relation => exact absurd rfl hc
    | equality =>
      simp only at hm
      split at hm
      · rename_i ho
        simp only [Except.ok.injEq] at hm
        subst hm
        exact ⟨o, rfl, rfl, by simp [ho]⟩
      · cases hm
    | inequality =>
      simp only at hm
      split at hm
      · rename_i ho
        simp only [Except.ok.injEq] at hm
        subst hm
        exact ⟨o, rfl, rfl, by simp only [if_neg ho]⟩
      · cases hm
  have hcls : ∀ (o : Relations) (c : Cls), Rel.newOp inp op opStr = .ok (some o) →
      Rel.newCls cls inp op opStr = .ok c → c = .relation → False := by
    intro o c ho hc hcr
    unfold Rel.newCls at hc
    rw [ho] at hc
    simp only [bind, Except.bind, pure, Except.pure] at hc
    split at hc
    · rename_i hne
      simp only [Except.ok.injEq] at hc
      exact hne (hc.trans hcr)
    · cases o <;> simp only [Except.ok.injEq] at hc <;> rw [← hc] at hcr <;> cases hcr
  unfold construct at h
  cases hc : Rel.newCls cls inp op opStr with
  | error e => rw [hc] at h; cases h
  | ok c =>
    rw [hc] at h
    simp only [bind, Except.bind] at h
    -- the cases of `op`
    cases op with
    | callable f => exact absurd rfl (hop f)
    | str s =>
      unfold Rel.initAttrs at h
      cases hs : Relations.ofValue s with
      | error e => simp [hs, Except.map, bind, Except.bind] at h
      | ok o =>
        have hno : Rel.newOp inp (.str s : OpArg K) opStr = .ok (some o) := by
          simp [Rel.newOp, hs, Except.map]
        simp only [hs, Except.map, bind, Except.bind] at h
        exact key o c (hcls o c hno hc) _ h
    | member o =>
      have hno : Rel.newOp inp (.member o : OpArg K) opStr = .ok (some o) := rfl
      unfold Rel.initAttrs at h
      simp only [bind, Except.bind] at h
      exact key o c (hcls o c hno hc) _ h
    | absent =>
      unfold Rel.initAttrs at h
      by_cases hin : Rel.hasOpInInput inp = true
      · cases inp with
        | other => simp [Rel.hasOpInInput] at hin
        | text s =>
          simp only [hin, if_true] at h
          cases hp : Rel.parseExpression s with
          | error e => simp [hp, Except.map, bind, Except.bind] at h
          | ok q =>
            have hno : Rel.newOp (.text s) (.absent : OpArg K) opStr = .ok (some q.2.1) := by
              simp [Rel.newOp, hin, hp, Except.map]
            simp only [hp, Except.map, bind, Except.bind] at h
            exact key q.2.1 c (hcls _ c hno hc) _ h
      · simp only [hin, if_false, bind, Except.bind, Bool.false_eq_true] at h
        cases opStr with
        | none =>
          have hno : Rel.newOp inp (.absent : OpArg K) none = .ok (some .eq) := by
            simp [Rel.newOp, hin]
          exact key .eq c (hcls _ c hno hc) _ h
        | some t =>
          cases ht : Relations.ofValue t with
          | error e =>
            have hno : Rel.newOp inp (.absent : OpArg K) (some t) = .ok (some .eq) := by
              simp [Rel.newOp, hin, ht]
            simp only [ht] at h
            exact key .eq c (hcls _ c hno hc) _ h
          | ok o =>
            have hno : Rel.newOp inp (.absent : OpArg K) (some t) = .ok (some o) := by
              simp [Rel.newOp, hin, ht]
            simp only [ht] at h
            exact key o c (hcls _ c hno hc) _ h

theorem honoured_of_built (c : Constraint V K) (h : BuiltWithoutCallable c.rel)
    (hs : c.rel.op ≠ some .lt ∧ c.rel.op ≠ some .gt) : Honoured c := by
  obtain ⟨o, ho, hf, hcls⟩ := built_spec h
  cases o with
  | eq => left; exact ⟨by simpa using hcls, fun v => by simp [hf, Relations.toOpfunc]⟩
  | gt => exact absurd ho hs.2
  | lt => exact absurd ho hs.1
  | ge =>
    right; right
    exact ⟨by simpa using hcls, ho, fun v => by simp [hf, Relations.toOpfunc]⟩
  | le =>
    right; left
    exact ⟨by simpa using hcls, Or.inr (Or.inl ho), fun v => by simp [hf, Relations.toOpfunc]⟩

/-! ### C16 -/

/-- **C16 (equalities and non-strict inequalities).** For linear constraints built without callable
operators and without strict operators, in the variables of the problem, the translation succeeds
and has exactly the feasible set of the constraints. -/
theorem C16_feasible_set {I B : Type} (fl : K → K) (tiny : K) (isInteger : V → Option Bool)
    (p : Problem V K I B) (mx : Bool) (hn : p.vars.Nodup) (hobj : ∀ x ∈ p.vars, x ∈ p.obj.vars)
    (hlin : ∀ c ∈ p.constraints, Linear p.vars c.fn)
    (hb : ∀ c ∈ p.constraints, BuiltWithoutCallable c.rel)
    (hns : ∀ c ∈ p.constraints, c.rel.op ≠ some .lt ∧ c.rel.op ≠ some .gt) :
    ∃ args, toScipy fl tiny isInteger p mx = .ok args ∧
      ∀ xs : List K, xs.length = p.vars.length →
        ((∀ c ∈ p.constraints, Fulfilled p.vars xs c) ↔
          SatEq args.eq p.vars.length xs ∧ SatUb args.ub p.vars.length xs) :=
  feasible_core fl tiny isInteger p mx hn hobj hlin
    (fun c hc => honoured_of_built c (hb c hc) (hns c hc))

theorem rhs_ne (fl : K → K) (v m : K) {adj : K} (h : adj ≠ 0) :
    rhs fl v m adj = fl (v * m + adj) := if_neg h

/-- **C16 (strict inequalities), partial.** In exact arithmetic (`fl = id`) with a positive shift
the translated system implies all constraints, the strict ones included.  Missing: floats, where
the shift by the smallest positive float is absorbed and the claim is false, see
`C16_violation_strict_rounding`. -/
theorem C16_strict_partial {I B : Type} (tiny : K) (ht : 0 < tiny) (isInteger : V → Option Bool)
    (p : Problem V K I B) (mx : Bool) (hn : p.vars.Nodup) (hobj : ∀ x ∈ p.vars, x ∈ p.obj.vars)
    (hlin : ∀ c ∈ p.constraints, Linear p.vars c.fn)
    (hb : ∀ c ∈ p.constraints, BuiltWithoutCallable c.rel) :
    ∃ args, toScipy id tiny isInteger p mx = .ok args ∧
      ∀ xs : List K, xs.length = p.vars.length →
        SatEq args.eq p.vars.length xs → SatUb args.ub p.vars.length xs →
          ∀ c ∈ p.constraints, Fulfilled p.vars xs c := by
  obtain ⟨beq, hbeq, hbeq'⟩ := block_spec id p.sparsify p.vars hn (fun _ => (1, 1, 0)) (eqsOf p)
    (fun c hc => hlin c (List.mem_of_mem_filter hc))
  obtain ⟨bub, hbub, hbub'⟩ := block_spec id p.sparsify p.vars hn
    (fun c => multipliers tiny c.rel.op) (ieqsOf p)
    (fun c hc => hlin c (List.mem_of_mem_filter hc))
  obtain ⟨args, hargs, h1, h2, -⟩ := toScipy_ok id tiny isInteger p mx hobj hbeq hbub
  refine ⟨args, hargs, fun xs hl => ?_⟩
  rw [h1, h2, (hbeq' xs hl).1, (hbub' xs hl).2]
  intro he hu c hc
  obtain ⟨o, ho, hf, hcls⟩ := built_spec (hb c hc)
  unfold Fulfilled Attrs.relateValue
  rw [hf]
  have htz : -tiny ≠ 0 := by simpa using ht.ne'
  by_cases hoe : o = .eq
  · subst hoe
    have := he c (List.mem_filter.2 ⟨hc, by simpa using hcls⟩)
    simp only [rhs, if_true] at this
    simp only [Relations.toOpfunc, decide_eq_true_eq]
    linarith
  · rw [if_neg hoe] at hcls
    have := hu c (List.mem_filter.2 ⟨hc, by simpa using hcls⟩)
    rw [ho] at this
    cases o with
    | eq => exact absurd rfl hoe
    | gt =>
      simp only [multipliers, rhs_ne _ _ _ htz, id] at this
      · simp only [Relations.toOpfunc, decide_eq_true_eq, gt_iff_lt]
        linarith
    | lt =>
      simp only [multipliers, rhs_ne _ _ _ htz, id] at this
      · simp only [Relations.toOpfunc, decide_eq_true_eq]
        linarith
    | ge =>
      simp only [multipliers, rhs, if_true] at this
      simp only [Relations.toOpfunc, decide_eq_true_eq, ge_iff_le]
      linarith
    | le =>
      simp only [multipliers, rhs, if_true] at this
      simp only [Relations.toOpfunc, decide_eq_true_eq]
      linarith

end

/-! ### Examples, violations of C16 -/

/-- `x1 - 2*x2 + 3` in the variables 1, 2. -/
def exFunc : Func ℕ ℚ := ⟨[2, 1], [([1], 1), ([2], -2), ([], 3)]⟩

theorem exFunc_linear : Linear [1, 2] exFunc :=
  ⟨by unfold Func.Affine exFunc; decide, by unfold Func.Closed exFunc; decide,
    List.Perm.swap _ _ _⟩

/-- The relation `… op 0` built as `Relation(expr, op=op)`. -/
theorem built_example (o : Relations) : BuiltWithoutCallable (K := ℚ)
    ⟨if o = .eq then .equality else .inequality, some o, o.toOpfunc, none⟩ :=
  ⟨.relation, .other, .member o, none, by simp, by cases o <;> rfl⟩

/-- A problem with an equality, a `≥` and a `≤` constraint meets the hypotheses of
`C16_feasible_set`. -/
example : ∃ p : Problem ℕ ℚ Unit Unit, p.constraints.length = 3 ∧ p.vars.Nodup ∧
    (∀ x ∈ p.vars, x ∈ p.obj.vars) ∧ (∀ c ∈ p.constraints, Linear p.vars c.fn) ∧
    (∀ c ∈ p.constraints, BuiltWithoutCallable c.rel) ∧
    (∀ c ∈ p.constraints, c.rel.op ≠ some .lt ∧ c.rel.op ≠ some .gt) := by
  refine ⟨⟨exFunc, [⟨⟨.equality, some .eq, Relations.eq.toOpfunc, none⟩, exFunc, true⟩,
    ⟨⟨.inequality, some .ge, Relations.ge.toOpfunc, none⟩, exFunc, true⟩,
    ⟨⟨.inequality, some .le, Relations.le.toOpfunc, none⟩, exFunc, true⟩], [1, 2], (), none, true⟩,
    rfl, by decide, by decide, ?_, ?_, ?_⟩
  · intro c hc
    simp only [List.mem_cons, List.not_mem_nil, or_false] at hc
    rcases hc with rfl | rfl | rfl <;> exact exFunc_linear
  · intro c hc
    simp only [List.mem_cons, List.not_mem_nil, or_false] at hc
    rcases hc with rfl | rfl | rfl
    · exact built_example .eq
    · exact built_example .ge
    · exact built_example .le
  · intro c hc
    simp only [List.mem_cons, List.not_mem_nil, or_false] at hc
    rcases hc with rfl | rfl | rfl <;> simp

/-- The constraint `x - 2 < 0` in the one variable 0. -/
def ltTwo : Constraint ℕ ℚ :=
  ⟨⟨.inequality, some .lt, Relations.lt.toOpfunc, none⟩, ⟨[0], [([0], 1), ([], -2)]⟩, true⟩

/-- The problem "minimize x subject to x < 2". -/
def ltProblem : Problem ℕ ℚ Unit Unit := ⟨⟨[0], [([0], 1)]⟩, [ltTwo], [0], (), none, false⟩

/-- **C16 is violated for strict inequalities in floating point.** Whenever the rounding absorbs
the shift, `fl (2 - tiny) = 2` (which is the case for doubles and the smallest positive double),
`x < 2` is handed to the solver as `x ≤ 2`: the point `x = 2` satisfies the translated system but
not the constraint. -/
theorem C16_violation_strict_rounding (fl : ℚ → ℚ) (tiny : ℚ) (ht : 0 < tiny)
    (hfl : fl (2 - tiny) = 2) :
    ∃ args, toScipy fl tiny (fun _ => none) ltProblem false = .ok args ∧
      SatEq args.eq 1 [2] ∧ SatUb args.ub 1 [2] ∧ ¬ Fulfilled [0] [2] ltTwo := by
  have hlin : Linear [0] ltTwo.fn :=
    ⟨by unfold Func.Affine ltTwo; decide, by unfold Func.Closed ltTwo; decide, List.Perm.refl _⟩
  obtain ⟨beq, hbeq, hbeq'⟩ := block_spec fl false [0] (by decide) (fun _ => (1, 1, 0))
    (eqsOf ltProblem) (by intro c hc; exact absurd hc (by simp [eqsOf, ltProblem, ltTwo]))
  obtain ⟨bub, hbub, hbub'⟩ := block_spec fl false [0] (by decide)
    (fun c => multipliers tiny c.rel.op) (ieqsOf ltProblem) (by
      intro c hc
      have : c = ltTwo := by simpa [ieqsOf, ltProblem, ltTwo] using hc
      rw [this]; exact hlin)
  obtain ⟨args, hargs, h1, h2, -⟩ := toScipy_ok fl tiny (fun _ => none) ltProblem false (by decide)
    hbeq hbub
  refine ⟨args, hargs, ?_, ?_, ?_⟩
  · rw [h1]
    refine ((hbeq' [2] rfl).1).2 ?_
    intro c hc; exact absurd hc (by simp [eqsOf, ltProblem, ltTwo])
  · rw [h2]
    refine ((hbub' [2] rfl).2).2 ?_
    intro c hc
    have : c = ltTwo := by simpa [ieqsOf, ltProblem, ltTwo] using hc
    subst this
    have htz : -tiny ≠ 0 := by simpa using ht.ne'
    simp [ltTwo, multipliers, rhs, ht.ne', Func.eval, point, ← sub_eq_add_neg, hfl]
  · simp [Fulfilled, Attrs.relateValue, ltTwo, Relations.toOpfunc, Func.eval, point]

/-- Side note: nonlinear terms are dropped without notice: `x*y ≤ 0` becomes the empty
restriction `0 ≤ 0`. -/
theorem C16_nonlinear_terms_dropped :
    (toScipy (V := ℕ) (K := ℚ) (I := Unit) (B := Unit) id 1 (fun _ => none)
      ⟨⟨[0, 1], [([0], 1), ([1], 1)]⟩, [⟨⟨.inequality, some .le, Relations.le.toOpfunc, none⟩,
        ⟨[0, 1], [([0, 1], 1)]⟩, true⟩], [0, 1], (), none, false⟩ false).toOption.map
        (fun a => a.ub) = some (some (.dense [[0, 0]], [0])) ∧
      ¬ Fulfilled [0, 1] [1, 1] (⟨⟨.inequality, some .le, Relations.le.toOpfunc, none⟩,
        ⟨[0, 1], [([0, 1], 1)]⟩, true⟩ : Constraint ℕ ℚ) := by
  refine ⟨?_, ?_⟩
  · decide +kernel
  · simp [Fulfilled, Attrs.relateValue, Relations.toOpfunc, Func.eval, point]

/-- Side note: a constraint that does not list all variables of the problem makes the
translation raise `KeyError`. -/
theorem C16_missing_variable_raises :
    (toScipy (V := ℕ) (K := ℚ) (I := Unit) (B := Unit) id 1 (fun _ => none)
      ⟨⟨[0, 1], [([0], 1), ([1], 1)]⟩, [⟨⟨.inequality, some .le, Relations.le.toOpfunc, none⟩,
        ⟨[0], [([0], 1)]⟩, true⟩], [0, 1], (), none, true⟩ false).isOk = false := by
  decide +kernel

section
variable {V K : Type} [DecidableEq V] [Field K] [LinearOrder K] [IsStrictOrderedRing K]

/-! ### C17 -/

/-- `c · x` -/
def dot (c xs : List K) : K := (List.zipWith (· * ·) c xs).sum

theorem dot_map (vars : List V) (g : V → K) (xs : List K) (hn : vars.Nodup)
    (hl : xs.length = vars.length) :
    dot (vars.map g) xs = (vars.map fun x => g x * point vars xs x).sum := by
  unfold dot
  conv_lhs => rw [← map_point hn hl]
  rw [List.zipWith_map, List.zipWith_self]

/-- The costs are the coefficients of the objective: `c·x` is the objective up to its constant,
with the opposite sign if it is to be maximized. -/
theorem cost_value {I B : Type} (fl : K → K) (tiny : K) (isInteger : V → Option Bool)
    (p : Problem V K I B) (mx : Bool) (hn : p.vars.Nodup) (hobj : Linear p.vars p.obj)
    (args : ScipyArgs K I B) (h : toScipy fl tiny isInteger p mx = .ok args) (xs : List K)
    (hl : xs.length = p.vars.length) :
    dot args.c xs = (if mx then -1 else 1) *
      (p.obj.eval (point p.vars xs) - p.obj.eval fun _ => 0) := by
  have hobj' : pyMap (fun x => dictGet p.obj.linearCoefficients [x]) p.vars =
      .ok (p.vars.map p.obj.coef) := by
    apply pyMap_ok
    intro x hx
    rw [dictGet_linear, if_pos (Or.inl (hobj.2.2.mem_iff.2 hx))]
  have hc : args.c = p.vars.map fun x => (if mx then p.obj.coef x * -1 else p.obj.coef x) := by
    unfold toScipy at h
    simp only [hobj', bind, Except.bind, pure, Except.pure] at h
    split at h
    · cases h
    · split at h
      · cases h
      · simp only [Except.ok.injEq] at h
        rw [← h]
        cases mx <;> simp
  rw [hc, dot_map p.vars _ xs hn hl,
    p.obj.eval_affine hobj.1 p.vars hn hobj.2.2 hobj.2.1 (point p.vars xs), p.obj.eval_zero hobj.1]
  cases mx with
  | false => simp
  | true =>
    simp only [if_true, mul_neg, mul_one, neg_mul, one_mul, add_sub_cancel_left]
    generalize point p.vars xs = ρ
    generalize p.vars = l
    induction l with
    | nil => simp
    | cons a l ih => simp only [List.map_cons, List.sum_cons, ih]; ring

/-- **C17 (1).** Over every set of points, minimizing the costs handed to the solver has the same
solutions as minimizing the objective, or maximizing it with `maximize=True`. -/
theorem C17_optimizers {I B : Type} (fl : K → K) (tiny : K) (isInteger : V → Option Bool)
    (p : Problem V K I B) (mx : Bool) (hn : p.vars.Nodup) (hobj : Linear p.vars p.obj)
    (args : ScipyArgs K I B) (h : toScipy fl tiny isInteger p mx = .ok args)
    (S : List K → Prop) (hS : ∀ ys, S ys → ys.length = p.vars.length) (xs : List K) (hx : S xs) :
    (∀ ys, S ys → dot args.c xs ≤ dot args.c ys) ↔
      ∀ ys, S ys → if mx then p.obj.eval (point p.vars ys) ≤ p.obj.eval (point p.vars xs)
        else p.obj.eval (point p.vars xs) ≤ p.obj.eval (point p.vars ys) := by
  have hv := fun ys hys =>
    cost_value fl tiny isInteger p mx hn hobj args h ys (hS ys hys)
  have hxv := hv xs hx
  constructor
  · intro hh ys hys
    have h1 := hh ys hys
    rw [hxv, hv ys hys] at h1
    cases mx <;> simp only [if_true, if_false, Bool.false_eq_true] at h1 ⊢ <;> linarith
  · intro hh ys hys
    have h1 := hh ys hys
    rw [hxv, hv ys hys]
    cases mx <;> simp only [if_true, if_false, Bool.false_eq_true] at h1 ⊢ <;> linarith

/-- **C17 (2), partial.** If the objective lists the variables in the order of the problem, the
reported value is the objective at the reported point, constant term included, whatever the
solver does.  Missing: an objective that lists the same variables in another order, see
`C17_violation_order`. -/
theorem C17_value_partial {I B : Type} (fl : K → K) (tiny : K) (isInteger : V → Option Bool)
    (linprog : ScipyArgs K I B → Result K) (p : Problem V K I B) (mx : Bool)
    (hv : p.obj.vars = p.vars) (r : Result K)
    (h : solve fl tiny isInteger linprog p mx = .ok r) (hs : r.success = true) :
    r.fun_ = p.obj.eval (point p.vars r.x) := by
  unfold solve at h
  cases ha : toScipy fl tiny isInteger p mx with
  | error e => rw [ha] at h; cases h
  | ok args =>
    rw [ha] at h
    simp only [bind, Except.bind, pure, Except.pure] at h
    split at h
    · cases hc : p.obj.call (linprog args).x with
      | error e => rw [hc] at h; cases h
      | ok v =>
        rw [hc] at h
        simp only [Except.ok.injEq] at h
        rw [← h]
        simp only
        unfold Func.call at hc
        split at hc
        · cases hc
        · split at hc
          · cases hc
          · simp only [Except.ok.injEq] at hc
            rw [← hc, hv]
    · rename_i hns
      simp only [Except.ok.injEq] at h
      rw [h] at hns
      exact absurd hs hns

/-- A solution of the right length never makes `solve` raise: the solver's point and success flag
are reported. -/
theorem C17_solve_ok {I B : Type} (fl : K → K) (tiny : K) (isInteger : V → Option Bool)
    (linprog : ScipyArgs K I B → Result K) (p : Problem V K I B) (mx : Bool)
    (hobj : Linear p.vars p.obj) (args : ScipyArgs K I B)
    (h : toScipy fl tiny isInteger p mx = .ok args)
    (hl : (linprog args).x.length = p.vars.length) :
    ∃ r, solve fl tiny isInteger linprog p mx = .ok r ∧ r.x = (linprog args).x ∧
      r.success = (linprog args).success := by
  unfold solve
  rw [h]
  simp only [bind, Except.bind, pure, Except.pure]
  rw [p.obj.call_ok hobj.2.1 _ (hl.trans hobj.2.2.length_eq.symm)]
  simp only
  split
  · exact ⟨_, rfl, rfl, rfl⟩
  · exact ⟨_, rfl, rfl, rfl⟩

end

/-- **C17 is violated** if the objective lists the variables in another order: minimize `x - 2y`
(variables of the objective `y, x`, of the problem `x, y`); at the point `x = 1, y = 0` the
reported value is `-2` instead of `1`. -/
theorem C17_violation_order :
    ∃ (p : Problem ℕ ℚ Unit Unit) (linprog : ScipyArgs ℚ Unit Unit → Result ℚ) (r : Result ℚ),
      Linear p.vars p.obj ∧ p.vars.Nodup ∧
      solve id 1 (fun _ => none) linprog p false = .ok r ∧ r.success = true ∧
      r.fun_ ≠ p.obj.eval (point p.vars r.x) := by
  refine ⟨⟨⟨[1, 0], [([0], 1), ([1], -2)]⟩, [], [0, 1], (), none, true⟩,
    fun _ => ⟨true, [1, 0], 1⟩, ⟨true, [1, 0], -2⟩, ⟨?_, ?_, List.Perm.swap _ _ _⟩, by decide, ?_,
    rfl, ?_⟩
  · unfold Func.Affine; decide
  · unfold Func.Closed; decide
  · have h : (⟨[1, 0], [([0], 1), ([1], -2)]⟩ : Func ℕ ℚ).call [1, 0] = .ok (-2) := by
      rw [Func.call_ok (⟨[1, 0], [([0], 1), ([1], -2)]⟩ : Func ℕ ℚ)
        (by unfold Func.Closed; decide) [1, 0] rfl]
      norm_num [Func.eval, point]
    obtain ⟨args, hargs, -⟩ := toScipy_ok (V := ℕ) (K := ℚ) (I := Unit) (B := Unit) id 1
      (fun _ => none) ⟨⟨[1, 0], [([0], 1), ([1], -2)]⟩, [], [0, 1], (), none, true⟩ false
      (by decide) (eq := none) (ub := none) rfl rfl
    unfold solve
    rw [hargs]
    simp only [bind, Except.bind, pure, Except.pure, if_true, h]
  · norm_num [Func.eval, point]

section
variable {V K : Type} [DecidableEq V] [Field K] [LinearOrder K] [IsStrictOrderedRing K]

/-! ### C18 -/

/-- The same problem with the other setting of `sparsify`. -/
def withSparsify {I B : Type} (p : Problem V K I B) (s : Bool) : Problem V K I B :=
  { p with sparsify := s }

/-- Two blocks are entry-wise equal, with the same right hand sides. -/
def SameBlock (a b : Option (Mat K × List K)) : Prop :=
  match a, b with
  | none, none => True
  | some (A, u), some (B, v) => u = v ∧ A.nrows = B.nrows ∧ ∀ i j, A.entry i j = B.entry i j
  | _, _ => False

theorem assemble_same (fl : K → K) (vars : List V) (mult : Constraint V K → K × K × K)
    (cs : List (Constraint V K)) :
    (∃ e, assemble fl true vars mult cs = .error e ∧ assemble fl false vars mult cs = .error e) ∨
    ∃ a b, assemble fl true vars mult cs = .ok a ∧ assemble fl false vars mult cs = .ok b ∧
      SameBlock a b := by
  rw [assemble_sparse, assemble_dense]
  split
  · exact Or.inr ⟨none, none, rfl, rfl, trivial⟩
  · cases hd : denseData fl vars mult cs with
    | error e => exact Or.inl ⟨e, rfl, rfl⟩
    | ok rows =>
      have hl : rows.length = cs.length := pyMap_length hd
      exact Or.inr ⟨_, _, rfl, rfl, rfl, by simp [Mat.nrows, hl], fun i j => sparse_entry rows _ i j⟩

/-- **C18.** For every problem (linear or not) the sparse and the dense path either raise the same
exception or hand entry-wise equal matrices, equal right hand sides, costs, bounds and integrality
to the solver. -/
theorem C18_sparse_dense {I B : Type} (fl : K → K) (tiny : K) (isInteger : V → Option Bool)
    (p : Problem V K I B) (mx : Bool) :
    (∃ e, toScipy fl tiny isInteger (withSparsify p true) mx = .error e ∧
      toScipy fl tiny isInteger (withSparsify p false) mx = .error e) ∨
    ∃ a b, toScipy fl tiny isInteger (withSparsify p true) mx = .ok a ∧
      toScipy fl tiny isInteger (withSparsify p false) mx = .ok b ∧
      SameBlock a.eq b.eq ∧ SameBlock a.ub b.ub ∧ a.c = b.c ∧ a.bounds = b.bounds ∧
      a.integrality = b.integrality := by
  unfold toScipy withSparsify
  simp only [bind, Except.bind, pure, Except.pure]
  cases pyMap (fun x => dictGet p.obj.linearCoefficients [x]) p.vars with
  | error e => exact Or.inl ⟨e, rfl, rfl⟩
  | ok c =>
    simp only
    rcases assemble_same fl p.vars (fun _ => (1, 1, 0))
      (p.constraints.filter fun c => c.rel.cls = .equality) with ⟨e, h1, h2⟩ | ⟨a, b, h1, h2, hs⟩
    · exact Or.inl ⟨e, by rw [h1], by rw [h2]⟩
    · rw [h1, h2]
      simp only
      rcases assemble_same fl p.vars (fun c => multipliers tiny c.rel.op)
        (p.constraints.filter fun c => c.rel.cls = .inequality) with
        ⟨e, h3, h4⟩ | ⟨a', b', h3, h4, hs'⟩
      · exact Or.inl ⟨e, by rw [h3], by rw [h4]⟩
      · rw [h3, h4]
        exact Or.inr ⟨_, _, rfl, rfl, hs, hs', rfl, rfl, rfl⟩

/-! ### C19 -/

/-- **C19 (rows and columns).** Row `i` of the equality (inequality) block belongs to the `i`-th
equality (inequality) in the order given, column `j` to the `j`-th variable: the entry is the
coefficient (the increase of the function along that variable) of that constraint, negated for
`>=` and `>`; there are no other rows, and no block if there is no such constraint. -/
theorem C19_rows {I B : Type} (fl : K → K) (tiny : K) (isInteger : V → Option Bool)
    (p : Problem V K I B) (mx : Bool) (hn : p.vars.Nodup) (hobj : ∀ x ∈ p.vars, x ∈ p.obj.vars)
    (hlin : ∀ c ∈ p.constraints, Linear p.vars c.fn) :
    ∃ args, toScipy fl tiny isInteger p mx = .ok args ∧
      (args.eq = none ↔ ∀ c ∈ p.constraints, c.rel.cls ≠ .equality) ∧
      (args.ub = none ↔ ∀ c ∈ p.constraints, c.rel.cls ≠ .inequality) ∧
      (∀ A b, args.eq = some (A, b) →
        A.nrows = (p.constraints.filter fun c => c.rel.cls = .equality).length ∧
        b.length = A.nrows ∧
        ∀ (i : ℕ) (c : Constraint V K),
          (p.constraints.filter fun c => c.rel.cls = .equality)[i]? = some c →
          ∀ (j : ℕ) (x : V), p.vars[j]? = some x → A.entry i j = slope c.fn x) ∧
      (∀ A b, args.ub = some (A, b) →
        A.nrows = (p.constraints.filter fun c => c.rel.cls = .inequality).length ∧
        b.length = A.nrows ∧
        ∀ (i : ℕ) (c : Constraint V K),
          (p.constraints.filter fun c => c.rel.cls = .inequality)[i]? = some c →
          ∀ (j : ℕ) (x : V), p.vars[j]? = some x →
            A.entry i j = if c.rel.op = some .ge ∨ c.rel.op = some .gt then - slope c.fn x
              else slope c.fn x) := by
  have heq := assemble_spec fl p.sparsify p.vars (fun _ => (1, 1, 0)) (eqsOf p)
    (fun c hc => hlin c (List.mem_of_mem_filter hc))
  have hub := assemble_spec fl p.sparsify p.vars (fun c => multipliers tiny c.rel.op) (ieqsOf p)
    (fun c hc => hlin c (List.mem_of_mem_filter hc))
  have hsl : ∀ c ∈ p.constraints, ∀ (j : ℕ) (x : V), p.vars[j]? = some x →
      slope c.fn x = c.fn.coef x := fun c hc j x hx =>
    slope_eq c.fn p.vars hn (hlin c hc) x (List.mem_of_getElem? hx)
  -- the two blocks separately
  have H1 : ∃ blk, assemble fl p.sparsify p.vars (fun _ => (1, 1, 0)) (eqsOf p) = .ok blk ∧
      (blk = none ↔ ∀ c ∈ p.constraints, c.rel.cls ≠ .equality) ∧
      (∀ A b, blk = some (A, b) → A.nrows = (eqsOf p).length ∧ b.length = A.nrows ∧
        ∀ (i : ℕ) (c : Constraint V K), (eqsOf p)[i]? = some c →
          ∀ (j : ℕ) (x : V), p.vars[j]? = some x → A.entry i j = slope c.fn x) := by
    rcases heq with ⟨h1, h2⟩ | ⟨A, b, h1, hne, hr, hb, hA⟩
    · refine ⟨none, h1, ?_, by simp⟩
      simp only [true_iff]
      simpa [eqsOf, List.filter_eq_nil_iff] using h2
    · refine ⟨some (A, b), h1, ?_, ?_⟩
      · simp only [reduceCtorEq, false_iff]
        intro h
        apply hne
        simpa [eqsOf, List.filter_eq_nil_iff] using h
      · rintro A' b' hab
        simp only [Option.some.injEq, Prod.mk.injEq] at hab
        obtain ⟨rfl, rfl⟩ := hab
        refine ⟨hr, by rw [hr, hb]; simp, fun i c hi j x hx => ?_⟩
        rw [hA i c hi j x hx, hsl c (List.mem_of_mem_filter (List.mem_of_getElem? hi)) j x hx]
        simp
  have H2 : ∃ blk, assemble fl p.sparsify p.vars (fun c => multipliers tiny c.rel.op) (ieqsOf p) =
        .ok blk ∧
      (blk = none ↔ ∀ c ∈ p.constraints, c.rel.cls ≠ .inequality) ∧
      (∀ A b, blk = some (A, b) → A.nrows = (ieqsOf p).length ∧ b.length = A.nrows ∧
        ∀ (i : ℕ) (c : Constraint V K), (ieqsOf p)[i]? = some c →
          ∀ (j : ℕ) (x : V), p.vars[j]? = some x →
            A.entry i j = if c.rel.op = some .ge ∨ c.rel.op = some .gt then - slope c.fn x
              else slope c.fn x) := by
    rcases hub with ⟨h1, h2⟩ | ⟨A, b, h1, hne, hr, hb, hA⟩
    · refine ⟨none, h1, ?_, by simp⟩
      simp only [true_iff]
      simpa [ieqsOf, List.filter_eq_nil_iff] using h2
    · refine ⟨some (A, b), h1, ?_, ?_⟩
      · simp only [reduceCtorEq, false_iff]
        intro h
        apply hne
        simpa [ieqsOf, List.filter_eq_nil_iff] using h
      · rintro A' b' hab
        simp only [Option.some.injEq, Prod.mk.injEq] at hab
        obtain ⟨rfl, rfl⟩ := hab
        refine ⟨hr, by rw [hr, hb]; simp, fun i c hi j x hx => ?_⟩
        rw [hA i c hi j x hx, hsl c (List.mem_of_mem_filter (List.mem_of_getElem? hi)) j x hx]
        rcases c.rel.op with _ | o
        · simp [multipliers]
        · cases o <;> simp [multipliers]
  obtain ⟨beq, e1, e2, e3⟩ := H1
  obtain ⟨bub, u1, u2, u3⟩ := H2
  obtain ⟨args, hargs, h1, h2, -⟩ := toScipy_ok fl tiny isInteger p mx hobj e1 u1
  exact ⟨args, hargs, by rw [h1]; exact e2, by rw [h2]; exact u2, by rw [h1]; exact e3,
    by rw [h2]; exact u3⟩

/-- **C19 (integrality).** A given value is passed on; otherwise the flags are 1 exactly for the
variables assumed integer, in the order of the variables, and unset if there is none. -/
theorem C19_integrality {I B : Type} (fl : K → K) (tiny : K) (isInteger : V → Option Bool)
    (p : Problem V K I B) (mx : Bool) (args : ScipyArgs K I B)
    (h : toScipy fl tiny isInteger p mx = .ok args) :
    (∀ i, p.integrality = some i → args.integrality = some (.inl i)) ∧
    (p.integrality = none →
      ((∀ v ∈ p.vars, isInteger v ≠ some true) → args.integrality = none) ∧
      ((∃ v ∈ p.vars, isInteger v = some true) → ∃ fs : List ℕ,
        args.integrality = some (.inr fs) ∧ fs.length = p.vars.length ∧
        ∀ (j : ℕ) (v : V), p.vars[j]? = some v →
          fs[j]? = some (if isInteger v = some true then 1 else 0))) := by
  have hi : args.integrality = (match p.integrality with
        | some i => some (.inl i)
        | none => if (p.vars.map fun v => truthy (isInteger v)).any id then
            some (.inr ((p.vars.map fun v => truthy (isInteger v)).map Bool.toNat)) else none) := by
    unfold toScipy at h
    simp only [bind, Except.bind, pure, Except.pure] at h
    split at h
    · cases h
    · split at h
      · cases h
      · split at h
        · cases h
        · simp only [Except.ok.injEq] at h
          rw [← h]; rfl
  constructor
  · intro i hpi
    rw [hi, hpi]
  · intro hpn
    rw [hpn] at hi
    simp only at hi
    constructor
    · intro hall
      rw [hi, if_neg]
      simp only [List.any_map, List.any_eq_true, not_exists, not_and]
      intro v hv
      simp [truthy, hall v hv]
    · rintro ⟨v, hv, hvt⟩
      have : ((p.vars.map fun v => truthy (isInteger v)).any id) = true := by
        simp only [List.any_map, List.any_eq_true]
        exact ⟨v, hv, by simp [truthy, hvt]⟩
      rw [if_pos this] at hi
      refine ⟨_, hi, by simp, fun j w hw => ?_⟩
      simp only [List.getElem?_map, hw, Option.map_some, truthy]
      cases hiw : isInteger w with
      | none => rfl
      | some b => cases b <;> rfl

/-! ### C22 -/

/-- **C22, partial.** Constraints with callable operators are honoured if they are built as
`Equality` with a callable that decides `v = 0`, or end up as `InEquality` with a callable that
decides `v ≤ 0`; non-strict constraints built without callables always are.  Missing: all other
callables; there the claim is false, see `C22_violation_dropped` and `C22_violation_reversed`. -/
theorem C22_honoured_partial {I B : Type} (fl : K → K) (tiny : K) (isInteger : V → Option Bool)
    (p : Problem V K I B) (mx : Bool) (hn : p.vars.Nodup) (hobj : ∀ x ∈ p.vars, x ∈ p.obj.vars)
    (hlin : ∀ c ∈ p.constraints, Linear p.vars c.fn)
    (hb : ∀ c ∈ p.constraints,
      (BuiltWithoutCallable c.rel ∧ c.rel.op ≠ some .lt ∧ c.rel.op ≠ some .gt) ∨
      (∃ inp f opStr, construct .equality inp (.callable f) opStr = .ok c.rel ∧
        ∀ v : K, f v 0 = true ↔ v = 0) ∨
      (∃ inp f opStr, construct .inequality inp (.callable f) opStr = .ok c.rel ∧
        ∀ v : K, f v 0 = true ↔ v ≤ 0)) :
    ∃ args, toScipy fl tiny isInteger p mx = .ok args ∧
      ∀ xs : List K, xs.length = p.vars.length →
        ((∀ c ∈ p.constraints, Fulfilled p.vars xs c) ↔
          SatEq args.eq p.vars.length xs ∧ SatUb args.ub p.vars.length xs) := by
  apply feasible_core fl tiny isInteger p mx hn hobj hlin
  intro c hc
  have hcall : ∀ (cls : Cls) (inp : Input) (f : K → K → Bool) (opStr : Option (List Char)),
      cls ≠ .relation → construct cls inp (.callable f) opStr = .ok c.rel →
      c.rel.cls = cls ∧ c.rel.op = none ∧ c.rel.opfunc = f := by
    intro cls inp f opStr hcls h
    unfold construct Rel.newCls at h
    have hno : ∃ q, Rel.newOp inp (.callable f : OpArg K) opStr = .ok q := by
      unfold Rel.newOp
      cases opStr with
      | none => exact ⟨_, rfl⟩
      | some t => simp only; split <;> exact ⟨_, rfl⟩
    obtain ⟨q, hq⟩ := hno
    simp only [hq, bind, Except.bind, pure, Except.pure, if_pos hcls, Rel.initAttrs, Rel.assertOp] at h
    simp only [Except.ok.injEq] at h
    rw [← h]
    exact ⟨rfl, rfl, rfl⟩
  rcases hb c hc with ⟨h1, h2⟩ | ⟨inp, f, os, h, hf⟩ | ⟨inp, f, os, h, hf⟩
  · exact honoured_of_built c h1 h2
  · obtain ⟨e1, e2, e3⟩ := hcall _ _ _ _ (by simp) h
    left; exact ⟨e1, by rw [e3]; exact hf⟩
  · obtain ⟨e1, e2, e3⟩ := hcall _ _ _ _ (by simp) h
    right; left; exact ⟨e1, Or.inl e2, by rw [e3]; exact hf⟩

end

/-- `InEquality(x + y, op=lambda x, y: x <= y)`, as in the docstring of the class. -/
example : construct (K := ℚ) .inequality .other (.callable fun a b => decide (a ≤ b)) none =
      .ok ⟨.inequality, none, fun a b => decide (a ≤ b), none⟩ ∧
    ∀ v : ℚ, (decide (v ≤ 0)) = true ↔ v ≤ 0 := ⟨rfl, by simp⟩

/-- **C22 is violated (1).** `Relation(x - 1, op=operator.le)` is neither an `Equality` nor an
`InEquality`; the problem accepts it and hands no restriction at all to the solver. -/
theorem C22_violation_dropped :
    ∃ (a : Attrs ℚ) (p : Problem ℕ ℚ Unit Unit) (args : ScipyArgs ℚ Unit Unit),
      construct .relation .other (.callable fun a b => decide (a ≤ b)) none = .ok a ∧
      init (.good (⟨[0], [([0], 1)]⟩, true)) [.good ⟨a, ⟨[0], [([0], 1), ([], -1)]⟩, true⟩]
        (some [.good 0]) () none true = .ok p ∧
      toScipy id 1 (fun _ => none) p false = .ok args ∧ args.eq = none ∧ args.ub = none ∧
      ¬ Fulfilled [0] [2] (⟨a, ⟨[0], [([0], 1), ([], -1)]⟩, true⟩ : Constraint ℕ ℚ) := by
  refine ⟨⟨.relation, none, fun a b => decide (a ≤ b), none⟩,
    ⟨⟨[0], [([0], 1)]⟩, [⟨⟨.relation, none, fun a b => decide (a ≤ b), none⟩,
      ⟨[0], [([0], 1), ([], -1)]⟩, true⟩], [0], (), none, true⟩, ?_⟩
  obtain ⟨args, hargs, h1, h2, -⟩ := toScipy_ok (V := ℕ) (K := ℚ) (I := Unit) (B := Unit) id 1
    (fun _ => none) ⟨⟨[0], [([0], 1)]⟩, [⟨⟨.relation, none, fun a b => decide (a ≤ b), none⟩,
      ⟨[0], [([0], 1), ([], -1)]⟩, true⟩], [0], (), none, true⟩ false
    (by decide) (eq := none) (ub := none) rfl rfl
  refine ⟨args, rfl, rfl, hargs, h1, h2, ?_⟩
  norm_num [Fulfilled, Attrs.relateValue, Func.eval, point]

/-- **C22 is violated (2).** `Relation(x - 1, op=operator.ge, op_str=">=")` is an `InEquality`
without enum member and handed to the solver as `x ≤ 1`: the point 2, which fulfils `x ≥ 1`, is
excluded and the point 0 is let in. -/
theorem C22_violation_reversed :
    ∃ (a : Attrs ℚ) (p : Problem ℕ ℚ Unit Unit) (args : ScipyArgs ℚ Unit Unit),
      construct .relation .other (.callable fun a b => decide (a ≥ b)) (some ['>', '=']) = .ok a ∧
      init (.good (⟨[0], [([0], 1)]⟩, true)) [.good ⟨a, ⟨[0], [([0], 1), ([], -1)]⟩, true⟩]
        (some [.good 0]) () none true = .ok p ∧
      toScipy id 1 (fun _ => none) p false = .ok args ∧
      Fulfilled [0] [2] (⟨a, ⟨[0], [([0], 1), ([], -1)]⟩, true⟩ : Constraint ℕ ℚ) ∧
      ¬ SatUb args.ub 1 [2] ∧
      ¬ Fulfilled [0] [0] (⟨a, ⟨[0], [([0], 1), ([], -1)]⟩, true⟩ : Constraint ℕ ℚ) ∧
      SatUb args.ub 1 [0] := by
  refine ⟨⟨.inequality, none, fun a b => decide (a ≥ b), none⟩,
    ⟨⟨[0], [([0], 1)]⟩, [⟨⟨.inequality, none, fun a b => decide (a ≥ b), none⟩,
      ⟨[0], [([0], 1), ([], -1)]⟩, true⟩], [0], (), none, true⟩, ?_⟩
  obtain ⟨bub, hbub, hbub'⟩ := block_spec (V := ℕ) (K := ℚ) id true [0] (by decide)
    (fun c => multipliers 1 c.rel.op) [⟨⟨.inequality, none, fun a b => decide (a ≥ b), none⟩,
      ⟨[0], [([0], 1), ([], -1)]⟩, true⟩] (by
      intro c hc
      have : c = ⟨⟨.inequality, none, fun a b => decide (a ≥ b), none⟩,
        ⟨[0], [([0], 1), ([], -1)]⟩, true⟩ := by simpa using hc
      rw [this]
      exact ⟨by unfold Func.Affine; decide, by unfold Func.Closed; decide, List.Perm.refl _⟩)
  obtain ⟨args, hargs, h1, h2, -⟩ := toScipy_ok (V := ℕ) (K := ℚ) (I := Unit) (B := Unit) id 1
    (fun _ => none) ⟨⟨[0], [([0], 1)]⟩, [⟨⟨.inequality, none, fun a b => decide (a ≥ b), none⟩,
      ⟨[0], [([0], 1), ([], -1)]⟩, true⟩], [0], (), none, true⟩ false
    (by decide) (eq := none) (ub := bub) rfl hbub
  refine ⟨args, rfl, rfl, hargs, ?_, ?_, ?_, ?_⟩
  · norm_num [Fulfilled, Attrs.relateValue, Func.eval, point]
  · rw [h2]
    intro h
    have := ((hbub' [2] rfl).2).1 h _ (List.mem_singleton.2 rfl)
    norm_num [multipliers, rhs, Func.eval, point] at this
  · norm_num [Fulfilled, Attrs.relateValue, Func.eval, point]
  · rw [h2]
    refine ((hbub' [0] rfl).2).2 ?_
    intro c hc
    rw [List.mem_singleton] at hc
    subst hc
    norm_num [multipliers, rhs, Func.eval, point]

end Verif.LP.Props
