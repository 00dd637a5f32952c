import Verif.Model.LPSolve
import Verif.Props.LP

/-!
# C126: what `solve` of a linear programming problem returns is a solution of the problem
-/

set_option linter.unusedSectionVars false

namespace Verif.LPSolve.Props
open Verif Verif.LP Verif.LP.Props Verif.LPSolve
open Verif.Rel (Relations Cls Attrs)

section
variable {V K O : Type} [DecidableEq V] [Field K] [LinearOrder K] [IsStrictOrderedRing K]

/-! ### Vocabulary: the documentation of `scipy.optimize.linprog` -/

/-- Lower and upper bound of the `j`-th variable; `bounds=None` means that no variable is negative. -/
def pairAt : Bounds K → ℕ → Option K × Option K
  | .none, _ => (some 0, none)
  | .one lo hi, _ => (lo, hi)
  | .each l, j => l.getD j (none, none)

/-- The number that says what values the `j`-th variable may have. -/
def codeAt : Option (Integ ⊕ List ℕ) → ℕ → ℕ
  | none, _ => 0
  | some (.inl (.all k)), _ => k
  | some (.inl (.each l)), j => l.getD j 0
  | some (.inr l), j => l.getD j 0

/-- Inside of the bounds. -/
def Within (b : Option K × Option K) (x : K) : Prop :=
  (∀ l, b.1 = some l → l ≤ x) ∧ ∀ h, b.2 = some h → x ≤ h

/-- `0`: continuous, `1`: integer, `2`: semi-continuous, `3`: semi-integer. -/
def Allowed (code : ℕ) (b : Option K × Option K) (x : K) : Prop :=
  match code with
  | 1 => Within b x ∧ ∃ z : ℤ, x = z
  | 2 => Within b x ∨ x = 0
  | 3 => (Within b x ∧ ∃ z : ℤ, x = z) ∨ x = 0
  | _ => Within b x

/-- A matrix and its right hand side: both or none. -/
def block : Option (Mat K) → Option (List K) → Option (Option (Mat K × List K))
  | none, none => some none
  | some A, some b => some (some (A, b))
  | _, _ => none

/-- The points among which `linprog` looks for the minimum; only `method="highs"` takes notice of
`integrality`. -/
def Point (a : Call K O) (xs : List K) : Prop :=
  xs.length = a.c.length ∧
  (∃ ub, block a.Aub a.bub = some ub ∧ SatUb ub a.c.length xs) ∧
  (∃ eq, block a.Aeq a.beq = some eq ∧ SatEq eq a.c.length xs) ∧
  ∀ (j : ℕ) (x : K), xs[j]? = some x →
    Allowed (if a.method = .highs then codeAt a.integrality j else 0) (pairAt a.bounds j) x

/-- A solver that keeps what the documentation of `linprog` says. -/
structure Faithful (linprog : Call K O → Py (Res K)) : Prop where
  optimal : ∀ a r, linprog a = .ok r → r.success = true →
    ∃ x, r.x = some x ∧ Point a x ∧ ∀ y, Point a y → dot a.c x ≤ dot a.c y
  infeasible : ∀ a r, linprog a = .ok r → r.status = 2 → ∀ x, ¬ Point a x
  unbounded : ∀ a r, linprog a = .ok r → r.status = 3 → ∀ M, ∃ x, Point a x ∧ dot a.c x < M

/-! ### Vocabulary: the problem -/

/-- The value of the objective or of a constraint at a point, given in the order of the variables of the problem. -/
def at' (p : Problem V K Integ (Bounds K)) (f : Func V K) (xs : List K) : K := f.eval (point p.vars xs)

/-- The point satisfies what was stated: the constraints, the bounds, and the restriction to whole numbers, given either
as `integrality` or by the assumptions of the symbols. -/
def Stated (isInteger : V → Option Bool) (p : Problem V K Integ (Bounds K)) (xs : List K) : Prop :=
  xs.length = p.vars.length ∧ (∀ c ∈ p.constraints, Fulfilled p.vars xs c) ∧
  ∀ (j : ℕ) (x : K) (v : V), xs[j]? = some x → p.vars[j]? = some v →
    Allowed (match p.integrality with
      | some i => codeAt (some (.inl i)) j
      | none => if isInteger v = some true then 1 else 0) (pairAt p.bounds j) x

/-- A linear problem without strict inequalities and without callable operators. -/
structure Regular (p : Problem V K Integ (Bounds K)) : Prop where
  nodup : p.vars.Nodup
  objective : Linear p.vars p.obj
  linear : ∀ c ∈ p.constraints, Linear p.vars c.fn
  built : ∀ c ∈ p.constraints, BuiltWithoutCallable c.rel
  nonstrict : ∀ c ∈ p.constraints, c.rel.op ≠ some .lt ∧ c.rel.op ≠ some .gt

/-- The keyword argument is none of those that `_to_scipy` computes. -/
def Harmless : Kw K O → Prop
  | .extra _ _ => True
  | _ => False

/-! ### Lemmas -/

theorem harmless_fold (kw : List (Kw K O)) (h : ∀ k ∈ kw, Harmless k) (a : Call K O) :
    ∃ ex, kw.foldl Call.update a = { a with extras := ex } ∧ kw.any Kw.clash = false := by
  induction kw generalizing a with
  | nil => exact ⟨a.extras, rfl, rfl⟩
  | cons k kw ih =>
    cases k with
    | extra n v =>
      obtain ⟨ex, h1, h2⟩ := ih (fun k hk => h k (List.mem_cons_of_mem _ hk))
        (a.update (.extra n v))
      exact ⟨ex, h1, by rw [List.any_cons, h2]; rfl⟩
    | _ => exact (h _ List.mem_cons_self).elim

theorem block_map (b : Option (Mat K × List K)) : block (b.map Prod.fst) (b.map Prod.snd) = some b := by
  rcases b with _ | ⟨A, b⟩ <;> rfl

/-- The points `linprog` is asked about are those of the problem. -/
theorem points (fl : K → K) (tiny : K) (isInteger : V → Option Bool) (p : Problem V K Integ (Bounds K))
    (hp : Regular p) (mx : Bool) :
    ∃ args, toScipy fl tiny isInteger p mx = .ok args ∧
      (∀ (ex : List (ℕ × O)) xs,
        Point ({ (Call.ofArgs args : Call K O) with extras := ex, method := .highs } : Call K O) xs ↔
          Stated isInteger p xs) ∧
      ∀ (n : ℕ) (ex : List (ℕ × O)) xs,
        Point ({ (Call.ofArgs args : Call K O) with extras := ex, method := .other n } : Call K O) xs ↔
          Stated (fun _ => none) { p with integrality := none } xs := by
  obtain ⟨args, ha, hf⟩ := C16_feasible_set fl tiny isInteger p mx hp.nodup
    (fun x hx => hp.objective.2.2.mem_iff.2 hx) hp.linear hp.built hp.nonstrict
  have hc : args.c.length = p.vars.length := by
    unfold toScipy at ha
    simp only [bind, Except.bind, pure, Except.pure] at ha
    split at ha
    · cases ha
    · rename_i c hc
      split at ha
      · cases ha
      · split at ha
        · cases ha
        · simp only [Except.ok.injEq] at ha
          rw [← ha]
          have := pyMap_length hc
          cases mx <;> simpa using this
  have hb : args.bounds = p.bounds := by
    unfold toScipy at ha
    simp only [bind, Except.bind, pure, Except.pure] at ha
    split at ha
    · cases ha
    · split at ha
      · cases ha
      · split at ha
        · cases ha
        · simp only [Except.ok.injEq] at ha
          rw [← ha]
  obtain ⟨hi1, hi2⟩ := C19_integrality fl tiny isInteger p mx args ha
  have hcode : ∀ (j : ℕ) (v : V), p.vars[j]? = some v → codeAt args.integrality j =
      (match p.integrality with
      | some i => codeAt (some (.inl i)) j
      | none => if isInteger v = some true then 1 else 0) := by
    intro j v hv
    cases hpi : p.integrality with
    | some i => rw [hi1 i hpi]
    | none =>
      by_cases hex : ∃ v ∈ p.vars, isInteger v = some true
      · obtain ⟨fs, e1, e2, e3⟩ := (hi2 hpi).2 hex
        rw [e1]
        show fs.getD j 0 = _
        rw [List.getD_eq_getElem?_getD, e3 j v hv]
        rfl
      · rw [(hi2 hpi).1 fun v hv hh => hex ⟨v, hv, hh⟩]
        rw [if_neg fun hh => hex ⟨v, List.mem_of_getElem? hv, hh⟩]
        rfl
  refine ⟨args, ha, fun ex xs => ?_, fun n ex xs => ?_⟩
  on_goal 2 =>
    unfold Point Stated
    simp only [Call.ofArgs, hc, block_map, Option.some.injEq, exists_eq_left', hb,
      reduceCtorEq, if_false]
    constructor
    · rintro ⟨h1, h2, h3, h4⟩
      exact ⟨h1, (hf xs h1).2 ⟨h3, h2⟩, fun j x v hx _ => h4 j x hx⟩
    · rintro ⟨h1, h2, h3⟩
      have := (hf xs h1).1 h2
      refine ⟨h1, this.2, this.1, fun j x hx => ?_⟩
      have hj : j < p.vars.length := by
        rw [← h1]
        exact (List.getElem?_eq_some_iff.1 hx).1
      exact h3 j x _ hx (List.getElem?_eq_getElem hj)
  unfold Point Stated
  simp only [Call.ofArgs, if_true, hc, block_map, Option.some.injEq, exists_eq_left', hb]
  constructor
  · rintro ⟨h1, h2, h3, h4⟩
    refine ⟨h1, (hf xs h1).2 ⟨h3, h2⟩, fun j x v hx hv => ?_⟩
    rw [← hcode j v hv]
    exact h4 j x hx
  · rintro ⟨h1, h2, h3⟩
    have := (hf xs h1).1 h2
    refine ⟨h1, this.2, this.1, fun j x hx => ?_⟩
    have hj : j < p.vars.length := by
      rw [← h1]
      exact (List.getElem?_eq_some_iff.1 hx).1
    have hv : p.vars[j]? = some p.vars[j] := List.getElem?_eq_getElem hj
    rw [hcode j _ hv]
    exact h3 j x _ hx hv

/-- What `solve` does after the arguments are there. -/
theorem solve_eq (fl : K → K) (tiny : K) (isInteger : V → Option Bool) (linprog : Call K O → Py (Res K))
    (p : Problem V K Integ (Bounds K)) (mx : Bool) (m : Method) (kw : List (Kw K O))
    {args : ScipyArgs K Integ (Bounds K)} (h : toScipy fl tiny isInteger p mx = .ok args) :
    solve fl tiny isInteger linprog p mx m kw =
      if kw.any Kw.clash then .error .type
      else (linprog { kw.foldl Call.update (Call.ofArgs args) with method := m }).bind fun res =>
        if res.success then
          match res.x with
          | some x => (p.obj.call x).map fun v => { res with fun_ := some v }
          | none => .error .type
        else .ok res := by
  unfold solve
  rw [h]
  simp only [bind, Except.bind, pure, Except.pure]
  split
  · rfl
  · cases linprog { kw.foldl Call.update (Call.ofArgs args) with method := m } with
    | error e => rfl
    | ok res =>
      simp only
      split
      · cases res.x with
        | none => rfl
        | some x => simp only; cases p.obj.call x <;> rfl
      · rfl

/-- The answer of the solver behind a result. -/
theorem solve_ok {fl : K → K} {tiny : K} {isInteger : V → Option Bool} {linprog : Call K O → Py (Res K)}
    {p : Problem V K Integ (Bounds K)} {mx : Bool} {m : Method} {kw : List (Kw K O)}
    {args : ScipyArgs K Integ (Bounds K)} (h : toScipy fl tiny isInteger p mx = .ok args) {r : Res K}
    (hr : solve fl tiny isInteger linprog p mx m kw = .ok r) :
    kw.any Kw.clash = false ∧ ∃ s,
      linprog { kw.foldl Call.update (Call.ofArgs args) with method := m } = .ok s ∧ s.status = r.status ∧
      s.success = r.success ∧ s.x = r.x ∧
      (s.success = true → ∃ x v, s.x = some x ∧ p.obj.call x = .ok v ∧ r.fun_ = some v) := by
  rw [solve_eq fl tiny isInteger linprog p mx m kw h] at hr
  split at hr
  · cases hr
  · rename_i hk
    refine ⟨by simpa using hk, ?_⟩
    cases hs : linprog { kw.foldl Call.update (Call.ofArgs args) with method := m } with
    | error e => rw [hs] at hr; cases hr
    | ok s =>
      rw [hs] at hr
      simp only [Except.bind] at hr
      refine ⟨s, rfl, ?_⟩
      split at hr
      · rename_i hsu
        cases hx : s.x with
        | none => rw [hx] at hr; cases hr
        | some x =>
          rw [hx] at hr
          simp only at hr
          cases hv : p.obj.call x with
          | error e => rw [hv] at hr; cases hr
          | ok v =>
            rw [hv] at hr
            cases hr
            exact ⟨rfl, rfl, rfl, fun _ => ⟨x, v, rfl, hv, rfl⟩⟩
      · rename_i hsu
        cases hr
        exact ⟨rfl, rfl, rfl, fun h => absurd h hsu⟩

/-- The minimum over the points of a call is the optimum of the objective. -/
theorem solved (fl : K → K) (tiny : K) (isInteger : V → Option Bool) (linprog : Call K O → Py (Res K))
    (hl : Faithful linprog) (p : Problem V K Integ (Bounds K)) (hp : Regular p) (mx : Bool) (m : Method)
    (kw : List (Kw K O)) (hkw : ∀ k ∈ kw, Harmless k) {args : ScipyArgs K Integ (Bounds K)}
    (ha : toScipy fl tiny isInteger p mx = .ok args) (S : List K → Prop)
    (hS : ∀ x, S x → x.length = p.vars.length)
    (hpt : ∀ (ex : List (ℕ × O)) xs,
      Point ({ (Call.ofArgs args : Call K O) with extras := ex, method := m } : Call K O) xs ↔ S xs)
    (r : Res K) (hr : solve fl tiny isInteger linprog p mx m kw = .ok r) (hs : r.success = true) :
    ∃ x, r.x = some x ∧ S x ∧
      (∀ y, S y → if mx then at' p p.obj y ≤ at' p p.obj x else at' p p.obj x ≤ at' p p.obj y) ∧
      (p.obj.vars = p.vars → r.fun_ = some (at' p p.obj x)) := by
  obtain ⟨-, s, h1, -, h3, h4, h5⟩ := solve_ok ha hr
  obtain ⟨ex, e1, -⟩ := harmless_fold kw hkw (Call.ofArgs args)
  rw [e1] at h1
  obtain ⟨x, hx, hpx, hopt⟩ := hl.optimal _ s h1 (h3.trans hs)
  have hpt := hpt ex
  have hstx := (hpt x).1 hpx
  have key := C17_optimizers fl tiny isInteger p mx hp.nodup hp.objective args ha S hS x hstx
  refine ⟨x, h4 ▸ hx, hstx, key.1 fun y hy => hopt y ((hpt y).2 hy), fun hv => ?_⟩
  obtain ⟨x', v, hx', hcall, hfun⟩ := h5 (h3.trans hs)
  rw [hx] at hx'
  cases hx'
  rw [hfun]
  rw [p.obj.call_ok hp.objective.2.1 x ((hS x hstx).trans (by rw [hv])), hv] at hcall
  cases hcall
  rfl

/-! ### C126 -/

/-- C126: a reported success is a solution of the stated problem: the point satisfies the constraints, the bounds and the
restrictions to whole numbers, and no such point has a smaller objective, or a larger one when maximizing.  The value
reported is the objective at this point, if the objective lists its variables in the order of the problem. -/
theorem C126_optimal_partial (fl : K → K) (tiny : K) (isInteger : V → Option Bool)
    (linprog : Call K O → Py (Res K)) (hl : Faithful linprog) (p : Problem V K Integ (Bounds K))
    (hp : Regular p) (mx : Bool) (kw : List (Kw K O)) (hkw : ∀ k ∈ kw, Harmless k) (r : Res K)
    (hr : solve fl tiny isInteger linprog p mx .highs kw = .ok r) (hs : r.success = true) :
    ∃ x, r.x = some x ∧ Stated isInteger p x ∧
      (∀ y, Stated isInteger p y →
        if mx then at' p p.obj y ≤ at' p p.obj x else at' p p.obj x ≤ at' p p.obj y) ∧
      (p.obj.vars = p.vars → r.fun_ = some (at' p p.obj x)) := by
  obtain ⟨args, ha, hpt, -⟩ := points (O := O) fl tiny isInteger p hp mx
  exact solved fl tiny isInteger linprog hl p hp mx .highs kw hkw ha (Stated isInteger p)
    (fun x hx => hx.1) hpt r hr hs

/-- C126: with another method than the default, what is solved is the relaxed problem, in which no variable is
restricted to whole numbers. -/
theorem C126_other_method (fl : K → K) (tiny : K) (isInteger : V → Option Bool)
    (linprog : Call K O → Py (Res K)) (hl : Faithful linprog) (p : Problem V K Integ (Bounds K))
    (hp : Regular p) (mx : Bool) (n : ℕ) (kw : List (Kw K O)) (hkw : ∀ k ∈ kw, Harmless k) (r : Res K)
    (hr : solve fl tiny isInteger linprog p mx (.other n) kw = .ok r) (hs : r.success = true) :
    ∃ x, r.x = some x ∧ Stated (fun _ => none) { p with integrality := none } x ∧
      (∀ y, Stated (fun _ => none) { p with integrality := none } y →
        if mx then at' p p.obj y ≤ at' p p.obj x else at' p p.obj x ≤ at' p p.obj y) ∧
      (p.obj.vars = p.vars → r.fun_ = some (at' p p.obj x)) := by
  obtain ⟨args, ha, -, hpt⟩ := points (O := O) fl tiny isInteger p hp mx
  exact solved fl tiny isInteger linprog hl p hp mx (.other n) kw hkw ha
    (Stated (fun _ => none) { p with integrality := none }) (fun x hx => hx.1) (hpt n) r hr hs

/-- C126: if the solver reports that there is no solution (status 2), then no point satisfies what was stated; if it
reports that the problem is unbounded (status 3), then the objective takes values below every number on the points that
do, or above every number when maximizing. -/
theorem C126_failure_partial (fl : K → K) (tiny : K) (isInteger : V → Option Bool)
    (linprog : Call K O → Py (Res K)) (hl : Faithful linprog) (p : Problem V K Integ (Bounds K))
    (hp : Regular p) (mx : Bool) (kw : List (Kw K O)) (hkw : ∀ k ∈ kw, Harmless k) (r : Res K)
    (hr : solve fl tiny isInteger linprog p mx .highs kw = .ok r) :
    (r.status = 2 → ∀ x, ¬ Stated isInteger p x) ∧
    (r.status = 3 → ∀ M, ∃ x, Stated isInteger p x ∧
      if mx then M < at' p p.obj x else at' p p.obj x < M) := by
  obtain ⟨args, ha, hpt, -⟩ := points (O := O) fl tiny isInteger p hp mx
  obtain ⟨-, s, h1, h2, -⟩ := solve_ok ha hr
  obtain ⟨ex, e1, -⟩ := harmless_fold kw hkw (Call.ofArgs args)
  rw [e1] at h1
  refine ⟨fun h x hx => hl.infeasible _ s h1 (h2.trans h) x ((hpt ex x).2 hx), fun h M => ?_⟩
  obtain ⟨x, hx, hlt⟩ := hl.unbounded _ s h1 (h2.trans h)
    (if mx then p.obj.eval (fun _ => 0) - M else M - p.obj.eval fun _ => 0)
  have hst := (hpt ex x).1 hx
  refine ⟨x, hst, ?_⟩
  have := cost_value fl tiny isInteger p mx hp.nodup hp.objective args ha x hst.1
  change dot args.c x < _ at hlt
  rw [this] at hlt
  unfold at'
  cases mx <;> simp only [if_true, if_false, Bool.false_eq_true] at hlt ⊢ <;> linarith

/-- C126: `solve` raises only what the solver raises, if this returns a point with a number for each variable. -/
theorem C126_returns (fl : K → K) (tiny : K) (isInteger : V → Option Bool)
    (linprog : Call K O → Py (Res K)) (p : Problem V K Integ (Bounds K))
    (hp : Regular p) (mx : Bool) (m : Method) (kw : List (Kw K O)) (hkw : ∀ k ∈ kw, Harmless k) :
    ∃ a : Call K O, a.method = m ∧
      (∀ err, linprog a = .error err → solve fl tiny isInteger linprog p mx m kw = .error err) ∧
      ∀ s, linprog a = .ok s → (s.success = true → ∃ x, s.x = some x ∧ x.length = p.vars.length) →
        ∃ r, solve fl tiny isInteger linprog p mx m kw = .ok r ∧ r.status = s.status ∧
          r.success = s.success ∧ r.x = s.x := by
  obtain ⟨args, ha, -⟩ := points (O := O) fl tiny isInteger p hp mx
  obtain ⟨ex, e1, e2⟩ := harmless_fold kw hkw (Call.ofArgs args)
  refine ⟨{ kw.foldl Call.update (Call.ofArgs args) with method := m }, rfl, fun err h => ?_,
    fun s h hx => ?_⟩
  · rw [solve_eq fl tiny isInteger linprog p mx m kw ha, e2, h]
    rfl
  · rw [solve_eq fl tiny isInteger linprog p mx m kw ha, e2, h]
    simp only [Except.bind, if_false, Bool.false_eq_true]
    cases hsu : s.success with
    | false => exact ⟨s, rfl, rfl, hsu, rfl⟩
    | true =>
      obtain ⟨x, hx1, hx2⟩ := hx hsu
      simp only [if_true, hx1]
      rw [p.obj.call_ok hp.objective.2.1 x (hx2.trans hp.objective.2.2.length_eq.symm)]
      exact ⟨_, rfl, rfl, rfl, rfl⟩

/-- The options among keyword arguments, in the order given. -/
def optionsOf : List (Kw K O) → List (ℕ × O)
  | [] => []
  | .extra n v :: ks => (n, v) :: optionsOf ks
  | _ :: ks => optionsOf ks

/-- C126: further options reach the solver as they are, and change nothing else about what it is asked. -/
theorem C126_options (fl : K → K) (tiny : K) (isInteger : V → Option Bool)
    (linprog : Call K O → Py (Res K)) (p : Problem V K Integ (Bounds K)) (mx : Bool) (m : Method)
    (kw : List (Kw K O)) (hkw : ∀ k ∈ kw, Harmless k) :
    solve fl tiny isInteger linprog p mx m kw =
      solve fl tiny isInteger (fun a : Call K O => linprog { a with extras := optionsOf kw }) p mx m [] := by
  have key : ∀ (kw : List (Kw K O)) (_ : ∀ k ∈ kw, Harmless k) (a : Call K O),
      kw.foldl Call.update a = { a with extras := a.extras ++ optionsOf kw } ∧
      kw.any Kw.clash = false := by
    intro kw
    induction kw with
    | nil => intro _ a; simp [optionsOf]
    | cons k kw ih =>
      intro h a
      cases k with
      | extra n v =>
        obtain ⟨h1, h2⟩ := ih (fun k hk => h k (List.mem_cons_of_mem _ hk)) (a.update (.extra n v))
        refine ⟨?_, by rw [List.any_cons, h2]; rfl⟩
        rw [List.foldl_cons, h1]
        simp [Call.update, optionsOf]
      | _ => exact (h _ List.mem_cons_self).elim
  cases ha : toScipy fl tiny isInteger p mx with
  | error e => simp only [solve, ha, bind, Except.bind]
  | ok args =>
    rw [solve_eq _ _ _ _ _ _ _ _ ha, solve_eq _ _ _ _ _ _ _ _ ha, (key kw hkw (Call.ofArgs args)).2,
      (key kw hkw (Call.ofArgs args)).1]
    rfl

/-- C126: bounds and integrality given to `solve` take the place of those of the problem, for this call. -/
theorem C126_bounds (fl : K → K) (tiny : K) (isInteger : V → Option Bool)
    (linprog : Call K O → Py (Res K)) (p : Problem V K Integ (Bounds K)) (mx : Bool) (m : Method)
    (kw : List (Kw K O)) :
    (∀ b, solve fl tiny isInteger linprog p mx m (.bounds b :: kw) =
      solve fl tiny isInteger linprog { p with bounds := b } mx m kw) ∧
    ∀ i, solve fl tiny isInteger linprog p mx m (.integrality (some i) :: kw) =
      solve fl tiny isInteger linprog { p with integrality := some i } mx m kw := by
  refine ⟨fun b => ?_, fun i => ?_⟩
  · have : ∀ q : Problem V K Integ (Bounds K), q = { p with bounds := b } →
        toScipy fl tiny isInteger q mx =
          (toScipy fl tiny isInteger p mx).map fun a => { a with bounds := b } := by
      rintro q rfl
      unfold toScipy
      simp only [bind, Except.bind, pure, Except.pure]
      cases pyMap (fun x => dictGet p.obj.linearCoefficients [x]) p.vars with
      | error e => rfl
      | ok c =>
        simp only
        cases assemble fl p.sparsify p.vars (fun _ => (1, 1, 0))
          (p.constraints.filter fun c => c.rel.cls = .equality) with
        | error e => rfl
        | ok eq =>
          simp only
          cases assemble fl p.sparsify p.vars (fun c => multipliers tiny c.rel.op)
            (p.constraints.filter fun c => c.rel.cls = .inequality) with
          | error e => rfl
          | ok ub => rfl
    have h2 := this _ rfl
    cases ha : toScipy fl tiny isInteger p mx with
    | error e =>
      rw [ha] at h2
      simp only [solve, ha, h2, bind, Except.bind, Except.map]
    | ok args =>
      rw [ha] at h2
      rw [solve_eq _ _ _ _ _ _ _ _ ha, solve_eq _ _ _ _ _ _ _ _ h2]
      rfl
  · have : ∀ q : Problem V K Integ (Bounds K), q = { p with integrality := some i } →
        toScipy fl tiny isInteger q mx =
          (toScipy fl tiny isInteger p mx).map fun a => { a with integrality := some (.inl i) } := by
      rintro q rfl
      unfold toScipy
      simp only [bind, Except.bind, pure, Except.pure]
      cases pyMap (fun x => dictGet p.obj.linearCoefficients [x]) p.vars with
      | error e => rfl
      | ok c =>
        simp only
        cases assemble fl p.sparsify p.vars (fun _ => (1, 1, 0))
          (p.constraints.filter fun c => c.rel.cls = .equality) with
        | error e => rfl
        | ok eq =>
          simp only
          cases assemble fl p.sparsify p.vars (fun c => multipliers tiny c.rel.op)
            (p.constraints.filter fun c => c.rel.cls = .inequality) with
          | error e => rfl
          | ok ub => rfl
    have h2 := this _ rfl
    cases ha : toScipy fl tiny isInteger p mx with
    | error e =>
      rw [ha] at h2
      simp only [solve, ha, h2, bind, Except.bind, Except.map]
    | ok args =>
      rw [ha] at h2
      rw [solve_eq _ _ _ _ _ _ _ _ ha, solve_eq _ _ _ _ _ _ _ _ h2]
      rfl

/-- C126: giving the objective as `c`, or an argument `linprog` does not have, raises a `TypeError`; the solver is not
called. -/
theorem C126_refused (fl : K → K) (tiny : K) (isInteger : V → Option Bool)
    (linprog : Call K O → Py (Res K)) (p : Problem V K Integ (Bounds K)) (hp : Regular p) (mx : Bool)
    (m : Method) (kw : List (Kw K O)) (hk : (∃ v, .c v ∈ kw) ∨ ∃ n, .unknown n ∈ kw) :
    solve fl tiny isInteger linprog p mx m kw = .error .type := by
  obtain ⟨args, ha, -⟩ := points (O := O) fl tiny isInteger p hp mx
  rw [solve_eq _ _ _ _ _ _ _ _ ha, if_pos]
  rw [List.any_eq_true]
  rcases hk with ⟨v, h⟩ | ⟨n, h⟩
  · exact ⟨_, h, rfl⟩
  · exact ⟨_, h, rfl⟩

/-- C126: `A_ub=None, b_ub=None` given to `solve` drops the inequality constraints of the problem without a word. -/
theorem C126_dropped (fl : K → K) (tiny : K) (isInteger : V → Option Bool)
    (linprog : Call K O → Py (Res K)) (p : Problem V K Integ (Bounds K)) (hp : Regular p) (mx : Bool)
    (m : Method) (kw : List (Kw K O)) :
    solve fl tiny isInteger linprog p mx m (.Aub none :: .bub none :: kw) =
      solve fl tiny isInteger linprog
        { p with constraints := p.constraints.filter fun c => c.rel.cls = .equality } mx m kw := by
  obtain ⟨args, ha, -⟩ := points (O := O) fl tiny isInteger p hp mx
  have h2 : toScipy fl tiny isInteger
      { p with constraints := p.constraints.filter fun c => c.rel.cls = .equality } mx =
        .ok { args with ub := none } := by
    unfold toScipy at ha ⊢
    simp only [bind, Except.bind, pure, Except.pure] at ha ⊢
    have e1 : ((p.constraints.filter fun c => c.rel.cls = .equality).filter fun c =>
        c.rel.cls = .equality) = p.constraints.filter fun c => c.rel.cls = .equality := by
      rw [List.filter_filter]
      simp
    have e2 : ((p.constraints.filter fun c => c.rel.cls = .equality).filter fun c =>
        c.rel.cls = .inequality) = [] := by
      rw [List.filter_filter, List.filter_eq_nil_iff]
      intro c _
      cases c.rel.cls <;> simp
    rw [e1, e2]
    split at ha
    · cases ha
    · rename_i c hc
      split at ha
      · cases ha
      · rename_i eq heq
        split at ha
        · cases ha
        · simp only [Except.ok.injEq] at ha
          rw [← ha]
          rfl
  rw [solve_eq _ _ _ _ _ _ _ _ ha, solve_eq _ _ _ _ _ _ _ _ h2]
  rfl

end

/-! ### Concrete problems, and the claim is violated -/

/-- A solver that keeps what the documentation says, for every call. -/
noncomputable def ideal (a : Call ℚ Unit) : Py (Res ℚ) :=
  open Classical in
  if h : ∃ x, Point a x ∧ ∀ y, Point a y → dot a.c x ≤ dot a.c y then
    .ok ⟨0, true, some h.choose, none⟩
  else if ∃ x, Point a x then
    if ∀ M, ∃ x, Point a x ∧ dot a.c x < M then .ok ⟨3, false, none, none⟩ else .ok ⟨4, false, none, none⟩
  else .ok ⟨2, false, none, none⟩

theorem ideal_faithful : Faithful ideal where
  optimal := by
    intro a r h hs
    unfold ideal at h
    split at h
    · rename_i hx
      cases h
      exact ⟨_, rfl, hx.choose_spec⟩
    · split at h
      · split at h <;> cases h <;> cases hs
      · cases h
        cases hs
  infeasible := by
    intro a r h hs x hx
    unfold ideal at h
    split at h
    · cases h
      cases hs
    · split at h
      · split at h <;> cases h <;> cases hs
      · rename_i hn
        exact hn ⟨x, hx⟩
  unbounded := by
    intro a r h hs
    unfold ideal at h
    split at h
    · cases h
      cases hs
    · split at h
      · split at h
        · rename_i hu
          exact hu
        · cases h
          cases hs
      · cases h
        cases hs

/-- What is asked for, by the method. -/
def Asked (isInteger : ℕ → Option Bool) (p : Problem ℕ ℚ Integ (Bounds ℚ)) (m : Method) (xs : List ℚ) : Prop :=
  match m with
  | .highs => Stated isInteger p xs
  | .other _ => Stated (fun _ => none) { p with integrality := none } xs

/-- If there is an optimum, then the solver above finds it. -/
theorem ideal_success (isInteger : ℕ → Option Bool) (p : Problem ℕ ℚ Integ (Bounds ℚ)) (hp : Regular p)
    (mx : Bool) (m : Method) (x : List ℚ)
    (hx : Asked isInteger p m x)
    (hopt : ∀ y, Asked isInteger p m y →
        if mx then at' p p.obj y ≤ at' p p.obj x else at' p p.obj x ≤ at' p p.obj y) :
    ∃ r, solve id 0 isInteger ideal p mx m [] = .ok r ∧ r.success = true := by
  obtain ⟨args, ha, h1, h2⟩ := points (O := Unit) id 0 isInteger p hp mx
  have hpt : ∀ xs, Point ({ (Call.ofArgs args : Call ℚ Unit) with method := m } : Call ℚ Unit) xs ↔
      Asked isInteger p m xs := by
    intro xs
    cases m with
    | highs => exact h1 [] xs
    | other n => exact h2 n [] xs
  have hlen : ∀ xs, Asked isInteger p m xs → xs.length = p.vars.length := by
    intro xs h
    cases m with
    | highs => exact h.1
    | other n => exact h.1
  have key := (C17_optimizers id 0 isInteger p mx hp.nodup hp.objective args ha _ hlen x hx).2 hopt
  have hex : ∃ x, Point ({ (Call.ofArgs args : Call ℚ Unit) with method := m } : Call ℚ Unit) x ∧
      ∀ y, Point ({ (Call.ofArgs args : Call ℚ Unit) with method := m } : Call ℚ Unit) y →
        dot args.c x ≤ dot args.c y :=
    ⟨x, (hpt x).2 hx, fun y hy => key y ((hpt y).1 hy)⟩
  have hid : ideal ({ (Call.ofArgs args : Call ℚ Unit) with method := m } : Call ℚ Unit) =
      .ok ⟨0, true, some hex.choose, none⟩ := dif_pos hex
  rw [solve_eq _ _ _ _ _ _ _ _ ha]
  simp only [List.any_nil, List.foldl_nil, Bool.false_eq_true, if_false, hid, Except.bind, if_true]
  rw [p.obj.call_ok hp.objective.2.1 _
    ((hlen _ ((hpt _).1 hex.choose_spec.1)).trans hp.objective.2.2.length_eq.symm)]
  exact ⟨_, rfl, rfl⟩

/-- The constraint `2 x - 1 ≤ 0` in the one variable 0. -/
def half : Constraint ℕ ℚ :=
  ⟨⟨.inequality, some .le, Relations.le.toOpfunc, none⟩, ⟨[0], [([0], 2), ([], -1)]⟩, true⟩

/-- The problem of `x` subject to `2 x ≤ 1` and `0 ≤ x ≤ 5`. -/
def small : Problem ℕ ℚ Integ (Bounds ℚ) :=
  ⟨⟨[0], [([0], 1)]⟩, [half], [0], .one (some 0) (some 5), none, false⟩

theorem small_regular : Regular small where
  nodup := by decide
  objective := ⟨by unfold Func.Affine small; decide, by unfold Func.Closed small; decide, .refl _⟩
  linear := by
    intro c hc
    have : c = half := by simpa [small] using hc
    subst this
    exact ⟨by unfold Func.Affine half; decide, by unfold Func.Closed half; decide, .refl _⟩
  built := by
    intro c hc
    have : c = half := by simpa [small] using hc
    subst this
    exact built_example .le
  nonstrict := by
    intro c hc
    have : c = half := by simpa [small] using hc
    subst this
    simp [half]

theorem small_stated (isInteger : ℕ → Option Bool) (xs : List ℚ) : Stated isInteger small xs ↔
    ∃ x, xs = [x] ∧ 2 * x ≤ 1 ∧ 0 ≤ x ∧ x ≤ 5 ∧ (isInteger 0 = some true → ∃ z : ℤ, x = z) := by
  unfold Stated
  constructor
  · rintro ⟨h1, h2, h3⟩
    obtain ⟨x, rfl⟩ := List.length_eq_one_iff.1 (h1 : xs.length = 1)
    have a := h2 half (by simp [small])
    have b := h3 0 x 0 rfl rfl
    refine ⟨x, rfl, ?_, ?_⟩
    · have : 2 * x + -1 ≤ 0 := by
        simpa [Fulfilled, half, small, Attrs.relateValue, Relations.toOpfunc, Func.eval, point] using a
      linarith
    · by_cases hi : isInteger 0 = some true
      · simp only [small, hi, if_true, Allowed, Within, pairAt] at b
        exact ⟨b.1.1 0 rfl, b.1.2 5 rfl, fun _ => b.2⟩
      · simp only [small, hi, if_false, Allowed, Within, pairAt] at b
        exact ⟨b.1 0 rfl, b.2 5 rfl, fun h => absurd h hi⟩
  · rintro ⟨x, rfl, h1, h2, h3, h4⟩
    refine ⟨rfl, ?_, ?_⟩
    · intro c hc
      have : c = half := by simpa [small] using hc
      subst this
      have : 2 * x + -1 ≤ 0 := by linarith
      simpa [Fulfilled, half, small, Attrs.relateValue, Relations.toOpfunc, Func.eval, point] using this
    · intro j y v hy hv
      have hj : j = 0 := by
        have := (List.getElem?_eq_some_iff.1 hy).1
        simpa using this
      subst hj
      cases hy
      cases hv
      have hw : Within (pairAt small.bounds 0) x :=
        ⟨fun l hl => by cases hl; exact h2, fun l hl => by cases hl; exact h3⟩
      by_cases hi : isInteger 0 = some true
      · simp only [small, hi, if_true, Allowed]
        exact ⟨hw, h4 hi⟩
      · simp only [small, hi, if_false, Allowed]
        exact hw

theorem small_at (x : ℚ) : at' small small.obj [x] = x := by
  simp [at', small, Func.eval, point]

/-- **C126 is violated (1).** The variable was made with `integer=True`, and no whole number but 0 satisfies `2 x ≤ 1`,
`0 ≤ x ≤ 5`.  With a method other than the default every solver that keeps its documentation answers with one half,
reports a success, and so does `solve`. -/
theorem C126_method_violated (n : ℕ) :
    (∀ linprog : Call ℚ Unit → Py (Res ℚ), Faithful linprog → ∀ r,
      solve id 0 (fun _ => some true) linprog small true (.other n) [] = .ok r → r.success = true →
        r.x = some [1 / 2] ∧ ¬ Stated (fun _ => some true) small [1 / 2]) ∧
    ∃ linprog : Call ℚ Unit → Py (Res ℚ), Faithful linprog ∧ ∃ r,
      solve id 0 (fun _ => some true) linprog small true (.other n) [] = .ok r ∧ r.success = true := by
  have hst : ∀ xs, Stated (fun _ => none) { small with integrality := none } xs ↔
      ∃ x, xs = [x] ∧ 2 * x ≤ 1 ∧ 0 ≤ x ∧ x ≤ 5 := by
    intro xs
    have := small_stated (fun _ => none) xs
    simp only [reduceCtorEq, false_implies, and_true] at this
    exact this
  refine ⟨fun linprog hl r hr hs => ?_, ideal, ideal_faithful, ?_⟩
  · obtain ⟨x, hx, h1, h2, -⟩ := C126_other_method id 0 (fun _ => some true) linprog hl small
      small_regular true n [] (by simp) r hr hs
    obtain ⟨y, rfl, a, b, c⟩ := (hst x).1 h1
    have h2 := h2 [1 / 2] ((hst _).2 ⟨1 / 2, rfl, by norm_num, by norm_num, by norm_num⟩)
    rw [if_pos rfl, small_at, small_at] at h2
    have : y = 1 / 2 := by linarith
    subst this
    refine ⟨hx, fun h => ?_⟩
    obtain ⟨z, hz, -, -, -, hi⟩ := (small_stated _ _).1 h
    cases hz
    obtain ⟨k, hk⟩ := hi rfl
    have : (2 * k : ℤ) = 1 := by
      have : (2 * k : ℚ) = 1 := by rw [← hk]; norm_num
      exact_mod_cast this
    omega
  · refine ideal_success (fun _ => some true) small small_regular true (.other n) [1 / 2]
      ((hst _).2 ⟨1 / 2, rfl, by norm_num, by norm_num, by norm_num⟩) fun y hy => ?_
    obtain ⟨y, rfl, a, b, c⟩ := (hst y).1 hy
    rw [if_pos rfl, small_at, small_at]
    linarith

/-- **C126 is violated (2).** `solve(maximize=True, A_ub=None, b_ub=None)` replaces the arguments that were computed from
the constraints: every solver that keeps its documentation answers with 5, which breaks the constraint `2 x ≤ 1`. -/
theorem C126_constraints_violated :
    (∀ linprog : Call ℚ Unit → Py (Res ℚ), Faithful linprog → ∀ r,
      solve id 0 (fun _ => none) linprog small true .highs [.Aub none, .bub none] = .ok r →
        r.success = true → r.x = some [5] ∧ ¬ Stated (fun _ => none) small [5]) ∧
    ∃ linprog : Call ℚ Unit → Py (Res ℚ), Faithful linprog ∧ ∃ r,
      solve id 0 (fun _ => none) linprog small true .highs [.Aub none, .bub none] = .ok r ∧
        r.success = true := by
  have hfree : ({ small with constraints := small.constraints.filter fun c =>
      c.rel.cls = .equality } : Problem ℕ ℚ Integ (Bounds ℚ)) = { small with constraints := [] } := rfl
  have hreg : Regular ({ small with constraints := [] } : Problem ℕ ℚ Integ (Bounds ℚ)) :=
    ⟨small_regular.nodup, small_regular.objective, by simp, by simp, by simp⟩
  have hst : ∀ xs, Stated (fun _ => none)
      ({ small with constraints := [] } : Problem ℕ ℚ Integ (Bounds ℚ)) xs ↔
      ∃ x, xs = [x] ∧ 0 ≤ x ∧ x ≤ 5 := by
    intro xs
    unfold Stated
    constructor
    · rintro ⟨h1, -, h3⟩
      obtain ⟨x, rfl⟩ := List.length_eq_one_iff.1 (h1 : xs.length = 1)
      have b := h3 0 x 0 rfl rfl
      exact ⟨x, rfl, b.1 0 rfl, b.2 5 rfl⟩
    · rintro ⟨x, rfl, h2, h3⟩
      refine ⟨rfl, by simp, ?_⟩
      intro j y v hy hv
      have hj : j = 0 := by
        have := (List.getElem?_eq_some_iff.1 hy).1
        simpa using this
      subst hj
      cases hy
      cases hv
      exact ⟨fun l hl => by cases hl; exact h2, fun l hl => by cases hl; exact h3⟩
  have hat : ∀ x, at' ({ small with constraints := [] } : Problem ℕ ℚ Integ (Bounds ℚ)) small.obj [x] = x :=
    small_at
  refine ⟨fun linprog hl r hr hs => ?_, ideal, ideal_faithful, ?_⟩
  · rw [C126_dropped id 0 _ _ small small_regular, hfree] at hr
    obtain ⟨x, hx, h1, h2, -⟩ := C126_optimal_partial id 0 (fun _ => none) linprog hl _
      hreg true [] (by simp) r hr hs
    obtain ⟨y, rfl, b, c⟩ := (hst x).1 h1
    have h2 := h2 [5] ((hst _).2 ⟨5, rfl, by norm_num, by norm_num⟩)
    rw [if_pos rfl] at h2
    have h2 : (5 : ℚ) ≤ y := by
      have := h2
      rw [show ∀ z, at' ({ small with constraints := [] } : Problem ℕ ℚ Integ (Bounds ℚ))
        ({ small with constraints := [] } : Problem ℕ ℚ Integ (Bounds ℚ)).obj [z] = z from hat,
        show ∀ z, at' ({ small with constraints := [] } : Problem ℕ ℚ Integ (Bounds ℚ))
        ({ small with constraints := [] } : Problem ℕ ℚ Integ (Bounds ℚ)).obj [z] = z from hat] at this
      exact this
    have : y = 5 := le_antisymm c h2
    subst this
    refine ⟨hx, fun h => ?_⟩
    obtain ⟨z, hz, h, -⟩ := (small_stated _ _).1 h
    cases hz
    norm_num at h
  · rw [C126_dropped id 0 _ _ small small_regular, hfree]
    refine ideal_success (fun _ => none) _ hreg true .highs [5]
      ((hst _).2 ⟨5, rfl, by norm_num, by norm_num⟩) fun y hy => ?_
    obtain ⟨y, rfl, b, c⟩ := (hst y).1 hy
    rw [if_pos rfl]
    show at' ({ small with constraints := [] } : Problem ℕ ℚ Integ (Bounds ℚ)) small.obj [y] ≤
      at' ({ small with constraints := [] } : Problem ℕ ℚ Integ (Bounds ℚ)) small.obj [5]
    rw [hat, hat]
    exact c

/-- The hypotheses of `C126_optimal_partial` are met, with an integer variable: the answer is 0. -/
example : ∃ r, solve id 0 (fun _ => some true) ideal small true .highs [] = .ok r ∧ r.success = true ∧
    r.x = some [0] ∧ r.fun_ = some 0 := by
  have hst := small_stated fun _ => some true
  have hz : Stated (fun _ => some true) small [0] :=
    (hst _).2 ⟨0, rfl, by norm_num, by norm_num, by norm_num, fun _ => ⟨0, by norm_num⟩⟩
  have hall : ∀ y, Stated (fun _ => some true) small y → y = [0] := by
    intro y hy
    obtain ⟨x, rfl, a, b, -, hi⟩ := (hst y).1 hy
    obtain ⟨k, rfl⟩ := hi rfl
    have h1 : (2 * k : ℤ) ≤ 1 := by exact_mod_cast a
    have h2 : (0 : ℤ) ≤ k := by exact_mod_cast b
    have : k = 0 := by omega
    rw [this]
    norm_num
  obtain ⟨r, hr, hs⟩ := ideal_success (fun _ => some true) small small_regular true .highs [0] hz
    fun y hy => by rw [hall y hy, if_pos rfl]
  obtain ⟨x, hx, h1, -, h3⟩ := C126_optimal_partial id 0 (fun _ => some true) ideal ideal_faithful small
    small_regular true [] (by simp) r hr hs
  rw [hall x h1] at hx h3
  exact ⟨r, hr, hs, hx, by rw [h3 rfl, small_at]⟩

/-- With the bounds `1 ≤ x ≤ 5` given to `solve` there is no solution, and status 2 is returned: the hypotheses of
`C126_failure_partial` are met. -/
example : ∃ r, solve id 0 (fun _ => none) ideal small false .highs [.bounds (.one (some 1) (some 5))] = .ok r ∧
    r.status = 2 := by
  rw [(C126_bounds id 0 (fun _ => none) ideal small false .highs []).1]
  have hreg : Regular ({ small with bounds := .one (some 1) (some 5) } : Problem ℕ ℚ Integ (Bounds ℚ)) :=
    ⟨small_regular.nodup, small_regular.objective, small_regular.linear, small_regular.built,
      small_regular.nonstrict⟩
  obtain ⟨args, ha, hpt, -⟩ := points (O := Unit) id 0 (fun _ => none) _ hreg false
  have hno : ¬ ∃ x, Point ({ (Call.ofArgs args : Call ℚ Unit) with method := .highs } : Call ℚ Unit) x := by
    rintro ⟨x, hx⟩
    obtain ⟨h1, h2, h3⟩ := (hpt [] x).1 hx
    obtain ⟨y, rfl⟩ := List.length_eq_one_iff.1 (h1 : x.length = 1)
    have a := h2 half (by simp [small])
    have b := (h3 0 y 0 rfl rfl).1 1 rfl
    have : 2 * y + -1 ≤ 0 := by
      simpa [Fulfilled, half, small, Attrs.relateValue, Relations.toOpfunc, Func.eval, point] using a
    linarith
  have hid : ideal ({ (Call.ofArgs args : Call ℚ Unit) with method := .highs } : Call ℚ Unit) =
      .ok ⟨2, false, none, none⟩ := by
    unfold ideal
    rw [dif_neg fun ⟨x, hx, _⟩ => hno ⟨x, hx⟩, if_neg hno]
  rw [solve_eq _ _ _ _ _ _ _ _ ha]
  simp only [List.any_nil, List.foldl_nil, Bool.false_eq_true, if_false, hid, Except.bind]
  exact ⟨_, rfl, rfl⟩

/-- `solve(options=…, disp=True)`: the second name is none of `linprog`. -/
example : solve id 0 (fun _ => none) ideal small false .highs [.extra 0 (), .unknown 1] = .error .type :=
  C126_refused id 0 _ _ small small_regular false .highs _ (.inr ⟨1, by simp⟩)

end Verif.LPSolve.Props
