import Verif.Proofs.FunctionObj
import Mathlib.Algebra.Ring.Int.Defs
import Mathlib.Tactic.Ring
import Mathlib.Tactic.Linarith

set_option linter.unusedSectionVars false

/-!
# C97: what an object of class `Function` evaluates
-/

namespace Verif.FnObj.Props

variable {S E C X : Type}

/-- A class without own methods for values and derivatives. -/
def Silent {M : Type} (c : Cls M) : Prop := ∀ a, c.body a = none

/-- Calling the object, asking for its gradient and for its Hessian runs `v`, `g` and `h` with the arguments
given, whatever the callables are, in the class `Function` and in all its subclasses that define no methods
of their own. -/
def Evaluates (o : Fn S E C X) (v g h : Obj S E C X) : Prop :=
  ∀ (M A R : Type) (app : C → A → Py R) (user : M → Fn S E C X → A → Py R) (cs : List (Cls M)) (args : A),
    (∀ c ∈ cs, Silent c) →
      invoke app user (cs ++ [metaFunction M]) o .f args = v.run app args ∧
      invoke app user (cs ++ [metaFunction M]) o .g args = g.run app args ∧
      invoke app user (cs ++ [metaFunction M]) o .G args = h.run app args

theorem attrs_silent {M : Type} {c : Cls M} (h : Silent c) (a : Attr) : c.attrs a = none := by
  unfold Cls.attrs
  cases a <;> simp [h .f, h .g, h .G, h .value, h .gradient, h .Hessian]

theorem getattr_silent {M : Type} (cs rest : List (Cls M)) (h : ∀ c ∈ cs, Silent c) (a : Attr) :
    getattr (cs ++ rest) a = getattr rest a := by
  induction cs with
  | nil => rfl
  | cons c cs ih =>
    have := ih fun c hc => h c (List.mem_cons_of_mem _ hc)
    rw [← this]
    unfold getattr
    rw [List.cons_append, List.findSome?_cons, attrs_silent (h c (List.mem_cons_self ..))]

theorem evaluates_self (o : Fn S E C X) : Evaluates o o.f0 o.f1 o.f2 := by
  intro M A R app user cs args hs
  refine ⟨?_, ?_, ?_⟩ <;> (unfold invoke; rw [getattr_silent _ _ hs]; rfl)

/-- **C97, text.**  An object made from a text evaluates the function of that text, its gradient and its
Hessian, whatever else was given: other callables by position or by keyword do not matter.  It is symbolic,
and its dimension, variables and expression are those of the text. -/
theorem C97_text (env : Env S E C X) (s : S) (f1 f2 vs : Obj S E C X) (kw : Kw S E C X)
    (r : Symbolized S E C X) (hk : ∀ v, (Key.strExpr, v) ∉ kw)
    (hr : env.symbolize (.text s) vs (kw.get .simplify (.other env.tt)) = .ok r) :
    ∃ o, construct env ⟨.str s, f1, f2, vs, kw⟩ = .ok o ∧
      Evaluates o (.call r.value) (.call r.gradient) (.call r.Hessian) ∧
      o.isSymbolic = true ∧ o.dimension = .other r.d ∧ o.vars = r.vars ∧ o.expr = .expr r.expr := by
  have hk' : kw.has .strExpr = false := by
    rw [Kw.has, List.any_eq_false]
    rintro ⟨k, v⟩ hp
    have := hk v
    simp only [decide_eq_true_eq]
    rintro rfl
    exact this hp
  refine ⟨⟨.call r.value, .call r.gradient, .call r.Hessian, .other r.d, kw.get .domain .none,
    kw.get .vmap .none, .expr r.expr, r.vars, true⟩, ?_, evaluates_self _, rfl, rfl, rfl, rfl⟩
  simp only [construct, Fn.update, strToFunc, hk', hr, Bool.false_eq_true, if_false, assign_update]

/-- **C97, expression.**  The same for an expression of SymPy. -/
theorem C97_expression (env : Env S E C X) (e : E) (f1 f2 vs : Obj S E C X) (kw : Kw S E C X)
    (r : Symbolized S E C X) (hk : ∀ v, (Key.expr, v) ∉ kw) (hk' : ∀ v, (Key.strExpr, v) ∉ kw)
    (hr : env.symbolize (.expr e) vs (kw.get .simplify (.other env.tt)) = .ok r) :
    ∃ o, construct env ⟨.expr e, f1, f2, vs, kw⟩ = .ok o ∧
      Evaluates o (.call r.value) (.call r.gradient) (.call r.Hessian) ∧
      o.isSymbolic = true ∧ o.dimension = .other r.d ∧ o.vars = r.vars ∧ o.expr = .expr r.expr := by
  have no : ∀ (k : Key), (∀ v, (k, v) ∉ kw) → kw.has k = false := by
    intro k h
    rw [Kw.has, List.any_eq_false]
    rintro ⟨k', v⟩ hp
    simp only [decide_eq_true_eq]
    rintro rfl
    exact h v hp
  refine ⟨⟨.call r.value, .call r.gradient, .call r.Hessian, .other r.d, kw.get .domain .none,
    kw.get .vmap .none, .expr r.expr, r.vars, false⟩, ?_, evaluates_self _, rfl, rfl, rfl, rfl⟩
  simp only [construct, Fn.update, sympyToFunc, no _ hk, Kw.get_of_not_has (no _ hk'), hr, Bool.false_eq_true,
    if_false, assign_update]

/-- **C97, callables.**  An object made from callables evaluates them; one given by keyword is taken instead
of one given by position; one not given at all raises `TypeError` when called.  The object is not symbolic
unless an expression was given by keyword. -/
theorem C97_callables (env : Env S E C X) (f0 f1 f2 vs : Obj S E C X) (kw : Kw S E C X)
    (h0 : ∀ s, f0 ≠ .str s) (h0' : ∀ e, f0 ≠ .expr e) :
    ∃ o v g h, construct env ⟨f0, f1, f2, vs, kw⟩ = .ok o ∧ Evaluates o v g h ∧
      ((Key.value, v) ∈ kw ∨ (v = f0 ∧ ∀ x, (Key.value, x) ∉ kw)) ∧
      ((Key.gradient, g) ∈ kw ∨ (g = f1 ∧ ∀ x, (Key.gradient, x) ∉ kw)) ∧
      ((Key.Hessian, h) ∈ kw ∨ (h = f2 ∧ ∀ x, (Key.Hessian, x) ∉ kw)) ∧
      ((∀ x, (Key.expr, x) ∉ kw) → o.isSymbolic = false) := by
  have look : ∀ (k : Key) (d : Obj S E C X),
      (k, kw.get k d) ∈ kw ∨ (kw.get k d = d ∧ ∀ x, (k, x) ∉ kw) := by
    intro k d
    induction kw with
    | nil => exact .inr ⟨rfl, by simp⟩
    | cons p kw ih =>
      rw [Kw.get_cons]
      by_cases h : p.1 = k
      · rw [if_pos h]
        left
        subst h
        exact List.mem_cons_self ..
      · rw [if_neg h]
        rcases ih with h' | ⟨h1, h2⟩
        · exact .inl (List.mem_cons_of_mem _ h')
        · refine .inr ⟨h1, fun x hx => ?_⟩
          rcases List.mem_cons.1 hx with hx | hx
          · exact h (by rw [← hx])
          · exact h2 x hx
  have hc : construct env ⟨f0, f1, f2, vs, kw⟩ =
      .ok (({ (Fn.blank : Fn S E C X) with fromStr := false }).assign ⟨f0, f1, f2, vs, kw⟩ kw) := by
    cases f0 with
    | str s => exact absurd rfl (h0 s)
    | expr e => exact absurd rfl (h0' e)
    | none => rfl
    | call c => rfl
    | other x => rfl
  refine ⟨_, _, _, _, hc, evaluates_self _, look .value f0, look .gradient f1, look .Hessian f2, ?_⟩
  intro hx
  rcases look .expr .none with h | ⟨h, -⟩
  · exact absurd h (hx _)
  · simp only [Fn.isSymbolic, assign_eq, h]

/-- What is not callable raises `TypeError`. -/
theorem C97_missing {A R : Type} (app : C → A → Py R) (args : A) :
    (Obj.none : Obj S E C X).run app args = .error .type := rfl

/-- **C97, keyword form.**  Giving the callables by the keywords `value`, `gradient` and `Hessian` makes the
same object as giving them by position. -/
theorem C97_keywords (env : Env S E C X) (c : C) (f1 f2 vs : Obj S E C X) (kw : Kw S E C X)
    (h0 : ∀ x, (Key.value, x) ∉ kw) (h1 : ∀ x, (Key.gradient, x) ∉ kw) (h2 : ∀ x, (Key.Hessian, x) ∉ kw) :
    construct env ⟨.none, .none, .none, vs,
        (.value, .call c) :: (.gradient, f1) :: (.Hessian, f2) :: kw⟩ =
      construct env ⟨.call c, f1, f2, vs, kw⟩ := by
  have no : ∀ (k : Key), (∀ v, (k, v) ∉ kw) → kw.has k = false := by
    intro k h
    rw [Kw.has, List.any_eq_false]
    rintro ⟨k', v⟩ hp
    simp only [decide_eq_true_eq]
    rintro rfl
    exact h v hp
  simp only [construct, Fn.update, assign_eq, Kw.get_cons, Kw.get_of_not_has (no _ h0),
    Kw.get_of_not_has (no _ h1), Kw.get_of_not_has (no _ h2)]
  simp only [getasany, List.find?_cons, List.find?_nil, Kw.has_cons]
  cases h3 : kw.has .d <;> cases h4 : kw.has .dimension <;> cases h5 : kw.has .dim <;> simp [Kw.get_cons]

/-- **C97, update.**  `update` raises exactly what the constructor raises for the same arguments, and if it
does not raise the object is the one the constructor would make: nothing of its former state remains. -/
theorem C97_update (env : Env S E C X) (o : Fn S E C X) (a : Args S E C X) :
    (∀ n, construct env a = .ok n → o.update env a = (n, .ok ())) ∧
    (∀ e, construct env a = .error e → (o.update env a).2 = .error e) := by
  obtain ⟨f0, f1, f2, vs, kw⟩ := a
  cases f0 with
  | none => exact ⟨fun n h => by injection h with h; subst h; rfl, fun e h => nomatch h⟩
  | call c => exact ⟨fun n h => by injection h with h; subst h; rfl, fun e h => nomatch h⟩
  | other x => exact ⟨fun n h => by injection h with h; subst h; rfl, fun e h => nomatch h⟩
  | str s =>
    simp only [construct, Fn.update]
    cases hs : strToFunc env s vs kw with
    | error e =>
      refine ⟨fun n h => (nomatch h), fun e' h => ?_⟩
      injection h with h; subst h; rfl
    | ok r =>
      refine ⟨fun n h => ?_, fun e' h => nomatch h⟩
      injection h with h; subst h; rfl
  | expr s =>
    simp only [construct, Fn.update]
    cases hs : sympyToFunc env s vs kw with
    | error e =>
      refine ⟨fun n h => (nomatch h), fun e' h => ?_⟩
      injection h with h; subst h; rfl
    | ok r =>
      refine ⟨fun n h => ?_, fun e' h => nomatch h⟩
      injection h with h; subst h; rfl

/-- **C97, failing update (partial).**  If `update` raises, the object still evaluates what it evaluated
before, and its expression, variables and dimension are as before.  Missing: that the object is as before;
see `C97_failed_update_violated`. -/
theorem C97_failed_update_partial (env : Env S E C X) (o : Fn S E C X) (a : Args S E C X) (e : PyErr)
    (h : (o.update env a).2 = .error e) :
    Evaluates (o.update env a).1 o.f0 o.f1 o.f2 ∧ (o.update env a).1.expr = o.expr ∧
      (o.update env a).1.vars = o.vars ∧ (o.update env a).1.dimension = o.dimension ∧
      (o.update env a).1.isSymbolic = o.isSymbolic := by
  have key : (o.update env a).1 = { o with fromStr := false } := by
    obtain ⟨f0, f1, f2, vs, kw⟩ := a
    cases f0 with
    | none => cases h
    | call c => cases h
    | other x => cases h
    | str s =>
      simp only [Fn.update] at h ⊢
      cases hs : strToFunc env s vs kw with
      | error e => rfl
      | ok r => rw [hs] at h; cases h
    | expr s =>
      simp only [Fn.update] at h ⊢
      cases hs : sympyToFunc env s vs kw with
      | error e => rfl
      | ok r => rw [hs] at h; cases h
  rw [key]
  exact ⟨evaluates_self _, rfl, rfl, rfl, rfl⟩

/-- **C97, substitution.**  `subs` of a symbolic function returns a function that evaluates the expression
with the values put in, its gradient and its Hessian.  Without `inplace` the object stays as it is; with
`inplace` the object becomes the function returned. -/
theorem C97_subs (env : Env S E C X) (o : Fn S E C X) (values : List X) (vs : Obj S E C X) (e e' : E)
    (r : Symbolized S E C X) (he : o.expr = .expr e)
    (hs : env.substitute e values vs o.fromStr = .ok e')
    (hr : env.symbolize (.expr e') vs (.other env.tt) = .ok r) :
    ∃ n, o.subs env values vs false = (o, .ok n) ∧ o.subs env values vs true = (n, .ok n) ∧
      Evaluates n (.call r.value) (.call r.gradient) (.call r.Hessian) ∧
      n.expr = .expr r.expr ∧ n.vars = r.vars ∧ n.dimension = .other r.d := by
  refine ⟨⟨.call r.value, .call r.gradient, .call r.Hessian, .other r.d, .none, .none, .expr r.expr,
    r.vars, false⟩, ?_, ?_, evaluates_self _, rfl, rfl, rfl⟩
  · simp only [Fn.subs, he, hs, hr]
    rfl
  · simp only [Fn.subs, he, hs, hr]
    rfl

/-- **C97, exceptions.**  `subs` and `simplify` of a function which is not symbolic raise `TypeError`, if a text
was given as the expression they raise `AttributeError`; and whenever one of them raises, the object stays as it is. -/
theorem C97_raises (env : Env S E C X) (o : Fn S E C X) (values : List X) (vs : Obj S E C X) (b : Bool) :
    (o.isSymbolic = false → o.subs env values vs b = (o, .error .type) ∧
      o.simplify env = (o, .error .type)) ∧
    (∀ s, o.expr = .str s → (o.subs env values vs b).2 = .error .attribute ∧
      (o.simplify env).2 = .error .attribute) ∧
    (∀ err, (o.subs env values vs b).2 = .error err → (o.subs env values vs b).1 = o) ∧
    (∀ err, (o.simplify env).2 = .error err → (o.simplify env).1 = o) := by
  refine ⟨fun h => ?_, fun s he => ?_, fun err h => ?_, fun err h => ?_⟩
  · unfold Fn.isSymbolic at h
    cases he : o.expr <;> simp only [he] at h <;> try cases h
    simp [Fn.subs, Fn.simplify, he]
  · simp [Fn.subs, Fn.simplify, he]
  · cases he : o.expr with
    | none => simp only [Fn.subs, he]
    | str s => simp only [Fn.subs, he]
    | call s => simp only [Fn.subs, he]
    | other s => simp only [Fn.subs, he]
    | expr e =>
      cases hs : env.substitute e values vs o.fromStr with
      | error err => simp only [Fn.subs, he, hs]
      | ok e' =>
        cases hr : env.symbolize (.expr e') vs (.other env.tt) with
        | error err => simp only [Fn.subs, he, hs, hr]
        | ok r =>
          cases b with
          | false => simp only [Fn.subs, he, hs, hr]; rfl
          | true =>
            simp only [Fn.subs, he, hs, hr] at h
            cases h
  · cases he : o.expr <;> simp only [Fn.simplify, he] at h ⊢
    cases h

/-- **C97, simplification.**  `simplify` changes nothing but the expression: the object evaluates what it
evaluated before. -/
theorem C97_simplify (env : Env S E C X) (o : Fn S E C X) :
    Evaluates (o.simplify env).1 o.f0 o.f1 o.f2 ∧ (o.simplify env).1.vars = o.vars ∧
      (o.simplify env).1.dimension = o.dimension ∧ (o.simplify env).1.isSymbolic = o.isSymbolic ∧
      ∀ e, o.expr = .expr e → (o.simplify env).1.expr = .expr (env.simplify e) := by
  have key : (o.simplify env).1.f0 = o.f0 ∧ (o.simplify env).1.f1 = o.f1 ∧ (o.simplify env).1.f2 = o.f2 ∧
      (o.simplify env).1.vars = o.vars ∧ (o.simplify env).1.dimension = o.dimension ∧
      (o.simplify env).1.isSymbolic = o.isSymbolic := by
    cases he : o.expr <;> simp [Fn.simplify, Fn.isSymbolic, he]
  obtain ⟨k0, k1, k2, k3, k4, k5⟩ := key
  refine ⟨?_, k3, k4, k5, fun e he => ?_⟩
  · have := evaluates_self (o.simplify env).1
    rwa [k0, k1, k2] at this
  · simp [Fn.simplify, he]

/-! ### Methods of subclasses -/

/-- **C97, methods.**  In a class hierarchy below `MetaFunction`, let `c` be the nearest class that defines
`value` or `f`.  If it defines `value` and was made by the metaclass, calling an object runs that method —
the same one that `obj.value` is.  Likewise for `gradient` and `Hessian`. -/
theorem C97_methods {M A R : Type} (app : C → A → Py R) (user : M → Fn S E C X → A → Py R)
    (pre post : List (Cls M)) (c : Cls M) (o : Fn S E C X) (args : A) (hc : c.ofMeta = true) (m : M) :
    ((∀ b ∈ pre, b.body .value = none ∧ b.body .f = none) → c.body .value = some (.user m) →
      invoke app user (pre ++ c :: post) o .f args = user m o args ∧
      invoke app user (pre ++ c :: post) o .value args = user m o args) ∧
    ((∀ b ∈ pre, b.body .gradient = none ∧ b.body .g = none) → c.body .gradient = some (.user m) →
      invoke app user (pre ++ c :: post) o .g args = user m o args ∧
      invoke app user (pre ++ c :: post) o .gradient args = user m o args) ∧
    ((∀ b ∈ pre, b.body .Hessian = none ∧ b.body .G = none) → c.body .Hessian = some (.user m) →
      invoke app user (pre ++ c :: post) o .G args = user m o args ∧
      invoke app user (pre ++ c :: post) o .Hessian args = user m o args) := by
  have look : ∀ (a : Attr) (x : Meth M), (∀ b ∈ pre, b.attrs a = none) → c.attrs a = some x →
      getattr (pre ++ c :: post) a = .ok x := by
    intro a x h hx
    induction pre with
    | nil => simp [getattr, hx]
    | cons b pre ih =>
      have := ih fun b hb => h b (List.mem_cons_of_mem _ hb)
      unfold getattr at this ⊢
      rw [List.cons_append, List.findSome?_cons, h b (List.mem_cons_self ..)]
      exact this
  have none_of : ∀ (b : Cls M), (b.body .value = none ∧ b.body .f = none →
        b.attrs .f = none ∧ b.attrs .value = none) ∧
      (b.body .gradient = none ∧ b.body .g = none → b.attrs .g = none ∧ b.attrs .gradient = none) ∧
      (b.body .Hessian = none ∧ b.body .G = none → b.attrs .G = none ∧ b.attrs .Hessian = none) := by
    intro b
    refine ⟨?_, ?_, ?_⟩ <;> rintro ⟨h1, h2⟩ <;> simp [Cls.attrs, h1, h2]
  refine ⟨fun h hv => ?_, fun h hv => ?_, fun h hv => ?_⟩
  · unfold invoke
    rw [look .f (.user m) (fun b hb => (((none_of b).1 (h b hb)).1)) (by simp [Cls.attrs, hc, hv]),
      look .value (.user m) (fun b hb => (((none_of b).1 (h b hb)).2)) (by simp [Cls.attrs, hc, hv])]
    exact ⟨rfl, rfl⟩
  · unfold invoke
    rw [look .g (.user m) (fun b hb => (((none_of b).2.1 (h b hb)).1)) (by simp [Cls.attrs, hc, hv]),
      look .gradient (.user m) (fun b hb => (((none_of b).2.1 (h b hb)).2)) (by simp [Cls.attrs, hc, hv])]
    exact ⟨rfl, rfl⟩
  · unfold invoke
    rw [look .G (.user m) (fun b hb => (((none_of b).2.2 (h b hb)).1)) (by simp [Cls.attrs, hc, hv]),
      look .Hessian (.user m) (fun b hb => (((none_of b).2.2 (h b hb)).2)) (by simp [Cls.attrs, hc, hv])]
    exact ⟨rfl, rfl⟩

/-- **C97, methods, violated.**  The method `value` does not decide in general.  (1) A mixin class that is
not below `MetaFunction` defines `value`: `obj.value(x)` runs it, `obj(x)` calls the stored function, here
`None`, and raises `TypeError`.  (2) A class that defines `f` below one that defines `value`: `obj(x)` and
`obj.value(x)` run different methods. -/
theorem C97_methods_violated :
    (∃ (mro : List (Cls ℕ)), ∀ (app : C → ℕ → Py ℕ) (user : ℕ → Fn S E C X → ℕ → Py ℕ) (x : ℕ),
      invoke app user (mro ++ [metaFunction ℕ]) Fn.blank .value x = user 7 Fn.blank x ∧
      invoke app user (mro ++ [metaFunction ℕ]) Fn.blank .f x = .error .type) ∧
    (∃ (mro : List (Cls ℕ)), (∀ c ∈ mro, c.ofMeta = true) ∧
      ∀ (app : C → ℕ → Py ℕ) (user : ℕ → Fn S E C X → ℕ → Py ℕ) (o : Fn S E C X) (x : ℕ),
      invoke app user (mro ++ [metaFunction ℕ]) o .value x = user 7 o x ∧
      invoke app user (mro ++ [metaFunction ℕ]) o .f x = user 8 o x) := by
  refine ⟨⟨[⟨fun a => if a = .value then some (.user 7) else none, false⟩], fun app user x => ⟨rfl, rfl⟩⟩,
    ⟨[⟨fun a => if a = .f then some (.user 8) else none, true⟩,
      ⟨fun a => if a = .value then some (.user 7) else none, true⟩], by simp, fun app user o x => ⟨rfl, rfl⟩⟩⟩

/-! ### Linearity of functions which are not symbolic -/

/-- **C97, linearity (partial).**  A function given by callables only calls itself linear exactly if it was
given no Hessian, neither by position nor by keyword.  Missing: that this has to do with the function, see
`C97_is_linear_violated`. -/
theorem C97_is_linear_partial (env : Env S E C X) (c : C) (f1 f2 vs : Obj S E C X) (kw : Kw S E C X)
    (h2 : ∀ x, (Key.Hessian, x) ∉ kw) :
    ∃ o, construct env ⟨.call c, f1, f2, vs, kw⟩ = .ok o ∧
      (o.isLinearNumerical = true ↔ f2 = .none) := by
  refine ⟨_, rfl, ?_⟩
  have no : kw.has .Hessian = false := by
    rw [Kw.has, List.any_eq_false]
    rintro ⟨k', v⟩ hp
    simp only [decide_eq_true_eq]
    rintro rfl
    exact h2 v hp
  simp only [Fn.isLinearNumerical, assign_eq, Kw.get_of_not_has no]
  cases f2 <;> simp

/-- At most linear: the claim of the documentation of `is_linear`. -/
def AtMostLinear (f : ℤ → ℤ) : Prop := ∃ a b, ∀ x, f x = a * x + b

/-- **C97, linearity, violated.**  The square without derivatives calls itself linear.  The identity with its
gradient 1 and its Hessian 0 does not. -/
theorem C97_is_linear_violated (env : Env S E (ℤ → ℤ) X) :
    (∃ o, construct env ⟨.call fun x => x * x, .none, .none, .none, []⟩ = .ok o ∧
      o.isSymbolic = false ∧ o.isLinearNumerical = true ∧ ¬ AtMostLinear fun x => x * x) ∧
    (∃ o, construct env ⟨.call fun x => x, .call fun _ => 1, .call fun _ => 0, .none, []⟩ = .ok o ∧
      o.isSymbolic = false ∧ o.isLinearNumerical = false ∧ AtMostLinear fun x => x) := by
  refine ⟨⟨_, rfl, rfl, rfl, ?_⟩, ⟨_, rfl, rfl, rfl, ⟨1, 0, fun x => by ring⟩⟩⟩
  rintro ⟨a, b, h⟩
  have h0 := h 0
  have h1 := h 1
  have h2 := h 2
  simp only at h0 h1 h2
  linarith

/-! ### Test functions -/

/-- A keyword argument that is neither of the two the loop looks at. -/
theorem testLoop_free {T P : Type} (asText : Obj S E C X → Option T) (asList : Obj S E C X → Option (List P))
    (kw rest : Kw S E C X) (h : ∀ p ∈ kw, p.1 ≠ .optText ∧ p.1 ≠ .optimums) (opts : List P) (t : T) :
    testLoop asText asList (kw ++ rest) opts t = testLoop asText asList rest opts t := by
  induction kw with
  | nil => rfl
  | cons p kw ih =>
    obtain ⟨k, v⟩ := p
    have hk := h (k, v) (List.mem_cons_self ..)
    rw [List.cons_append, testLoop, if_neg hk.1, if_neg hk.2]
    exact ih fun p hp => h p (List.mem_cons_of_mem _ hp)

/-- The keyword argument `optText` changes nothing in the function made. -/
theorem construct_optText (env : Env S E C X) (f0 f1 f2 vs v : Obj S E C X) (kw : Kw S E C X) :
    construct env ⟨f0, f1, f2, vs, kw ++ [(.optText, v)]⟩ = construct env ⟨f0, f1, f2, vs, kw⟩ := by
  have hg : ∀ (k : Key) (d : Obj S E C X), k ≠ .optText →
      Kw.get (kw ++ [(.optText, v)]) k d = Kw.get kw k d := by
    intro k d hk
    rw [Kw.get_append, Kw.get_cons, Kw.get_nil, if_neg (Ne.symm hk)]
  have hh : ∀ (k : Key), k ≠ .optText → Kw.has (kw ++ [(.optText, v)]) k = Kw.has kw k := by
    intro k hk
    rw [Kw.has_append, Kw.has_cons]
    simp [Kw.has, Ne.symm hk]
  have ha : getasany [.d, .dimension, .dim] (kw ++ [(.optText, v)]) = getasany [.d, .dimension, .dim] kw := by
    unfold getasany
    have : (List.find? (fun k => Kw.has (kw ++ [(Key.optText, v)]) k) [.d, .dimension, .dim]) =
        List.find? (fun k => Kw.has kw k) [.d, .dimension, .dim] := by
      simp only [List.find?_cons, List.find?_nil]
      rw [hh .d (by decide), hh .dimension (by decide), hh .dim (by decide)]
    rw [this]
    cases hf : List.find? (fun k => Kw.has kw k) [Key.d, .dimension, .dim] with
    | none => rfl
    | some k =>
      have hm := List.mem_of_find?_eq_some hf
      exact hg k _ (by rintro rfl; simp at hm)
  cases f0 with
  | str s =>
    simp only [construct, Fn.update, strToFunc, hh .strExpr (by decide), hg .simplify _ (by decide)]
    by_cases h : Kw.has kw .strExpr = true
    · simp only [h, if_true]
    · rw [if_neg h]
      cases env.symbolize (.text s) vs (Kw.get kw .simplify (.other env.tt)) with
      | error e => rfl
      | ok r => simp only [assign_update, hg .domain _ (by decide), hg .vmap _ (by decide)]
  | expr e =>
    simp only [construct, Fn.update, sympyToFunc, hh .expr (by decide), hg .strExpr _ (by decide),
      hg .simplify _ (by decide)]
    by_cases h : Kw.has kw .expr = true
    · simp only [h, if_true]
    · rw [if_neg h]
      cases Kw.get kw .strExpr .none with
      | none =>
        cases hs : env.symbolize (.expr e) vs (Kw.get kw .simplify (.other env.tt)) with
        | error e => simp only [hs]
        | ok r => simp only [hs, assign_update, hg .domain _ (by decide), hg .vmap _ (by decide)]
      | str s =>
        cases hs : env.symbolize (.text s) vs (Kw.get kw .simplify (.other env.tt)) with
        | error e => simp only [hs]
        | ok r => simp only [hs, assign_update, hg .domain _ (by decide), hg .vmap _ (by decide)]
      | _ => rfl
  | _ =>
    simp only [construct, Fn.update, assign_eq, hg .value _ (by decide), hg .gradient _ (by decide),
      hg .Hessian _ (by decide), ha, hg .domain _ (by decide), hg .vmap _ (by decide),
      hg .expr _ (by decide), hg .vars _ (by decide)]

/-- **C97, optima.**  A function to be minimised or maximised (`TestMinFunction`, `TestMaxFunction`) is the
function given, keeps all the optima given, wherever among the keyword arguments they stand, and has the text
of its class. -/
theorem C97_optimums {T P : Type} (env : Env S E C X) (asText : Obj S E C X → Option T)
    (asList : Obj S E C X → Option (List P)) (opt t : T) (text v : Obj S E C X) (l : List P)
    (f0 f1 f2 vs : Obj S E C X) (kw kw' : Kw S E C X) (o : Fn S E C X)
    (hd : ∀ p ∈ kw ++ kw', p.1 ≠ .optText ∧ p.1 ≠ .optimums)
    (ht : asText text = some t) (hl : asList v = some l)
    (ho : construct env ⟨f0, f1, f2, vs, kw ++ (.optimums, v) :: kw'⟩ = .ok o) :
    testMinMax env asText asList opt text ⟨f0, f1, f2, vs, kw ++ (.optimums, v) :: kw'⟩ = .ok (o, l, t) := by
  have h1 : Kw.has (kw ++ (.optimums, v) :: kw') .optText = false := by
    rw [Kw.has, List.any_eq_false]
    rintro p hp
    simp only [decide_eq_true_eq]
    rcases List.mem_append.1 hp with hp | hp
    · exact (hd p (List.mem_append_left _ hp)).1
    · rcases List.mem_cons.1 hp with rfl | hp
      · simp
      · exact (hd p (List.mem_append_right _ hp)).1
  unfold testMinMax
  simp only [h1, Bool.false_eq_true, if_false]
  unfold testFunction
  rw [construct_optText, ho]
  simp only [List.append_assoc, List.cons_append]
  rw [testLoop_free _ _ _ _ fun p hp => hd p (List.mem_append_left _ hp), testLoop, if_neg (by decide),
    if_pos rfl, hl]
  simp only [List.nil_append]
  rw [testLoop_free _ _ _ _ fun p hp => hd p (List.mem_append_right _ hp), testLoop, if_pos rfl, ht]

/-- **C97, optima.**  The text of these classes cannot be replaced: giving it again is a `TypeError`, whatever else is given. -/
theorem C97_text_twice {T P : Type} (env : Env S E C X) (asText : Obj S E C X → Option T)
    (asList : Obj S E C X → Option (List P)) (opt : T) (text v : Obj S E C X) (a : Args S E C X)
    (h : (Key.optText, v) ∈ a.kw) : testMinMax env asText asList opt text a = .error .type := by
  have h1 : a.kw.has .optText = true := by
    rw [Kw.has, List.any_eq_true]
    exact ⟨_, h, by simp⟩
  unfold testMinMax
  rw [if_pos h1]

/-- **C97, optima.**  Optima that are no list, and a text that is no text, are refused with an `AssertionError`; the function itself
has to be acceptable. -/
theorem C97_optimums_refused {T P : Type} (env : Env S E C X) (asText : Obj S E C X → Option T)
    (asList : Obj S E C X → Option (List P)) (opt : T) (v : Obj S E C X) (f0 f1 f2 vs : Obj S E C X) (kw kw' : Kw S E C X)
    (o : Fn S E C X) (hd : ∀ p ∈ kw, p.1 ≠ .optText ∧ p.1 ≠ .optimums) :
    (asList v = none → construct env ⟨f0, f1, f2, vs, kw ++ (.optimums, v) :: kw'⟩ = .ok o →
      testFunction env asText asList opt ⟨f0, f1, f2, vs, kw ++ (.optimums, v) :: kw'⟩ = .error .assertion) ∧
    (asText v = none → construct env ⟨f0, f1, f2, vs, kw ++ (.optText, v) :: kw'⟩ = .ok o →
      testFunction env asText asList opt ⟨f0, f1, f2, vs, kw ++ (.optText, v) :: kw'⟩ = .error .assertion) := by
  constructor
  · intro hv ho
    unfold testFunction
    rw [ho]
    simp only
    rw [testLoop_free _ _ _ _ hd, testLoop, if_neg (by decide), if_pos rfl, hv]
  · intro hv ho
    unfold testFunction
    rw [ho]
    simp only
    rw [testLoop_free _ _ _ _ hd, testLoop, if_pos rfl, hv]

/-- **C97, optima (partial).**  `TestFunction` itself keeps the optima given before its text.  Missing: those
given after it, see `C97_optimums_violated`. -/
theorem C97_test_function_partial {T P : Type} (env : Env S E C X) (asText : Obj S E C X → Option T)
    (asList : Obj S E C X → Option (List P)) (opt t : T) (text v : Obj S E C X) (l : List P)
    (f0 f1 f2 vs : Obj S E C X) (kw₁ kw₂ kw₃ : Kw S E C X) (o : Fn S E C X)
    (hd : ∀ p ∈ kw₁ ++ kw₂, p.1 ≠ .optText ∧ p.1 ≠ .optimums)
    (ht : asText text = some t) (hl : asList v = some l)
    (ho : construct env ⟨f0, f1, f2, vs, kw₁ ++ (.optimums, v) :: (kw₂ ++ (.optText, text) :: kw₃)⟩ = .ok o) :
    testFunction env asText asList opt
      ⟨f0, f1, f2, vs, kw₁ ++ (.optimums, v) :: (kw₂ ++ (.optText, text) :: kw₃)⟩ = .ok (o, l, t) := by
  unfold testFunction
  rw [ho]
  simp only
  rw [testLoop_free _ _ _ _ fun p hp => hd p (List.mem_append_left _ hp), testLoop, if_neg (by decide),
    if_pos rfl, hl]
  simp only [List.nil_append]
  rw [testLoop_free _ _ _ _ fun p hp => hd p (List.mem_append_right _ hp), testLoop, if_pos rfl, ht]

/-- **C97, optima, violated.**  `TestFunction(f, optText="t", optimums=[…])` has no optima, though the same
keyword arguments in the other order keep them. -/
theorem C97_optimums_violated {T P : Type} (env : Env S E C X) (asText : Obj S E C X → Option T)
    (asList : Obj S E C X → Option (List P)) (opt t : T) (text v : Obj S E C X) (l : List P) (c : C)
    (ht : asText text = some t) (hl : asList v = some l) :
    ∃ o, testFunction env asText asList opt ⟨.call c, .none, .none, .none,
        [(.optText, text), (.optimums, v)]⟩ = .ok (o, [], t) ∧
      testFunction env asText asList opt ⟨.call c, .none, .none, .none,
        [(.optimums, v), (.optText, text)]⟩ = .ok (o, l, t) := by
  refine ⟨⟨.call c, .none, .none, .none, .none, .none, .none, .none, false⟩, ?_, ?_⟩
  · simp [testFunction, testLoop, ht, construct, Fn.update, assign_eq, Kw.get, getasany, Kw.has, Fn.blank]
  · simp [testFunction, testLoop, ht, hl, construct, Fn.update, assign_eq, Kw.get, getasany, Kw.has, Fn.blank]

/-! ### Cases -/

/-- A small world: the expressions are `a·x + b`, a text is a number `n` read as `n·x` (the text 0 is not
readable), the callables are polynomials of first degree, and substitution puts the first value in, by
name or by symbol. -/
def exEnv : Env ℕ (ℤ × ℤ) (ℤ × ℤ) ℤ where
  symbolize := fun src _ _ => match src with
    | .text 0 => .error .value
    | .text n => .ok ⟨(n, 0), (0, n), (0, 0), 1, .other 5, (n, 0)⟩
    | .expr (a, b) => .ok ⟨(a, b), (0, a), (0, 0), 1, .other 5, (a, b)⟩
  substitute := fun e values _ asString => match values with
    | [] => .error .value
    | v :: _ => .ok (0, if asString then e.1 * v + e.2 else e.2)
  simplify := id
  tt := 1

/-- Calling the callables. -/
def exApp (c : ℤ × ℤ) (x : ℤ) : Py ℤ := .ok (c.1 * x + c.2)

/-- **C97, failing update, violated.**  A function made from a text remembers that it was; an `update` that
raises makes it forget, and a later substitution by names has another result. -/
theorem C97_failed_update_violated :
    ∃ (o : Fn ℕ (ℤ × ℤ) (ℤ × ℤ) ℤ) (a : Args ℕ (ℤ × ℤ) (ℤ × ℤ) ℤ),
      construct exEnv ⟨.str 3, .none, .none, .none, []⟩ = .ok o ∧
      (o.update exEnv a).2 = .error .value ∧
      ((o.subs exEnv [2] .none false).2.toOption.map Fn.expr) = some (.expr (0, 6)) ∧
      (((o.update exEnv a).1.subs exEnv [2] .none false).2.toOption.map Fn.expr) = some (.expr (0, 0)) := by
  refine ⟨_, ⟨.str 0, .none, .none, .none, []⟩, rfl, rfl, rfl, rfl⟩

-- a text with a user gradient that is overruled, and with keyword arguments
example : ∃ o, construct exEnv ⟨.str 3, .call (9, 9), .none, .none, [(.value, .call (8, 8)), (.d, .other 4)]⟩ = .ok o ∧
    invoke exApp (fun (m : ℕ) _ _ => .ok (m : ℤ)) [metaFunction ℕ] o .f 2 = .ok 6 ∧
    invoke exApp (fun (m : ℕ) _ _ => .ok (m : ℤ)) [metaFunction ℕ] o .g 2 = .ok 3 ∧
    o.dimension = .other 1 := ⟨_, rfl, rfl, rfl, rfl⟩

example := C97_text exEnv 3 (.call (9, 9)) .none .none [(.value, .call (8, 8)), (.d, .other 4)] _
  (by simp) rfl

example := C97_expression exEnv (2, 1) (.call (9, 9)) .none .none [(.value, .call (8, 8))] _
  (by simp) (by simp) rfl

-- callables, the gradient by position and by keyword
example : ∃ o, construct exEnv ⟨.call (1, 2), .call (3, 4), .none, .none, [(.gradient, .call (5, 6))]⟩ = .ok o ∧
    invoke exApp (fun (m : ℕ) _ _ => .ok (m : ℤ)) [metaFunction ℕ] o .f 1 = .ok 3 ∧
    invoke exApp (fun (m : ℕ) _ _ => .ok (m : ℤ)) [metaFunction ℕ] o .g 1 = .ok 11 ∧
    invoke exApp (fun (m : ℕ) _ _ => .ok (m : ℤ)) [metaFunction ℕ] o .G 1 = .error .type :=
  ⟨_, rfl, rfl, rfl, rfl⟩

example := C97_callables exEnv (.call (1, 2)) (.call (3, 4)) .none .none [(.gradient, .call (5, 6))]
  (by simp) (by simp)

example := C97_keywords exEnv (1, 2) (.call (3, 4)) .none .none [(.d, .other 4)] (by simp) (by simp) (by simp)

-- substitution
example := C97_subs exEnv ⟨.call (3, 0), .call (0, 3), .call (0, 0), .other 1, .none, .none, .expr (3, 0), .none, true⟩
  [2] .none (3, 0) (0, 6) _ rfl rfl rfl

-- a subclass of a class with a method `value`
example := (C97_methods exApp (fun (m : ℕ) _ _ => .ok (m : ℤ))
  [⟨fun _ => none, true⟩] [metaFunction ℕ] ⟨fun a => if a = .value then some (.user 7) else none, true⟩
  (Fn.blank : Fn ℕ (ℤ × ℤ) (ℤ × ℤ) ℤ) 1 rfl 7).1 (by simp) rfl

-- a test function
example := C97_optimums exEnv (fun o => match o with | .str s => some s | _ => none)
  (fun o => match o with | .other x => some [x, x + 1] | _ => none) 0 4 (.str 4) (.other 10) [10, 11]
  (.call (1, 2)) .none .none .none [(.d, .other 4)] [(.dim, .other 4)] _ (by simp) rfl rfl rfl

end Verif.FnObj.Props
