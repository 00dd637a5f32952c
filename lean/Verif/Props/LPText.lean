import Verif.Proofs.LPText

/-!
# C136: a linear programming problem given as text is solved as it is written

`LinText` (texts of linear functions with their values) and `Simplifies` (what is asked of `simplify()`) are at the top of
`Proofs/LPText.lean`.
-/

set_option linter.unusedSectionVars false

namespace Verif.LPText.Props
open Verif Verif.Sym Verif.LP Verif.LP.Props Verif.LPSolve Verif.LPSolve.Props
open Verif.Rel.Props (Holds)
open Verif.Rel (Relations Cls OpArg Attrs)

section
variable {K O : Type} [Field K] [LinearOrder K] [IsStrictOrderedRing K]

/-! ### Vocabulary -/

/-- The class fits the operator: `Relation` fits all, `Equality` fits `=`, `InEquality` the others. -/
def Fits (cls : Cls) (o : Relations) : Prop :=
  cls = .relation ∨ (if o = .eq then cls = .equality else cls = .inequality)

/-- The variables given with a text: those of the problem in any order; or none, if the value of the text depends on each of
them. -/
def Given (vs vars : List (List Char)) (w : (List Char → K) → K) : Prop :=
  vs.Perm vars ∨ vs = [] ∧ ∀ x ∈ vars, ∃ ρ σ : List Char → K, (∀ y, y ≠ x → ρ y = σ y) ∧ w ρ ≠ w σ

/-- What the arguments of a constraint say: an operator between two functions.  The operator is in the text, or it is given
apart and the text is compared with zero. -/
inductive Says (vars : List (List Char)) :
    ConText K → Relations → ((List Char → K) → K) → ((List Char → K) → K) → Prop
  | inside {cls l r o u v vs} : LinText vars .sum false l u → LinText vars .sum false r v → Fits cls o →
      Given vs vars (fun ρ => u ρ - v ρ) → Says vars ⟨cls, l ++ o.value ++ r, .absent, vs⟩ o u v
  | symbol {cls s o u vs} : LinText vars .sum false s u → Fits cls o → Given vs vars u →
      Says vars ⟨cls, s, .str o.value, vs⟩ o u fun _ => 0
  | member {cls s o u vs} : LinText vars .sum false s u → Fits cls o → Given vs vars u →
      Says vars ⟨cls, s, .member o, vs⟩ o u fun _ => 0
  | equation {cls s u vs} : LinText vars .sum false s u → Fits cls .eq → Given vs vars u →
      Says vars ⟨cls, s, .absent, vs⟩ .eq u fun _ => 0

/-- A constraint with what it says. -/
structure Meaning (K : Type) where
  op : Relations
  lhs : (List Char → K) → K
  rhs : (List Char → K) → K

/-- The values of the variables satisfy what is written: the constraints, the bounds and the restriction to whole numbers,
given as `integrality` or by the assumptions of the symbols. -/
def Satisfies (isInteger : List Char → Option Bool) (vars : List (List Char)) (ms : List (Meaning K)) (bounds : Bounds K)
    (integrality : Option Integ) (ρ : List Char → K) : Prop :=
  (∀ m ∈ ms, Holds m.op (m.lhs ρ) (m.rhs ρ)) ∧
  ∀ (j : ℕ) (x : List Char), vars[j]? = some x →
    Allowed (match integrality with
      | some i => codeAt (some (.inl i)) j
      | none => if isInteger x = some true then 1 else 0) (pairAt bounds j) (ρ x)

/-! ### Lemmas -/

theorem func_eval (f : Func (List Char) K) (ρ : List Char → K) : f.eval ρ = sumVal f.terms ρ := rfl

theorem function_ok (simp : Simplify K) (hs : Simplifies simp) {vars vs : List (List Char)} (hnd : vars.Nodup)
    (hv : vars ≠ []) {s : List Char} {e : Expr Decimal} {v : (List Char → K) → K} (hp : Given vs vars v)
    (he : parseExpr s = some e) (hlin : LinExpr e) (hn : ∀ x ∈ freeSymbols e, x ∈ vars)
    (hval : ∀ ρ, eval Decimal.val ρ e = some (v ρ)) :
    ∃ f, function simp vs s = .ok f ∧ Linear vars f ∧ (vs = vars → f.vars = vars) ∧ ∀ ρ, f.eval ρ = v ρ := by
  have hp' : (if vs = [] then (freeSymbols e).dedup else vs).Perm vars := by
    rcases hp with hp | ⟨rfl, hp⟩
    · have hne : vs ≠ [] := fun h => hv (by subst h; exact hp.symm.eq_nil)
      rwa [if_neg hne]
    · rw [if_pos rfl, List.perm_ext_iff_of_nodup (List.nodup_dedup _) hnd]
      intro x
      rw [List.mem_dedup]
      refine ⟨hn x, fun hx => ?_⟩
      by_contra hno
      obtain ⟨ρ, σ, h1, h2⟩ := hp x hx
      refine h2 ?_
      have := eval_congr Decimal.val (ρ := ρ) (σ := σ) e fun y hy => h1 y fun hyx => hno (hyx ▸ hy)
      rw [hval, hval] at this
      exact Option.some.inj this
  refine ⟨⟨if vs = [] then (freeSymbols e).dedup else vs, simp e⟩, ?_, ⟨hs.linear e hlin, ?_, hp'⟩, ?_,
    fun ρ => hs.value e hlin ρ _ (hval ρ)⟩
  · simp only [function, he]
  · intro t ht x hx
    exact hp'.symm.subset (hn x (hs.names e hlin t ht x hx))
  · rintro rfl
    exact if_neg hv

theorem ofValue_value (o : Relations) : Relations.ofValue o.value = .ok o := by
  cases o <;> decide

theorem construct_inside {cls : Cls} {s l r : List Char} {o : Relations} (hc : Fits cls o)
    (hop : Rel.hasOperator s = true) (hp : Rel.parseExpression s = .ok (l, o, r)) :
    ∃ a : Attrs K, Rel.construct cls (.text s) .absent none = .ok a ∧ a.op = some o ∧ a.opfunc = o.toOpfunc ∧
      a.text = some (l ++ [' ', '-', ' '] ++ (['('] ++ r ++ [')'])) := by
  refine ⟨⟨if cls = .relation then (if o = .eq then .equality else .inequality) else cls, some o, o.toOpfunc,
    some (l ++ [' ', '-', ' '] ++ (['('] ++ r ++ [')']))⟩, ?_, rfl, rfl, rfl⟩
  unfold Rel.construct Rel.newCls Rel.newOp Rel.initAttrs Rel.hasOpInInput
  simp only [hop, hp, if_true, Except.map]
  unfold Fits at hc
  cases o <;> cases cls <;> simp [bind, Except.bind, pure, Except.pure, Rel.assertOp] at hc ⊢

theorem construct_symbol {cls : Cls} {s : List Char} {o : Relations} (hc : Fits cls o) :
    ∃ a : Attrs K, Rel.construct cls (.text s) (.str o.value) none = .ok a ∧ a.op = some o ∧
      a.opfunc = o.toOpfunc ∧ a.text = some s := by
  refine ⟨⟨if cls = .relation then (if o = .eq then .equality else .inequality) else cls, some o, o.toOpfunc,
    some s⟩, ?_, rfl, rfl, rfl⟩
  unfold Rel.construct Rel.newCls Rel.newOp Rel.initAttrs
  simp only [ofValue_value, Except.map]
  unfold Fits at hc
  cases o <;> cases cls <;> simp [bind, Except.bind, pure, Except.pure, Rel.assertOp] at hc ⊢

theorem construct_member {cls : Cls} {s : List Char} {o : Relations} (hc : Fits cls o) :
    ∃ a : Attrs K, Rel.construct cls (.text s) (.member o) none = .ok a ∧ a.op = some o ∧
      a.opfunc = o.toOpfunc ∧ a.text = some s := by
  refine ⟨⟨if cls = .relation then (if o = .eq then .equality else .inequality) else cls, some o, o.toOpfunc,
    some s⟩, ?_, rfl, rfl, rfl⟩
  unfold Rel.construct Rel.newCls Rel.newOp Rel.initAttrs
  unfold Fits at hc
  cases o <;> cases cls <;> simp [bind, Except.bind, pure, Except.pure, Rel.assertOp] at hc ⊢

theorem construct_equation {cls : Cls} {s : List Char} (hc : Fits cls .eq) (hop : Rel.hasOperator s = false) :
    ∃ a : Attrs K, Rel.construct cls (.text s) .absent none = .ok a ∧ a.op = some .eq ∧
      a.opfunc = Relations.eq.toOpfunc ∧ a.text = some s := by
  refine ⟨⟨if cls = .relation then .equality else cls, some .eq, Relations.eq.toOpfunc, some s⟩, ?_, rfl, rfl, rfl⟩
  unfold Rel.construct Rel.newCls Rel.newOp Rel.initAttrs Rel.hasOpInInput
  unfold Fits at hc
  simp only [hop]
  cases cls <;> simp [bind, Except.bind, pure, Except.pure, Rel.assertOp] at hc ⊢

theorem constraint_ok (simp : Simplify K) (hs : Simplifies simp) {vars : List (List Char)} (hnd : vars.Nodup) (hv : vars ≠ [])
    {c : ConText K} {o : Relations} {u v : (List Char → K) → K} (h : Says vars c o u v) :
    ∃ k, constraint simp c = .ok k ∧ k.symbolic = true ∧ Linear vars k.fn ∧ BuiltWithoutCallable k.rel ∧
      k.rel.op = some o ∧ ∀ ρ, k.rel.relateValue (k.fn.eval ρ) = true ↔ Holds o (u ρ) (v ρ) := by
  have fin : ∀ {a : Attrs K} {t : List Char} {e : Expr Decimal} {w : (List Char → K) → K},
      Rel.construct c.cls (.text c.text) c.op none = .ok a → (∀ f, c.op ≠ .callable f) → a.op = some o →
      a.opfunc = o.toOpfunc → a.text = some t → Given c.vars vars w → parseExpr t = some e → LinExpr e →
      (∀ x ∈ freeSymbols e, x ∈ vars) → (∀ ρ, eval Decimal.val ρ e = some (w ρ)) →
      (∀ ρ, o.toOpfunc (w ρ) 0 = true ↔ Holds o (u ρ) (v ρ)) →
      ∃ k, constraint simp c = .ok k ∧ k.symbolic = true ∧ Linear vars k.fn ∧ BuiltWithoutCallable k.rel ∧
        k.rel.op = some o ∧ ∀ ρ, k.rel.relateValue (k.fn.eval ρ) = true ↔ Holds o (u ρ) (v ρ) := by
    intro a t e w h1 h2 h3 h4 h5 h6 h7 h8 h9 h10 h11
    obtain ⟨f, f1, f2, -, f4⟩ := function_ok simp hs hnd hv h6 h7 h8 h9 h10
    refine ⟨⟨a, f, true⟩, ?_, rfl, f2, ⟨_, _, _, _, h2, h1⟩, h3, fun ρ => ?_⟩
    · unfold constraint
      rw [h1]
      simp only [bind, Except.bind, h5, f1]
      rfl
    · show a.opfunc (f.eval ρ) 0 = true ↔ _
      rw [h4, f4]
      exact h11 ρ
  have zero : ∀ (ρ : List Char → K), (o.toOpfunc (u ρ) 0 = true ↔ Holds o (u ρ) 0) := fun ρ => by
    have := Rel.Props.toOpfunc_sub o (u ρ) 0
    rwa [sub_zero] at this
  cases h with
  | @inside cls l r _ _ _ vs hl hr hc hp =>
    have pl := Rel.Props.denotes_plain (lin_denotes hl)
    have pr := Rel.Props.denotes_plain (lin_denotes hr)
    obtain ⟨a, a1, a2, a3, a4⟩ := lin_expr hl
    obtain ⟨b, b1, b2, b3, b4⟩ := lin_expr hr
    obtain ⟨A, A1, A2, A3, A4⟩ := construct_inside (K := K) hc (Rel.Props.hasOperator_mid l r o)
      (Rel.Props.C20_split l r o pl.1 pr.1 pl.2 pr.2)
    refine fin (w := fun ρ => u ρ - v ρ) A1 (by simp) A2 A3 A4 hp
      (parseExpr_glue (Rel.Props.parseExpr_strip (lin_denotes hl) a1)
        (Rel.Props.parseExpr_strip (lin_denotes hr) b1)) ⟨a2, b2⟩ ?_ (fun ρ => ?_)
      (fun ρ => Rel.Props.toOpfunc_sub o _ _)
    · intro x hx
      exact (List.mem_append.1 hx).elim (a3 x) (b3 x)
    · simp only [eval, a4, b4]; rfl
  | symbol hl hc hp =>
    obtain ⟨a, a1, a2, a3, a4⟩ := lin_expr hl
    obtain ⟨A, A1, A2, A3, A4⟩ := construct_symbol (K := K) hc
    exact fin A1 (by simp) A2 A3 A4 hp a1 a2 a3 a4 zero
  | member hl hc hp =>
    obtain ⟨a, a1, a2, a3, a4⟩ := lin_expr hl
    obtain ⟨A, A1, A2, A3, A4⟩ := construct_member (K := K) hc
    exact fin A1 (by simp) A2 A3 A4 hp a1 a2 a3 a4 zero
  | @equation cls s _ vs hl hc hp =>
    obtain ⟨a, a1, a2, a3, a4⟩ := lin_expr hl
    have pl := (Rel.Props.denotes_chars (lin_denotes hl)).1
    have hop : Rel.hasOperator s = false := by
      rw [Bool.eq_false_iff]
      intro h
      rw [Rel.hasOperator_iff] at h
      obtain ⟨c, hc, ho⟩ := h
      have := pl c hc
      have hc : c = '<' ∨ c = '>' ∨ c = '=' := by
        by_contra hno
        simp only [not_or] at hno
        rw [Rel.Props.isOpChar_eq_false.2 hno] at ho
        cases ho
      rcases hc with rfl | rfl | rfl <;> revert this <;> decide
    obtain ⟨A, A1, A2, A3, A4⟩ := construct_equation (K := K) hc hop
    exact fin A1 (by simp) A2 A3 A4 hp a1 a2 a3 a4 zero

theorem says_congr {vars : List (List Char)} {c : ConText K} {o : Relations} {u v : (List Char → K) → K}
    (h : Says vars c o u v) (ρ σ : List Char → K) (hρ : ∀ x ∈ vars, ρ x = σ x) : u ρ = u σ ∧ v ρ = v σ := by
  cases h with
  | inside hl hr _ _ => exact ⟨lin_congr hl ρ σ hρ, lin_congr hr ρ σ hρ⟩
  | symbol hl _ _ => exact ⟨lin_congr hl ρ σ hρ, rfl⟩
  | member hl _ _ => exact ⟨lin_congr hl ρ σ hρ, rfl⟩
  | equation hl _ _ => exact ⟨lin_congr hl ρ σ hρ, rfl⟩

theorem constraints_ok (simp : Simplify K) (hs : Simplifies simp) {vars : List (List Char)} (hnd : vars.Nodup) (hv : vars ≠ [])
    {cs : List (ConText K)} {ms : List (Meaning K)}
    (h : List.Forall₂ (fun c m => Says vars c m.op m.lhs m.rhs) cs ms)
    (hst : ∀ m ∈ ms, m.op ≠ .lt ∧ m.op ≠ .gt) :
    ∃ ks, pyMap (constraint simp) cs = .ok ks ∧
      (∀ k ∈ ks, k.symbolic = true ∧ Linear vars k.fn ∧ BuiltWithoutCallable k.rel ∧ k.rel.op ≠ some .lt ∧
        k.rel.op ≠ some .gt) ∧
      (∀ ρ, (∀ k ∈ ks, k.rel.relateValue (k.fn.eval ρ) = true) ↔ ∀ m ∈ ms, Holds m.op (m.lhs ρ) (m.rhs ρ)) ∧
      ∀ ρ σ : List Char → K, (∀ x ∈ vars, ρ x = σ x) → ∀ m ∈ ms, m.lhs ρ = m.lhs σ ∧ m.rhs ρ = m.rhs σ := by
  induction h with
  | nil => exact ⟨[], rfl, by simp, by simp, by simp⟩
  | @cons c m cs ms hc _ ih =>
    obtain ⟨ks, h1, h2, h3, h4⟩ := ih fun m hm => hst m (List.mem_cons_of_mem _ hm)
    obtain ⟨k, k1, k2, k3, k4, k5, k6⟩ := constraint_ok simp hs hnd hv hc
    have hm := hst m List.mem_cons_self
    refine ⟨k :: ks, ?_, ?_, fun ρ => ?_, fun ρ σ hρ => ?_⟩
    · rw [pyMap, k1, h1]; rfl
    · intro q hq
      rcases List.mem_cons.1 hq with rfl | hq
      · refine ⟨k2, k3, k4, ?_, ?_⟩ <;> rw [k5] <;> simp [hm.1, hm.2]
      · exact h2 q hq
    · rw [List.forall_mem_cons, List.forall_mem_cons, k6 ρ, h3 ρ]
    · rw [List.forall_mem_cons]
      exact ⟨says_congr hc ρ σ hρ, h4 ρ σ hρ⟩

theorem pyMap_good {α β : Type} (f : α → Py β) (g : α → β) (l : List α) (h : ∀ a ∈ l, f a = .ok (g a)) :
    pyMap f l = .ok (l.map g) := by
  induction l with
  | nil => rfl
  | cons a l ih =>
    rw [pyMap, h a List.mem_cons_self, ih fun a ha => h a (List.mem_cons_of_mem _ ha)]
    rfl

theorem problem_ok (simp : Simplify K) (hs : Simplifies simp) {vars objVars : List (List Char)} (hn : vars.Nodup)
    (hv : vars ≠ []) {s : List Char} {v : (List Char → K) → K} (ho : Given objVars vars v)
    (hobj : LinText vars .sum false s v) {cs : List (ConText K)} {ms : List (Meaning K)}
    (h : List.Forall₂ (fun c m => Says vars c m.op m.lhs m.rhs) cs ms)
    (hst : ∀ m ∈ ms, m.op ≠ .lt ∧ m.op ≠ .gt) (bounds : Bounds K) (integrality : Option Integ) (sparsify : Bool) :
    ∃ p, problem simp s objVars cs vars bounds integrality sparsify = .ok p ∧ Regular p ∧ p.vars = vars ∧
      (objVars = vars → p.obj.vars = vars) ∧ (∀ ρ, p.obj.eval ρ = v ρ) ∧
      (∀ (isInteger : List Char → Option Bool) (xs : List K), Stated isInteger p xs ↔
        xs.length = vars.length ∧ Satisfies isInteger vars ms bounds integrality (point vars xs)) ∧
      ∀ ρ σ : List Char → K, (∀ x ∈ vars, ρ x = σ x) → v ρ = v σ ∧
        ∀ isInteger, Satisfies isInteger vars ms bounds integrality ρ →
          Satisfies isInteger vars ms bounds integrality σ := by
  obtain ⟨e, e1, e2, e3, e4⟩ := lin_expr hobj
  obtain ⟨f, f1, f2, f3, f4⟩ := function_ok simp hs hn hv ho e1 e2 e3 e4
  obtain ⟨ks, k1, k2, k3, k4⟩ := constraints_ok simp hs hn hv h hst
  refine ⟨⟨f, ks, vars, bounds, integrality, sparsify⟩, ?_, ⟨hn, f2, fun k hk => (k2 k hk).2.1,
    fun k hk => (k2 k hk).2.2.1, fun k hk => (k2 k hk).2.2.2⟩, rfl, f3, f4, ?_, ?_⟩
  · unfold problem LP.init
    rw [f1, k1]
    simp only [bind, Except.bind]
    rw [pyMap_good _ (fun c : Arg (Constraint (List Char) K) => match c with
        | .good c => c
        | .bad => ⟨⟨.relation, none, fun _ _ => true, none⟩, f, true⟩),
      pyMap_good _ (fun c : Arg (List Char) => match c with
        | .good c => c
        | .bad => [])]
    · simp only [List.map_map, Function.comp_def, List.map_id']
      rw [if_neg]
      · rfl
      · rw [not_not, List.all_eq_true]
        intro x hx
        simp only [decide_eq_true_eq, List.mem_append]
        exact .inl (f2.2.2.symm.subset hx)
    · intro a ha
      obtain ⟨x, -, rfl⟩ := List.mem_map.1 ha
      rfl
    · intro a ha
      obtain ⟨k, hk, rfl⟩ := List.mem_map.1 ha
      simp only [(k2 k hk).1, if_true]
  · intro isInteger xs
    unfold Stated Satisfies Fulfilled
    constructor
    · rintro ⟨h1, h2, h3⟩
      refine ⟨h1, (k3 _).1 h2, fun j x hx => ?_⟩
      have hj : j < xs.length := by
        rw [h1]; exact (List.getElem?_eq_some_iff.1 hx).1
      have := h3 j xs[j] x (List.getElem?_eq_getElem hj) hx
      have e : point vars xs x = xs[j] := by
        have hm := congrArg (fun l => l[j]?) (map_point hn h1)
        simp only [List.getElem?_map, hx, Option.map_some, List.getElem?_eq_getElem hj] at hm
        exact Option.some.inj hm
      rw [e]
      exact this
    · rintro ⟨h1, h2, h3⟩
      refine ⟨h1, (k3 _).2 h2, fun j y x hy hx => ?_⟩
      have := h3 j x hx
      have e : point vars xs x = y := by
        have hm := congrArg (fun l => l[j]?) (map_point hn h1)
        simp only [List.getElem?_map, hx, Option.map_some, hy] at hm
        exact Option.some.inj hm
      rw [e] at this
      exact this
  · intro ρ σ hρ
    refine ⟨lin_congr hobj ρ σ hρ, fun isInteger hsat => ⟨fun m hm => ?_, fun j x hx => ?_⟩⟩
    · obtain ⟨a, b⟩ := k4 ρ σ hρ m hm
      rw [← a, ← b]
      exact hsat.1 m hm
    · rw [← hρ x (List.mem_of_getElem? hx)]
      exact hsat.2 j x hx

theorem point_map (vars : List (List Char)) (ρ : List Char → K) : ∀ x ∈ vars, ρ x = point vars (vars.map ρ) x := by
  intro x hx
  unfold point
  induction vars with
  | nil => cases hx
  | cons y vars ih =>
    rw [List.map_cons, List.zip_cons_cons, List.find?_cons]
    by_cases h : y = x
    · simp [h]
    · simp only [h, decide_false]
      exact ih ((List.mem_cons.1 hx).resolve_left fun h' => h h'.symm)

/-! ### The property -/

/-- C136: a problem whose objective and constraints are texts of linear functions is accepted, and if `solve` reports a
success, then the values it returns satisfy every constraint as it is written, the bounds and the restriction to whole
numbers, no other values that do so are better, and the reported value is that of the text of the objective. -/
theorem C136_solved_partial (simp : Simplify K) (hs : Simplifies simp) (vars objVars : List (List Char)) (hn : vars.Nodup)
    (hv : vars ≠ []) (s : List Char) (v : (List Char → K) → K) (ho : Given objVars vars v)
    (hobj : LinText vars .sum false s v) (cs : List (ConText K)) (ms : List (Meaning K))
    (h : List.Forall₂ (fun c m => Says vars c m.op m.lhs m.rhs) cs ms)
    (hst : ∀ m ∈ ms, m.op ≠ .lt ∧ m.op ≠ .gt) (bounds : Bounds K) (integrality : Option Integ) (sparsify : Bool) :
    ∃ p, problem simp s objVars cs vars bounds integrality sparsify = .ok p ∧
      ∀ (fl : K → K) (tiny : K) (isInteger : List Char → Option Bool) (linprog : Call K O → Py (Res K)),
      Faithful linprog → ∀ (mx : Bool) (kw : List (Kw K O)), (∀ k ∈ kw, Harmless k) → ∀ r : Res K,
      solve fl tiny isInteger linprog p mx .highs kw = .ok r →
      (r.success = true → ∃ ρ : List Char → K, r.x = some (vars.map ρ) ∧
        Satisfies isInteger vars ms bounds integrality ρ ∧
        (∀ σ, Satisfies isInteger vars ms bounds integrality σ → if mx then v σ ≤ v ρ else v ρ ≤ v σ) ∧
        (objVars = vars → r.fun_ = some (v ρ))) ∧
      (r.status = 2 → ∀ σ, ¬ Satisfies isInteger vars ms bounds integrality σ) ∧
      (r.status = 3 → ∀ M, ∃ σ, Satisfies isInteger vars ms bounds integrality σ ∧
        if mx then M < v σ else v σ < M) := by
  obtain ⟨p, p1, p2, p3, p4, p5, p6, p7⟩ := problem_ok simp hs hn hv ho hobj h hst bounds integrality sparsify
  refine ⟨p, p1, fun fl tiny isInteger linprog hl mx kw hkw r hr => ⟨fun hsu => ?_, fun h2 σ hσ => ?_, fun h3 M => ?_⟩⟩
  · obtain ⟨x, x1, x2, x3, x4⟩ := C126_optimal_partial fl tiny isInteger linprog hl p p2 mx kw hkw r hr hsu
    have hx := (p6 isInteger x).1 x2
    refine ⟨point vars x, by rw [x1, map_point hn hx.1], hx.2, fun σ hσ => ?_, fun he => ?_⟩
    · have hy : Stated isInteger p (vars.map σ) := (p6 isInteger _).2
        ⟨by simp, (p7 _ _ (point_map vars σ)).2 isInteger hσ⟩
      have := x3 _ hy
      simp only [at', p5, p3] at this
      rwa [← (p7 _ _ (point_map vars σ)).1] at this
    · rw [x4 (by rw [p4 he, p3]), at', p5, p3]
  · exact (C126_failure_partial fl tiny isInteger linprog hl p p2 mx kw hkw r hr).1 h2 (vars.map σ)
      ((p6 isInteger _).2 ⟨by simp, (p7 _ _ (point_map vars σ)).2 isInteger hσ⟩)
  · obtain ⟨x, x1, x2⟩ := (C126_failure_partial fl tiny isInteger linprog hl p p2 mx kw hkw r hr).2 h3 M
    refine ⟨point vars x, ((p6 isInteger x).1 x1).2, ?_⟩
    simp only [at', p5, p3] at x2
    exact x2

/-- C136: `solve` asks the solver once and passes on its answer: exceptions, status, success and point. -/
theorem C136_returns (simp : Simplify K) (hs : Simplifies simp) (vars objVars : List (List Char)) (hn : vars.Nodup)
    (hv : vars ≠ []) (s : List Char) (v : (List Char → K) → K) (ho : Given objVars vars v)
    (hobj : LinText vars .sum false s v) (cs : List (ConText K)) (ms : List (Meaning K))
    (h : List.Forall₂ (fun c m => Says vars c m.op m.lhs m.rhs) cs ms)
    (hst : ∀ m ∈ ms, m.op ≠ .lt ∧ m.op ≠ .gt) (bounds : Bounds K) (integrality : Option Integ) (sparsify : Bool) :
    ∃ p, problem simp s objVars cs vars bounds integrality sparsify = .ok p ∧
      ∀ (fl : K → K) (tiny : K) (isInteger : List Char → Option Bool) (linprog : Call K O → Py (Res K)) (mx : Bool)
        (m : Method) (kw : List (Kw K O)), (∀ k ∈ kw, Harmless k) →
      ∃ a : Call K O, a.method = m ∧
        (∀ err, linprog a = .error err → solve fl tiny isInteger linprog p mx m kw = .error err) ∧
        ∀ s, linprog a = .ok s → (s.success = true → ∃ x, s.x = some x ∧ x.length = vars.length) →
          ∃ r, solve fl tiny isInteger linprog p mx m kw = .ok r ∧ r.status = s.status ∧
            r.success = s.success ∧ r.x = s.x := by
  obtain ⟨p, p1, p2, p3, -⟩ := problem_ok simp hs hn hv ho hobj h hst bounds integrality sparsify
  refine ⟨p, p1, fun fl tiny isInteger linprog mx m kw hkw => ?_⟩
  have := C126_returns fl tiny isInteger linprog p p2 mx m kw hkw
  rwa [p3] at this

end

/-! ### A concrete problem -/

/-- `x` -/
abbrev X : List Char := ['x']
/-- `y` -/
abbrev Y : List Char := ['y']

theorem x_text : LinText (K := ℚ) [X, Y] .factor false "x".toList fun ρ => ρ X :=
  .name ⟨'x', [], rfl, .inl rfl, by simp⟩ (by simp)

theorem y_text : LinText (K := ℚ) [X, Y] .factor false "y".toList fun ρ => ρ Y :=
  .name ⟨'y', [], rfl, .inl rfl, by simp⟩ (by simp)

theorem two_text : LinText (K := ℚ) [X, Y] .factor true "2".toList fun _ => 2 := by
  have := LinText.int (K := ℚ) (vars := [X, Y]) (d := 2) (ds := []) (by simp)
  have e : Rel.Props.digitChar 2 = '2' := by decide
  simpa [Rel.Props.intVal, e] using this

theorem three_text : LinText (K := ℚ) [X, Y] .factor true "3".toList fun _ => 3 := by
  have := LinText.int (K := ℚ) (vars := [X, Y]) (d := 3) (ds := []) (by simp)
  have e : Rel.Props.digitChar 3 = '3' := by decide
  simpa [Rel.Props.intVal, e] using this

/-- The objective `x + 2*y`. -/
theorem objective_text : LinText (K := ℚ) [X, Y] .sum false "x + 2*y".toList fun ρ => ρ X + 2 * ρ Y :=
  .add (s := "x ".toList) (t := " 2*y".toList)
    (.blank (b := []) (s := "x".toList) (b' := " ".toList) (by simp) (by simp) (.term (.factor x_text)))
    (.blank (b := " ".toList) (s := "2*y".toList) (b' := []) (by simp) (by simp)
      (.mulLeft (s := "2".toList) (t := "y".toList) (.factor two_text) y_text))

/-- The constraint `(x - y)/2 >= 3 - y`. -/
theorem constraint_text : Says (K := ℚ) [X, Y] ⟨.relation, "(x - y)/2 >= 3 - y".toList, .absent, [Y, X]⟩ .ge
    (fun ρ => (ρ X - ρ Y) / 2) fun ρ => 3 - ρ Y :=
  .inside (l := "(x - y)/2 ".toList) (r := " 3 - y".toList) (o := .ge)
    (.blank (b := []) (s := "(x - y)/2".toList) (b' := " ".toList) (by simp) (by simp)
      (.term (.div (s := "(x - y)".toList) (t := "2".toList)
        (.factor (.paren (s := "x - y".toList) (.sub (s := "x ".toList) (t := " y".toList)
          (.blank (b := []) (s := "x".toList) (b' := " ".toList) (by simp) (by simp)
            (.term (.factor x_text)))
          (.blank (b := " ".toList) (s := "y".toList) (b' := []) (by simp) (by simp) (.factor y_text)))))
        two_text fun _ => by norm_num)))
    (.sub (s := " 3 ".toList) (t := " y".toList)
      (.blank (b := " ".toList) (s := "3".toList) (b' := " ".toList) (by simp) (by simp)
        (.term (.factor (.const three_text))))
      (.blank (b := " ".toList) (s := "y".toList) (b' := []) (by simp) (by simp) (.factor y_text)))
    (.inl rfl) (.inl (List.Perm.swap _ _ _))

/-- The constraint `x - 3` with the operator `<=` given apart. -/
theorem constraint_text' : Says (K := ℚ) [X, Y] ⟨.inequality, "x - 3".toList, .str "<=".toList, [X, Y]⟩ .le
    (fun ρ => ρ X - 3) fun _ => 0 :=
  .symbol (o := .le)
    (.sub (s := "x ".toList) (t := " 3".toList)
      (.blank (b := []) (s := "x".toList) (b' := " ".toList) (by simp) (by simp) (.term (.factor x_text)))
      (.blank (b := " ".toList) (s := "3".toList) (b' := []) (by simp) (by simp) (.factor (.const three_text))))
    (.inr (by simp)) (.inl (List.Perm.refl _))

/-- Minimizing `x + 2*y` subject to `(x - y)/2 >= 3 - y`, `x <= 3` and no negative values: every solver that reports
success reports `x = 3` and `y = 3` and the value 9, since `x + y >= 6`, `x <= 3`. -/
example (linprog : Call ℚ Unit → Py (Res ℚ)) (hl : Faithful linprog) :
    ∃ p, problem (K := ℚ) expand "x + 2*y".toList [X, Y]
      [⟨.relation, "(x - y)/2 >= 3 - y".toList, .absent, [Y, X]⟩,
        ⟨.inequality, "x - 3".toList, .str "<=".toList, [X, Y]⟩] [X, Y] .none none false = .ok p ∧
      ∀ r, solve id 0 (fun _ => none) linprog p false .highs [] = .ok r → r.success = true →
        r.x = some [3, 3] ∧ r.fun_ = some 9 := by
  obtain ⟨p, h1, h2⟩ := C136_solved_partial (O := Unit) expand expand_simplifies [X, Y] [X, Y] (by decide) (by simp) _ _
    (.inl (List.Perm.refl _)) objective_text _
    [⟨.ge, fun ρ => (ρ X - ρ Y) / 2, fun ρ => 3 - ρ Y⟩, ⟨.le, fun ρ => ρ X - 3, fun _ => 0⟩]
    (.cons constraint_text (.cons constraint_text' .nil)) (by simp) .none none false
  refine ⟨p, h1, fun r hr hs => ?_⟩
  obtain ⟨ρ, r1, r2, r3, r4⟩ := (h2 id 0 (fun _ => none) linprog hl false [] (by simp) r hr).1 hs
  have key : ∀ σ : List Char → ℚ, Satisfies (fun _ => none) [X, Y]
      [⟨.ge, fun ρ => (ρ X - ρ Y) / 2, fun ρ => 3 - ρ Y⟩, ⟨.le, fun ρ => ρ X - 3, fun _ => 0⟩] .none none σ ↔
      3 - σ Y ≤ (σ X - σ Y) / 2 ∧ σ X ≤ 3 ∧ 0 ≤ σ X ∧ 0 ≤ σ Y := by
    intro σ
    unfold Satisfies
    constructor
    · rintro ⟨a, b⟩
      have a1 := a _ List.mem_cons_self
      have a2 := a _ (List.mem_cons_of_mem _ List.mem_cons_self)
      have b1 := (b 0 X rfl).1 0 rfl
      have b2 := (b 1 Y rfl).1 0 rfl
      simp only [Holds] at a1 a2
      exact ⟨a1, by linarith, b1, b2⟩
    · rintro ⟨a, b, c, d⟩
      refine ⟨?_, ?_⟩
      · simp only [List.forall_mem_cons, Holds]
        exact ⟨a, by linarith, by simp⟩
      · intro j x hx
        rcases j with _ | _ | j
        · obtain rfl : X = x := by simpa using hx
          exact ⟨fun l hl => by obtain rfl : (0 : ℚ) = l := Option.some.inj hl
                                exact c, fun _ hu => by cases hu⟩
        · obtain rfl : Y = x := by simpa using hx
          exact ⟨fun l hl => by obtain rfl : (0 : ℚ) = l := Option.some.inj hl
                                exact d, fun _ hu => by cases hu⟩
        · simp at hx
  obtain ⟨a, b, c, d⟩ := (key ρ).1 r2
  have e := r3 (fun _ => 3) ((key _).2 (by norm_num))
  simp only [Bool.false_eq_true, if_false] at e
  have hx : ρ X = 3 := by linarith
  have hy : ρ Y = 3 := by linarith
  refine ⟨by rw [r1]; simp [hx, hy], ?_⟩
  rw [r4 rfl, hx, hy]
  norm_num

/-- The exception of the translation for the solver, if the problem is accepted. -/
def outcome (cs : List (ConText ℚ)) : Option PyErr :=
  match problem expand "x + 2*y".toList [X, Y] cs [X, Y] .none none false with
  | .ok p => match toScipy id 0 (fun _ => none) p false with
    | .ok _ => none
    | .error e => some e
  | .error _ => none

/-- **C136 is violated.** If the variables of a constraint are left out, those of its text are taken; if the text does not
mention all variables of the problem, as in `x <= 1` or `x = 1` for a problem in `x` and `y`, then the problem is accepted
and `solve` raises a `KeyError`, whatever the solver. -/
theorem C136_variables_violated (linprog : Call ℚ Unit → Py (Res ℚ)) :
    ∀ t ∈ ["x <= 1".toList, "x = 1".toList],
    ∃ p, problem expand "x + 2*y".toList [X, Y] [⟨.relation, t, .absent, []⟩] [X, Y] .none none false = .ok p ∧
      solve id 0 (fun _ => none) linprog p false .highs [] = .error .key := by
  have key : ∀ cs, outcome cs = some .key →
      ∃ p, problem expand "x + 2*y".toList [X, Y] cs [X, Y] .none none false = .ok p ∧
        solve id 0 (fun _ => none) linprog p false .highs [] = .error .key := by
    intro cs h
    unfold outcome at h
    cases hp : problem expand "x + 2*y".toList [X, Y] cs [X, Y] .none none false with
    | error e => rw [hp] at h; cases h
    | ok p =>
      rw [hp] at h
      refine ⟨p, rfl, ?_⟩
      cases ht : toScipy id 0 (fun _ => none) p false with
      | ok a => simp only [ht] at h; cases h
      | error e =>
        simp only [ht] at h
        obtain rfl : e = .key := Option.some.inj h
        unfold LPSolve.solve
        rw [ht]
        rfl
  intro t ht
  refine key _ ?_
  rcases List.mem_cons.1 ht with rfl | ht
  · decide +kernel
  · rw [List.mem_singleton.1 ht]
    decide +kernel

/-- The same constraint with the variables given. -/
example : Says (K := ℚ) [X, Y] ⟨.relation, "x<=2".toList, .absent, [X, Y]⟩ .le (fun ρ => ρ X) fun _ => 2 :=
  .inside (l := "x".toList) (r := "2".toList) (o := .le) (.term (.factor x_text))
    (.term (.factor (.const two_text))) (.inl rfl) (.inl (List.Perm.refl _))

/-- Without variables given, if all of them matter. -/
example : Says (K := ℚ) [X, Y] ⟨.relation, "x<=2*y".toList, .absent, []⟩ .le (fun ρ => ρ X) fun ρ => 2 * ρ Y :=
  .inside (l := "x".toList) (r := "2*y".toList) (o := .le) (.term (.factor x_text))
    (.term (.mulLeft (s := "2".toList) (t := "y".toList) (.factor two_text) y_text)) (.inl rfl) (.inr ⟨rfl, by
      intro x hx
      refine ⟨fun _ => 0, fun z => if z = x then 1 else 0, fun z hz => by simp [hz], ?_⟩
      rcases List.mem_cons.1 hx with rfl | hx
      · simp [X, Y]
      · rw [List.mem_singleton.1 hx]
        simp [X, Y]⟩)

end Verif.LPText.Props
