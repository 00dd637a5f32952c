import Verif.Proofs.Expr
import Mathlib.Tactic.NormNum
import Mathlib.Algebra.Order.Field.Rat
import Mathlib.Tactic.Linarith

set_option linter.unusedSectionVars false

/-!
# C20, C21, C23: parsing of relations, deciding relations, substitution
-/

namespace Verif.Rel.Props

open Verif Verif.Rel Verif.Sym

/-- A text without operator characters (`<`, `>`, `=`) and without line feeds. -/
def Plain (s : List Char) : Prop := ∀ c ∈ s, c ≠ '<' ∧ c ≠ '>' ∧ c ≠ '=' ∧ c ≠ '\n'

/-- A text without operator characters. -/
def OpFree (s : List Char) : Prop := ∀ c ∈ s, c ≠ '<' ∧ c ≠ '>' ∧ c ≠ '='

/-- Only white space. -/
def Blank (s : List Char) : Prop := ∀ c ∈ s, isWs c = true

theorem isOpChar_eq_false {c : Char} : isOpChar c = false ↔ c ≠ '<' ∧ c ≠ '>' ∧ c ≠ '=' := by
  simp [isOpChar, and_assoc]

theorem isDot_eq {c : Char} : isDot c = true ↔ c ≠ '\n' := by simp [isDot]

/-- **strip** removes white space at both ends, and nothing else: the specification of
`str.strip` used in the statements below. -/
theorem C20_strip_spec (s : List Char) :
    ∃ a b, s = a ++ strip s ++ b ∧ Blank a ∧ Blank b ∧
      (∀ c, (strip s).head? = some c → isWs c = false) ∧
      (∀ c, (strip s).getLast? = some c → isWs c = false) := by
  obtain ⟨a, b, h, ha, hb⟩ := strip_decomp s
  refine ⟨a, b, h, ha, hb, ?_, ?_⟩
  · intro c hc
    have h1 := strip_dropWhile s
    -- the stripped text is a prefix of the text without leading white space
    obtain ⟨b', hb', -⟩ := dropWhile_decomp isWs (s.dropWhile isWs).reverse
    have h2 : s.dropWhile isWs = strip s ++ b'.reverse := by
      have := congrArg List.reverse hb'
      simpa [strip] using this
    have h3 := List.head?_dropWhile_not isWs s
    rw [h2] at h3
    rcases hs : strip s with _ | ⟨x, xs⟩
    · rw [hs] at hc; cases hc
    · rw [hs] at hc h3
      simp only [List.head?_cons, Option.some.injEq] at hc
      subst hc
      simpa using h3
  · intro c hc
    have h3 := List.head?_dropWhile_not isWs (s.dropWhile isWs).reverse
    unfold strip at hc
    rw [List.getLast?_reverse] at hc
    rw [hc] at h3
    simpa using h3

/-- **C20 (1).** A text made of two non-blank sides free of operator characters and line feeds
around one operator is split there, and both sides are stripped. -/
theorem C20_split (l r : List Char) (o : Relations) (hl : Plain l) (hr : Plain r)
    (hlb : ¬ Blank l) (hrb : ¬ Blank r) :
    parseExpression (l ++ o.value ++ r) = .ok (strip l, o, strip r) := by
  have hr' : matchRhs r = some (r.dropWhile isWs) :=
    matchRhs_complete (fun c hc => isDot_eq.2 (hr c hc).2.2.2)
      (fun h => hrb (strip_eq_nil.1 h))
  obtain ⟨l', w, hlw, hw, hm⟩ := reMatch_complete (o := o)
    (fun c hc => ⟨isDot_eq.2 (hl c hc).2.2.2,
      isOpChar_eq_false.2 ⟨(hl c hc).1, (hl c hc).2.1, (hl c hc).2.2.1⟩⟩)
    (fun h => hlb (strip_eq_nil.1 h))
    (fun c hc => isOpChar_eq_false.2 ⟨(hr c hc).1, (hr c hc).2.1, (hr c hc).2.2.1⟩) hr'
  have hsl : strip l' = strip l := by rw [hlw, strip_append_ws hw]
  have hL : hasOperator (strip l) = false := by
    rw [hasOperator_false]
    intro c hc
    have := hl c (strip_subset hc)
    exact isOpChar_eq_false.2 ⟨this.1, this.2.1, this.2.2.1⟩
  have hR : hasOperator (strip r) = false := by
    rw [hasOperator_false]
    intro c hc
    have := hr c (strip_subset hc)
    exact isOpChar_eq_false.2 ⟨this.1, this.2.1, this.2.2.1⟩
  unfold parseExpression
  rw [hm]
  simp only [hsl, strip_dropWhile]
  have : (validOperators.any fun o => contains (strip l) o.value || contains (strip r) o.value) =
      false := by
    rw [hasOperator] at hL hR
    rw [List.any_eq_false] at hL hR ⊢
    intro x hx
    simp [hL x hx, hR x hx]
  rw [this]; rfl

example : Plain "x + y ".toList ∧ Plain "  2 * z".toList ∧ ¬ Blank "x + y ".toList ∧
    ¬ Blank "  2 * z".toList := by
  refine ⟨?_, ?_, ?_, ?_⟩
  · unfold Plain; decide
  · unfold Plain; decide
  · unfold Blank; decide
  · unfold Blank; decide

example : parseExpression "x + y <=  2 * z".toList =
    .ok ("x + y".toList, .le, "2 * z".toList) := by decide

/-- What is accepted is a text with exactly one operator (texts without line feed): the result
determines the text up to white space around the sides. -/
theorem C20_accepted (s a b : List Char) (o : Relations) (hs : ∀ c ∈ s, c ≠ '\n')
    (h : parseExpression s = .ok (a, o, b)) :
    ∃ l r, s = l ++ o.value ++ r ∧ OpFree l ∧ OpFree r ∧ a = strip l ∧ b = strip r := by
  unfold parseExpression at h
  cases hm : reMatch s with
  | none => rw [hm] at h; cases h
  | some p =>
    obtain ⟨l, o', r⟩ := p
    rw [hm] at h
    simp only at h
    split at h
    · cases h
    · rename_i hany
      simp only [Except.ok.injEq, Prod.mk.injEq] at h
      obtain ⟨rfl, rfl, rfl⟩ := h
      have hany' : ∀ x ∈ validOperators,
          (contains (strip l) x.value || contains (strip r) x.value) = false := by
        simpa [List.any_eq_true] using hany
      have hL : hasOperator (strip l) = false := by
        rw [hasOperator, List.any_eq_false]
        intro x hx
        have := hany' x hx
        rw [Bool.or_eq_false_iff] at this
        simp [this.1]
      have hR : hasOperator (strip r) = false := by
        rw [hasOperator, List.any_eq_false]
        intro x hx
        have := hany' x hx
        rw [Bool.or_eq_false_iff] at this
        simp [this.2]
      rw [hasOperator_false] at hL hR
      obtain ⟨k, hk, -, -, hop⟩ := reMatch_sound hm
      obtain ⟨w, t, hw, hd, hrhs⟩ := matchOp_sound hop
      obtain ⟨v, hv, hrt, -⟩ := matchRhs_sound hrhs
      have hsd : s = l ++ (s.drop k).take w ++ o'.value ++ t := by
        have h1 : s = s.take k ++ s.drop k := (List.take_append_drop k s).symm
        conv_lhs => rw [h1, hd]
        rw [hk]; simp
      have htt : t = t.take v ++ r := by
        have h1 : (t.drop v).takeWhile isDot = t.drop v := by
          rw [List.takeWhile_eq_self_iff]
          intro c hc
          refine isDot_eq.2 (hs c ?_)
          rw [hsd]
          exact List.mem_append_right _ (List.mem_of_mem_drop hc)
        rw [hrt, h1, List.take_append_drop]
      refine ⟨l ++ (s.drop k).take w, t, hsd, ?_, ?_, ?_, ?_⟩
      · intro c hc
        apply isOpChar_eq_false.1
        refine opfree_of_strip (s := l ++ (s.drop k).take w) ?_ c hc
        rw [strip_append_ws hw]; exact hL
      · intro c hc
        apply isOpChar_eq_false.1
        refine opfree_of_strip (s := t) ?_ c hc
        rw [htt, strip_ws_append hv]; exact hR
      · rw [strip_append_ws hw]
      · conv_rhs => rw [htt]
        rw [strip_ws_append hv]

/-- **C20 (2).** Every text without operator is refused. -/
theorem C20_no_operator (s : List Char) (hs : OpFree s) : parseExpression s = .error .value := by
  unfold parseExpression
  cases hm : reMatch s with
  | none => rfl
  | some p =>
    exfalso
    obtain ⟨l, o, r⟩ := p
    obtain ⟨k, -, -, -, hop⟩ := reMatch_sound hm
    obtain ⟨w, t, -, hd, -⟩ := matchOp_sound hop
    obtain ⟨c, hc⟩ := List.exists_mem_of_ne_nil _ (value_ne_nil o)
    have hcs : c ∈ s := by
      apply List.mem_of_mem_drop (i := k)
      rw [hd]; simp [hc]
    have := isOpChar_eq_false.2 (hs c hcs)
    rw [value_opChar o c hc] at this
    cases this

example : OpFree "x + 2*y".toList := by unfold OpFree; decide

theorem parseExpression_error {s : List Char} {e : PyErr} (h : parseExpression s = .error e) :
    e = .value := by
  unfold parseExpression at h
  split at h
  · simp only at h
    split at h <;> simp at h
    exact h.symm
  · simp at h; exact h.symm

/-- **C20 (3), partial.** Every text without line feed that has more than one operator, i.e. in
which an operator always leaves another operator character on one of its sides, is refused.
Missing: texts with line feeds; there the claim is false, see `C20_violation_line_feed`. -/
theorem C20_more_operators_partial (s : List Char) (hs : ∀ c ∈ s, c ≠ '\n')
    (hm : ∀ l o r, s = l ++ Relations.value o ++ r → ¬ (OpFree l ∧ OpFree r)) :
    parseExpression s = .error .value := by
  cases h : parseExpression s with
  | error e => rw [parseExpression_error h]
  | ok p =>
    obtain ⟨a, o, b⟩ := p
    obtain ⟨l, r, hd, hl, hr, -⟩ := C20_accepted s a b o hs h
    exact absurd ⟨hl, hr⟩ (hm l o r hd)

/-- Two operators with an ordinary text between them, or two adjacent ones that are not together
one operator, meet the hypothesis: an example. -/
theorem two_operators (a b c : List Char) (o p : Relations) (hb : b ≠ []) (hbo : OpFree b) :
    ∀ l q r, a ++ o.value ++ b ++ p.value ++ c = l ++ Relations.value q ++ r →
      ¬ (OpFree l ∧ OpFree r) := by
  rintro l q r h ⟨hl, hr⟩
  -- the operator characters of the text lie in one block of `q`
  obtain ⟨y, hy⟩ := List.exists_mem_of_ne_nil _ hb
  have key : ∀ (x z : List Char) (u v : Char), isOpChar u = true → isOpChar v = true →
      a ++ o.value ++ b ++ p.value ++ c = x ++ u :: (b ++ v :: z) → False := by
    intro x z u v hu hv hx
    rw [h, List.append_assoc] at hx
    -- u is not in l, v is not in r
    have hlx : l.length ≤ x.length := by
      by_contra hlt
      have : (x ++ u :: (b ++ v :: z))[x.length]? = some u := by simp
      rw [← hx, List.getElem?_append_left (by omega)] at this
      have hul := List.mem_of_getElem? this
      have := isOpChar_eq_false.2 (hl u hul)
      rw [hu] at this; cases this
    have hrz : r.length ≤ z.length := by
      by_contra hlt
      have hlen := congrArg List.length hx
      simp only [List.length_append, List.length_cons] at hlen
      have h2 : (x ++ u :: (b ++ v :: z))[x.length + 1 + b.length]? = some v := by
        rw [List.getElem?_append_right (by omega)]
        have : x.length + 1 + b.length - x.length = b.length + 1 := by omega
        rw [this]; simp
      rw [← hx, List.getElem?_append_right (by omega), List.getElem?_append_right (by omega)] at h2
      have := isOpChar_eq_false.2 (hr v (List.mem_of_getElem? h2))
      rw [hv] at this; cases this
    -- so the middle text lies inside the operator
    obtain ⟨i, hi, hiy⟩ := List.getElem_of_mem hy
    have h3 : (x ++ u :: (b ++ v :: z))[x.length + 1 + i]? = some y := by
      rw [List.getElem?_append_right (by omega)]
      have : x.length + 1 + i - x.length = i + 1 := by omega
      rw [this, List.getElem?_cons_succ, List.getElem?_append_left hi]
      simp [hi, hiy]
    have hlen := congrArg List.length hx
    simp only [List.length_append, List.length_cons] at hlen
    rw [← hx, List.getElem?_append_right (by omega), List.getElem?_append_left (by omega)] at h3
    have h4 := value_opChar q y (List.mem_of_getElem? h3)
    rw [isOpChar_eq_false.2 (hbo y hy)] at h4; cases h4
  -- last character of `o`, first character of `p`
  obtain ⟨v, vs, hv⟩ := List.exists_cons_of_ne_nil (value_ne_nil p)
  have hou := List.dropLast_append_getLast (value_ne_nil o)
  refine key (a ++ o.value.dropLast) (vs ++ c) (o.value.getLast (value_ne_nil o)) v
    (value_opChar o _ (List.getLast_mem _)) (value_opChar p v (by simp [hv])) ?_
  conv_lhs => rw [← hou, hv]
  simp

example : parseExpression "a < b < c".toList = .error .value ∧
    parseExpression "a == b".toList = .error .value ∧
    parseExpression "a => b".toList = .error .value ∧
    parseExpression "<= 2".toList = .error .value := by decide

/-- **C20 is violated** by texts with line feeds: the part after the line feed is dropped, although
it holds a second operator. -/
theorem C20_violation_line_feed :
    ¬ (∀ s : List Char, (∀ l o r, s = l ++ Relations.value o ++ r → ¬ (OpFree l ∧ OpFree r)) →
        ∃ e, parseExpression s = .error e) := by
  intro h
  have h1 := h "a<b\nc<d".toList
    (two_operators ['a'] "b\nc".toList ['d'] .lt .lt (by decide) (by unfold OpFree; decide))
  obtain ⟨e, he⟩ := h1
  have h2 : parseExpression "a<b\nc<d".toList = .ok (['a'], .lt, ['b']) := by decide
  rw [h2] at he; cases he

/-- Blank sides are accepted and returned as empty texts (a side note to C20, which only speaks
about non-blank sides). -/
theorem C20_blank_sides_accepted :
    parseExpression "x < ".toList = .ok ("x".toList, .lt, []) ∧
    parseExpression " < 2".toList = .ok ([], .lt, "2".toList) := by decide

/-! ### C21 -/

/-- The meaning of the five operators. -/
def Holds {K : Type} [LinearOrder K] : Relations → K → K → Prop
  | .eq => fun a b => a = b
  | .gt => fun a b => b < a
  | .ge => fun a b => b ≤ a
  | .lt => fun a b => a < b
  | .le => fun a b => a ≤ b

theorem toOpfunc_sub {K : Type} [Field K] [LinearOrder K] [IsStrictOrderedRing K] (o : Relations)
    (a b : K) : o.toOpfunc (a - b) 0 = true ↔ Holds o a b := by
  cases o <;> simp [Relations.toOpfunc, Holds, sub_eq_zero]

theorem hasOperator_mid (l r : List Char) (o : Relations) :
    hasOperator (l ++ o.value ++ r) = true := by
  rw [hasOperator_iff]
  obtain ⟨c, hc⟩ := List.exists_mem_of_ne_nil _ (value_ne_nil o)
  exact ⟨c, by simp [hc], value_opChar o c hc⟩

theorem relationOfText_eq {K : Type} [LinearOrder K] {s l r : List Char} {o : Relations}
    {e : Expr Decimal} (hop : hasOperator s = true) (hp : parseExpression s = .ok (l, o, r))
    (he : parseExpr (l ++ [' ', '-', ' '] ++ (['('] ++ r ++ [')'])) = some e) :
    relationOfText (K := K) .relation s =
      .ok ⟨⟨if o = .eq then .equality else .inequality, some o, o.toOpfunc,
        some (l ++ [' ', '-', ' '] ++ (['('] ++ r ++ [')']))⟩, e⟩ := by
  unfold relationOfText construct newCls newOp initAttrs hasOpInInput
  simp only [hop, hp, if_true, Except.map]
  generalize l ++ [' ', '-', ' '] ++ (['('] ++ r ++ [')']) = t at he
  cases o <;> simp [bind, Except.bind, pure, Except.pure, he, assertOp]

/-- **C21.** `Relation("lhs op rhs")`, with sides that are expressions, is an `Equality` for `=`
and an `InEquality` otherwise, carries that operator, and `relate` decides `lhs op rhs` at every
point at which both sides have a value (and has no value elsewhere). -/
theorem C21_relate {K : Type} [Field K] [LinearOrder K] [IsStrictOrderedRing K]
    (l r : List Char) (o : Relations) (hl : Plain l) (hr : Plain r)
    (hlb : ¬ Blank l) (hrb : ¬ Blank r) (a b : Expr Decimal)
    (ha : parseExpr (strip l) = some a) (hb : parseExpr (strip r) = some b) :
    ∃ R : TextRelation K, relationOfText .relation (l ++ o.value ++ r) = .ok R ∧
      R.attrs.cls = (if o = .eq then .equality else .inequality) ∧
      R.attrs.op = some o ∧
      (∀ (ρ : List Char → K) (x y : K), eval Decimal.val ρ a = some x →
        eval Decimal.val ρ b = some y →
        ∃ t, R.relate ρ = some t ∧ (t = true ↔ Holds o x y)) ∧
      (∀ ρ : List Char → K, (eval Decimal.val ρ a = none ∨ eval Decimal.val ρ b = none) →
        R.relate ρ = none) := by
  have hp := C20_split l r o hl hr hlb hrb
  have hop := hasOperator_mid l r o
  have hglue := parseExpr_glue ha hb
  generalize hs : l ++ o.value ++ r = s at hp hop
  refine ⟨⟨⟨if o = .eq then .equality else .inequality, some o, o.toOpfunc,
    some (strip l ++ [' ', '-', ' '] ++ (['('] ++ strip r ++ [')']))⟩, .sub a b⟩, ?_, rfl, rfl, ?_, ?_⟩
  · exact relationOfText_eq hop hp hglue
  · intro ρ x y hx hy
    refine ⟨o.toOpfunc (x - y) 0, ?_, toOpfunc_sub o x y⟩
    simp [TextRelation.relate, eval, hx, hy, Attrs.relateValue]
  · intro ρ h
    rcases h with h | h
    · simp [TextRelation.relate, eval, h]
    · cases hx : eval Decimal.val ρ a <;> simp [TextRelation.relate, eval, h, hx]

example : parseExpr (strip "x - y ".toList) =
      some (.sub (.var ['x']) (.var ['y'])) ∧
    parseExpr (strip " 2.5 - z/(1 + x)".toList) =
      some (.sub (.num (25, 1)) (.div (.var ['z']) (.add (.num (1, 0)) (.var ['x'])))) := by
  decide

/-- With the class given, the operator in the text must fit the class, otherwise the constructor
raises `AssertionError`. -/
theorem C21_class_mismatch {K : Type} [Field K] [LinearOrder K] [IsStrictOrderedRing K]
    (l r : List Char) (o : Relations) (hl : Plain l) (hr : Plain r)
    (hlb : ¬ Blank l) (hrb : ¬ Blank r) :
    (o ≠ .eq → relationOfText (K := K) .equality (l ++ o.value ++ r) = .error .assertion) ∧
    (o = .eq → relationOfText (K := K) .inequality (l ++ o.value ++ r) = .error .assertion) := by
  have hp := C20_split l r o hl hr hlb hrb
  have hop := hasOperator_mid l r o
  generalize l ++ o.value ++ r = s at hp hop
  constructor
  · intro ho
    unfold relationOfText construct newCls newOp initAttrs hasOpInInput
    simp only [hop, hp, if_true, Except.map]
    cases o <;> simp [bind, Except.bind, pure, Except.pure, assertOp] at ho ⊢
  · intro ho
    subst ho
    unfold relationOfText construct newCls newOp initAttrs hasOpInInput
    simp only [hop, hp, if_true, Except.map]
    simp [bind, Except.bind, pure, Except.pure, assertOp]

/-- The tokens read by the parser are those of the usual grammar, and the expression is the one
of the grammar (so `a - b - c`, `a - b*c`, `-a*b` mean what they mean in Python). -/
theorem C21_grammar (s : List Char) (e : Expr Decimal) :
    parseExpr s = some e ↔ ∃ ts, lex s = some ts ∧ Derives .sum ts e := parseExpr_iff

/-- The grammar is unambiguous: a text has at most one reading. -/
theorem C21_unambiguous (ts : List Tok) (e f : Expr Decimal) (he : Derives .sum ts e)
    (hf : Derives .sum ts f) : e = f := by
  have h1 := parse_iff.2 he
  have h2 := parse_iff.2 hf
  rw [h1] at h2
  simpa using h2

example : parseExpr "a - b - c*d".toList =
    some (.sub (.sub (.var ['a']) (.var ['b'])) (.mul (.var ['c']) (.var ['d']))) := by decide

/-- Side note: the sides are not checked to be expressions of their own. `(x < 1) + 3` is
accepted and read as `(x - (1) + 3) < 0`. -/
theorem C21_unbalanced_sides_accepted :
    ∃ R : TextRelation ℚ, relationOfText .relation "(x < 1) + 3".toList = .ok R ∧
      R.expr = .add (.sub (.var ['x']) (.num (1, 0))) (.num (3, 0)) := by
  have h : parseExpression "(x < 1) + 3".toList = .ok ("(x".toList, .lt, "1) + 3".toList) := by
    decide
  have ho : hasOperator "(x < 1) + 3".toList = true := by decide
  have hg : parseExpr ("(x".toList ++ [' ', '-', ' '] ++ (['('] ++ "1) + 3".toList ++ [')'])) =
      some (.add (.sub (.var ['x']) (.num (1, 0))) (.num (3, 0))) := by decide
  generalize "(x < 1) + 3".toList = s at h ho
  exact ⟨_, relationOfText_eq ho h hg, rfl⟩

/-! ### C23 -/

section
variable {K : Type} [Field K] [DecidableEq K]

/-- The point `ρ` with the substituted values put in: the value paired with the first occurrence
of the variable in the list. -/
def merged (ρ : List Char → K) (pairs : List (List Char × K)) (x : List Char) : K :=
  match pairs.find? fun p => p.1 = x with
    | some p => p.2
    | none => ρ x

/-- **C23 (1).** The value after substituting numbers is the value of the original expression at
the merged point. -/
theorem C23_substitute (ρ : List Char → K) (e : Expr K) (values : List K)
    (vars : List (List Char)) :
    eval id ρ (substitute e (values.map .num) vars) = eval id (merged ρ (vars.zip values)) e := by
  induction vars generalizing e values with
  | nil => rfl
  | cons x vars ih =>
    rcases values with _ | ⟨v, values⟩
    · rfl
    · have h1 : substitute e ((v :: values).map .num) (x :: vars) =
          substitute (subst1 x (.num v) e) (values.map .num) vars := rfl
      rw [h1, ih, eval_subst1 id _ x (.num v) v rfl]
      apply eval_congr
      intro y _
      by_cases hy : y = x
      · subst hy; simp [merged]
      · rw [Function.update_of_ne hy]
        have : ¬ x = y := fun h => hy h.symm
        simp [merged, this]

theorem find_perm {p q : List (List Char × K)} (h : p.Perm q) (hn : (p.map Prod.fst).Nodup)
    (x : List Char) : (p.find? fun a => a.1 = x) = (q.find? fun a => a.1 = x) := by
  have hq : (q.map Prod.fst).Nodup := (h.map _).nodup_iff.1 hn
  have key : ∀ (l : List (List Char × K)), (l.map Prod.fst).Nodup → ∀ a ∈ l, a.1 = x →
      (l.find? fun a => a.1 = x) = some a := by
    intro l hl a ha hax
    induction l with
    | nil => cases ha
    | cons b l ih =>
      simp only [List.map_cons, List.nodup_cons] at hl
      rcases List.mem_cons.1 ha with rfl | ha'
      · simp [hax]
      · have : b.1 ≠ x := by
          intro hb
          exact hl.1 (List.mem_map.2 ⟨a, ha', by rw [hax, hb]⟩)
        simp [this, ih hl.2 ha']
  by_cases hex : ∃ a ∈ p, a.1 = x
  · obtain ⟨a, ha, hax⟩ := hex
    rw [key p hn a ha hax, key q hq a (h.mem_iff.1 ha) hax]
  · have h1 : (p.find? fun a => a.1 = x) = none := by
      rw [List.find?_eq_none]; intro a ha; simp only [decide_eq_true_eq]; exact fun hx => hex ⟨a, ha, hx⟩
    have h2 : (q.find? fun a => a.1 = x) = none := by
      rw [List.find?_eq_none]; intro a ha; simp only [decide_eq_true_eq]
      exact fun hx => hex ⟨a, h.mem_iff.2 ha, hx⟩
    rw [h1, h2]

/-- **C23 (2).** The order in which the variables (with their values) are listed does not
matter. -/
theorem C23_order (ρ : List Char → K) (e : Expr K) (values values' : List K)
    (vars vars' : List (List Char)) (hlen : vars.length ≤ values.length) (hn : vars.Nodup)
    (hp : (vars.zip values).Perm (vars'.zip values')) :
    eval id ρ (substitute e (values.map .num) vars) =
      eval id ρ (substitute e (values'.map .num) vars') := by
  rw [C23_substitute, C23_substitute]
  apply eval_congr
  intro x _
  unfold merged
  rw [find_perm hp (by rw [List.map_fst_zip hlen]; exact hn)]

example : (["x".toList, "y".toList].zip [(1 : ℚ), 2]).Perm
    (["y".toList, "x".toList].zip [(2 : ℚ), 1]) := by
  exact List.Perm.swap _ _ _

/-- The variables left after the substitution are the ones not substituted. -/
theorem C23_remaining (e : Expr K) (values : List K) (vars : List (List Char))
    (hlen : vars.length ≤ values.length) (y : List Char) :
    y ∈ freeSymbols (substitute e (values.map .num) vars) ↔ y ∈ freeSymbols e ∧ y ∉ vars := by
  induction vars generalizing e values with
  | nil => simp [substitute]
  | cons x vars ih =>
    rcases values with _ | ⟨v, values⟩
    · simp at hlen
    · have h1 : substitute e ((v :: values).map .num) (x :: vars) =
          substitute (subst1 x (.num v) e) (values.map .num) vars := rfl
      rw [h1, ih _ _ (by simpa using hlen), freeSymbols_subst1_num]
      simp only [List.mem_cons, not_or]
      tauto

/-- **C23 (3), partial.** `f.subs(values, variables)` with values for all variables in the
expression is a function whose value, wherever it is called, is that of `f` at the substituted
point.  Missing: a substitution of only some of the variables, after which the function cannot be
evaluated at all, see `C23_partial_subs_unusable`. -/
theorem C23_function_partial (f : Fn K) (values : List K) (vars : List (List Char))
    (hlen : vars.length = values.length) (hv : vars ≠ [])
    (hall : ∀ x ∈ freeSymbols f.expr, x ∈ vars) (xs : List K) (hxs : xs.length = vars.length)
    (v : K) :
    (f.subs values vars).call xs = .ok v ↔
      eval id (merged (fun _ => 0) (vars.zip values)) f.expr = some v := by
  have hfree : freeSymbols (substitute f.expr (values.map .num) vars) = [] := by
    rw [List.eq_nil_iff_forall_not_mem]
    intro y hy
    rw [C23_remaining _ _ _ hlen.le] at hy
    exact hy.2 (hall y hy.1)
  have hev : eval id (Fn.point vars xs) (substitute f.expr (values.map .num) vars) =
      eval id (merged (fun _ => 0) (vars.zip values)) f.expr := by
    rw [← C23_substitute]
    apply eval_congr
    intro y hy; rw [hfree] at hy; cases hy
  unfold Fn.subs Fn.call
  simp only [if_neg hv, hxs, ne_eq, not_true_eq_false, if_false, hfree, List.all_nil, hev]
  cases eval id (merged (fun _ => 0) (vars.zip values)) f.expr <;> simp

example : ∀ x ∈ freeSymbols (.add (.mul (.num (3 : ℚ)) (.var ['x'])) (.var ['y'])),
    x ∈ [['x'], ['y'], ['z']] := by decide

/-- C23: a function is called with one value for each of its variables, in their order: the result is the
value of the expression, and there is one only if all the symbols of the expression are variables. -/
theorem C23_call (f : Fn K) (hd : f.vars.Nodup) (ρ : List Char → K) (v : K) :
    f.call (f.vars.map ρ) = .ok v ↔ (∀ x ∈ freeSymbols f.expr, x ∈ f.vars) ∧ eval id ρ f.expr = some v := by
  have hpt : ∀ (vars : List (List Char)), vars.Nodup → ∀ x ∈ vars, Fn.point vars (vars.map ρ) x = ρ x := by
    intro vars
    induction vars with
    | nil => intro _ x hx; cases hx
    | cons y ys ih =>
      intro hd x hx
      show (((y :: ys).zip ((y :: ys).map ρ)).find? fun p => p.1 == x).elim 0 Prod.snd = _
      rw [List.map_cons, List.zip_cons_cons, List.find?_cons]
      by_cases h : y = x
      · subst h; simp
      · have hb : (y == x) = false := by simpa using h
        simp only [hb]
        exact ih (List.nodup_cons.1 hd).2 x ((List.mem_cons.1 hx).resolve_left (Ne.symm h))
  unfold Fn.call
  rw [if_neg (by simp)]
  by_cases hall : ∀ x ∈ freeSymbols f.expr, x ∈ f.vars
  · rw [if_neg (by simpa [List.all_eq_true] using hall)]
    have : eval id (Fn.point f.vars (f.vars.map ρ)) f.expr = eval id ρ f.expr :=
      eval_congr _ _ fun y hy => hpt f.vars hd y (hall y hy)
    rw [this]
    cases eval id ρ f.expr with
    | none => simp
    | some w =>
      simp only [Except.ok.injEq, Option.some.injEq]
      exact ⟨fun h => ⟨hall, h⟩, fun h => h.2⟩
  · rw [if_pos (by simpa [List.all_eq_true] using hall)]
    simp [hall]

example : (⟨.add (.mul (.num 3) (.var ['x'])) (.var ['y']), [['x'], ['y']]⟩ : Fn ℚ).vars.Nodup := by decide

/-- **C23 is violated** for partial substitutions: if a variable of the expression is not
substituted, the resulting function raises on every argument (its parameters are the substituted
variables, not the remaining ones). -/
theorem C23_partial_subs_unusable (f : Fn K) (values : List K) (vars : List (List Char))
    (hlen : vars.length ≤ values.length) (hv : vars ≠ []) (x : List Char)
    (hx : x ∈ freeSymbols f.expr) (hxv : x ∉ vars) (xs : List K) :
    ∃ e, (f.subs values vars).call xs = .error e := by
  have hmem : x ∈ freeSymbols (substitute f.expr (values.map .num) vars) :=
    (C23_remaining _ _ _ hlen _).2 ⟨hx, hxv⟩
  unfold Fn.subs Fn.call
  simp only [if_neg hv]
  split
  · exact ⟨_, rfl⟩
  · have : ¬ ((freeSymbols (substitute f.expr (values.map .num) vars)).all (· ∈ vars) = true) := by
      rw [List.all_eq_true]
      intro h
      have := h x hmem
      simp at this
      exact hxv this
    rw [if_pos this]
    exact ⟨_, rfl⟩

/-- The negation of the full claim, with `3*x + y`, `x := 1`: no call gives `3 + y`. -/
theorem C23_violation : ¬ (∀ (f : Fn ℚ) (values : List ℚ) (vars : List (List Char)) (x : List Char),
    x ∈ freeSymbols f.expr → x ∉ vars → vars ≠ [] → vars.length = values.length →
    ∀ t : ℚ, ∃ xs v, (f.subs values vars).call xs = .ok v ∧
      eval id (merged (fun _ => t) (vars.zip values)) f.expr = some v) := by
  intro h
  obtain ⟨xs, v, hc, -⟩ := h ⟨.add (.mul (.num 3) (.var ['x'])) (.var ['y']), [['x'], ['y']]⟩ [1]
    [['x']] ['y'] (by decide) (by decide) (by decide) rfl 0
  obtain ⟨e, he⟩ := C23_partial_subs_unusable
    (⟨.add (.mul (.num 3) (.var ['x'])) (.var ['y']), [['x'], ['y']]⟩ : Fn ℚ) [1] [['x']]
    (by decide) (by decide) ['y'] (by decide) (by decide) xs
  rw [he] at hc; cases hc

end

end Verif.Rel.Props
