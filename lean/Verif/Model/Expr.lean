import Verif.Model.Relation
import Mathlib.Algebra.Field.Defs
import Mathlib.Data.Nat.Cast.Defs

/-!
# Model of symbolic expressions, `function/symutils.py` and the symbolic part of
`function/function.py`

SymPy is not part of the repository.  What is modelled is the fragment the properties speak
about: expressions over decimal numbers, variables, `+`, `-`, `*`, `/`, unary signs and
parentheses, read from text with Python's precedence rules (this is what
`sympy.parsing.sympy_parser.parse_expr` does, it hands the text to Python's own grammar) and
evaluated in a field, where division by zero has no value.

Not modelled: powers, function calls, names that SymPy predefines (`E`, `I`, `pi`, …), exponent
notation of numbers, and `expr.simplify()`, of which only is used that it does not change the
value of an expression where that is defined.
-/

namespace Verif.Sym

open Verif.Rel (isWs)

/-- Symbolic expressions with numbers of type `L`. -/
inductive Expr (L : Type)
  | num (c : L)
  | var (x : List Char)
  | neg (a : Expr L)
  | add (a b : Expr L)
  | sub (a b : Expr L)
  | mul (a b : Expr L)
  | div (a b : Expr L)
deriving DecidableEq, Repr

/-- A decimal literal: the number `m·10^(-k)` of the pair `(m, k)`. -/
abbrev Decimal := ℕ × ℕ

/-- The number denoted by a decimal literal. -/
def Decimal.val {K : Type} [Field K] (d : Decimal) : K := (d.1 : K) / (10 : K) ^ d.2

/-! ### Text to expression -/

/-- The tokens of the fragment. -/
inductive Tok
  | word (w : List Char)
  | plus | minus | times | slash | lpar | rpar
deriving DecidableEq, Repr

/-- Characters of numbers and names. -/
def isWordChar (c : Char) : Bool := c.isAlphanum || c == '_' || c == '.'

/-- Single character tokens. -/
def opTok : Char → Option Tok
  | '+' => some .plus
  | '-' => some .minus
  | '*' => some .times
  | '/' => some .slash
  | '(' => some .lpar
  | ')' => some .rpar
  | _ => none

/-- The word collected so far, if any, in front of the other tokens. -/
def flush (cur : List Char) (ts : List Tok) : List Tok :=
  if cur = [] then ts else .word cur :: ts

/-- The tokenizer: white space separates tokens, words are as long as possible.  `cur` is the
word being read. -/
def lexAux : List Char → List Char → Option (List Tok)
  | [], cur => some (flush cur [])
  | c :: cs, cur =>
    if isWordChar c then lexAux cs (cur ++ [c])
    else if isWs c then (lexAux cs []).map (flush cur)
    else match opTok c with
      | some t => (lexAux cs []).map fun ts => flush cur (t :: ts)
      | none => none

/-- The tokens of a text. -/
def lex (s : List Char) : Option (List Tok) := lexAux s []

/-- Value of a string of digits. -/
def digitsVal (ds : List Char) : ℕ := ds.foldl (fun a c => 10 * a + (c.toNat - '0'.toNat)) 0

/-- A word is a name (starting with a letter or `_`, without a dot) or a decimal number. -/
def wordExpr (w : List Char) : Option (Expr Decimal) :=
  match w with
  | [] => none
  | c :: cs =>
    if c.isAlpha || c == '_' then
      if cs.all (fun c => c.isAlphanum || c == '_') then some (.var w) else none
    else
      let ip := w.takeWhile Char.isDigit
      let rest := w.dropWhile Char.isDigit
      match rest with
      | [] => some (.num (digitsVal ip, 0))
      | d :: fp =>
        if d == '.' && fp.all Char.isDigit && !(ip.isEmpty && fp.isEmpty) then
          some (.num (digitsVal (ip ++ fp), fp.length))
        else none

/-- The nonterminals of a recursive descent parser; the loops carry what was read so far. -/
inductive Mode
  | sum
  | sumLoop (acc : Expr Decimal)
  | term
  | termLoop (acc : Expr Decimal)
  | factor

/-- The parser: left associative sums of left associative products of signed atoms. -/
def parse : ℕ → Mode → List Tok → Option (Expr Decimal × List Tok)
  | 0, _, _ => none
  | n + 1, .sum, ts => do
      let (e, r) ← parse n .term ts
      parse n (.sumLoop e) r
  | n + 1, .sumLoop acc, .plus :: ts => do
      let (e, r) ← parse n .term ts
      parse n (.sumLoop (.add acc e)) r
  | n + 1, .sumLoop acc, .minus :: ts => do
      let (e, r) ← parse n .term ts
      parse n (.sumLoop (.sub acc e)) r
  | _ + 1, .sumLoop acc, ts => some (acc, ts)
  | n + 1, .term, ts => do
      let (e, r) ← parse n .factor ts
      parse n (.termLoop e) r
  | n + 1, .termLoop acc, .times :: ts => do
      let (e, r) ← parse n .factor ts
      parse n (.termLoop (.mul acc e)) r
  | n + 1, .termLoop acc, .slash :: ts => do
      let (e, r) ← parse n .factor ts
      parse n (.termLoop (.div acc e)) r
  | _ + 1, .termLoop acc, ts => some (acc, ts)
  | n + 1, .factor, .minus :: ts => do
      let (e, r) ← parse n .factor ts
      some (.neg e, r)
  | n + 1, .factor, .plus :: ts => parse n .factor ts
  | n + 1, .factor, .lpar :: ts => do
      let (e, r) ← parse n .sum ts
      match r with
      | .rpar :: r' => some (e, r')
      | _ => none
  | _ + 1, .factor, .word w :: ts => (wordExpr w).map fun e => (e, ts)
  | _ + 1, .factor, _ => none

/-- `parse_expr(text, evaluate=False)`, used by `decode`, `function/symutils.py` 31-32.  The
first argument of `parse` bounds the depth of the recursion; `parse_fuel` in the proofs shows
that this bound never matters. -/
def parseExpr (s : List Char) : Option (Expr Decimal) := do
  let ts ← lex s
  match parse (3 * ts.length + 3) .sum ts with
  | some (e, []) => some e
  | _ => none

/-! ### Values -/

/-- Value of an expression at a point, given the values of its numbers; no value if a divisor is
zero. -/
def eval {K L : Type} [Field K] [DecidableEq K] (lit : L → K) (ρ : List Char → K) :
    Expr L → Option K
  | .num c => some (lit c)
  | .var x => some (ρ x)
  | .neg a => do return - (← eval lit ρ a)
  | .add a b => do return (← eval lit ρ a) + (← eval lit ρ b)
  | .sub a b => do return (← eval lit ρ a) - (← eval lit ρ b)
  | .mul a b => do return (← eval lit ρ a) * (← eval lit ρ b)
  | .div a b => do
      let x ← eval lit ρ a
      let y ← eval lit ρ b
      if y = 0 then none else return x / y

/-- Names occurring in an expression: `expr.free_symbols` (with repetitions). -/
def freeSymbols {L : Type} : Expr L → List (List Char)
  | .num _ => []
  | .var x => [x]
  | .neg a => freeSymbols a
  | .add a b => freeSymbols a ++ freeSymbols b
  | .sub a b => freeSymbols a ++ freeSymbols b
  | .mul a b => freeSymbols a ++ freeSymbols b
  | .div a b => freeSymbols a ++ freeSymbols b

/-! ### Substitution -/

/-- One step of `expr.subs([(v, val), …])`: replace a variable by an expression. -/
def subst1 {L : Type} (x : List Char) (t : Expr L) : Expr L → Expr L
  | .num c => .num c
  | .var y => if y = x then t else .var y
  | .neg a => .neg (subst1 x t a)
  | .add a b => .add (subst1 x t a) (subst1 x t b)
  | .sub a b => .sub (subst1 x t a) (subst1 x t b)
  | .mul a b => .mul (subst1 x t a) (subst1 x t b)
  | .div a b => .div (subst1 x t a) (subst1 x t b)

/-- `substitute`, `function/symutils.py` 65-97: `expr.subs` with a list of pairs performs the
substitutions one after the other in the order of the list; `zip` stops at the shorter list.
Matching variables by object (line 95) or by name (line 97) is the same here, variables are their
names. -/
def substitute {L : Type} (e : Expr L) (values : List (Expr L)) (vars : List (List Char)) :
    Expr L :=
  (vars.zip values).foldl (fun e p => subst1 p.1 p.2 e) e

/-- A symbolic `Function`: its expression and its variables (`function/function.py` 176-201). -/
structure Fn (K : Type) where
  expr : Expr K
  vars : List (List Char)

namespace Fn
variable {K : Type}

/-- The value a parameter list `vars` gets from the argument list `xs` (zero elsewhere; the
callers check that this is never read). -/
def point [Zero K] (vars : List (List Char)) (xs : List K) : List Char → K
  | x => ((vars.zip xs).find? fun p => p.1 == x).elim 0 Prod.snd

/-- `f(xs)` for a symbolic function: `lambdify([variables], expr)` (`function/symutils.py` 50)
unpacks its argument into the variables (`ValueError` on a different number of values) and then
evaluates the expression (`NameError` if a symbol is not among the variables;
division by zero as `ZeroDivisionError`). -/
def call [Field K] [DecidableEq K] (f : Fn K) (xs : List K) : Py K :=
  if xs.length ≠ f.vars.length then .error .value
  else if ¬ (freeSymbols f.expr).all (· ∈ f.vars) then .error .generic
  else match eval id (point f.vars xs) f.expr with
    | some v => .ok v
    | none => .error .zeroDiv

/-- `Function.subs(values, variables)`, `function/function.py` 343-366, with the variables given:
lines 359-360; `decode` (`function/symutils.py` 37-41) keeps a nonempty list of variables as it
is (its substitution of each variable by itself does nothing) and derives the variables from the
expression if the list is empty. -/
def subs (f : Fn K) (values : List K) (vars : List (List Char)) : Fn K :=
  let e := substitute f.expr (values.map .num) vars
  ⟨e, if vars = [] then (freeSymbols e).dedup else vars⟩

end Fn

/-! ### Relations from text -/

/-- A relation built from one text argument and no operator argument. -/
structure TextRelation (K : Type) where
  attrs : Rel.Attrs K
  expr : Expr Decimal

/-- `Relation(text)` / `Equality(text)` / `InEquality(text)`: `__new__`, `__init__`
(`function/relation.py` 82-165) and `decode` (`function/symutils.py` 31-32); a text that cannot
be parsed raises (`SyntaxError`, here `.generic`). -/
def relationOfText {K : Type} [LinearOrder K] (cls : Rel.Cls) (s : List Char) :
    Py (TextRelation K) := do
  let a ← Rel.construct cls (.text s) .absent none
  match a.text with
  | none => .error .generic
  | some t =>
    match parseExpr t with
    | some e => return ⟨a, e⟩
    | none => .error .generic

/-- `relate` of such a relation at the point `ρ`; `none` if the expression has no value. -/
def TextRelation.relate {K : Type} [Field K] [LinearOrder K] (r : TextRelation K)
    (ρ : List Char → K) : Option Bool :=
  (eval Decimal.val ρ r.expr).map r.attrs.relateValue

end Verif.Sym
