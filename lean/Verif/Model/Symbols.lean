import Verif.Prelude
import Mathlib.Algebra.Ring.Defs
import Mathlib.Data.List.Dedup

/-!
# Model of symbols with the same name: `function/symutils.py` 20-97, `function/function.py` 164-201, 343-366

SymPy tells symbols with the same name but different assumptions apart.  A symbol is its name and a
number for its assumptions, 0 for none (as in parsed text).  `lambdify` writes code in which only names
occur, derivatives and substitutions look at the symbols.

Modelled for polynomial expressions (`Model/Calculus` has other functions).  `simplify` changes no values and is left out.  Variables with equal
names are not modelled faithfully (the first one counts here).
-/

namespace Verif.Syms

/-- A symbol. -/
structure Sym (N : Type) where
  name : N
  kind : ℕ
  deriving DecidableEq

/-- `Symbol(name)`: no assumptions. -/
def plain {N : Type} (x : N) : Sym N := ⟨x, 0⟩

/-- Expressions. -/
inductive E (N K : Type)
  | num (c : K)
  | sym (s : Sym N)
  | neg (a : E N K)
  | add (a b : E N K)
  | mul (a b : E N K)
  | pow (a : E N K) (n : ℕ)

/-- A variable as given by the user: a symbol or its name. -/
inductive Var (N : Type)
  | symbol (s : Sym N)
  | text (x : N)

section
variable {N K : Type} [DecidableEq N] [CommRing K]

/-- The value, a value for every symbol being given. -/
def E.eval (ρ : Sym N → K) : E N K → K
  | .num c => c
  | .sym s => ρ s
  | .neg a => -a.eval ρ
  | .add a b => a.eval ρ + b.eval ρ
  | .mul a b => a.eval ρ * b.eval ρ
  | .pow a n => a.eval ρ ^ n

/-- The symbols that occur. -/
def E.syms : E N K → List (Sym N)
  | .num _ => []
  | .sym s => [s]
  | .neg a => a.syms
  | .add a b => a.syms ++ b.syms
  | .mul a b => a.syms ++ b.syms
  | .pow a _ => a.syms

/-- Replace a symbol. -/
def subs1 (s : Sym N) (r : E N K) : E N K → E N K
  | .num c => .num c
  | .sym t => if t = s then r else .sym t
  | .neg a => .neg (subs1 s r a)
  | .add a b => .add (subs1 s r a) (subs1 s r b)
  | .mul a b => .mul (subs1 s r a) (subs1 s r b)
  | .pow a n => .pow (subs1 s r a) n

/-- The derivative with respect to a symbol. -/
def diff (s : Sym N) : E N K → E N K
  | .num _ => .num 0
  | .sym t => if t = s then .num 1 else .num 0
  | .neg a => .neg (diff s a)
  | .add a b => .add (diff s a) (diff s b)
  | .mul a b => .add (.mul (diff s a) b) (.mul a (diff s b))
  | .pow a n => .mul (.mul (.num (n : K)) (.pow a (n - 1))) (diff s a)

/-- What `subs` replaces: `str(v)` is read as a symbol without assumptions (line 97), a symbol is taken as
it is (line 95), a name is read as a symbol without assumptions. -/
def key (asString : Bool) : Var N → Sym N
  | .symbol s => if asString then plain s.name else s
  | .text x => plain x

/-- `substitute`, `function/symutils.py` 65-97, with given variables: one after the other. -/
def substitute (e : E N K) (values : List (E N K)) (vars : List (Var N)) (asString : Bool) : E N K :=
  (vars.zip values).foldl (fun e p => subs1 (key asString p.1) p.2 e) e

/-- `function/symutils.py` 38-39: unless all are symbols, all are read as names; `symbols` takes no
symbols. -/
def toSymbols (vars : List (Var N)) : Py (List (Sym N)) :=
  if vars.all fun v => match v with | .symbol _ => true | .text _ => false then
    .ok (vars.filterMap fun v => match v with | .symbol s => some s | .text _ => none)
  else if vars.all fun v => match v with | .symbol _ => false | .text _ => true then
    .ok (vars.filterMap fun v => match v with | .symbol _ => none | .text x => some (plain x))
  else .error .type

/-- A symbolic function: `expr`, `variables`, `from_str`. -/
structure Fn (N K : Type) where
  expr : E N K
  vars : List (Sym N)
  fromStr : Bool

/-- `decode` and `symbolize`, `function/symutils.py` 20-62.  Without variables (line 34) they are the
symbols of the expression, here in the order of their first appearance (a Python set has no order; nothing
is proved about it). -/
def symbolize (e : E N K) (vars : List (Var N)) (fromStr : Bool) : Py (Fn N K) :=
  if vars.isEmpty then .ok ⟨e, e.syms.reverse.dedup.reverse, fromStr⟩
  else (toSymbols vars).map fun vs =>
    ⟨substitute e (vs.map E.sym) (vs.map Var.symbol) true, vs, fromStr⟩

/-- `Function(f0, variables=vars)`, `function/function.py` 164-201: `f0` is text (with the parsed
expression) or an expression. -/
def construct (isText : Bool) (e : E N K) (vars : List (Var N)) : Py (Fn N K) := symbolize e vars isText

/-- The values of names in code: the value of the argument with the name. -/
def bind (vs : List (Sym N)) (xs : List K) (x : N) : Option K :=
  ((vs.zip xs).find? fun p => p.1.name = x).map Prod.snd

/-- Code made by `lambdify([variables], expr)`: `ValueError` for a wrong number of values, `NameError`
(`.generic`) for a name without value. -/
def run (e : E N K) (vs : List (Sym N)) (xs : List K) : Py K :=
  if xs.length ≠ vs.length then .error .value
  else if e.syms.all fun s => (bind vs xs s.name).isSome then
    .ok (e.eval fun s => (bind vs xs s.name).getD 0)
  else .error .generic

/-- `f(xs)` -/
def Fn.call (f : Fn N K) (xs : List K) : Py K := run f.expr f.vars xs

/-- `f.g(xs)`: the derivatives with respect to the variables. -/
def Fn.gradient (f : Fn N K) (xs : List K) : Py (List K) :=
  pyMap (fun v => run (diff v f.expr) f.vars xs) f.vars

/-- `f.subs(values, variables)`, `function/function.py` 343-366; the result does not know that it was made
from text, and `inplace=True` changes `f` in the same way. -/
def Fn.subs (f : Fn N K) (values : List K) (vars : List (Var N)) : Py (Fn N K) :=
  symbolize (substitute f.expr (values.map E.num) vars f.fromStr) vars false

end

end Verif.Syms
