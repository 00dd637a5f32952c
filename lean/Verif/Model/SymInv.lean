import Verif.Prelude
import Mathlib.Algebra.Field.Defs
import Mathlib.Data.Fintype.Basic
import Mathlib.Data.List.FinRange

/-!
# Model of `inv_sym_3x3` and of the small matrix products, `linalg/utils.py` 638-701

SymPy is not part of the repository.  Expressions are trees; what is modelled is `subs` with a
dictionary, which replaces one symbol after the other (symbols in alphabetical order), and the value of
an expression at a point, where division by zero has none.  SymPy may rearrange expressions without
changing their values; this is not modelled.
-/

namespace Verif.SymInv

/-- Symbols: `P i j` is the real symbol named `P_{ij}` (counted from 1), the others are all
different from these. -/
inductive Sym
  | P (i j : Fin 3)
  | other (k : ℕ)
  deriving DecidableEq

/-- Expressions. -/
inductive E (K : Type)
  | num (c : K)
  | sym (s : Sym)
  | neg (a : E K)
  | add (a b : E K)
  | mul (a b : E K)
  | div (a b : E K)

section
variable {K : Type}

/-- Replace a symbol. -/
def subs1 (s : Sym) (r : E K) : E K → E K
  | .num c => .num c
  | .sym t => if t = s then r else .sym t
  | .neg a => .neg (subs1 s r a)
  | .add a b => .add (subs1 s r a) (subs1 s r b)
  | .mul a b => .mul (subs1 s r a) (subs1 s r b)
  | .div a b => .div (subs1 s r a) (subs1 s r b)

/-- `expr.subs(dict)`: the replacements are made one after the other. -/
def E.subs (e : E K) (l : List (Sym × E K)) : E K := l.foldl (fun e p => subs1 p.1 p.2 e) e

/-- The value at a point. -/
def E.eval [Field K] [DecidableEq K] (ρ : Sym → K) : E K → Option K
  | .num c => some c
  | .sym s => some (ρ s)
  | .neg a => (a.eval ρ).map fun x => -x
  | .add a b => (a.eval ρ).bind fun x => (b.eval ρ).map fun y => x + y
  | .mul a b => (a.eval ρ).bind fun x => (b.eval ρ).map fun y => x * y
  | .div a b => (a.eval ρ).bind fun x => (b.eval ρ).bind fun y => if y = 0 then none else some (x / y)

/-- The symbols that occur. -/
def E.syms : E K → List Sym
  | .num _ => []
  | .sym s => [s]
  | .neg a => a.syms
  | .add a b => a.syms ++ b.syms
  | .mul a b => a.syms ++ b.syms
  | .div a b => a.syms ++ b.syms

/-- Difference of two products. -/
def minor (a b c d : Sym) : E K := .add (.mul (.sym a) (.sym b)) (.neg (.mul (.sym c) (.sym d)))

/-- `P.det()`, `linalg/utils.py` 646. -/
def detP : E K :=
  .add (.add (.mul (.sym (.P 0 0)) (minor (.P 1 1) (.P 2 2) (.P 1 2) (.P 2 1)))
    (.neg (.mul (.sym (.P 0 1)) (minor (.P 1 0) (.P 2 2) (.P 1 2) (.P 2 0)))))
    (.mul (.sym (.P 0 2)) (minor (.P 1 0) (.P 2 1) (.P 1 1) (.P 2 0)))

/-- `P.adjugate()`, `linalg/utils.py` 647: the transposed matrix of cofactors. -/
def adjP (i j : Fin 3) : E K :=
  minor (.P (j + 1) (i + 1)) (.P (j + 2) (i + 2)) (.P (j + 1) (i + 2)) (.P (j + 2) (i + 1))

/-- A matrix of expressions of any shape. -/
structure SMat (K : Type) where
  rows : ℕ
  cols : ℕ
  entry : Fin rows → Fin cols → E K

/-- `sy.flatten` of a matrix: row by row. -/
def SMat.flatten (m : SMat K) : List (E K) :=
  (List.finRange m.rows).flatMap fun i => (List.finRange m.cols).map fun j => m.entry i j

/-- `sy.flatten(P)`. -/
def placeholders : List Sym :=
  (List.finRange 3).flatMap fun i => (List.finRange 3).map fun j => .P i j

/-- `linalg/utils.py` 649: `zip` stops at the shorter one. -/
def table (m : SMat K) : List (Sym × E K) := placeholders.zip m.flatten

/-- `inv_sym_3x3(m)`, `linalg/utils.py` 638-653. -/
def invSym (m : SMat K) (i j : Fin 3) : E K := (E.div (adjP i j) detP).subs (table m)

/-- `inv_sym_3x3(m, as_adj_det=True)`, `linalg/utils.py` 650-651. -/
def detAdjSym (m : SMat K) : E K × (Fin 3 → Fin 3 → E K) :=
  (detP.subs (table m), fun i j => (adjP i j).subs (table m))

end

end Verif.SymInv
