import Verif.Model.EinsumPath
import Verif.Model.Rounding

/-!
# Transforming the components of a tensor with rounded arithmetic

`Tensor.transform_components` (`linalg/tensor.py` 93-109) as in `Verif.Model.EinsumPath`, with a rounding after
each operation.  In which order `numpy` multiplies the factors of a product and adds the products in each step,
and whether it contracts multiplications and additions, is left open.
-/

namespace Verif.Frames
open Verif Verif.Rnd

/-- How the product of some of the operands is evaluated. -/
inductive ProdPlan
  | one (i : ℕ)
  | mul (l r : ProdPlan)

/-- The operands a product makes use of. -/
def ProdPlan.factors : ProdPlan → List ℕ
  | .one i => [i]
  | .mul l r => l.factors ++ r.factors

/-- The number of multiplications. -/
def ProdPlan.muls : ProdPlan → ℕ
  | .one _ => 0
  | .mul l r => l.muls + r.muls + 1

/-- How a sum of products is evaluated; the last of two factors of a contracted multiply-add is `q`. -/
inductive SumPlan (σ : Type)
  | zero
  | term (s : σ) (p : ProdPlan)
  | add (l r : SumPlan σ)
  | fma (l : SumPlan σ) (s : σ) (p q : ProdPlan)

/-- The products in a sum: which values the letters have, and the operands. -/
def SumPlan.terms {σ : Type} : SumPlan σ → List (σ × List ℕ)
  | .zero => []
  | .term s p => [(s, p.factors)]
  | .add l r => l.terms ++ r.terms
  | .fma l s p q => l.terms ++ [(s, p.factors ++ q.factors)]

/-- The largest number of roundings on the way to the result. -/
def SumPlan.height {σ : Type} : SumPlan σ → ℕ
  | .zero => 0
  | .term _ p => p.muls
  | .add l r => max l.height r.height + 1
  | .fma l _ p q => max l.height (p.muls + q.muls) + 1

section
variable {n : ℕ} {K : Type} [Field K] [LinearOrder K] (fl : K → K)

/-- The rounded product. -/
def ProdPlan.eval (v : ℕ → K) : ProdPlan → K
  | .one i => v i
  | .mul l r => fl (l.eval v * r.eval v)

/-- The rounded sum of products. -/
def SumPlan.eval {σ : Type} (v : σ → ℕ → K) : SumPlan σ → K
  | .zero => 0
  | .term s p => p.eval fl (v s)
  | .add l r => fl (l.eval v + r.eval v)
  | .fma l s p q => fl (l.eval v + p.eval fl (v s) * q.eval fl (v s))

/-- How a step is evaluated: for every number of operands, for all letters that may be kept and summed over, and
for every entry. -/
abbrev Scheme (n : ℕ) := (m : ℕ) → (keep gone : List ℕ) → (Fin keep.length → Fin n) → SumPlan (Fin gone.length → Fin n)

/-- `contractTo` with roundings. -/
def contractToR [NeZero n] (scheme : Scheme n) (keep gone : List ℕ) (ops : List (EinsumOp n K)) : EinsumOp n K :=
  ⟨keep, fun t => (scheme ops.length keep gone t).eval fl fun s i =>
    ((ops.map fun o => o.arr fun k => letterValue keep gone t s (o.letters.get k))[i]?).getD 0⟩

/-- `contractStep` with roundings. -/
def contractStepR [NeZero n] (scheme : Scheme n) (out : List ℕ) (ps : List ℕ) (ops : List (EinsumOp n K)) :
    List (EinsumOp n K) :=
  let C := taken ps ops
  let R := left ps ops
  let keep := (List.range 26).filter fun l => l ∈ lettersOf C && (l ∈ lettersOf R || l ∈ out)
  let gone := (List.range 26).filter fun l => l ∈ lettersOf C && !(l ∈ lettersOf R || l ∈ out)
  R ++ [contractToR fl scheme keep gone C]

/-- All the steps; `scheme k` belongs to the step with the number `k`. -/
def contractAllR [NeZero n] (scheme : ℕ → Scheme n) (out : List ℕ) :
    ℕ → List (List ℕ) → List (EinsumOp n K) → Py (Arr n K)
  | _, [], [o] => .ok ⟨o.letters.length, o.arr⟩
  | _, [], _ => .error .runtime
  | k, ps :: path, ops =>
      if ps.all (· < ops.length) then
        contractAllR scheme out (k + 1) path (contractStepR fl (scheme k) out ps ops)
      else .error .index

/-- `numpy.einsum(command, *operands, optimize=path)` with roundings. -/
def einsumPathR [NeZero n] (scheme : ℕ → Scheme n) (path : List (List ℕ)) (ops : List (EinsumOp n K)) :
    Py (Arr n K) :=
  if (lettersOf ops).all (· < 26) then
    contractAllR fl scheme ((List.range 26).filter fun l => (lettersOf ops).count l == 1) 0 path ops
  else .error .value

/-- `runCommand` with roundings. -/
def runCommandR [NeZero n] (scheme : ℕ → Scheme n) (command path : List (List ℕ)) (arrs : List (Arr n K)) :
    Py (Arr n K) :=
  match withLetters command arrs with
  | none => .error .value
  | some ops => einsumPathR fl scheme path ops

/-- `Tensor.transform_components(Q)` with the class attribute and with roundings, `linalg/tensor.py` 93-109. -/
def transformKeptR [NeZero n] (greedy : List (List ℕ) → ℕ → List (List ℕ)) (scheme : ℕ → Scheme n) (Q : Mat n K)
    (a : Arr n K) (params : EinsumParams) : Py (Arr n K) × EinsumParams :=
  let arrs : List (Arr n K) := List.replicate a.1 ⟨2, fun t => Q (t 0) (t 1)⟩ ++ [a]
  match params a.1 with
  | some (command, path) => (runCommandR fl scheme command path arrs, params)
  | none =>
      let command := transformCommand a.1
      if command.flatten.all (· < 26) then
        let path := greedy command n
        (runCommandR fl scheme command path arrs, Function.update params a.1 (some (command, path)))
      else (.error .value, params)

/-- Calls one after another, in one process; `scheme` tells how a call for a dimension is evaluated. -/
def transformManyR (greedy : List (List ℕ) → ℕ → List (List ℕ)) (scheme : (n : ℕ) → ℕ → Scheme n) :
    List (TransformCall K) → EinsumParams → List (Outcome K) × EinsumParams
  | [], params => ([], params)
  | c :: cs, params =>
      have := c.pos
      let r := transformKeptR fl greedy (scheme c.dim) c.Q c.a params
      let rest := transformManyR greedy scheme cs r.2
      (⟨c.dim, r.1⟩ :: rest.1, rest.2)

end
end Verif.Frames
