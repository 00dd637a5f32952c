import Verif.Model.Einsum

/-!
# The order in which `einsum` contracts, and where the class `Tensor` keeps it

`Tensor.transform_components` (`linalg/tensor.py` 93-109) asks `numpy.einsum_path` for an order of the
contractions on the first call for a number of indices and keeps it, with the command, in the class attribute
`_einsum_params_` (`linalg/tensor.py` 71) for all later calls, also those for tensors of another dimension.
`numpy.einsum` then works through that order: in each step some of the operands are replaced by their product,
summed over the letters that are needed nowhere else.

How `numpy` finds the order is not modelled: `greedy` is any function of the command and the dimension.  The
values are exact.  Tensors without indices do not exist.
-/

namespace Verif.Frames

section
variable {n : ℕ} {K : Type} [Field K] [LinearOrder K]

/-- The letters of the operands. -/
def lettersOf (ops : List (EinsumOp n K)) : List ℕ := ops.flatMap EinsumOp.letters

/-- The product of the operands as an operand with the letters `keep`, summed over their other letters, here
`gone`. -/
def contractTo [NeZero n] (keep gone : List ℕ) (ops : List (EinsumOp n K)) : EinsumOp n K :=
  ⟨keep, fun t => ∑ s : Fin gone.length → Fin n,
    (ops.map fun o => o.arr fun k => letterValue keep gone t s (o.letters.get k)).prod⟩

/-- The operands at the positions `ps`. -/
def taken {α : Type} (ps : List ℕ) (ops : List α) : List α :=
  (ops.zipIdx.filter fun p => decide (p.2 ∈ ps)).map Prod.fst

/-- The operands at the other positions. -/
def left {α : Type} (ps : List ℕ) (ops : List α) : List α :=
  (ops.zipIdx.filter fun p => !decide (p.2 ∈ ps)).map Prod.fst

/-- One step of `numpy.einsum`: the operands at the positions `ps` are contracted, the result becomes the last
operand.  The letters that occur in the output or in one of the other operands are kept, in alphabetical order
(all axes have the same length). -/
def contractStep [NeZero n] (out : List ℕ) (ps : List ℕ) (ops : List (EinsumOp n K)) : List (EinsumOp n K) :=
  let C := taken ps ops
  let R := left ps ops
  let keep := (List.range 26).filter fun l => l ∈ lettersOf C && (l ∈ lettersOf R || l ∈ out)
  let gone := (List.range 26).filter fun l => l ∈ lettersOf C && !(l ∈ lettersOf R || l ∈ out)
  R ++ [contractTo keep gone C]

/-- All the steps. -/
def contractAll [NeZero n] (out : List ℕ) : List (List ℕ) → List (EinsumOp n K) → Py (Arr n K)
  | [], [o] => .ok ⟨o.letters.length, o.arr⟩
  | [], _ => .error .runtime
  | ps :: path, ops =>
      if ps.all (· < ops.length) then contractAll out path (contractStep out ps ops) else .error .index

/-- `numpy.einsum(command, *operands, optimize=path)`, no output in the command. -/
def einsumPath [NeZero n] (path : List (List ℕ)) (ops : List (EinsumOp n K)) : Py (Arr n K) :=
  if (lettersOf ops).all (· < 26) then
    contractAll ((List.range 26).filter fun l => (lettersOf ops).count l == 1) path ops
  else .error .value

/-- The command, `linalg/tensor.py` 101-104: the letters of each operand. -/
def transformCommand (r : ℕ) : List (List ℕ) :=
  ((List.range r).map fun k => [k, r + k]) ++ [List.range' r r]

/-- Operands with letters from a command; `none` if there are not as many letters as axes. -/
def withLetters : List (List ℕ) → List (Arr n K) → Option (List (EinsumOp n K))
  | [], [] => some []
  | ls :: command, a :: arrs =>
      if h : a.1 = ls.length then
        (withLetters command arrs).map (⟨ls, fun t => a.2 fun k => t (k.cast h)⟩ :: ·)
      else none
  | _, _ => none

/-- `_einsum_params_`: the command and the order of the contractions for a number of indices. -/
abbrev EinsumParams := ℕ → Option (List (List ℕ) × List (List ℕ))

/-- `numpy.einsum` on a command given as letters. -/
def runCommand [NeZero n] (command path : List (List ℕ)) (arrs : List (Arr n K)) : Py (Arr n K) :=
  match withLetters command arrs with
  | none => .error .value
  | some ops => einsumPath path ops

/-- `Tensor.transform_components(Q)`, `linalg/tensor.py` 93-109, with the class attribute.  A command with
characters behind `z` is refused by `einsum_path`, before anything is kept. -/
def transformKept [NeZero n] (greedy : List (List ℕ) → ℕ → List (List ℕ)) (Q : Mat n K) (a : Arr n K)
    (params : EinsumParams) : Py (Arr n K) × EinsumParams :=
  let arrs : List (Arr n K) := List.replicate a.1 ⟨2, fun t => Q (t 0) (t 1)⟩ ++ [a]
  match params a.1 with
  | some (command, path) => (runCommand command path arrs, params)
  | none =>
      let command := transformCommand a.1
      if command.flatten.all (· < 26) then
        let path := greedy command n
        (runCommand command path arrs, Function.update params a.1 (some (command, path)))
      else (.error .value, params)

/-- A call for a tensor of any dimension. -/
structure TransformCall (K : Type) where
  dim : ℕ
  pos : NeZero dim
  Q : Mat dim K
  a : Arr dim K

/-- The outcome of a call. -/
abbrev Outcome (K : Type) := (n : ℕ) × Py (Arr n K)

/-- Calls one after another, in one process. -/
def transformMany (greedy : List (List ℕ) → ℕ → List (List ℕ)) :
    List (TransformCall K) → EinsumParams → List (Outcome K) × EinsumParams
  | [], params => ([], params)
  | c :: cs, params =>
      have := c.pos
      let r := transformKept greedy c.Q c.a params
      let rest := transformMany greedy cs r.2
      (⟨c.dim, r.1⟩ :: rest.1, rest.2)

end
end Verif.Frames
