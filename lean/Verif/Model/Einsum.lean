import Verif.Model.TensorOps

/-!
# Index letters: `Tensor.transform_components` (`linalg/tensor.py` 93-109) and the contraction in `dot`
(`linalg/utils.py` 227-242) as `numpy.einsum` sees them

The code writes a command for `numpy.einsum`: letters for the axes of every operand, no output.  A letter is
its distance from `a` here; `latinrange(n, start)` gives `n` consecutive characters (`sigmaepsilon.core`, not
part of the repository).  Behind `z` there are no letters, and `einsum` refuses the command.  The order in which
`einsum` contracts (`einsum_path`, and the class attribute in which it is kept) is in `Verif.Model.EinsumPath`;
stacks of tensors, for which the three dots in the command of `dot` are meant, are not modelled.
-/

namespace Verif.Frames

section
variable {n : ℕ} {K : Type} [Field K] [LinearOrder K]

/-- An array with `n` values per axis. -/
abbrev Arr (n : ℕ) (K : Type) := (r : ℕ) × ((Fin r → Fin n) → K)

/-- An operand of `einsum`: its letters, one for each axis, and its values. -/
structure EinsumOp (n : ℕ) (K : Type) where
  letters : List ℕ
  arr : (Fin letters.length → Fin n) → K

/-- The value of the letter `l` if those in `out` have the values `t` and those in `inner` the values `s`.
Every letter of a command is in one of them; the last value is not used. -/
def letterValue [NeZero n] (out inner : List ℕ) (t : Fin out.length → Fin n) (s : Fin inner.length → Fin n)
    (l : ℕ) : Fin n :=
  if h : out.idxOf l < out.length then t ⟨out.idxOf l, h⟩
  else if h : inner.idxOf l < inner.length then s ⟨inner.idxOf l, h⟩
  else 0

/-- `numpy.einsum` without an output in the command: the letters that occur once, in alphabetical order, are
the axes of the result; the sum is taken over the others. -/
def einsum [NeZero n] (ops : List (EinsumOp n K)) : Py (Arr n K) :=
  let all := ops.flatMap EinsumOp.letters
  if all.all (· < 26) then
    let out := (List.range 26).filter fun l => all.count l == 1
    let inner := (List.range 26).filter fun l => decide (1 < all.count l)
    .ok ⟨out.length, fun t => ∑ s : Fin inner.length → Fin n,
      (ops.map fun o => o.arr fun k => letterValue out inner t s (o.letters.get k)).prod⟩
  else .error .value

/-- The operands of `Tensor.transform_components`, `linalg/tensor.py` 97-104: the command is
`"ad,be,cf,def"` for three indices. -/
def transformOperands (Q : Mat n K) (r : ℕ) (a : (Fin r → Fin n) → K) : List (EinsumOp n K) :=
  ((List.range r).map fun k => (⟨[k, r + k], fun t => Q (t 0) (t 1)⟩ : EinsumOp n K)) ++
    [⟨List.range' r r, fun t => a fun k => t (k.cast List.length_range'.symm)⟩]

/-- `Tensor.transform_components(Q)`, `linalg/tensor.py` 93-109. -/
def transformLetters [NeZero n] (Q : Mat n K) (a : Arr n K) : Py (Arr n K) :=
  einsum (transformOperands Q a.1 a.2)

/-- The arrays of vectors and tensors. -/
def Comps.toArr : Comps n K → Arr n K
  | .vec v => ⟨1, fun t => v (t 0)⟩
  | .ten2 A => ⟨2, fun t => A (t 0) (t 1)⟩
  | .gen r a => ⟨r, a⟩

/-- The number of indices: the property `rank`. -/
def Comps.rank : Comps n K → ℕ
  | .vec _ => 1
  | .ten2 _ => 2
  | .gen r _ => r

/-- The tensor with the components `a`; one and two indices are written as in `Verif.Model.TensorOps`. -/
def Comps.ofArr (a : Arr n K) : Comps n K :=
  match a with
  | ⟨1, x⟩ => .vec fun i => x ![i]
  | ⟨2, x⟩ => .ten2 fun i j => x ![i, j]
  | ⟨r, x⟩ => .gen r x

/-- The components transformed by `Q`, with the limit on the number of letters: vectors and `Tensor2` have
their own implementations. -/
def Comps.transformL [NeZero n] (Q : Mat n K) (c : Comps n K) : Py (Comps n K) :=
  match c with
  | .gen r a => do return Comps.ofArr (← transformLetters Q ⟨r, a⟩)
  | c => .ok (c.transform Q)

/-- `self.show(target)`, `linalg/tensor.py` 111-135. -/
def Tensor.showL [NeZero n] (cfg : Cfg K) (a : Tensor n K) (target : Option (Frame n K)) :
    Py (Comps n K) := do
  a.comps.transformL (← a.frame.dcmTarget cfg (target.getD ambientFrame))

/-- `result.frame = frame`, `linalg/meta.py` 410-430. -/
def Tensor.moveToL [NeZero n] (cfg : Cfg K) (a : Tensor n K) (frame : Option (Frame n K)) :
    Py (Tensor n K) :=
  match frame with
  | none => .ok a
  | some f => do return ⟨← a.showL cfg (some f), f⟩

/-- The position that `i` means in a list of `r` elements; negative numbers count from the end. -/
def axisOf (r : ℕ) (i : ℤ) : Py ℕ :=
  if 0 ≤ i ∧ i < r then .ok i.toNat
  else if -r ≤ i ∧ i < 0 then .ok (i + r).toNat
  else .error .index

/-- The operands of the contraction, `linalg/utils.py` 232-238: with the axes 1 and 0 of tensors with three
and two indices the command is `"...afc,...fe"`. -/
def contractOperands (x y : Arr n K) (ax bx : ℕ) : List (EinsumOp n K) :=
  [⟨(List.range x.1).set ax (x.1 + y.1), fun t => x.2 fun k => t (k.cast (by simp))⟩,
   ⟨(List.range' x.1 y.1).set bx (x.1 + y.1), fun t => y.2 fun k => t (k.cast (by simp))⟩]

/-- The result of a contraction, `linalg/utils.py` 240-243: it is made by `_from_any_input` of the class of the
first operand (`linalg/tensor.py` 76-84), which vectors do not have (`linalg/meta.py` 363-365), and then moved
to the frame asked for. -/
def contractResult [NeZero n] (cfg : Cfg K) (a : Comps n K) (frame : Option (Frame n K)) (arr : Arr n K) :
    Py (Tensor n K) :=
  match a with
  | .vec _ => .error .notImplemented
  | _ => (⟨Comps.ofArr arr, ambientFrame⟩ : Tensor n K).moveToL cfg frame

/-- `dot(a, b, frame=frame, axes=axes)` if one of the tensors has more than two indices, `linalg/utils.py`
227-244. -/
def dotGeneral [NeZero n] (cfg : Cfg K) (a b : Tensor n K) (frame : Option (Frame n K))
    (axes : Option (ℤ × ℤ)) : Py (Tensor n K) :=
  match axes with
  | none => .error .missingInput
  | some (i, j) => do
    let ax ← axisOf a.comps.rank i
    let bx ← axisOf b.comps.rank j
    let x := (← a.showL cfg none).toArr
    let y := (← b.showL cfg none).toArr
    let arr ← einsum (contractOperands x y ax bx)
    contractResult cfg a.comps frame arr

end
end Verif.Frames
