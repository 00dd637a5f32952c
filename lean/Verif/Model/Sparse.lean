import Verif.Model.ArraySetOps
import Mathlib.Algebra.BigOperators.Group.List.Basic

/-!
# Model of `linalg/sparse`

Values are elements of an additive monoid (the code converts them to `float64`), pointers and
column indices are natural numbers.  The parallel kernels `count_cols` and `get_shape_sp` are
run with an explicit order of their iterations.
-/

namespace Verif.Sparse
open Verif

/-- `l[i]` with Python's convention for negative indices. -/
def pyIdx {α : Type} (l : List α) (i : ℤ) : Py α :=
  if 0 ≤ i then pyGet l i.toNat
  else if -(l.length : ℤ) ≤ i then pyGet l (l.length + i).toNat
  else .error .index

/-- `l[a:b]` for nonnegative bounds. -/
def slice {α : Type} (l : List α) (a b : ℕ) : List α := (l.take b).drop a

/-- csr.py:25 `csr_matrix`: the attributes. -/
structure Csr (α : Type) where
  data : List α
  indices : List ℕ
  indptr : List ℕ
  shape : ℕ × ℤ

section
variable {α : Type}

/-- csr.py:120-125: a SciPy sparse matrix, given by its CSR arrays and its shape. -/
def ofScipy (data : List α) (indices indptr : List ℕ) (shape : ℕ × ℕ) : Csr α :=
  ⟨data, indices, indptr, (shape.1, (shape.2 : ℤ))⟩

/-- csr.py:126-136: a dense array of shape `(n, m)`, given by its rows. -/
def ofDense (n m : ℕ) (rows : List (List α)) : Csr α where
  data := rows.flatten
  indices := (List.replicate n (List.range m)).flatten
  indptr := (List.range (n + 1)).map (fun k => k * m)
  shape := (n, m)

/-- sparse/utils.py:18-24 `get_shape_sp`; the maximum of an empty array raises. -/
def getShapeSp (indptr : List ℕ) (sched : List ℕ) : Py (ℕ × ℤ) :=
  let nE := indptr.length - 1
  let widths : List ℤ := sched.foldl
    (fun w iE => w.set iE ((indptr.getD (iE + 1) 0 : ℤ) - (indptr.getD iE 0 : ℤ))) (List.replicate nE 0)
  match widths.max? with
  | some w => .ok (nE, w)
  | none => .error .value

/-- sparse/utils.py:36-48 `_jagged_to_csr_data_`: the lists written to the two builders. -/
def jaggedToCsrData (counts : List ℕ) : List (List ℕ) × List ℕ :=
  let r := (List.range counts.length).foldl
    (fun (s : ℕ × List (List ℕ) × List ℕ) i =>
      let c := s.1 + counts.getD i 0
      (c, s.2.1 ++ [(List.range (counts.getD i 0)).foldl (fun l j => l ++ [j]) []], s.2.2 ++ [c]))
    (0, [], [0])
  r.2

/-- csr.py:137-146: an awkward array, given by its rows. -/
def ofAwkward (rows : List (List α)) (sched : List ℕ) : Py (Csr α) := do
  let cc := Utils.countCols rows sched
  let (bi, bptr) := jaggedToCsrData cc
  let shape ← getShapeSp bptr sched
  return ⟨rows.flatten, bi.flatten, bptr, shape⟩

/-- csr.py:147-153: the three arrays and an optional shape. -/
def ofArrays (data : List α) (indices indptr : List ℕ) (shape : Option (ℕ × ℤ)) (sched : List ℕ) :
    Py (Csr α) := do
  let shape ← match shape with
    | some s => .ok s
    | none => getShapeSp indptr sched
  return ⟨data, indices, indptr, shape⟩

/-- csr.py:168-176 `eye`. -/
def eye [One α] (N : ℕ) : Csr α :=
  ⟨List.replicate N 1, List.range N, List.range (N + 1), (N, N)⟩

/-- csr.py:178-192 `row`. -/
def Csr.row (c : Csr α) (i : ℤ) : Py (List α) := do
  let a ← pyIdx c.indptr i
  let b ← pyIdx c.indptr (i + 1)
  return slice c.data a b

/-- csr.py:194-204 `irow`. -/
def Csr.irow (c : Csr α) (i : ℤ) : Py (List ℕ) := do
  let a ← pyIdx c.indptr i
  let b ← pyIdx c.indptr (i + 1)
  return slice c.indices a b

/-- csr.py:155-166 `to_numpy`: SciPy's `toarray`, the entries of row `i` being added to the
cells named by their column indices. -/
def Csr.toNumpy [AddMonoid α] (c : Csr α) (i j : ℕ) : α :=
  ((List.range' (c.indptr.getD i 0) (c.indptr.getD (i + 1) 0 - c.indptr.getD i 0)).foldl
    (fun acc k => if c.indices.getD k 0 = j then acc + c.data.getD k 0 else acc) 0)

/-! ## `JaggedArray` -/

/-- What a `JaggedArray` wraps: a NumPy array of shape `(n, m)` or an awkward array. -/
inductive Wrapped (α : Type)
  | np (n m : ℕ) (rows : List (List α))
  | ak (rows : List (List α))

/-- The kinds of input data: arrays of dimension 1, 2 and more, a list of lists, a list of
2d arrays (rows of each), an awkward array, anything else that is not empty (for an empty tuple or the
like `get_data` returns `None`, which is not modelled). -/
inductive Data (α : Type)
  | arr1 (flat : List α)
  | arr2 (n m : ℕ) (rows : List (List α))
  | arrN
  | lists (rows : List (List α))
  | mats (ms : List (List (List α)))
  | awkward (rows : List (List α))
  | other

/-- What `get_data` returns: two-dimensional data or the three-dimensional awkward array made
of a list of 2d arrays. -/
inductive Got (α : Type)
  | two (w : Wrapped α)
  | three (ms : List (List (List α)))

/-- `ak.unflatten` raises if the counts do not fit. -/
def akUnflatten (flat : List α) (cuts : List ℕ) : Py (List (List α)) :=
  if cuts.sum = flat.length then .ok (ASO.unflatten flat cuts) else .error .value

/-- jaggedarray.py:30-75 `get_data`. A list of 2d arrays of any shapes is accepted by
`ak.Array`, so that the branch behind the exception is only reached with `fallback`. Cuts
are natural numbers. -/
def getData (data : Data α) (cuts : Option (List ℕ)) (fallback : Bool) : Py (Got α) :=
  match data with
  | .arr1 flat =>
    match cuts with
    | none => .error .assertion
    | some cuts => do
      let rows ← akUnflatten flat cuts
      return .two (.ak rows)
  | .arr2 n m rows => .ok (.two (.np n m rows))
  | .arrN => .error .assertion
  | .lists rows => if fallback then .error .attribute else .ok (.two (.ak rows))
  | .mats ms =>
    if fallback then do
      let rows ← akUnflatten (ms.map List.flatten).flatten (ms.map (List.map List.length)).flatten
      return .two (.ak rows)
    else .ok (.three ms)
  | .awkward rows => .ok (.two (.ak rows))
  | .other => .error .type

/-- The numbers of columns of the rows (sparse/utils.py:27-33 `count_cols`, run in the
sequential order; C34 shows that the order does not matter). -/
def cc {β : Type} (rows : List (List β)) : List ℕ := Utils.countCols rows (List.range rows.length)

/-- jaggedarray.py:154-158: regular data become a NumPy array. -/
def forceNumpy (w : Wrapped α) (force : Bool) : Wrapped α :=
  match w with
  | .np n m rows => .np n m rows
  | .ak rows =>
    if force then
      if (cc rows).dedup.length = 1 then .np rows.length ((cc rows).headD 0) rows else .ak rows
    else .ak rows

/-- jaggedarray.py:143-159 `__init__` for two-dimensional data. -/
def init (data : Data α) (cuts : Option (List ℕ)) (force : Bool) : Py (Wrapped α) := do
  match ← getData data cuts false with
  | .two w => return forceNumpy w force
  | .three _ => .error .notImplemented

/-- jaggedarray.py:230-238 `to_list`: the rows. -/
def Wrapped.rows : Wrapped α → List (List α)
  | .np _ _ rows => rows
  | .ak rows => rows

/-- jaggedarray.py:253-257 `widths`. -/
def Wrapped.widths (w : Wrapped α) : List ℕ := cc w.rows

/-- `widths` of the three-dimensional case: the lengths of the items. -/
def Got.widths : Got α → List ℕ
  | .two w => w.widths
  | .three ms => cc ms

/-- jaggedarray.py:246-251 `is_jagged`. -/
def Wrapped.isJagged (w : Wrapped α) : Py Bool := do
  let w0 ← pyGet w.widths 0
  return !(w.widths.all (fun x => x == w0))

/-- jaggedarray.py:259-264 `size`. -/
def Wrapped.size (w : Wrapped α) : ℕ := w.widths.sum

/-- jaggedarray.py:266-281 `flatten` (the data). -/
def Wrapped.flatten (w : Wrapped α) : List α := w.rows.flatten

/-- `flatten(return_cuts=True)`. -/
def Wrapped.flattenCuts (w : Wrapped α) : List ℕ × List α := (w.widths, w.rows.flatten)

/-- jaggedarray.py:283-294 `shape`: the second item is a number or the array of widths. -/
def Wrapped.shape : Wrapped α → ℕ × (ℕ ⊕ List ℕ)
  | .np n m _ => (n, .inl m)
  | .ak rows => (rows.length, .inr (cc rows))

/-- jaggedarray.py:179-187 `to_csr`. -/
def Wrapped.toCsr : Wrapped α → Py (Csr α)
  | .np n m rows => .ok (ofDense n m rows)
  | .ak rows => ofAwkward rows (List.range rows.length)

/-- jaggedarray.py:327-338 `vstack` and `concatenate` (the same code; further arguments such
as `axis` are ignored). `np.concatenate` needs at least one array. -/
def vstack (js : List (Wrapped α)) : Py (Wrapped α) :=
  match js with
  | [] => .error .value
  | _ => init (.arr1 (js.map Wrapped.flatten).flatten) (some (js.map Wrapped.widths).flatten) true

/-- `np.concatenate(js, axis)` -/
def concatenate (js : List (Wrapped α)) (_axis : ℕ) : Py (Wrapped α) := vstack js

/-! ## Triplets -/

/-- `a[inds]` -/
def take {β : Type} (a : List β) (inds : List ℕ) : Py (List β) := pyGets a inds

/-- sparse/utils.py:8-10 `lower_spdata`; comparing arrays of different lengths raises. -/
def lowerSpdata (data : List α) (rows cols : List ℤ) : Py (List α × List ℤ × List ℤ) :=
  if rows.length ≠ cols.length then .error .value
  else do
    let inds := (List.range rows.length).filter (fun k => decide (rows.getD k 0 ≥ cols.getD k 0))
    return (← take data inds, ← take rows inds, ← take cols inds)

/-- sparse/utils.py:13-15 `upper_spdata`. -/
def upperSpdata (data : List α) (rows cols : List ℤ) : Py (List α × List ℤ × List ℤ) :=
  if rows.length ≠ cols.length then .error .value
  else do
    let inds := (List.range rows.length).filter (fun k => decide (cols.getD k 0 ≥ rows.getD k 0))
    return (← take data inds, ← take rows inds, ← take cols inds)

end
end Verif.Sparse
