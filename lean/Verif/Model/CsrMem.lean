import Verif.Model.Sparse
import Verif.Model.Rounding

/-!
# CSR matrices in memory and their number formats, `linalg/sparse/csr.py` 112-204

NumPy arrays are buffers of numbers.  `astype` always makes a new array, in the format asked for; slices and the
attributes of an object are the same memory.  Values that are written are assumed to fit the format of the array.
-/

namespace Verif.CsrMem
open Verif Verif.Rnd

/-- `astype(np.float64)`. -/
def float64 (x : ℚ) : ℚ := binary 53 x

/-- `astype(np.int32)` of an integer: its lowest 32 bits, read as a signed number. -/
def int32 (x : ℚ) : ℚ := (((⌊x⌋ + 2 ^ 31) % 2 ^ 32 - 2 ^ 31 : ℤ) : ℚ)

/-- A `csr_matrix`: the arrays it refers to and its shape. -/
structure Obj where
  data : ℕ
  indices : ℕ
  indptr : ℕ
  shape : ℕ × ℤ
  deriving DecidableEq

/-- The memory: buffers, of which the first `next` are in use, and the matrices made so far. -/
structure State where
  bufs : ℕ → List ℚ
  next : ℕ
  objs : List Obj

/-- What a user does. -/
inductive Op
  /-- a new array -/
  | array (l : List ℚ)
  /-- `csr_matrix(data, indices, indptr, shape)`, or `csr_matrix(M)` with the arrays of a SciPy matrix -/
  | ofArrays (data indices indptr : ℕ) (shape : ℕ × ℤ)
  /-- `csr_matrix(A)` with a dense array of `n` rows with `m` entries -/
  | ofDense (a n m : ℕ)
  /-- `c.row(i)` -/
  | row (c : ℕ) (i : ℤ)
  /-- `c.irow(i)` -/
  | irow (c : ℕ) (i : ℤ)
  /-- `c.row(i)[k] = v` -/
  | setRow (c : ℕ) (i : ℤ) (k : ℕ) (v : ℚ)
  /-- `c.irow(i)[k] = v` -/
  | setIrow (c : ℕ) (i : ℤ) (k : ℕ) (v : ℚ)
  /-- `c.to_scipy()` -/
  | toScipy (c : ℕ)
  /-- `b[k] = v` -/
  | write (b k : ℕ) (v : ℚ)

/-- What is returned. -/
inductive Ret
  | unit
  | buf (b : ℕ)
  | csr (c : ℕ)
  | values (l : List ℚ)
  | arrays (data indices indptr : ℕ) (shape : ℕ × ℤ)
  deriving DecidableEq

/-- A new array with the values `l`. -/
def State.alloc (s : State) (l : List ℚ) : State :=
  { s with bufs := Function.update s.bufs s.next l, next := s.next + 1 }

/-- The matrix with new arrays, csr.py 122-124, 130-135, 148-150. -/
def State.newCsr (s : State) (data indices indptr : List ℚ) (shape : ℕ × ℤ) : State :=
  let t := ((s.alloc (data.map float64)).alloc (indices.map int32)).alloc (indptr.map int32)
  { t with objs := t.objs ++ [⟨s.next, s.next + 1, s.next + 2, shape⟩] }

/-- `self.indptr[i]` and `self.indptr[i + 1]`, where these are not negative (they could be after an overflow, see
`int32`; slices with negative bounds are not modelled). -/
def State.bounds (s : State) (o : Obj) (i : ℤ) : Py (ℕ × ℕ) := do
  let a ← Sparse.pyIdx (s.bufs o.indptr) i
  let b ← Sparse.pyIdx (s.bufs o.indptr) (i + 1)
  return (⌊a⌋.toNat, ⌊b⌋.toNat)

/-- Assignment to item `k` of the slice from `a` to `b` of an array. -/
def State.setSlice (s : State) (buf a b k : ℕ) (v : ℚ) : State × Py Ret :=
  if k < (Sparse.slice (s.bufs buf) a b).length then
    ({ s with bufs := Function.update s.bufs buf ((s.bufs buf).set (a + k) v) }, .ok .unit)
  else (s, .error .index)

/-- One operation.  What does not exist cannot be used (`NameError`, written as a generic error).
`csr_matrix` (csr.py 112-153): `astype` makes new arrays in all branches; the dense array is flattened, its column
indices are repeated for every row (126-136).  `row` and `irow` (178-204) are slices; `to_scipy` (162-166) does not copy. -/
def step (s : State) : Op → State × Py Ret
  | .array l => (s.alloc l, .ok (.buf s.next))
  | .ofArrays d i p shape =>
    if d < s.next ∧ i < s.next ∧ p < s.next then
      (s.newCsr (s.bufs d) (s.bufs i) (s.bufs p) shape, .ok (.csr s.objs.length))
    else (s, .error .generic)
  | .ofDense a n m =>
    if a < s.next ∧ (s.bufs a).length = n * m then
      (s.newCsr (s.bufs a) ((List.replicate n (List.range m)).flatten.map fun j : ℕ => (j : ℚ))
        ((List.range (n + 1)).map fun k : ℕ => ((k * m : ℕ) : ℚ)) (n, m), .ok (.csr s.objs.length))
    else (s, .error .generic)
  | .row c i =>
    match s.objs[c]? with
    | none => (s, .error .generic)
    | some o => (s, (s.bounds o i).map fun ab => .values (Sparse.slice (s.bufs o.data) ab.1 ab.2))
  | .irow c i =>
    match s.objs[c]? with
    | none => (s, .error .generic)
    | some o => (s, (s.bounds o i).map fun ab => .values (Sparse.slice (s.bufs o.indices) ab.1 ab.2))
  | .setRow c i k v =>
    match s.objs[c]? with
    | none => (s, .error .generic)
    | some o =>
      match s.bounds o i with
      | .error e => (s, .error e)
      | .ok ab => s.setSlice o.data ab.1 ab.2 k v
  | .setIrow c i k v =>
    match s.objs[c]? with
    | none => (s, .error .generic)
    | some o =>
      match s.bounds o i with
      | .error e => (s, .error e)
      | .ok ab => s.setSlice o.indices ab.1 ab.2 k v
  | .toScipy c =>
    match s.objs[c]? with
    | none => (s, .error .generic)
    | some o => (s, .ok (.arrays o.data o.indices o.indptr o.shape))
  | .write b k v =>
    if b < s.next then
      if k < (s.bufs b).length then
        ({ s with bufs := Function.update s.bufs b ((s.bufs b).set k v) }, .ok .unit)
      else (s, .error .index)
    else (s, .error .generic)

/-- A sequence of operations. -/
def run (s : State) (ops : List Op) : State := ops.foldl (fun s op => (step s op).1) s

end Verif.CsrMem
