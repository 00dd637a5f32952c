import Verif.Model.CsrMem

/-!
# CSR matrices in compiled code, `linalg/sparse/csr.py` 212-300

A compiled function gets the arrays of the matrix by reference (`unbox`), works on them without checking indices, and may
return the matrix (`box`).  Memory outside of the array meant is not modelled: reading or writing there is `none`.  The values
written fit the format of the array.  What happens after the attributes of a matrix have been replaced by arrays of another
format, which the name of the type in line 221 does not tell apart, is not modelled.
-/

namespace Verif.CsrNb
open Verif Verif.CsrMem

/-- csr.py 256-267 `csr_model`: references to the arrays, and the shape. -/
structure Native where
  data : ℕ
  indices : ℕ
  indptr : ℕ
  shape : ℕ × ℤ
  deriving DecidableEq

/-- csr.py 270-285 `unbox_csr`. -/
def unbox (o : Obj) : Native := ⟨o.data, o.indices, o.indptr, o.shape⟩

/-- csr.py 288-300 `box_csr`: the class is called with the arrays and the shape; the new matrix is the last object. -/
def box (s : State) (m : Native) : State :=
  s.newCsr (s.bufs m.data) (s.bufs m.indices) (s.bufs m.indptr) m.shape

/-- What a compiled function does with the matrix. -/
inductive Instr
  /-- `csr.row(i)` -/
  | row (i : ℤ)
  /-- `csr.irow(i)` -/
  | irow (i : ℤ)
  /-- `csr.row(i)[k] = v` -/
  | setRow (i : ℤ) (k : ℕ) (v : ℚ)
  /-- `csr.irow(i)[k] = v` -/
  | setIrow (i : ℤ) (k : ℕ) (v : ℚ)
  /-- `csr.data[k] = v` -/
  | setData (k : ℕ) (v : ℚ)
  /-- `csr.indices[k] = v` -/
  | setIndices (k : ℕ) (v : ℚ)

/-- `l[i]` in compiled code: negative indices count from the end, nothing is checked. -/
def nbIdx {α : Type} (l : List α) (i : ℤ) : Option α :=
  let j := if i < 0 then i + l.length else i
  if j < 0 then none else l[j.toNat]?

/-- `csr.indptr[i]` and `csr.indptr[i + 1]` in csr.py 228, 238; negative pointers are not modelled. -/
def nbBounds (s : State) (m : Native) (i : ℤ) : Option (ℕ × ℕ) := do
  let a ← nbIdx (s.bufs m.indptr) i
  let b ← nbIdx (s.bufs m.indptr) (i + 1)
  return (⌊a⌋.toNat, ⌊b⌋.toNat)

/-- Assignment to item `k` of an array that starts at item `a` of a buffer. -/
def poke (s : State) (buf a k : ℕ) (v : ℚ) : Option (State × Ret) :=
  if a + k < (s.bufs buf).length then
    some ({ s with bufs := Function.update s.bufs buf ((s.bufs buf).set (a + k) v) }, .unit)
  else none

/-- One instruction of a compiled function; `row` and `irow` are csr.py 224-241, slices are cut off at the end of the array. -/
def exec (s : State) (m : Native) : Instr → Option (State × Ret)
  | .row i => (nbBounds s m i).map fun ab => (s, .values (Sparse.slice (s.bufs m.data) ab.1 ab.2))
  | .irow i => (nbBounds s m i).map fun ab => (s, .values (Sparse.slice (s.bufs m.indices) ab.1 ab.2))
  | .setRow i k v => (nbBounds s m i).bind fun ab => poke s m.data (min ab.1 (s.bufs m.data).length) k v
  | .setIrow i k v => (nbBounds s m i).bind fun ab => poke s m.indices (min ab.1 (s.bufs m.indices).length) k v
  | .setData k v => poke s m.data 0 k v
  | .setIndices k v => poke s m.indices 0 k v

/-- A compiled function: the memory it leaves and what its instructions gave. -/
def exec' (m : Native) : State → List Instr → Option (State × List Ret)
  | s, [] => some (s, [])
  | s, x :: xs => do
    let r ← exec s m x
    let q ← exec' m r.1 xs
    return (q.1, r.2 :: q.2)

/-- A call of a compiled function with the matrix `c`, which is returned at the end. -/
def call (s : State) (c : ℕ) (body : List Instr) : Option (State × List Ret) := do
  let o ← s.objs[c]?
  let r ← exec' (unbox o) s body
  return (box r.1 (unbox o), r.2 ++ [.csr r.1.objs.length])

end Verif.CsrNb
