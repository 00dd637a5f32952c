import Verif.Prelude
import Mathlib.Data.List.Basic
import Mathlib.Data.Int.Basic

/-!
# Model of the constructor of tensors for arrays of any memory layout, `linalg/meta.py` 123-134

An array is a block of memory with a shape, a stride for each axis and an offset, all counted in items.  Items are numbers
of one type: the conversion to `float` is not modelled here.  `np.array(…, order="K")` and `np.ndarray.__new__` with a
`buffer` follow NumPy.
-/

namespace Verif.Layout
open Verif

/-- `numpy.ndarray` -/
structure Arr (K : Type) where
  shape : List ℕ
  strides : List ℤ
  offset : ℤ
  mem : ℤ → K

/-- The distance of an item from the first one. -/
def place : List ℤ → List ℕ → ℤ
  | s :: ss, i :: is => s * i + place ss is
  | _, _ => 0

/-- `a[i, j, …]` -/
def Arr.get {K : Type} (a : Arr K) (idx : List ℕ) : K := a.mem (a.offset + place a.strides idx)

/-- Strides of a new array in C order. -/
def cStrides : List ℕ → List ℤ
  | [] => []
  | _ :: ns => (ns.prod : ℤ) :: cStrides ns

/-- Strides of a new array in Fortran order: `k` items from one entry of the first axis to the next. -/
def fStrides (k : ℕ) : List ℕ → List ℤ
  | [] => []
  | n :: ns => (k : ℤ) :: fStrides (k * n) ns

/-- All indices, in C order. -/
def indices : List ℕ → List (List ℕ)
  | [] => [[]]
  | n :: ns => (List.range n).flatMap fun i => (indices ns).map (i :: ·)

/-- The strides agree where an axis has more than one entry, or there are no items at all. -/
def sameLayout (shape : List ℕ) (s t : List ℤ) : Bool :=
  decide (0 ∈ shape) || ((shape.zip (s.zip t)).all fun x => decide (x.1 = 1) || decide (x.2.1 = x.2.2))

/-- `a.flags.c_contiguous` -/
def Arr.isC {K : Type} (a : Arr K) : Bool := sameLayout a.shape a.strides (cStrides a.shape)

/-- `a.flags.f_contiguous` -/
def Arr.isF {K : Type} (a : Arr K) : Bool := sameLayout a.shape a.strides (fStrides 1 a.shape)

/-- A new array with the items of the old one, laid out with the given strides. -/
def Arr.copyTo {K : Type} [Inhabited K] (a : Arr K) (strides : List ℤ) : Arr K where
  shape := a.shape
  strides := strides
  offset := 0
  mem := fun z =>
    match (indices a.shape).find? fun idx => decide (place strides idx = z) with
    | some idx => a.get idx
    | none => default

/-- `np.ascontiguousarray(a)` (for arrays with at least one axis): the array itself, or a copy in C order. -/
def Arr.ascont {K : Type} [Inhabited K] (a : Arr K) : Arr K := if a.isC then a else a.copyTo (cStrides a.shape)

/-- The axes, by decreasing absolute value of the strides; axes with equal strides stay in order. -/
def sortedAxes (strides : List ℤ) : List ℕ :=
  (List.range strides.length).mergeSort fun i j => decide ((strides.getD j 0).natAbs ≤ (strides.getD i 0).natAbs)

/-- Strides of a new array whose axes are nested as those of the old one: from the innermost axis outwards. -/
def kStrides (shape : List ℕ) (strides : List ℤ) : List ℤ :=
  ((sortedAxes strides).reverse.foldl (fun (st : List ℤ × ℕ) ax => (st.1.set ax (st.2 : ℤ), st.2 * shape.getD ax 1))
    (strides.map fun _ => 0, 1)).1

/-- `np.array(a, dtype=float)` of an array: a copy that keeps the order of the axes in memory. -/
def Arr.copyK {K : Type} [Inhabited K] (a : Arr K) : Arr K :=
  if a.isC || decide (a.shape.length ≤ 1) then a.copyTo (cStrides a.shape)
  else if a.isF then a.copyTo (fStrides 1 a.shape)
  else a.copyTo (kStrides a.shape a.strides)

/-- `Array(shape=buf.shape, buffer=buf, …)`: the memory of `buf`, read in C order; memory that is neither in C order
nor in Fortran order is refused. -/
def fromBuffer {K : Type} (buf : Arr K) : Py (Arr K) :=
  if buf.isC || buf.isF then .ok ⟨buf.shape, cStrides buf.shape, buf.offset, buf.mem⟩ else .error .value

/-- The components of a tensor made from an array, `linalg/meta.py` 124-133, lines 125, 129 and 130. -/
def ofArray {K : Type} [Inhabited K] (a : Arr K) (contiguous : Bool) : Py (Arr K) :=
  let buf := if contiguous then a.ascont else a
  fromBuffer buf.copyK

/-- `order=` of `np.array`, which reaches it through `**kwargs` (line 127). -/
inductive Order
  | K | A | C | F

/-- The components of a tensor made from nested lists, line 127, 129 and 130.  The items are given as a function of the
indices. -/
def ofLists {K : Type} [Inhabited K] (shape : List ℕ) (items : List ℕ → K) (order : Order) : Py (Arr K) :=
  let strides := match order with
    | .F => fStrides 1 shape
    | _ => cStrides shape
  let buf : Arr K :=
    { shape := shape, strides := strides, offset := 0
      mem := fun z =>
        match (indices shape).find? fun idx => decide (place strides idx = z) with
        | some idx => items idx
        | none => default }
  fromBuffer buf.copyK

end Verif.Layout
