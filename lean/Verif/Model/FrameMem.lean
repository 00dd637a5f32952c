import Verif.Prelude
import Verif.Model.Utils
import Verif.Model.Frames

/-!
# Model of the memory behind frames: `linalg/meta.py` 42-59, 124-134, `linalg/frame.py` 290-311

An array is a view of a block of memory.  What a frame holds is an address: the block, and where in
it the axes begin; they are read in C order.  Tensors and classes of frames are in `Model/Frames`,
here only the arrays matter.  Not modelled: the end of a block.
-/

namespace Verif.FrameMem
open Verif Verif.Utils Verif.Frames

section
variable {n : ℕ} {K : Type} [Field K] [LinearOrder K] [FloorRing K]

/-- A block of memory. -/
structure Block (K : Type) where
  dtype : DType
  data : ℕ → K

/-- How the entries of a square matrix lie in memory: row by row, column by column, or in any other
way (for instance every second entry of a larger array). -/
inductive Layout (n : ℕ)
  | c
  | f
  | strided (place : Fin n → Fin n → ℕ)

/-- An array of shape `(n, n)`. -/
structure View (n : ℕ) where
  block : ℕ
  base : ℕ
  layout : Layout n

/-- Where an entry is. -/
def View.place (v : View n) (i j : Fin n) : ℕ :=
  v.base + match v.layout with
    | .c => i * n + j
    | .f => j * n + i
    | .strided place => place i j

/-- All blocks, the arrays of the user, and the frames. -/
structure State (n : ℕ) (K : Type) where
  nB : ℕ
  blocks : ℕ → Block K
  nA : ℕ
  arrays : ℕ → View n
  nF : ℕ
  frames : ℕ → View n

/-- The entries of an array. -/
def State.read (s : State n K) (v : View n) : Mat n K := fun i j => (s.blocks v.block).data (v.place i j)

/-- The axes of a frame. -/
def State.axes (s : State n K) (f : ℕ) : Mat n K := s.read (s.frames f)

/-- A new block that holds a matrix in C order. -/
def State.alloc (s : State n K) (dt : DType) (A : Mat n K) : State n K :=
  { s with
    nB := s.nB + 1
    blocks := Function.update s.blocks s.nB ⟨dt, fun k =>
      if h : 0 < n ∧ k / n < n then store dt (A ⟨k / n, h.2⟩ ⟨k % n, Nat.mod_lt _ h.1⟩) else 0⟩ }

/-- What a program does. -/
inductive Op (n : ℕ) (K : Type)
  /-- `a = np.array(A, dtype=dt)` -/
  | newArray (dt : DType) (A : Mat n K)
  /-- any view of the memory of an array, for instance `a.T` -/
  | view (a base : ℕ) (layout : Layout n)
  /-- `a[i, j] = x` -/
  | write (a : ℕ) (i j : Fin n) (x : K)
  /-- `ReferenceFrame(a)` -/
  | newFrame (a : ℕ)
  /-- `a = f.axes` -/
  | axesOf (f : ℕ)
  /-- `f.axes = a` -/
  | setAxes (f a : ℕ)
  /-- `f.transpose(inplace=True)` -/
  | transpose (f : ℕ)
  /-- `f *= x` with a number of the given kind -/
  | scale (f : ℕ) (dt : DType) (x : K)

/-- The setter of the axes, `linalg/frame.py` 295-309: the new array is made from the memory of the
given one (303, `numpy.ndarray.__new__` with `buffer`), in C order; memory that is not contiguous is
refused. -/
def State.assign (s : State n K) (f : ℕ) (v : View n) : State n K × Option PyErr :=
  match v.layout with
  | .strided _ => (s, some .value)
  | _ => ({ s with frames := Function.update s.frames f ⟨v.block, v.base, .c⟩ }, none)

/-- One operation. -/
def Op.run (s : State n K) : Op n K → State n K × Option PyErr
  | .newArray dt A =>
      let t := s.alloc dt A
      ({ t with nA := s.nA + 1, arrays := Function.update s.arrays s.nA ⟨s.nB, 0, .c⟩ }, none)
  | .view a base layout =>
      if a < s.nA then
        let v : View n := ⟨(s.arrays a).block, base, layout⟩
        ({ s with nA := s.nA + 1, arrays := Function.update s.arrays s.nA v }, none)
      else (s, some .type)
  | .write a i j x =>
      if a < s.nA then
        let v := s.arrays a
        let b := s.blocks v.block
        let data := Function.update b.data (v.place i j) (store b.dtype x)
        ({ s with blocks := Function.update s.blocks v.block ⟨b.dtype, data⟩ }, none)
      else (s, some .type)
  | .newFrame a =>
      -- `ascont(args[0])` and `np.array(buf, dtype=float)`, `linalg/meta.py` 125-130: a copy
      if a < s.nA then
        let t := s.alloc .float (s.read (s.arrays a))
        ({ t with nF := s.nF + 1, frames := Function.update s.frames s.nF ⟨s.nB, 0, .c⟩ }, none)
      else (s, some .type)
  | .axesOf f =>
      if f < s.nF then
        ({ s with nA := s.nA + 1, arrays := Function.update s.arrays s.nA (s.frames f) }, none)
      else (s, some .type)
  | .setAxes f a => if f < s.nF ∧ a < s.nA then s.assign f (s.arrays a) else (s, some .type)
  | .transpose f =>
      -- `transpose_axes(self.axes)` is `self.axes.T`, a view of the same memory in Fortran order,
      -- `linalg/frame.py` 397-399 and `linalg/utils.py` 553-555
      if f < s.nF then s.assign f ⟨(s.frames f).block, (s.frames f).base, .f⟩ else (s, some .type)
  | .scale f dt x =>
      -- `inplace_binary`, `linalg/frame.py` 38-49; the result has the dtype of the axes, and a float
      -- does not go into an integer array
      if f < s.nF then
        let old := (s.blocks (s.frames f).block).dtype
        if old = .int ∧ dt = .float then (s, some .type)
        else
          let A := s.axes f
          let t := s.alloc old (Matrix.of fun i j => A i j * x)
          ({ t with frames := Function.update s.frames f ⟨s.nB, 0, .c⟩ }, none)
      else (s, some .type)

/-- Operations one after the other; exceptions are caught. -/
def runOps (ops : List (Op n K)) (s : State n K) : State n K :=
  ops.foldl (fun s op => (op.run s).1) s

end

end Verif.FrameMem
