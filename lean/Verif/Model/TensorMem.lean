import Verif.Prelude
import Mathlib.Data.List.Range
import Mathlib.Data.List.Nodup

/-!
# Model of the memory behind tensors: `linalg/meta.py` 42-103, 124-188, 282-361, 387-475,
`linalg/frame.py` 290-311, `linalg/abstract.py` 15-190, `linalg/vector.py`, `linalg/tensor.py`

A NumPy array is an object which refers to cells of a block of memory; the class `Array` adds the
attribute `frame`.  A tensor refers to such an object by its attribute `_array`.  Arrays are
flattened: an array is the list of its cells, a slice, a transposed or a reshaped view is a list of
positions.  What the components become when the frame changes is a parameter (`conv`; the formulas
are in `Model/Frames`), and so is what an operator does with components: only who owns which cells
matters here.  Not modelled: assigning `array.frame` by hand (`Model/FrameRegistry`), the attribute
`_wrapped` of the base class `Wrapper`, which is code of another package.
-/

namespace Verif.TMem
open Verif

variable {F K : Type}

/-- An array: `numpy.ndarray` (`frame = none`) or `Array` of `linalg/meta.py` 23-103. -/
structure Arr where
  block : ℕ
  cells : List ℕ
  frame : Option ℕ
deriving DecidableEq

/-- Everything there is: blocks of memory, array objects, tensors (which array object is their
`_array`) and frames (the value of their axes).  Each kind is numbered from zero. -/
structure State (F K : Type) where
  nB : ℕ
  nO : ℕ
  nT : ℕ
  nF : ℕ
  blocks : ℕ → ℕ → K
  objs : ℕ → Arr
  tensors : ℕ → ℕ
  frames : ℕ → F

/-- Nothing yet. -/
def State.empty [Inhabited F] [Zero K] : State F K where
  nB := 0
  nO := 0
  nT := 0
  nF := 0
  blocks := fun _ _ => 0
  objs := fun _ => ⟨0, [], none⟩
  tensors := fun _ => 0
  frames := fun _ => default

/-- How a program refers to an array: an array object it holds, or `t.array` (also
`t.to_numpy()`, `numpy.asarray(t)` and `t[...]`; `linalg/meta.py` 170-188, 387-392). -/
inductive Ref
  | obj (o : ℕ)
  | arrayOf (t : ℕ)

/-- The array object a reference stands for, `none` if there is no such thing. -/
def State.resolve (s : State F K) : Ref → Option ℕ
  | .obj o => if o < s.nO then some o else none
  | .arrayOf t => if t < s.nT then some (s.tensors t) else none

/-- The entries of an array object. -/
def State.read (s : State F K) (o : ℕ) : List K :=
  (s.objs o).cells.map (s.blocks (s.objs o).block)

/-- Assigning values to cells one after the other. -/
def writeCells (m : ℕ → K) : List ℕ → List K → ℕ → K
  | c :: cs, x :: xs => writeCells (Function.update m c x) cs xs
  | _, _ => m

/-- `array[...] = values`. -/
def State.assign (s : State F K) (o : ℕ) (xs : List K) : State F K :=
  let a := s.objs o
  { s with blocks := Function.update s.blocks a.block (writeCells (s.blocks a.block) a.cells xs) }

/-- A new array with its own memory. -/
def State.alloc [Zero K] (s : State F K) (xs : List K) (frame : Option ℕ) : State F K :=
  { s with
    nB := s.nB + 1
    nO := s.nO + 1
    blocks := Function.update s.blocks s.nB fun c => xs.getD c 0
    objs := Function.update s.objs s.nO ⟨s.nB, List.range xs.length, frame⟩ }

/-- The entries at some positions. -/
def pick {α : Type} (l : List α) (idx : List ℕ) : List α := idx.filterMap fun i => l[i]?

/-- A view: a new array object on the memory of another one; the attribute `frame` is copied by
`__array_finalize__` (`linalg/meta.py` 61-86). -/
def State.view (s : State F K) (o : ℕ) (idx : List ℕ) : State F K :=
  { s with
    nO := s.nO + 1
    objs := Function.update s.objs s.nO
      ⟨(s.objs o).block, pick (s.objs o).cells idx, (s.objs o).frame⟩ }

/-- `ArrayWrapper.__init__` (`linalg/meta.py` 124-134): `np.array(buf, dtype=float)` copies the
input, whatever it is, and `_array` is an `Array` on the copy. -/
def State.mkTensor [Zero K] (s : State F K) (xs : List K) (f : ℕ) : State F K :=
  let s' := s.alloc xs (some f)
  { s' with nT := s.nT + 1, tensors := Function.update s.tensors s.nT s.nO }

/-- A new frame. -/
def State.mkFrame (s : State F K) (v : F) : State F K :=
  { s with nF := s.nF + 1, frames := Function.update s.frames s.nF v }

/-- The frame of a tensor: `self.array.frame` (`linalg/meta.py` 403-408). -/
def State.frameOf (s : State F K) (t : ℕ) : Option ℕ := (s.objs (s.tensors t)).frame

/-- The tensors of a frame: those registered with it (`linalg/meta.py` 262-279, 329, 427, 430). -/
def State.registered (s : State F K) (f : ℕ) : List ℕ :=
  (List.range s.nT).filter fun t => s.frameOf t = some f

/-- The loop of the setter of `axes` (`linalg/frame.py` 302-307): every tensor of the frame gets new
components by the setter of `array`. -/
def State.convert (s : State F K) (conv : List K → List K) : List ℕ → State F K
  | [] => s
  | t :: ts => (s.assign (s.tensors t) (conv (s.read (s.tensors t)))).convert conv ts

/-- What happens to components: the function which turns components in a frame with axes `a` into
components in a frame with axes `b`, or the exception raised because there is no such function
(`linalg/frame.py` 327-404, `linalg/vector.py` 120-144, `linalg/tensor.py` 93-135). -/
abbrev Conv (F K : Type) := F → F → Py (List K → List K)

/-- A statement of a program. -/
inductive Op (F K : Type)
  /-- an array made by NumPy, for instance `np.array([1.0, 2.0])` -/
  | fresh (xs : List K)
  /-- a slice, a transposed or a reshaped view of an array: the positions it selects -/
  | slice (r : Ref) (idx : List ℕ)
  /-- `array.copy()` (`keep`: the class and the attribute `frame` are kept) or `np.array(array)` -/
  | copy (r : Ref) (keep : Bool)
  /-- `array[e] = x`; `t[e] = x` (`linalg/meta.py` 178-179) is the same with `t.array` -/
  | write (r : Ref) (e : ℕ) (x : K)
  /-- `array[...] = other` -/
  | fill (r q : Ref)
  /-- a frame -/
  | frame (v : F)
  /-- `frame.axes = v` (`linalg/frame.py` 290-311) -/
  | setAxes (f : ℕ) (v : F)
  /-- `Vector(array, frame=frame)` and other constructors -/
  | tensor (r : Ref) (f : ℕ)
  /-- operators and methods which return a tensor in the same frame (`-t`, `t * 2`,
  `orient_new`, `copy.copy(t)`): the function applied to the components -/
  | map (t : ℕ) (g : List K → List K)
  /-- the same in a new frame with the same axes (`t.T`, `copy.deepcopy(t)`) -/
  | mapNew (t : ℕ) (g : List K → List K)
  /-- `t + u` (`linalg/abstract.py`): a new tensor in a new frame with the axes of `t` -/
  | combine (t u : ℕ) (g : List K → List K → List K)
  /-- `t.show(frame)` -/
  | show (t f : ℕ)
  /-- `t.array = array` (`linalg/meta.py` 394-401) -/
  | setArray (t : ℕ) (r : Ref)
  /-- `t *= 2`, `t.orient(…)`, `t.chop()`: the components are replaced by the setter of `array` -/
  | inplace (t : ℕ) (g : List K → List K)
  /-- `t.frame = frame` (`linalg/meta.py` 410-430) -/
  | setFrame (t f : ℕ)
  /-- `t.transpose(inplace=True)` (`linalg/meta.py` 439-475): `_array` becomes a view -/
  | transpose (t : ℕ) (idx : List ℕ)

/-- What a statement returns. -/
inductive Res
  | none
  | obj (o : ℕ)
  | tensor (t : ℕ)
  | frame (f : ℕ)
deriving DecidableEq

/-- Refusing: nothing changes. -/
def State.fail (s : State F K) (e : PyErr) : State F K × Py Res := (s, .error e)

/-- Running a statement.  Names which are not bound raise (`NameError`, here `generic`); selecting
positions which do not exist raises `IndexError`; positions which come twice are no view. -/
def Op.run [Zero K] (conv : Conv F K) (op : Op F K) (s : State F K) : State F K × Py Res :=
  match op with
  | .fresh xs => (s.alloc xs none, .ok (.obj s.nO))
  | .slice r idx =>
    match s.resolve r with
    | none => s.fail .generic
    | some o =>
      if (∀ i ∈ idx, i < (s.objs o).cells.length) ∧ idx.Nodup then
        (s.view o idx, .ok (.obj s.nO))
      else s.fail .index
  | .copy r keep =>
    match s.resolve r with
    | none => s.fail .generic
    | some o => (s.alloc (s.read o) (if keep then (s.objs o).frame else none), .ok (.obj s.nO))
  | .write r e x =>
    match s.resolve r with
    | none => s.fail .generic
    | some o =>
      if e < (s.objs o).cells.length then (s.assign o ((s.read o).set e x), .ok .none)
      else s.fail .index
  | .fill r q =>
    match s.resolve r, s.resolve q with
    | some o, some o' =>
      if (s.objs o).cells.length = (s.objs o').cells.length then
        (s.assign o (s.read o'), .ok .none)
      else s.fail .value
    | _, _ => s.fail .generic
  | .frame v => (s.mkFrame v, .ok (.frame s.nF))
  | .setAxes f v =>
    if f < s.nF then
      if s.registered f = [] then ({ s with frames := Function.update s.frames f v }, .ok .none)
      else
        match conv (s.frames f) v with
        | .error e => s.fail e
        | .ok g =>
          let s' := s.convert g (s.registered f)
          ({ s' with frames := Function.update s'.frames f v }, .ok .none)
    else s.fail .generic
  | .tensor r f =>
    match s.resolve r with
    | none => s.fail .generic
    | some o =>
      if f < s.nF then (s.mkTensor (s.read o) f, .ok (.tensor s.nT)) else s.fail .generic
  | .map t g =>
    match s.resolve (.arrayOf t), s.frameOf t with
    | some o, some f => (s.mkTensor (g (s.read o)) f, .ok (.tensor s.nT))
    | _, _ => s.fail .generic
  | .mapNew t g =>
    match s.resolve (.arrayOf t), s.frameOf t with
    | some o, some f =>
      ((s.mkFrame (s.frames f)).mkTensor (g (s.read o)) s.nF, .ok (.tensor s.nT))
    | _, _ => s.fail .generic
  | .combine t u g =>
    match s.resolve (.arrayOf t), s.frameOf t, s.resolve (.arrayOf u), s.frameOf u with
    | some o, some f, some o', some f' =>
      match conv (s.frames f') (s.frames f) with
      | .error e => s.fail e
      | .ok h =>
        ((s.mkFrame (s.frames f)).mkTensor (g (s.read o) (h (s.read o'))) s.nF, .ok (.tensor s.nT))
    | _, _, _, _ => s.fail .generic
  | .show t f =>
    match s.resolve (.arrayOf t), s.frameOf t with
    | some o, some f' =>
      if f < s.nF then
        match conv (s.frames f') (s.frames f) with
        | .error e => s.fail e
        | .ok h => (s.alloc (h (s.read o)) none, .ok (.obj s.nO))
      else s.fail .generic
    | _, _ => s.fail .generic
  | .setArray t r =>
    match s.resolve (.arrayOf t), s.resolve r with
    | some o, some o' =>
      if (s.objs o').cells.length = (s.objs o).cells.length then
        (s.assign o (s.read o'), .ok .none)
      else s.fail .assertion
    | _, _ => s.fail .generic
  | .inplace t g =>
    match s.resolve (.arrayOf t) with
    | none => s.fail .generic
    | some o =>
      if (g (s.read o)).length = (s.objs o).cells.length then
        (s.assign o (g (s.read o)), .ok .none)
      else s.fail .assertion
  | .setFrame t f =>
    match s.resolve (.arrayOf t), s.frameOf t with
    | some o, some f' =>
      if f < s.nF then
        match conv (s.frames f') (s.frames f) with
        | .error e => s.fail e
        | .ok h =>
          if (h (s.read o)).length = (s.objs o).cells.length then
            let s' := s.assign o (h (s.read o))
            ({ s' with objs := Function.update s'.objs o { s'.objs o with frame := some f } },
              .ok .none)
          else s.fail .assertion
      else s.fail .generic
    | _, _ => s.fail .generic
  | .transpose t idx =>
    match s.resolve (.arrayOf t) with
    | none => s.fail .generic
    | some o =>
      if (∀ i ∈ idx, i < (s.objs o).cells.length) ∧ idx.Nodup
          ∧ idx.length = (s.objs o).cells.length then
        let s' := s.view o idx
        ({ s' with tensors := Function.update s'.tensors t s.nO }, .ok (.tensor t))
      else s.fail .value

/-- Running a program: exceptions are caught, the next statement runs in the state they left. -/
def runAll [Zero K] (conv : Conv F K) : List (Op F K) → State F K → State F K
  | [], s => s
  | op :: ops, s => runAll conv ops (op.run conv s).1

/-- The components of a tensor. -/
def State.comps (s : State F K) (t : ℕ) : List K := s.read (s.tensors t)

end Verif.TMem
