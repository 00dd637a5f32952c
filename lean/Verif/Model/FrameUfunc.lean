import Verif.Model.Frames
import Mathlib.Data.List.FinRange

/-!
# Model of NumPy's functions on frames: `linalg/frame.py` 548-607

Universal functions (`np.sqrt(A)`, `np.add(A, B, out=C)`, `A == B`, `np.add.at(A, …)`) and the other
functions (`np.all(A)`, `np.concatenate([A, B])`) when they find a frame among their arguments.

Simplified: arrays have the shape of the frame or are numbers (no other broadcasting), a universal
function is a total function of the entries (no `nan`, no generalized universal functions like
`np.matmul`), arrays of the user do not share memory with each other or with frames, an array appears
at most once among the outputs, and the results of a function with several results are looked at
before anything else happens (Python gets a generator).
-/

namespace Verif.FUfunc

open Verif.Frames

section
variable {n : ℕ} {K : Type} [Field K] [LinearOrder K]

/-- An argument or an output: a number, an array of the user, a frame, a vector or tensor, anything
else (a string, `None`). -/
inductive Arg (K : Type)
  | number (c : K)
  | array (a : ℕ)
  | frame (f : ℕ)
  | tensor (t : ℕ)
  | other

/-- The frames and tensors, and the arrays of the user. -/
structure State (n : ℕ) (K : Type) where
  heap : Heap n K
  arrays : ℕ → Mat n K

/-- A universal function: how many arguments it takes and how many results it has, and what it
computes from entries. -/
structure Ufunc (K : Type) where
  nin : ℕ
  nout : ℕ
  fn : (Fin nin → K) → Fin nout → K

/-- The entries of an argument; `none` for the types that are refused, `linalg/frame.py` 560-564
(`_HANDLED_TYPES_`: `linalg/meta.py` 122). -/
def State.entries (s : State n K) : Arg K → Option (Mat n K)
  | .number c => some (Matrix.of fun _ _ => c)
  | .array a => some (s.arrays a)
  | .frame f => if f < s.heap.nF then some (s.heap.frames f).frame.axes else none
  | .tensor _ => none
  | .other => none

/-- All arguments, if none of them is refused. -/
def State.inputs {m : ℕ} (s : State n K) (args : Fin m → Arg K) : Option (Fin m → Mat n K) :=
  if h : ∀ a, (s.entries (args a)).isSome = true then some fun a => (s.entries (args a)).get (h a)
  else none

/-- `x` is a rectangular or Cartesian frame, `linalg/frame.py` 570-576. -/
def State.regular (s : State n K) : Arg K → Bool
  | .frame f =>
      match (s.heap.frames f).frame.cls with
      | .reference => false
      | _ => true
  | _ => false

/-- NumPy does not write into numbers. -/
def isNumber : Arg K → Bool
  | .number _ => true
  | _ => false

/-- The results, `getattr(ufunc, method)(*inputs, **kwargs)`, `linalg/frame.py` 588. -/
def Ufunc.results (u : Ufunc K) (E : Fin u.nin → Mat n K) (k : Fin u.nout) : Mat n K :=
  Matrix.of fun i j => u.fn (fun a => E a i j) k

/-- The outputs that are arrays are written by NumPy, before the frames. -/
def writeArrays (outs : List (Arg K × Mat n K)) (s : State n K) : State n K :=
  outs.foldl (fun s o =>
    match o.1 with
    | .array a => { s with arrays := Function.update s.arrays a o.2 }
    | _ => s) s

/-- `out[i].axes = out_[i]`, `linalg/frame.py` 593-597; an exception ends it. -/
def writeFrames (cfg : Cfg K) : List (Arg K × Mat n K) → State n K → State n K × Option PyErr
  | [], s => (s, none)
  | (.frame f, A) :: outs, s =>
      match s.heap.setAxes cfg f A with
      | (h, none) => writeFrames cfg outs { s with heap := h }
      | (h, some e) => ({ s with heap := h }, some e)
  | _ :: outs, s => writeFrames cfg outs s

/-- What a call returns: one frame, or a generator of frames. -/
inductive Ret
  | frame (f : ℕ)
  | generator (fs : List ℕ)
  deriving DecidableEq

/-- What one gets by unpacking, `x, y = np.modf(A)`; a single frame is a sequence of rows, which are
not frames. -/
def Ret.frames : Ret → List ℕ
  | .frame f => [f]
  | .generator fs => fs

/-- `ReferenceFrame(x)` for every result, `linalg/frame.py` 599-607. -/
def wrap {m : ℕ} (vals : Fin m → Mat n K) (s : State n K) : State n K × Except PyErr Ret :=
  let h := (List.finRange m).foldl (fun h k => h.addFrame ⟨.reference, vals k⟩) s.heap
  ({ s with heap := h },
    .ok (if m = 1 then .frame s.heap.nF else .generator ((List.range m).map (s.heap.nF + ·))))

/-- `ufunc(*ins, out=outs)`: `ReferenceFrame.__array_ufunc__`, `linalg/frame.py` 552-607.  NumPy calls
it if a frame is the first object among arguments and outputs that has its own rules. -/
def ufunc (cfg : Cfg K) (u : Ufunc K) (ins : Fin u.nin → Arg K) (outs : Option (Fin u.nout → Arg K))
    (s : State n K) : State n K × Except PyErr Ret :=
  match s.inputs ins with
  | none => (s, .error .type)
  | some E =>
      match outs with
      | none => wrap (u.results E) s
      | some os =>
          match s.inputs os with
          | none => (s, .error .type)
          | some _ =>
              if (List.finRange u.nout).any fun k => s.regular (os k) then (s, .error .notImplemented)
              else if (List.finRange u.nout).any fun k => isNumber (os k) then (s, .error .type)
              else
                let l := (List.finRange u.nout).map fun k => (os k, u.results E k)
                match writeFrames cfg l (writeArrays l s) with
                | (s', some e) => (s', .error e)
                | (s', none) => wrap (u.results E) s'

/-- `ufunc.at(f, places, c)` for a function of two arguments: unbuffered, one place after the other;
the array of the frame is written (583, 588) and nothing is returned (602-604). -/
def ufuncAt (op : K → K → K) (f : ℕ) (places : List (Fin n × Fin n)) (c : K) (s : State n K) :
    State n K × Option PyErr :=
  let axes := places.foldl (fun (A : Mat n K) p =>
    Matrix.of fun i j => if (i, j) = p then op (A i j) c else A i j) (s.heap.frames f).frame.axes
  match s.heap.setItem f axes with
  | (h, e) => ({ s with heap := h }, e)

/-- The comparison operators: `NDArrayOperatorsMixin` calls `np.equal`, `np.not_equal`, `np.less`,
`np.less_equal`; the truth values become 1 and 0 in `ReferenceFrame(result)`. -/
inductive Cmp
  | eq | ne | lt | le
  deriving DecidableEq

/-- The comparison of two entries. -/
def Cmp.fn (c : Cmp) (x y : K) : K :=
  match c with
  | .eq => if x = y then 1 else 0
  | .ne => if x = y then 0 else 1
  | .lt => if x < y then 1 else 0
  | .le => if x ≤ y then 1 else 0

/-- As a universal function. -/
def Cmp.ufunc (c : Cmp) : Ufunc K := ⟨2, 1, fun x _ => c.fn (x 0) (x 1)⟩

/-- `x == y`, `x != y`, `x < y`, `x <= y`. -/
def compare (cfg : Cfg K) (c : Cmp) (x y : Arg K) (s : State n K) : State n K × Except PyErr Ret :=
  ufunc cfg (Cmp.ufunc c) ![x, y] none s

/-- `bool(f)`: there is no `__bool__`, so Python asks `__len__`, `linalg/meta.py` 181-182. -/
def truth (_f : Frame n K) : Bool := n ≠ 0

/-! ### `__array_function__` -/

/-- An argument of an ordinary NumPy function: plain data, a frame, or a list or tuple. -/
inductive FArg (n : ℕ) (K : Type)
  | data (A : Mat n K)
  | frame (f : Frame n K)
  | list (l : List (FArg n K))

/-- `arg._array if isinstance(arg, ArrayWrapper) else arg`, `linalg/frame.py` 549. -/
def FArg.unwrap : FArg n K → FArg n K
  | .frame f => .data f.axes
  | a => a

/-- NumPy finds a frame in the argument: directly, or in a list (it looks one level deep). -/
def FArg.relevant : FArg n K → Bool
  | .frame _ => true
  | .data _ => false
  | .list l => l.any fun
      | .frame _ => true
      | _ => false

/-- `func(*args, **kwargs)` with the recursion limit `limit`: as long as NumPy finds a frame it calls
`__array_function__` (`linalg/frame.py` 548-550), which calls `func` again with the frames among the
positional arguments unwrapped.  `impl` is what the function computes from the arguments if no frame is
found.  `RecursionError` is a `RuntimeError`. -/
def npCall {α : Type} (impl : List (FArg n K) → List (FArg n K) → α) :
    ℕ → List (FArg n K) → List (FArg n K) → Py α
  | 0, _, _ => .error .runtime
  | limit + 1, args, kwargs =>
      if (args ++ kwargs).any FArg.relevant then npCall impl limit (args.map FArg.unwrap) kwargs
      else .ok (impl args kwargs)

/-- `np.all` of a matrix. -/
def allNonzero (A : Mat n K) : Bool :=
  (List.finRange n).all fun i => (List.finRange n).all fun j => decide (A i j ≠ 0)

/-- `np.all(f)`. -/
def npAll (limit : ℕ) (f : Frame n K) : Py Bool :=
  npCall (fun args _ =>
    match args with
    | [.data A] => allNonzero A
    | _ => false) limit [.frame f] []

end

end Verif.FUfunc
