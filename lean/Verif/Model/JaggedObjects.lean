import Verif.Model.Sparse
import Mathlib.Logic.Function.Basic

/-!
# Jagged arrays as containers, `src/sigmaepsilon/math/linalg/sparse/jaggedarray.py`

A session is a sequence of operations on the 2d arrays in memory and the jagged arrays made from them.
Made from flat data with cuts, a jagged array may share memory with the flat array (this is up to awkward);
this way of construction is left to `Model/Sparse.lean`, as are three-dimensional awkward arrays.
-/

namespace Verif.JagObj
open Verif Verif.Sparse

section
variable {α : Type}

/-- A 2d NumPy array in memory: the number of columns and the rows. -/
structure Buf (α : Type) where
  m : ℕ
  rows : List (List α)

/-- What a jagged array wraps: a reference to a 2d array in memory, or an awkward array. -/
inductive Obj (α : Type) where
  | np (b : ℕ)
  | ak (rows : List (List α))

/-- The 2d arrays in memory (`next` is the first number that is not in use) and the jagged arrays. -/
structure State (α : Type) where
  bufs : ℕ → Buf α
  next : ℕ
  objs : List (Obj α)

/-- The position an index of Python stands for in a sequence of length `n`. -/
def position (n : ℕ) (i : ℤ) : Py ℕ :=
  if 0 ≤ i then if i < n then .ok i.toNat else .error .index
  else if -(n : ℤ) ≤ i then .ok (i + n).toNat else .error .index

/-- jaggedarray.py:228-237 `to_list` -/
def State.rows (s : State α) : Obj α → List (List α)
  | .np b => (s.bufs b).rows
  | .ak rows => rows

/-- A new array in memory. -/
def State.alloc (s : State α) (m : ℕ) (rows : List (List α)) : State α × ℕ :=
  ({ s with bufs := Function.update s.bufs s.next ⟨m, rows⟩, next := s.next + 1 }, s.next)

/-- jaggedarray.py:153-159, the end of `__init__`: awkward arrays with rows of one length become NumPy
arrays.  The rows come from lists or from newly joined data, so that the array is a new one. -/
def State.wrap (s : State α) (rows : List (List α)) (force : Bool) : State α × Obj α :=
  match forceNumpy (.ak rows) force with
  | .np _ m rows => ((s.alloc m rows).1, .np (s.alloc m rows).2)
  | .ak rows => (s, .ak rows)

/-- One element of a 2d array in memory is overwritten. -/
def Buf.set (b : Buf α) (i k : ℕ) (v : α) : Buf α :=
  { b with rows := b.rows.modify i (·.set k v) }

/-- What is given to a NumPy function: a jagged array or something else. -/
inductive FArg where
  | jagged (j : ℕ)
  | other

/-- What the user can do. -/
inductive Op (α : Type) where
  /-- `A[i, k] = v` for a 2d array -/
  | write (b i k : ℕ) (v : α)
  /-- `JaggedArray(A)` for a 2d array -/
  | fromArray (b : ℕ)
  /-- `JaggedArray(rows, force_numpy=force)` for a list of lists -/
  | fromLists (rows : List (List α)) (force : Bool)
  /-- `J[i]` -/
  | getRow (j : ℕ) (i : ℤ)
  /-- `J[i, k]` -/
  | getItem (j : ℕ) (i k : ℤ)
  /-- `J[i] = row` -/
  | setRow (j : ℕ) (i : ℤ) (row : List α)
  /-- `J[i, k] = v` -/
  | setItem (j : ℕ) (i k : ℤ) (v : α)
  /-- `len(J)` -/
  | len (j : ℕ)
  /-- `np.concatenate(Js)`, `np.vstack(Js)` -/
  | join (js : List FArg)
  /-- `J.to_array()`, and `J.to_numpy()` if it wraps a NumPy array -/
  | toArray (j : ℕ)
  /-- a universal function or an operator applied to one jagged array, `J + 1`, `np.sqrt(J)` -/
  | ufunc (f : α → α) (j : ℕ)

/-- What an operation returns. -/
inductive Ret (α : Type) where
  | unit
  | jagged (j : ℕ)
  | array (b : ℕ)
  | awkward (rows : List (List α))
  | row (r : List α)
  | item (v : α)
  | nat (n : ℕ)

/-- A name that is not bound. -/
def State.obj (s : State α) (j : ℕ) : Py (Obj α) :=
  match s.objs[j]? with
  | some o => .ok o
  | none => .error .generic

/-- A new jagged array. -/
def State.push (s : State α) (o : Obj α) : State α × Py (Ret α) :=
  ({ s with objs := s.objs ++ [o] }, .ok (.jagged s.objs.length))

/-- The assignment of a row to a row of a 2d array: the lengths agree, or one number is repeated. -/
def assignRow (m : ℕ) (row : List α) : Py (List α) :=
  if row.length = m then .ok row
  else match row with
    | [v] => .ok (List.replicate m v)
    | _ => .error .value

/-- jaggedarray.py:296-304, the check of the arguments of `np.concatenate` and `np.vstack`. -/
def State.joined (s : State α) : List FArg → Py (List (Obj α))
  | [] => .ok []
  | .other :: _ => .error .type
  | .jagged j :: l => (s.obj j).bind fun o => (s.joined l).map fun os => o :: os

/-- jaggedarray.py:327-338 `vstack` and `concatenate`: the flat data and the widths are joined, and the
data are cut again. -/
def State.stack (s : State α) (os : List (Obj α)) : Py (List (List α)) :=
  akUnflatten (os.map fun o => (s.rows o).flatten).flatten (os.map fun o => cc (s.rows o)).flatten

/-- A state change with an exception in place of a result. -/
def State.tryDo (s : State α) {β : Type} (x : Py β) (f : β → State α × Py (Ret α)) :
    State α × Py (Ret α) :=
  match x with
  | .ok b => f b
  | .error e => (s, .error e)

/-- One operation.  Rows of awkward arrays cannot be assigned (awkward raises a `TypeError`: only fields,
named by strings, may be assigned).  There is no `__array_ufunc__`, so that NumPy converts the object by
`__array__` (jaggedarray.py:167-168) and raises a `ValueError` if the result is no NumPy array. -/
def step (s : State α) : Op α → State α × Py (Ret α)
  | .write b i k v =>
    if b < s.next then
      if i < (s.bufs b).rows.length ∧ k < (s.bufs b).m then
        ({ s with bufs := Function.update s.bufs b ((s.bufs b).set i k v) }, .ok .unit)
      else (s, .error .index)
    else (s, .error .generic)
  | .fromArray b => if b < s.next then s.push (.np b) else (s, .error .generic)
  | .fromLists rows force => (s.wrap rows force).1.push (s.wrap rows force).2
  | .getRow j i => s.tryDo (s.obj j) fun o =>
    s.tryDo (position (s.rows o).length i) fun p => (s, (pyGet (s.rows o) p).map .row)
  | .getItem j i k => s.tryDo (s.obj j) fun o =>
    s.tryDo (position (s.rows o).length i) fun p => s.tryDo (pyGet (s.rows o) p) fun r =>
      s.tryDo (position r.length k) fun q => (s, (pyGet r q).map .item)
  | .setRow j i row => s.tryDo (s.obj j) fun
    | .ak _ => (s, .error .type)
    | .np b => s.tryDo (position (s.bufs b).rows.length i) fun p =>
      s.tryDo (assignRow (s.bufs b).m row) fun r =>
        ({ s with bufs := Function.update s.bufs b { s.bufs b with rows := (s.bufs b).rows.set p r } },
          .ok .unit)
  | .setItem j i k v => s.tryDo (s.obj j) fun
    | .ak _ => (s, .error .type)
    | .np b => s.tryDo (position (s.bufs b).rows.length i) fun p =>
      s.tryDo (position (s.bufs b).m k) fun q =>
        ({ s with bufs := Function.update s.bufs b ((s.bufs b).set p q v) }, .ok .unit)
  | .len j => s.tryDo (s.obj j) fun o => (s, .ok (.nat (s.rows o).length))
  | .join js => s.tryDo (s.joined js) fun
    | [] => (s, .error .value)
    | os => s.tryDo (s.stack os) fun rows => (s.wrap rows true).1.push (s.wrap rows true).2
  | .toArray j => s.tryDo (s.obj j) fun
    | .np b => (s, .ok (.array b))
    | .ak rows => (s, .ok (.awkward rows))
  | .ufunc f j => s.tryDo (s.obj j) fun
    | .ak _ => (s, .error .value)
    | .np b =>
      ((s.alloc (s.bufs b).m ((s.bufs b).rows.map (·.map f))).1,
        .ok (.array (s.alloc (s.bufs b).m ((s.bufs b).rows.map (·.map f))).2))

/-- A session. -/
def run (s : State α) (ops : List (Op α)) : State α :=
  ops.foldl (fun s op => (step s op).1) s

end

end Verif.JagObj
