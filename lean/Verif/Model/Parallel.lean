import Verif.Prelude
import Mathlib.Algebra.Order.Field.Basic
import Mathlib.Algebra.Order.Group.Abs
import Mathlib.Logic.Function.Basic

/-!
# Parallel loops at the level of single reads and writes

Code compiled with `prange` hands the iterations to several threads, which share the memory of the arrays.  A thread executes
its iterations one after the other; the reads and writes of different threads are interleaved in any order, and `x += y` is
a read followed by a write.  Compiled code does not check bounds: an access outside the array has no defined effect, which is
an outcome of its own here (`none`).

Memory consists of C-contiguous arrays, each with a number: 0 is the result `res` (or `out`), 1, 2, 3 the inputs and the
temporary arrays computed before the loop.  A cell is addressed by the array and the offset in it; `a[i, j]` of an array of
shape `(m, n)` has the offset `i * n + j`.  Numbers computed before the loop are constants of the iterations.  Inner
`prange` loops are executed by the thread of the outer iteration, as Numba does.  Numbers are exact.
-/

namespace Verif.Par

/-- Array and offset. -/
abbrev Loc := ℕ × ℕ

/-- The content of all cells. -/
abbrev Mem (V : Type) := Loc → V

/-- What a thread does, one access after the other. -/
inductive Prog (V α : Type)
  | ret (a : α)
  | load (l : Loc) (k : V → Prog V α)
  | store (l : Loc) (v : V) (k : Prog V α)

section
variable {V α β : Type}

/-- First `p`, then `f` with its result. -/
def Prog.bind (p : Prog V α) (f : α → Prog V β) : Prog V β :=
  match p with
  | .ret a => f a
  | .load l k => .load l fun v => (k v).bind f
  | .store l v k => .store l v (k.bind f)

instance : Monad (Prog V) where
  pure := .ret
  bind := Prog.bind

/-- Read a cell. -/
def rd (a o : ℕ) : Prog V V := .load (a, o) .ret

/-- Write a cell. -/
def wr (a o : ℕ) (v : V) : Prog V Unit := .store (a, o) v (.ret ())

/-- The threads of a loop, each with what is left to do, and the memory. -/
structure State (V : Type) where
  threads : List (Prog V Unit)
  mem : Mem V

/-- Thread `w` does its next access; `none` if that is outside the array. -/
def stepAt (size : ℕ → ℕ) (w : ℕ) (s : State V) : Option (State V) :=
  match s.threads[w]? with
  | none => some s
  | some (.ret _) => some s
  | some (.load l k) =>
      if l.2 < size l.1 then some ⟨s.threads.set w (k (s.mem l)), s.mem⟩ else none
  | some (.store l v k) =>
      if l.2 < size l.1 then some ⟨s.threads.set w k, Function.update s.mem l v⟩ else none

/-- The threads take turns as the schedule says. -/
def interleave (size : ℕ → ℕ) : List ℕ → State V → Option (State V)
  | [], s => some s
  | w :: ws, s =>
      match stepAt size w s with
      | none => none
      | some s' => interleave size ws s'

/-- A thread that executes the listed iterations. -/
def thread (body : ℕ → Prog V Unit) : List ℕ → Prog V Unit
  | [] => .ret ()
  | i :: is => (body i).bind fun _ => thread body is

/-- `for i in prange(...)`: `plan` lists the iterations of each thread. -/
def prange (size : ℕ → ℕ) (body : ℕ → Prog V Unit) (plan : List (List ℕ)) (sched : List ℕ) (m : Mem V) :
    Option (State V) :=
  interleave size sched ⟨plan.map (thread body), m⟩

/-- All threads are done. -/
def State.finished (s : State V) : Prop := ∀ p ∈ s.threads, p = .ret ()

/-- `for j in range(n)` -/
def loop : ℕ → (ℕ → Prog V Unit) → Prog V Unit
  | 0, _ => .ret ()
  | n + 1, f => (loop n f).bind fun _ => f n

/-- `sum(f(0), ..., f(n - 1))`, in a register. -/
def sumLoop [Add V] [Zero V] : ℕ → (ℕ → Prog V V) → Prog V V
  | 0, _ => .ret 0
  | n + 1, f => (sumLoop n f).bind fun s => (f n).bind fun v => .ret (s + v)

/-- A private array of `n` numbers. -/
def tab [Zero V] : ℕ → (ℕ → Prog V V) → Prog V (ℕ → V)
  | 0, _ => .ret fun _ => 0
  | n + 1, f => (tab n f).bind fun t => (f n).bind fun v => .ret (Function.update t n v)

/-- `res[off:off + n] = [f(0), ..., f(n - 1)]` without a temporary array. -/
def fill (off n : ℕ) (f : ℕ → Prog V V) : Prog V Unit :=
  loop n fun r => (f r).bind fun v => wr 0 (off + r) v

/-- `res[off:off + n] = [f(0), ..., f(n - 1)]` through a temporary array. -/
def assign [Zero V] (off n : ℕ) (f : ℕ → Prog V V) : Prog V Unit :=
  (tab n f).bind fun t => loop n fun r => wr 0 (off + r) (t r)

end

/-! ## The kernels -/

section
variable {K : Type} [Field K] [LinearOrder K]

/-- `utils.py` 324-326 and 343-347, `repeat` and `repeat1d`: `a` has `M` numbers. -/
def repeatBody (M i : ℕ) : Prog K Unit := fill (i * M) M fun r => rd 1 r

/-- `utils.py` 369-372 and 376-381, `tile` and `tile1d`; `cast` is the conversion to the type of the result. -/
def tileBody (cast : K → K) (M i : ℕ) : Prog K Unit :=
  fill (i * M) M fun r => do return cast ((← rd 1 r) + (i : K) * (← rd 2 r))

/-- `utils.py` 405-411 and 414-425: the rows `x[i]` and `y[j]` have `d` numbers, `y` has `nY` rows (in the second function as
many as are used). -/
def equalRowsBody (cast : K → K) (nY d i : ℕ) : Prog K Unit :=
  fill (i * nY) nY fun j => do
    let s ← sumLoop d fun c => do return |(← rd 1 (i * d + c)) - (← rd 2 (j * d + c))|
    return cast s

/-- `utils.py` 470-495 `repeat_diagonal_2d`. -/
def repeatDiagonalBody (N nR nC i : ℕ) : Prog K Unit :=
  loop nR fun r => loop nC fun c => do wr 0 ((i * nR + r) * (nC * N) + (i * nC + c)) (← rd 1 (r * nC + c))

/-- `utils.py` 498-507 `_to_range_1d_`. -/
def toRangeBody (cast : K → K) (a b : K) (i : ℕ) : Prog K Unit := do wr 0 i (cast (a + b * (← rd 1 i)))

/-- The first position of `x` in `space` (array 2), of length `n`; all of `space` is read. -/
def firstHit (x : K) : ℕ → Prog K (Option ℕ)
  | 0 => .ret none
  | n + 1 => do
      let before ← firstHit x n
      let y ← rd 2 n
      return before.or (if y = x then some n else none)

/-- `np.where(x == space)[0][0]`; without a hit the private array of hits is empty, and what is read is arbitrary. -/
def position (junk x : K) (n : ℕ) : Prog K K := do
  match ← firstHit x n with
  | some k => return (k : K)
  | none => return junk

/-- `hist.py` 17-23 `bin_centers`. -/
def binCentersBody (cast : K → K) (i : ℕ) : Prog K Unit := do
  wr 0 i (cast (((← rd 1 i) + (← rd 1 (i + 1))) / 2))

/-- `sparse/utils.py` 19-24, 28-33 (the length of a row of an awkward array is the difference of two offsets) and `utils.py` 428-437. -/
def widthsBody (i : ℕ) : Prog K Unit := do wr 0 i ((← rd 1 (i + 1)) - (← rd 1 i))

/-- `utils.py` 441-466 `count_cols_csr`; `ix` is the index a cell holds. -/
def countColsCsrBody (ix : K → ℕ) (i : ℕ) : Prog K Unit := do
  let hi ← rd 1 (i + 1)
  let lo ← rd 1 i
  wr 0 i ((← rd 2 (ix hi)) - (← rd 2 (ix lo)))

/-- Row `r` of `Q @ x`; `Q` starts at `q` in array 1, `x` at `a` in array 2. -/
def rowTimes (d q a r : ℕ) : Prog K K :=
  sumLoop d fun c => do return (← rd 1 (q + r * d + c)) * (← rd 2 (a + c))

/-- `linalg/utils.py` 425-446 `_show_vectors` and 472-493 `_show_frame`. -/
def showVectorsBody (d i : ℕ) : Prog K Unit := assign (i * d) d (rowTimes d 0 (i * d))

/-- `linalg/utils.py` 449-469 `_show_vectors_multi`. -/
def showVectorsMultiBody (d i : ℕ) : Prog K Unit := assign (i * d) d (rowTimes d (i * (d * d)) (i * d))

/-- `linalg/utils.py` 496-518 `_show_frames`; the inner loop runs over `arr.shape[-1]` rows. -/
def showFramesBody (d i : ℕ) : Prog K Unit :=
  loop d fun j => assign (i * (d * d) + j * d) d (rowTimes d 0 (i * (d * d) + j * d))

/-- `linalg/utils.py` 521-542 `_show_frames_multi`. -/
def showFramesMultiBody (d i : ℕ) : Prog K Unit :=
  loop d fun j => assign (i * (d * d) + j * d) d (rowTimes d (i * (d * d)) (i * (d * d) + j * d))

/-- `linalg/utils.py` 545-550 `_transpose_multi`. -/
def transposeBody (d i : ℕ) : Prog K Unit :=
  loop d fun r => fill (i * (d * d) + r * d) d fun c => rd 1 (i * (d * d) + c * d + r)

/-- `linalg/utils.py` 657-666 `vpath`; the temporary arrays `s` and `d` are arrays 2 and 3. -/
def vpathBody (cast : K → K) (nD i : ℕ) : Prog K Unit :=
  assign (i * nD) nD fun r => do return cast ((← rd 1 r) + (← rd 2 i) * (← rd 3 r))

/-- `linalg/utils.py` 838-842 `normalize2d`; `rt` is the square root. -/
def normalizeBody (rt cast : K → K) (d i : ℕ) : Prog K Unit := do
  let s ← sumLoop d fun c => do return (← rd 1 (i * d + c)) * (← rd 1 (i * d + c))
  assign (i * d) d fun r => do return cast ((← rd 1 (i * d + r)) / rt s)

/-- `linalg/utils.py` 851-855 `norm2d`. -/
def normBody (rt : K → K) (d i : ℕ) : Prog K Unit := do
  let s ← sumLoop d fun c => do return (← rd 1 (i * d + c)) * (← rd 1 (i * d + c))
  wr 0 i (rt s)

/-- `linalg/utils.py` 859-870 `_linspace`: `prange(1, N - 1)`, iteration `i` writes row `i + 1`; `step` is array 3. -/
def linspaceBody (d i : ℕ) : Prog K Unit :=
  assign ((i + 1) * d) d fun r => do return (← rd 1 r) + ((i + 1 : ℕ) : K) * (← rd 3 r)

/-- Lines 866 and 869: the first and the last row. -/
def copyRow (src row d : ℕ) : Prog K Unit := fill (row * d) d fun r => rd src r

/-- A thread alone, until it is done. -/
def alone (size : ℕ → ℕ) : Prog K Unit → Mem K → Option (Mem K)
  | .ret _, m => some m
  | .load l k, m => if l.2 < size l.1 then alone size (k (m l)) m else none
  | .store l v k, m => if l.2 < size l.1 then alone size k (Function.update m l v) else none

/-- `_linspace` after the temporary arrays are there. -/
def linspaceRun (size : ℕ → ℕ) (N d : ℕ) (plan : List (List ℕ)) (sched : List ℕ) (m : Mem K) :
    Option (State K) := do
  let m ← alone size (copyRow 1 0 d) m
  let s ← prange size (linspaceBody d) plan sched m
  let m ← alone size (copyRow 2 (N - 1) d) s.mem
  return ⟨s.threads, m⟩

/-- `linalg/utils.py` 881-886 `linspace1d`. -/
def linspace1dBody (start di : K) (i : ℕ) : Prog K Unit := wr 0 i (start + (i : K) * di)

/-- `Q @ A @ Q.T` to the offset `o`; `Q` starts at `q` in array 1, `A` at `o` in array 2. -/
def congruence (d q o : ℕ) : Prog K Unit := do
  let t ← tab (d * d) fun e => sumLoop d fun c => do
    return (← rd 1 (q + e / d * d + c)) * (← rd 2 (o + c * d + e % d))
  assign o (d * d) fun e => sumLoop d fun c => do return t (e / d * d + c) * (← rd 1 (q + e % d * d + c))

/-- `linalg/tr.py` 40-46 `_tr_tensors2_single`. -/
def trSingleBody (d i : ℕ) : Prog K Unit := congruence d 0 (i * (d * d))

/-- `linalg/tr.py` 50-58 `_tr_tensors2_single2`. -/
def trSingle2Body (nX d i : ℕ) : Prog K Unit := loop nX fun j => congruence d 0 ((i * nX + j) * (d * d))

/-- `linalg/tr.py` 61-66 `_tr_tensors2_multi`. -/
def trMultiBody (d i : ℕ) : Prog K Unit := congruence d (i * (d * d)) (i * (d * d))

/-- `linalg/tr.py` 70-78 `_tr_tensors2_multi2`. -/
def trMulti2Body (nX d i : ℕ) : Prog K Unit :=
  loop nX fun j => congruence d (i * (d * d)) ((i * nX + j) * (d * d))

/-- `linalg/tr.py` 148-163 `_tr_3333_out`: the loops over `p, q, r, s` are the loop over `e`, those over `i, j, k, m` the loop over `f`.
Every `+=` reads and writes a cell of the result. -/
def tr3333 (q o : ℕ) : Prog K Unit :=
  loop 81 fun e => loop 81 fun f => do
    let x ← rd 1 (q + f / 27 * 3 + e / 27)
    let y ← rd 1 (q + f / 9 % 3 * 3 + e / 9 % 3)
    let z ← rd 1 (q + f / 3 % 3 * 3 + e / 3 % 3)
    let w ← rd 1 (q + f % 3 * 3 + e % 3)
    let a ← rd 2 (o + e)
    let old ← rd 0 (o + f)
    wr 0 (o + f) (old + x * y * z * w * a)

/-- `linalg/tr.py` 167-172 `_tr_3333_multi`. -/
def tr3333MultiBody (i : ℕ) : Prog K Unit := tr3333 (i * 9) (i * 81)

/-- `linalg/tr.py` 176-183 `_tr_3333_multi2`. -/
def tr3333Multi2Body (nX i : ℕ) : Prog K Unit := loop nX fun j => tr3333 (i * 9) ((i * nX + j) * 81)

/-- `linalg/tr.py` 187-192 `_tr_3333_multi3`. -/
def tr3333Multi3Body (i : ℕ) : Prog K Unit := tr3333 0 (i * 81)

/-- `linalg/utils.py` 800-821 `inv3x3_bulk`: the determinant, nine cofactors, and the division of the block in place.  The entries of the matrix
are read once. -/
def inv3x3Body (i : ℕ) : Prog K Unit := do
  let A ← tab 9 fun r => rd 1 (i * 9 + r)
  let det := A 0 * A 4 * A 8 - A 0 * A 5 * A 7 - A 1 * A 3 * A 8 + A 1 * A 5 * A 6 + A 2 * A 3 * A 7 - A 2 * A 4 * A 6
  wr 0 (i * 9 + 0) (A 4 * A 8 - A 5 * A 7)
  wr 0 (i * 9 + 1) (-A 1 * A 8 + A 2 * A 7)
  wr 0 (i * 9 + 2) (A 1 * A 5 - A 2 * A 4)
  wr 0 (i * 9 + 3) (-A 3 * A 8 + A 5 * A 6)
  wr 0 (i * 9 + 4) (A 0 * A 8 - A 2 * A 6)
  wr 0 (i * 9 + 5) (-A 0 * A 5 + A 2 * A 3)
  wr 0 (i * 9 + 6) (A 3 * A 7 - A 4 * A 6)
  wr 0 (i * 9 + 7) (-A 0 * A 7 + A 1 * A 6)
  wr 0 (i * 9 + 8) (A 0 * A 4 - A 1 * A 3)
  loop 9 fun r => do wr 0 (i * 9 + r) ((← rd 0 (i * 9 + r)) / det)

/-- `linalg/utils.py` 777-796 `inv3x3`: the private array before the division. -/
def cofactor (A : ℕ → K) : ℕ → K
  | 0 => A 4 * A 8 - A 5 * A 7
  | 1 => -A 1 * A 8 + A 2 * A 7
  | 2 => A 1 * A 5 - A 2 * A 4
  | 3 => -A 3 * A 8 + A 5 * A 6
  | 4 => A 0 * A 8 - A 2 * A 6
  | 5 => -A 0 * A 5 + A 2 * A 3
  | 6 => A 3 * A 7 - A 4 * A 6
  | 7 => -A 0 * A 7 + A 1 * A 6
  | 8 => A 0 * A 4 - A 1 * A 3
  | _ => 0

/-- `linalg/utils.py` 824-829 `inv3x3_bulk2`. -/
def inv3x3Bulk2Body (i : ℕ) : Prog K Unit := do
  let A ← tab 9 fun r => rd 1 (i * 9 + r)
  let det := A 0 * A 4 * A 8 - A 0 * A 5 * A 7 - A 1 * A 3 * A 8 + A 1 * A 5 * A 6 + A 2 * A 3 * A 7 - A 2 * A 4 * A 6
  assign (i * 9) 9 fun r => return cofactor A r / det

/-- `approx/mls.py` 13-22 `_approximate_2d`: values are array 1, neighbours array 2 (`ix` is the index a cell holds), factors array 3. -/
def approximate2dBody (ix : K → ℕ) (nN nD i : ℕ) : Prog K Unit :=
  loop nD fun j => loop nN fun k => do
    let n ← rd 2 (i * nN + k)
    let v ← rd 1 (ix n * nD + j)
    let f ← rd 3 (i * nN + k)
    wr 0 (i * nD + j) ((← rd 0 (i * nD + j)) + v * f)

/-- `approx/mls.py` 25-32 `_approximate_nd`: the block of one target has `nD` numbers; `out[i] += ...` reads the block, adds, and writes it. -/
def approximateNdBody (ix : K → ℕ) (nN nD i : ℕ) : Prog K Unit :=
  loop nN fun k => do
    let n ← rd 2 (i * nN + k)
    let f ← rd 3 (i * nN + k)
    loop nD fun j => do
      let old ← rd 0 (i * nD + j)
      wr 0 (i * nD + j) (old + (← rd 1 (ix n * nD + j)) * f)

/-- `utils.py` 528-534 `find1d`, `utils.py` 538-544 `find2d` (rows of `nC` numbers; `find1d` has `nC = 1`): the result of a row is a temporary
array. -/
def findBody (junk : ℕ → K) (n nC i : ℕ) : Prog K Unit :=
  assign (i * nC) nC fun c => do position (junk (i * nC + c)) (← rd 1 (i * nC + c)) n

end

end Verif.Par
