import Verif.Model.Solve
import Mathlib.LinearAlgebra.Matrix.Adjugate

/-!
# Model of the front end of `linalg/solve.py`: `linsolve` (13-134), `reduce` (137-163), `npsolve`
(166-168)

A call returns a value or raises, and leaves the arrays `A` and `B` of the caller in some state.
`A` and `B` hold floats; `B` is one or two dimensional.  The eliminations of `Model/Solve` are
repeated here with the state they leave behind if they raise, since `inplace=True` makes it visible.
-/

namespace Verif.SolveApi

open Verif.Solve
open Verif.Utils (DType store)

/-- The argument `method`. -/
inductive MethodName
  | numpy | jordan | gaussJordan | other
  deriving DecidableEq

/-- A right hand side or a result: a one or two dimensional array with `n` rows, whose entries may
not be finite. -/
inductive Rhs (n : ℕ) (α : Type)
  | one (b : Fin n → α)
  | two (m : ℕ) (B : Fin n → Fin m → α)

/-- What `linsolve` returns: an array, or the pair of solution and residual. -/
inductive Out (n : ℕ) (K : Type)
  | array (X : Rhs n (Option K))
  | pair (X R : Rhs n (Option K))

/-- The outcome of a call and the arrays of the caller after it. -/
structure Call (n : ℕ) (K : Type) (α : Type) where
  result : Py α
  A : Fin n → Fin n → K
  B : Rhs n K

section
variable {n : ℕ} {K : Type} [Field K] [LinearOrder K] [FloorRing K]

/-- `npsolve`, `linalg/solve.py` 166-168: NumPy raises for singular matrices. -/
def npsolve (A : Fin n → Fin n → K) (B : Rhs n K) : Py (Rhs n (Option K)) :=
  if (Matrix.of A).det = 0 then .error .linalg
  else
    let inv := (Matrix.of A).det⁻¹ • (Matrix.of A).adjugate
    match B with
    | .one b => .ok (.one fun i => some (∑ k, inv i k * b k))
    | .two m B => .ok (.two m fun i j => some (∑ k, inv i k * B k j))

/-- The elimination with the arrays it leaves behind: an exception is raised before the equation
changes anything (`linalg/solve.py` 183, 208), the equations before have been processed. -/
def eliminateIn {m : ℕ} (me : Method) (tol : K) (pb : Fin n → Bool) (pv : Fin n → K) :
    List (Fin n) → Sys n m K → Sys n m K × Option PyErr
  | [], S => (S, none)
  | i :: is, S =>
      match step me tol .float pb pv S i with
      | .ok S' => eliminateIn me tol pb pv is S'
      | .error e => (S, some e)

/-- `B.reshape((nEQ, 1))` of a one dimensional `B` is a view, `linalg/solve.py` 111-112. -/
def Rhs.cols (B : Rhs n K) : ℕ :=
  match B with
  | .one _ => 1
  | .two m _ => m

/-- The entries of the view. -/
def Rhs.entry (B : Rhs n K) (i : Fin n) (j : Fin B.cols) : K :=
  match B, j with
  | .one b, _ => b i
  | .two _ B, j => B i j

/-- Writing into the view. -/
def Rhs.write (B : Rhs n K) (f : Fin n → Fin B.cols → K) : Rhs n K :=
  match B, f with
  | .one _, f => .one fun i => f i ⟨0, Nat.zero_lt_one⟩
  | .two m _, f => .two m f

/-- The arrays as a system. -/
def start (A : Fin n → Fin n → K) (B : Rhs n K) : Sys n B.cols K := fun i => (A i, B.entry i)

/-- The prescribed values that the elimination works with. -/
inductive Presc (n : ℕ) (K : Type)
  | given (pb : Fin n → Bool) (pv : Fin n → K)
  /-- a call that cannot be compiled -/
  | illTyped

/-- Run `_Jordan` or `_GaussJordan` on the arrays or on copies of them; every exception is reported as
a `LinAlgError`. -/
def runElimination {α : Type} (me : Method) (tol : K) (A : Fin n → Fin n → K) (B : Rhs n K)
    (p : Presc n K) (inplace : Bool)
    (k : (pb : Fin n → Bool) → (pv : Fin n → K) → Sys n B.cols K → α) : Call n K α :=
  match p with
  | .illTyped => ⟨.error .linalg, A, B⟩
  | .given pb pv =>
      let r := eliminateIn me tol pb pv (List.finRange n) (start A B)
      let A' := if inplace then fun i => (r.1 i).1 else A
      let B' := if inplace then B.write fun i => (r.1 i).2 else B
      match r.2 with
      | some _ => ⟨.error .linalg, A', B'⟩
      | none => ⟨.ok (k pb pv r.1), A', B'⟩

/-- The result of `linsolve` for the two eliminations: always two dimensional, 126-129. -/
def linsolveOut {m : ℕ} (pre : Bool) (pb : Fin n → Bool) (pv : Fin n → K) (S : Sys n m K) :
    Out n K :=
  if pre then .pair (.two m (backsub S pb pv).1) (.two m (backsub S pb pv).2)
  else .array (.two m (backsub S pb pv).1)

/-- The prescription in `linsolve`: `presc_val` decides, 113-116. -/
def linsolvePresc (pb : Option (Fin n → Bool)) (pv : Option (Fin n → K)) : Presc n K :=
  match pv with
  | none => .given (fun _ => false) (fun _ => 0)
  | some pv =>
      match pb with
      | none => .illTyped
      | some pb => .given pb pv

/-- `linsolve`, `linalg/solve.py` 13-134. -/
def linsolve (tol : K) (method : MethodName) (A : Fin n → Fin n → K) (B : Rhs n K)
    (pb : Option (Fin n → Bool)) (pv : Option (Fin n → K)) (inplace : Bool) : Call n K (Out n K) :=
  match method with
  | .other => ⟨.error .attribute, A, B⟩
  | .numpy =>
      match pb with
      | some _ => ⟨.error .assertion, A, B⟩
      | none => ⟨(npsolve A B).map .array, A, B⟩
  | .jordan =>
      runElimination .jordan tol A B (linsolvePresc pb pv) inplace (linsolveOut pv.isSome)
  | .gaussJordan =>
      runElimination .gaussJordan tol A B (linsolvePresc pb pv) inplace (linsolveOut pv.isSome)

/-- The prescription in `reduce`: `presc_bool` decides, 152-155. -/
def reducePresc (pb : Option (Fin n → Bool)) (pv : Option (Fin n → K)) : Presc n K :=
  match pb with
  | none => .given (fun _ => false) (fun _ => 0)
  | some pb =>
      match pv with
      | none => .illTyped
      | some pv => .given pb pv

/-- The result of `reduce`: the arrays `A` and `B`, of the shapes that were given. -/
def reduceOut (B : Rhs n K) (S : Sys n B.cols K) : (Fin n → Fin n → K) × Rhs n K :=
  (fun i => (S i).1, B.write fun i => (S i).2)

/-- `reduce`, `linalg/solve.py` 137-163. -/
def reduce (tol : K) (method : MethodName) (A : Fin n → Fin n → K) (B : Rhs n K)
    (pb : Option (Fin n → Bool)) (pv : Option (Fin n → K)) (inplace : Bool) :
    Call n K ((Fin n → Fin n → K) × Rhs n K) :=
  match method with
  | .jordan => runElimination .jordan tol A B (reducePresc pb pv) inplace fun _ _ => reduceOut B
  | .gaussJordan =>
      runElimination .gaussJordan tol A B (reducePresc pb pv) inplace fun _ _ => reduceOut B
  | _ => ⟨.error .attribute, A, B⟩

end

end Verif.SolveApi
