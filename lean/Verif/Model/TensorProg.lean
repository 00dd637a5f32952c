import Verif.Model.TensorOps

/-!
# Programs that compute with vectors and tensors

Statements of `linalg/abstract.py`, `linalg/utils.py`, `linalg/meta.py`, `linalg/vector.py` and
`linalg/tensor.py` acting on the object graph of `Model/Frames`: which of them make new objects, in
whose frame object the results live, and what they return.  A program is a list of statements;
exceptions are caught, and the outcomes of the statements that compute something are written down in
a log.  Numbers that were computed before can be used as factors.
-/

namespace Verif.TProg

open Verif.Frames

section
variable {n : ℕ} {K : Type} [Field K] [LinearOrder K]

/-- What a statement returns. -/
inductive Out (n : ℕ) (K : Type)
  | number (c : K)
  /-- an array of components -/
  | array (c : Comps n K)
  /-- a new tensor -/
  | object (t : ℕ)
  /-- statements that act in place -/
  | done

/-- A factor: written down, or the number the `k`-th statement returned. -/
inductive Num (K : Type)
  | const (c : K)
  | logged (k : ℕ)

/-- The value of a factor; anything else than a number is not accepted. -/
def Num.get (log : List (Py (Out n K))) : Num K → Py K
  | .const c => .ok c
  | .logged k =>
      match log[k]? with
      | some (.ok (.number c)) => .ok c
      | _ => .error .type

/-- The statements.  Tensors are given by their identifiers. -/
inductive Stmt (n : ℕ) (K : Type)
  /-- a statement about frames, or about the frame of a tensor -/
  | frames (op : Op n K)
  /-- `Vector(arr)`, `Tensor2(arr)`, `Tensor(arr)` without a frame -/
  | fresh (c : Comps n K)
  | show (a : ℕ)
  | copy (t : ℕ)
  | deepcopy (t : ℕ)
  | add (a b : ℕ)
  | sub (a b : ℕ)
  | scale (a : ℕ) (s : Num K)
  | divide (a : ℕ) (s : Num K)
  | neg (a : ℕ)
  | iadd (a b : ℕ)
  | isub (a b : ℕ)
  | iscale (a : ℕ) (s : Num K)
  | idivide (a : ℕ) (s : Num K)
  | transpose (a : ℕ)
  | itranspose (a : ℕ)
  | dual (a : ℕ)
  | dot (a b : ℕ)

/-- The tensor with an identifier: its components and its frame. -/
def value (h : Heap n K) (t : ℕ) : Tensor n K :=
  ⟨(h.tensors t).comps, (h.frames (h.tensors t).frame).frame⟩

/-- `cls(arr, frame=frame)` -/
def store (c : Comps n K) (f : ℕ) (h : Heap n K) : Heap n K × Py (Out n K) :=
  match h.newTensor c f with
  | (h', none) => (h', .ok (.object h.nT))
  | (h', some e) => (h', .error e)

/-- `self.array = …` of a tensor: the object and its frame stay. -/
def overwrite (a : ℕ) (c : Comps n K) (h : Heap n K) : Heap n K :=
  { h with tensors := Function.update h.tensors a ⟨c, (h.tensors a).frame⟩ }

/-- A new tensor in the frame object of tensor `a`: `self.__class__(arr, frame=self.frame)`,
`linalg/abstract.py` 51, 121, 158, `linalg/utils.py` 218, 224. -/
def inFrameOf (a : ℕ) (r : Py (Tensor n K)) (h : Heap n K) : Heap n K × Py (Out n K) :=
  match r with
  | .error e => (h, .error e)
  | .ok r => store r.comps (h.tensors a).frame h

/-- A new tensor in a frame object of its own: `linalg/abstract.py` 74-76, 90-92 and
`linalg/meta.py` 465-467. -/
def inNewFrame (r : Py (Tensor n K)) (h : Heap n K) : Heap n K × Py (Out n K) :=
  match r with
  | .error e => (h, .error e)
  | .ok r => store r.comps h.nF (h.addFrame r.frame)

/-- In place. -/
def inPlace (a : ℕ) (r : Py (Tensor n K)) (h : Heap n K) : Heap n K × Py (Out n K) :=
  match r with
  | .error e => (h, .error e)
  | .ok r => (overwrite a r.comps h, .ok .done)

/-- A quotient whose components are not finite counts as an error here. -/
def finite (r : Py (Option (Tensor n K))) : Py (Tensor n K) :=
  match r with
  | .error e => .error e
  | .ok none => .error .zeroDiv
  | .ok (some t) => .ok t

/-- One statement that computes something; identifiers that do not exist are a `NameError`. -/
def compute (cfg : Cfg K) (s : Stmt n K) (log : List (Py (Out n K))) (h : Heap n K) :
    Heap n K × Py (Out n K) :=
  match s with
  | .frames _ => (h, .ok .done)
  | .fresh c => inNewFrame (.ok ⟨c, ambientFrame⟩) h              -- linalg/meta.py 313-318
  | .show a =>                   -- linalg/vector.py 140-144, linalg/tensor.py 131-135
      if a < h.nT then (h, ((value h a).show cfg none).map .array) else (h, .error .generic)
  | .copy t =>                                                   -- linalg/meta.py 344-361
      if t < h.nT then store (h.tensors t).comps (h.tensors t).frame h else (h, .error .generic)
  | .deepcopy t =>
      if t < h.nT then inNewFrame (.ok ⟨(value h t).comps, ⟨.reference, (value h t).frame.axes⟩⟩) h
      else (h, .error .generic)
  | .add a b =>                                                  -- linalg/abstract.py 68-77
      if a < h.nT ∧ b < h.nT then
        inNewFrame (Frames.binary cfg (· + ·) (value h a) (.tensor (value h b))) h
      else (h, .error .generic)
  | .sub a b =>                                                  -- 85-93
      if a < h.nT ∧ b < h.nT then
        inNewFrame (Frames.binary cfg (· - ·) (value h a) (.tensor (value h b))) h
      else (h, .error .generic)
  | .scale a s =>                                                -- 47-51
      if a < h.nT then
        match s.get log with
        | .error e => (h, .error e)
        | .ok c => inFrameOf a (Frames.mul (value h a) (.number c)) h
      else (h, .error .generic)
  | .divide a s =>                                               -- 117-121
      if a < h.nT then
        match s.get log with
        | .error e => (h, .error e)
        | .ok c => inFrameOf a (finite (Frames.truediv (value h a) (.number c))) h
      else (h, .error .generic)
  | .neg a =>                                                    -- 148-158
      if a < h.nT then inFrameOf a (.ok (Frames.neg (value h a))) h else (h, .error .generic)
  | .iadd a b =>                                                 -- 59-66
      if a < h.nT ∧ b < h.nT then inPlace a (Frames.iadd cfg (value h a) (.tensor (value h b))) h
      else (h, .error .generic)
  | .isub a b =>                                                 -- 102-109
      if a < h.nT ∧ b < h.nT then inPlace a (Frames.isub cfg (value h a) (.tensor (value h b))) h
      else (h, .error .generic)
  | .iscale a s =>                                               -- 41-45
      if a < h.nT then
        match s.get log with
        | .error e => (h, .error e)
        | .ok c => inPlace a (Frames.imul (value h a) (.number c)) h
      else (h, .error .generic)
  | .idivide a s =>                                              -- 111-115
      if a < h.nT then
        match s.get log with
        | .error e => (h, .error e)
        | .ok c => inPlace a (finite (Frames.itruediv (value h a) (.number c))) h
      else (h, .error .generic)
  | .transpose a =>                                              -- linalg/meta.py 464-467
      if a < h.nT then
        inNewFrame ((mkFrame cfg (value h a).frame.cls (value h a).frame.axes).map fun g =>
          ⟨(value h a).comps.transpose, g⟩) h
      else (h, .error .generic)
  | .itranspose a =>                                             -- 461-463
      if a < h.nT then inPlace a (.ok ⟨(value h a).comps.transpose, (value h a).frame⟩) h
      else (h, .error .generic)
  | .dual a =>                   -- linalg/vector.py 111-118, linalg/tensor.py 86-91
      if a < h.nT then
        match dualOf cfg (value h a).frame (value h a).comps with
        | .error e => (h, .error e)
        | .ok (c, g) =>
            -- a Cartesian frame is its own dual (linalg/frame.py 796-800), others are new objects
            if (value h a).frame.cls = .cartesian then store c (h.tensors a).frame h
            else store c h.nF (h.addFrame g)
      else (h, .error .generic)
  | .dot a b =>                                                  -- linalg/utils.py 205-237
      if a < h.nT ∧ b < h.nT then
        match Frames.dot cfg (value h a) (value h b) none none with
        | .error e => (h, .error e)
        | .ok (.scalar x) => (h, .ok (.number x))
        | .ok (.tensor t) => inFrameOf a (.ok t) h
      else (h, .error .generic)

/-- All objects, and the outcomes of the statements so far. -/
structure World (n : ℕ) (K : Type) where
  heap : Heap n K
  log : List (Py (Out n K))

/-- One statement; exceptions are caught. -/
def step (cfg : Cfg K) (w : World n K) (s : Stmt n K) : World n K :=
  match s with
  | .frames op => ⟨(op.run cfg w.heap).1, w.log⟩
  | s =>
      let r := compute cfg s w.log w.heap
      ⟨r.1, w.log ++ [r.2]⟩

/-- A program. -/
def run (cfg : Cfg K) (p : List (Stmt n K)) (w : World n K) : World n K := p.foldl (step cfg) w

end

end Verif.TProg
