import Verif.Model.Frames

/-!
# Weak references: tensors that are no longer used

`Model/Frames` keeps every tensor forever and lets frames remember tensors by serial number.  Here the
registry of a frame is what it is in `linalg/meta.py` 230-232 and 262-279: a
`weakref.WeakValueDictionary` whose keys are the addresses (`id(v)`) of the tensors.  Tensors
disappear when the last reference to them does, and their addresses are given to other tensors.

A tensor has a serial number, which stands for its identity, and an address.  The allocator is not
part of the library: it chooses the address of every new tensor.  Frames do not disappear in the
model (a frame that is not used any more has no tensors, nothing depends on it).  The dictionary
drops an entry as soon as its value disappears, which is what `weakref` promises; this happens between
statements, never inside a loop over the dictionary (in `linalg/frame.py` 306-308 the loop variable
and the caller hold the tensors).
-/

namespace Verif.Weak

open Verif.Frames

section
variable {n : ℕ} {K : Type} [Field K] [LinearOrder K]

/-- A frame with its dictionary: addresses, and the tensors the weak references point to. -/
structure FObj (n : ℕ) (K : Type) where
  frame : Frame n K
  dict : List (ℕ × ℕ)

/-- A tensor: components, frame, address, and whether somebody still refers to it. -/
structure TObj (n : ℕ) (K : Type) where
  comps : Comps n K
  frame : ℕ
  addr : ℕ
  alive : Bool

/-- All frames and tensors. -/
structure St (n : ℕ) (K : Type) where
  nF : ℕ
  frames : ℕ → FObj n K
  nT : ℕ
  tensors : ℕ → TObj n K

/-- A statement has an effect even if it raises. -/
abbrev Res (n : ℕ) (K : Type) := St n K × Option PyErr

/-- `d[a] = v` -/
def dictSet (d : List (ℕ × ℕ)) (a v : ℕ) : List (ℕ × ℕ) :=
  if a ∈ d.map Prod.fst then d.map fun e => if e.1 = a then (a, v) else e else d ++ [(a, v)]

/-- `if a in d: del d[a]` -/
def dictDel (d : List (ℕ × ℕ)) (a : ℕ) : List (ℕ × ℕ) := d.filter fun e => e.1 ≠ a

/-- A new frame object, `linalg/meta.py` 230-232. -/
def St.addFrame (h : St n K) (f : Frame n K) : St n K :=
  { h with nF := h.nF + 1, frames := Function.update h.frames h.nF ⟨f, []⟩ }

/-- `f._register_tensorial_(t)`: `linalg/meta.py` 262-268. -/
def St.register (t f : ℕ) (h : St n K) : St n K :=
  { h with
      frames := Function.update h.frames f ⟨(h.frames f).frame,
        dictSet (h.frames f).dict (h.tensors t).addr t⟩ }

/-- `f._unregister_tensorial_(t)`: `linalg/meta.py` 270-279. -/
def St.unregister (t f : ℕ) (h : St n K) : St n K :=
  { h with
      frames := Function.update h.frames f ⟨(h.frames f).frame,
        dictDel (h.frames f).dict (h.tensors t).addr⟩ }

/-- A tensor that can be used: it has a name. -/
def St.usable (h : St n K) (t : ℕ) : Prop := t < h.nT ∧ (h.tensors t).alive = true

instance (h : St n K) (t : ℕ) : Decidable (h.usable t) := inferInstanceAs (Decidable (_ ∧ _))

/-- `cls(array, frame=f)` at the address `addr`: `linalg/meta.py` 291-339. -/
def St.newTensor (c : Comps n K) (f addr : ℕ) (h : St n K) : Res n K :=
  if f < h.nF then
    (St.register h.nT f
      { h with nT := h.nT + 1, tensors := Function.update h.tensors h.nT ⟨c, f, addr, true⟩ }, none)
  else (h, some .type)

/-- The last reference to the tensor disappears: all weak references to it are removed from the
dictionaries that hold them. -/
def St.drop (t : ℕ) (h : St n K) : Res n K :=
  if h.usable t then
    ({ h with
        tensors := Function.update h.tensors t { h.tensors t with alive := false }
        frames := fun f => { h.frames f with dict := (h.frames f).dict.filter fun e => e.2 ≠ t } },
      none)
  else (h, some .generic)

/-- `t.frame = f`: `linalg/meta.py` 410-430. -/
def St.setFrame (cfg : Cfg K) (t f : ℕ) (h : St n K) : Res n K :=
  if h.usable t ∧ f < h.nF then
    let o := h.tensors t
    match showIn cfg (h.frames o.frame).frame o.comps (some (h.frames f).frame) with   -- 426
    | .error e => (h, some e)
    | .ok c =>
        let h := St.unregister t o.frame h                                             -- 427
        let h := { h with tensors := Function.update h.tensors t { o with comps := c, frame := f } }
        (St.register t f h, none)                                                      -- 430
  else (h, some .generic)

/-- `t.frame = array`: `linalg/meta.py` 421-422. -/
def St.setFrameArray (cfg : Cfg K) (t : ℕ) (axes : Mat n K) (h : St n K) : Res n K :=
  St.setFrame cfg t h.nF (h.addFrame ⟨.reference, axes⟩)

/-- `t.array.frame = f`: the setter of the array, `linalg/meta.py` 95-103, looks at nothing else. -/
def St.setArrayFrame (t f : ℕ) (h : St n K) : Res n K :=
  if h.usable t ∧ f < h.nF then
    ({ h with tensors := Function.update h.tensors t { h.tensors t with frame := f } }, none)
  else (h, some .generic)

/-- `f.axes = value`: `linalg/frame.py` 290-311. -/
def St.setAxes (cfg : Cfg K) (f : ℕ) (value : Mat n K) (h : St n K) : Res n K :=
  if f < h.nF then
    let o := h.frames f
    if o.dict = [] then
      ({ h with frames := Function.update h.frames f ⟨⟨o.frame.cls, value⟩, o.dict⟩ }, none)
    else
      match o.frame.dcmTarget cfg ⟨.reference, value⟩ with
      | .error e => (h, some e)
      | .ok dcm =>
          let tensors := (o.dict.map Prod.snd).foldl (fun ts v =>
            Function.update ts v { ts v with comps := (ts v).comps.transform dcm }) h.tensors
          ({ h with
              tensors := tensors
              frames := Function.update h.frames f ⟨⟨o.frame.cls, value⟩, o.dict⟩ }, none)
  else (h, some .generic)

/-- `for t in tensors: t.frame = result`, `linalg/frame.py` 44-45. -/
def St.moveAll (cfg : Cfg K) (f : ℕ) : List ℕ → St n K → Res n K
  | [], h => (h, none)
  | t :: ts, h =>
      match St.setFrame cfg t f h with
      | (h', none) => St.moveAll cfg f ts h'
      | (h', some e) => (h', some e)

/-- `inplace_binary`, `linalg/frame.py` 29-50; `list(obj._weakrefs.values())` is taken first. -/
def St.inplace (cfg : Cfg K) (f : ℕ) (o : Operand n K) (h : St n K) : Res n K :=
  if f < h.nF then
    let axes := (h.frames f).frame.axes
    let new := o.apply axes
    match o.rtype (h.frames f).frame.cls with
    | none => St.setAxes cfg f new h
    | some rtype =>
        match mkFrame cfg rtype axes with
        | .error e => (h, some e)
        | .ok g =>
            match St.moveAll cfg h.nF ((h.frames f).dict.map Prod.snd) (h.addFrame g) with
            | (h', some e) => (h', some e)
            | (h', none) => St.setAxes cfg h.nF new h'
  else (h, some .generic)

/-- `f.orient(…)` with the rotation matrix `R`: `linalg/frame.py` 431-433. -/
def St.orient (cfg : Cfg K) (f : ℕ) (R : Mat n K) (h : St n K) : Res n K :=
  St.setAxes cfg f (Matrix.of fun i => R.transpose.mulVec ((h.frames f).frame.axes i)) h

/-- `cls(axes)` -/
def St.newFrame (cfg : Cfg K) (cls : FrameCls) (axes : Mat n K) (h : St n K) : Res n K :=
  match mkFrame cfg cls axes with
  | .ok f => (h.addFrame f, none)
  | .error e => (h, some e)

/-- `copy.copy(t)`: `linalg/meta.py` 344-361. -/
def St.copyTensor (t addr : ℕ) (h : St n K) : Res n K :=
  if h.usable t then St.newTensor (h.tensors t).comps (h.tensors t).frame addr h
  else (h, some .generic)

/-- `copy.deepcopy(t)`: `linalg/meta.py` 341-361. -/
def St.deepcopyTensor (t addr : ℕ) (h : St n K) : Res n K :=
  if h.usable t then
    St.newTensor (h.tensors t).comps h.nF addr
      (h.addFrame ⟨.reference, (h.frames (h.tensors t).frame).frame.axes⟩)
  else (h, some .generic)

/-- The statements; those that make tensors are given the address the allocator chose. -/
inductive Op (n : ℕ) (K : Type)
  | newFrame (cls : FrameCls) (axes : Mat n K)
  | newTensor (c : Comps n K) (f addr : ℕ)
  | copyTensor (t addr : ℕ)
  | deepcopyTensor (t addr : ℕ)
  | drop (t : ℕ)
  | setFrame (t f : ℕ)
  | setFrameArray (t : ℕ) (axes : Mat n K)
  | setArrayFrame (t f : ℕ)
  | setAxes (f : ℕ) (value : Mat n K)
  | inplace (f : ℕ) (o : Operand n K)
  | orient (f : ℕ) (R : Mat n K)

/-- One statement. -/
def Op.run (cfg : Cfg K) (op : Op n K) (h : St n K) : Res n K :=
  match op with
  | .newFrame cls axes => h.newFrame cfg cls axes
  | .newTensor c f addr => h.newTensor c f addr
  | .copyTensor t addr => h.copyTensor t addr
  | .deepcopyTensor t addr => h.deepcopyTensor t addr
  | .drop t => h.drop t
  | .setFrame t f => h.setFrame cfg t f
  | .setFrameArray t axes => h.setFrameArray cfg t axes
  | .setArrayFrame t f => h.setArrayFrame t f
  | .setAxes f value => h.setAxes cfg f value
  | .inplace f o => h.inplace cfg f o
  | .orient f R => h.orient cfg f R

/-- A program; exceptions are caught and written down. -/
def runOps (cfg : Cfg K) : List (Op n K) → St n K → St n K × List (Option PyErr)
  | [], h => (h, [])
  | op :: ops, h =>
      let r := op.run cfg h
      let s := runOps cfg ops r.1
      (s.1, r.2 :: s.2)

end

end Verif.Weak
