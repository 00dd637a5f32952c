import Verif.Model.Utils
import Mathlib.Data.List.Dedup
import Mathlib.Data.List.ProdSigma

/-!
# Model of `arraysetops.py`

Integer arrays. Typed dictionaries are functions into `Option`; a missing key raises.
-/

namespace Verif.ASO
open Verif

/-- `np.unique`: the sorted values without repetitions. -/
def npUnique (l : List ℤ) : List ℤ := (l.mergeSort (fun a b => decide (a ≤ b))).dedup

/-- `d[k]` of a dictionary. -/
def dictGet {β : Type} (d : ℤ → Option β) (k : ℤ) : Py β :=
  match d k with
  | some v => .ok v
  | none => .error .key

/-- arraysetops.py:132-134 and 157-159: `for i in range(nU): imap[unique[i]] = i`. -/
def mkImap (unique : List ℤ) : ℤ → Option ℕ :=
  (List.range unique.length).foldl (fun m i => Function.update m (unique.getD i 0) (some i))
    (fun _ => none)

/-- arraysetops.py:135-137 and 160-162: the first loop over the data (counts and inverse). -/
def countLoop (imap : ℤ → Option ℕ) (flat : List ℤ) (n : ℕ) (s : List ℕ × List ℕ) :
    Py (List ℕ × List ℕ) :=
  (List.range n).foldlM (fun (s : List ℕ × List ℕ) i => do
    let k ← dictGet imap (flat.getD i 0)
    return (s.1.set k (s.1.getD k 0 + 1), s.2.set i k)) s

/-- arraysetops.py:138-140 and 164-166: one zero array per unique value. -/
def mkIndices {P : Type} (zero : P) (unique : List ℤ) (counts : List ℕ) : ℤ → Option (List P) :=
  (List.range unique.length).foldl
    (fun m i => Function.update m (unique.getD i 0) (some (List.replicate (counts.getD i 0) zero)))
    (fun _ => none)

/-- arraysetops.py:142-145 and 169-174: the second loop over the positions `ps`; `inv p` is
the entry of `inverse` at position `p`. The two columns of a 2d index row are written as one
pair. -/
def indexLoop {P : Type} (unique : List ℤ) (inv : P → ℕ) (ps : List P)
    (s : List ℕ × (ℤ → Option (List P))) : Py (List ℕ × (ℤ → Option (List P))) :=
  ps.foldlM (fun (s : List ℕ × (ℤ → Option (List P))) p => do
    let i := inv p
    let lst ← dictGet s.2 (unique.getD i 0)
    return (s.1.set i (s.1.getD i 0 + 1),
      Function.update s.2 (unique.getD i 0) (some (lst.set (s.1.getD i 0) p)))) s

/-- What the kernels return. -/
structure Result (P I : Type) where
  unique : List ℤ
  counts : List ℕ
  inverse : I
  indices : ℤ → Option (List P)

/-- arraysetops.py:125-146 `_unique1d_njit`. -/
def unique1d (flat : List ℤ) : Py (Result ℕ (List ℕ)) := do
  let unique := npUnique flat
  let nF := flat.length
  let nU := unique.length
  let (counts, inverse) ← countLoop (mkImap unique) flat nF (List.replicate nU 0, List.replicate nF 0)
  let (counts, indices) ← indexLoop unique (fun iF => inverse.getD iF 0) (List.range nF)
    (List.replicate nU 0, mkIndices 0 unique counts)
  return ⟨unique, counts, inverse, indices⟩

/-- arraysetops.py:149-175 `_unique2d_njit` for an array of shape `(nR, nC)`; the inverse is
kept as a flat array in C order here and reshaped in the result. -/
def unique2dNjit (nR nC : ℕ) (data : ℕ → ℕ → ℤ) : Py (Result (ℕ × ℕ) (ℕ → ℕ → ℕ)) := do
  let flat := ((List.range nR) ×ˢ (List.range nC)).map fun p => data p.1 p.2
  let unique := npUnique flat
  let nF := flat.length
  let nU := unique.length
  let (counts, inverse) ← countLoop (mkImap unique) flat nF (List.replicate nU 0, List.replicate nF 0)
  let inverse := fun r c => inverse.getD (r * nC + c) 0
  let (counts, indices) ← indexLoop unique (fun p => inverse p.1 p.2) ((List.range nR) ×ˢ (List.range nC))
    (List.replicate nU 0, mkIndices (0, 0) unique counts)
  return ⟨unique, counts, inverse, indices⟩

/-- `ak.unflatten` -/
def unflatten {α : Type} : List α → List ℕ → List (List α)
  | _, [] => []
  | l, n :: ns => l.take n :: unflatten (l.drop n) ns

/-- The values `unique2d` can return. -/
inductive Out
  | unique (u : List ℤ)
  | index2 (f : ℤ → Option (List (ℕ × ℕ)))
  | index1 (f : ℤ → Option (List ℕ))
  | inverse2 (g : ℕ → ℕ → ℕ)
  | inverseJ (g : List (List ℕ))
  | counts (c : List ℕ)

/-- The kinds of arguments: numpy 2d array, awkward array of dimension 2 or of another
dimension, a `JaggedArray` (by its rows), anything else. -/
inductive Arg
  | dense (nR nC : ℕ) (data : ℕ → ℕ → ℤ)
  | awkward (rows : List (List ℤ))
  | awkwardOther
  | jagged (rows : List (List ℤ))
  | other

/-- arraysetops.py:80-90 -/
def uniqueDense (nR nC : ℕ) (data : ℕ → ℕ → ℤ) (ri rv rc : Bool) : Py (List Out) := do
  let r ← unique2dNjit nR nC data
  return [Out.unique r.unique] ++ (if ri then [Out.index2 r.indices] else []) ++
    (if rv then [Out.inverse2 r.inverse] else []) ++ (if rc then [Out.counts r.counts] else [])

/-- arraysetops.py:91-104; `sched` is the iteration order of `count_cols`. -/
def uniqueAwkward (rows : List (List ℤ)) (ri rv rc : Bool) (sched : List ℕ) : Py (List Out) := do
  let r ← unique1d rows.flatten
  return [Out.unique r.unique] ++ (if ri then [Out.index1 r.indices] else []) ++
    (if rv then [Out.inverseJ (unflatten r.inverse (Utils.countCols rows sched))] else []) ++
    (if rc then [Out.counts r.counts] else [])

/-- arraysetops.py:25-122 `unique2d`. The list of results is returned as it is; the code
unwraps it if it has one element. For a `JaggedArray` `is_jagged` (jaggedarray.py:246-251)
compares all widths with the first one. -/
def unique2d (arg : Arg) (ri rv rc : Bool) (sched : List ℕ) : Py (List Out) :=
  match arg with
  | .dense nR nC data => uniqueDense nR nC data ri rv rc
  | .awkward rows => uniqueAwkward rows ri rv rc sched
  | .awkwardOther => .error .assertion
  | .jagged rows =>
    match rows with
    | [] => .error .index
    | row :: _ =>
    if rows.all (fun r => r.length == row.length) then
      uniqueDense rows.length row.length (fun i j => (rows.getD i []).getD j 0) ri rv rc
    else uniqueAwkward rows ri rv rc sched
  | .other => .error .type

end Verif.ASO
