import Verif.Prelude
import Mathlib.Logic.Function.Basic
import Mathlib.Data.Finset.Max

/-!
# Model of `graph/utils.py`

The adjacency matrix is what the code looks at: `indptr` and `indices`.  Arrays of flags are
functions from indices to `Bool`; the code only reads and writes them below `nN`, provided the
column indices are below `nN`.  The numba dictionary with the keys `0, …, level` is a function
together with `level`.  The `while` loops run on fuel; `none` means that it is used up.
-/

namespace Verif.Graph

/-- The adjacency matrix in CSR format. -/
structure Adj where
  indptr : List ℕ
  indices : List ℕ

/-- `adj.irow(i)`: `indices[indptr[i]:indptr[i+1]]`, `linalg/sparse/csr.py` 194-204 and 234-241. -/
def Adj.irow (a : Adj) (i : ℕ) : List ℕ :=
  (a.indices.take (a.indptr.getD (i + 1) 0)).drop (a.indptr.getD i 0)

/-- `len(adj.indptr) - 1`, `graph/utils.py` 32. -/
def Adj.nN (a : Adj) : ℕ := a.indptr.length - 1

/-- The dictionary `rls` with its keys `0, …, level`. -/
structure RLS where
  lev : ℕ → List ℕ
  level : ℕ

/-- The local variables of the loop. -/
structure State where
  rls : RLS
  /-- `nodes == 1` -/
  nodes : ℕ → Bool
  nE : ℕ

/-- `levelset[neighbours] = 1` -/
def mark (neighbours : List ℕ) (levelset : ℕ → Bool) : ℕ → Bool :=
  neighbours.foldl (fun s v => Function.update s v true) levelset

/-- One pass of the `while` loop, `graph/utils.py` 44-56. -/
def body (a : Adj) (s : State) : State :=
  let levelset : ℕ → Bool := fun _ => false                                   -- line 44
  let levelset := (s.rls.lev s.rls.level).foldl
    (fun ls node => mark (a.irow node) ls) levelset                           -- lines 45-47
  let levelset := (List.range a.nN).foldl
    (fun ls iN => if s.nodes iN then Function.update ls iN false else ls) levelset  -- lines 48-50
  let level := s.rls.level + 1                                                -- line 51
  let new := (List.range a.nN).filter levelset                                -- lines 52-53
  let nodes := (List.range a.nN).foldl
    (fun ns iN => if levelset iN then Function.update ns iN true else ns) s.nodes   -- lines 54-56
  ⟨⟨Function.update s.rls.lev level new, level⟩, nodes, s.nE + new.length⟩

/-- The `while` loop, `graph/utils.py` 43-57. -/
def loop (a : Adj) : ℕ → State → Option RLS
  | 0, s => if s.nE < a.nN then none else some s.rls
  | fuel + 1, s => if s.nE < a.nN then loop a fuel (body a s) else some s.rls

/-- The local variables before the loop, `graph/utils.py` 37-42. -/
def start (root : ℕ) : State :=
  ⟨⟨fun _ => [root], 0⟩, Function.update (fun _ => false) root true, 1⟩

/-- `rooted_level_structure(adj, root)`, `graph/utils.py` 13-57. -/
def rootedLevelStructure (a : Adj) (fuel root : ℕ) : Option RLS := loop a fuel (start root)

/-- `length_width`, `graph/utils.py` 77-82. -/
def lengthWidth (r : RLS) : ℕ × ℕ :=
  (r.level + 1, (List.range (r.level + 1)).foldl (fun w i => max w (r.lev i).length) 0)

/-- The local variables of the search. -/
structure Search where
  rls : RLS
  length : ℕ
  width : ℕ
  found : Bool

/-- The body of the inner loop, `graph/utils.py` 90-96. -/
def searchStep (a : Adj) (fuel : ℕ) (s : Search) (node : ℕ) : Option Search := do
  let i ← rootedLevelStructure a fuel node
  let lw := lengthWidth i
  if lw.1 > s.length ∨ (lw.1 = s.length ∧ lw.2 < s.width) then
    return ⟨i, lw.1, lw.2, true⟩
  else return s

/-- The outer loop, `graph/utils.py` 86-102. -/
def search (a : Adj) (fuel : ℕ) : ℕ → Search → Option (List ℕ)
  | 0, _ => none
  | n + 1, s => do
      let nodes := s.rls.lev s.rls.level                                       -- line 87
      let s ← nodes.foldlM (searchStep a fuel) { s with found := false }
      if s.found then search a fuel n s
      else return s.rls.lev s.rls.level ++ (s.rls.lev 0).take 1                -- lines 97-102

/-- `pseudo_peripheral_nodes(adj)`, `graph/utils.py` 60-102; the level structures get the first
fuel, the search the second. -/
def pseudoPeripheral (a : Adj) (fuel fuel' : ℕ) : Option (List ℕ) := do
  let r ← rootedLevelStructure a fuel 0
  let lw := lengthWidth r
  search a fuel fuel' ⟨r, lw.1, lw.2, false⟩

end Verif.Graph
