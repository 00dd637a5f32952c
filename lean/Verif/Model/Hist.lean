import Verif.Model.Utils

/-!
# Model of `hist.py` 9-15 `histogram`

`np.histogram` is modelled by its documented behaviour without weights: the edges are given or evenly
spaced between the extreme data; the counts are differences of the numbers of data below the edges,
the last interval includes its upper end.
-/

namespace Verif.Hist

open Verif.Utils (DType binCenters)

section
variable {K : Type} [Field K] [LinearOrder K] [FloorRing K]

/-- The argument `bins`: a number or edges (with their dtype). -/
inductive Bins (K : Type)
  | number (n : ℤ)
  | edges (dt : DType) (es : List K)

/-- The extreme data, with the conventions of NumPy for no data and equal data. -/
def range (data : List K) : K × K :=
  match data with
  | [] => (0, 1)
  | x :: xs =>
      let lo := xs.foldl min x
      let hi := xs.foldl max x
      if lo = hi then (lo - 1 / 2, hi + 1 / 2) else (lo, hi)

/-- The edges and their dtype. -/
def edges (data : List K) : Bins K → Py (DType × List K)
  | .number n =>
      if n < 1 then .error .value
      else
        let r := range data
        .ok (.float, (List.range (n.toNat + 1)).map fun (i : ℕ) =>
          r.1 + (i : K) * ((r.2 - r.1) / (n.toNat : K)))
  | .edges dt es =>
      if es = [] then .error .index
      else if (es.zip es.tail).any fun p => decide (p.2 < p.1) then .error .value
      else .ok (dt, es)

/-- Data below an edge (`searchsorted` of the sorted data from the left). -/
def below (data : List K) (e : K) : ℕ := (data.filter fun x => decide (x < e)).length

/-- Data up to an edge (from the right). -/
def upTo (data : List K) (e : K) : ℕ := (data.filter fun x => decide (x ≤ e)).length

/-- The counts: differences of cumulated numbers. -/
def counts (data : List K) : List K → List ℤ
  | [] => []
  | [_] => []
  | [a, b] => [(upTo data b : ℤ) - below data a]
  | a :: b :: es => ((below data b : ℤ) - below data a) :: counts data (b :: es)

/-- `histogram(data, bins, return_edges=...)`, `hist.py` 9-15; `sched` is the order of the loop. -/
def histogram (data : List K) (bins : Bins K) (returnEdges : Bool) (sched : List ℕ) :
    Py (List ℤ × List K) :=
  match edges data bins with
  | .error e => .error e
  | .ok (dt, es) =>
      .ok (counts data es, if returnEdges then es else binCenters dt es sched)

end

end Verif.Hist
