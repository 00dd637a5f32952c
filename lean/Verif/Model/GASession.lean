import Verif.Model.GAObject

/-!
# An optimizer in use: cycles, new parameters, resets and reads in any order

`Model/GAObject.lean` models the calls one by one.  Here they follow one another on the same object, and an
exception ends only the call in which it occurs.
-/

namespace Verif.GA

section
variable {G X K D : Type*} [LinearOrder K]

/-- What can be done with an optimizer, `optimize/ga.py`: `evolve()` (392-401; `evolve(n)` is `n` of these
up to the first that raises), `set_solution_params(…)` (322-378), `reset()` (303-320), reading `fitness`
(280-290) and `phenotypes` (269-278), `best_candidate()` (500-519).  `d` are the random draws of the call. -/
inductive Act (K D : Type*)
  | evolve (d : D)
  | setParams (kw : Kwargs K)
  | reset (d : D)
  | fitness
  | phenotypes
  | bestCandidate

/-- One call: what it raises, and the object afterwards. -/
def act (S : Subclass G X K D) (fnc : X → Py K) : Act K D → Optimizer G X K →
    Py Unit × Optimizer G X K
  | .evolve d, o => o.evolve S fnc d
  | .setParams kw, o =>
    let r := setSolutionParams o.solver kw
    (r.1, { o with solver := r.2 })
  | .reset d, o =>
    let r := GA.reset (S.populate o.solver.nPop o.solver.params d) o.run
    (r.1, { o with run := r.2 })
  | .fitness, o =>
    let r := getFitness (problemOf S fnc o.solver) o.run
    (r.1.map fun _ => (), { o with run := r.2 })
  | .phenotypes, o =>
    let r := getPhenotypes (problemOf S fnc o.solver) o.run
    (r.1.map fun _ => (), { o with run := r.2 })
  | .bestCandidate, o =>
    let r := GA.bestCandidate (problemOf S fnc o.solver) o.run
    (r.1.map fun _ => (), { o with run := r.2 })

/-- A session: the calls one after the other. -/
def session (S : Subclass G X K D) (fnc : X → Py K) (acts : List (Act K D)) (o : Optimizer G X K) :
    Optimizer G X K :=
  acts.foldl (fun o a => (act S fnc a o).2) o

end

end Verif.GA
