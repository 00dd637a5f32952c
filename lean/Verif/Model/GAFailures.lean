import Verif.Model.GASession

/-!
# An optimizer whose objective fails now and then

`Model/GASession.lean` models the calls on an optimizer with an objective that is the same in every call.  A
function passed by a user may depend on more than its argument (a file, a service, a licence), so here every
call comes with the behaviour that the objective shows during it.
-/

namespace Verif.GA

section
variable {G X K D : Type*} [LinearOrder K]

/-- `optimize/ga.py:280-401`: calls one after the other, each with what the objective does during it. -/
def history (S : Subclass G X K D) (calls : List ((X → Py K) × Act K D)) (o : Optimizer G X K) :
    Optimizer G X K :=
  calls.foldl (fun o c => (act S c.1 c.2 o).2) o

end

end Verif.GA
