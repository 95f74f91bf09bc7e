import Verif.Spec.Routines

/-! Vocabulary for comparing `unsteady_plots` with calls on one object. -/

namespace Dorado

variable {K : Type} [Field K] [LinearOrder K] [FloorRing K] (A : Arith K) (F : Fun K A)

/-- `run_iteration(target_time=T)` with the default limit for the target times of the list, one after the other. -/
def runTo (P : PObj K) (ω : Nat → K) : List (Fl K) → PState K → Except PyErr (PState K)
  | [], s => .ok s
  | T :: l, s => do
    let r ← runIteration A F P ω s (some T) 10000
    runTo P ω l r.state

/-- The target times `t`, `t + t`, `t + 2*t`, …, as computed. -/
def stepTimes (t : K) (n : Nat) : List (Fl K) := (List.range n).map fun i : Nat => A.add (.fin t) (A.mul (.fin (A.rnd (i : K))) (.fin t))

end Dorado
