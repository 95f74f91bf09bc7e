import Verif.Spec.Ensemble
import Verif.Model.Routines

/-! # Specification of C109: whole simulations, from seeding to the walk data returned -/

namespace Dorado

variable {K : Type} [Field K] [LinearOrder K]

/-- The history of particle `i` in the walk data returned; empty if an exception was raised. -/
def historyOf (i : Nat) : Except PyErr (WalkData K) → History K
  | .ok wd => wd.history i
  | .error _ => fun _ => (none, none, none)

variable [FloorRing K]

/-- The walk data returned by `unsteady_plots` with `N` particles (routines.py:121-280). -/
def unsteadyWalks (A : Arith K) (F : Fun K A) (pos : Nat) (dx : K) (xs ys : List Int) (numSteps : Int) (t : K) (dir : List (String × FileData K))
    (ot : String) (N : Nat) (ω : Nat → K) : Except PyErr (WalkData K) :=
  (unsteadyPlots A F ω pos dx (.int N) (.list (xs.map .int)) (.list (ys.map .int)) numSteps t dir ot).map (·.1)

/-- `generate_particles` with `method='random'` and `N` particles, then successive calls of `run_iteration` (particle_track.py:451,
628). -/
def seededCalls (A : Arith K) (F : Fun K A) (P : PObj K) (s : PState K) (xs ys : List Int) (t : Fl K) (calls : List (Option (Fl K) × Int)) (N : Nat)
    (ω : Nat → K) : Except PyErr (PState K) := do
  let s1 ← generateParticles A P ω s (.int N) (.list (xs.map .int)) (.list (ys.map .int)) (.flt t) (.str "random") none
  runCalls A F P ω calls s1

end Dorado
