import Verif.Base.Py
import Mathlib.Algebra.Order.Floor.Ring

/-!
# Model of `flux_proportional_seeding` (`/repo/dorado/particle_track.py`, lines 1338-1394)

Simplifications: discharges are finite numbers, `N_total` is an integer; `ndarray.sum` and `np.argsort` are parameters (for the former see `numpySum`).
-/

namespace Dorado

variable {K : Type} [Field K] [LinearOrder K]

/-- `a[idx] += 1` with an index array (particle_track.py:1389): numpy reads all values, adds 1 and writes back, so an index occurring several
times counts once. -/
def addOneAt (a : List Int) (idx : List Nat) : Except PyErr (List Int) :=
  if idx.all (· < a.length) then .ok (a.mapIdx fun i x => if i ∈ idx then x + 1 else x) else .error .indexError

/-- `a[-m:]` for `m > 0` (particle_track.py:1388). -/
def pySuffix {α : Type} (l : List α) (m : Nat) : List α := l.drop (l.length - m)

/-- `np.argsort` of an array with one column sorts along the last axis: every index is 0 (particle_track.py:1388). -/
def columnArgsort (l : List K) : List Nat := l.map fun _ => 0

/-- The final assertion (particle_track.py:1392-1394). -/
def checkTotal (N : Int) (a : List Int) : Except PyErr (List Int) := if a.sum = N then .ok a else .error .assertionError

/-- `flux_proportional_seeding` (particle_track.py:1338-1394). `npSum` is `ndarray.sum`; `argsort` is `np.argsort` for a one-dimensional
series and `columnArgsort` for a series given as a column. -/
def fluxSeed [FloorRing K] (A : Arith K) (npSum : List K → K) (argsort : List K → List Nat) (Q : List K) (N numSteps : Int) :
    Except PyErr (List Int) :=
  let qAbs := Q.map (fun q => |q|)
  if (qAbs.length : Int) < numSteps then .error .valueError
  else if npSum qAbs = 0 then .error .valueError
  else
    let nFloat := qAbs.map fun q => A.rnd (A.rnd (q / npSum qAbs) * A.rnd (N : K))
    let nInt := nFloat.map fun x => ⌊x⌋
    let remainders := List.zipWith (fun x (n : Int) => A.rnd (x - (n : K))) nFloat nInt
    let left := N - nInt.sum
    if 0 < left then addOneAt nInt (pySuffix (argsort remainders) left.toNat) >>= checkTotal N
    else checkTotal N nInt

end Dorado
