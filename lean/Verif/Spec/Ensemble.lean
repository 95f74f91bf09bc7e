import Verif.Spec.Law
import Verif.Spec.Alone

/-! # Specification of C107: histories of the particles under any sequence of `run_iteration` calls -/

namespace Dorado

open MeasureTheory

/-- A set of float values is measurable when the finite numbers in it form a Borel set. -/
instance flMeasurable : MeasurableSpace (Fl ℝ) := MeasurableSpace.map Fl.fin inferInstance

/-- A set of optional values is measurable when the values in it form a measurable set. -/
instance optMeasurable {α : Type} [MeasurableSpace α] : MeasurableSpace (Option α) := MeasurableSpace.map some inferInstance

/-- What is recorded of one particle: the entries of its three lists (`xinds`, `yinds`, `travel_times`) by position; none past the end. -/
abbrev History (K : Type) := Nat → Option Int × Option Int × Option (Fl K)

variable {K : Type} [Field K] [LinearOrder K]

/-- The history of particle `i` in the walk data. -/
def WalkData.history (wd : WalkData K) (i : Nat) : History K :=
  fun n => ((wd.xinds[i]?).bind (·[n]?), (wd.yinds[i]?).bind (·[n]?), (wd.times[i]?).bind (·[n]?))

/-- The history of particle `i` in the object; empty if there is no walk data or if the object could not be brought into this state. -/
def historyIn (i : Nat) : Except PyErr (PState K) → History K
  | .ok s => match s.walk with
    | some wd => wd.history i
    | none => fun _ => (none, none, none)
  | .error _ => fun _ => (none, none, none)

variable [FloorRing K]

/-- Successive calls of `run_iteration(target_time, max_iter)`. -/
def runCalls (A : Arith K) (F : Fun K A) (P : PObj K) (ω : Nat → K) : List (Option (Fl K) × Int) → PState K → Except PyErr (PState K)
  | [], s => .ok s
  | c :: cs, s => do
    let r ← runIteration A F P ω s c.1 c.2
    runCalls A F P ω cs r.state

end Dorado
