import Verif.Spec.Ensemble
import Verif.Model.Exposure
import Verif.Model.Routines
import Verif.Spec.Routines

/-! # Specification of C113: what the post-processing functions say about a simulated object -/

namespace Dorado

variable {K : Type} [Field K] [LinearOrder K] [IsStrictOrderedRing K] [FloorRing K]

/-- The exposure times returned by `exposure_time` for the walk data of the object; none if anything fails. -/
def exposuresIn (A : Arith K) (g : Grid Int) : Except PyErr (PState K) → List (Fl K)
  | .ok s => match s.walk with
    | some wd => match exposureTime A wd g with
      | .ok r => r.times
      | .error _ => []
    | none => []
  | .error _ => []

/-- The cells returned by `get_time_state` for the walk data of the object and the time `T`; none if anything fails. -/
def cellsAt (A : Arith K) (T : Fl K) : Except PyErr (PState K) → List (Int × Int)
  | .ok s => match s.walk with
    | some wd => match getTimeState A wd T with
      | .ok r => r.xs.zip r.ys
      | .error _ => []
    | none => []
  | .error _ => []

/-- The fraction of the entries of a list that satisfy a condition. -/
noncomputable def fractionWith {α : Type} (p : α → Prop) (l : List α) : ℝ :=
  open Classical in ((l.filter fun a => decide (p a)).length : ℝ) / l.length

/-- `(x, v)` is a point of the smoothed curve drawn by `plot_exposure_time` (exact arithmetic) from the walk data of the object and the exposure times
returned for it, for some settings of the figure; not before 1e-6 and not in the last percent of the time drawn. -/
def Drawn (g : Grid Int) (r : Except PyErr (PState ℝ)) (x v : ℝ) : Prop :=
  ∃ (s : PState ℝ) (wd : WalkData ℝ) (res : ExposureResult ℝ) (td : ℝ) (nbins : Int) (u th : Bool) (plot : ExposurePlot ℝ) (e : ℝ) (k : Nat),
    r = .ok s ∧ s.walk = some wd ∧ ProperTimes (Arith.exact (K := ℝ)) wd ∧ exposureTime Arith.exact wd g = .ok res ∧
    plotExposureTime Arith.exact wd res.times td nbins u th = .ok plot ∧ EndOf wd u e ∧ plot.smooth.1[k]? = some (.fin x) ∧
    plot.smooth.2[k]? = some (.fin v) ∧ 1 / 1000000 ≤ x ∧ x < 99 / 100 * e

end Dorado
