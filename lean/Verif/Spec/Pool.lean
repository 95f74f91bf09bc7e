import Verif.Spec.Seed
import Verif.Spec.Walk
import Verif.Spec.Post

/-! Vocabulary for walk data with particles chosen, reordered or put together. -/

namespace Dorado

variable {K : Type} [Field K] [LinearOrder K]

/-- Walk data of the particles with the given numbers, in this order. -/
def WalkData.select (l : List Nat) (wd : WalkData K) : WalkData K where
  xinds := l.filterMap (wd.xinds[·]?)
  yinds := l.filterMap (wd.yinds[·]?)
  times := l.filterMap (wd.times[·]?)
  opt := wd.opt.map fun e => (e.1, l.filterMap (e.2[·]?))

/-- All particles of several walk data, with the optional variables of the first. -/
def WalkData.pool (w0 : WalkData K) (ws : List (WalkData K)) : WalkData K where
  xinds := (w0 :: ws).flatMap (·.xinds)
  yinds := (w0 :: ws).flatMap (·.yinds)
  times := (w0 :: ws).flatMap (·.times)
  opt := w0.opt.map fun e => (e.1, (w0 :: ws).flatMap (·.optOf e.1))

/-- The largest number of visits of a cell of an `R` x `C` raster. -/
def MostVisits (R C : Nat) (wd : WalkData K) (M : Nat) : Prop :=
  (∃ i j, i < R ∧ j < C ∧ wd.visits ((i : Int), (j : Int)) = M) ∧ ∀ i j, i < R → j < C → wd.visits ((i : Int), (j : Int)) ≤ M

end Dorado
