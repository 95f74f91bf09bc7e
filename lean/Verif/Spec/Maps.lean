import Verif.Model.Maps
import Verif.Spec.Plots

/-! Vocabulary of the nourishment maps. -/

namespace Dorado

variable {K : Type} [Field K] [LinearOrder K]

/-- The number in a cell, if there is one. -/
def Fl.number? : Fl K → Option K
  | .fin x => some x
  | _ => none

/-- All numbers on the raster. -/
def Grid.values (g : Grid (Fl K)) : List K := (List.range g.rows).flatMap fun i => (List.range g.cols).filterMap fun j => (g.at' i j).number?

/-- `v` is the percentile `q` of the numbers `vals`: the value at position `q/100*(n-1)` of the sorted list, on a straight line between entries. -/
def Percentile (vals : List K) (q v : K) : Prop :=
  ∃ s : List K, s.Perm vals ∧ s.Pairwise (· ≤ ·) ∧ ∃ (k : Nat) (t a b : K), 0 ≤ t ∧ t < 1 ∧ (k : K) + t = q / 100 * ((s.length - 1 : Nat) : K) ∧
    s[k]? = some a ∧ (t = 0 ∨ s[k + 1]? = some b) ∧ v = a + t * (b - a)

/-- An `R` x `C` map whose cells have positive values or none. -/
def PositiveMap (R C : Nat) (g : Grid (Fl K)) : Prop :=
  g.rows = R ∧ g.cols = C ∧ ∀ i j, i < R → j < C → g.at' i j = .nan ∨ ∃ x, g.at' i j = .fin x ∧ 0 < x

/-- `x` is the value of a cell. -/
def HasValue (R C : Nat) (g : Grid (Fl K)) (x : K) : Prop := ∃ i j, i < R ∧ j < C ∧ g.at' i j = .fin x

/-- The least and the greatest value of the map. -/
def Range (R C : Nat) (g : Grid (Fl K)) (lo hi : K) : Prop :=
  HasValue R C g lo ∧ HasValue R C g hi ∧ ∀ x, HasValue R C g x → lo ≤ x ∧ x ≤ hi

/-- The marker: none, or the first record of particle 0 as (column, row). -/
def MarkedAt (wd : Option (WalkData K)) (showSeed : Bool) (m : Option (Int × Int)) : Prop :=
  (m = none ∧ (wd = none ∨ showSeed = false)) ∨ ∃ w pt, wd = some w ∧ showSeed = true ∧ m = some pt ∧ PointAt w 0 0 pt

/-- Walk data with a first record of particle 0. -/
def HasSeed (wd : WalkData K) : Prop := ∃ pt, PointAt wd 0 0 pt

end Dorado
