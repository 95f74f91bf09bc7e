import Verif.Spec.Estimate
import Verif.Spec.Maps
import Verif.Spec.Crop
import Verif.Spec.Post
import Verif.Model.Nourish
import Verif.Spec.Alone
import Verif.Spec.Law

/-! # Specification of C114: the map of the expected visits -/

namespace Dorado

/-- The number of records, over all particles of the object, at the cell `c`; none if the object could not be brought into this state. -/
def visitsIn (c : Int × Int) : Except PyErr (PState ℝ) → Nat
  | .ok s => match s.walk with
    | some wd => wd.visits c
    | none => 0
  | .error _ => 0

/-- The expected number of visits to the cell `c` per particle: the mean over the particles of the expected number of records a particle has there if it is
simulated by itself. -/
noncomputable def expectedVisits (A : Arith ℝ) (F : Fun ℝ A) (P : PObj ℝ) (calls : List (Option (Fl ℝ) × Int)) (s : PState ℝ) (wd : WalkData ℝ) (c : Int × Int) :
    ℝ :=
  (∑ i : Fin wd.xinds.length, ∫ ω, (visitsIn c (runCalls A F P ω calls (alone s.world (wd.only i))) : ℝ) ∂uniformDraws) / wd.xinds.length

/-- The map returned by `nourishment_area` for the walk data of the object, if there is one. -/
noncomputable def areaIn (A : Arith ℝ) (R C : Nat) (smooth : Option (Grid (Fl ℝ) → Grid (Fl ℝ))) (clip : ℝ) : Except PyErr (PState ℝ) → Option (Grid (Fl ℝ))
  | .ok s => match s.walk with
    | some wd => (nourishmentArea A wd (R, C) smooth clip).toOption
    | none => none
  | .error _ => none

/-- The numbers `a i j` on an `R` x `C` raster. -/
def rasterOf (R C : Nat) (a : Nat → Nat → ℝ) : Grid (Fl ℝ) := ⟨R, C, fun i j => .fin (a i j)⟩

/-- Smoothing applied to a raster; `none` is no smoothing. -/
def smoothed (smooth : Option (Grid (Fl ℝ) → Grid (Fl ℝ))) (g : Grid (Fl ℝ)) : Grid (Fl ℝ) := match smooth with
  | some f => f g
  | none => g

/-- On an `R` x `C` raster, `c` times the first array is nowhere farther than `d` from the second. -/
def Near (R C : Nat) (c d : ℝ) (g g' : Grid (Fl ℝ)) : Prop :=
  ∀ i j x x', i < R → j < C → g.at' i j = .fin x → g'.at' i j = .fin x' → |c * x - x'| ≤ d

/-- Smoothing by averages (such as `gaussian_filter`): it does not depend on the unit of the values and does not enlarge the greatest difference between two
arrays. -/
def Averaging (smooth : Option (Grid (Fl ℝ) → Grid (Fl ℝ))) : Prop :=
  ∀ f, smooth = some f → ∀ R C (a a' : Nat → Nat → ℝ), (∀ i j, 0 ≤ a i j) → (∀ i j, 0 ≤ a' i j) → ∀ c d : ℝ, 0 < c →
    Near R C c d (rasterOf R C a) (rasterOf R C a') → Near R C c d (f (rasterOf R C a)) (f (rasterOf R C a'))

/-- The map of the numbers `a`: limited to their percentile `clip`, smoothed, relative to the greatest value `top` then found. -/
def IsMapOf (R C : Nat) (smooth : Option (Grid (Fl ℝ) → Grid (Fl ℝ))) (clip : ℝ) (a m : Nat → Nat → ℝ) (top : ℝ) : Prop :=
  ∃ v, Percentile (rasterOf R C a).values clip v ∧ 0 < top ∧
    (∀ i j, i < R → j < C → (smoothed smooth (rasterOf R C fun i j => min (a i j) v)).at' i j = .fin (m i j * top) ∧ m i j ≤ 1) ∧
    ∃ i j, i < R ∧ j < C ∧ m i j = 1

/-- The map `g` is off the numbers `m` by more than `d` in some cell: a value differs by more, or (without smoothing) there is no value where `m` exceeds `d`. -/
def OffBy (R C : Nat) (smooth : Option (Grid (Fl ℝ) → Grid (Fl ℝ))) (d : ℝ) (g : Option (Grid (Fl ℝ))) (m : Nat → Nat → ℝ) : Prop :=
  g = none ∨ ∃ g', g = some g' ∧ ∃ i j, i < R ∧ j < C ∧
    ((∃ x, g'.at' i j = .fin x ∧ d < |x - m i j|) ∨ (smooth = none ∧ g'.at' i j = .nan ∧ d < m i j))

end Dorado
