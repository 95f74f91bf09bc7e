import Verif.Spec.AreaMap

/-! # Specification of C119: the map of the expected residence times -/

namespace Dorado

/-- The number of records, over all particles of the object, at the cell `c` that are neither the first nor the last of their particle. -/
def staysIn (c : Int × Int) : Except PyErr (PState ℝ) → ℝ
  | .ok s => match s.walk with
    | some wd => wd.innerVisits c
    | none => 0
  | .error _ => 0

/-- The time all particles of the object have spent at the cell `c` in these records. -/
noncomputable def stayTimeIn (c : Int × Int) : Except PyErr (PState ℝ) → ℝ
  | .ok s => match s.walk with
    | some wd => wd.residenceAt c
    | none => 0
  | .error _ => 0

/-- The mean over the particles of the expected value of a quantity if the particle is simulated by itself. -/
noncomputable def expectedOf (A : Arith ℝ) (F : Fun ℝ A) (P : PObj ℝ) (calls : List (Option (Fl ℝ) × Int)) (s : PState ℝ) (wd : WalkData ℝ)
    (G : Except PyErr (PState ℝ) → ℝ) : ℝ :=
  (∑ i : Fin wd.xinds.length, ∫ ω, G (runCalls A F P ω calls (alone s.world (wd.only i))) ∂uniformDraws) / wd.xinds.length

/-- Mean duration of a stay: total time over number, 0 if there is none. -/
noncomputable def meanStay (time number : ℝ) : ℝ := if number = 0 then 0 else time / number

/-- No recorded step took longer than `b`. -/
def Paced (b : ℝ) (wd : WalkData ℝ) : Prop := ∀ i n, n + 1 < wd.records i → wd.tau i (n + 1) - wd.tau i n ≤ b

/-- The map returned by `nourishment_time` for the walk data of the object, if there is one. -/
noncomputable def timeMapIn (A : Arith ℝ) (R C : Nat) (smooth : Option (Grid (Fl ℝ) → Grid (Fl ℝ))) (clip : ℝ) : Except PyErr (PState ℝ) → Option (Grid (Fl ℝ))
  | .ok s => match s.walk with
    | some wd => (nourishmentTime A wd (R, C) smooth clip).toOption
    | none => none
  | .error _ => none

/-- The numbers `a` limited to their percentile `clip` and smoothed. -/
def IsTimeMapOf (R C : Nat) (smooth : Option (Grid (Fl ℝ) → Grid (Fl ℝ))) (clip : ℝ) (a m : Nat → Nat → ℝ) : Prop :=
  ∃ v, Percentile (rasterOf R C a).values clip v ∧
    ∀ i j, i < R → j < C → (smoothed smooth (rasterOf R C fun i j => min (a i j) v)).at' i j = .fin (m i j)

end Dorado
