import Verif.Spec.Law
import Verif.Spec.Time

/-! # Specification of the law of the travel times (C103) -/

namespace Dorado

open MeasureTheory

variable {K : Type} [Field K] [LinearOrder K]

/-- `x` is the diffusion-free duration of a step from `p` to `q`: nothing for staying, otherwise the projected distance divided by the
harmonic mean of the speeds. -/
def IsFreeTime {A : Arith K} (F : Fun K A) (P : PObj K) (p q : Int × Int) (x : K) : Prop :=
  (p = q ∧ x = 0) ∨ (p ≠ q ∧ ∃ k a d vo vn va, k < 9 ∧ q = (p.1 + P.jwalk k, p.2 + P.iwalk k) ∧ P.angles k = .fin a ∧
    P.distances k = .fin d ∧ FieldAt P.velocity p vo ∧ FieldAt P.velocity q vn ∧ FieldAt P.velocityAngle p va ∧
    x = freeTime (d * P.dx) (F.cos (a - va)) vo vn)

variable [FloorRing K]

/-- After `j` calls of `run_iteration()` the travel time of particle `i` is `t`. -/
def TimeAfter (A : Arith K) (F : Fun K A) (P : PObj K) (ω : Nat → K) (s : PState K) (j i : Nat) (t : K) : Prop :=
  ∃ s' w wd, AfterRuns A F P ω s j s' w ∧ s'.walk = some wd ∧ wd.lastTime i = some (.fin t)

/-- The iteration `j` took particle `i` a time that belongs to `B`. -/
def TakesIn (A : Arith K) (F : Fun K A) (P : PObj K) (ω : Nat → K) (s : PState K) (j i : Nat) (B : Set K) : Prop :=
  ∃ t t', TimeAfter A F P ω s j i t ∧ TimeAfter A F P ω s (j + 1) i t' ∧ t' - t ∈ B

/-- Probability that a step of diffusion-free duration `x` takes a time in `B`, if its duration is uniform between `x*(1 - D/2)` and `x*(1 + D/2)`. -/
noncomputable def delayProb (D x : ℝ) (B : Set ℝ) : ENNReal := volume {u : ℝ | |u| ≤ 1 / 2 ∧ x * (1 + u * D) ∈ B}

open Classical in
/-- The diffusion-free duration of a move, if there is one. -/
noncomputable def freeDur (F : Fun ℝ Arith.exact) (P : PObj ℝ) (p q : Int × Int) : ℝ := if h : ∃ x, IsFreeTime F P p q x then h.choose else 0

end Dorado
