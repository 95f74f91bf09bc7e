import Verif.Spec.Api
import Verif.Spec.Walk

/-! # Specification of C127: what is left of a simulation without the tracked variables -/

namespace Dorado

variable {K : Type} [Field K] [LinearOrder K]

/-- The state of the random stream, the number of particles, and the recorded positions and times. -/
def PState.motion (s : PState K) : Nat × Nat × Option (List (List Int) × List (List Int) × List (List (Fl K))) :=
  (s.world.pos, s.np, s.walk.map fun w => (w.xinds, w.yinds, w.times))

variable [FloorRing K]

/-- Calls one after the other; ends at the first exception. -/
def session (A : Arith K) (F : Fun K A) (P : PObj K) (ω : Nat → K) : List (ApiCall K) → PState K → Except PyErr (PState K)
  | [], s => .ok s
  | .generate np xs ys time method prev :: cs, s => do
    let s' ← generateParticles A P ω s np xs ys time method prev
    session A F P ω cs s'
  | .run target maxIter :: cs, s => do
    let r ← runIteration A F P ω s target maxIter
    session A F P ω cs r.state
  | .clear :: cs, s => session A F P ω cs (clearWalkData s)

/-- Seeding is by accepted arguments, with a number of particles that is not negative, at cells within the outer ring, without previous walk data. -/
def ApiCall.SeedsWithin (R C : Nat) : ApiCall K → Prop
  | .generate np xs ys time method prev => prev = none ∧ ∃ n x y t m, genInputCheck np xs ys time method = .ok (n, x, y, t, m) ∧ 0 ≤ n ∧ ∀ a ∈ x, ∀ b ∈ y, Inside R C (a, b)
  | _ => True

end Dorado
