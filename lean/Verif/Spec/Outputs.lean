import Verif.Spec.Time

/-! Vocabulary: a particle brought to a target time in several calls. -/

namespace Dorado

variable {K : Type} [Field K] [LinearOrder K] {A : Arith K} (F : Fun K A)

/-- A target-time call at `s` with limit `m` and result `r` was not stopped by the limit (particle 0). -/
def Unlimited (m : Int) (s : PState K) (r : RunResult K) : Prop := ∀ xs ys ts xs' ys' ts',
  s.walk.bind (·.lists 0) = some (xs, ys, ts) → r.returned.lists 0 = some (xs', ys', ts') → (xs'.length : Int) < xs.length + max 1 m

/-- An ordinary end of a target-time call (particle 0): not stopped by the limit, at an interior cell which is no dead end unless next to an edge
cell, and without a last step shorter than 1/10. -/
structure Ordinary (P : PObj K) (m : Int) (s : PState K) (r : RunResult K) : Prop where
  limit : Unlimited m s r
  place : ∃ a b : Nat, r.returned.lastPos 0 = some ((a : Int), (b : Int)) ∧ Interior P a b ∧ (NearEdge P a b ∨ ¬ (flowOf F P).DeadEnd a b)
  long : r.returned.lists 0 = s.walk.bind (·.lists 0) ∨ ∃ xs ys ts, r.returned.lists 0 = some (xs, ys, ts) ∧ 1 / 10 ≤ firstEstimate ts

/-- `r` is the result of a sequence of target-time calls from `s` on: the last with target `T`, the ones before with targets at most `T` and
ordinary ends. -/
inductive Outputs [FloorRing K] (P : PObj K) (ω : Nat → K) (T : K) : PState K → RunResult K → Prop
  | last {s r m} (h : runIteration A F P ω s (some (.fin T)) m = .ok r) (hm : Unlimited m s r) : Outputs P ω T s r
  | next {s r1 r T1 m1} (hT : T1 ≤ T) (h : runIteration A F P ω s (some (.fin T1)) m1 = .ok r1) (ho : Ordinary F P m1 s r1)
      (hrest : Outputs P ω T r1.state r) : Outputs P ω T s r

end Dorado
