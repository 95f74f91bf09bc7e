import Verif.Spec.Walk

/-! Vocabulary: one particle routed by itself with plain `run_iteration()` calls. -/

namespace Dorado

variable {K : Type} [Field K] [LinearOrder K]

/-- The walk data of particle `i` alone. -/
def WalkData.only (i : Nat) (wd : WalkData K) : WalkData K :=
  { xinds := (wd.xinds.drop i).take 1, yinds := (wd.yinds.drop i).take 1, times := (wd.times.drop i).take 1
    opt := wd.opt.map fun e => (e.1, (e.2.drop i).take 1) }

/-- An object holding one particle with walk data `wd`, in world `w` (weights and position in the random stream). -/
def alone (w : World K) (wd : WalkData K) : PState K := { world := w, np := 1, walk := some wd }

variable (A : Arith K) (F : Fun K A)

/-- `k` calls of `run_iteration()`. -/
def plainRuns (P : PObj K) (ω : Nat → K) : Nat → PState K → Except PyErr (PState K)
  | 0, s => .ok s
  | k + 1, s => do
    let r ← runIteration A F P ω s none 10000
    plainRuns P ω k r.state

end Dorado
