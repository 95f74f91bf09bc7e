import Verif.Model.Exposure

/-!
# Model of `/repo/dorado/parallel_routing.py`

Worker processes: each task works on its own (pickled) copy of the `Particles` object; the only state a worker keeps between tasks is its random
generator.
-/

namespace Dorado

variable {K : Type} [Field K] [LinearOrder K]

/-- History of one particle in one entry of a walk data dictionary (particle_track.py:616-623). -/
inductive Hist (K : Type) where
  | ints (l : List Int)
  | times (l : List (Fl K))
  | vals (l : List (Val K))
  deriving DecidableEq, Repr

/-- The walk data as the dictionary returned by `run_iteration` (particle_track.py:716-720, 772-776). -/
def walkDict (wd : WalkData K) : List (String × List (Hist K)) :=
  [("xinds", wd.xinds.map .ints), ("yinds", wd.yinds.map .ints), ("travel_times", wd.times.map .times)] ++
    wd.opt.map fun e => (e.1, e.2.map .vals)

/-- `single_result[var].extend(result[var])` (parallel_routing.py:73); KeyError for a key the first result does not have. -/
def extendKey {β : Type} (acc : List (String × List β)) (e : String × List β) : Except PyErr (List (String × List β)) :=
  match dictGet acc e.1 with
  | none => .error .keyError
  | some l => .ok (dictSet acc e.1 (l ++ e.2))

/-- `combine_result` (parallel_routing.py:49-75). -/
def combineResult {β : Type} : List (List (String × List β)) → Except PyErr (List (String × List β))
  | [] => .error .indexError
  | r0 :: rs => foldE (fun acc r => foldE extendKey acc r) (r0.map fun e => (e.1, [])) (r0 :: rs)

section
variable (A : Arith K) (F : Fun K A)

/-- The loop of `run_iter` (parallel_routing.py:43-44); `w` is the variable `all_walk`. -/
def routeN (P : PObj K) (ω : Nat → K) : Nat → PState K → Option (WalkData K) → Except PyErr (Option (WalkData K) × PState K)
  | 0, s, w => .ok (w, s)
  | n + 1, s, _ => do
    let r ← runIteration A F P ω s none 10000
    routeN P ω n r.state (some r.returned)

/-- `run_iter` (parallel_routing.py:19-46): the walk data and the position of the worker's random generator afterwards. -/
def runIter [FloorRing K] (P : PObj K) (ω : Nat → K) (s : PState K) (numIter : Int) (np xs ys : PyVal K) : Except PyErr (WalkData K × Nat) := do
  let s1 ← generateParticles A P ω s np xs ys (.int 0) (.str "random") none
  let ws ← routeN A F P ω numIter.toNat s1 none
  match ws.1 with
  | none => .error .unboundLocalError
  | some w => .ok (w, ws.2.world.pos)

/-- One task of `p.map` (parallel_routing.py:145), executed by worker `w`, whose generator is at position `gen w` of the stream `ω w`. -/
def parTask [FloorRing K] (P : PObj K) (s : PState K) (ω : Nat → Nat → K) (numIter : Int) (np xs ys : PyVal K) (gen : Nat → Nat) (w : Nat) :
    Except PyErr (WalkData K × (Nat → Nat)) := do
  let r ← runIter A F P (ω w) { s with world := { s.world with pos := gen w } } numIter np xs ys
  return (r.1, fun v => if v = w then r.2 else gen v)

/-- `parallel_routing` (parallel_routing.py:95-151). `sched` tells which worker executes which of the `num_cores` tasks (any worker may take
several), `gen` the positions of the workers' generators at the start; `Pool(0)` raises ValueError.
Simplification: if several tasks raise, the first one counts. -/
def parallelRouting [FloorRing K] (P : PObj K) (s : PState K) (ω : Nat → Nat → K) (gen : Nat → Nat) (sched : List Nat) (numIter : Int)
    (np xs ys : PyVal K) : Except PyErr (List (String × List (Hist K))) :=
  if sched = [] then .error .valueError
  else do
    let r ← mapAcc (parTask A F P s ω numIter np xs ys) gen sched
    combineResult (r.1.map walkDict)

end

end Dorado
