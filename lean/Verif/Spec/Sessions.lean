import Verif.Spec.Ensemble

/-! # Specification of C110: a simulation spread over several sessions, each with its own random numbers -/

namespace Dorado

open MeasureTheory

/-- The random numbers of the sessions: one independent stream of uniform draws for each. -/
noncomputable def sessionDraws : Measure (Nat → Nat → ℝ) := Measure.infinitePi fun _ => uniformDraws

variable {K : Type} [Field K] [LinearOrder K] [FloorRing K]

/-- Later sessions, from what the object held at the end of the session before: each builds an object of the same parameters, hands it the walk data
(`generate_particles(0, [], [], method='random', previous_walk_data=walk_data)`, particle_track.py:451, as routines.py:257-258 does) and calls `run_iteration`.
A session is given by the position at which its stream is first used and its calls; stream `Ω n` is that of the later session `n`. -/
def sessions (A : Arith K) (F : Fun K A) (P : PObj K) : List (Nat × List (Option (Fl K) × Int)) → (Nat → Nat → K) → PState K → Except PyErr (PState K)
  | [], _, s => .ok s
  | c :: cs, Ω, s => do
    let s0 ← generateParticles A P (Ω 0) (initState A F P c.1) (.int 0) (.list []) (.list []) (.int 0) (.str "random") s.walk
    let s1 ← runCalls A F P (Ω 0) c.2 s0
    sessions A F P cs (fun n => Ω (n + 1)) s1

/-- A first session continuing an object in state `s`, then later sessions. -/
def overSessions (A : Arith K) (F : Fun K A) (P : PObj K) (calls : List (Option (Fl K) × Int)) (cs : List (Nat × List (Option (Fl K) × Int)))
    (Ω : Nat → Nat → K) (s : PState K) : Except PyErr (PState K) := do
  let s1 ← runCalls A F P (Ω 0) calls s
  sessions A F P cs (fun n => Ω (n + 1)) s1

end Dorado
