import Verif.Model.Particles

/-!
# Statement-level model of `generate_particles`

`Model/Particles.lean` models a call as a function that returns either an exception or the new state. Here the call is a
sequence of statements acting on the object, so that the state left behind by an exception is visible.
-/

namespace Dorado

/-- A Python computation acting on a state (the statements of particle_track.py:628-789): it ends with a value or an exception, in either case leaving a state behind. -/
def PyM (σ α : Type) : Type := σ → Except PyErr α × σ

namespace PyM
variable {σ α β : Type}

/-- An expression without effect (e.g. particle_track.py:672). -/
def ret (a : α) : PyM σ α := fun s => (.ok a, s)

/-- Sequencing of statements (particle_track.py:628-789): an exception ends the computation in the state reached so far. -/
def seq (m : PyM σ α) (f : α → PyM σ β) : PyM σ β := fun s => match m s with
  | (.ok a, s') => f a s'
  | (.error e, s') => (.error e, s')

/-- The `do` notation of Lean for the statements of particle_track.py:628-789. -/
instance : Monad (PyM σ) where
  pure := ret
  bind := seq

/-- An expression that may raise but changes nothing (e.g. particle_track.py:673-681). -/
def lift (x : Except PyErr α) : PyM σ α := fun s => (x, s)

/-- Read the state (e.g. `self.walk_data`, particle_track.py:659). -/
def read : PyM σ σ := fun s => (.ok s, s)

/-- An assignment (e.g. particle_track.py:709-713). -/
def assign (f : σ → σ) : PyM σ Unit := fun s => (.ok (), f s)

end PyM

variable {K : Type} [Field K] [LinearOrder K]

/-- The state with numpy's random stream at position `pos` (advanced by lagrangian_walker.py:37, 430, 465). -/
def PState.atPos (s : PState K) (pos : Nat) : PState K := { s with world := { s.world with pos := pos } }

variable (A : Arith K)

/-- `[random_pick_seed(locs) for x in range(n)]` (particle_track.py:531-534): every pick draws a number before it looks up the entry
(lagrangian_walker.py:37-39); for an empty list `cutoffs[-1]` raises before anything is drawn. -/
def randomSeedsStmt (ω : Nat → K) (locs : List Int) : Nat → PyM (PState K) (List Int)
  | 0 => pure []
  | n + 1 => do
    let s ← PyM.read
    PyM.assign fun s => if locs = [] then s else s.atPos (s.world.pos + 1)
    let c ← PyM.lift (randomPickSeed A locs (ω s.world.pos))
    let cs ← randomSeedsStmt ω locs n
    return c :: cs

/-- Start indices of the new particles (particle_track.py:529-546). -/
def startIndicesStmt (ω : Nat → K) (np : Int) (xs ys : List Int) : Method → PyM (PState K) (List Int × List Int)
  | .random => do
    let x ← randomSeedsStmt A ω xs np.toNat
    let y ← randomSeedsStmt A ω ys np.toNat
    return (x, y)
  | .exact =>
    if xs.length = 0 then PyM.lift (.error .zeroDivisionError)
    else do
      let x ← PyM.lift (exactSeeds xs np xs.length)
      let y ← PyM.lift (exactSeeds ys np xs.length)
      return (x, y)

/-- `generate_particles` (particle_track.py:451-623) as a sequence of statements: `self.Np_tracer` is assigned in line 613,
`self.walk_data` in line 622, everything before only builds local lists. -/
def generateStmt [FloorRing K] (P : PObj K) (ω : Nat → K) (np xs ys time method : PyVal K) (prev : Option (WalkData K)) :
    PyM (PState K) Unit := do
  let args ← PyM.lift (genInputCheck np xs ys time method)
  let starts ← startIndicesStmt A ω args.1 args.2.1 args.2.2.1 args.2.2.2.2
  let nx ← PyM.lift (mapE (fun i => do let a ← listGet starts.1 i; return [a]) (List.range args.1.toNat))
  let ny ← PyM.lift (mapE (fun i => do let a ← listGet starts.2 i; return [a]) (List.range args.1.toNat))
  let opt ← PyM.lift (startVars P (starts.1.zip starts.2) P.particleVars [])
  let s ← PyM.read
  let w0 : WalkData K := { xinds := nx, yinds := ny, times := (List.range args.1.toNat).map fun _ => [args.2.2.2.1], opt := opt }
  let w1 := match s.walk with
    | some old => prependWalk old w0
    | none => w0
  let w2 := match prev with
    | some old => prependWalk old w1
    | none => w1
  PyM.assign fun s => { s with np := w2.xinds.length }
  PyM.assign fun s => { s with walk := some w2 }

end Dorado
