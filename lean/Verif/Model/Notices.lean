import Verif.Model.Particles
import Verif.Model.Logging

/-!
# Model of what the constructor of `Particles` says about optional parameters

`/repo/dorado/particle_track.py`, lines 143-148 and 265-330, with arbitrary Python values for the parameters, the warnings filter, and the delivery of
messages by the logger. The values used are those of `initParticles` (Model/Particles) where that model applies.
-/

namespace Dorado

variable {K : Type} [Field K] [LinearOrder K]

/-- The texts passed to `logger.info` and `warnings.warn` by the constructor (particle_track.py:270, 280, 286, 291, 296, 299, 306, 313, 324, 327, 330, 400). -/
inductive Notice where
  | theta
  | gamma
  | diffNegative
  | diffLarge
  | diffSteepest
  | diff
  | dryDepth
  | cellType
  | steepest
  | randomWalk
  | roi
  deriving DecidableEq, Repr

/-- Something said: through the logger at level INFO (particle_track.py:270), or as a Python warning (particle_track.py:286). -/
inductive Said where
  | info (n : Notice)
  | warn (n : Notice)
  deriving DecidableEq, Repr

/-- The attributes of `params` read there (particle_track.py:144-148, 268, 278, 284, 295, 304, 311, 323, 393); `none` means that the attribute is missing,
`verbose = none` also that it is None. Of `cell_type` and `roi_grid` it matters only whether they are given. -/
structure RawOpts (K : Type) where
  verbose : Option Bool
  theta : Option (PyVal K)
  gamma : Option (PyVal K)
  diff : Option (PyVal K)
  dryDepth : Option (PyVal K)
  cellType : Bool
  steepest : Option (PyVal K)
  roi : Bool

/-- The attributes of the object set there (particle_track.py:145-147, 268-331). `dry_depth` is stored as it is given. -/
structure Opts (K : Type) where
  verbose : Bool
  theta : Fl K
  gamma : Fl K
  diff : Fl K
  dryDepth : PyVal K
  steepest : Bool

section
variable (A : Arith K) (fs : String → Option (Fl K))

/-- `float(v)` of a scalar (particle_track.py:268, 278, 293); `fs` is the conversion of strings. -/
def scalarFloat : PyVal K → Option (Fl K)
  | .bool b => some (.fin (if b then 1 else 0))
  | .int i => some (.fin (A.rnd i))
  | .flt x => some x
  | .str s => fs s
  | _ => none

/-- `float(v)` (particle_track.py:268, 278, 293), `none` for an exception: arrays must have one element. Simplification: integers are not too large for a
float. -/
def pyFloat : PyVal K → Option (Fl K)
  | .nd [v] => scalarFloat A fs v
  | v => scalarFloat A fs v

/-- The number compared by `v < 0` and `v >= 2` (particle_track.py:284, 289), `none` if comparing raises. -/
def scalarNumber : PyVal K → Option (Fl K)
  | .bool b => some (.fin (if b then 1 else 0))
  | .int i => some (.fin i)
  | .flt x => some x
  | _ => none

/-- The number compared as a condition (particle_track.py:284, 289): for an array the comparison has a truth value only if there is one element. Simplification:
so it is for empty arrays in all versions of numpy. -/
def pyNumber : PyVal K → Option (Fl K)
  | .nd [v] => scalarNumber v
  | v => scalarNumber v

/-- `self.theta = float(params.theta)` with its default (particle_track.py:267-281): the value and what is said. -/
def readFloat (given : Option (PyVal K)) (dflt : K) (n : Notice) : Fl K × List Said :=
  match given.bind (pyFloat A fs) with
  | some x => (x, [])
  | none => (.fin dflt, [.info n])

/-- `if self.verbose: warnings.warn(...)` (particle_track.py:285-287, 290-292): `none` if warnings are turned into exceptions. -/
def warnIf (strict verbose : Bool) (n : Notice) : Option (List Said) :=
  if verbose then (if strict then none else some [.warn n]) else some []

/-- The `try` block for `diff_coeff` (particle_track.py:283-293): value and what is said, `none` for an exception. -/
def tryDiff (strict verbose : Bool) (given : Option (PyVal K)) : Option (Fl K × List Said) := do
  let v ← given
  let x ← pyNumber v
  if Fl.lt x (.fin 0) then
    let w ← warnIf strict verbose .diffNegative
    return (.fin 0, w)
  else if Fl.le (.fin 2) x then
    let w ← warnIf strict verbose .diffLarge
    let y ← pyFloat A fs v
    return (y, w)
  else
    let y ← pyFloat A fs v
    return (y, [])

/-- Is the value the object True? (particle_track.py:295, 323) -/
def isTrue : Option (PyVal K) → Bool
  | some (.bool true) => true
  | _ => false

/-- `diff_coeff` (particle_track.py:283-300). -/
def readDiff (strict verbose : Bool) (given steepest : Option (PyVal K)) : Fl K × List Said :=
  match tryDiff A fs strict verbose given with
  | some r => r
  | none => if isTrue steepest then (.fin 0, [.info .diffSteepest]) else (.fin (A.rnd (1 / 5)), [.info .diff])

/-- The optional parameters (particle_track.py:143-148, 265-331, 393-402): the logger afterwards, the attributes and what is said, in order; `none` if the
deprecation warning for `verbose` is turned into an exception (logging_config.py:72). The required parameters in between are in `initParticles`; with
them missing the constructor raises before anything is said. -/
def readOptions (strict : Bool) (s : LogState) (p : RawOpts K) : Option (LogState × Opts K × List Said) :=
  if p.verbose.isSome && strict then none
  else
    let verbose := p.verbose.getD true
    let (theta, m1) := readFloat A fs p.theta 1 .theta
    let (gamma, m2) := readFloat A fs p.gamma (A.rnd (1 / 20)) .gamma
    let (diff, m3) := readDiff A fs strict verbose p.diff p.steepest
    let m4 : List Said := if p.dryDepth.isSome then [] else [.info .dryDepth]
    let m5 : List Said := if p.cellType then [] else [.info .cellType]
    let m6 : List Said := if isTrue p.steepest then [.info .steepest] else [.info .randomWalk]
    let m7 : List Said := if p.roi then [.info .roi] else []
    some ((handleVerbose s p.verbose).1,
      { verbose := verbose, theta := theta, gamma := gamma, diff := diff
        dryDepth := p.dryDepth.getD (.flt (.fin (A.rnd (1 / 10))))
        steepest := isTrue p.steepest },
      m1 ++ m2 ++ m3 ++ m4 ++ m5 ++ m6 ++ m7)

end

/-- The handlers of the logger that get a message at level `lvl` (`logger.info`, particle_track.py:270, is level 20): those of the logger if its level, or the
level `root` of the root logger in case it has none, is not above. Simplifications: handlers have no level of their own; handlers of the root logger are
not considered. -/
def delivered (root : Int) (s : LogState) (lvl : Int) : List LogHandler :=
  if (if s.level = 0 then root else s.level) ≤ lvl then s.handlers else []

/-- The logging calls made by `unsteady_plots` (routines.py:191-193, 213-217, 187 with 252): its own `verbose` if the folder exists and if there are too few
files, then `verbose=False` by every construction of `Particles`. -/
def unsteadyLogCalls (verbose : Option Bool) (folderExists tooFew : Bool) (steps : Nat) : List LogCall :=
  (if folderExists then [.verbose verbose] else []) ++ (if tooFew then [.verbose verbose] else []) ++ List.replicate steps (.verbose (some false))

end Dorado
