import Verif.Model.Particles

/-!
# Model of `exposure_time` (`/repo/dorado/particle_track.py`, lines 974-1053)
-/

namespace Dorado

variable {K : Type} [Field K] [LinearOrder K]

/-- A `for` loop whose body may raise (e.g. particle_track.py:1014, 1020). -/
def foldE {α σ : Type} (f : σ → α → Except PyErr σ) : σ → List α → Except PyErr σ
  | s, [] => .ok s
  | s, a :: as => do
    let s' ← f s a
    foldE f s' as

/-- Variables of the loop over the records of one particle (particle_track.py:1014-1044): the accumulated exposure time, the region
value at the previous record, and whether the particle was put on `_short_list`. -/
structure ExpoState (K : Type) where
  acc : Fl K
  prev : Int
  short : Bool

variable (A : Arith K)

/-- Region value at record `jj` (particle_track.py:1016-1017, 1022-1023). -/
def regionAt (region : Grid Int) (xs ys : List Int) (jj : Nat) : Except PyErr Int := do
  let x ← listGet xs jj
  let y ← listGet ys jj
  region.get x y

/-- Body of the loop over records (particle_track.py:1020-1044). -/
def exposureStep (region : Grid Int) (xs ys : List Int) (ts : List (Fl K)) (st : ExpoState K) (jj : Nat) :
    Except PyErr (ExpoState K) := do
  let cur ← regionAt region xs ys jj
  let t1 ← listGet ts jj
  let t0 ← listGet ts (jj - 1)
  let acc := if cur + st.prev = 2 then A.add st.acc (A.sub t1 t0)
    else if cur + st.prev = 1 then A.add st.acc (A.mul (.fin (1 / 2)) (A.sub t1 t0))
    else st.acc
  return { acc := acc, prev := cur, short := st.short || (jj == ts.length - 1 && cur == 1) }

/-- Exposure time of particle `ii` and whether it is on the short list (particle_track.py:1014-1044). Simplification: the region is an
integer array (other element types are in Model/RegionKind). -/
def exposureOne (wd : WalkData K) (region : Grid Int) (ii : Nat) : Except PyErr (Fl K × Bool) := do
  let xs ← listGet wd.xinds ii
  let ys ← listGet wd.yinds ii
  let prev ← regionAt region xs ys 0
  let ts ← listGet wd.times ii
  let st ← foldE (exposureStep A region xs ys ts) { acc := .fin 0, prev := prev, short := false } (List.range' 1 (ts.length - 1))
  return (st.acc, st.short)

/-- Result of `exposure_time` (particle_track.py:1046-1053): the returned list and the particles named in the logged message, if there is one. -/
structure ExposureResult (K : Type) where
  times : List (Fl K)
  message : Option (List Nat)

/-- `exposure_time` (particle_track.py:974-1053). Whether the message is shown depends on the logging level (see `Logging`); here it is
the message handed to the logger. -/
def exposureTime (wd : WalkData K) (region : Grid Int) : Except PyErr (ExposureResult K) := do
  let res ← mapE (exposureOne A wd region) (List.range wd.xinds.length)
  let short := (List.range wd.xinds.length).filter fun i => (res[i]?.map (·.2)).getD false
  return { times := res.map (·.1), message := if short.length > 0 then some short else none }

end Dorado
