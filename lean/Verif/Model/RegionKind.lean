import Verif.Model.Exposure

/-!
# `exposure_time` with regions of other element types (`/repo/dorado/particle_track.py`, lines 974-1053)

`exposureTime` (Model/Exposure) takes an integer region.  The comparison of the sum of two region values (lines 1028, 1032) depends on the element type.
-/

namespace Dorado

variable {K : Type} [Field K] [LinearOrder K]

/-- The element type of the region array (particle_track.py:1016, 1022): the outcome of `(a + b) == n` and of `a == n`. -/
structure RegionKind (α : Type) where
  sumIs : α → α → Int → Bool
  is : α → Int → Bool

/-- Integer elements (particle_track.py:1028, 1032).  Simplification: no wrap-around; sums of zeros and ones fit every integer type. -/
def intKind : RegionKind Int where
  sumIs a b n := decide (a + b = n)
  is a n := decide (a = n)

/-- Boolean elements (particle_track.py:1028, 1032): `+` of two `numpy.bool_` is the logical or; `True == 1`, and no Boolean equals 2. -/
def boolKind : RegionKind Bool where
  sumIs a b n := decide ((if a || b then 1 else 0 : Int) = n)
  is a n := decide ((if a then 1 else 0 : Int) = n)

/-- Floating point elements (particle_track.py:1028, 1032); NaN equals nothing. -/
def floatKind (A : Arith K) : RegionKind (Fl K) where
  sumIs a b n := Fl.eq (A.add a b) (.fin n)
  is a n := Fl.eq a (.fin n)

/-- A region array with its element type (particle_track.py:974-990). -/
inductive RegionArr (K : Type) where
  | ints (g : Grid Int)
  | bools (g : Grid Bool)
  | floats (g : Grid (Fl K))

/-- Variables of the loop over records (particle_track.py:1014-1044), as `ExpoState`. -/
structure ExpoStateOf (K α : Type) where
  acc : Fl K
  prev : α
  short : Bool

variable (A : Arith K) {α : Type} (D : RegionKind α)

/-- Region value at record `jj` (particle_track.py:1016-1017, 1022-1023). -/
def regionAtOf (region : Grid α) (xs ys : List Int) (jj : Nat) : Except PyErr α := do
  let x ← listGet xs jj
  let y ← listGet ys jj
  region.get x y

/-- Body of the loop over records (particle_track.py:1020-1044). -/
def exposureStepOf (region : Grid α) (xs ys : List Int) (ts : List (Fl K)) (st : ExpoStateOf K α) (jj : Nat) : Except PyErr (ExpoStateOf K α) := do
  let cur ← regionAtOf region xs ys jj
  let t1 ← listGet ts jj
  let t0 ← listGet ts (jj - 1)
  let acc := if D.sumIs cur st.prev 2 then A.add st.acc (A.sub t1 t0)
    else if D.sumIs cur st.prev 1 then A.add st.acc (A.mul (.fin (1 / 2)) (A.sub t1 t0))
    else st.acc
  return { acc := acc, prev := cur, short := st.short || (jj == ts.length - 1 && D.is cur 1) }

/-- Exposure time of particle `ii` and whether it is on the short list (particle_track.py:1014-1044). -/
def exposureOneOf (wd : WalkData K) (region : Grid α) (ii : Nat) : Except PyErr (Fl K × Bool) := do
  let xs ← listGet wd.xinds ii
  let ys ← listGet wd.yinds ii
  let prev ← regionAtOf region xs ys 0
  let ts ← listGet wd.times ii
  let st ← foldE (exposureStepOf A D region xs ys ts) { acc := .fin 0, prev := prev, short := false } (List.range' 1 (ts.length - 1))
  return (st.acc, st.short)

/-- `exposure_time` for one element type (particle_track.py:974-1053). -/
def exposureTimeOf (wd : WalkData K) (region : Grid α) : Except PyErr (ExposureResult K) := do
  let res ← mapE (exposureOneOf A D wd region) (List.range wd.xinds.length)
  let short := (List.range wd.xinds.length).filter fun i => (res[i]?.map (·.2)).getD false
  return { times := res.map (·.1), message := if short.length > 0 then some short else none }

/-- `exposure_time` (particle_track.py:974-1053) for a region of any element type. -/
def exposureTimeAny (wd : WalkData K) : RegionArr K → Except PyErr (ExposureResult K)
  | .ints g => exposureTimeOf A intKind wd g
  | .bools g => exposureTimeOf A boolKind wd g
  | .floats g => exposureTimeOf A (floatKind A) wd g

end Dorado
