import Verif.Spec.Api

/-! Transformations of all times in walk data, calls and results. -/

namespace Dorado

variable {K : Type} [Field K] [LinearOrder K]

/-- `t + c` for finite times; NaN and infinities are kept. -/
def Fl.plus (c : K) : Fl K → Fl K
  | .fin x => .fin (x + c)
  | x => x

/-- `c * t` for finite times; NaN and infinities are kept. -/
def Fl.times (c : K) : Fl K → Fl K
  | .fin x => .fin (c * x)
  | x => x

/-- The same walk data with all travel times transformed. -/
def WalkData.mapTimes (φ : Fl K → Fl K) (wd : WalkData K) : WalkData K := { wd with times := wd.times.map (List.map φ) }

/-- A seed time transformed; values that are not numbers stay. -/
def PyVal.mapTime (φ : Fl K → Fl K) : PyVal K → PyVal K
  | .flt t => .flt (φ t)
  | .int i => .flt (φ (.fin (i : K)))
  | .bool b => .flt (φ (.fin (if b then 1 else 0)))
  | v => v

/-- The same call with the seed time, the target time and the times of the previous walk data transformed. -/
def ApiCall.mapTimes (φ : Fl K → Fl K) : ApiCall K → ApiCall K
  | .generate np xs ys time method prev => .generate np xs ys
      (time.mapTime φ) method (prev.map (WalkData.mapTimes φ))
  | .run target maxIter => .run (target.map φ) maxIter
  | .clear => .clear

/-- What is seen, with all times transformed. -/
def Seen.mapTimes (φ : Fl K → Fl K) (x : Seen K) : Seen K :=
  (x.1.map fun r => (r.1.map (WalkData.mapTimes φ), r.2), x.2.1.map (WalkData.mapTimes φ), x.2.2)

/-- What is seen without the travel times. -/
def Seen.untimed (x : Seen K) : Seen K := x.mapTimes fun _ => .fin 0

/-- No target time is given. -/
def ApiCall.NoTarget : ApiCall K → Prop
  | .run target _ => target = none
  | _ => True

end Dorado
