import Verif.Lemmas.RegionKind
import Verif.Props.Exposure

/-! # C84: `exposure_time` and the element type of the region -/

set_option linter.unusedSectionVars false

namespace Dorado

variable {K : Type} [Field K] [LinearOrder K] [IsStrictOrderedRing K] {A : Arith K}

/-- C84: a region given as a floating point array of 0 and 1 gives what the integer array gives, for any walk data and any rounding that has the number 2,
also when the call raises. -/
theorem C84_float (h2 : A.rnd 2 = 2) (wd : WalkData K) (m : Grid Bool) :
    exposureTimeAny A wd (.floats (maskFloat m)) = exposureTimeAny A wd (.ints (maskInt m)) := exposureTimeOf_float h2 wd m

/-- C84: an integer region counts the steps inside fully and the steps across the boundary half; a Boolean region counts both half.  Missing: the
claim that they agree (see `C84_bool_iff`). -/
theorem C84_values_partial {wd : WalkData K} {m : Grid Bool} (hp : Proper wd) (hr : OnRaster m.rows m.cols wd) :
    (∃ res, exposureTimeAny Arith.exact wd (.ints (maskInt m)) = .ok res ∧
      res.times = (List.range wd.count).map fun i => .fin (wd.timeInside m i + 1 / 2 * wd.timeCrossing m i)) ∧
    ∃ res, exposureTimeAny Arith.exact wd (.bools m) = .ok res ∧
      res.times = (List.range wd.count).map fun i => .fin (1 / 2 * wd.timeInside m i + 1 / 2 * wd.timeCrossing m i) := by
  constructor
  · obtain ⟨res, h, hl, ht, -⟩ := exposureTime_eq (A := Arith.exact) (g := maskInt m) hp hr
    refine ⟨res, (exposureTimeOf_int wd _).trans h, List.ext_getElem? fun i => ?_⟩
    by_cases hi : i < wd.count
    · rw [ht i hi, List.getElem?_map, List.getElem?_range hi, regVal_mask, expoRec_mask]
      rfl
    · rw [List.getElem?_eq_none (by omega), List.getElem?_eq_none (by simpa using hi)]
  · obtain ⟨res, h, ht, -⟩ := exposureBool_eq (A := Arith.exact) (g := m) hp hr
    refine ⟨res, h, ht.trans (List.map_congr_left fun i _ => ?_)⟩
    rw [expoBool_exact]
    rfl

/-- C84: both calls succeed and the particles reported as still in the region are the same (any rounding). -/
theorem C84_message {wd : WalkData K} {m : Grid Bool} (hp : Proper wd) (hr : OnRaster m.rows m.cols wd) :
    ∃ a b, exposureTimeAny A wd (.ints (maskInt m)) = .ok a ∧ exposureTimeAny A wd (.bools m) = .ok b ∧ a.message = b.message := by
  obtain ⟨res, h, -, -, h1⟩ := exposureTime_eq (A := A) (g := maskInt m) hp hr
  obtain ⟨res', h', -, h2⟩ := exposureBool_eq (A := A) (g := m) hp hr
  refine ⟨res, res', (exposureTimeOf_int wd _).trans h, h', ?_⟩
  rw [h1, h2]
  simp only [regVal_mask]
  simp

/-- C84: the Boolean region gives the same times exactly when no particle spends time on steps inside the region. -/
theorem C84_bool_iff {wd : WalkData K} {m : Grid Bool} (hp : Proper wd) (hr : OnRaster m.rows m.cols wd) {a b : ExposureResult K}
    (ha : exposureTimeAny Arith.exact wd (.ints (maskInt m)) = .ok a) (hb : exposureTimeAny Arith.exact wd (.bools m) = .ok b) :
    b.times = a.times ↔ ∀ i, i < wd.count → wd.timeInside m i = 0 := by
  obtain ⟨⟨a', ha', h1⟩, b', hb', h2⟩ := C84_values_partial hp hr
  rw [ha] at ha'; rw [hb] at hb'
  cases ha'; cases hb'
  rw [h1, h2]
  constructor
  · intro h i hi
    have h3 := congrArg (fun l => l[i]?) h
    simp only [List.getElem?_map, List.getElem?_range hi, Option.map_some, Option.some.injEq, Fl.fin.injEq] at h3
    linarith
  · intro h
    refine List.map_congr_left fun i hi => ?_
    rw [h i (by simpa using hi)]; simp

/-- The right two columns as a Boolean array. -/
def demoMask : Grid Bool := ⟨2, 3, fun _ j => decide (j ≠ 0)⟩

example : (Arith.double : Arith ℚ).rnd 2 = 2 ∧ exposureTimeAny Arith.double demoWalks (.floats (maskFloat demoMask)) =
    exposureTimeAny Arith.double demoWalks (.ints (maskInt demoMask)) := ⟨by decide +kernel, C84_float (by decide +kernel) _ _⟩
example := C84_values_partial (m := demoMask) demoWalks_proper demoWalks_on
example := C84_message (A := Arith.double) (m := demoMask) demoWalks_proper demoWalks_on

/-- C84 fails for Boolean arrays: the particle that stays in the region for the whole walk (3 time units) is given half of it. -/
theorem C84_counterexample :
    (exposureTimeAny Arith.exact demoWalks (.ints (maskInt demoMask))).toOption.map (fun r => (r.times, r.message)) =
      some ([.fin (13 / 2), .fin 3, .fin 0], some [1]) ∧
    (exposureTimeAny Arith.exact demoWalks (.bools demoMask)).toOption.map (fun r => (r.times, r.message)) =
      some ([.fin 4, .fin (3 / 2), .fin 0], some [1]) := by
  refine ⟨by decide +kernel, by decide +kernel⟩

end Dorado
