import Verif.Lemmas.Routines
import Verif.Props.History
import Verif.Spec.Demo

/-!
# Slices of walk data (C54, C55)
-/

set_option linter.unusedSectionVars false

namespace Dorado

variable {K : Type} [Field K] [LinearOrder K] [IsStrictOrderedRing K] [FloorRing K] {A : Arith K} {F : Fun K A}
  {Ω : (Nat → K) → Prop} {Sd : PObj K → List Int → List Int → Fl K → Prop}

/-! ## C54 -/

/-- On aligned walk data `get_state` succeeds for every iteration `k` and returns record `k` (or the last one) of every particle in all fields. -/
theorem C54_slice {wd : WalkData K} (h : AlignedWalk wd) (k : Int) :
    ∃ g, getState wd k = .ok g ∧ SliceOf wd g fun ts j => RecordNo ts.length k j := by
  obtain ⟨rows, he, hrows⟩ := aligned_rows h
  have hn := h.distinct
  generalize keys wd.opt = ks at he hrows hn
  subst he
  refine ⟨_, getState_rows hn hrows k, slice_spec hrows fun r hr => ?_⟩
  obtain ⟨⟨h1, h2, h3⟩, h4⟩ := hrows r hr
  exact ⟨chosen_lt h3 k, by rw [h2]; exact chosen_spec h3 k⟩

/-- The walk data of every history of API calls are aligned. -/
theorem C54_reachable {P : PObj K} {s : PState K} (h : Reach A F (Built A F) Ω Sd P s) {wd : WalkData K} (hwd : s.walk = some wd) (k : Int) :
    AlignedWalk wd ∧ ∃ g, getState wd k = .ok g ∧ SliceOf wd g fun ts j => RecordNo ts.length k j := by
  obtain ⟨rows, rfl, hnp, hrows⟩ := Reach.vars (V := fun _ _ _ => True) (fun P hP => hP.good) h
    (fun _ _ _ _ _ _ _ _ => trivial) hwd
  have := rows_aligned (keysOf_nodup P) (rows := rows) fun r hr => ⟨(hrows r hr).1, (hrows r hr).2⟩
  exact ⟨this, C54_slice this k⟩

/-- Two particles with three records and one; the second is asked for a record it does not have. -/
def sliceDemo : WalkData ℚ :=
  { xinds := [[4, 5, 6], [1]], yinds := [[7, 7, 8], [2]], times := [[.fin 0, .fin 10, .fin 25], [.fin 3]]
    opt := [("depth", [[.num (.fin 1), .num (.fin 2), .num (.fin 3)], [.num (.fin 9)]])] }

theorem sliceDemo_aligned : AlignedWalk sliceDemo where
  ynum := rfl
  tnum := rfl
  distinct := by decide
  onum := by
    intro e he
    simp only [sliceDemo, List.mem_singleton] at he
    subst he
    rfl
  same := by
    intro i xs ys ts hl
    match i with
    | 0 =>
      simp only [sliceDemo, WalkData.lists] at hl
      cases hl
      refine ⟨by simp, rfl, rfl, fun var vs hv => ?_⟩
      simp only [sliceDemo, WalkData.optList, dictGet_cons] at hv
      split at hv <;> simp [dictGet] at hv
      subst hv
      rfl
    | 1 =>
      simp only [sliceDemo, WalkData.lists] at hl
      cases hl
      refine ⟨by simp, rfl, rfl, fun var vs hv => ?_⟩
      simp only [sliceDemo, WalkData.optList, dictGet_cons] at hv
      split at hv <;> simp [dictGet] at hv
      subst hv
      rfl
    | n + 2 => simp [sliceDemo, WalkData.lists] at hl

example : getState sliceDemo 1 = .ok ⟨[5, 1], [7, 2], [.fin 10, .fin 3], [("depth", [.num (.fin 2), .num (.fin 9)])]⟩ ∧
    getState sliceDemo (-2) = .ok ⟨[5, 1], [7, 2], [.fin 10, .fin 3], [("depth", [.num (.fin 2), .num (.fin 9)])]⟩ ∧
    RecordNo 3 1 1 ∧ RecordNo 3 (-2) 1 ∧ RecordNo 1 1 0 := by
  refine ⟨by decide +kernel, by decide +kernel, by simp [RecordNo], by simp [RecordNo], by simp [RecordNo]⟩

/-! ## C55 -/

/-- On aligned walk data `get_time_state` returns of every particle the first record whose computed distance to the target time is smallest, in all
fields alike. -/
theorem C55_nearest {wd : WalkData K} (h : AlignedWalk wd) {T : Fl K} (hT : ∀ ts ∈ wd.times, ∀ t ∈ ts, A.sub t T ≠ .nan) :
    ∃ g, getTimeState A wd T = .ok g ∧ SliceOf wd g (FirstNearest fun t => Fl.abs (A.sub t T)) := by
  obtain ⟨rows, he, hrows⟩ := aligned_rows h
  have hn := h.distinct
  generalize keys wd.opt = ks at he hrows hn
  subst he
  obtain ⟨c, hc, hg⟩ := getTimeState_rows (A := A) (T := T) hn hrows fun r hr t ht => hT r.ts (List.mem_map.2 ⟨r, hr, rfl⟩) t ht
  exact ⟨_, hg, slice_spec hrows hc⟩

/-- In exact arithmetic the distance is `|t - T|`. -/
theorem C55_exact {wd : WalkData K} (h : AlignedWalk wd) {T : K} (hf : ∀ ts ∈ wd.times, ∀ t ∈ ts, ∃ x, t = .fin x) :
    ∃ g, getTimeState Arith.exact wd (.fin T) = .ok g ∧ SliceOf wd g fun ts j =>
      ∃ x : K, ts[j]? = some (.fin x) ∧ ∀ (m : Nat) y, ts[m]? = some (.fin y) → |x - T| ≤ |y - T| ∧ (m < j → |x - T| < |y - T|) := by
  obtain ⟨g, hg, hs⟩ := C55_nearest (A := Arith.exact) (T := .fin T) h fun ts hts t ht => by
    obtain ⟨x, rfl⟩ := hf ts hts t ht
    simp [Arith.sub, Arith.add, Fl.neg]
  refine ⟨g, hg, hs.xnum, hs.ynum, hs.tnum, hs.fields, hs.onum, fun i xs ys ts hl => ?_⟩
  obtain ⟨j, ⟨tj, hj, hm⟩, hlt, hr⟩ := hs.pick i xs ys ts hl
  have hts : ts ∈ wd.times := by
    unfold WalkData.lists at hl
    simp only [Option.bind_eq_bind, Option.bind_eq_some_iff, Option.pure_def, Option.some.injEq, Prod.mk.injEq] at hl
    obtain ⟨_, _, _, _, ts', ht', _, _, rfl⟩ := hl
    exact List.mem_of_getElem? ht'
  obtain ⟨x, rfl⟩ := hf ts hts tj (List.mem_of_getElem? hj)
  have habs : ∀ y : K, Fl.abs (Arith.exact.sub (.fin y) (.fin T)) = .fin |y - T| := by
    intro y
    simp only [Arith.sub, Arith.add, Fl.neg, Fl.abs, Arith.exact, id, abs_eq_max_neg, ← sub_eq_add_neg]
  refine ⟨j, ⟨x, hj, fun m y hy => ?_⟩, hlt, hr⟩
  have := hm m _ hy
  simp only [habs, Fl.le, Fl.lt, decide_eq_true_eq] at this
  exact this

example : getTimeState Arith.exact sliceDemo (.fin 5) =
    .ok ⟨[4, 1], [7, 2], [.fin 0, .fin 3], [("depth", [.num (.fin 1), .num (.fin 9)])]⟩ ∧
    getTimeState Arith.exact sliceDemo (.fin 19) =
    .ok ⟨[6, 1], [8, 2], [.fin 25, .fin 3], [("depth", [.num (.fin 3), .num (.fin 9)])]⟩ := by
  refine ⟨by decide +kernel, by decide +kernel⟩

end Dorado
