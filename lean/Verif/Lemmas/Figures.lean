import Verif.Spec.Plots
import Verif.Props.Slices

/-! Markers drawn by the automated routines. -/

set_option linter.unusedSectionVars false

namespace Dorado

variable {K : Type} [Field K] [LinearOrder K] [IsStrictOrderedRing K] [FloorRing K] {A : Arith K} {F : Fun K A}

theorem unpack3_inv {g : GotState K} {p : List Int × List Int × List (Fl K)} (h : unpack3 g = .ok p) : p = (g.xs, g.ys, g.ts) := by
  unfold unpack3 at h
  split_ifs at h
  cases h
  rfl

theorem marks_of_slice {wd : WalkData K} (hal : AlignedWalk wd) {k : Int} {g : GotState K} {p : List Int × List Int × List (Fl K)}
    (hg : getState wd k = .ok g) (hp : unpack3 g = .ok p) :
    (p.2.1.zip p.1).length = wd.xinds.length ∧ ∀ (j : Nat) q, (p.2.1.zip p.1)[j]? = some q →
      ∃ n, RecordNo (recordsOf wd j) k n ∧ PointAt wd j n q := by
  have := unpack3_inv hp
  subst this
  obtain ⟨g', hg', hs⟩ := C54_slice hal k
  rw [hg] at hg'
  cases hg'
  refine ⟨by simp [hs.xnum, hs.ynum], fun j q hq => ?_⟩
  simp only [List.getElem?_zip_eq_some] at hq
  have hj : j < wd.xinds.length := by
    rw [← hs.xnum]; exact (List.getElem?_eq_some_iff.1 hq.2).1
  have hx := List.getElem?_eq_getElem hj
  have hy := List.getElem?_eq_getElem (show j < wd.yinds.length by rw [hal.ynum]; exact hj)
  have ht := List.getElem?_eq_getElem (show j < wd.times.length by rw [hal.tnum]; exact hj)
  have hl : wd.lists j = some (wd.xinds[j], wd.yinds[j]'(by rw [hal.ynum]; exact hj), wd.times[j]'(by rw [hal.tnum]; exact hj)) := by
    unfold WalkData.lists; rw [hx, hy, ht]; rfl
  obtain ⟨n, hn, hnl, hxn, hyn, -⟩ := hs.pick j _ _ _ hl
  obtain ⟨-, -, htl, -⟩ := hal.same j _ _ _ hl
  refine ⟨n, ?_, _, _, hx, hy, by rw [← hxn]; exact hq.2, by rw [← hyn]; exact hq.1⟩
  unfold recordsOf
  rw [hx]
  simp only [Option.map_some, Option.getD_some]
  rw [← htl]
  exact hn

theorem recordsOf_pos {wd : WalkData K} (hal : AlignedWalk wd) {j : Nat} (hj : j < wd.xinds.length) : 0 < recordsOf wd j := by
  have hx := List.getElem?_eq_getElem hj
  have hy := List.getElem?_eq_getElem (show j < wd.yinds.length by rw [hal.ynum]; exact hj)
  have ht := List.getElem?_eq_getElem (show j < wd.times.length by rw [hal.tnum]; exact hj)
  have := (hal.same j _ _ _ (by unfold WalkData.lists; rw [hx, hy, ht]; rfl)).1
  unfold recordsOf
  rw [hx]
  simpa using List.length_pos_iff.2 this

theorem newest_of_slice {wd : WalkData K} (hal : AlignedWalk wd) {g : GotState K} {p : List Int × List Int × List (Fl K)}
    (hg : getState wd (-1) = .ok g) (hp : unpack3 g = .ok p) : AtNewest wd (p.2.1.zip p.1) := by
  obtain ⟨h1, h2⟩ := marks_of_slice hal hg hp
  refine ⟨h1, fun j q hq => ?_⟩
  obtain ⟨n, hn, hpt⟩ := h2 j q hq
  have hpos := recordsOf_pos hal (j := j) (by rw [← h1]; exact (List.getElem?_eq_some_iff.1 hq).1)
  have : n = recordsOf wd j - 1 := by
    unfold RecordNo at hn
    split_ifs at hn <;> omega
  rwa [← this]

theorem start_of_slice {wd : WalkData K} (hal : AlignedWalk wd) {g : GotState K} {p : List Int × List Int × List (Fl K)}
    (hg : getState wd 0 = .ok g) (hp : unpack3 g = .ok p) : AtStart wd (p.2.1.zip p.1) := by
  obtain ⟨h1, h2⟩ := marks_of_slice hal hg hp
  refine ⟨h1, fun j q hq => ?_⟩
  obtain ⟨n, hn, hpt⟩ := h2 j q hq
  have hpos := recordsOf_pos hal (j := j) (by rw [← h1]; exact (List.getElem?_eq_some_iff.1 hq).1)
  have : n = 0 := by
    unfold RecordNo at hn
    split_ifs at hn <;> omega
  rwa [← this]

/-- Start markers stay right while the walks are extended. -/
theorem AtStart.extend {w0 w : WalkData K} (h0 : AlignedWalk w0) (he : ExtendsWalk w0 w) {pts : List (Int × Int)} (h : AtStart w0 pts) : AtStart w pts := by
  refine ⟨by rw [he.1]; exact h.1, fun j p hp => ?_⟩
  obtain ⟨xs, ys, hx, hy, hxp, hyp⟩ := h.2 j p hp
  have hj := (List.getElem?_eq_some_iff.1 hx).1
  have ht := List.getElem?_eq_getElem (show j < w0.times.length by rw [h0.tnum]; exact hj)
  obtain ⟨xs', ys', ts', hl, hxx, hyy, -⟩ := he.2 j xs ys _ (by unfold WalkData.lists; rw [hx, hy, ht]; rfl)
  unfold WalkData.lists at hl
  simp only [Option.bind_eq_bind, Option.bind_eq_some_iff, Option.pure_def, Option.some.injEq, Prod.mk.injEq] at hl
  obtain ⟨a, ha, b, hb, c, hc, rfl, rfl, rfl⟩ := hl
  obtain ⟨ra, rfl⟩ := hxx
  obtain ⟨rb, rfl⟩ := hyy
  refine ⟨_, _, ha, hb, ?_, ?_⟩
  · rw [List.getElem?_append_left (List.getElem?_eq_some_iff.1 hxp).1]; exact hxp
  · rw [List.getElem?_append_left (List.getElem?_eq_some_iff.1 hyp).1]; exact hyp

theorem startMarks_first {wd : WalkData K} (hal : AlignedWalk wd) {old pts : List (Int × Int)} (h : startMarks wd 0 old = .ok pts) : AtStart wd pts := by
  unfold startMarks at h
  rw [if_pos rfl] at h
  simp only [bind_ok] at h
  obtain ⟨g, hg, p, hp, h⟩ := h
  cases h
  exact start_of_slice hal hg hp

theorem startMarks_later {wd : WalkData K} {i : Nat} (hi : i ≠ 0) {old pts : List (Int × Int)} (h : startMarks wd i old = .ok pts) : pts = old := by
  unfold startMarks at h
  rw [if_neg hi] at h
  cases h
  rfl

end Dorado
