import Verif.Props.SeededCourse
import Verif.Props.Continue

/-! # C106: exposure times of randomly seeded particles -/

set_option linter.unusedSectionVars false

namespace Dorado

open MeasureTheory Finset

theorem mark_cell {wd : WalkData ℝ} {g : Grid Int} {i n : Nat} {p : Int × Int} (h : wd.posAt i n = some p) : wd.mark g i n = cellMark g p := by
  unfold WalkData.mark WalkData.inRegion cellMark
  rw [h]
  simp only [Option.some.injEq, exists_eq_left']

theorem tau_fin {wd : WalkData ℝ} {i n : Nat} {x : ℝ} (h : wd.timeAt i n = some (.fin x)) : wd.tau i n = x := by
  unfold WalkData.tau
  rw [h]

theorem mark_congr {wd wd' : WalkData ℝ} {g : Grid Int} {i n : Nat} (h : wd'.posAt i n = wd.posAt i n) : wd'.mark g i n = wd.mark g i n := by
  unfold WalkData.mark WalkData.inRegion
  rw [h]

theorem tau_congr {wd wd' : WalkData ℝ} {i n : Nat} (h : wd'.timeAt i n = wd.timeAt i n) : wd'.tau i n = wd.tau i n := by
  unfold WalkData.tau
  rw [h]

/-- Exposure time after one more iteration. -/
theorem step_exposure {wd wd' : WalkData ℝ} {g : Grid Int} {i : Nat} {xs ys : List Int} {ts : List (Fl ℝ)} (hl : wd.lists i = some (xs, ys, ts))
    (h1 : xs.length = ts.length) (h2 : ys.length = ts.length)
    (hs : wd'.lists i = some (xs, ys, ts) ∨ ∃ (q : Int × Int) (t : Fl ℝ), wd'.lists i = some (xs ++ [q.1], ys ++ [q.2], ts ++ [t]))
    {p p' : Int × Int} {t t' : ℝ} (hp : wd.lastPos i = some p) (hp' : wd'.lastPos i = some p') (ht : wd.lastTime i = some (.fin t))
    (ht' : wd'.lastTime i = some (.fin t')) :
    wd'.exposure g i = wd.exposure g i + (t' - t) * ((cellMark g p + cellMark g p') / 2) ∧
      ((∀ n t, wd.timeAt i n = some t → ∃ x, t = .fin x) → ∀ n t, wd'.timeAt i n = some t → ∃ x, t = .fin x) := by
  obtain ⟨a1, a2, a3⟩ := lists_parts hl
  have r : wd.records i = ts.length := by simp [WalkData.records, a3]
  have hpos : ∀ n, wd.posAt i n = (do let x ← xs[n]?; let y ← ys[n]?; return (x, y)) := fun n => by
    simp [WalkData.posAt, a1, a2]
  have htm : ∀ n, wd.timeAt i n = ts[n]? := fun n => by simp [WalkData.timeAt, a3]
  have lt : ts.getLast? = some (.fin t) := by simpa [WalkData.lastTime, a3] using ht
  have hne : ts ≠ [] := fun e => by rw [e] at lt; simp at lt
  have hlen : 0 < ts.length := List.length_pos_iff.2 hne
  rcases hs with hs | ⟨q, t1, hs⟩
  · obtain ⟨b1, b2, b3⟩ := lists_parts hs
    have r' : wd'.records i = wd.records i := by simp [WalkData.records, a3, b3]
    have e1 : ∀ n, wd'.posAt i n = wd.posAt i n := fun n => by simp [WalkData.posAt, a1, a2, b1, b2]
    have e2 : ∀ n, wd'.timeAt i n = wd.timeAt i n := fun n => by simp [WalkData.timeAt, a3, b3]
    have e3 : t' = t := by
      have : wd'.lastTime i = wd.lastTime i := by simp [WalkData.lastTime, a3, b3]
      rw [ht, ht'] at this
      simpa using this
    refine ⟨?_, fun hf n u hu => hf n u (by rw [← e2]; exact hu)⟩
    rw [e3, sub_self, zero_mul, add_zero]
    unfold WalkData.exposure
    rw [r']
    refine sum_congr rfl fun n _ => ?_
    rw [tau_congr (e2 n), tau_congr (e2 (n + 1)), mark_congr (e1 n), mark_congr (e1 (n + 1))]
  · obtain ⟨b1, b2, b3⟩ := lists_parts hs
    have r' : wd'.records i = ts.length + 1 := by simp [WalkData.records, b3]
    have e1 : ∀ n, n < ts.length → wd'.posAt i n = wd.posAt i n := fun n hn => by
      simp [WalkData.posAt, a1, a2, b1, b2, List.getElem?_append_left, h1, h2, hn]
    have e2 : ∀ n, n < ts.length → wd'.timeAt i n = wd.timeAt i n := fun n hn => by simp [WalkData.timeAt, a3, b3, List.getElem?_append_left, hn]
    have f1 : wd'.posAt i ts.length = some q := by
      simp [WalkData.posAt, b1, b2, ← h1, h2]
    have f2 : wd'.timeAt i ts.length = some t1 := by simp [WalkData.timeAt, b3]
    have g1 : p' = q := by
      have : wd'.lastPos i = some q := by simp [WalkData.lastPos, b1, b2]
      rw [hp'] at this
      simpa using this
    have g2 : t1 = .fin t' := by
      have : wd'.lastTime i = some t1 := by simp [WalkData.lastTime, b3]
      rw [ht'] at this
      simpa using this.symm
    subst g1 g2
    have k1 : wd.posAt i (ts.length - 1) = some p := by
      have : wd.lastPos i = wd.posAt i (ts.length - 1) := by
        simp only [WalkData.lastPos, WalkData.posAt, a1, a2, Option.bind_eq_bind, Option.bind_some, List.getLast?_eq_getElem?, h1, h2]
      rw [← this, hp]
    have k2 : wd.timeAt i (ts.length - 1) = some (.fin t) := by rw [htm, ← List.getLast?_eq_getElem?, lt]
    constructor
    · unfold WalkData.exposure
      rw [r', r, Nat.add_sub_cancel, show ts.length = ts.length - 1 + 1 by omega, sum_range_succ, Nat.add_sub_cancel]
      congr 1
      · refine sum_congr rfl fun n hn => ?_
        have hn := mem_range.1 hn
        rw [tau_congr (e2 n (by omega)), tau_congr (e2 (n + 1) (by omega)), mark_congr (e1 n (by omega)), mark_congr (e1 (n + 1) (by omega))]
      · rw [show ts.length - 1 + 1 = ts.length by omega, tau_fin f2, mark_cell f1, tau_fin (by rw [e2 _ (by omega)]; exact k2),
          mark_cell (by rw [e1 _ (by omega)]; exact k1)]
    · intro hf n u hu
      by_cases hn : n < ts.length
      · exact hf n u (by rw [← e2 n hn]; exact hu)
      · have : n = ts.length := by
          have h3 : (ts ++ [Fl.fin t'])[n]? = some u := by simpa [WalkData.timeAt, b3] using hu
          have := (List.getElem?_eq_some_iff.1 h3).1
          simp at this
          omega
        rw [this, f2] at hu
        exact ⟨t', by simpa using hu.symm⟩

section
variable {F : Fun ℝ Arith.exact} {R C : Nat} {P : PObj ℝ} {s : PState ℝ}

/-- Exposure times while running. -/
theorem exposure_runs (h : Reach Arith.exact F (Enclosed Arith.exact F R C) Draws (InsideSeeds R C) P s) {wd : WalkData ℝ} (hwd : s.walk = some wd)
    (hfin : ∀ i n t, wd.timeAt i n = some t → ∃ x, t = .fin x) {ω : Nat → ℝ} (hω : Draws ω) {pos : Nat → Nat → Int × Int} {τ : Nat → Nat → ℝ}
    (hpos : ∀ j i, i < wd.count → ∃ s' w wd', AfterRuns Arith.exact F P ω s j s' w ∧ s'.walk = some wd' ∧ wd'.lastPos i = some (pos j i))
    (hτ : ∀ j i, i < wd.count → TimeAfter Arith.exact F P ω s j i (τ j i)) (g : Grid Int) (j : Nat) :
    ∃ s' w wd', AfterRuns Arith.exact F P ω s j s' w ∧ s'.walk = some wd' ∧ Proper wd' ∧ wd'.count = wd.count ∧ OnRaster R C wd' ∧
      ∀ i, i < wd.count → wd'.exposure g i = wd.exposure g i +
        ∑ m ∈ range j, (τ (m + 1) i - τ m i) * ((cellMark g (pos m i) + cellMark g (pos (m + 1) i)) / 2) := by
  have good : ∀ {s' : PState ℝ} {wd' : WalkData ℝ}, Reach Arith.exact F (Enclosed Arith.exact F R C) Draws (InsideSeeds R C) P s' → s'.walk = some wd' →
      (∀ i n t, wd'.timeAt i n = some t → ∃ x, t = .fin x) → Proper wd' ∧ OnRaster R C wd' := by
    intro s' wd' hre hw hf
    obtain ⟨a1, a2, a3, -, a5⟩ := C15_aligned (hre.mono fun P hP => hP.built) hw
    refine ⟨⟨by omega, by omega, fun i xs ys ts hx hy ht => ?_, hf⟩, fun i n p hp => ?_⟩
    · have hi : i < s'.np := by
        rw [← a1]
        exact (List.getElem?_eq_some_iff.1 hx).1
      obtain ⟨xs', ys', ts', hl, hne, l1, l2, -⟩ := a5 i hi
      simp only [WalkData.lists, hx, hy, ht, Option.bind_eq_bind, Option.bind_some, Option.pure_def, Option.some.injEq, Prod.mk.injEq] at hl
      obtain ⟨rfl, rfl, rfl⟩ := hl
      exact ⟨l2.symm, by omega, by rw [l2]; exact List.length_pos_iff.2 hne⟩
    · obtain ⟨b1, b2, b3, b4⟩ := C17_inside hre hw hp
      omega
  have key : ∃ s' w wd', AfterRuns Arith.exact F P ω s j s' w ∧ s'.walk = some wd' ∧
      Reach Arith.exact F (Enclosed Arith.exact F R C) Draws (InsideSeeds R C) P s' ∧ wd'.count = wd.count ∧
      (∀ i n t, wd'.timeAt i n = some t → ∃ x, t = .fin x) ∧
      ∀ i, i < wd.count → wd'.exposure g i = wd.exposure g i +
        ∑ m ∈ range j, (τ (m + 1) i - τ m i) * ((cellMark g (pos m i) + cellMark g (pos (m + 1) i)) / 2) := by
    induction j with
    | zero => exact ⟨s, none, wd, .zero, hwd, h, rfl, hfin, fun i _ => by simp⟩
    | succ j ih =>
      obtain ⟨s', w, wd', hr, hw, hre, hc, hf, he⟩ := ih
      obtain ⟨res, hres⟩ := C17_no_crash hre (by rw [hw]; simp) hω none 10000 (Or.inl rfl)
      have hre' : Reach Arith.exact F (Enclosed Arith.exact F R C) Draws (InsideSeeds R C) P res.state := .run hre hω hres
      obtain ⟨hwalk, hone⟩ := C22_one_step (hre.mono fun P hP => hP.built) hres hw
      have hr' : AfterRuns Arith.exact F P ω s (j + 1) res.state (some res.returned) := .succ hr hres
      obtain ⟨hprop, -⟩ := good hre hw hf
      have hlen : res.returned.count = wd'.count := by
        obtain ⟨hpe, hbad | ⟨rows, hrows, -⟩⟩ := Enclosed.rowsOk hre
        · rw [hw] at hbad; cases hbad
        obtain ⟨-, rows', hlen, -, hwalk', -⟩ := runIteration_inv Arith.exact F hre.obj.built.good hpe hrows.1 (Or.inl hrows.2) hres
        rw [hrows.1] at hw
        cases hw
        rw [hwalk, Option.some.injEq] at hwalk'
        rw [hwalk']
        simp [ofRows, WalkData.count, hlen]
      have step : ∀ i, i < wd.count → res.returned.exposure g i = wd'.exposure g i + (τ (j + 1) i - τ j i) *
          ((cellMark g (pos j i) + cellMark g (pos (j + 1) i)) / 2) ∧
          ((∀ n t, wd'.timeAt i n = some t → ∃ x, t = .fin x) → ∀ n t, res.returned.timeAt i n = some t → ∃ x, t = .fin x) := by
        intro i hi
        obtain ⟨xs, ys, ts, hl, -, -, -, l1, l2, l3, -⟩ := hprop.lists (i := i) (by omega)
        obtain ⟨s1, w1, wd1, r1, e1, p1⟩ := hpos j i hi
        obtain ⟨rfl, -⟩ := r1.unique hr
        rw [hw] at e1
        cases e1
        obtain ⟨s2, w2, wd2, r2, e2, p2⟩ := hpos (j + 1) i hi
        obtain ⟨rfl, -⟩ := r2.unique hr'
        rw [hwalk] at e2
        cases e2
        obtain ⟨s3, w3, wd3, r3, e3, t3⟩ := hτ j i hi
        obtain ⟨rfl, -⟩ := r3.unique hr
        rw [hw] at e3
        cases e3
        obtain ⟨s4, w4, wd4, r4, e4, t4⟩ := hτ (j + 1) i hi
        obtain ⟨rfl, -⟩ := r4.unique hr'
        rw [hwalk] at e4
        cases e4
        refine step_exposure hl (by omega) (by omega) ?_ p1 p2 t3 t4
        rcases hone i xs ys ts hl with ⟨ho, -⟩ | ⟨q, t, ho, -⟩
        · exact .inl ho
        · exact .inr ⟨q, t, ho⟩
      refine ⟨_, _, _, hr', hwalk, hre', by omega, fun i n t ht => ?_, fun i hi => ?_⟩
      · have hi : i < wd.count := by
          have hp' := (C15_aligned (hre'.mono fun P hP => hP.built) hwalk)
          obtain ⟨a1, a2, a3, -⟩ := hp'
          unfold WalkData.timeAt at ht
          simp only [Option.bind_eq_bind, Option.bind_eq_some_iff] at ht
          obtain ⟨l, hl, -⟩ := ht
          have := (List.getElem?_eq_some_iff.1 hl).1
          unfold WalkData.count at *
          omega
        exact (step i hi).2 (hf i) n t ht
      · rw [(step i hi).1, he i hi, sum_range_succ, add_assoc]
  obtain ⟨s', w, wd', hr, hw, hre, hc, hf, he⟩ := key
  obtain ⟨hprop, hon⟩ := good hre hw hf
  exact ⟨s', w, wd', hr, hw, hprop, hc, hon, he⟩

variable {N : Nat} {xs ys : List Int} {t : ℝ} {n : Nat} {g : Grid Int}

/-- Exposure times in terms of start cells and courses. -/
theorem seeded_exposure (h : Reach Arith.exact F (Enclosed Arith.exact F R C) Draws (InsideSeeds R C) P s) (hw : s.walk = none)
    (ha : ∀ k, k < 9 → k ≠ 4 → ∃ a, P.angles k = .fin a) (hv : ∀ var, OptVar P var → Trackable P var) (hx : xs ≠ []) (hy : ys ≠ [])
    (hxy : ∀ x ∈ xs, ∀ y ∈ ys, Inside R C (x, y)) (hb : Binary g) (hgr : g.rows = R) (hgc : g.cols = C) {ω : Nat → ℝ} (hω : Draws ω)
    {X : Fin N → (Int × Int) × Course n} (hX : ∀ i : Fin N, HasSeeded F P ω s N xs ys t n i (X i)) :
    SeededExposure F P ω s N xs ys t n g fun i => (X i).2.exposure g (X i).1 := by
  obtain ⟨p, hp, s1, wd, hS⟩ := seeded_exists (N := N) (t := t) h hw hv hx hy hxy hω
  have hN : wd.count = N := hS.len
  have hT := fun (j i : Nat) (hi : i < wd.count) => time_exists hS.reach ha hS.walk (t0 := fun _ => t)
    (fun i hi => (hS.last ⟨i, by rw [← hN]; exact hi⟩).2) hω j hi
  choose! τ hτ using hT
  have hst := fun j => follows_some hS.reach hS.walk hω j
  choose st w wds hruns hwk hlen hre using hst
  have hps : ∀ j i, i < wd.count → ∃ q, (wds j).lastPos i = some q := fun j i hi => by
    obtain ⟨q, hq, -⟩ := last_inside (hre j) (hwk j) (i := i) (by rw [hlen]; exact hi)
    exact ⟨q, hq⟩
  choose! pos hpos using hps
  have hfin : ∀ i n t, wd.timeAt i n = some t → ∃ x, t = .fin x := by
    intro i n u hu
    unfold WalkData.timeAt at hu
    simp only [Option.bind_eq_bind, Option.bind_eq_some_iff] at hu
    obtain ⟨ts, h1, h2⟩ := hu
    obtain ⟨a1, -, a3, -⟩ := C15_aligned (hS.reach.mono fun P hP => hP.built) hS.walk
    have hi : i < N := by
      have := (List.getElem?_eq_some_iff.1 h1).1
      unfold WalkData.count at hN
      omega
    rw [(lists_parts (hS.lists ⟨i, hi⟩)).2.2, Option.some.injEq] at h1
    subst h1
    have := List.mem_of_getElem? h2
    simp only [List.mem_singleton] at this
    exact ⟨t, this⟩
  obtain ⟨s2, w2, wd2, r2, e2, hprop, hcount, hon, hexp⟩ := exposure_runs hS.reach hS.walk hfin hω
    (fun j i hi => ⟨_, _, _, hruns j, hwk j, hpos j i hi⟩) hτ g n
  obtain ⟨res, hres, htimes⟩ := C42_formula hprop (by rw [hgr, hgc]; exact hon) hb
  refine ⟨s1, s2, w2, wd2, res, hS.gen ω hp, r2, e2, hres, ?_⟩
  rw [htimes]
  refine List.ext_getElem (by simp [hcount, hN]) fun i h1 h2 => ?_
  simp only [List.length_map, List.length_range] at h1
  have hi : i < wd.count := by omega
  simp only [List.getElem_map, List.getElem_range, List.getElem_ofFn, Fl.fin.injEq]
  have hi' : i < N := by omega
  have e0 : wd.exposure g i = 0 := by
    have : wd.records i = 1 := by simp [WalkData.records, (lists_parts (hS.lists ⟨i, hi'⟩)).2.2]
    unfold WalkData.exposure
    rw [this]
    simp
  obtain ⟨c1, c2⟩ := (hX ⟨i, hi'⟩).course hp hS
  have hcell : ∀ j : Fin n, ((X ⟨i, hi'⟩).2 j).1 = pos (j + 1) i := by
    intro j
    obtain ⟨⟨s3, w3, wd3, r3, e3, l3⟩, -⟩ := c2 j
    obtain ⟨rfl, -⟩ := r3.unique (hruns (j + 1))
    rw [hwk] at e3
    cases e3
    have := hpos (j + 1) i hi
    rw [l3] at this
    exact Option.some.inj this
  have hdur : ∀ j : Fin n, ((X ⟨i, hi'⟩).2 j).2 = τ (j + 1) i - τ j i := by
    intro j
    obtain ⟨-, u, h1, h2⟩ := c2 j
    have g1 := h1.unique (hτ j i hi)
    have g2 := h2.unique (hτ (j + 1) i hi)
    linarith
  have hstart : pos 0 i = (X ⟨i, hi'⟩).1 := by
    obtain ⟨h3, -⟩ := (hruns 0).unique .zero
    have h4 := hwk 0
    rw [h3, hS.walk] at h4
    have h5 := hpos 0 i hi
    rw [← Option.some.inj h4, (hS.last ⟨i, hi'⟩).1] at h5
    rw [c1]
    exact (Option.some.inj h5).symm
  have hprev : ∀ j : Fin n, prevCell (X ⟨i, hi'⟩).1 (fun j => ((X ⟨i, hi'⟩).2 j).1) j = pos j i := by
    intro j
    obtain ⟨j, hj⟩ := j
    cases j with
    | zero => exact hstart.symm
    | succ j => exact hcell ⟨j, by omega⟩
  rw [hexp i hi, e0, zero_add, Course.exposure, ← Fin.sum_univ_eq_sum_range
    (fun m => (τ (m + 1) i - τ m i) * ((cellMark g (pos m i) + cellMark g (pos (m + 1) i)) / 2))]
  refine sum_congr rfl fun j _ => ?_
  rw [hdur, hprev, hcell]

theorem SeededExposure.unique {ω : Nat → ℝ} {E E' : Fin N → ℝ} (h : SeededExposure F P ω s N xs ys t n g E) (h' : SeededExposure F P ω s N xs ys t n g E') :
    E = E' := by
  obtain ⟨s1, s2, w, wd, res, a1, a2, a3, a4, a5⟩ := h
  obtain ⟨s1', s2', w', wd', res', b1, b2, b3, b4, b5⟩ := h'
  rw [a1] at b1
  cases b1
  obtain ⟨rfl, -⟩ := a2.unique b2
  rw [a3] at b3
  cases b3
  rw [a4] at b4
  cases b4
  rw [a5] at b5
  funext i
  have := congrFun (List.ofFn_injective b5) i
  simpa using this

theorem exposure_measurable (g : Grid Int) (n : Nat) : Measurable fun c : (Int × Int) × Course n => c.2.exposure g c.1 := by
  have hm : Measurable (cellMark g) := measurable_of_countable _
  unfold Course.exposure
  refine Finset.measurable_sum _ fun j _ => ?_
  have h1 : Measurable fun c : (Int × Int) × Course n => (c.2 j).2 := by fun_prop
  have h2 : Measurable fun c : (Int × Int) × Course n => (c.2 j).1 := by fun_prop
  have h3 : Measurable fun c : (Int × Int) × Course n => prevCell c.1 (fun j => (c.2 j).1) j := by
    obtain ⟨j, hj⟩ := j
    cases j with
    | zero => exact measurable_fst
    | succ j =>
      have : Measurable fun c : (Int × Int) × Course n => (c.2 ⟨j, by omega⟩).1 := by fun_prop
      exact this
  exact h1.mul (((hm.comp h3).add (hm.comp h2)).div_const 2)

/-- `exposure_time` accepts the walks. -/
theorem C106_accepts (h : Reach Arith.exact F (Enclosed Arith.exact F R C) Draws (InsideSeeds R C) P s) (hw : s.walk = none)
    (ha : ∀ k, k < 9 → k ≠ 4 → ∃ a, P.angles k = .fin a) (hv : ∀ var, OptVar P var → Trackable P var) (hx : xs ≠ []) (hy : ys ≠ [])
    (hxy : ∀ x ∈ xs, ∀ y ∈ ys, Inside R C (x, y)) (hb : Binary g) (hgr : g.rows = R) (hgc : g.cols = C) {ω : Nat → ℝ} (hω : Draws ω) (N n : Nat) (t : ℝ) :
    ∃ E : Fin N → ℝ, SeededExposure F P ω s N xs ys t n g E := by
  choose X hX using fun i : Fin N => seeded_course (t := t) h hw ha hv hx hy hxy hω n i
  exact ⟨_, seeded_exposure h hw ha hv hx hy hxy hb hgr hgc hω hX⟩

/-- The exposure times of randomly seeded particles are independent samples of one distribution. -/
theorem C106_sample (h : Reach Arith.exact F (Enclosed Arith.exact F R C) Draws (InsideSeeds R C) P s) (hw : s.walk = none)
    (ha : ∀ k, k < 9 → k ≠ 4 → ∃ a, P.angles k = .fin a) (hv : ∀ var, OptVar P var → Trackable P var) (hx : xs ≠ []) (hy : ys ≠ [])
    (hxy : ∀ x ∈ xs, ∀ y ∈ ys, Inside R C (x, y)) (hb : Binary g) (hgr : g.rows = R) (hgc : g.cols = C) {E : Fin N → (Nat → ℝ) → ℝ}
    (hE : ∀ ω, Draws ω → SeededExposure F P ω s N xs ys t n g fun i => E i ω) :
    (∀ i, AEMeasurable (E i) uniformDraws) ∧ ProbabilityTheory.iIndepFun E uniformDraws ∧
      ∀ i, uniformDraws.map (E i) = (seededLaw F P xs ys n).map fun c => c.2.exposure g c.1 := by
  classical
  obtain ⟨X, hX⟩ : ∃ X : Fin N → (Nat → ℝ) → (Int × Int) × Course n, ∀ ω, Draws ω → ∀ i : Fin N, HasSeeded F P ω s N xs ys t n i (X i ω) := by
    have ex := fun (ω : Nat → ℝ) (hω : Draws ω) (i : Fin N) => seeded_course (t := t) h hw ha hv hx hy hxy hω n i
    exact ⟨fun i ω => if hω : Draws ω then (ex ω hω i).choose else ((0, 0), fun _ => ((0, 0), 0)), fun ω hω i => by
      simp only [dif_pos hω]
      exact (ex ω hω i).choose_spec⟩
  have hm := seeded_measurable h hw ha hv hx hy hxy hX
  obtain ⟨hi1, hi2⟩ := C105_independent h hw ha hv hx hy hxy hX
  have hae : ∀ i, (fun c : (Int × Int) × Course n => c.2.exposure g c.1) ∘ X i =ᵐ[uniformDraws] E i := by
    intro i
    filter_upwards [uniformDraws_nonzero] with ω hω
    exact congrFun ((seeded_exposure h hw ha hv hx hy hxy hb hgr hgc hω.1 (hX ω hω.1)).unique (hE ω hω.1)) i
  refine ⟨fun i => ((exposure_measurable g n).comp_aemeasurable (hm i)).congr (hae i),
    (hi1.comp (fun _ c => c.2.exposure g c.1) fun _ => exposure_measurable g n).congr hae, fun i => ?_⟩
  rw [← Measure.map_congr (hae i), ← AEMeasurable.map_map_of_aemeasurable (exposure_measurable g n).aemeasurable (hm i), hi2 i]

/-- The exposure time curve: at every time `T`, the share of the particles with an exposure time of at most `T` differs by `ε` or more from the probability
that a particle has an exposure time of at most `T`, with probability at most `2 exp(-2 N ε²)`. -/
theorem C106_curve (h : Reach Arith.exact F (Enclosed Arith.exact F R C) Draws (InsideSeeds R C) P s) (hw : s.walk = none)
    (ha : ∀ k, k < 9 → k ≠ 4 → ∃ a, P.angles k = .fin a) (hv : ∀ var, OptVar P var → Trackable P var) (hx : xs ≠ []) (hy : ys ≠ [])
    (hxy : ∀ x ∈ xs, ∀ y ∈ ys, Inside R C (x, y)) (hb : Binary g) (hgr : g.rows = R) (hgc : g.cols = C) {E : Fin N → (Nat → ℝ) → ℝ}
    (hE : ∀ ω, Draws ω → SeededExposure F P ω s N xs ys t n g fun i => E i ω) (hN : 0 < N) (T : ℝ) {ε : ℝ} (hε : 0 < ε) :
    uniformDraws.real {ω | ε ≤ |((univ.filter fun i => E i ω ≤ T).card : ℝ) / N - (seededLaw F P xs ys n).real {c | c.2.exposure g c.1 ≤ T}|} ≤
      2 * Real.exp (-2 * N * ε ^ 2) := by
  obtain ⟨hm, hi1, hi2⟩ := C106_sample h hw ha hv hx hy hxy hb hgr hgc hE
  have hS : MeasurableSet (Set.Iic T) := measurableSet_Iic
  have := hoeffding_mean hN hm hi1 hi2 (f := (Set.Iic T).indicator fun _ => (1 : ℝ)) (measurable_const.indicator hS)
    (fun c => Set.indicator_nonneg (fun _ _ => zero_le_one) c) (fun c => Set.indicator_le' (fun _ _ => le_rfl) (fun _ _ => zero_le_one) c) hε
  have hN' : (N : ℝ) ≠ 0 := by positivity
  have hI : ∫ x, (Set.Iic T).indicator (fun _ => (1 : ℝ)) x ∂((seededLaw F P xs ys n).map fun c => c.2.exposure g c.1) =
      (seededLaw F P xs ys n).real {c | c.2.exposure g c.1 ≤ T} := by
    rw [integral_indicator_const _ hS, smul_eq_mul, mul_one, Measure.real, Measure.map_apply (exposure_measurable g n) hS]
    rfl
  rw [hI, sum_const, card_univ, Fintype.card_fin, nsmul_eq_mul, mul_div_cancel_left₀ _ hN'] at this
  convert this using 6
  rename_i ω
  rw [card_filter]
  push_cast
  refine congrArg (· / (N : ℝ) - _) (sum_congr rfl fun i _ => ?_)
  simp only [Set.indicator, Set.mem_Iic]

/-- Integral of a bounded function for a mixture. -/
theorem mixture_mean {ι α : Type} [Countable ι] [MeasurableSpace α] {μ : ι → Measure α} {w : ι → ENNReal} (hμ : ∀ i, w i ≠ 0 → IsProbabilityMeasure (μ i))
    (hw : ∑' i, w i = 1) {f : α → ℝ} (hf : Measurable f) {B : ℝ} (hB : ∀ i, w i ≠ 0 → ∀ᵐ a ∂μ i, |f a| ≤ B) :
    (∀ᵐ a ∂Measure.sum fun i => w i • μ i, |f a| ≤ B) ∧ Integrable f (Measure.sum fun i => w i • μ i) ∧
      ∫ a, f a ∂(Measure.sum fun i => w i • μ i) = ∑' i, (w i).toReal * ∫ a, f a ∂μ i := by
  have hfin : IsFiniteMeasure (Measure.sum fun i => w i • μ i) := by
    constructor
    rw [Measure.sum_apply _ MeasurableSet.univ]
    have : ∀ i, (w i • μ i) Set.univ = w i := by
      intro i
      rw [Measure.smul_apply, smul_eq_mul]
      by_cases h : w i = 0
      · rw [h, zero_mul]
      · have := hμ i h
        rw [measure_univ, mul_one]
    simp only [this, hw]
    exact ENNReal.one_lt_top
  have hae : ∀ᵐ a ∂Measure.sum fun i => w i • μ i, |f a| ≤ B := by
    refine Measure.ae_sum_iff.2 fun i => ?_
    by_cases h : w i = 0
    · rw [h, zero_smul]
      simp
    · exact Measure.ae_smul_measure (hB i h) _
  have hint : Integrable f (Measure.sum fun i => w i • μ i) := Integrable.of_bound hf.aestronglyMeasurable B (by simpa only [Real.norm_eq_abs] using hae)
  refine ⟨hae, hint, ?_⟩
  rw [integral_sum_measure hint]
  refine tsum_congr fun i => ?_
  rw [integral_smul_measure, smul_eq_mul]

theorem durLaw_mean (D x : ℝ) : ∫ y, y ∂durLaw D x = x := by
  unfold durLaw
  rw [integral_map (by fun_prop) (by fun_prop), integral_Icc_eq_integral_Ioc, ← intervalIntegral.integral_of_le (by norm_num),
    intervalIntegral.integral_const_mul, intervalIntegral.integral_add (continuous_const.intervalIntegrable _ _) ((by fun_prop : Continuous fun u : ℝ => u * D).intervalIntegrable _ _),
    intervalIntegral.integral_mul_const, integral_id]
  simp
  norm_num

theorem durLaw_bound (D x : ℝ) : ∀ᵐ y ∂durLaw D x, |y| ≤ |x| * (1 + |D| / 2) := by
  unfold durLaw
  rw [ae_map_iff (by fun_prop) (measurableSet_le (by fun_prop) (by fun_prop)), ae_restrict_iff' measurableSet_Icc]
  refine Filter.Eventually.of_forall fun u hu => ?_
  rw [abs_mul]
  refine mul_le_mul_of_nonneg_left ?_ (abs_nonneg x)
  have h1 : |u| ≤ 1 / 2 := abs_le.2 ⟨by linarith [hu.1], hu.2⟩
  calc |1 + u * D| ≤ |1| + |u * D| := abs_add_le _ _
    _ = 1 + |u| * |D| := by rw [abs_one, abs_mul]
    _ ≤ 1 + 1 / 2 * |D| := by gcongr
    _ = 1 + |D| / 2 := by ring

/-- One path: exposure time almost surely, its bound and its mean. -/
theorem component_mean (g : Grid Int) (p : Int × Int) (q : Fin n → Int × Int) (D : ℝ) (x : Fin n → ℝ) {b : ℝ} (hb : ∀ j, |x j| ≤ b) :
    (∀ᵐ c ∂Measure.pi fun j => (Measure.dirac (q j)).prod (durLaw D (x j)), |Course.exposure g p c| ≤ n * (b * (1 + |D| / 2))) ∧
    ∫ c, Course.exposure g p c ∂(Measure.pi fun j => (Measure.dirac (q j)).prod (durLaw D (x j))) =
      ∑ j, x j * ((cellMark g (prevCell p q j) + cellMark g (q j)) / 2) := by
  have hpr : ∀ j, IsProbabilityMeasure (durLaw D (x j)) := fun j => durLaw_prob D (x j)
  have hev : ∀ j, MeasurePreserving (Function.eval j) (Measure.pi fun j => (Measure.dirac (q j)).prod (durLaw D (x j))) ((Measure.dirac (q j)).prod (durLaw D (x j))) :=
    fun j => measurePreserving_eval (fun j => (Measure.dirac (q j)).prod (durLaw D (x j))) j
  have hcell : ∀ᵐ c ∂Measure.pi fun j => (Measure.dirac (q j)).prod (durLaw D (x j)), ∀ j, (c j).1 = q j ∧ |(c j).2| ≤ |x j| * (1 + |D| / 2) := by
    refine ae_all_iff.2 fun j => ?_
    refine (hev j).quasiMeasurePreserving.ae (p := fun y : (Int × Int) × ℝ => y.1 = q j ∧ |y.2| ≤ |x j| * (1 + |D| / 2)) ?_
    rw [Measure.dirac_prod]
    refine (ae_map_iff (by fun_prop) ?_).2 ?_
    · exact (measurable_fst (MeasurableSet.singleton (q j))).inter (measurableSet_le measurable_snd.abs measurable_const)
    · filter_upwards [durLaw_bound D (x j)] with y hy
      exact ⟨rfl, hy⟩
  have hform : ∀ᵐ c ∂Measure.pi fun j => (Measure.dirac (q j)).prod (durLaw D (x j)),
      Course.exposure g p c = ∑ j, (c j).2 * ((cellMark g (prevCell p q j) + cellMark g (q j)) / 2) := by
    filter_upwards [hcell] with c hc
    have : (fun j => (c j).1) = q := funext fun j => (hc j).1
    unfold Course.exposure
    rw [this]
    refine sum_congr rfl fun j _ => ?_
    rw [(hc j).1]
  have hm01 : ∀ y, 0 ≤ cellMark g y ∧ cellMark g y ≤ 1 := by
    intro y
    unfold cellMark
    split_ifs <;> norm_num
  have hint : ∀ j, Integrable (fun c : Course n => (c j).2) (Measure.pi fun j => (Measure.dirac (q j)).prod (durLaw D (x j))) := by
    intro j
    refine Integrable.of_bound (by fun_prop : Measurable fun c : Course n => (c j).2).aestronglyMeasurable (|x j| * (1 + |D| / 2)) ?_
    filter_upwards [hcell] with c hc
    exact (hc j).2
  constructor
  · filter_upwards [hform, hcell] with c h1 h2
    rw [h1]
    refine (abs_sum_le_sum_abs _ _).trans ?_
    have : (n : ℝ) * (b * (1 + |D| / 2)) = ∑ j : Fin n, b * (1 + |D| / 2) := by simp
    rw [this]
    refine sum_le_sum fun j _ => ?_
    rw [abs_mul]
    have e1 := hm01 (prevCell p q j)
    have e2 := hm01 (q j)
    have e3 : |(cellMark g (prevCell p q j) + cellMark g (q j)) / 2| ≤ 1 := abs_le.2 ⟨by linarith, by linarith⟩
    calc |(c j).2| * |(cellMark g (prevCell p q j) + cellMark g (q j)) / 2| ≤ |(c j).2| * 1 := mul_le_mul_of_nonneg_left e3 (abs_nonneg _)
      _ ≤ |x j| * (1 + |D| / 2) := by rw [mul_one]; exact (h2 j).2
      _ ≤ b * (1 + |D| / 2) := mul_le_mul_of_nonneg_right (hb j) (by positivity)
  · rw [integral_congr_ae hform, integral_finsetSum _ fun j _ => (hint j).mul_const _]
    refine sum_congr rfl fun j _ => ?_
    rw [integral_mul_const]
    congr 1
    have h1 : ∫ c : Course n, (c j).2 ∂(Measure.pi fun j => (Measure.dirac (q j)).prod (durLaw D (x j))) =
        ∫ y, y.2 ∂((Measure.dirac (q j)).prod (durLaw D (x j))) := by
      rw [← (hev j).map_eq, integral_map (measurable_pi_apply j).aemeasurable (by fun_prop)]
    rw [h1, Measure.dirac_prod, integral_map (by fun_prop) (by fun_prop)]
    exact durLaw_mean D (x j)

/-- A bound for the diffusion-free durations of steps inside. -/
theorem freeDur_bound (F : Fun ℝ Arith.exact) (P : PObj ℝ) (R C : Nat) : ∃ b, ∀ p q, Inside R C p → Inside R C q → |freeDur F P p q| ≤ b := by
  refine ⟨∑ x ∈ (range R ×ˢ range C) ×ˢ (range R ×ˢ range C), |freeDur F P ((x.1.1 : Nat), (x.1.2 : Nat)) ((x.2.1 : Nat), (x.2.2 : Nat))|, fun p q hp hq => ?_⟩
  obtain ⟨a, b, rfl, ha, ha', hb, hb'⟩ := hp.nat
  obtain ⟨a2, b2, rfl, ha2, ha2', hb2, hb2'⟩ := hq.nat
  exact single_le_sum (f := fun x : (Nat × Nat) × (Nat × Nat) => |freeDur F P ((x.1.1 : Nat), (x.1.2 : Nat)) ((x.2.1 : Nat), (x.2.2 : Nat))|)
    (fun x _ => abs_nonneg _) (a := ((a, b), (a2, b2))) (by simp only [mem_product, mem_range]; omega)

/-- Cells of a possible path are interior. -/
theorem path_cells (hP : Enclosed Arith.exact F R C P) {p : Int × Int} (hp : Inside R C p) {q : Fin n → Int × Int}
    (hq : ∏ j, moveProb (flowOf F P) P (prevCell p q j) (q j) ≠ 0) (j : Fin n) : Inside R C (prevCell p q j) ∧ Inside R C (q j) := by
  have hne := fun j => prod_ne_zero_iff.1 hq j (mem_univ j)
  obtain ⟨j, hj⟩ := j
  induction j with
  | zero =>
    refine ⟨hp, ?_⟩
    by_contra hc
    exact hne ⟨0, hj⟩ (moveProb_outside hP hp hc)
  | succ j ih =>
    have h1 : Inside R C (prevCell p q ⟨j + 1, hj⟩) := (ih (by omega)).2
    refine ⟨h1, ?_⟩
    by_contra hc
    exact hne ⟨j + 1, hj⟩ (moveProb_outside hP h1 hc)

theorem seeded_mean (hP : Enclosed Arith.exact F R C P) (hx : xs ≠ []) (hy : ys ≠ []) (hxy : ∀ x ∈ xs, ∀ y ∈ ys, Inside R C (x, y)) (n : Nat) (g : Grid Int) :
    Integrable (fun c => c.2.exposure g c.1) (seededLaw F P xs ys n) ∧ ∫ c, c.2.exposure g c.1 ∂seededLaw F P xs ys n = meanExposure F P xs ys n g := by
  obtain ⟨b, hb⟩ := freeDur_bound F P R C
  have hin : ∀ p, seedProb xs ys p ≠ 0 → Inside R C p := fun p hp => hxy _ (seedProb_mem hp).1 _ (seedProb_mem hp).2
  have hcourse : ∀ p, Inside R C p → (∀ᵐ c ∂courseLaw F P n p, |Course.exposure g p c| ≤ n * (b * (1 + |P.diffCoeff| / 2))) ∧
      ∫ c, Course.exposure g p c ∂courseLaw F P n p = ∑' q : Fin n → Int × Int, (∏ j, moveProb (flowOf F P) P (prevCell p q j) (q j)).toReal *
        ∑ j, freeDur F P (prevCell p q j) (q j) * ((cellMark g (prevCell p q j) + cellMark g (q j)) / 2) := by
    intro p hp
    have hcm := fun (q : Fin n → Int × Int) (hq : ∏ j, moveProb (flowOf F P) P (prevCell p q j) (q j) ≠ 0) => component_mean g p q P.diffCoeff
      (fun j => freeDur F P (prevCell p q j) (q j)) (fun j => hb _ _ (path_cells hP hp hq j).1 (path_cells hP hp hq j).2)
    obtain ⟨m1, -, m3⟩ := mixture_mean (μ := fun q : Fin n → Int × Int => Measure.pi fun j => (Measure.dirac (q j)).prod
      (durLaw P.diffCoeff (freeDur F P (prevCell p q j) (q j)))) (w := fun q => ∏ j, moveProb (flowOf F P) P (prevCell p q j) (q j))
      (fun q _ => inferInstance) (path_sum hP n hp) (f := fun c => Course.exposure g p c)
      ((exposure_measurable g n).comp (measurable_const.prodMk measurable_id))
      (fun q hq => (hcm q hq).1)
    refine ⟨m1, m3.trans (tsum_congr fun q => ?_)⟩
    by_cases hq : ∏ j, moveProb (flowOf F P) P (prevCell p q j) (q j) = 0
    · rw [hq]
      simp
    · rw [(hcm q hq).2]
  have hm : ∀ p : Int × Int, Measurable fun c : Course n => (p, c) := fun p => by fun_prop
  obtain ⟨-, m2, m3⟩ := mixture_mean (μ := fun p => (courseLaw F P n p).map fun c => (p, c)) (w := seedProb xs ys)
    (fun p hp => by
      have := courseLaw_prob hP n (hin p hp)
      exact Measure.isProbabilityMeasure_map (hm p).aemeasurable) (seedProb_sum hx hy) (exposure_measurable g n)
    (B := n * (b * (1 + |P.diffCoeff| / 2))) (fun p hp => by
      rw [ae_map_iff (hm p).aemeasurable (measurableSet_le (exposure_measurable g n).abs measurable_const)]
      exact (hcourse p (hin p hp)).1)
  refine ⟨m2, m3.trans (tsum_congr fun p => ?_)⟩
  by_cases hp : seedProb xs ys p = 0
  · rw [hp]
    simp
  · rw [integral_map (hm p).aemeasurable (exposure_measurable g n).aestronglyMeasurable, (hcourse p (hin p hp)).2]

/-- The expected exposure time is the one with diffusion-free durations. -/
theorem C106_mean (h : Reach Arith.exact F (Enclosed Arith.exact F R C) Draws (InsideSeeds R C) P s) (hw : s.walk = none)
    (ha : ∀ k, k < 9 → k ≠ 4 → ∃ a, P.angles k = .fin a) (hv : ∀ var, OptVar P var → Trackable P var) (hx : xs ≠ []) (hy : ys ≠ [])
    (hxy : ∀ x ∈ xs, ∀ y ∈ ys, Inside R C (x, y)) (hb : Binary g) (hgr : g.rows = R) (hgc : g.cols = C) {E : Fin N → (Nat → ℝ) → ℝ}
    (hE : ∀ ω, Draws ω → SeededExposure F P ω s N xs ys t n g fun i => E i ω) (i : Fin N) :
    Integrable (E i) uniformDraws ∧ ∫ ω, E i ω ∂uniformDraws = meanExposure F P xs ys n g := by
  obtain ⟨hm, -, hi2⟩ := C106_sample h hw ha hv hx hy hxy hb hgr hgc hE
  obtain ⟨h1, h2⟩ := seeded_mean h.obj hx hy hxy n g
  constructor
  · have : Integrable id (uniformDraws.map (E i)) := by
      rw [hi2 i]
      exact (integrable_map_measure (by fun_prop) (exposure_measurable g n).aemeasurable).2 h1
    exact (integrable_map_measure (by fun_prop) (hm i)).1 this
  · rw [← h2]
    have : ∫ y, y ∂(uniformDraws.map (E i)) = ∫ y, y ∂((seededLaw F P xs ys n).map fun c => c.2.exposure g c.1) := by rw [hi2 i]
    rwa [integral_map (hm i) (by fun_prop), integral_map (exposure_measurable g n).aemeasurable (by fun_prop)] at this

/-- Diffusion does not change expected exposure times: two objects that differ in `diff_coeff` only, with any numbers of particles. -/
theorem C106_unbiased {P' : PObj ℝ} {s' : PState ℝ} {D : ℝ} (hP : P' = { P with diffCoeff := D })
    (h : Reach Arith.exact F (Enclosed Arith.exact F R C) Draws (InsideSeeds R C) P s) (hw : s.walk = none)
    (h' : Reach Arith.exact F (Enclosed Arith.exact F R C) Draws (InsideSeeds R C) P' s') (hw' : s'.walk = none)
    (ha : ∀ k, k < 9 → k ≠ 4 → ∃ a, P.angles k = .fin a) (hv : ∀ var, OptVar P var → Trackable P var) (hx : xs ≠ []) (hy : ys ≠ [])
    (hxy : ∀ x ∈ xs, ∀ y ∈ ys, Inside R C (x, y)) (hb : Binary g) (hgr : g.rows = R) (hgc : g.cols = C) {N' : Nat} {t' : ℝ}
    {E : Fin N → (Nat → ℝ) → ℝ} (hE : ∀ ω, Draws ω → SeededExposure F P ω s N xs ys t n g fun i => E i ω)
    {E' : Fin N' → (Nat → ℝ) → ℝ} (hE' : ∀ ω, Draws ω → SeededExposure F P' ω s' N' xs ys t' n g fun i => E' i ω) (i : Fin N) (i' : Fin N') :
    ∫ ω, E i ω ∂uniformDraws = ∫ ω, E' i' ω ∂uniformDraws := by
  rw [(C106_mean h hw ha hv hx hy hxy hb hgr hgc hE i).2]
  subst hP
  rw [(C106_mean h' hw' ha hv hx hy hxy hb hgr hgc hE' i').2]
  rfl

end

/-- The lower part of the channel. -/
def lowerPart : Grid Int := ⟨5, 5, fun i _ => if 2 ≤ i then 1 else 0⟩

/-- C106: a hundred particles seeded at random in two cells of the channel, any number of iterations. The exposure time curve of the lower part of the
channel is at every time within a quarter of the true one except with probability `2 exp(-12.5)`, and the expected exposure time is the same with diffusion
coefficient 0.2 and 1. -/
example (n : Nat) : ∃ E E' : Fin 100 → (Nat → ℝ) → ℝ,
    (∀ ω, Draws ω → SeededExposure Fun.real realObj ω (initState Arith.exact Fun.real realObj 0) 100 [1, 2] [2] 0 n lowerPart fun i => E i ω) ∧
    (∀ ω, Draws ω → SeededExposure Fun.real realSpread ω (initState Arith.exact Fun.real realSpread 0) 100 [1, 2] [2] 0 n lowerPart fun i => E' i ω) ∧
    ProbabilityTheory.iIndepFun E uniformDraws ∧
    (∀ T, uniformDraws.real {ω | 1 / 4 ≤ |((univ.filter fun i => E i ω ≤ T).card : ℝ) / (100 : Nat) -
      (seededLaw Fun.real realObj [1, 2] [2] n).real {c | c.2.exposure lowerPart c.1 ≤ T}|} ≤ 2 * Real.exp (-(25 / 2))) ∧
    ∀ i, ∫ ω, E i ω ∂uniformDraws = ∫ ω, E' i ω ∂uniformDraws := by
  have h : Reach Arith.exact Fun.real (Enclosed Arith.exact Fun.real 5 5) Draws (InsideSeeds 5 5) realObj (initState Arith.exact Fun.real realObj 0) :=
    .new 0 realObj_enclosed
  have h' : Reach Arith.exact Fun.real (Enclosed Arith.exact Fun.real 5 5) Draws (InsideSeeds 5 5) realSpread (initState Arith.exact Fun.real realSpread 0) :=
    .new 0 realSpread_enclosed
  have hw : (initState Arith.exact Fun.real realObj 0).walk = none := rfl
  have hw' : (initState Arith.exact Fun.real realSpread 0).walk = none := rfl
  have hv : ∀ var, OptVar realObj var → Trackable realObj var := by
    rintro var ⟨hm, -⟩
    have e : realObj.particleVars = [] := rfl
    rw [e] at hm
    simp at hm
  have hv' : ∀ var, OptVar realSpread var → Trackable realSpread var := by
    rintro var ⟨hm, -⟩
    have e : realSpread.particleVars = [] := rfl
    rw [e] at hm
    simp at hm
  have hxy : ∀ x ∈ ([1, 2] : List Int), ∀ y ∈ ([2] : List Int), Inside 5 5 (x, y) := by
    intro x hx y hy
    simp at hx hy
    obtain rfl | rfl := hx <;> subst hy <;> (unfold Inside; decide)
  have hb : Binary lowerPart := by
    intro i j _ _
    unfold lowerPart
    simp only
    split_ifs <;> simp
  have ha' : ∀ k, k < 9 → k ≠ 4 → ∃ a, realSpread.angles k = .fin a := by
    rw [realSpread_eq]
    exact realObj_angles
  have ex := fun (ω : Nat → ℝ) (hω : Draws ω) => C106_accepts h hw realObj_angles hv (xs := [1, 2]) (ys := [2]) (by simp) (by simp) hxy hb rfl rfl hω 100 n 0
  have ex' := fun (ω : Nat → ℝ) (hω : Draws ω) => C106_accepts h' hw' ha' hv' (xs := [1, 2]) (ys := [2]) (by simp) (by simp) hxy hb rfl rfl hω 100 n 0
  obtain ⟨E, hE⟩ : ∃ E : Fin 100 → (Nat → ℝ) → ℝ,
      ∀ ω, Draws ω → SeededExposure Fun.real realObj ω (initState Arith.exact Fun.real realObj 0) 100 [1, 2] [2] 0 n lowerPart fun i => E i ω := by
    classical
    exact ⟨fun i ω => if hω : Draws ω then (ex ω hω).choose i else 0, fun ω hω => by
      simp only [dif_pos hω]
      exact (ex ω hω).choose_spec⟩
  obtain ⟨E', hE'⟩ : ∃ E' : Fin 100 → (Nat → ℝ) → ℝ,
      ∀ ω, Draws ω → SeededExposure Fun.real realSpread ω (initState Arith.exact Fun.real realSpread 0) 100 [1, 2] [2] 0 n lowerPart fun i => E' i ω := by
    classical
    exact ⟨fun i ω => if hω : Draws ω then (ex' ω hω).choose i else 0, fun ω hω => by
      simp only [dif_pos hω]
      exact (ex' ω hω).choose_spec⟩
  refine ⟨E, E', hE, hE', (C106_sample h hw realObj_angles hv (by simp) (by simp) hxy hb rfl rfl hE).2.1, fun T => ?_, fun i =>
    C106_unbiased realSpread_eq h hw h' hw' realObj_angles hv (by simp) (by simp) hxy hb rfl rfl hE hE' i i⟩
  have := C106_curve h hw realObj_angles hv (by simp) (by simp) hxy hb rfl rfl hE (by norm_num) T (ε := 1 / 4) (by norm_num)
  have e : (-2 * (100 : Nat) * (1 / 4) ^ 2 : ℝ) = -(25 / 2) := by norm_num
  rwa [e] at this

end Dorado
