import Verif.Props.Unsteady
import Verif.Model.Plots

/-! # C73: figures saved by the automated routines; C74: animations -/

set_option linter.unusedSectionVars false

namespace Dorado

variable {K : Type} [Field K] [LinearOrder K] [IsStrictOrderedRing K] [FloorRing K] {A : Arith K} {F : Fun K A}

/-- What figure `i` of `steady_plots` or `time_plots` shows, given the walks `w` after `i+1` iterations. -/
structure IterFigure (times : Bool) (i : Nat) (w : WalkData K) (fig : IterFig K) : Prop where
  number : fig.number = i
  pts : AtNewest w fig.pts
  start : AtStart w fig.start
  values : times = true → fig.values.length = w.xinds.length ∧ ∀ j : Nat, fig.values[j]? = w.lastTime j

theorem plotLoop_figs {Ob : PObj K → Prop} {Ω : (Nat → K) → Prop} {Sd : PObj K → List Int → List Int → Fl K → Prop} (hOb : ∀ P, Ob P → Built A F P)
    {P : PObj K} {s : PState K} (h : Reach A F Ob Ω Sd P s) {ω : Nat → K} (hω : Ω ω) {plot times : Bool} (n : Nat) {st : PlotLoop K}
    (hst : foldE (plotStep A F P ω plot times) ⟨s, none, [], []⟩ (List.range n) = .ok st) :
    Reach A F Ob Ω Sd P st.obj ∧ AfterRuns A F P ω s n st.obj st.walk ∧ (st.walk = none ↔ n = 0) ∧ (∀ w, st.walk = some w → st.obj.walk = some w) ∧
      st.figs.length = (if plot then n else 0) ∧ (plot = true → ∀ w, st.walk = some w → AtStart w st.start) ∧
      ∀ (i : Nat) fig, st.figs[i]? = some fig → ∃ si wi, AfterRuns A F P ω s (i + 1) si (some wi) ∧ IterFigure times i wi fig := by
  induction n generalizing st with
  | zero =>
    cases hst
    exact ⟨h, .zero, by simp, by simp, by simp, by simp, by simp⟩
  | succ n ih =>
    rw [List.range_succ, foldE_append, bind_ok] at hst
    obtain ⟨st1, h1, h2⟩ := hst
    obtain ⟨hR, hrun, hnone, hsame, hfl, hstart, hfigs⟩ := ih h1
    simp only [foldE, bind_ok] at h2
    obtain ⟨st2, h2, h3⟩ := h2
    cases h3
    unfold plotStep at h2
    rw [bind_ok] at h2
    obtain ⟨r, hr, h2⟩ := h2
    have hGood : ∀ P, Ob P → Good P := fun P hP => (hOb P hP).good
    obtain ⟨hpe, hw0 | ⟨rows, hrows⟩⟩ := hR.state hGood
    · unfold runIteration at hr
      rw [hw0] at hr
      cases hr
    obtain ⟨-, rows', hlen, hretr, hwalk, -, hout⟩ := runIteration_inv A F (hGood P h.obj) hpe hrows.1 (Or.inl hrows.2) hr
    have hR' := Reach.run hR hω hr
    have hres : r.state.walk = some r.returned := by rw [hretr, hwalk]
    have hal := (C54_reachable (hR'.mono hOb) hres 0).1
    cases plot with
    | false =>
      cases h2
      exact ⟨hR', .succ hrun hr, by simp, fun w hw => by cases hw; exact hres, hfl, by simp, hfigs⟩
    | true =>
      simp only [if_true, bind_ok] at h2
      obtain ⟨g, hg, p, hp, m, hm, h2⟩ := h2
      by_cases hc : times = true ∧ p.2.2 = []
      · rw [if_pos hc] at h2; cases h2
      rw [if_neg hc] at h2
      cases h2
      have hms : AtStart r.returned m := by
        cases hw : st1.walk with
        | none =>
          have h0 := hnone.1 hw
          subst h0
          exact startMarks_first hal hm
        | some w0 =>
          have h0 : n ≠ 0 := fun h0 => by rw [hnone.2 h0] at hw; cases hw
          rw [startMarks_later h0 hm]
          have hw' := hsame w0 hw
          refine (hstart rfl w0 hw).extend (C54_reachable (hR.mono hOb) hw' 0).1 ?_
          rw [hrows.1] at hw'
          cases hw'
          rw [hretr]
          exact extends_rows hlen fun i r hr => hout.steps A F hr
      refine ⟨hR', .succ hrun hr, by simp, fun w hw => by cases hw; exact hres, by simp at hfl; simp [hfl], fun _ w hw => by cases hw; exact hms,
        fun i fig hi => ?_⟩
      simp only [if_true] at hfl
      rcases Nat.lt_or_ge i n with hin | hin
      · rw [List.getElem?_append_left (by omega)] at hi
        exact hfigs i fig hi
      · have hlt := (List.getElem?_eq_some_iff.1 hi).1
        simp [hfl] at hlt
        have : i = n := by omega
        subst this
        rw [List.getElem?_append_right (by omega), hfl] at hi
        simp only [Nat.sub_self, List.getElem?_cons_zero, Option.some.injEq] at hi
        subst hi
        refine ⟨r.state, r.returned, .succ hrun hr, rfl, newest_of_slice hal hg hp, hms, fun ht => ?_⟩
        obtain ⟨g', hg', -, hn, hts⟩ := lastSlice hal
        rw [hg] at hg'
        cases hg'
        have := unpack3_inv hp
        subst this
        simp only [ht, if_true]
        exact ⟨hn, hts⟩

/-! ## C73 -/

/-- `steady_plots`: it runs `num_iter` iterations and returns the walk data after the last; if `save_output`, figure `i` is saved for every iteration,
showing each particle at its newest record after `i+1` iterations and at its first record. Any rounding, any draws, any history before. -/
theorem C73_steady {Ob : PObj K → Prop} {Ω : (Nat → K) → Prop} {Sd : PObj K → List Int → List Int → Fl K → Prop} (hOb : ∀ P, Ob P → Built A F P)
    {P : PObj K} {s : PState K} (h : Reach A F Ob Ω Sd P s) {ω : Nat → K} (hω : Ω ω) {numIter : Int} {save : Bool} {w : WalkData K} {s' : PState K}
    {figs : List (IterFig K)} (hr : steadyPlots A F P ω s numIter save = .ok (w, s', figs)) :
    AfterRuns A F P ω s numIter.toNat s' (some w) ∧ s'.walk = some w ∧ 0 < numIter ∧ figs.length = (if save then numIter.toNat else 0) ∧
      ∀ (i : Nat) fig, figs[i]? = some fig → ∃ si wi, AfterRuns A F P ω s (i + 1) si (some wi) ∧ IterFigure false i wi fig := by
  unfold steadyPlots plotRuns at hr
  rw [bind_ok] at hr
  obtain ⟨st, hst, hr⟩ := hr
  obtain ⟨-, h1, h2, h3, h4, -, h5⟩ := plotLoop_figs hOb h hω _ hst
  cases hw : st.walk with
  | none => rw [hw] at hr; cases hr
  | some w' =>
    rw [hw] at hr h1 h2
    cases hr
    refine ⟨h1, h3 _ hw, ?_, h4, h5⟩
    by_contra hc
    have := h2.2 (by omega)
    cases this

/-- `time_plots`: the same, and the colour of a particle is its newest travel time. -/
theorem C73_time {Ob : PObj K → Prop} {Ω : (Nat → K) → Prop} {Sd : PObj K → List Int → List Int → Fl K → Prop} (hOb : ∀ P, Ob P → Built A F P)
    {P : PObj K} {s : PState K} (h : Reach A F Ob Ω Sd P s) {ω : Nat → K} (hω : Ω ω) {numIter : Int} {w : WalkData K} {s' : PState K}
    {figs : List (IterFig K)} (hr : timePlots A F P ω s numIter = .ok (w, s', figs)) :
    AfterRuns A F P ω s numIter.toNat s' (some w) ∧ s'.walk = some w ∧ 0 < numIter ∧ figs.length = numIter.toNat ∧
      ∀ (i : Nat) fig, figs[i]? = some fig → ∃ si wi, AfterRuns A F P ω s (i + 1) si (some wi) ∧ IterFigure true i wi fig := by
  unfold timePlots plotRuns at hr
  rw [bind_ok] at hr
  obtain ⟨st, hst, hr⟩ := hr
  obtain ⟨-, h1, h2, h3, h4, -, h5⟩ := plotLoop_figs hOb h hω _ hst
  cases hw : st.walk with
  | none => rw [hw] at hr; cases hr
  | some w' =>
    rw [hw] at hr h1 h2
    cases hr
    refine ⟨h1, h3 _ hw, ?_, by simpa using h4, h5⟩
    by_contra hc
    have := h2.2 (by omega)
    cases this

theorem AfterRuns.unique {P : PObj K} {ω : Nat → K} {s s1 s2 : PState K} {w1 w2 : Option (WalkData K)} {n : Nat}
    (h1 : AfterRuns A F P ω s n s1 w1) (h2 : AfterRuns A F P ω s n s2 w2) : s1 = s2 ∧ w1 = w2 := by
  induction h1 generalizing s2 w2 with
  | zero => cases h2; exact ⟨rfl, rfl⟩
  | succ h hr ih =>
    cases h2 with
    | succ h' hr' =>
      obtain ⟨rfl, -⟩ := ih h'
      rw [hr] at hr'
      cases hr'
      exact ⟨rfl, rfl⟩

/-- The last figure of both shows the final state, that is, the walk data returned. -/
theorem C73_last {Ob : PObj K → Prop} {Ω : (Nat → K) → Prop} {Sd : PObj K → List Int → List Int → Fl K → Prop} (hOb : ∀ P, Ob P → Built A F P)
    {P : PObj K} {s : PState K} (h : Reach A F Ob Ω Sd P s) {ω : Nat → K} (hω : Ω ω) {numIter : Int} {w : WalkData K} {s' : PState K}
    {figs : List (IterFig K)} (hr : steadyPlots A F P ω s numIter true = .ok (w, s', figs) ∨ timePlots A F P ω s numIter = .ok (w, s', figs)) :
    ∃ fig, figs.getLast? = some fig ∧ AtNewest w fig.pts ∧ AtStart w fig.start := by
  have key : ∃ times, AfterRuns A F P ω s numIter.toNat s' (some w) ∧ 0 < numIter ∧ figs.length = numIter.toNat ∧
      ∀ (i : Nat) fig, figs[i]? = some fig → ∃ si wi, AfterRuns A F P ω s (i + 1) si (some wi) ∧ IterFigure times i wi fig := by
    rcases hr with hr | hr
    · obtain ⟨h1, -, h2, h3, h4⟩ := C73_steady hOb h hω hr
      exact ⟨_, h1, h2, h3, h4⟩
    · obtain ⟨h1, -, h2, h3, h4⟩ := C73_time hOb h hω hr
      exact ⟨_, h1, h2, h3, h4⟩
  obtain ⟨times, h1, h2, h3, h4⟩ := key
  have hlt : numIter.toNat - 1 < figs.length := by omega
  obtain ⟨si, wi, hi, hfig⟩ := h4 _ _ (List.getElem?_eq_getElem hlt)
  rw [show numIter.toNat - 1 + 1 = numIter.toNat by omega] at hi
  obtain ⟨-, hw⟩ := hi.unique h1
  cases hw
  refine ⟨_, ?_, hfig.pts, hfig.start⟩
  rw [List.getLast?_eq_getElem?, h3, List.getElem?_eq_getElem hlt]

/-- `unsteady_plots`: one figure per step, showing the time, the water depth and the walks after that step. -/
theorem C73_unsteady {ω : Nat → K} {dx t : K} {dir : List (String × FileData K)} {ot : String} (hclean : CleanFields dir ot) {N : Nat} {xs ys : List Int}
    {numSteps : Int} {pos : Nat} {w : WalkData K} {pos' : Nat} {figs : List (FlowFig K)}
    (h : unsteadyPlots A F ω pos dx (.int N) (.list (xs.map .int)) (.list (ys.map .int)) numSteps t dir ot = .ok (w, pos', figs)) :
    ∃ ws : List (WalkData K), (ws.length : Int) = min numSteps (max (filesWith dir "depth") (filesWith dir "data") : Nat) ∧ ws.getLast? = some w ∧
      FlowRun A F ω dx t dir ot N xs ys ws ∧ figs.length = ws.length ∧
      ∀ (i : Nat) fig, figs[i]? = some fig → ∃ wi, ws[i]? = some wi ∧ FlowFigure A t dir ot i wi fig := by
  unfold unsteadyPlots at h
  simp only [bind_ok] at h
  obtain ⟨len, hlen, st, hst, h⟩ := h
  obtain ⟨ws, hl, hrun, -, hlast, hfl, -, hfigs⟩ := flowRun (Ob := Built A F) (Ω := fun _ => True) (Sd := fun _ _ _ _ => True) trivial
    (fun i f P hf hP => ⟨_, stepParams_valid (hclean i f hf), hP⟩) (fun P hP => hP) (fun _ _ => trivial) (fun _ _ => trivial) pos _ hst
  rw [hlast] at h
  cases hw : ws.getLast? with
  | none => rw [hw] at h; cases h
  | some w' =>
    rw [hw] at h
    cases h
    have hne : ws ≠ [] := by rintro rfl; cases hw
    have : 0 < ws.length := List.length_pos_iff.2 hne
    refine ⟨ws, ?_, hw, hrun, by rw [hfl, hl], hfigs⟩
    rw [← numOutputs_eq]
    split_ifs at hl with hc <;> omega

/-! ## C74

Full claim: the animation shows the pictures from `start_val` to `end_val`, "Number of last plot to use". False: `C74_counterexample`. -/

/-- The name of the picture with number `i`. -/
def pictureName (i : Int) : String := "output" ++ toString i ++ ".png"

/-- The animation shows the pictures from `start_val` up to the one before `end_val`, in order. -/
theorem C74_frames_partial {a b : Int} (h : a ≤ b) :
    ((animationFiles a b).length : Int) = b - a ∧ ∀ (k : Nat), (k : Int) < b - a → (animationFiles a b)[k]? = some (pictureName (a + k)) := by
  unfold animationFiles pictureName
  refine ⟨by simp; omega, fun k hk => ?_⟩
  rw [List.getElem?_map, List.getElem?_range (by omega)]
  rfl

/-- `animate_plots(0, num_iter)` after `steady_plots` (or `time_plots`) shows exactly the figures saved, each once and in order. -/
theorem C74_after_steady {Ob : PObj K → Prop} {Ω : (Nat → K) → Prop} {Sd : PObj K → List Int → List Int → Fl K → Prop} (hOb : ∀ P, Ob P → Built A F P)
    {P : PObj K} {s : PState K} (h : Reach A F Ob Ω Sd P s) {ω : Nat → K} (hω : Ω ω) {numIter : Int} {w : WalkData K} {s' : PState K}
    {figs : List (IterFig K)} (hr : steadyPlots A F P ω s numIter true = .ok (w, s', figs) ∨ timePlots A F P ω s numIter = .ok (w, s', figs)) :
    animationFiles 0 numIter = figs.map fun f => pictureName f.number := by
  have key : figs.length = numIter.toNat ∧ ∀ (i : Nat) fig, figs[i]? = some fig → fig.number = i := by
    rcases hr with hr | hr
    · obtain ⟨-, -, -, hl, hf⟩ := C73_steady hOb h hω hr
      refine ⟨hl, fun i fig hi => ?_⟩
      obtain ⟨_, _, _, hfig⟩ := hf i fig hi
      exact hfig.number
    · obtain ⟨-, -, -, hl, hf⟩ := C73_time hOb h hω hr
      refine ⟨hl, fun i fig hi => ?_⟩
      obtain ⟨_, _, _, hfig⟩ := hf i fig hi
      exact hfig.number
  refine List.ext_getElem? fun i => ?_
  unfold animationFiles pictureName
  rw [List.getElem?_map, List.getElem?_map]
  rcases Nat.lt_or_ge i figs.length with hi | hi
  · rw [List.getElem?_range (by omega), List.getElem?_eq_getElem hi]
    simp [key.2 i _ (List.getElem?_eq_getElem hi)]
  · rw [List.getElem?_eq_none hi, List.getElem?_eq_none (by simp; omega)]
    rfl

/-- Counterexample: asked for the pictures 0 to 2 it shows 0 and 1; asked for the single picture 3 it shows none. -/
theorem C74_counterexample : animationFiles 0 2 = [pictureName 0, pictureName 1] ∧ pictureName 2 ∉ animationFiles 0 2 ∧ animationFiles 3 3 = [] := by
  decide +kernel

/-! ## Concrete cases -/

set_option synthInstance.maxSize 1024 in
/-- C73: two particles, two iterations. -/
example : ((demo chan (fun _ => 1 / 2) 2 [2, 1] [2, 1] []).toOption.bind fun s =>
    (steadyPlots Arith.exact Fun.toy (objOf chan) (fun _ => 1 / 2) s 2 true).toOption.map fun r => r.2.2) =
    some [⟨0, [(2, 2), (1, 1)], [(2, 3), (1, 1)], []⟩, ⟨1, [(2, 2), (1, 1)], [(2, 3), (1, 1)], []⟩] := by decide +kernel

set_option synthInstance.maxSize 1024 in
/-- C73, unsteady: two steps. -/
example : (unsteadyPlots Arith.exact Fun.toy (fun _ => (1 / 2 : ℚ)) 0 10 (.int 2) (.list [.int 4, .int 2]) (.list [.int 2, .int 3]) 2 10
    flowDir "csv").toOption.map (fun r => r.2.2.map fun f => (f.number, f.time, f.depth.at' 0 0, f.start, f.pts)) =
    some [(0, .fin 10, .fin 1, [(2, 4), (2, 4)], [(2, 3), (2, 3)]), (1, .fin 20, .fin 2, [(2, 4), (2, 4)], [(3, 3), (3, 3)])] := by decide +kernel

end Dorado
