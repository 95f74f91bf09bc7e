import Verif.Props.Safety
import Verif.Props.History
import Verif.Props.Time
import Verif.Props.Coords
import Verif.Props.Nourish

/-! # Routing followed by post-processing: C67 -/

set_option linter.unusedSectionVars false

namespace Dorado

variable {K : Type} [Field K] [LinearOrder K] [IsStrictOrderedRing K] [FloorRing K] {A : Arith K} {F : Fun K A}

/-- Histories with weaker conditions on the seeds. -/
theorem Reach.monoSd {Ob : PObj K → Prop} {Ω : (Nat → K) → Prop} {Sd Sd' : PObj K → List Int → List Int → Fl K → Prop} {P : PObj K}
    {s : PState K} (h : Reach A F Ob Ω Sd P s) (hS : ∀ P x y t, Sd P x y t → Sd' P x y t) : Reach A F Ob Ω Sd' P s := by
  induction h with
  | new pos hP => exact .new pos hP
  | generate _ hω hc hn hs hg ih => exact .generate ih hω hc hn (hS _ _ _ _ hs) hg
  | «continue» _ _ hprev hvars hω hc hn hs hg ih ih0 => exact .continue ih ih0 hprev hvars hω hc hn (hS _ _ _ _ hs) hg
  | run _ hω hr ih => exact .run ih hω hr
  | failed _ hω hr ih => exact .failed ih hω hr
  | clear _ ih => exact .clear ih
  | reseed pos _ ih => exact .reseed pos ih

/-- Objects of the routing-then-post-processing pipeline: as in C17, with the conditions of C18 on times. -/
structure Routed (A : Arith K) (F : Fun K A) (R C : Nat) (P : PObj K) : Prop where
  enclosed : Enclosed A F R C P
  diff : P.diffCoeff ≤ 2
  dx : 0 ≤ P.dx

/-- Seeds at interior cells with a finite seed time. -/
def GoodSeeds (A : Arith K) (R C : Nat) : PObj K → List Int → List Int → Fl K → Prop :=
  fun P xs ys t => InsideSeeds R C P xs ys t ∧ FinSeed A P xs ys t

/-- Walk data of every reachable state has the form the post-processing functions need. -/
theorem C67_valid (hh : A.rnd (-(1 / 2)) = -(1 / 2)) (h1 : A.rnd (-1) = -1) {R C : Nat} {P : PObj K} {s : PState K}
    (h : Reach A F (Routed A F R C) Draws (GoodSeeds A R C) P s) {wd : WalkData K} (hwd : s.walk = some wd) :
    Proper wd ∧ OnRaster R C wd ∧ TimesMono wd ∧ wd.count = s.np := by
  have hB : Reach A F (Built A F) Draws (GoodSeeds A R C) P s := h.mono fun P hP => hP.enclosed.built
  have hE : Reach A F (Enclosed A F R C) Draws (InsideSeeds R C) P s := (h.mono fun P hP => hP.enclosed).monoSd fun _ _ _ _ hS => hS.1
  have hT : Reach A F (fun P => Built A F P ∧ P.diffCoeff ≤ 2 ∧ 0 ≤ P.dx) Draws (FinSeed A) P s :=
    (h.mono fun P hP => ⟨hP.enclosed.built, hP.diff, hP.dx⟩).monoSd fun _ _ _ _ hS => hS.2
  obtain ⟨a1, a2, a3, -, a5⟩ := C15_aligned hB hwd
  obtain ⟨t1, t2⟩ := C18_monotone hh h1 hT hwd
  refine ⟨⟨by omega, by omega, fun i xs ys ts hx hy ht => ?_, t1⟩, fun i n p hp => ?_, fun i n hn => ?_, a1⟩
  · have hi : i < s.np := by
      rw [← a1]
      exact (List.getElem?_eq_some_iff.1 hx).1
    obtain ⟨xs', ys', ts', hl, hne, l1, l2, -⟩ := a5 i hi
    simp only [WalkData.lists, hx, hy, ht, Option.bind_eq_bind, Option.bind_some, Option.pure_def, Option.some.injEq,
      Prod.mk.injEq] at hl
    obtain ⟨rfl, rfl, rfl⟩ := hl
    exact ⟨l2.symm, by omega, by rw [l2]; exact List.length_pos_iff.2 hne⟩
  · obtain ⟨b1, b2, b3, b4⟩ := C17_inside hE hwd hp
    omega
  · obtain ⟨x, y, hx, hy⟩ : ∃ x y, wd.timeAt i n = some (.fin x) ∧ wd.timeAt i (n + 1) = some (.fin y) := by
      unfold WalkData.records at hn
      cases ht : wd.times[i]? with
      | none => rw [ht] at hn; simp at hn
      | some ts =>
        rw [ht] at hn
        simp only [Option.map_some, Option.getD_some] at hn
        have e1 : wd.timeAt i n = some ts[n] := by simp [WalkData.timeAt, ht, show n < ts.length by omega]
        have e2 : wd.timeAt i (n + 1) = some ts[n + 1] := by simp [WalkData.timeAt, ht, hn]
        obtain ⟨x, hx⟩ := t1 i n _ e1
        obtain ⟨y, hy⟩ := t1 i (n + 1) _ e2
        exact ⟨x, y, by rw [e1, hx], by rw [e2, hy]⟩
    have := t2 i n (n + 1) x y (by omega) hx hy
    simp only [WalkData.tau, hx, hy]
    exact this

/-- C67: any rounding, any history of API calls: `exposure_time`, `nourishment_area` and `nourishment_time` accept the walk data, with one
non-negative exposure time per particle and maps of the right shape and range. -/
theorem C67_pipeline (hh : A.rnd (-(1 / 2)) = -(1 / 2)) (h1 : A.rnd (-1) = -1) {R C : Nat} (hR : 0 < R) (hC : 0 < C) {P : PObj K}
    {s : PState K} (h : Reach A F (Routed A F R C) Draws (GoodSeeds A R C) P s) {wd : WalkData K} (hwd : s.walk = some wd) :
    (∀ g : Grid Int, g.rows = R → g.cols = C → Binary g → ∃ res, exposureTime A wd g = .ok res ∧ res.times.length = s.np ∧
      ∀ i, i < s.np → ∃ e, res.times[i]? = some (.fin e) ∧ 0 ≤ e) ∧
    (∀ smooth clip, 0 ≤ clip → clip ≤ 100 → SmoothOK smooth → ∃ g, nourishmentArea A wd (R, C) smooth clip = .ok g ∧ UnitMap R C g) ∧
    (∀ smooth clip, 0 ≤ clip → clip ≤ 100 → SmoothOK smooth → ∃ g, nourishmentTime A wd (R, C) smooth clip = .ok g ∧
      g.rows = R ∧ g.cols = C ∧ ∀ i j, i < R → j < C → g.at' i j = .nan ∨ ∃ x, g.at' i j = .fin x ∧ 0 < x) := by
  obtain ⟨hp, ho, hm, hn⟩ := C67_valid hh h1 h hwd
  refine ⟨fun g hr hc hb => ?_, fun smooth clip c0 c1 hs => ?_, fun smooth clip c0 c1 hs => C46_nonneg hp ho hm hR hC c0 c1 hs⟩
  · obtain ⟨r1, r2, e1, e2, l1, -, ht⟩ := C40_monotone (A := A) (g := g) (h := g) hp (by rw [hr, hc]; exact ho) hm hb hb
      ⟨rfl, rfl, fun _ _ _ _ h => h⟩
    rw [← hn]
    refine ⟨r1, e1, l1, fun i hi => ?_⟩
    obtain ⟨x, y, hx, -, x0, -⟩ := ht i hi
    exact ⟨x, hx, x0⟩
  · obtain ⟨g, e, hu, -⟩ := C44_range_partial (A := A) hp ho hR hC c0 c1 hs
    exact ⟨g, e, hu⟩

/-- C67: in exact arithmetic every exposure time is at most the particle's travel time and the coordinates attached by `ind2coord` map back to
the recorded indices. -/
theorem C67_exact {F : Fun K Arith.exact} {R C : Nat} {P : PObj K} {s : PState K}
    (h : Reach Arith.exact F (Routed Arith.exact F R C) Draws (GoodSeeds Arith.exact R C) P s) {wd : WalkData K} (hwd : s.walk = some wd) :
    (∀ g : Grid Int, g.rows = R → g.cols = C → Binary g → ∃ res, exposureTime Arith.exact wd g = .ok res ∧
      ∀ i, i < s.np → ∃ e, res.times[i]? = some (.fin e) ∧ 0 ≤ e ∧ e ≤ wd.duration i) ∧
    ∀ x0 y0 cs : K, 0 < cs → RoundTrip Arith.exact wd (.fin x0, .fin y0) ((R : Int), (C : Int)) (.fin cs) := by
  obtain ⟨hp, ho, hm, hn⟩ := C67_valid rfl rfl h hwd
  refine ⟨fun g hr hc hb => ?_, fun x0 y0 cs hcs => C37_exact ⟨hp.cols.symm, fun i xs ys hx hy => ?_⟩ hcs⟩
  · obtain ⟨res, e, -, ht⟩ := C40_bounds hp (by rw [hr, hc]; exact ho) hb hm
    exact ⟨res, e, fun i hi => ht i (by omega)⟩
  · obtain ⟨ts, ht⟩ : ∃ ts, wd.times[i]? = some ts := by
      have := (List.getElem?_eq_some_iff.1 hx).1
      exact ⟨_, List.getElem?_eq_getElem (by rw [hp.times]; exact this)⟩
    have := hp.same i xs ys ts hx hy ht
    omega

/-! ## Concrete cases -/

theorem chanVars_routed : Routed Arith.exact Fun.toy 5 5 (objOf chanVars) := ⟨chanVars_enclosed, by decide +kernel, by decide +kernel⟩

/-- A region covering the rows from 3 on. -/
def lowerRegion : Grid Int := ⟨5, 5, fun i _ => if 3 ≤ i then 1 else 0⟩

/-- A run meeting the hypotheses, its exposure times and its visit map. -/
example : ∃ s wd, Reach Arith.exact Fun.toy (Routed Arith.exact Fun.toy 5 5) Draws (GoodSeeds Arith.exact 5 5) (objOf chanVars) s ∧
    s.walk = some wd ∧ (wd.xinds, wd.yinds) = ([[2, 3], [1]], [[2, 2], [1]]) ∧ wd.duration 0 ≠ 0 ∧
    (exposureTime Arith.exact wd lowerRegion).toOption.map (·.times) = some [.fin (wd.duration 0 / 2), .fin 0] := by
  obtain ⟨s, wd, hr, hw, hf, -⟩ := demo_walk (p := chanVars) (ω := fun _ => 1 / 2) (n := 2) (xs := [2, 1]) (ys := [2, 1])
    (runs := [(none, 1), (some (.fin 30), 5), (none, 1)]) (Ob := Routed Arith.exact Fun.toy 5 5) (Ω := Draws) (Sd := GoodSeeds Arith.exact 5 5)
    chanVars_routed half_draws.1
    ⟨fun x hx y hy => by simp at hx hy; rcases hx with rfl | rfl <;> rcases hy with rfl | rfl <;> (unfold Inside; decide), ⟨0, rfl, rfl⟩⟩
    (f := fun wd => (wd.xinds, wd.yinds, decide (wd.duration 0 ≠ 0),
      decide ((exposureTime Arith.exact wd lowerRegion).toOption.map (·.times) = some [.fin (wd.duration 0 / 2), .fin 0])))
    (b := ([[2, 3], [1]], [[2, 2], [1]], true, true)) (by decide +kernel)
  simp only [Prod.mk.injEq, decide_eq_true_eq] at hf
  exact ⟨s, wd, hr, hw, by rw [hf.1, hf.2.1], hf.2.2.1, hf.2.2.2⟩

end Dorado
