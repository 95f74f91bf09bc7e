import Verif.Props.PercentileMaps
import Verif.Props.SpatialRun

/-!
# From routed particles to the exposure maps (C59 on reachable states)
-/

set_option linter.unusedSectionVars false

namespace Dorado

variable {K : Type} [Field K] [LinearOrder K] [IsStrictOrderedRing K] [FloorRing K]

/-- A density estimator: it accepts every list with at least five different times, and its density is finite, not negative, and positive at the times. -/
def GoodEstimator (kde : List (Fl K) → Except PyErr (Fl K → Fl K)) : Prop :=
  ∀ l, 5 ≤ l.dedup.length → ∃ dens, kde l = .ok dens ∧ DensityFor Arith.exact l dens

theorem entries_fin {l m : List (Fl K)} (h : List.Forall₂ (fun x y => ∃ a b, x = .fin a ∧ y = .fin b ∧ 0 ≤ a ∧ a ≤ b) l m) :
    FloatTimes (Arith.exact (K := K)) l ∧ FloatTimes (Arith.exact (K := K)) m := by
  induction h with
  | nil => exact ⟨fun t ht => absurd ht (by simp), fun t ht => absurd ht (by simp)⟩
  | @cons x y l m hxy _ ih =>
    obtain ⟨a, b, rfl, rfl, -⟩ := hxy
    refine ⟨fun t ht => ?_, fun t ht => ?_⟩
    · rcases List.mem_cons.1 ht with rfl | h
      · exact ⟨_, rfl, rfl⟩
      · exact ih.1 t h
    · rcases List.mem_cons.1 ht with rfl | h
      · exact ⟨_, rfl, rfl⟩
      · exact ih.2 t h

theorem good_of_fin {kde : List (Fl K) → Except PyErr (Fl K → Fl K)} (hk : GoodEstimator kde) {data : List (Option (List (Fl K)))}
    (h : ∀ l, some l ∈ data → FloatTimes (Arith.exact (K := K)) l) : GoodData Arith.exact kde data :=
  fun l hl => ⟨h l hl, fun hm => hk _ ((many_iff (h l hl)).1 hm)⟩

theorem forall2_good {loc sys : List (Option (List (Fl K)))} (h : List.Forall₂ EntryLe loc sys) :
    (∀ l, some l ∈ loc → FloatTimes (Arith.exact (K := K)) l) ∧ ∀ l, some l ∈ sys → FloatTimes (Arith.exact (K := K)) l := by
  induction h with
  | nil => exact ⟨fun l hl => absurd hl (by simp), fun l hl => absurd hl (by simp)⟩
  | @cons x y loc sys hxy _ ih =>
    refine ⟨fun l hl => ?_, fun l hl => ?_⟩
    · rcases List.mem_cons.1 hl with rfl | hl
      · cases y with
        | none => exact hxy.elim
        | some m => exact (entries_fin hxy).1
      · exact ih.1 l hl
    · rcases List.mem_cons.1 hl with rfl | hl
      · cases x with
        | none => exact hxy.elim
        | some m => exact (entries_fin hxy).2
      · exact ih.2 l hl

/-- C59 along every history of calls (exact arithmetic): the lists returned by `systemwide` and `localized` for the walk data of the object are accepted by
`compute_thresholds` with the same raster and resolution. With a window of one cell the three maps hold the ordered percentiles of their chunks. -/
theorem C59_reachable {F : Fun K Arith.exact} {P : PObj K} {s : PState K} {ct : Grid Int}
    (h : Reach Arith.exact F (Routed Arith.exact F ct.rows ct.cols) Draws (GoodSeeds Arith.exact ct.rows ct.cols) P s) {wd : WalkData K} (hwd : s.walk = some wd)
    {res : Nat} (hres : 0 < res) {kde : List (Fl K) → Except PyErr (Fl K → Fl K)} (hk : GoodEstimator kde) {td : K} (htd : 0 < td) {th : Fl K} :
    ∃ loc sys, localized Arith.exact wd (ct.rows, ct.cols) ct res = .ok loc ∧ systemwide Arith.exact wd (ct.rows, ct.cols) ct res = .ok sys ∧
      ∀ data, data = loc ∨ data = sys → ∃ m50 m75 m90 : Grid (Fl K),
        computeThresholds Arith.exact kde data (ct.rows, ct.cols) td res 1 th = .ok (m50, m75, m90) ∧
        ∀ r c, r < ct.rows / res → c < ct.cols / res → ∃ item, data[r * (ct.cols / res) + c]? = some item ∧
          ChunkValues Arith.exact td item (m50.at' r c) (m75.at' r c) (m90.at' r c) := by
  obtain ⟨loc, sys, h1, h2, l1, l2, h3⟩ := C58_reachable rfl rfl h hwd hres
  refine ⟨loc, sys, h1, h2, fun data hdata => ?_⟩
  obtain ⟨g1, g2⟩ := forall2_good h3
  have hg : GoodData Arith.exact kde data := by
    rcases hdata with rfl | rfl
    · exact good_of_fin hk g1
    · exact good_of_fin hk g2
  have hl : data.length = ct.rows / res * (ct.cols / res) := by
    rcases hdata with rfl | rfl
    · exact l1
    · exact l2
  exact C59_unfiltered (A := Arith.exact) hg hres hl htd (Or.inr rfl) (ε := 0) (by norm_num) (fun x => by simp [Arith.exact])

theorem flatKde_good : GoodEstimator flatKde :=
  fun _ _ => ⟨_, rfl, fun _ => ⟨1, rfl, by norm_num, rfl⟩, fun _ _ d hd => by cases hd; norm_num⟩

/-- A run meeting the hypotheses (two particles, so that every chunk has too few times). -/
example : ∃ s wd, Reach Arith.exact Fun.toy (Routed Arith.exact Fun.toy lowerRegion.rows lowerRegion.cols) Draws (GoodSeeds Arith.exact lowerRegion.rows lowerRegion.cols)
      (objOf chanVars) s ∧ s.walk = some wd ∧ ∃ sys m50 m75 m90, systemwide Arith.exact wd (5, 5) lowerRegion 2 = .ok sys ∧
    computeThresholds Arith.exact flatKde sys (5, 5) 2 2 1 (.fin 3) = .ok (m50, m75, m90) := by
  obtain ⟨s, wd, hr, hw, -, -⟩ := demo_walk (p := chanVars) (ω := fun _ => 1 / 2) (n := 2) (xs := [2, 1]) (ys := [2, 1])
    (runs := [(none, 1), (some (.fin 30), 5), (none, 1)]) (Ob := Routed Arith.exact Fun.toy 5 5) (Ω := Draws) (Sd := GoodSeeds Arith.exact 5 5)
    chanVars_routed half_draws.1
    ⟨fun x hx y hy => by simp at hx hy; rcases hx with rfl | rfl <;> rcases hy with rfl | rfl <;> (unfold Inside; decide), ⟨0, rfl, rfl⟩⟩
    (f := fun wd => decide (wd.duration 0 ≠ 0)) (b := true) (by decide +kernel)
  obtain ⟨loc, sys, -, h2, h3⟩ := C59_reachable (F := Fun.toy) (ct := lowerRegion) hr hw (res := 2) (by norm_num) flatKde_good (td := 2) (by norm_num) (th := .fin 3)
  obtain ⟨m50, m75, m90, h4, -⟩ := h3 sys (Or.inr rfl)
  exact ⟨s, wd, hr, hw, sys, m50, m75, m90, h2, h4⟩

end Dorado
