import Verif.Spec.Final
import Verif.Props.Arrival

/-! # Exposure times become final: C117 -/

set_option linter.unusedSectionVars false

namespace Dorado

open MeasureTheory Finset

theorem cellMark_range (g : Grid Int) (y : Int × Int) : 0 ≤ cellMark g y ∧ cellMark g y ≤ 1 := by
  unfold cellMark
  split_ifs <;> norm_num

section
variable {F : Fun ℝ Arith.exact} {R C : Nat} {P : PObj ℝ} {s : PState ℝ} {N : Nat} {xs ys : List Int} {t : ℝ} {g : Grid Int}

/-- Exposure times after any number of calls, for one random stream. -/
theorem exposure_series (h : Reach Arith.exact F (Enclosed Arith.exact F R C) Draws (InsideSeeds R C) P s) (hw : s.walk = none)
    (ha : ∀ k, k < 9 → k ≠ 4 → ∃ a, P.angles k = .fin a) (hv : ∀ var, OptVar P var → Trackable P var) (hx : xs ≠ []) (hy : ys ≠ [])
    (hxy : ∀ x ∈ xs, ∀ y ∈ ys, Inside R C (x, y)) (hb : Binary g) (hgr : g.rows = R) (hgc : g.cols = C) {ω : Nat → ℝ} (hω : Draws ω) :
    ∃ (p : Fin N → Int × Int) (s1 : PState ℝ) (wd : WalkData ℝ) (τ : Nat → Nat → ℝ) (m : Nat → Nat → ℝ), Seeds ω s.world.pos xs ys p ∧
      Seeded F R C P s N xs ys t p s1 wd ∧ (∀ j i, i < N → TimeAfter Arith.exact F P ω s1 j i (τ j i)) ∧ (∀ j i, 0 ≤ m j i ∧ m j i ≤ 1) ∧
      ∀ n, SeededExposure F P ω s N xs ys t n g fun i => ∑ j ∈ range n, (τ (j + 1) i - τ j i) * m j i := by
  obtain ⟨p, hp, s1, wd, hS⟩ := seeded_exists (N := N) (t := t) h hw hv hx hy hxy hω
  have hN : wd.count = N := hS.len
  have hT := fun (j i : Nat) (hi : i < wd.count) => time_exists hS.reach ha hS.walk (t0 := fun _ => t)
    (fun i hi => (hS.last ⟨i, by rw [← hN]; exact hi⟩).2) hω j hi
  choose! τ hτ using hT
  have hst := fun j => follows_some hS.reach hS.walk hω j
  choose st w wds hruns hwk hlen hre using hst
  have hps : ∀ j i, i < wd.count → ∃ q, (wds j).lastPos i = some q := fun j i hi => by
    obtain ⟨q, hq, -⟩ := last_inside (hre j) (hwk j) (i := i) (by rw [hlen]; exact hi)
    exact ⟨q, hq⟩
  choose! pos hpos using hps
  have hfin : ∀ i n t, wd.timeAt i n = some t → ∃ x, t = .fin x := by
    intro i n u hu
    unfold WalkData.timeAt at hu
    simp only [Option.bind_eq_bind, Option.bind_eq_some_iff] at hu
    obtain ⟨ts, h1, h2⟩ := hu
    obtain ⟨a1, -, a3, -⟩ := C15_aligned (hS.reach.mono fun P hP => hP.built) hS.walk
    have hi : i < N := by
      have := (List.getElem?_eq_some_iff.1 h1).1
      unfold WalkData.count at hN
      omega
    rw [(lists_parts (hS.lists ⟨i, hi⟩)).2.2, Option.some.injEq] at h1
    subst h1
    have := List.mem_of_getElem? h2
    simp only [List.mem_singleton] at this
    exact ⟨t, this⟩
  refine ⟨p, s1, wd, τ, fun j i => (cellMark g (pos j i) + cellMark g (pos (j + 1) i)) / 2, hp, hS, fun j i hi => hτ j i (by omega), fun j i => ?_,
    fun n => ?_⟩
  · have e1 := cellMark_range g (pos j i)
    have e2 := cellMark_range g (pos (j + 1) i)
    constructor <;> linarith
  obtain ⟨s2, w2, wd2, r2, e2, hprop, hcount, hon, hexp⟩ := exposure_runs hS.reach hS.walk hfin hω
    (fun j i hi => ⟨_, _, _, hruns j, hwk j, hpos j i hi⟩) hτ g n
  obtain ⟨res, hres, htimes⟩ := C42_formula hprop (by rw [hgr, hgc]; exact hon) hb
  refine ⟨s1, s2, w2, wd2, res, hS.gen ω hp, r2, e2, hres, ?_⟩
  rw [htimes]
  refine List.ext_getElem (by simp [hcount, hN]) fun i h1 h2 => ?_
  simp only [List.length_map, List.length_range] at h1
  have hi : i < wd.count := by omega
  simp only [List.getElem_map, List.getElem_range, List.getElem_ofFn, Fl.fin.injEq]
  have hi' : i < N := by omega
  have e0 : wd.exposure g i = 0 := by
    have : wd.records i = 1 := by simp [WalkData.records, (lists_parts (hS.lists ⟨i, hi'⟩)).2.2]
    unfold WalkData.exposure
    rw [this]
    simp
  rw [hexp i hi, e0, zero_add]

/-- Once next to an edge, always next to an edge. -/
theorem ArrivedBy.mono {ω : Nat → ℝ} {n m i : Nat} (hA : ArrivedBy F P ω s n i)
    (h : Reach Arith.exact F (Enclosed Arith.exact F R C) Draws (InsideSeeds R C) P s) {wd : WalkData ℝ} (hwd : s.walk = some wd) (hω : Draws ω)
    (hi : i < wd.xinds.length) (hnm : n ≤ m) : ArrivedBy F P ω s m i := by
  obtain ⟨s1, w1, wd1, r1, e1, n1, hre⟩ := follows_some h hwd hω n
  obtain ⟨s2, w2, wd2, r2, e2, -⟩ := follows_some h hwd hω m
  obtain ⟨wd3, wd4, e3, e4, hl, -⟩ := arrived_frozen h hwd hω hi hnm hA r1 r2
  obtain ⟨s5, w5, wd5, q, r5, e5, l5, hq⟩ := hA
  obtain ⟨rfl, -⟩ := r1.unique r5
  rw [e5] at e3 e1
  cases e3
  cases e1
  exact ⟨s2, w2, wd4, q, r2, e4, (lastPos_lists hre e5 (by omega) hl).trans l5, hq⟩

/-- The state after seeding is the one of `Seeded`. -/
theorem SeededArrived.iff {ω : Nat → ℝ} {p : Fin N → Int × Int} (hp : Seeds ω s.world.pos xs ys p) {s1 : PState ℝ} {wd : WalkData ℝ}
    (hS : Seeded F R C P s N xs ys t p s1 wd) {n i : Nat} : SeededArrived F P ω s N xs ys t n i ↔ ArrivedBy F P ω s1 n i := by
  constructor
  · rintro ⟨s2, g, hA⟩
    rw [hS.gen ω hp] at g
    cases g
    exact hA
  · exact fun hA => ⟨s1, hS.gen ω hp, hA⟩

/-- A particle next to an edge has its final exposure time, and one call adds a bounded amount. -/
theorem exposure_change (h : Reach Arith.exact F (Enclosed Arith.exact F R C) Draws (InsideSeeds R C) P s) (hw : s.walk = none)
    (ha : ∀ k, k < 9 → k ≠ 4 → ∃ a, P.angles k = .fin a) (hv : ∀ var, OptVar P var → Trackable P var) (hx : xs ≠ []) (hy : ys ≠ [])
    (hxy : ∀ x ∈ xs, ∀ y ∈ ys, Inside R C (x, y)) (hb : Binary g) (hgr : g.rows = R) (hgc : g.cols = C)
    {b : ℝ} (hdur : ∀ p q, Inside R C p → Inside R C q → |freeDur F P p q| ≤ b) {ω : Nat → ℝ} (hω : Draws ω) {E : Nat → Fin N → ℝ}
    (hE : ∀ n, SeededExposure F P ω s N xs ys t n g (E n)) (i : Fin N) :
    (∀ n m, n ≤ m → SeededArrived F P ω s N xs ys t n i → E m i = E n i) ∧ (∀ n, |E (n + 1) i - E n i| ≤ b * (1 + |P.diffCoeff| / 2)) ∧ E 0 i = 0 := by
  obtain ⟨p, s1, wd, τ, m, hp, hS, hτ, hm, hs⟩ := exposure_series (N := N) (t := t) h hw ha hv hx hy hxy hb hgr hgc hω
  have e : ∀ n, E n i = ∑ j ∈ range n, (τ (j + 1) i - τ j i) * m j i := fun n => congrFun ((hE n).unique (hs n)) i
  have hi : (i : Nat) < wd.xinds.length := by rw [hS.len]; exact i.2
  refine ⟨fun n k hnk hA => ?_, fun n => ?_, by rw [e]; simp⟩
  · have hA := (SeededArrived.iff hp hS).1 hA
    obtain ⟨d, rfl⟩ := Nat.exists_eq_add_of_le hnk
    rw [e, e, sum_range_add]
    refine add_eq_left.2 (sum_eq_zero fun j _ => ?_)
    rw [time_frozen hS.reach hS.walk hω hi (by omega : n ≤ n + j + 1) hA (hτ n i i.2) (hτ _ i i.2),
      time_frozen hS.reach hS.walk hω hi (by omega : n ≤ n + j) hA (hτ n i i.2) (hτ _ i i.2)]
    simp
  · rw [e, e, sum_range_succ, add_sub_cancel_left, abs_mul]
    have h1 := step_bound hS.reach ha hS.walk (fun i hi => ⟨t, (hS.last ⟨i, by rw [← hS.len]; exact hi⟩).2⟩) hdur hω hi (hτ n i i.2) (hτ (n + 1) i i.2)
    refine (mul_le_of_le_one_right (abs_nonneg _) ?_).trans h1
    rw [abs_of_nonneg (hm n i).1]
    exact (hm n i).2

/-- Probability that a randomly seeded particle is not next to an edge after `n` calls. -/
theorem seeded_law (h : Reach Arith.exact F (Enclosed Arith.exact F R C) Draws (InsideSeeds R C) P s) (hw : s.walk = none)
    (ha : ∀ k, k < 9 → k ≠ 4 → ∃ a, P.angles k = .fin a) (hv : ∀ var, OptVar P var → Trackable P var) (hx : xs ≠ []) (hy : ys ≠ [])
    (hxy : ∀ x ∈ xs, ∀ y ∈ ys, Inside R C (x, y)) (n : Nat) (i : Fin N) :
    NullMeasurableSet {ω | ¬ SeededArrived F P ω s N xs ys t n i} uniformDraws ∧
      uniformDraws {ω | ¬ SeededArrived F P ω s N xs ys t n i} = ∑' p, seedProb xs ys p * stay (moveProb (flowOf F P) P) (AtEdge P) n p := by
  classical
  obtain ⟨X, hX⟩ : ∃ X : Fin N → (Nat → ℝ) → (Int × Int) × Course n, ∀ ω, Draws ω → ∀ i : Fin N, HasSeeded F P ω s N xs ys t n i (X i ω) := by
    have ex := fun (ω : Nat → ℝ) (hω : Draws ω) (i : Fin N) => seeded_course (t := t) h hw ha hv hx hy hxy hω n i
    exact ⟨fun i ω => if hω : Draws ω then (ex ω hω i).choose else ((0, 0), fun _ => ((0, 0), 0)), fun ω hω i => by
      simp only [dif_pos hω]
      exact (ex ω hω i).choose_spec⟩
  have hm := seeded_measurable h hw ha hv hx hy hxy hX i
  have hlaw := (C105_independent h hw ha hv hx hy hxy hX).2 i
  have hS : MeasurableSet {c : (Int × Int) × Course n | ¬ AtEdge P (endCell c.1 c.2)} :=
    (by fun_prop : Measurable fun c : (Int × Int) × Course n => (c.1, fun j => (c.2 j).1))
      (Set.to_countable {q : (Int × Int) × (Fin n → Int × Int) | ¬ AtEdge P (Fin.cons (α := fun _ => Int × Int) q.1 q.2 (Fin.last n))}).measurableSet
  have hae : {ω | ¬ SeededArrived F P ω s N xs ys t n i} =ᵐ[uniformDraws] X i ⁻¹' {c | ¬ AtEdge P (endCell c.1 c.2)} := by
    rw [Filter.eventuallyEq_set]
    filter_upwards [uniformDraws_nonzero] with ω hω
    obtain ⟨p, hp, s1, wd, hS1⟩ := seeded_exists (N := N) (t := t) h hw hv hx hy hxy hω.1
    obtain ⟨h1, h2⟩ := (hX ω hω.1 i).course hp hS1
    refine not_congr ((SeededArrived.iff hp hS1).trans ?_)
    have := arrived_iff hS1.walk h2 (hS1.last i).1
    rw [← h1] at this
    exact this
  refine ⟨(hm.nullMeasurableSet_preimage hS).congr hae.symm, ?_⟩
  rw [measure_congr hae, ← Measure.map_apply_of_aemeasurable hm hS, hlaw]
  unfold seededLaw
  rw [Measure.sum_apply _ hS]
  refine tsum_congr fun p => ?_
  rw [Measure.smul_apply, Measure.map_apply (by fun_prop) hS, smul_eq_mul, ← courseLaw_end]
  rfl

/-- The probability of not having arrived decreases geometrically. -/
theorem seeded_rate (hP : Enclosed Arith.exact F R C P) (ha : ∀ k, k < 9 → k ≠ 4 → ∃ a, P.angles k = .fin a)
    (hv : ∀ var, OptVar P var → Trackable P var) :
    ∃ (L : Nat) (ρ : NNReal), 0 < L ∧ ρ < 1 ∧ ∀ s N xs ys t, Reach Arith.exact F (Enclosed Arith.exact F R C) Draws (InsideSeeds R C) P s → s.walk = none →
      xs ≠ [] → ys ≠ [] → (∀ x ∈ xs, ∀ y ∈ ys, Inside R C (x, y) ∧ Escapes (flowOf F P) P (x, y)) → ∀ n (i : Fin N),
        uniformDraws {ω | ¬ SeededArrived F P ω s N xs ys t n i} ≤ ENNReal.ofNNReal ρ ^ (n / L) := by
  obtain ⟨L, ρ, hL, hρ, hb⟩ := (chain_free hP).rate ((inside_finite R C).subset fun p hp => hp.1) fun p hp => by
    obtain ⟨e, h1, h2⟩ := hp.2 p .refl
    exact Gets.of_path h1 h2
  refine ⟨L, ρ, hL, hρ, fun s N xs ys t h hw hx hy hxy n i => ?_⟩
  rw [(seeded_law h hw ha hv hx hy (fun x hx y hy => (hxy x hx y hy).1) n i).2]
  calc ∑' p, seedProb xs ys p * stay (moveProb (flowOf F P) P) (AtEdge P) n p ≤ ∑' p, seedProb xs ys p * ENNReal.ofNNReal ρ ^ (n / L) := by
        refine ENNReal.tsum_le_tsum fun p => ?_
        by_cases hp : seedProb xs ys p = 0
        · rw [hp, zero_mul, zero_mul]
        · exact mul_le_mul_right (hb n p (hxy _ (seedProb_mem hp).1 _ (seedProb_mem hp).2)) _
    _ = _ := by rw [ENNReal.tsum_mul_right, seedProb_sum hx hy, one_mul]

/-- Exposure times settle as soon as all particles are next to an edge. -/
theorem settled_of_arrived (h : Reach Arith.exact F (Enclosed Arith.exact F R C) Draws (InsideSeeds R C) P s) (hw : s.walk = none)
    (ha : ∀ k, k < 9 → k ≠ 4 → ∃ a, P.angles k = .fin a) (hv : ∀ var, OptVar P var → Trackable P var) (hx : xs ≠ []) (hy : ys ≠ [])
    (hxy : ∀ x ∈ xs, ∀ y ∈ ys, Inside R C (x, y)) (hb : Binary g) (hgr : g.rows = R) (hgc : g.cols = C) {ω : Nat → ℝ} (hω : Draws ω) {n : Nat}
    (hA : ∀ i : Fin N, SeededArrived F P ω s N xs ys t n i) : ∃ E, SettledExposure F P ω s N xs ys t n g E := by
  obtain ⟨b, hdur⟩ := freeDur_bound F P R C
  choose E hE using fun n => C106_accepts h hw ha hv hx hy hxy hb hgr hgc hω N n t
  refine ⟨E n, fun m hm => ?_⟩
  have : E m = E n := funext fun i => (exposure_change h hw ha hv hx hy hxy hb hgr hgc hdur hω hE i).1 n m hm (hA i)
  rw [← this]
  exact hE m

theorem SettledExposure.unique {ω : Nat → ℝ} {n n' : Nat} {E E' : Fin N → ℝ} (h : SettledExposure F P ω s N xs ys t n g E)
    (h' : SettledExposure F P ω s N xs ys t n' g E') : E = E' :=
  (h (max n n') (le_max_left _ _)).unique (h' (max n n') (le_max_right _ _))

/-- C117: there are a number of iterations `L` and a factor `ρ < 1`, depending only on the object, such that after `n` calls the exposure times are final, for
every region, except with probability `N ρ^⌊n/L⌋`, if the particles are seeded where every cell they may come to has a way out. -/
theorem C117_rate (hP : Enclosed Arith.exact F R C P) (ha : ∀ k, k < 9 → k ≠ 4 → ∃ a, P.angles k = .fin a)
    (hv : ∀ var, OptVar P var → Trackable P var) :
    ∃ (L : Nat) (ρ : NNReal), 0 < L ∧ ρ < 1 ∧ ∀ s N xs ys t, Reach Arith.exact F (Enclosed Arith.exact F R C) Draws (InsideSeeds R C) P s → s.walk = none →
      xs ≠ [] → ys ≠ [] → (∀ x ∈ xs, ∀ y ∈ ys, Inside R C (x, y) ∧ Escapes (flowOf F P) P (x, y)) → ∀ n,
        uniformDraws {ω | ¬ ∀ g : Grid Int, Binary g → g.rows = R → g.cols = C → ∃ E, SettledExposure F P ω s N xs ys t n g E} ≤
          N * ENNReal.ofNNReal ρ ^ (n / L) := by
  obtain ⟨L, ρ, hL, hρ, hb⟩ := seeded_rate hP ha hv
  refine ⟨L, ρ, hL, hρ, fun s N xs ys t h hw hx hy hxy n => ?_⟩
  have hle : uniformDraws {ω | ¬ ∀ g : Grid Int, Binary g → g.rows = R → g.cols = C → ∃ E, SettledExposure F P ω s N xs ys t n g E} ≤
      uniformDraws (⋃ i : Fin N, {ω | ¬ SeededArrived F P ω s N xs ys t n i}) := by
    refine measure_mono_ae ?_
    filter_upwards [uniformDraws_nonzero] with ω hω hno
    by_contra hc
    refine hno fun g hg hgr hgc => settled_of_arrived h hw ha hv hx hy (fun x hx y hy => (hxy x hx y hy).1) hg hgr hgc hω.1 fun i => ?_
    by_contra hi
    exact hc (Set.mem_iUnion.2 ⟨i, hi⟩)
  refine hle.trans ((measure_iUnion_fintype_le _ _).trans ?_)
  refine (sum_le_card_nsmul _ _ (ENNReal.ofNNReal ρ ^ (n / L)) fun i _ => hb s N xs ys t h hw hx hy hxy n i).trans ?_
  rw [card_univ, Fintype.card_fin, nsmul_eq_mul]

/-- Every particle arrives, with probability one. -/
theorem seeded_arrives (h : Reach Arith.exact F (Enclosed Arith.exact F R C) Draws (InsideSeeds R C) P s) (hw : s.walk = none)
    (ha : ∀ k, k < 9 → k ≠ 4 → ∃ a, P.angles k = .fin a) (hv : ∀ var, OptVar P var → Trackable P var) (hx : xs ≠ []) (hy : ys ≠ [])
    (hxy : ∀ x ∈ xs, ∀ y ∈ ys, Inside R C (x, y) ∧ Escapes (flowOf F P) P (x, y)) :
    ∃ K : Fin N → (Nat → ℝ) → ℝ, (∀ i, Integrable (K i) uniformDraws) ∧
      ∀ᵐ ω ∂uniformDraws, Draws ω ∧ ∀ i : Fin N, (∃ n, SeededArrived F P ω s N xs ys t n i) ∧
        ∀ (a : Nat → ℝ) (B : ℝ), a 0 = 0 → (∀ n m, n ≤ m → SeededArrived F P ω s N xs ys t n i → a m = a n) → (∀ n, |a (n + 1) - a n| ≤ B) →
          ∀ n, |a n| ≤ B * K i ω := by
  classical
  obtain ⟨L, ρ, hL, hρ, hb⟩ := seeded_rate h.obj ha hv
  have hne : (L * (1 - ENNReal.ofNNReal ρ)⁻¹ : ENNReal) ≠ ⊤ := by
    refine ENNReal.mul_ne_top (ENNReal.natCast_ne_top L) (ENNReal.inv_ne_top.2 ?_)
    exact (tsub_pos_of_lt (by exact_mod_cast hρ)).ne'
  let S : Fin N → (Nat → ℝ) → ENNReal := fun i ω => ∑' n, Set.indicator {ω | ¬ SeededArrived F P ω s N xs ys t n i} (fun _ => 1) ω
  have hlaw := fun n (i : Fin N) => seeded_law (t := t) h hw ha hv hx hy (fun x hx y hy => (hxy x hx y hy).1) n i
  have hm : ∀ (i : Fin N) (n : Nat), AEMeasurable (Set.indicator {ω | ¬ SeededArrived F P ω s N xs ys t n i} fun _ => (1 : ENNReal)) uniformDraws :=
    fun i n => aemeasurable_const.indicator₀ (hlaw n i).1
  have hSm : ∀ i, AEMeasurable (S i) uniformDraws := fun i => AEMeasurable.tsum (hm i)
  have hSi : ∀ i, ∫⁻ ω, S i ω ∂uniformDraws ≠ ⊤ := by
    intro i
    refine (lt_of_le_of_lt ?_ hne.lt_top).ne
    rw [lintegral_tsum (hm i), ← geometric_blocks hL]
    refine ENNReal.tsum_le_tsum fun n => ?_
    rw [lintegral_indicator_const₀ (hlaw n i).1, one_mul]
    exact hb s N xs ys t h hw hx hy hxy n i
  refine ⟨fun i ω => (S i ω).toReal, fun i => integrable_toReal_of_lintegral_ne_top (hSm i) (hSi i), ?_⟩
  filter_upwards [uniformDraws_nonzero, ae_all_iff.2 fun i => ae_lt_top' (hSm i) (hSi i)] with ω hω hfin
  refine ⟨hω.1, fun i => ⟨?_, fun a B h0 hfr hst n => ?_⟩⟩
  · by_contra hno
    push Not at hno
    refine (hfin i).ne ?_
    have : S i ω = ∑' _ : Nat, (1 : ENNReal) := tsum_congr fun n => Set.indicator_of_mem (hno n) _
    rw [this]
    exact ENNReal.tsum_const_eq_top_of_ne_zero one_ne_zero
  · have hB : 0 ≤ B := (abs_nonneg _).trans (hst 0)
    have hsum : ∀ n, |a n| ≤ B * ∑ j ∈ range n, if SeededArrived F P ω s N xs ys t j i then 0 else 1 := by
      intro n
      induction n with
      | zero => simp [h0]
      | succ n ih =>
        rw [sum_range_succ, mul_add]
        have h1 : |a (n + 1) - a n| ≤ B * if SeededArrived F P ω s N xs ys t n i then 0 else 1 := by
          split_ifs with hA
          · rw [hfr n (n + 1) (Nat.le_succ n) hA]
            simp
          · rw [mul_one]
            exact hst n
        calc |a (n + 1)| = |a n + (a (n + 1) - a n)| := by congr 1; ring
          _ ≤ |a n| + |a (n + 1) - a n| := abs_add_le _ _
          _ ≤ _ := add_le_add ih h1
    refine (hsum n).trans (mul_le_mul_of_nonneg_left ?_ hB)
    have e : (∑ j ∈ range n, if SeededArrived F P ω s N xs ys t j i then (0 : ℝ) else 1) =
        (∑ j ∈ range n, Set.indicator {ω | ¬ SeededArrived F P ω s N xs ys t j i} (fun _ => (1 : ENNReal)) ω).toReal := by
      rw [ENNReal.toReal_sum fun j _ => by
        unfold Set.indicator
        split_ifs <;> simp]
      refine sum_congr rfl fun j _ => ?_
      unfold Set.indicator
      by_cases hA : SeededArrived F P ω s N xs ys t j i <;> simp [hA]
    rw [e]
    exact ENNReal.toReal_mono (hfin i).ne (ENNReal.sum_le_tsum _)

/-- C117: with probability one there is a number of calls after which the exposure times of a region do not change any more; their values are unique. -/
theorem C117_final (h : Reach Arith.exact F (Enclosed Arith.exact F R C) Draws (InsideSeeds R C) P s) (hw : s.walk = none)
    (ha : ∀ k, k < 9 → k ≠ 4 → ∃ a, P.angles k = .fin a) (hv : ∀ var, OptVar P var → Trackable P var) (hx : xs ≠ []) (hy : ys ≠ [])
    (hxy : ∀ x ∈ xs, ∀ y ∈ ys, Inside R C (x, y) ∧ Escapes (flowOf F P) P (x, y)) (hb : Binary g) (hgr : g.rows = R) (hgc : g.cols = C) :
    ∀ᵐ ω ∂uniformDraws, ∃! E : Fin N → ℝ, ∃ n, SettledExposure F P ω s N xs ys t n g E := by
  obtain ⟨K, -, hK⟩ := seeded_arrives (N := N) (t := t) h hw ha hv hx hy hxy
  have hin := fun x hx y hy => (hxy x hx y hy).1
  filter_upwards [hK] with ω ⟨hω, hA⟩
  choose n hn using fun i => (hA i).1
  have hall : ∀ i : Fin N, SeededArrived F P ω s N xs ys t (univ.sup n) i := by
    intro i
    obtain ⟨p, hp, s1, wd, hS⟩ := seeded_exists (N := N) (t := t) h hw hv hx hy hin hω
    have h1 := (SeededArrived.iff hp hS).1 (hn i)
    refine (SeededArrived.iff hp hS).2 ?_
    exact h1.mono hS.reach hS.walk hω (by rw [hS.len]; exact i.2) (le_sup (mem_univ i))
  obtain ⟨E, hE⟩ := settled_of_arrived h hw ha hv hx hy hin hb hgr hgc hω hall
  exact ⟨E, ⟨_, hE⟩, fun E' ⟨_, hE'⟩ => hE'.unique hE⟩

/-- Exposure times after `n` calls, for all `n`, as functions of the random stream. -/
theorem exposures_exist (h : Reach Arith.exact F (Enclosed Arith.exact F R C) Draws (InsideSeeds R C) P s) (hw : s.walk = none)
    (ha : ∀ k, k < 9 → k ≠ 4 → ∃ a, P.angles k = .fin a) (hv : ∀ var, OptVar P var → Trackable P var) (hx : xs ≠ []) (hy : ys ≠ [])
    (hxy : ∀ x ∈ xs, ∀ y ∈ ys, Inside R C (x, y)) (hb : Binary g) (hgr : g.rows = R) (hgc : g.cols = C) :
    ∃ E : Nat → Fin N → (Nat → ℝ) → ℝ, ∀ n ω, Draws ω → SeededExposure F P ω s N xs ys t n g fun i => E n i ω := by
  classical
  have ex := fun (n : Nat) (ω : Nat → ℝ) (hω : Draws ω) => C106_accepts h hw ha hv hx hy hxy hb hgr hgc hω N n t
  exact ⟨fun n i ω => if hω : Draws ω then (ex n ω hω).choose i else 0, fun n ω hω => by
    simp only [dif_pos hω]
    exact (ex n ω hω).choose_spec⟩

/-- The exposure times after `n` calls eventually are the final ones. -/
theorem eventually_final {E : Nat → Fin N → (Nat → ℝ) → ℝ} (hE : ∀ n ω, Draws ω → SeededExposure F P ω s N xs ys t n g fun i => E n i ω)
    {E' : Fin N → (Nat → ℝ) → ℝ} (hE' : ∀ᵐ ω ∂uniformDraws, ∃ n, SettledExposure F P ω s N xs ys t n g fun i => E' i ω) :
    ∀ᵐ ω ∂uniformDraws, ∀ᶠ n in Filter.atTop, ∀ i, E n i ω = E' i ω := by
  filter_upwards [uniformDraws_nonzero, hE'] with ω hω ⟨n, hn⟩
  exact Filter.eventually_atTop.2 ⟨n, fun m hm i => congrFun ((hE m ω hω.1).unique (hn m hm)) i⟩

theorem tendsto_measure_eventually {α : Type} [MeasurableSpace α] {μ : Measure α} [IsFiniteMeasure μ] {A : Nat → Set α} {B : Set α}
    (hA : ∀ n, NullMeasurableSet (A n) μ) (hB : NullMeasurableSet B μ) (h : ∀ᵐ ω ∂μ, ∀ᶠ n in Filter.atTop, (ω ∈ A n ↔ ω ∈ B)) :
    Filter.Tendsto (fun n => μ (A n)) Filter.atTop (nhds (μ B)) := by
  have key := tendsto_lintegral_of_dominated_convergence' (μ := μ) (F := fun n => (A n).indicator fun _ => (1 : ENNReal)) (f := B.indicator fun _ => 1)
    (fun _ => 1) (fun n => aemeasurable_const.indicator₀ (hA n))
    (fun n => Filter.Eventually.of_forall fun ω => Set.indicator_le_self' (fun _ _ => zero_le) ω) (by simp)
    (by
      filter_upwards [h] with ω hω
      refine tendsto_const_nhds.congr' (hω.mono fun n hn => ?_)
      change _ = (A n).indicator (fun _ => (1 : ENNReal)) ω
      by_cases hm : ω ∈ B
      · rw [Set.indicator_of_mem hm, Set.indicator_of_mem (hn.2 hm)]
      · rw [Set.indicator_of_notMem hm, Set.indicator_of_notMem fun hc => hm (hn.1 hc)])
  simpa only [lintegral_indicator_const₀ (hA _), lintegral_indicator_const₀ hB, one_mul] using key

theorem final_measurable (h : Reach Arith.exact F (Enclosed Arith.exact F R C) Draws (InsideSeeds R C) P s) (hw : s.walk = none)
    (ha : ∀ k, k < 9 → k ≠ 4 → ∃ a, P.angles k = .fin a) (hv : ∀ var, OptVar P var → Trackable P var) (hx : xs ≠ []) (hy : ys ≠ [])
    (hxy : ∀ x ∈ xs, ∀ y ∈ ys, Inside R C (x, y)) (hb : Binary g) (hgr : g.rows = R) (hgc : g.cols = C)
    {E : Nat → Fin N → (Nat → ℝ) → ℝ} (hE : ∀ n ω, Draws ω → SeededExposure F P ω s N xs ys t n g fun i => E n i ω)
    {E' : Fin N → (Nat → ℝ) → ℝ} (hE' : ∀ᵐ ω ∂uniformDraws, ∃ n, SettledExposure F P ω s N xs ys t n g fun i => E' i ω) (i : Fin N) :
    AEMeasurable (E' i) uniformDraws := by
  refine aemeasurable_of_tendsto_metrizable_ae Filter.atTop (f := fun n => E n i)
    (fun n => (C106_sample h hw ha hv hx hy hxy hb hgr hgc (hE n)).1 i) ?_
  filter_upwards [eventually_final hE hE'] with ω hω
  exact tendsto_const_nhds.congr' (hω.mono fun n hn => (hn i).symm)

/-- C117: the final exposure times of a region are independent samples of one distribution, the limit of the distributions after `n` calls. -/
theorem C117_sample (h : Reach Arith.exact F (Enclosed Arith.exact F R C) Draws (InsideSeeds R C) P s) (hw : s.walk = none)
    (ha : ∀ k, k < 9 → k ≠ 4 → ∃ a, P.angles k = .fin a) (hv : ∀ var, OptVar P var → Trackable P var) (hx : xs ≠ []) (hy : ys ≠ [])
    (hxy : ∀ x ∈ xs, ∀ y ∈ ys, Inside R C (x, y)) (hb : Binary g) (hgr : g.rows = R) (hgc : g.cols = C)
    {E : Fin N → (Nat → ℝ) → ℝ} (hE : ∀ᵐ ω ∂uniformDraws, ∃ n, SettledExposure F P ω s N xs ys t n g fun i => E i ω) :
    (∀ i, AEMeasurable (E i) uniformDraws) ∧ ProbabilityTheory.iIndepFun E uniformDraws ∧ ∀ i, ∀ S : Set ℝ, MeasurableSet S →
      Filter.Tendsto (fun n => seededLaw F P xs ys n {c | c.2.exposure g c.1 ∈ S}) Filter.atTop (nhds (uniformDraws (E i ⁻¹' S))) := by
  obtain ⟨En, hEn⟩ := exposures_exist (N := N) (t := t) h hw ha hv hx hy hxy hb hgr hgc
  have hm := fun i => final_measurable h hw ha hv hx hy hxy hb hgr hgc hEn hE i
  have hs := fun n => C106_sample h hw ha hv hx hy hxy hb hgr hgc (hEn n)
  have hev := eventually_final hEn hE
  have hone : ∀ i, ∀ S : Set ℝ, MeasurableSet S → Filter.Tendsto (fun n => uniformDraws (En n i ⁻¹' S)) Filter.atTop (nhds (uniformDraws (E i ⁻¹' S))) := by
    intro i S hS
    refine tendsto_measure_eventually (fun n => ((hs n).1 i).nullMeasurableSet_preimage hS) ((hm i).nullMeasurableSet_preimage hS) ?_
    filter_upwards [hev] with ω hω
    refine hω.mono fun n hn => ?_
    rw [Set.mem_preimage, Set.mem_preimage, hn i]
  refine ⟨hm, ?_, fun i S hS => ?_⟩
  · rw [ProbabilityTheory.iIndepFun_iff_measure_inter_preimage_eq_mul]
    intro T S hS
    have h1 : Filter.Tendsto (fun n => uniformDraws (⋂ i ∈ T, En n i ⁻¹' S i)) Filter.atTop (nhds (uniformDraws (⋂ i ∈ T, E i ⁻¹' S i))) := by
      refine tendsto_measure_eventually (fun n => NullMeasurableSet.biInter T.countable_toSet fun i hi => ((hs n).1 i).nullMeasurableSet_preimage (hS i hi))
        (NullMeasurableSet.biInter T.countable_toSet fun i hi => (hm i).nullMeasurableSet_preimage (hS i hi)) ?_
      filter_upwards [hev] with ω hω
      refine hω.mono fun n hn => ?_
      simp only [Set.mem_iInter, Set.mem_preimage, hn]
    have h2 : Filter.Tendsto (fun n => ∏ i ∈ T, uniformDraws (En n i ⁻¹' S i)) Filter.atTop (nhds (∏ i ∈ T, uniformDraws (E i ⁻¹' S i))) := by
      refine ENNReal.tendsto_finsetProd_of_ne_top _ (fun i hi => hone i (S i) (hS i hi)) fun i _ => measure_ne_top _ _
    have h3 : ∀ n, uniformDraws (⋂ i ∈ T, En n i ⁻¹' S i) = ∏ i ∈ T, uniformDraws (En n i ⁻¹' S i) := fun n =>
      (ProbabilityTheory.iIndepFun_iff_measure_inter_preimage_eq_mul.1 (hs n).2.1) T hS
    simp only [h3] at h1
    exact tendsto_nhds_unique h1 h2
  · refine (hone i S hS).congr fun n => ?_
    rw [← Measure.map_apply_of_aemeasurable ((hs n).1 i) hS, (hs n).2.2 i, Measure.map_apply (exposure_measurable g n) hS]
    rfl

/-- C117: the final exposure time has a finite mean, the limit of the diffusion-free means after `n` calls. -/
theorem C117_mean (h : Reach Arith.exact F (Enclosed Arith.exact F R C) Draws (InsideSeeds R C) P s) (hw : s.walk = none)
    (ha : ∀ k, k < 9 → k ≠ 4 → ∃ a, P.angles k = .fin a) (hv : ∀ var, OptVar P var → Trackable P var) (hx : xs ≠ []) (hy : ys ≠ [])
    (hxy : ∀ x ∈ xs, ∀ y ∈ ys, Inside R C (x, y) ∧ Escapes (flowOf F P) P (x, y)) (hb : Binary g) (hgr : g.rows = R) (hgc : g.cols = C)
    {E : Fin N → (Nat → ℝ) → ℝ} (hE : ∀ᵐ ω ∂uniformDraws, ∃ n, SettledExposure F P ω s N xs ys t n g fun i => E i ω) (i : Fin N) :
    Integrable (E i) uniformDraws ∧
      Filter.Tendsto (fun n => meanExposure F P xs ys n g) Filter.atTop (nhds (∫ ω, E i ω ∂uniformDraws)) := by
  have hin := fun x hx y hy => (hxy x hx y hy).1
  obtain ⟨En, hEn⟩ := exposures_exist (N := N) (t := t) h hw ha hv hx hy hin hb hgr hgc
  obtain ⟨b, hdur⟩ := freeDur_bound F P R C
  obtain ⟨K, hKi, hK⟩ := seeded_arrives (N := N) (t := t) h hw ha hv hx hy hxy
  have hm := final_measurable h hw ha hv hx hy hin hb hgr hgc hEn hE i
  have hev := eventually_final hEn hE
  have hmean := fun n => C106_mean h hw ha hv hx hy hin hb hgr hgc (hEn n) i
  have hbound : ∀ᵐ ω ∂uniformDraws, ∀ n, |En n i ω| ≤ b * (1 + |P.diffCoeff| / 2) * K i ω := by
    filter_upwards [hK] with ω ⟨hω, hA⟩
    obtain ⟨h1, h2, h3⟩ := exposure_change h hw ha hv hx hy hin hb hgr hgc hdur hω (fun n => hEn n ω hω) i
    exact (hA i).2 (fun n => En n i ω) _ h3 h1 h2
  have hlim : ∀ᵐ ω ∂uniformDraws, Filter.Tendsto (fun n => En n i ω) Filter.atTop (nhds (E i ω)) := by
    filter_upwards [hev] with ω hω
    exact tendsto_const_nhds.congr' (hω.mono fun n hn => (hn i).symm)
  have hdom : Integrable (fun ω => b * (1 + |P.diffCoeff| / 2) * K i ω) uniformDraws := (hKi i).const_mul _
  constructor
  · refine hdom.mono' hm.aestronglyMeasurable ?_
    filter_upwards [hbound, hev] with ω h1 h2
    obtain ⟨n, hn⟩ := h2.exists
    rw [Real.norm_eq_abs, ← hn i]
    exact h1 n
  · simp only [← fun n => (hmean n).2]
    refine tendsto_integral_of_dominated_convergence _ (fun n => (hmean n).1.aestronglyMeasurable) hdom (fun n => ?_) hlim
    filter_upwards [hbound] with ω hω
    exact hω n

/-- C117: the mean final exposure time does not depend on `diff_coeff`, the number of particles or their seed time. -/
theorem C117_unbiased {P' : PObj ℝ} {s' : PState ℝ} {D : ℝ} (hP : P' = { P with diffCoeff := D })
    (h : Reach Arith.exact F (Enclosed Arith.exact F R C) Draws (InsideSeeds R C) P s) (hw : s.walk = none)
    (h' : Reach Arith.exact F (Enclosed Arith.exact F R C) Draws (InsideSeeds R C) P' s') (hw' : s'.walk = none)
    (ha : ∀ k, k < 9 → k ≠ 4 → ∃ a, P.angles k = .fin a) (hv : ∀ var, OptVar P var → Trackable P var) (hx : xs ≠ []) (hy : ys ≠ [])
    (hxy : ∀ x ∈ xs, ∀ y ∈ ys, Inside R C (x, y) ∧ Escapes (flowOf F P) P (x, y)) (hb : Binary g) (hgr : g.rows = R) (hgc : g.cols = C)
    {N' : Nat} {t' : ℝ} {E : Fin N → (Nat → ℝ) → ℝ} (hE : ∀ᵐ ω ∂uniformDraws, ∃ n, SettledExposure F P ω s N xs ys t n g fun i => E i ω)
    {E' : Fin N' → (Nat → ℝ) → ℝ} (hE' : ∀ᵐ ω ∂uniformDraws, ∃ n, SettledExposure F P' ω s' N' xs ys t' n g fun i => E' i ω) (i : Fin N) (i' : Fin N') :
    ∫ ω, E i ω ∂uniformDraws = ∫ ω, E' i' ω ∂uniformDraws := by
  subst hP
  exact tendsto_nhds_unique (C117_mean h hw ha hv hx hy hxy hb hgr hgc hE i).2 (C117_mean h' hw' ha hv hx hy hxy hb hgr hgc hE' i').2

end

/-! ## Concrete cases -/

/-- The lower half of the wide channel. -/
def lowerWide : Grid Int := ⟨11, 11, fun i _ => if 6 ≤ i then 1 else 0⟩

/-- C117: a hundred particles seeded at random in two cells in the middle of the wide channel, with diffusion coefficient 0.2 and with 1. Their exposure times
in the lower half become final, with probability one; the final ones are independent, and their mean is finite and the same for both coefficients. -/
example : ∃ E E' : Fin 100 → (Nat → ℝ) → ℝ, ¬ NearEdge wideObj 5 5 ∧
    (∀ᵐ ω ∂uniformDraws, ∃ n, SettledExposure Fun.real wideObj ω (initState Arith.exact Fun.real wideObj 0) 100 [4, 5] [5] 0 n lowerWide fun i => E i ω) ∧
    (∀ᵐ ω ∂uniformDraws, ∃ n, SettledExposure Fun.real wideSpread ω (initState Arith.exact Fun.real wideSpread 0) 100 [4, 5] [5] 0 n lowerWide
      fun i => E' i ω) ∧
    ProbabilityTheory.iIndepFun E uniformDraws ∧ ∀ i, Integrable (E i) uniformDraws ∧ ∫ ω, E i ω ∂uniformDraws = ∫ ω, E' i ω ∂uniformDraws := by
  classical
  have h : Reach Arith.exact Fun.real (Enclosed Arith.exact Fun.real 11 11) Draws (InsideSeeds 11 11) wideObj (initState Arith.exact Fun.real wideObj 0) :=
    .new 0 wideObj_enclosed
  have h' : Reach Arith.exact Fun.real (Enclosed Arith.exact Fun.real 11 11) Draws (InsideSeeds 11 11) wideSpread
    (initState Arith.exact Fun.real wideSpread 0) := .new 0 wideSpread_enclosed
  have hw : (initState Arith.exact Fun.real wideObj 0).walk = none := rfl
  have hw' : (initState Arith.exact Fun.real wideSpread 0).walk = none := rfl
  have hv : ∀ var, OptVar wideObj var → Trackable wideObj var := by
    rintro var ⟨hm, -⟩
    have e : wideObj.particleVars = [] := rfl
    rw [e] at hm
    simp at hm
  have hv' : ∀ var, OptVar wideSpread var → Trackable wideSpread var := by
    rintro var ⟨hm, -⟩
    have e : wideSpread.particleVars = [] := rfl
    rw [e] at hm
    simp at hm
  have hxy : ∀ x ∈ ([4, 5] : List Int), ∀ y ∈ ([5] : List Int), Inside 11 11 (x, y) ∧ Escapes (flowOf Fun.real wideObj) wideObj (x, y) := by
    intro x hx y hy
    have : Inside 11 11 (x, y) := by
      simp at hx hy
      obtain rfl | rfl := hx <;> subst hy <;> (unfold Inside; decide)
    exact ⟨this, wideObj_escapes this⟩
  have hxy' : ∀ x ∈ ([4, 5] : List Int), ∀ y ∈ ([5] : List Int), Inside 11 11 (x, y) ∧ Escapes (flowOf Fun.real wideSpread) wideSpread (x, y) := by
    rw [wideSpread_eq]
    exact hxy
  have hb : Binary lowerWide := by
    intro i j _ _
    unfold lowerWide
    simp only
    split_ifs <;> simp
  have ha' : ∀ k, k < 9 → k ≠ 4 → ∃ a, wideSpread.angles k = .fin a := by
    rw [wideSpread_eq]
    exact wideObj_angles
  have ex := C117_final (N := 100) (t := 0) h hw wideObj_angles hv (xs := [4, 5]) (ys := [5]) (by simp) (by simp) hxy hb rfl rfl
  have ex' := C117_final (N := 100) (t := 0) h' hw' ha' hv' (xs := [4, 5]) (ys := [5]) (by simp) (by simp) hxy' hb rfl rfl
  obtain ⟨E, hE⟩ : ∃ E : Fin 100 → (Nat → ℝ) → ℝ, ∀ᵐ ω ∂uniformDraws,
      ∃ n, SettledExposure Fun.real wideObj ω (initState Arith.exact Fun.real wideObj 0) 100 [4, 5] [5] 0 n lowerWide fun i => E i ω := by
    refine ⟨fun i ω => if hω : ∃ E, ∃ n, SettledExposure Fun.real wideObj ω (initState Arith.exact Fun.real wideObj 0) 100 [4, 5] [5] 0 n lowerWide E
      then hω.choose i else 0, ?_⟩
    filter_upwards [ex] with ω hω
    simp only [dif_pos hω.exists]
    exact hω.exists.choose_spec
  obtain ⟨E', hE'⟩ : ∃ E : Fin 100 → (Nat → ℝ) → ℝ, ∀ᵐ ω ∂uniformDraws,
      ∃ n, SettledExposure Fun.real wideSpread ω (initState Arith.exact Fun.real wideSpread 0) 100 [4, 5] [5] 0 n lowerWide fun i => E i ω := by
    refine ⟨fun i ω => if hω : ∃ E, ∃ n, SettledExposure Fun.real wideSpread ω (initState Arith.exact Fun.real wideSpread 0) 100 [4, 5] [5] 0 n lowerWide E
      then hω.choose i else 0, ?_⟩
    filter_upwards [ex'] with ω hω
    simp only [dif_pos hω.exists]
    exact hω.exists.choose_spec
  refine ⟨E, E', ?_, hE, hE', (C117_sample h hw wideObj_angles hv (by simp) (by simp) (fun x hx y hy => (hxy x hx y hy).1) hb rfl rfl hE).2.1, fun i =>
    ⟨(C117_mean h hw wideObj_angles hv (by simp) (by simp) hxy hb rfl rfl hE i).1,
      C117_unbiased wideSpread_eq h hw h' hw' wideObj_angles hv (by simp) (by simp) hxy hb rfl rfl hE hE' i i⟩⟩
  rintro ⟨i, j, hi, hj, h1, h2, h3⟩
  have : wideObj.cellType.at' i j = if interiorB 11 11 i j then (if Fl.lt (.fin (1 : ℝ)) (.fin (1 / 10)) then 2 else 0) else -1 := rfl
  rw [this, if_pos (by unfold interiorB; simp; omega)] at h3
  split_ifs at h3

end Dorado
