import Verif.Spec.Leave
import Verif.Lemmas.Absorb
import Verif.Props.Course
import Verif.Props.History
import Verif.Props.Figures
import Verif.Props.Crop

/-! # Particles that can leave do leave: C115 -/

set_option linter.unusedSectionVars false

namespace Dorado

open MeasureTheory Finset

/-- The cell in which a course ends. -/
def endCell {n : Nat} (p : Int × Int) (c : Course n) : Int × Int := Fin.cons (α := fun _ => Int × Int) p (fun j => (c j).1) (Fin.last n)

/-- Cells next to an edge. -/
def AtEdge (P : PObj ℝ) (p : Int × Int) : Prop := NearEdge P p.1.toNat p.2.toNat

theorem cells_measurable {n : Nat} (Q : (Fin n → Int × Int) → Prop) : MeasurableSet {c : Course n | Q fun j => (c j).1} :=
  (by fun_prop : Measurable fun (c : Course n) (j : Fin n) => (c j).1) (Set.to_countable {q | Q q}).measurableSet

theorem courseLaw_cells (F : Fun ℝ Arith.exact) (P : PObj ℝ) (n : Nat) (p : Int × Int) (Q : (Fin n → Int × Int) → Prop) [DecidablePred Q] :
    courseLaw F P n p {c | Q fun j => (c j).1} = ∑' q : Fin n → Int × Int, (∏ j, moveProb (flowOf F P) P (prevCell p q j) (q j)) * if Q q then 1 else 0 := by
  unfold courseLaw
  rw [Measure.sum_apply _ (cells_measurable Q)]
  refine tsum_congr fun q => ?_
  rw [Measure.smul_apply, smul_eq_mul]
  congr 1
  have h1 : (Measure.pi fun j => (Measure.dirac (q j)).prod (durLaw P.diffCoeff (freeDur F P (prevCell p q j) (q j)))) (rect q fun _ => Set.univ) = 1 := by
    rw [rect, Measure.pi_pi]
    refine prod_eq_one fun j _ => ?_
    rw [Measure.prod_prod, Measure.dirac_apply' _ (MeasurableSet.singleton _), measure_univ]
    simp
  have hsub : ∀ c ∈ rect q fun _ => Set.univ, (fun j => (c j).1) = q := fun c hc => funext fun j => (mem_rect.1 hc j).1
  by_cases hQ : Q q
  · rw [if_pos hQ]
    refine le_antisymm prob_le_one ?_
    rw [← h1]
    refine measure_mono fun c hc => ?_
    change Q fun j => (c j).1
    rw [hsub c hc]
    exact hQ
  · rw [if_neg hQ]
    refine measure_mono_null (t := (rect q fun _ => Set.univ)ᶜ) (fun c hc hr => ?_)
      ((prob_compl_eq_zero_iff (rect_measurable q fun _ => MeasurableSet.univ)).2 h1)
    change Q fun j => (c j).1 at hc
    rw [hsub c hr] at hc
    exact hQ hc

open Classical in
theorem courseLaw_end (F : Fun ℝ Arith.exact) (P : PObj ℝ) (n : Nat) (p : Int × Int) :
    courseLaw F P n p {c | ¬ AtEdge P (endCell p c)} = stay (moveProb (flowOf F P) P) (AtEdge P) n p := by
  rw [← stay_paths n p]
  refine (courseLaw_cells F P n p fun q => ¬ AtEdge P (Fin.cons (α := fun _ => Int × Int) p q (Fin.last n))).trans (tsum_congr fun q => ?_)
  congr 1
  unfold stay
  split_ifs <;> rfl

section
variable {F : Fun ℝ Arith.exact} {R C : Nat} {P : PObj ℝ} {s : PState ℝ}

theorem chain_of (hP : Enclosed Arith.exact F R C P) :
    Chain (moveProb (flowOf F P) P) (AtEdge P) (Inside R C) where
  sum p hp := moveProb_sum hP hp
  inside p q hp hq := moveProb_outside hP hp hq
  stops p q _ hs hq := by
    unfold moveProb
    exact (if_pos hs).trans (if_neg hq)

theorem chain_free (hP : Enclosed Arith.exact F R C P) :
    Chain (moveProb (flowOf F P) P) (AtEdge P) fun p => Inside R C p ∧ Escapes (flowOf F P) P p where
  sum p hp := moveProb_sum hP hp.1
  inside p q hp hq := by
    by_contra hc
    refine hq ⟨by_contra fun hi => hc (moveProb_outside hP hp.1 hi), fun e he => hp.2 e (.head (pos_iff_ne_zero.2 hc) he)⟩
  stops p q _ hs hq := by
    unfold moveProb
    exact (if_pos hs).trans (if_neg hq)

theorem inside_finite (R C : Nat) : {p : Int × Int | Inside R C p}.Finite := by
  refine ((Set.finite_Icc (0 : Int) R).prod (Set.finite_Icc (0 : Int) C)).subset fun p hp => ?_
  obtain ⟨a, b, rfl, h1, h2, h3, h4⟩ := Inside.nat hp
  simp only [Set.mem_prod, Set.mem_Icc]
  omega

/-- Where a particle is after `n` calls is where its course ends. -/
theorem arrived_iff {wd : WalkData ℝ} (hwd : s.walk = some wd) {ω : Nat → ℝ} {n i : Nat} {c : Course n} (hc : HasCourse F P ω s n i c)
    {p : Int × Int} (hp : wd.lastPos i = some p) : ArrivedBy F P ω s n i ↔ AtEdge P (endCell p c) := by
  have key : ∃ s' w wd', AfterRuns Arith.exact F P ω s n s' w ∧ s'.walk = some wd' ∧ wd'.lastPos i = some (endCell p c) := by
    cases n with
    | zero => exact ⟨s, none, wd, .zero, hwd, hp⟩
    | succ n => exact (hc (Fin.last n)).1
  obtain ⟨s1, w1, wd1, r1, e1, l1⟩ := key
  constructor
  · rintro ⟨s2, w2, wd2, q, r2, e2, l2, hq⟩
    obtain ⟨rfl, -⟩ := r1.unique r2
    rw [e1] at e2
    cases e2
    rw [l1] at l2
    cases l2
    exact hq
  · exact fun he => ⟨_, _, _, _, r1, e1, l1, he⟩

/-- Probability that a particle is not next to an edge after `n` calls. -/
theorem arrived_law (h : Reach Arith.exact F (Enclosed Arith.exact F R C) Draws (InsideSeeds R C) P s)
    (ha : ∀ k, k < 9 → k ≠ 4 → ∃ a, P.angles k = .fin a) {wd : WalkData ℝ} (hwd : s.walk = some wd)
    (ht0 : ∀ i, i < wd.xinds.length → ∃ t, wd.lastTime i = some (.fin t)) (n : Nat) {i : Nat} (hi : i < wd.xinds.length)
    {p : Int × Int} (hp : wd.lastPos i = some p) :
    NullMeasurableSet {ω | ¬ ArrivedBy F P ω s n i} uniformDraws ∧
      uniformDraws {ω | ¬ ArrivedBy F P ω s n i} = stay (moveProb (flowOf F P) P) (AtEdge P) n p := by
  classical
  have ex := fun (ω : Nat → ℝ) (hω : Draws ω) (i : Fin wd.xinds.length) => course_exists h ha hwd ht0 hω n i.2
  obtain ⟨X, hX⟩ : ∃ X : Fin wd.xinds.length → (Nat → ℝ) → Course n, ∀ ω, Draws ω → ∀ i : Fin wd.xinds.length, HasCourse F P ω s n i (X i ω) :=
    ⟨fun i ω => if hω : Draws ω then (ex ω hω i).choose else fun _ => ((0, 0), 0), fun ω hω i => by
      simp only [dif_pos hω]
      exact (ex ω hω i).choose_spec⟩
  choose pos hpos _ using fun i : Fin wd.xinds.length => last_inside h hwd i.2
  have hm := course_measurable h ha hwd ht0 hX hpos ⟨i, hi⟩
  have hlaw := (C104_independent h ha hwd ht0 hX hpos).2 ⟨i, hi⟩
  have hpi : pos ⟨i, hi⟩ = p := by
    have := hpos ⟨i, hi⟩
    rw [hp] at this
    exact (Option.some.inj this).symm
  rw [hpi] at hlaw
  have hS : MeasurableSet {c : Course n | ¬ AtEdge P (endCell p c)} :=
    cells_measurable fun q => ¬ AtEdge P (Fin.cons (α := fun _ => Int × Int) p q (Fin.last n))
  have hae : {ω | ¬ ArrivedBy F P ω s n i} =ᵐ[uniformDraws] X ⟨i, hi⟩ ⁻¹' {c | ¬ AtEdge P (endCell p c)} := by
    rw [Filter.eventuallyEq_set]
    filter_upwards [uniformDraws_nonzero] with ω hω
    exact not_congr (arrived_iff hwd (hX ω hω.1 ⟨i, hi⟩) hp)
  refine ⟨(hm.nullMeasurableSet_preimage hS).congr hae.symm, ?_⟩
  rw [measure_congr hae, ← Measure.map_apply_of_aemeasurable hm hS, hlaw, courseLaw_end]

/-- Later calls of `run_iteration()`. -/
theorem AfterRuns.later {ω : Nat → ℝ} (hω : Draws ω) {n m : Nat} {s1 s2 : PState ℝ} {w1 w2 : Option (WalkData ℝ)}
    (h1 : AfterRuns Arith.exact F P ω s n s1 w1) (h2 : AfterRuns Arith.exact F P ω s m s2 w2) (hnm : n ≤ m) :
    Later Arith.exact F Draws (InsideSeeds R C) P s1 s2 := by
  induction h2 with
  | zero =>
    obtain rfl : n = 0 := by omega
    cases h1
    exact .refl _
  | @succ m s' w r h hr ih =>
    rcases Nat.lt_or_ge m n with hlt | hge
    · obtain rfl : n = m + 1 := by omega
      obtain ⟨rfl, -⟩ := h1.unique (.succ h hr)
      exact .refl _
    · exact .run (ih hge) hω hr

/-- A particle that has arrived is left alone by all later calls. -/
theorem arrived_frozen (h : Reach Arith.exact F (Enclosed Arith.exact F R C) Draws (InsideSeeds R C) P s) {wd : WalkData ℝ} (hwd : s.walk = some wd)
    {ω : Nat → ℝ} (hω : Draws ω) {n m i : Nat} (hi : i < wd.xinds.length) (hnm : n ≤ m) (hA : ArrivedBy F P ω s n i) {s1 s2 : PState ℝ}
    {w1 w2 : Option (WalkData ℝ)} (h1 : AfterRuns Arith.exact F P ω s n s1 w1) (h2 : AfterRuns Arith.exact F P ω s m s2 w2) :
    ∃ wd1 wd2, s1.walk = some wd1 ∧ s2.walk = some wd2 ∧ wd2.lists i = wd1.lists i ∧ ∀ var, wd2.optList var i = wd1.optList var i := by
  obtain ⟨s3, w3, wd3, r3, e3, hlen, hre⟩ := follows_some h hwd hω n
  obtain ⟨rfl, -⟩ := h1.unique r3
  obtain ⟨s4, w4, wd4, q, r4, e4, l4, hq⟩ := hA
  obtain ⟨rfl, -⟩ := h1.unique r4
  rw [e3] at e4
  cases e4
  obtain ⟨x, hx, hin⟩ := last_inside hre e3 (i := i) (by omega)
  rw [l4] at hx
  cases hx
  obtain ⟨a, b, rfl, h5, -, h6, -⟩ := hin.nat
  obtain ⟨wd', e5, e6, e7⟩ := C16_stops (hre.mono fun _ hP => hP.built) (h1.later (R := R) (C := C) hω h2 hnm) e3 l4 h5 h6 hq
  exact ⟨_, _, e3, e5, e6, e7⟩

theorem lastPos_lists (h : Reach Arith.exact F (Enclosed Arith.exact F R C) Draws (InsideSeeds R C) P s) {wd wd' : WalkData ℝ} (hwd : s.walk = some wd)
    {i : Nat} (hi : i < wd.xinds.length) (hl : wd'.lists i = wd.lists i) : wd'.lastPos i = wd.lastPos i := by
  obtain ⟨-, hbad | ⟨rows, hr, -⟩⟩ := Enclosed.rowsOk h
  · rw [hwd] at hbad; cases hbad
  rw [hr.1] at hwd
  cases hwd
  have hi' : i < rows.length := by simpa [ofRows] using hi
  have e : (ofRows (keysOf P) rows).lists i = some (rows[i].xs, rows[i].ys, rows[i].ts) := by
    simp [WalkData.lists, ofRows, List.getElem?_eq_getElem hi']
  rw [e] at hl
  unfold WalkData.lists at hl
  unfold WalkData.lastPos
  cases hx : wd'.xinds[i]? with
  | none => simp [hx] at hl
  | some xs =>
    cases hy : wd'.yinds[i]? with
    | none => simp [hx, hy] at hl
    | some ys =>
      cases ht : wd'.times[i]? with
      | none => simp [hx, hy, ht] at hl
      | some ts =>
        simp only [hx, hy, ht, Option.bind_eq_bind, Option.bind_some, Option.pure_def, Option.some.injEq, Prod.mk.injEq] at hl
        obtain ⟨rfl, rfl, -⟩ := hl
        simp [ofRows, List.getElem?_eq_getElem hi']

theorem not_gets {q : Int × Int} (hq : ∀ e : Int × Int, Relation.ReflTransGen (CanMove (flowOf F P) P) q e → ¬ NearEdge P e.1.toNat e.2.toNat) (k : Nat) :
    ¬ Gets (moveProb (flowOf F P) P) (AtEdge P) k q := fun hg => by
  obtain ⟨e, h1, h2⟩ := hg.path
  exact hq e h1 h2

/-- C115: there are a number of iterations `L` and a factor `ρ < 1`, depending only on the object, such that for every state of the particles the probability
that not all of them are next to an edge after `n` calls is at most `N ρ^⌊n/L⌋`, provided that every cell a particle may come to has a way out. -/
theorem C115_rate (hP : Enclosed Arith.exact F R C P) (ha : ∀ k, k < 9 → k ≠ 4 → ∃ a, P.angles k = .fin a) :
    ∃ (L : Nat) (ρ : NNReal), 0 < L ∧ ρ < 1 ∧ ∀ s, Reach Arith.exact F (Enclosed Arith.exact F R C) Draws (InsideSeeds R C) P s → ∀ wd, s.walk = some wd →
      (∀ i, i < wd.xinds.length → ∃ t, wd.lastTime i = some (.fin t)) →
      (∀ i p, i < wd.xinds.length → wd.lastPos i = some p → Escapes (flowOf F P) P p) → ∀ n,
        uniformDraws {ω | ¬ ∀ i, i < wd.xinds.length → ArrivedBy F P ω s n i} ≤ wd.xinds.length * ENNReal.ofNNReal ρ ^ (n / L) := by
  have hc := chain_free hP
  obtain ⟨L, ρ, hL, hρ, hb⟩ := hc.rate ((inside_finite R C).subset fun p hp => hp.1) fun p hp => by
    obtain ⟨e, h1, h2⟩ := hp.2 p .refl
    exact Gets.of_path h1 h2
  refine ⟨L, ρ, hL, hρ, fun s h wd hwd ht0 hesc n => ?_⟩
  have hset : {ω | ¬ ∀ i, i < wd.xinds.length → ArrivedBy F P ω s n i} = ⋃ i ∈ range wd.xinds.length, {ω | ¬ ArrivedBy F P ω s n i} := by
    ext ω
    simp
  rw [hset]
  refine (measure_biUnion_finset_le _ _).trans ?_
  refine (sum_le_card_nsmul _ _ (ENNReal.ofNNReal ρ ^ (n / L)) fun i hi => ?_).trans (by rw [card_range, nsmul_eq_mul])
  have hi := mem_range.1 hi
  obtain ⟨p, hp, hin⟩ := last_inside h hwd hi
  rw [(arrived_law h ha hwd ht0 n hi hp).2]
  exact hb n p ⟨hin, hesc i p hi hp⟩

/-- C115: the expected number of iterations after which not all particles are next to an edge is finite, at most a constant of the object times the number
of particles. -/
theorem C115_mean (hP : Enclosed Arith.exact F R C P) (ha : ∀ k, k < 9 → k ≠ 4 → ∃ a, P.angles k = .fin a) :
    ∃ T : NNReal, ∀ s, Reach Arith.exact F (Enclosed Arith.exact F R C) Draws (InsideSeeds R C) P s → ∀ wd, s.walk = some wd →
      (∀ i, i < wd.xinds.length → ∃ t, wd.lastTime i = some (.fin t)) →
      (∀ i p, i < wd.xinds.length → wd.lastPos i = some p → Escapes (flowOf F P) P p) →
        ∑' n, uniformDraws {ω | ¬ ∀ i, i < wd.xinds.length → ArrivedBy F P ω s n i} ≤ wd.xinds.length * ENNReal.ofNNReal T := by
  obtain ⟨L, ρ, hL, hρ, hb⟩ := C115_rate hP ha
  have hne : (L * (1 - ENNReal.ofNNReal ρ)⁻¹ : ENNReal) ≠ ⊤ := by
    refine ENNReal.mul_ne_top (ENNReal.natCast_ne_top L) (ENNReal.inv_ne_top.2 ?_)
    exact (tsub_pos_of_lt (by exact_mod_cast hρ)).ne'
  refine ⟨(L * (1 - ENNReal.ofNNReal ρ)⁻¹ : ENNReal).toNNReal, fun s h wd hwd ht0 hesc => ?_⟩
  rw [ENNReal.coe_toNNReal hne, ← geometric_blocks hL, ← ENNReal.tsum_mul_left]
  exact ENNReal.tsum_le_tsum fun n => hb s h wd hwd ht0 hesc n

/-- C115: a particle comes next to an edge with probability one exactly if every cell it may come to has a way out. -/
theorem C115_iff (h : Reach Arith.exact F (Enclosed Arith.exact F R C) Draws (InsideSeeds R C) P s)
    (ha : ∀ k, k < 9 → k ≠ 4 → ∃ a, P.angles k = .fin a) {wd : WalkData ℝ} (hwd : s.walk = some wd)
    (ht0 : ∀ i, i < wd.xinds.length → ∃ t, wd.lastTime i = some (.fin t)) {i : Nat} (hi : i < wd.xinds.length) {p : Int × Int}
    (hp : wd.lastPos i = some p) : (∀ᵐ ω ∂uniformDraws, ∃ n, ArrivedBy F P ω s n i) ↔ Escapes (flowOf F P) P p := by
  have hin : Inside R C p := by
    obtain ⟨x, hx, hin⟩ := last_inside h hwd hi
    rw [hp] at hx
    cases hx
    exact hin
  have hlaw := fun n => arrived_law h ha hwd ht0 n hi hp
  constructor
  · intro hae q hq
    by_contra hno
    push Not at hno
    obtain ⟨c, hc, hle⟩ := (chain_of h.obj).lower hin hq (not_gets fun e he hne => hno e he hne)
    have hanti : ∀ᵐ ω ∂uniformDraws, Antitone fun n => ω ∈ {ω | ¬ ArrivedBy F P ω s n i} := by
      filter_upwards [uniformDraws_nonzero] with ω hω
      refine antitone_nat_of_succ_le fun n hn hA => hn ?_
      obtain ⟨s1, w1, wd1, r1, e1, n1, hre⟩ := follows_some h hwd hω.1 n
      obtain ⟨s2, w2, wd2, r2, e2, -⟩ := follows_some h hwd hω.1 (n + 1)
      obtain ⟨wd3, wd4, e3, e4, hl, -⟩ := arrived_frozen h hwd hω.1 hi (Nat.le_succ n) hA r1 r2
      obtain ⟨s5, w5, wd5, q5, r5, e5, l5, hq5⟩ := hA
      obtain ⟨rfl, -⟩ := r1.unique r5
      rw [e3] at e5
      cases e5
      rw [e1] at e3
      cases e3
      exact ⟨s2, w2, wd4, q5, r2, e4, by rw [← l5]; exact lastPos_lists hre e1 (by omega) hl, hq5⟩
    have hev : ∀ n, {ω | ∀ m, m ≤ n → ¬ ArrivedBy F P ω s m i} =ᵐ[uniformDraws] {ω | ¬ ArrivedBy F P ω s n i} := by
      intro n
      rw [Filter.eventuallyEq_set]
      filter_upwards [hanti] with ω hω
      exact ⟨fun hx => hx n le_rfl, fun hx m hm => hω hm hx⟩
    have hlim := tendsto_measure_iInter_atTop (μ := uniformDraws) (s := fun n => {ω | ∀ m, m ≤ n → ¬ ArrivedBy F P ω s m i})
      (fun n => (hlaw n).1.congr (hev n).symm) (fun n m hnm ω hω k hk => hω k (hk.trans hnm)) ⟨0, measure_ne_top _ _⟩
    have hz : uniformDraws (⋂ n, {ω | ∀ m, m ≤ n → ¬ ArrivedBy F P ω s m i}) = 0 := by
      rw [measure_eq_zero_iff_ae_notMem]
      filter_upwards [hae] with ω hω hx
      obtain ⟨n, hn⟩ := hω
      exact Set.mem_iInter.1 hx n n le_rfl hn
    rw [hz] at hlim
    have : c ≤ 0 := ge_of_tendsto' hlim fun n => by
      change c ≤ uniformDraws {ω | ∀ m, m ≤ n → ¬ ArrivedBy F P ω s m i}
      rw [measure_congr (hev n), (hlaw n).2]
      exact hle n
    exact absurd this (not_le.2 hc)
  · intro hesc
    obtain ⟨L, ρ, hL, hρ, hb⟩ := (chain_free h.obj).rate ((inside_finite R C).subset fun p hp => hp.1) fun p hp => by
      obtain ⟨e, h1, h2⟩ := hp.2 p .refl
      exact Gets.of_path h1 h2
    rw [ae_iff]
    have hle : ∀ n : Nat, uniformDraws {ω | ¬ ∃ n, ArrivedBy F P ω s n i} ≤ ENNReal.ofNNReal ρ ^ n := fun n => by
      refine (measure_mono (t := {ω | ¬ ArrivedBy F P ω s (n * L) i}) fun ω (hω : ¬ ∃ n, ArrivedBy F P ω s n i) hA => hω ⟨_, hA⟩).trans ?_
      rw [(hlaw (n * L)).2]
      have := hb (n * L) p ⟨hin, hesc⟩
      rwa [Nat.mul_div_cancel _ hL] at this
    exact le_antisymm (ge_of_tendsto' (ENNReal.tendsto_pow_atTop_nhds_zero_of_lt_one (by exact_mod_cast hρ)) hle) zero_le

/-- C115: if every cell the particles may come to has a way out then with probability one there is a number of calls after which further calls change
nothing in the walk data. -/
theorem C115_ends (h : Reach Arith.exact F (Enclosed Arith.exact F R C) Draws (InsideSeeds R C) P s)
    (ha : ∀ k, k < 9 → k ≠ 4 → ∃ a, P.angles k = .fin a) {wd : WalkData ℝ} (hwd : s.walk = some wd)
    (ht0 : ∀ i, i < wd.xinds.length → ∃ t, wd.lastTime i = some (.fin t))
    (hesc : ∀ i p, i < wd.xinds.length → wd.lastPos i = some p → Escapes (flowOf F P) P p) :
    ∀ᵐ ω ∂uniformDraws, ∃ n, (∀ i, i < wd.xinds.length → ArrivedBy F P ω s n i) ∧ ∀ m, n ≤ m → ∀ s1 s2 w1 w2,
      AfterRuns Arith.exact F P ω s n s1 w1 → AfterRuns Arith.exact F P ω s m s2 w2 → ∃ wd1 wd2, s1.walk = some wd1 ∧ s2.walk = some wd2 ∧
        ∀ i, i < wd.xinds.length → wd2.lists i = wd1.lists i ∧ ∀ var, wd2.optList var i = wd1.optList var i := by
  have hall : ∀ᵐ ω ∂uniformDraws, ∃ n, ∀ i, i < wd.xinds.length → ArrivedBy F P ω s n i := by
    obtain ⟨T, hT⟩ := C115_mean h.obj ha
    have hsum := hT s h wd hwd ht0 hesc
    have hne : ∑' n, uniformDraws {ω | ¬ ∀ i, i < wd.xinds.length → ArrivedBy F P ω s n i} ≠ ⊤ :=
      (hsum.trans_lt (ENNReal.mul_lt_top (ENNReal.natCast_lt_top _) ENNReal.coe_lt_top)).ne
    filter_upwards [ae_eventually_notMem hne] with ω hω
    obtain ⟨n, hn⟩ := hω.exists
    exact ⟨n, not_not.1 hn⟩
  filter_upwards [hall, uniformDraws_nonzero] with ω hA hω
  obtain ⟨n, hA⟩ := hA
  refine ⟨n, hA, fun m hm s1 s2 w1 w2 r1 r2 => ?_⟩
  obtain ⟨s3, w3, wd1, r3, e1, -⟩ := follows_some h hwd hω.1 n
  obtain ⟨s4, w4, wd2, r4, e2, -⟩ := follows_some h hwd hω.1 m
  obtain ⟨rfl, -⟩ := r1.unique r3
  obtain ⟨rfl, -⟩ := r2.unique r4
  refine ⟨wd1, wd2, e1, e2, fun i hi => ?_⟩
  obtain ⟨wd3, wd4, e3, e4, h5, h6⟩ := arrived_frozen h hwd hω.1 hi hm (hA i hi) r1 r2
  rw [e1] at e3
  rw [e2] at e4
  cases e3
  cases e4
  exact ⟨h5, h6⟩

/-- C115: a particle none of whose possible cells is next to an edge never comes next to one. -/
theorem C115_trapped (h : Reach Arith.exact F (Enclosed Arith.exact F R C) Draws (InsideSeeds R C) P s)
    (ha : ∀ k, k < 9 → k ≠ 4 → ∃ a, P.angles k = .fin a) {wd : WalkData ℝ} (hwd : s.walk = some wd)
    (ht0 : ∀ i, i < wd.xinds.length → ∃ t, wd.lastTime i = some (.fin t)) {i : Nat} (hi : i < wd.xinds.length) {p : Int × Int}
    (hp : wd.lastPos i = some p)
    (hno : ∀ e : Int × Int, Relation.ReflTransGen (CanMove (flowOf F P) P) p e → ¬ NearEdge P e.1.toNat e.2.toNat) :
    ∀ᵐ ω ∂uniformDraws, ∀ n, ¬ ArrivedBy F P ω s n i := by
  rw [ae_all_iff]
  intro n
  obtain ⟨x, hx, hin⟩ := last_inside h hwd hi
  rw [hp] at hx
  cases hx
  obtain ⟨hm, hl⟩ := arrived_law h ha hwd ht0 n hi hp
  rw [(chain_of h.obj).trapped n hin (not_gets hno)] at hl
  exact (prob_compl_eq_zero_iff₀ hm).2 hl

end

/-! ## Concrete cases -/

theorem moveProb_pos {F : Fun ℝ Arith.exact} {R C : Nat} {P : PObj ℝ} (hP : Enclosed Arith.exact F R C P) (hst : P.steepest = false) {a b k : Nat}
    (hin : Inside R C ((a : Int), (b : Int))) (hk : k < 9) (he : ¬ NearEdge P a b) (hw : 0 < (flowOf F P).weight a b k) :
    CanMove (flowOf F P) P (a, b) ((Flow.nr a k : Nat), (Flow.nc b k : Nat)) := by
  obtain ⟨a', b', e, h1, h2, h3, h4⟩ := hin.nat
  obtain ⟨rfl, rfl⟩ : a = a' ∧ b = b' := by simpa using e
  obtain ⟨-, -, hpos⟩ := candidates_exact (F := F) hP.built.good (a := a) (b := b) ⟨h1, by rw [hP.rows]; exact h2, h3, by rw [hP.cols]; exact h4⟩
  unfold CanMove moveProb
  rw [if_neg (show ¬ NearEdge P ((a : Int), (b : Int)).1.toNat ((a : Int), (b : Int)).2.toNat from he)]
  refine lt_of_lt_of_le ?_ (single_le_sum (fun _ _ => zero_le) (mem_range.2 hk))
  rw [if_pos (by simp)]
  change 0 < (flowOf F P).chooseProb P.steepest a b k
  unfold Flow.chooseProb
  rw [if_neg (by rw [hst]; simp)]
  refine ENNReal.ofReal_pos.2 (div_pos ?_ (hpos hst))
  unfold Flow.candidate
  rw [if_neg (by rw [hst]; simp)]
  exact hw

/-- In the wide channel a particle can go straight ahead, unless it is next to an edge. -/
theorem wideObj_down {a b : Nat} (hin : Inside 11 11 ((a : Int), (b : Int))) (he : ¬ NearEdge wideObj a b) :
    CanMove (flowOf Fun.real wideObj) wideObj (a, b) ((a + 1 : Nat), (b : Nat)) := by
  have hcell : ∀ i j, (flowOf Fun.real wideObj).depth i j = 1 ∧ (flowOf Fun.real wideObj).a i j = 1 + (j : ℝ) / 10 ∧ (flowOf Fun.real wideObj).b i j = 0 ∧
      ¬ (flowOf Fun.real wideObj).land i j := by
    intro i j
    refine ⟨rfl, rfl, rfl, ?_⟩
    change ¬ ((if interiorB 11 11 i j then (if Fl.lt (.fin (1 : ℝ)) (.fin (1 / 10)) then 2 else 0) else -1) : Int) = 2
    have : Fl.lt (.fin (1 : ℝ)) (.fin (1 / 10)) = false := by simp [Fl.lt]; norm_num
    rw [this]
    split_ifs <;> simp_all
  have hstage : ∀ i j, ((flowOf Fun.real wideObj).stage i j).isSome := by
    intro i j
    change (((if Fl.eq (.fin (1 : ℝ)) (.fin 0) then Fl.nan else .fin (2 - (i : ℝ) / 100)) : Fl ℝ).num?).isSome
    rw [if_neg (by simp [Fl.eq])]
    rfl
  have hp : ∀ k, (flowOf Fun.real wideObj).Passable a b k := fun k => by
    refine ⟨?_, (hcell _ _).2.2.2⟩
    rw [(hcell _ _).1]
    change (1 / 10 : ℝ) < 1
    norm_num
  have hsl : ∀ k, 0 ≤ (flowOf Fun.real wideObj).slope a b k := by
    intro k
    unfold Flow.slope Flow.drop
    split_ifs
    · split
      · exact le_max_left _ _
      · exact le_rfl
    · exact le_rfl
  have hnn : ∀ k, 0 ≤ (flowOf Fun.real wideObj).inertia a b k := by
    intro k
    unfold Flow.inertia
    split_ifs
    · exact le_max_left _ _
    · exact le_rfl
  have h7 : 0 < (flowOf Fun.real wideObj).inertia a b 7 := by
    unfold Flow.inertia
    rw [if_pos (hp 7), (hcell a b).2.1, (hcell a b).2.2.1]
    change 0 < max 0 (((1 + (b : ℝ) / 10) * 1 + 0 * 0) / 1)
    refine lt_max_of_lt_right ?_
    positivity
  have hpw : (flowOf Fun.real wideObj).pw 1 = 1 := by
    change ((if (1 : ℝ) = 0 then Fl.fin 1 else if (0 : ℝ) < 1 then .fin (1 ^ (1 : ℝ)) else _) : Fl ℝ).num = 1
    rw [if_neg one_ne_zero, if_pos one_pos]
    exact Real.one_rpow 1
  obtain ⟨a', b', e, h1, h2, h3, h4⟩ := hin.nat
  obtain ⟨rfl, rfl⟩ : a = a' ∧ b = b' := by simpa using e
  have hnr : Flow.nr a 7 = a + 1 := by unfold Flow.nr; omega
  have hnc : Flow.nc b 7 = b := by unfold Flow.nc; omega
  have hf : 0 < (flowOf Fun.real wideObj).flow a b 7 := by
    unfold Flow.flow
    rw [if_pos ⟨hp 7, hstage _ _, hstage _ _⟩, (hcell _ _).1, hpw, one_mul,
      show (flowOf Fun.real wideObj).gamma = 1 / 20 from rfl]
    unfold Flow.share
    have hS : 0 < ∑ m ∈ range 9, (flowOf Fun.real wideObj).inertia a b m := sum_pos' (fun k _ => hnn k) ⟨7, by simp, h7⟩
    have e1 : 0 ≤ (flowOf Fun.real wideObj).slope a b 7 / ∑ m ∈ range 9, (flowOf Fun.real wideObj).slope a b m :=
      div_nonneg (hsl 7) (sum_nonneg fun k _ => hsl k)
    have e2 := div_pos h7 hS
    linarith
  have hw : 0 < (flowOf Fun.real wideObj).weight a b 7 := by
    unfold Flow.weight
    rw [if_neg fun hd => hf.ne' (hd 7 (by norm_num))]
    exact hf
  have := moveProb_pos wideObj_enclosed rfl hin (by norm_num) he hw
  rwa [hnr, hnc] at this

theorem wideObj_escapes {p : Int × Int} (hp : Inside 11 11 p) : Escapes (flowOf Fun.real wideObj) wideObj p := by
  have way : ∀ (n : Nat) (p : Int × Int), Inside 11 11 p → 11 ≤ n + p.1.toNat →
      ∃ e : Int × Int, Relation.ReflTransGen (CanMove (flowOf Fun.real wideObj) wideObj) p e ∧ NearEdge wideObj e.1.toNat e.2.toNat := by
    intro n
    induction n with
    | zero =>
      intro p hp hn
      obtain ⟨a, b, rfl, -, h2, -⟩ := hp.nat
      simp at hn
      omega
    | succ n ih =>
      intro p hp hn
      by_cases he : NearEdge wideObj p.1.toNat p.2.toNat
      · exact ⟨p, .refl, he⟩
      obtain ⟨a, b, rfl, -, h2, -⟩ := hp.nat
      have hm := wideObj_down hp he
      have hin : Inside 11 11 (((a + 1 : Nat) : Int), (b : Int)) := by_contra fun hc => hm.ne' (moveProb_outside wideObj_enclosed hp hc)
      obtain ⟨e, h3, h4⟩ := ih _ hin (by simp at hn ⊢; omega)
      exact ⟨e, .head hm h3, h4⟩
  intro q hq
  have hin : Inside 11 11 q := by
    induction hq with
    | refl => exact hp
    | tail _ hm ih => exact by_contra fun hc => hm.ne' (moveProb_outside wideObj_enclosed ih hc)
  exact way 11 q hin (by omega)

theorem wideObj_angles : ∀ k, k < 9 → k ≠ 4 → ∃ a, wideObj.angles k = .fin a := by
  intro k hk _
  interval_cases k <;> exact ⟨_, rfl⟩

/-- A pond of one cell: the centre is a metre deep, everything around it is dry. -/
noncomputable def pondChan : Params ℝ := { realChan with depth := some ⟨5, 5, fun i j => .fin (if i = 2 ∧ j = 2 then 1 else 0)⟩ }

theorem pondChan_valid : ValidParams pondChan where
  depth g hg := by cases hg; exact fun _ _ _ _ => Or.inr ⟨_, rfl⟩
  stage g hg := by cases hg; exact realConst_ok _
  topography g hg := by cases hg
  qx g hg := by cases hg; exact realConst_ok _
  qy g hg := by cases hg; exact realConst_ok _
  u g hg := by cases hg
  v g hg := by cases hg
  gamma x hx := by cases hx
  dryDepth x hx := by cases hx
  distances t ht := by cases ht
  ivec t ht := by cases ht
  jvec t ht := by cases ht

/-- The object for the pond. -/
noncomputable def pondObj : PObj ℝ := (initParticles Arith.exact Fun.real pondChan).toOption.get rfl

theorem pondObj_init : initParticles Arith.exact Fun.real pondChan = .ok pondObj := rfl

theorem pondObj_enclosed : Enclosed Arith.exact Fun.real 5 5 pondObj := by
  obtain ⟨h1, h2, h3⟩ := C17_default_ring (p := pondChan) rfl rfl rfl rfl pondObj_init
  have hb : Built Arith.exact Fun.real pondObj := ⟨pondChan, pondChan_valid, pondObj_init⟩
  refine ⟨hb, rfl, rfl, h1, h2, ?_, h3⟩
  intro k hk h0
  obtain ⟨d, hd, hd0⟩ := hb.good.dist_pos k hk
  rw [hd] at h0
  injection h0 with h0
  exact (mul_pos hd0 (show (0 : ℝ) < pondObj.dx by change (0 : ℝ) < 10; norm_num)).ne' h0

theorem pondObj_angles : ∀ k, k < 9 → k ≠ 4 → ∃ a, pondObj.angles k = .fin a := by
  intro k hk _
  interval_cases k <;> exact ⟨_, rfl⟩

theorem pondObj_far : ¬ NearEdge pondObj 2 2 := by
  intro he
  obtain ⟨i, j, hi, hj, h1, h2, h3⟩ := he
  have : pondObj.cellType.at' i j = if interiorB 5 5 i j then (if Fl.lt (.fin (if i = 2 ∧ j = 2 then (1 : ℝ) else 0)) (.fin (1 / 10)) then 2 else 0) else -1 := rfl
  rw [this, if_pos (by unfold interiorB; simp; omega)] at h3
  split_ifs at h3

theorem pondObj_weight {k : Nat} (hk : k < 9) (h4 : k ≠ 4) : (flowOf Fun.real pondObj).weight 2 2 k = 0 := by
  have hd : ∀ i j, (flowOf Fun.real pondObj).depth i j = if i = 2 ∧ j = 2 then 1 else 0 := fun _ _ => rfl
  have hne : ∀ k, k < 9 → k ≠ 4 → ¬ (Flow.nr 2 k = 2 ∧ Flow.nc 2 k = 2) := by
    unfold Flow.nr Flow.nc
    intro k hk h4
    omega
  have hdead : (flowOf Fun.real pondObj).DeadEnd 2 2 := by
    intro k hk
    unfold Flow.flow
    by_cases h4 : k = 4
    · subst h4
      have hs : (flowOf Fun.real pondObj).slope 2 2 4 = 0 := by
        unfold Flow.slope
        split_ifs
        · change Flow.drop ((flowOf Fun.real pondObj).stage 2 2) ((flowOf Fun.real pondObj).stage 2 2) _ = 0
          unfold Flow.drop
          cases (flowOf Fun.real pondObj).stage 2 2 <;> simp
        · rfl
      have hi : (flowOf Fun.real pondObj).inertia 2 2 4 = 0 := by
        unfold Flow.inertia
        split_ifs
        · change max 0 (((2 : ℝ) * 0 + 0 * 0) / 1) = 0
          norm_num
        · rfl
      unfold Flow.share
      rw [hs, hi]
      simp
    · rw [if_neg]
      rintro ⟨⟨h, -⟩, -⟩
      rw [hd, if_neg (hne k hk h4)] at h
      change (1 / 10 : ℝ) < 0 at h
      norm_num at h
  unfold Flow.weight
  rw [if_pos hdead, if_neg]
  intro h
  have := h 4 (by norm_num)
  rw [hd, hd, if_neg (hne k hk h4)] at this
  change (if (2 : Nat) = 2 ∧ (2 : Nat) = 2 then (1 : ℝ) else 0) ≤ 0 at this
  norm_num at this

theorem pondObj_stays {e : Int × Int} (h : Relation.ReflTransGen (CanMove (flowOf Fun.real pondObj) pondObj) (2, 2) e) : e = (2, 2) := by
  induction h with
  | refl => rfl
  | tail _ hm ih =>
    subst ih
    by_contra hne
    refine hm.ne' ?_
    unfold moveProb
    rw [if_neg (show ¬ NearEdge pondObj ((2, 2) : Int × Int).1.toNat ((2, 2) : Int × Int).2.toNat from pondObj_far)]
    refine sum_eq_zero fun k hk => ?_
    have hk := mem_range.1 hk
    split_ifs with hq
    · have h4 : k ≠ 4 := by
        rintro rfl
        exact hne hq
      change (flowOf Fun.real pondObj).chooseProb false 2 2 k = 0
      unfold Flow.chooseProb Flow.candidate
      simp [pondObj_weight hk h4]
    · rfl

/-- C115 in the wide channel: whatever the cells of the two particles, both leave, and after that nothing changes any more. In the pond: the particle stays
away from the edge forever, so the condition on the ways out cannot be left out. -/
example : (∃ (s : PState ℝ) (wd : WalkData ℝ), Reach Arith.exact Fun.real (Enclosed Arith.exact Fun.real 11 11) Draws (InsideSeeds 11 11) wideObj s ∧
      s.walk = some wd ∧ wd.xinds.length = 2 ∧ ¬ NearEdge wideObj 5 5 ∧ (∀ i, i < 2 → wd.lastPos i = some (5, 5)) ∧
      (∃ (L : Nat) (ρ : NNReal), 0 < L ∧ ρ < 1 ∧ ∀ n, uniformDraws {ω | ¬ ∀ i, i < 2 → ArrivedBy Fun.real wideObj ω s n i} ≤ 2 * ENNReal.ofNNReal ρ ^ (n / L)) ∧
      ∀ᵐ ω ∂uniformDraws, ∃ n, ArrivedBy Fun.real wideObj ω s n 0) ∧
    ∃ (s : PState ℝ) (wd : WalkData ℝ), Reach Arith.exact Fun.real (Enclosed Arith.exact Fun.real 5 5) Draws (InsideSeeds 5 5) pondObj s ∧
      s.walk = some wd ∧ wd.lastPos 0 = some (2, 2) ∧ ¬ Escapes (flowOf Fun.real pondObj) pondObj (2, 2) ∧
      ∀ᵐ ω ∂uniformDraws, ∀ n, ¬ ArrivedBy Fun.real pondObj ω s n 0 := by
  constructor
  · obtain ⟨s0, h0, wd, hwd, hlen, hl0, ht0⟩ : ∃ s0, generateParticles Arith.exact wideObj (fun _ => 1 / 2) (initState Arith.exact Fun.real wideObj 0) (.int 2)
      (.list [.int 5, .int 5]) (.list [.int 5, .int 5]) (.int 0) (.str "exact") none = .ok s0 ∧ ∃ wd, s0.walk = some wd ∧ wd.xinds.length = 2 ∧
        (∀ i, i < 2 → wd.lastPos i = some (5, 5)) ∧ ∀ i, i < 2 → wd.lastTime i = some (.fin ((0 : Int) : ℝ)) :=
      ⟨_, rfl, _, rfl, rfl, fun i hi => by interval_cases i <;> rfl, fun i hi => by interval_cases i <;> rfl⟩
    have hc : genInputCheck (K := ℝ) (.int 2) (.list [.int 5, .int 5]) (.list [.int 5, .int 5]) (.int 0) (.str "exact") =
      .ok (2, [5, 5], [5, 5], .fin ((0 : Int) : ℝ), .exact) := rfl
    have hreach : Reach Arith.exact Fun.real (Enclosed Arith.exact Fun.real 11 11) Draws (InsideSeeds 11 11) wideObj s0 :=
      .generate (.new 0 wideObj_enclosed) (fun _ => by norm_num) hc (by norm_num)
        (by intro x hx y hy; simp at hx hy; subst hx hy; unfold Inside; decide) h0
    have ht : ∀ i, i < wd.xinds.length → ∃ t, wd.lastTime i = some (.fin t) := fun i hi => ⟨_, ht0 i (by omega)⟩
    have hin : Inside 11 11 ((5, 5) : Int × Int) := by unfold Inside; decide
    have hesc : ∀ i p, i < wd.xinds.length → wd.lastPos i = some p → Escapes (flowOf Fun.real wideObj) wideObj p := by
      intro i p hi hp
      rw [hl0 i (by omega)] at hp
      cases hp
      exact wideObj_escapes hin
    refine ⟨s0, wd, hreach, hwd, hlen, ?_, hl0, ?_, (C115_iff hreach wideObj_angles hwd ht (by omega) (hl0 0 (by norm_num))).2 (wideObj_escapes hin)⟩
    · rintro ⟨i, j, hi, hj, h1, h2, h3⟩
      have : wideObj.cellType.at' i j = if interiorB 11 11 i j then (if Fl.lt (.fin (1 : ℝ)) (.fin (1 / 10)) then 2 else 0) else -1 := rfl
      rw [this, if_pos (by unfold interiorB; simp; omega)] at h3
      split_ifs at h3
    · obtain ⟨L, ρ, h1, h2, h3⟩ := C115_rate wideObj_enclosed wideObj_angles
      refine ⟨L, ρ, h1, h2, fun n => ?_⟩
      have := h3 s0 hreach wd hwd ht hesc n
      rw [hlen] at this
      exact_mod_cast this
  · obtain ⟨s0, h0, wd, hwd, hlen, hl0, ht0⟩ : ∃ s0, generateParticles Arith.exact pondObj (fun _ => 1 / 2) (initState Arith.exact Fun.real pondObj 0) (.int 1)
      (.list [.int 2]) (.list [.int 2]) (.int 0) (.str "exact") none = .ok s0 ∧ ∃ wd, s0.walk = some wd ∧ wd.xinds.length = 1 ∧
        wd.lastPos 0 = some (2, 2) ∧ wd.lastTime 0 = some (.fin ((0 : Int) : ℝ)) :=
      ⟨_, rfl, _, rfl, rfl, rfl, rfl⟩
    have hc : genInputCheck (K := ℝ) (.int 1) (.list [.int 2]) (.list [.int 2]) (.int 0) (.str "exact") =
      .ok (1, [2], [2], .fin ((0 : Int) : ℝ), .exact) := rfl
    have hreach : Reach Arith.exact Fun.real (Enclosed Arith.exact Fun.real 5 5) Draws (InsideSeeds 5 5) pondObj s0 :=
      .generate (.new 0 pondObj_enclosed) (fun _ => by norm_num) hc (by norm_num)
        (by intro x hx y hy; simp at hx hy; subst hx hy; unfold Inside; decide) h0
    have ht : ∀ i, i < wd.xinds.length → ∃ t, wd.lastTime i = some (.fin t) := fun i hi => by
      obtain rfl : i = 0 := by omega
      exact ⟨_, ht0⟩
    have hno : ∀ e : Int × Int, Relation.ReflTransGen (CanMove (flowOf Fun.real pondObj) pondObj) (2, 2) e → ¬ NearEdge pondObj e.1.toNat e.2.toNat := by
      intro e he
      rw [pondObj_stays he]
      exact pondObj_far
    refine ⟨s0, wd, hreach, hwd, hl0, fun hesc => ?_, C115_trapped hreach pondObj_angles hwd ht (by omega) hl0 hno⟩
    obtain ⟨e, h1, h2⟩ := hesc _ .refl
    exact hno e h1 h2

end Dorado
