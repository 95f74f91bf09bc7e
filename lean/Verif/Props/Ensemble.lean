import Verif.Lemmas.Ensemble
import Verif.Props.Course

/-! # Particles are independent however the simulation is driven: C107 -/

set_option linter.unusedSectionVars false

namespace Dorado

open MeasureTheory

variable {A : Arith ℝ} {F : Fun ℝ A} {R C : Nat} {P : PObj ℝ} {s : PState ℝ}

theorem Enclosed.sound (h : Reach A F (Enclosed A F R C) Draws (InsideSeeds R C) P s) {wd : WalkData ℝ} (hwd : s.walk = some wd) :
    Routable A P ∧ ∃ rows, wd = ofRows (keysOf P) rows ∧ Sound A F P s rows := by
  obtain ⟨hpe, h0 | ⟨rows, hr, hrows⟩⟩ := Enclosed.rowsOk h
  · rw [h0] at hwd; cases hwd
  have hO := h.obj
  refine ⟨⟨hO.built.fields, hO.walk, hO.steps, hO.ring, hO.angles, h.avail (by rw [hwd]; simp)⟩, rows, ?_, hpe, hr, fun r hrm => ?_⟩
  · have := hr.1
    rw [hwd] at this
    injection this
  · obtain ⟨hv, hin⟩ := hrows r hrm
    refine ⟨hv, fun p hp => ?_⟩
    rw [hO.rows, hO.cols]
    have hlen := hv.aligned
    have hne : r.ts ≠ [] := by
      intro h0
      have h1 := hlen.2.1
      have h2 := hlen.2.2
      rw [h0] at h1
      simp at h1
      omega
    exact hin _ p _ (Row.last_rec hlen hp (List.getLast?_eq_some_getLast hne))

/-- Any rounding, any history, any draws: no call of any sequence of calls raises, for all particles together or for one of them by itself. -/
theorem C107_never_raises (h : Reach A F (Enclosed A F R C) Draws (InsideSeeds R C) P s) {wd : WalkData ℝ} (hwd : s.walk = some wd)
    {ω : Nat → ℝ} (hω : Draws ω) (calls : List (Option (Fl ℝ) × Int)) {i : Nat} (hi : i < wd.xinds.length) :
    (∃ s', runCalls A F P ω calls s = .ok s') ∧ ∃ s', runCalls A F P ω calls (alone s.world (wd.only i)) = .ok s' := by
  obtain ⟨hR, rows, hrows, hs⟩ := Enclosed.sound h hwd
  have hl : wd.xinds.length = rows.length := by rw [hrows]; simp [ofRows]
  have hri := List.getElem?_eq_getElem (show i < rows.length by omega)
  have hal : ∀ r ∈ rows, r.aligned := fun r hr => (hs.ok r hr).vars.aligned
  obtain ⟨s', -, h1, -⟩ := calls_feed hR hω (N := rows.length) (by omega) calls hs (st := fun j => machOf rows[j.val]) ⟨rfl, fun j r hr => by
    rw [List.getElem?_eq_getElem j.2] at hr
    cases hr
    exact machOf_match (hal _ (List.getElem_mem _))⟩
  obtain ⟨s2, -, h2, -⟩ := calls_feed hR hω (N := 1) (by omega) calls (hs.single hwd hri) (st := fun _ => machOf rows[i]) ⟨rfl, fun j r hr => by
    have : j.val = 0 := by omega
    rw [this] at hr
    cases hr
    exact machOf_match (hal _ (List.getElem_mem _))⟩
  exact ⟨⟨s', h1⟩, ⟨s2, h2⟩⟩

/-- The histories as functions of the stream. -/
theorem histories (h : Reach A F (Enclosed A F R C) Draws (InsideSeeds R C) P s) {wd : WalkData ℝ} (hwd : s.walk = some wd)
    (calls : List (Option (Fl ℝ) × Int)) : ∃ st : Fin wd.xinds.length → Mach, ∀ ω, Draws ω → ∀ i : Fin wd.xinds.length,
      historyIn i (runCalls A F P ω calls s) =
        ((deal (fun n => ω (n + s.world.pos)) (callsOps A F P wd.xinds.length calls) (st, 0)).1 i).history ∧
      historyIn 0 (runCalls A F P ω calls (alone s.world (wd.only i))) =
        ((deal (fun n => ω (n + s.world.pos)) (opsOf i (callsOps A F P wd.xinds.length calls)) (fun _ => st i, 0)).1 ()).history := by
  obtain ⟨hR, rows, hrows, hs⟩ := Enclosed.sound h hwd
  have hl : wd.xinds.length = rows.length := by rw [hrows]; simp [ofRows]
  have hal : ∀ r ∈ rows, r.aligned := fun r hr => (hs.ok r hr).vars.aligned
  refine ⟨fun j => machOf (rows[j.val]'(by omega)), fun ω hω i => ⟨?_, ?_⟩⟩
  · refine historyIn_feed hR hω calls hs ⟨by omega, fun j r hr => ?_⟩ i
    rw [List.getElem?_eq_getElem (by omega)] at hr
    cases hr
    exact machOf_match (hal _ (List.getElem_mem _))
  · have hri := List.getElem?_eq_getElem (show i.val < rows.length by omega)
    have := historyIn_feed hR hω (N := 1) calls (hs.single hwd hri) (st := fun _ => machOf rows[i.val]) ⟨rfl, fun j r hr => by
      have : j.val = 0 := by omega
      rw [this] at hr
      cases hr
      exact machOf_match (hal _ (List.getElem_mem _))⟩ 0
    rw [deal_single, ← opsOf_calls i] at this
    exact this

/-- Events that concern each particle separately. -/
theorem histories_event (h : Reach A F (Enclosed A F R C) Draws (InsideSeeds R C) P s) {wd : WalkData ℝ} (hwd : s.walk = some wd)
    (calls : List (Option (Fl ℝ) × Int)) {S : Fin wd.xinds.length → Set (History ℝ)} (hS : ∀ i, MeasurableSet (S i)) :
    uniformDraws {ω | ∀ i : Fin wd.xinds.length, historyIn i (runCalls A F P ω calls s) ∈ S i} =
      ∏ i : Fin wd.xinds.length, uniformDraws {ω | historyIn 0 (runCalls A F P ω calls (alone s.world (wd.only i))) ∈ S i} := by
  obtain ⟨st, hst⟩ := histories h hwd calls
  have hS' : ∀ i, MeasurableSet (Mach.history ⁻¹' S i) := fun i => Mach.history_measurable (hS i)
  have key := deal_independent (callsOps_meas (A := A) (F := F) (P := P) (N := wd.xinds.length) (calls := calls)) st hS'
  have hshift := uniformDraws_shift s.world.pos
  have e1 : uniformDraws {ω | ∀ i : Fin wd.xinds.length, historyIn i (runCalls A F P ω calls s) ∈ S i} =
      uniformDraws {ω | ∀ i : Fin wd.xinds.length, (deal ω (callsOps A F P wd.xinds.length calls) (st, 0)).1 i ∈ Mach.history ⁻¹' S i} := by
    rw [← hshift.measure_preimage (deal_event callsOps_meas st 0 hS').nullMeasurableSet]
    refine measure_congr ?_
    filter_upwards [uniformDraws_nonzero] with ω hω
    refine propext (forall_congr' fun i => ?_)
    rw [(hst ω hω.1 i).1]
    rfl
  rw [e1, key]
  refine Finset.prod_congr rfl fun i _ => ?_
  have hmeas : MeasurableSet {ω : Nat → ℝ | (deal ω (opsOf i (callsOps A F P wd.xinds.length calls)) (fun _ => st i, 0)).1 () ∈ Mach.history ⁻¹' S i} := by
    have := deal_event (κ := Unit) (L := opsOf i (callsOps A F P wd.xinds.length calls)) (fun io hio => by
      obtain ⟨o, ho, rfl⟩ := List.mem_map.1 hio
      exact callsOps_meas o (List.mem_of_mem_filter ho)) (fun _ => st i) 0 (S := fun _ => Mach.history ⁻¹' S i) fun _ => hS' i
    have e : {ω : Nat → ℝ | ∀ u : Unit, (deal ω (opsOf i (callsOps A F P wd.xinds.length calls)) (fun _ => st i, 0)).1 u ∈ Mach.history ⁻¹' S i} =
        {ω | (deal ω (opsOf i (callsOps A F P wd.xinds.length calls)) (fun _ => st i, 0)).1 () ∈ Mach.history ⁻¹' S i} := by
      ext ω
      exact ⟨fun h => h (), fun h _ => h⟩
    rwa [e] at this
  rw [← hshift.measure_preimage hmeas.nullMeasurableSet]
  refine measure_congr ?_
  filter_upwards [uniformDraws_nonzero] with ω hω
  refine propext (Iff.symm ?_)
  show historyIn 0 _ ∈ S i ↔ _
  rw [(hst ω hω.1 i).2]
  rfl

theorem history_aemeasurable (h : Reach A F (Enclosed A F R C) Draws (InsideSeeds R C) P s) {wd : WalkData ℝ} (hwd : s.walk = some wd)
    (calls : List (Option (Fl ℝ) × Int)) (i : Fin wd.xinds.length) :
    AEMeasurable (fun ω => historyIn i (runCalls A F P ω calls s)) uniformDraws ∧
    AEMeasurable (fun ω => historyIn 0 (runCalls A F P ω calls (alone s.world (wd.only i)))) uniformDraws := by
  obtain ⟨st, hst⟩ := histories h hwd calls
  have hsh : Measurable fun (ω : Nat → ℝ) n => ω (n + s.world.pos) := (uniformDraws_shift s.world.pos).measurable
  refine ⟨⟨fun ω => ((deal (fun n => ω (n + s.world.pos)) (callsOps A F P wd.xinds.length calls) (st, 0)).1 i).history, ?_, ?_⟩,
    ⟨fun ω => ((deal (fun n => ω (n + s.world.pos)) (opsOf i (callsOps A F P wd.xinds.length calls)) (fun _ => st i, 0)).1 ()).history, ?_, ?_⟩⟩
  · exact Mach.history_measurable.comp ((measurable_pi_apply i).comp ((deal_measurable callsOps_meas 0).comp (measurable_const.prodMk hsh)))
  · filter_upwards [uniformDraws_nonzero] with ω hω
    exact (hst ω hω.1 i).1
  · refine Mach.history_measurable.comp ((measurable_pi_apply ()).comp ((deal_measurable (fun io hio => ?_) 0).comp (measurable_const.prodMk hsh)))
    obtain ⟨o, ho, rfl⟩ := List.mem_map.1 hio
    exact callsOps_meas o (List.mem_of_mem_filter ho)
  · filter_upwards [uniformDraws_nonzero] with ω hω
    exact (hst ω hω.1 i).2

/-- Any rounding, both routing modes, any history, any sequence of calls with or without target times: the joint law of what is recorded of the particles
is the product of the laws the particles have when each is run by itself. -/
theorem C107_joint_law (h : Reach A F (Enclosed A F R C) Draws (InsideSeeds R C) P s) {wd : WalkData ℝ} (hwd : s.walk = some wd)
    (calls : List (Option (Fl ℝ) × Int)) :
    uniformDraws.map (fun ω (i : Fin wd.xinds.length) => historyIn i (runCalls A F P ω calls s)) =
      Measure.pi fun i : Fin wd.xinds.length => uniformDraws.map fun ω => historyIn 0 (runCalls A F P ω calls (alone s.world (wd.only i))) := by
  have hm := fun i => history_aemeasurable h hwd calls i
  have : ∀ i : Fin wd.xinds.length, IsProbabilityMeasure (uniformDraws.map fun ω => historyIn 0 (runCalls A F P ω calls (alone s.world (wd.only i)))) :=
    fun i => Measure.isProbabilityMeasure_map (hm i).2
  symm
  refine Measure.pi_eq fun S hS => ?_
  rw [Measure.map_apply_of_aemeasurable (aemeasurable_pi_lambda _ fun i => (hm i).1) (MeasurableSet.univ_pi hS)]
  have e : (fun ω (i : Fin wd.xinds.length) => historyIn i (runCalls A F P ω calls s)) ⁻¹' Set.univ.pi S =
      {ω | ∀ i : Fin wd.xinds.length, historyIn i (runCalls A F P ω calls s) ∈ S i} := by
    ext ω
    simp
  rw [e, histories_event h hwd calls hS]
  refine Finset.prod_congr rfl fun i _ => ?_
  rw [Measure.map_apply_of_aemeasurable (hm i).2 (hS i)]
  rfl

/-- What is recorded of a particle has the same law in company as alone. -/
theorem C107_own_law (h : Reach A F (Enclosed A F R C) Draws (InsideSeeds R C) P s) {wd : WalkData ℝ} (hwd : s.walk = some wd)
    (calls : List (Option (Fl ℝ) × Int)) (i : Fin wd.xinds.length) :
    uniformDraws.map (fun ω => historyIn i (runCalls A F P ω calls s)) =
      uniformDraws.map fun ω => historyIn 0 (runCalls A F P ω calls (alone s.world (wd.only i))) := by
  have hm := fun i => history_aemeasurable h hwd calls i
  refine Measure.ext fun B hB => ?_
  rw [Measure.map_apply_of_aemeasurable (hm i).1 hB, Measure.map_apply_of_aemeasurable (hm i).2 hB]
  classical
  have := histories_event h hwd calls (S := fun j => if j = i then B else Set.univ) fun j => by
    by_cases hj : j = i
    · simp only [hj, if_true]; exact hB
    · simp only [hj, if_false]; exact MeasurableSet.univ
  rw [Finset.prod_eq_single i (fun j _ hj => by simp [hj]) (by simp)] at this
  simp only [if_true] at this
  refine Eq.trans (congrArg _ ?_) this
  ext ω
  refine ⟨fun hω j => ?_, fun hω => ?_⟩
  · by_cases hj : j = i
    · simp only [hj, if_true]; exact hω
    · simp [hj]
  · have := hω i
    rwa [if_pos rfl] at this

/-- The particles are independent. -/
theorem C107_independent (h : Reach A F (Enclosed A F R C) Draws (InsideSeeds R C) P s) {wd : WalkData ℝ} (hwd : s.walk = some wd)
    (calls : List (Option (Fl ℝ) × Int)) :
    ProbabilityTheory.iIndepFun (fun (i : Fin wd.xinds.length) ω => historyIn i (runCalls A F P ω calls s)) uniformDraws := by
  have hm := fun i => history_aemeasurable h hwd calls i
  rw [ProbabilityTheory.iIndepFun_iff_map_fun_eq_pi_map fun i => (hm i).1, C107_joint_law h hwd calls]
  congr 1
  funext i
  exact (C107_own_law h hwd calls i).symm

/-- Particles with the same records so far are exchangeable samples of one law: the mean of any quantity between 0 and 1 read off the histories is within `ε`
of its expected value for a single particle, up to a probability of at most `2 exp (-2 N ε²)`. -/
theorem C107_monte_carlo (h : Reach A F (Enclosed A F R C) Draws (InsideSeeds R C) P s) {wd : WalkData ℝ} (hwd : s.walk = some wd)
    (hN : 0 < wd.xinds.length) (hsame : ∀ i, i < wd.xinds.length → wd.only i = wd.only 0) (calls : List (Option (Fl ℝ) × Int))
    {f : History ℝ → ℝ} (hf : Measurable f) (hf0 : ∀ c, 0 ≤ f c) (hf1 : ∀ c, f c ≤ 1) {ε : ℝ} (hε : 0 < ε) :
    uniformDraws.real {ω | ε ≤ |(∑ i : Fin wd.xinds.length, f (historyIn i (runCalls A F P ω calls s))) / wd.xinds.length -
      ∫ ω', f (historyIn 0 (runCalls A F P ω' calls (alone s.world (wd.only 0)))) ∂uniformDraws|} ≤ 2 * Real.exp (-2 * wd.xinds.length * ε ^ 2) := by
  have hm := fun i => history_aemeasurable h hwd calls i
  have := hoeffding_mean hN (fun i => (hm i).1) (C107_independent h hwd calls)
    (ν := fun _ => uniformDraws.map fun ω => historyIn 0 (runCalls A F P ω calls (alone s.world (wd.only 0))))
    (fun i => by rw [C107_own_law h hwd calls i, hsame i i.2]) hf hf0 hf1 hε
  have e : (∑ _i : Fin wd.xinds.length, ∫ c, f c ∂(uniformDraws.map fun ω => historyIn 0 (runCalls A F P ω calls (alone s.world (wd.only 0))))) /
      wd.xinds.length = ∫ ω', f (historyIn 0 (runCalls A F P ω' calls (alone s.world (wd.only 0)))) ∂uniformDraws := by
    have h0 := (hm ⟨0, hN⟩).2
    rw [Finset.sum_const, Finset.card_univ, Fintype.card_fin, nsmul_eq_mul, mul_div_cancel_left₀ _ (by positivity),
      integral_map h0 hf.aestronglyMeasurable]
  rw [e] at this
  exact this

/-- The law of the histories, from the machines. -/
theorem law_feed (hR : Routable A P) {rows : List (Row ℝ)} (hs : Sound A F P s rows) {N : Nat} {st : Fin N → Mach} (hm : Matches rows st)
    (calls : List (Option (Fl ℝ) × Int)) :
    uniformDraws.map (fun ω (i : Fin N) => historyIn i (runCalls A F P ω calls s)) =
      uniformDraws.map fun ω (i : Fin N) => ((deal ω (callsOps A F P N calls) (st, 0)).1 i).history := by
  have hsh := uniformDraws_shift s.world.pos
  have hg : Measurable fun (ω : Nat → ℝ) (i : Fin N) => ((deal ω (callsOps A F P N calls) (st, 0)).1 i).history := by
    rw [measurable_pi_iff]
    exact fun i => Mach.history_measurable.comp ((measurable_pi_apply i).comp ((deal_measurable callsOps_meas 0).comp
      (measurable_const.prodMk measurable_id)))
  conv_rhs => rw [← hsh.map_eq]
  rw [Measure.map_map hg hsh.measurable]
  refine Measure.map_congr ?_
  filter_upwards [uniformDraws_nonzero] with ω hω
  funext i
  exact historyIn_feed hR hω.1 calls hs hm i

/-- The law depends on the walk data only: not on what was drawn before, on the position in the random stream, or on the weights changed by earlier picks.
Continuing from the same walk data later, or with another object of the same parameters, gives the same law. -/
theorem C107_memoryless (h : Reach A F (Enclosed A F R C) Draws (InsideSeeds R C) P s) {wd : WalkData ℝ} (hwd : s.walk = some wd)
    {s2 : PState ℝ} (h2 : Reach A F (Enclosed A F R C) Draws (InsideSeeds R C) P s2) (hwd2 : s2.walk = some wd) (calls : List (Option (Fl ℝ) × Int)) :
    uniformDraws.map (fun ω (i : Fin wd.xinds.length) => historyIn i (runCalls A F P ω calls s)) =
      uniformDraws.map fun ω (i : Fin wd.xinds.length) => historyIn i (runCalls A F P ω calls s2) := by
  obtain ⟨hR, rows, hrows, hs⟩ := Enclosed.sound h hwd
  obtain ⟨-, rows2, hrows2, hs2⟩ := Enclosed.sound h2 hwd2
  have hl : wd.xinds.length = rows.length := by rw [hrows]; simp [ofRows]
  have hl2 : wd.xinds.length = rows2.length := by rw [hrows2]; simp [ofRows]
  have hal : ∀ r ∈ rows, r.aligned := fun r hr => (hs.ok r hr).vars.aligned
  let st : Fin wd.xinds.length → Mach := fun j => machOf (rows[j.val]'(by omega))
  have hm : Matches rows st := ⟨by omega, fun j r hr => by
    rw [List.getElem?_eq_getElem (by omega)] at hr
    cases hr
    exact machOf_match (hal _ (List.getElem_mem _))⟩
  have hm2 : Matches rows2 st := ⟨by omega, fun j r hr => by
    have hlt : j.val < rows.length := by omega
    have e := hrows.symm.trans hrows2
    have a1 := congrArg (fun w => w.xinds[j.val]?) e
    have a2 := congrArg (fun w => w.yinds[j.val]?) e
    have a3 := congrArg (fun w => w.times[j.val]?) e
    simp only [ofRows, List.getElem?_map, hr, List.getElem?_eq_getElem hlt, Option.map_some, Option.some.injEq] at a1 a2 a3
    exact (hm.2 j _ (List.getElem?_eq_getElem hlt)).sameLists a1.symm a2.symm a3.symm⟩
  rw [law_feed hR hs hm, law_feed hR hs2 hm2]

/-- A particle by itself moves in the same way whichever ensemble it was taken from. -/
theorem own_law_memoryless (h : Reach A F (Enclosed A F R C) Draws (InsideSeeds R C) P s) {wd : WalkData ℝ} (hwd : s.walk = some wd)
    {s2 : PState ℝ} (h2 : Reach A F (Enclosed A F R C) Draws (InsideSeeds R C) P s2) {wd2 : WalkData ℝ} (hwd2 : s2.walk = some wd2)
    {i k : Nat} (hi : i < wd.xinds.length) (hk : k < wd2.xinds.length) (hik : wd.only i = wd2.only k) (calls : List (Option (Fl ℝ) × Int)) :
    uniformDraws.map (fun ω => historyIn 0 (runCalls A F P ω calls (alone s.world (wd.only i)))) =
      uniformDraws.map fun ω => historyIn 0 (runCalls A F P ω calls (alone s2.world (wd2.only k))) := by
  obtain ⟨hR, rows, hrows, hs⟩ := Enclosed.sound h hwd
  obtain ⟨-, rows2, hrows2, hs2⟩ := Enclosed.sound h2 hwd2
  have hl : wd.xinds.length = rows.length := by rw [hrows]; simp [ofRows]
  have hl2 : wd2.xinds.length = rows2.length := by rw [hrows2]; simp [ofRows]
  have hri := List.getElem?_eq_getElem (show i < rows.length by omega)
  have hrk := List.getElem?_eq_getElem (show k < rows2.length by omega)
  have hal : rows[i].aligned := (hs.ok _ (List.getElem_mem _)).vars.aligned
  have hm : Matches [rows[i]] (fun _ : Fin 1 => machOf rows[i]) := ⟨rfl, fun j r hr => by
    have : j.val = 0 := by omega
    rw [this] at hr
    cases hr
    exact machOf_match hal⟩
  have e : ofRows (keysOf P) [rows[i]] = ofRows (keysOf P) [rows2[k]] := by
    rw [← only_ofRows hri, ← only_ofRows hrk, ← hrows, ← hrows2, hik]
  have hm2 : Matches [rows2[k]] (fun _ : Fin 1 => machOf rows[i]) := ⟨rfl, fun j r hr => by
    have : j.val = 0 := by omega
    rw [this] at hr
    cases hr
    simp only [ofRows, List.map_cons, List.map_nil, WalkData.mk.injEq, List.cons.injEq, and_true] at e
    exact (machOf_match hal).sameLists e.1.symm e.2.1.symm e.2.2.1.symm⟩
  have l1 := law_feed hR (hs.single hwd hri) hm calls
  have l2 := law_feed hR (hs2.single hwd2 hrk) hm2 calls
  have := congrArg (Measure.map fun f : Fin 1 → History ℝ => f 0) (l1.trans l2.symm)
  rwa [AEMeasurable.map_map_of_aemeasurable (measurable_pi_apply 0).aemeasurable (aemeasurable_pi_lambda _ fun j => ?_),
    AEMeasurable.map_map_of_aemeasurable (measurable_pi_apply 0).aemeasurable (aemeasurable_pi_lambda _ fun j => ?_)] at this
  · have hj : j = 0 := by omega
    subst hj
    exact (history_aemeasurable h2 hwd2 calls ⟨k, hk⟩).2
  · have hj : j = 0 := by omega
    subst hj
    exact (history_aemeasurable h hwd calls ⟨i, hi⟩).2

/-- The hypotheses are met: eight particles in the middle of a grid, driven by a plain call, a call with a target time and another plain call. Their histories
are independent, and the share of the particles with at least three records is as likely to be far from its expected value as for independent samples. -/
example : ∃ (s : PState ℝ) (wd : WalkData ℝ),
    Reach Arith.exact Fun.real (Enclosed Arith.exact Fun.real 5 5) Draws (InsideSeeds 5 5) realObj s ∧ s.walk = some wd ∧ wd.xinds.length = 8 ∧
    ProbabilityTheory.iIndepFun (fun (i : Fin wd.xinds.length) ω =>
      historyIn i (runCalls Arith.exact Fun.real realObj ω [(none, 10000), (some (.fin 5), 100), (none, 10000)] s)) uniformDraws ∧
    uniformDraws.real {ω | 1 / 2 ≤ |(∑ i : Fin wd.xinds.length, Set.indicator {c : History ℝ | (c 2).1 ≠ none} (fun _ => (1 : ℝ))
      (historyIn i (runCalls Arith.exact Fun.real realObj ω [(none, 10000), (some (.fin 5), 100), (none, 10000)] s))) / wd.xinds.length -
        ∫ ω', Set.indicator {c : History ℝ | (c 2).1 ≠ none} (fun _ => (1 : ℝ)) (historyIn 0 (runCalls Arith.exact Fun.real realObj ω'
          [(none, 10000), (some (.fin 5), 100), (none, 10000)] (alone s.world (wd.only 0)))) ∂uniformDraws|} ≤ 2 * Real.exp (-4) := by
  obtain ⟨s0, h0, wd, hwd, hlen, hsame⟩ : ∃ s0, generateParticles Arith.exact realObj (fun _ => 1 / 2) (initState Arith.exact Fun.real realObj 0) (.int 8)
    (.list [.int 2, .int 2, .int 2, .int 2, .int 2, .int 2, .int 2, .int 2]) (.list [.int 2, .int 2, .int 2, .int 2, .int 2, .int 2, .int 2, .int 2])
    (.int 0) (.str "exact") none = .ok s0 ∧ ∃ wd, s0.walk = some wd ∧ wd.xinds.length = 8 ∧ ∀ i, i < 8 → wd.only i = wd.only 0 :=
    ⟨_, rfl, _, rfl, rfl, fun i hi => by interval_cases i <;> rfl⟩
  have hc : genInputCheck (K := ℝ) (.int 8) (.list [.int 2, .int 2, .int 2, .int 2, .int 2, .int 2, .int 2, .int 2])
    (.list [.int 2, .int 2, .int 2, .int 2, .int 2, .int 2, .int 2, .int 2]) (.int 0) (.str "exact") =
    .ok (8, [2, 2, 2, 2, 2, 2, 2, 2], [2, 2, 2, 2, 2, 2, 2, 2], .fin ((0 : Int) : ℝ), .exact) := rfl
  have hreach : Reach Arith.exact Fun.real (Enclosed Arith.exact Fun.real 5 5) Draws (InsideSeeds 5 5) realObj s0 :=
    .generate (.new 0 realObj_enclosed) (fun _ => by norm_num) hc (by norm_num)
      (by intro x hx y hy; simp at hx hy; subst hx hy; unfold Inside; decide) h0
  refine ⟨s0, wd, hreach, hwd, hlen, C107_independent hreach hwd _, ?_⟩
  have hS : MeasurableSet {c : History ℝ | (c 2).1 ≠ none} :=
    (measurable_fst.comp (measurable_pi_apply 2) : Measurable fun c : History ℝ => (c 2).1) (MeasurableSet.of_discrete (s := some ⁻¹' {x : Option Int | x ≠ none}))
  have hmc := C107_monte_carlo hreach hwd (by omega) (fun i hi => hsame i (by omega)) [(none, 10000), (some (.fin 5), 100), (none, 10000)]
    (f := Set.indicator {c : History ℝ | (c 2).1 ≠ none} fun _ => (1 : ℝ))
    (measurable_const.indicator hS) (fun c => Set.indicator_nonneg (fun _ _ => zero_le_one) c)
    (fun c => Set.indicator_le' (fun _ _ => le_rfl) (fun _ _ => zero_le_one) c) (ε := 1 / 2) (by norm_num)
  refine hmc.trans (le_of_eq ?_)
  rw [hlen]
  norm_num

end Dorado
