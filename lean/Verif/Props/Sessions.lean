import Verif.Lemmas.Renew
import Verif.Props.Ensemble
import Verif.Props.Resume

/-! # C110: a simulation may be stopped, and resumed later with new random numbers -/

set_option linter.unusedSectionVars false

namespace Dorado

open MeasureTheory

noncomputable section

variable {A : Arith ℝ} {F : Fun ℝ A} {R C : Nat} {P : PObj ℝ} {s : PState ℝ}

/-- The operations of later sessions. -/
def sessOps (A : Arith ℝ) (F : Fun ℝ A) (P : PObj ℝ) (N : Nat) (cs : List (Nat × List (Option (Fl ℝ) × Int))) : List (Nat × List (Fin N × Op Mach)) :=
  cs.map fun c => (c.1, callsOps A F P N c.2)

theorem sessOps_meas {N : Nat} {cs : List (Nat × List (Option (Fl ℝ) × Int))} : ∀ L ∈ sessOps A F P N cs, ∀ io ∈ L.2, io.2.Meas := by
  intro L hL
  obtain ⟨c, -, rfl⟩ := List.mem_map.1 hL
  exact callsOps_meas

theorem sessOps_flat {N : Nat} (cs : List (Nat × List (Option (Fl ℝ) × Int))) :
    (sessOps A F P N cs).flatMap (·.2) = callsOps A F P N (cs.flatMap (·.2)) := by
  unfold sessOps callsOps
  rw [List.flatMap_map, List.flatMap_assoc]

/-- Later sessions. -/
theorem sessions_feed (hE : Enclosed A F R C P) (hk : KnownVars P) (hRo : Routable A P) {N : Nat} (hN : 0 < N) (cs : List (Nat × List (Option (Fl ℝ) × Int)))
    {Ω : Nat → Nat → ℝ} (hΩ : ∀ n, Draws (Ω n)) {s : PState ℝ} {rows : List (Row ℝ)} (hs : Sound A F P s rows) {st : Fin N → Mach} (hm : Matches rows st) :
    ∃ s' rows', sessions A F P cs Ω s = .ok s' ∧ Sound A F P s' rows' ∧ Matches rows' (sessDeal (sessOps A F P N cs) Ω st) := by
  induction cs generalizing Ω s rows st with
  | nil => exact ⟨s, rows, rfl, hs, hm⟩
  | cons c cs ih =>
    have hw : PickEquiv A F P (initState A F P c.1).world.weight :=
      ((Reach.new (A := A) (F := F) (Ob := Enclosed A F R C) (Ω := Draws) (Sd := InsideSeeds R C) c.1 hE).state (fun P h => h.built.good)).1
    have hg := generate_none (F := F) (A := A) hk (Ω 0) c.1 (ofRows (keysOf P) rows) rfl
    obtain ⟨s1, rows1, h1, h2, h3⟩ := calls_feed hRo (hΩ 0) hN c.2 (s := { initState A F P c.1 with np := rows.length, walk := some (ofRows (keysOf P) rows) })
      ⟨hw, ⟨rfl, rfl⟩, hs.ok⟩ hm
    obtain ⟨s', rows', e1, e2, e3⟩ := ih (Ω := fun n => Ω (n + 1)) (fun n => hΩ (n + 1)) h2 h3
    refine ⟨s', rows', ?_, e2, e3⟩
    unfold sessions
    rw [hs.has.1, hg]
    simp only [ok_bind, h1, e1]

theorem over_feed (h : Reach A F (Enclosed A F R C) Draws (InsideSeeds R C) P s) {wd : WalkData ℝ} (hwd : s.walk = some wd)
    (calls : List (Option (Fl ℝ) × Int)) (cs : List (Nat × List (Option (Fl ℝ) × Int))) :
    ∃ st : Fin wd.xinds.length → Mach, (∀ Ω : Nat → Nat → ℝ, (∀ n, Draws (Ω n)) → ∀ i : Fin wd.xinds.length, (∃ s', overSessions A F P calls cs Ω s = .ok s') ∧
        historyIn i (overSessions A F P calls cs Ω s) =
          (sessDeal ((s.world.pos, callsOps A F P wd.xinds.length calls) :: sessOps A F P wd.xinds.length cs) Ω st i).history) ∧
      ∀ (ω : Nat → ℝ), Draws ω → ∀ (calls : List (Option (Fl ℝ) × Int)) (i : Fin wd.xinds.length), historyIn i (runCalls A F P ω calls s) =
        ((deal (fun n => ω (n + s.world.pos)) (callsOps A F P wd.xinds.length calls) (st, 0)).1 i).history := by
  obtain ⟨hR, rows, hrows, hs⟩ := Enclosed.sound h hwd
  have hl : wd.xinds.length = rows.length := by rw [hrows]; simp [ofRows]
  have hal : ∀ r ∈ rows, r.aligned := fun r hr => (hs.ok r hr).vars.aligned
  have hm : Matches rows (fun j : Fin wd.xinds.length => machOf (rows[j.val]'(by omega))) := ⟨hl.symm, fun j r hr => by
    have hj : j.val < rows.length := by have := j.2; omega
    rw [List.getElem?_eq_getElem hj] at hr
    cases hr
    exact machOf_match (hal _ (List.getElem_mem hj))⟩
  have hk : KnownVars P := h.known (by rw [hwd]; simp)
  refine ⟨_, fun Ω hΩ i => ?_, fun ω hω calls i => historyIn_feed hR hω calls hs hm i⟩
  obtain ⟨s1, rows1, h1, h2, h3⟩ := calls_feed hR (hΩ 0) i.pos calls hs hm
  obtain ⟨s', rows', e1, e2, e3⟩ := sessions_feed h.obj hk hR i.pos cs (Ω := fun n => Ω (n + 1)) (fun n => hΩ (n + 1)) h2 h3
  have e : overSessions A F P calls cs Ω s = .ok s' := by
    unfold overSessions
    simp only [h1, ok_bind, e1]
  refine ⟨⟨s', e⟩, ?_⟩
  rw [e]
  unfold historyIn
  simp only [e2.has.1]
  have hlt : i.val < rows'.length := by have := e3.1; omega
  rw [history_ofRows (List.getElem?_eq_getElem hlt), (e3.2 i _ (List.getElem?_eq_getElem hlt)).history]
  rfl

theorem sessionDraws_draws : ∀ᵐ Ω ∂sessionDraws, ∀ n, Draws (Ω n) := by
  refine ae_all_iff.2 fun n => ?_
  have hmp := measurePreserving_eval_infinitePi (fun _ : Nat => uniformDraws) n
  have h0 : ∀ᵐ ω ∂uniformDraws, Draws ω := uniformDraws_nonzero.mono fun ω hω => hω.1
  exact hmp.quasiMeasurePreserving.ae h0

/-- Whatever the random numbers of the sessions, no call raises. -/
theorem C110_never_raises (h : Reach A F (Enclosed A F R C) Draws (InsideSeeds R C) P s) {wd : WalkData ℝ} (hwd : s.walk = some wd) (hN : 0 < wd.xinds.length)
    (calls : List (Option (Fl ℝ) × Int)) (cs : List (Nat × List (Option (Fl ℝ) × Int))) {Ω : Nat → Nat → ℝ} (hΩ : ∀ n, Draws (Ω n)) :
    ∃ s', overSessions A F P calls cs Ω s = .ok s' := by
  obtain ⟨st, hst, -⟩ := over_feed h hwd calls cs
  exact (hst Ω hΩ ⟨0, hN⟩).1

theorem over_law (h : Reach A F (Enclosed A F R C) Draws (InsideSeeds R C) P s) {wd : WalkData ℝ} (hwd : s.walk = some wd)
    (calls : List (Option (Fl ℝ) × Int)) (cs : List (Nat × List (Option (Fl ℝ) × Int))) :
    AEMeasurable (fun Ω (i : Fin wd.xinds.length) => historyIn i (overSessions A F P calls cs Ω s)) sessionDraws ∧
    sessionDraws.map (fun Ω (i : Fin wd.xinds.length) => historyIn i (overSessions A F P calls cs Ω s)) =
      uniformDraws.map fun ω (i : Fin wd.xinds.length) => historyIn i (runCalls A F P ω (calls ++ cs.flatMap (·.2)) s) := by
  have hf := over_feed h hwd calls cs
  generalize wd.xinds.length = N at hf ⊢
  obtain ⟨st, h1, h2⟩ := hf
  generalize hLs : (s.world.pos, callsOps A F P N calls) :: sessOps A F P N cs = Ls at h1
  have hLm : ∀ L ∈ Ls, ∀ io ∈ L.2, io.2.Meas := by
    intro L hL
    rw [← hLs] at hL
    rcases List.mem_cons.1 hL with rfl | hL
    · exact callsOps_meas
    · exact sessOps_meas L hL
  have hflat : Ls.flatMap (·.2) = callsOps A F P N (calls ++ cs.flatMap (·.2)) := by
    rw [← hLs, List.flatMap_cons, sessOps_flat]
    unfold callsOps
    rw [List.flatMap_append]
  have hhist : Measurable fun (x : Fin N → Mach) (i : Fin N) => (x i).history :=
    measurable_pi_lambda _ fun i => Mach.history_measurable.comp (measurable_pi_apply i)
  have ae1 : (fun Ω (i : Fin N) => historyIn i (overSessions A F P calls cs Ω s)) =ᵐ[sessionDraws] fun Ω (i : Fin N) => (sessDeal Ls Ω st i).history := by
    filter_upwards [sessionDraws_draws] with Ω hΩ
    funext i
    exact (h1 Ω hΩ i).2
  have hs := uniformDraws_shift s.world.pos
  have hd : Measurable fun (ω : Nat → ℝ) (i : Fin N) => ((deal ω (callsOps A F P N (calls ++ cs.flatMap (·.2))) (st, 0)).1 i).history :=
    hhist.comp ((deal_measurable callsOps_meas 0).comp (measurable_const.prodMk measurable_id))
  have hsd : Measurable fun (Ω : Nat → Nat → ℝ) (i : Fin N) => (sessDeal Ls Ω st i).history :=
    hhist.comp ((sessDeal_measurable hLm).comp (measurable_const.prodMk measurable_id))
  refine ⟨⟨_, hsd, ae1⟩, ?_⟩
  have e2 : uniformDraws.map (fun ω (i : Fin N) => historyIn i (runCalls A F P ω (calls ++ cs.flatMap (·.2)) s)) =
      uniformDraws.map fun ω (i : Fin N) => ((deal ω (callsOps A F P N (calls ++ cs.flatMap (·.2))) (st, 0)).1 i).history := by
    conv_rhs => rw [← hs.map_eq]
    rw [Measure.map_map hd hs.measurable]
    refine Measure.map_congr ?_
    filter_upwards [uniformDraws_nonzero] with ω hω
    funext i
    exact h2 ω hω.1 _ i
  rw [Measure.map_congr ae1, e2]
  refine Measure.ext fun S hS => ?_
  rw [Measure.map_apply hsd hS, Measure.map_apply hd hS]
  have := sessDeal_law hLm st (hhist hS)
  rw [hflat] at this
  exact this

/-- Any rounding, both routing modes, any history: the records of all particles after a simulation spread over sessions with random numbers of their own have the
same joint distribution as after all the calls in one session. -/
theorem C110_sessions (h : Reach A F (Enclosed A F R C) Draws (InsideSeeds R C) P s) {wd : WalkData ℝ} (hwd : s.walk = some wd)
    (calls : List (Option (Fl ℝ) × Int)) (cs : List (Nat × List (Option (Fl ℝ) × Int))) :
    sessionDraws.map (fun Ω (i : Fin wd.xinds.length) => historyIn i (overSessions A F P calls cs Ω s)) =
      uniformDraws.map fun ω (i : Fin wd.xinds.length) => historyIn i (runCalls A F P ω (calls ++ cs.flatMap (·.2)) s) :=
  (over_law h hwd calls cs).2

/-- The particles stay independent, and each is distributed as if it were alone in one session. -/
theorem C110_independent (h : Reach A F (Enclosed A F R C) Draws (InsideSeeds R C) P s) {wd : WalkData ℝ} (hwd : s.walk = some wd)
    (calls : List (Option (Fl ℝ) × Int)) (cs : List (Nat × List (Option (Fl ℝ) × Int))) :
    ProbabilityTheory.iIndepFun (fun (i : Fin wd.xinds.length) Ω => historyIn i (overSessions A F P calls cs Ω s)) sessionDraws ∧
    ∀ i : Fin wd.xinds.length, sessionDraws.map (fun Ω => historyIn i (overSessions A F P calls cs Ω s)) =
      uniformDraws.map fun ω => historyIn 0 (runCalls A F P ω (calls ++ cs.flatMap (·.2)) (alone s.world (wd.only i))) := by
  obtain ⟨hm, hl⟩ := over_law h hwd calls cs
  have hm' := fun i : Fin wd.xinds.length => (history_aemeasurable h hwd (calls ++ cs.flatMap (·.2)) i)
  have hX : ∀ i : Fin wd.xinds.length, AEMeasurable (fun Ω => historyIn i (overSessions A F P calls cs Ω s)) sessionDraws := fun i =>
    (measurable_pi_apply i).comp_aemeasurable hm
  have hpr : ∀ i : Fin wd.xinds.length, IsProbabilityMeasure
      (uniformDraws.map fun ω => historyIn 0 (runCalls A F P ω (calls ++ cs.flatMap (·.2)) (alone s.world (wd.only i)))) :=
    fun i => Measure.isProbabilityMeasure_map (hm' i).2
  rw [C107_joint_law h hwd] at hl
  have hmarg : ∀ i : Fin wd.xinds.length, sessionDraws.map (fun Ω => historyIn i (overSessions A F P calls cs Ω s)) =
      uniformDraws.map fun ω => historyIn 0 (runCalls A F P ω (calls ++ cs.flatMap (·.2)) (alone s.world (wd.only i))) := by
    intro i
    have e := (measurePreserving_eval (fun i : Fin wd.xinds.length =>
      uniformDraws.map fun ω => historyIn 0 (runCalls A F P ω (calls ++ cs.flatMap (·.2)) (alone s.world (wd.only i)))) i).map_eq
    rw [← hl, AEMeasurable.map_map_of_aemeasurable (measurable_pi_apply i).aemeasurable hm] at e
    exact e
  refine ⟨(ProbabilityTheory.iIndepFun_iff_map_fun_eq_pi_map hX).2 ?_, hmarg⟩
  simp only [hmarg]
  exact hl

/-- The hypotheses are met: eight particles in the middle of a grid, driven by a plain call and a call with a target time, then by another plain call in a second
session and by a call with a target time in a third. -/
example : ∃ (s : PState ℝ) (wd : WalkData ℝ),
    Reach Arith.exact Fun.real (Enclosed Arith.exact Fun.real 5 5) Draws (InsideSeeds 5 5) realObj s ∧ s.walk = some wd ∧ wd.xinds.length = 8 ∧
    sessionDraws.map (fun Ω (i : Fin wd.xinds.length) => historyIn i
        (overSessions Arith.exact Fun.real realObj [(none, 10000), (some (.fin 5), 100)] [(0, [(none, 10000)]), (3, [(some (.fin 9), 100)])] Ω s)) =
      uniformDraws.map fun ω (i : Fin wd.xinds.length) => historyIn i
        (runCalls Arith.exact Fun.real realObj ω [(none, 10000), (some (.fin 5), 100), (none, 10000), (some (.fin 9), 100)] s) := by
  obtain ⟨s0, h0, wd, hwd, hlen⟩ : ∃ s0, generateParticles Arith.exact realObj (fun _ => 1 / 2) (initState Arith.exact Fun.real realObj 0) (.int 8)
    (.list [.int 2, .int 2, .int 2, .int 2, .int 2, .int 2, .int 2, .int 2]) (.list [.int 2, .int 2, .int 2, .int 2, .int 2, .int 2, .int 2, .int 2])
    (.int 0) (.str "exact") none = .ok s0 ∧ ∃ wd, s0.walk = some wd ∧ wd.xinds.length = 8 :=
    ⟨_, rfl, _, rfl, rfl⟩
  have hc : genInputCheck (K := ℝ) (.int 8) (.list [.int 2, .int 2, .int 2, .int 2, .int 2, .int 2, .int 2, .int 2])
    (.list [.int 2, .int 2, .int 2, .int 2, .int 2, .int 2, .int 2, .int 2]) (.int 0) (.str "exact") =
    .ok (8, [2, 2, 2, 2, 2, 2, 2, 2], [2, 2, 2, 2, 2, 2, 2, 2], .fin ((0 : Int) : ℝ), .exact) := rfl
  have hreach : Reach Arith.exact Fun.real (Enclosed Arith.exact Fun.real 5 5) Draws (InsideSeeds 5 5) realObj s0 :=
    .generate (.new 0 realObj_enclosed) (fun _ => by norm_num) hc (by norm_num)
      (by intro x hx y hy; simp at hx hy; subst hx hy; unfold Inside; decide) h0
  exact ⟨s0, wd, hreach, hwd, hlen, C110_sessions hreach hwd _ _⟩

end

end Dorado
