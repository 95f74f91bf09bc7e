import Verif.Props.Ensemble

/-! # Particles may be spread over several objects: C108 -/

set_option linter.unusedSectionVars false

namespace Dorado

open MeasureTheory

variable {A : Arith ℝ} {F : Fun ℝ A} {R C : Nat} {P : PObj ℝ}

/-- What is recorded of the particles, arranged by any index. -/
theorem arranged_law {s : PState ℝ} (h : Reach A F (Enclosed A F R C) Draws (InsideSeeds R C) P s) {wd : WalkData ℝ} (hwd : s.walk = some wd)
    {ι : Type} [Fintype ι] (e : ι ≃ Fin wd.xinds.length) (calls : List (Option (Fl ℝ) × Int)) :
    uniformDraws.map (fun ω (p : ι) => historyIn (e p) (runCalls A F P ω calls s)) =
      Measure.pi fun p : ι => uniformDraws.map fun ω => historyIn 0 (runCalls A F P ω calls (alone s.world (wd.only (e p)))) := by
  have hm := fun i => history_aemeasurable h hwd calls i
  have hpr : ∀ p : ι, IsProbabilityMeasure (uniformDraws.map fun ω => historyIn 0 (runCalls A F P ω calls (alone s.world (wd.only (e p))))) :=
    fun p => Measure.isProbabilityMeasure_map (hm (e p)).2
  symm
  refine Measure.pi_eq fun S hS => ?_
  rw [Measure.map_apply_of_aemeasurable (aemeasurable_pi_lambda _ fun p => (hm (e p)).1) (MeasurableSet.univ_pi hS)]
  have e1 : (fun ω (p : ι) => historyIn (e p) (runCalls A F P ω calls s)) ⁻¹' Set.univ.pi S =
      {ω | ∀ i : Fin wd.xinds.length, historyIn i (runCalls A F P ω calls s) ∈ S (e.symm i)} := by
    ext ω
    simp only [Set.mem_preimage, Set.mem_pi, Set.mem_univ, true_imp_iff, Set.mem_ofPred_eq]
    refine ⟨fun h i => ?_, fun h p => ?_⟩
    · have := h (e.symm i)
      rwa [Equiv.apply_symm_apply] at this
    · have := h (e p)
      rwa [Equiv.symm_apply_apply] at this
  rw [e1, histories_event h hwd calls fun i => hS (e.symm i), ← Equiv.prod_comp e]
  refine Finset.prod_congr rfl fun p _ => ?_
  rw [Measure.map_apply_of_aemeasurable (hm (e p)).2 (hS _), Equiv.symm_apply_apply]
  rfl

/-- Any rounding, both routing modes, any histories, any calls: particles held by several objects of the same parameters, each with its own independent
random numbers, move jointly in the same way as if all were held by one object. `e` tells which particle of the one object corresponds to particle `i` of
object `j`; the two have the same records so far. -/
theorem C108_split {s : PState ℝ} (h : Reach A F (Enclosed A F R C) Draws (InsideSeeds R C) P s) {wd : WalkData ℝ} (hwd : s.walk = some wd)
    {m : Nat} {t : Fin m → PState ℝ} (ht : ∀ j, Reach A F (Enclosed A F R C) Draws (InsideSeeds R C) P (t j))
    {wt : Fin m → WalkData ℝ} (hwt : ∀ j, (t j).walk = some (wt j))
    (e : (Σ j : Fin m, Fin (wt j).xinds.length) ≃ Fin wd.xinds.length) (he : ∀ p, wd.only (e p) = (wt p.1).only p.2)
    (calls : List (Option (Fl ℝ) × Int)) :
    (Measure.pi fun _ : Fin m => uniformDraws).map (fun ω (p : Σ j : Fin m, Fin (wt j).xinds.length) => historyIn p.2 (runCalls A F P (ω p.1) calls (t p.1))) =
      uniformDraws.map fun ω (p : Σ j : Fin m, Fin (wt j).xinds.length) => historyIn (e p) (runCalls A F P ω calls s) := by
  have hm := fun i => history_aemeasurable h hwd calls i
  have hmt := fun j i => history_aemeasurable (ht j) (hwt j) calls i
  have hpr : ∀ p : Σ j : Fin m, Fin (wt j).xinds.length,
      IsProbabilityMeasure (uniformDraws.map fun ω => historyIn 0 (runCalls A F P ω calls (alone s.world (wd.only (e p))))) :=
    fun p => Measure.isProbabilityMeasure_map (hm (e p)).2
  rw [arranged_law h hwd e calls]
  symm
  refine Measure.pi_eq fun S hS => ?_
  have hae : AEMeasurable (fun (ω : Fin m → Nat → ℝ) (p : Σ j : Fin m, Fin (wt j).xinds.length) =>
      historyIn p.2 (runCalls A F P (ω p.1) calls (t p.1))) (Measure.pi fun _ : Fin m => uniformDraws) :=
    aemeasurable_pi_lambda _ fun p => (hmt p.1 p.2).1.comp_quasiMeasurePreserving (Measure.quasiMeasurePreserving_eval (fun _ : Fin m => uniformDraws) p.1)
  rw [Measure.map_apply_of_aemeasurable hae (MeasurableSet.univ_pi hS)]
  have e1 : (fun (ω : Fin m → Nat → ℝ) (p : Σ j : Fin m, Fin (wt j).xinds.length) => historyIn p.2 (runCalls A F P (ω p.1) calls (t p.1))) ⁻¹'
      Set.univ.pi S = Set.univ.pi fun j => {ω | ∀ i : Fin (wt j).xinds.length, historyIn i (runCalls A F P ω calls (t j)) ∈ S ⟨j, i⟩} := by
    ext ω
    simp only [Set.mem_preimage, Set.mem_pi, Set.mem_univ, true_imp_iff, Set.mem_ofPred_eq]
    exact ⟨fun h j i => h ⟨j, i⟩, fun h p => h p.1 p.2⟩
  rw [e1, Measure.pi_pi]
  have e2 : ∀ j, uniformDraws {ω | ∀ i : Fin (wt j).xinds.length, historyIn i (runCalls A F P ω calls (t j)) ∈ S ⟨j, i⟩} =
      ∏ i : Fin (wt j).xinds.length, (uniformDraws.map fun ω => historyIn 0 (runCalls A F P ω calls (alone s.world (wd.only (e ⟨j, i⟩))))) (S ⟨j, i⟩) := by
    intro j
    rw [histories_event (ht j) (hwt j) calls fun i => hS ⟨j, i⟩]
    refine Finset.prod_congr rfl fun i _ => ?_
    rw [own_law_memoryless h hwd (ht j) (hwt j) (e ⟨j, i⟩).2 i.2 (he ⟨j, i⟩) calls, Measure.map_apply_of_aemeasurable (hmt j i).2 (hS _)]
    rfl
  simp only [e2]
  rw [Fintype.prod_sigma]

/-- The order of the particles does not matter: with the particles arranged differently, what is recorded of them has the same joint law, arranged
accordingly. -/
theorem C108_order {s : PState ℝ} (h : Reach A F (Enclosed A F R C) Draws (InsideSeeds R C) P s) {wd : WalkData ℝ} (hwd : s.walk = some wd)
    {s2 : PState ℝ} (h2 : Reach A F (Enclosed A F R C) Draws (InsideSeeds R C) P s2) {wd2 : WalkData ℝ} (hwd2 : s2.walk = some wd2)
    (e : Fin wd2.xinds.length ≃ Fin wd.xinds.length) (he : ∀ i, wd.only (e i) = wd2.only i) (calls : List (Option (Fl ℝ) × Int)) :
    uniformDraws.map (fun ω (i : Fin wd2.xinds.length) => historyIn i (runCalls A F P ω calls s2)) =
      uniformDraws.map fun ω (i : Fin wd2.xinds.length) => historyIn (e i) (runCalls A F P ω calls s) := by
  rw [C107_joint_law h2 hwd2 calls, arranged_law h hwd e calls]
  congr 1
  funext i
  exact (own_law_memoryless h hwd h2 hwd2 (e i).2 i.2 (he i) calls).symm

/-- The hypotheses are met: six particles in the middle of a grid in one object, or split over two objects with two and four particles, the second of which has
drawn other random numbers before. -/
example : ∃ (s : PState ℝ) (wd : WalkData ℝ) (t : Fin 2 → PState ℝ) (wt : Fin 2 → WalkData ℝ) (e : (Σ j : Fin 2, Fin (wt j).xinds.length) ≃ Fin wd.xinds.length),
    s.walk = some wd ∧ (∀ j, (t j).walk = some (wt j)) ∧ wd.xinds.length = 6 ∧ (wt 0).xinds.length = 2 ∧ (wt 1).xinds.length = 4 ∧
    (Measure.pi fun _ : Fin 2 => uniformDraws).map (fun ω (p : Σ j : Fin 2, Fin (wt j).xinds.length) =>
      historyIn p.2 (runCalls Arith.exact Fun.real realObj (ω p.1) [(none, 10000), (some (.fin 5), 100)] (t p.1))) =
    uniformDraws.map fun ω (p : Σ j : Fin 2, Fin (wt j).xinds.length) =>
      historyIn (e p) (runCalls Arith.exact Fun.real realObj ω [(none, 10000), (some (.fin 5), 100)] s) := by
  have gen : ∀ (n k : Nat), n = 2 ∨ n = 4 ∨ n = 6 → ∃ s0 wd, Reach Arith.exact Fun.real (Enclosed Arith.exact Fun.real 5 5) Draws (InsideSeeds 5 5) realObj s0 ∧
      s0.walk = some wd ∧ wd.xinds.length = n ∧ ∀ i, i < n → wd.only i = ⟨[[2]], [[2]], [[.fin 0]], []⟩ := by
    intro n k hn
    have hl : ∀ x ∈ List.replicate n (2 : Int), x = 2 := fun x hx => (List.mem_replicate.1 hx).2
    obtain ⟨s0, h0, wd, hwd, hlen, hsame⟩ : ∃ s0, generateParticles Arith.exact realObj (fun _ => 1 / 2) (initState Arith.exact Fun.real realObj k) (.int n)
      (.list (List.replicate n (.int 2))) (.list (List.replicate n (.int 2))) (.int 0) (.str "exact") none = .ok s0 ∧
      ∃ wd, s0.walk = some wd ∧ wd.xinds.length = n ∧ ∀ i, i < n → wd.only i = ⟨[[2]], [[2]], [[.fin ((0 : Int) : ℝ)]], []⟩ := by
      rcases hn with rfl | rfl | rfl
      · exact ⟨_, rfl, _, rfl, rfl, fun i hi => by interval_cases i <;> rfl⟩
      · exact ⟨_, rfl, _, rfl, rfl, fun i hi => by interval_cases i <;> rfl⟩
      · exact ⟨_, rfl, _, rfl, rfl, fun i hi => by interval_cases i <;> rfl⟩
    have hc : genInputCheck (K := ℝ) (.int n) (.list (List.replicate n (.int 2))) (.list (List.replicate n (.int 2))) (.int 0) (.str "exact") =
      .ok (n, List.replicate n 2, List.replicate n 2, .fin ((0 : Int) : ℝ), .exact) := by
      rcases hn with rfl | rfl | rfl <;> rfl
    refine ⟨s0, wd, .generate (.new k realObj_enclosed) (fun _ => by norm_num) hc (by omega) ?_ h0, hwd, hlen, fun i hi => by rw [hsame i hi, Int.cast_zero]⟩
    intro x hx y hy
    rw [hl x hx, hl y hy]
    unfold Inside; decide
  obtain ⟨s, wd, hs, hwd, hlen, hsame⟩ := gen 6 0 (by omega)
  obtain ⟨t0, w0, ht0, hw0, hlen0, hsame0⟩ := gen 2 0 (by omega)
  obtain ⟨t1, w1, ht1, hw1, hlen1, hsame1⟩ := gen 4 17 (by omega)
  let t : Fin 2 → PState ℝ := fun j => if j = 0 then t0 else t1
  let wt : Fin 2 → WalkData ℝ := fun j => if j = 0 then w0 else w1
  have hcard : Fintype.card (Σ j : Fin 2, Fin (wt j).xinds.length) = Fintype.card (Fin wd.xinds.length) := by
    simp [wt, Fin.sum_univ_two, hlen, hlen0, hlen1]
  let e := Fintype.equivOfCardEq hcard
  have ht : ∀ j, Reach Arith.exact Fun.real (Enclosed Arith.exact Fun.real 5 5) Draws (InsideSeeds 5 5) realObj (t j) := fun j => by
    fin_cases j
    · exact ht0
    · exact ht1
  have hwt : ∀ j, (t j).walk = some (wt j) := fun j => by
    fin_cases j
    · exact hw0
    · exact hw1
  refine ⟨s, wd, t, wt, e, hwd, hwt, hlen, hlen0, hlen1, C108_split hs hwd ht hwt e (fun p => ?_) _⟩
  rw [hsame _ (by have := (e p).2; omega)]
  obtain ⟨j, i⟩ := p
  fin_cases j
  · exact (hsame0 i (by have := i.2; simp only [wt] at this; simpa [hlen0] using this)).symm
  · exact (hsame1 i (by have := i.2; simp only [wt] at this; simpa [hlen1] using this)).symm

end Dorado
