import Verif.Lemmas.Feed
import Verif.Spec.Sessions

/-! Helper lemmas: going on with a new stream instead of the rest of the old one changes no distribution. -/

set_option linter.unusedSectionVars false

namespace Dorado

open MeasureTheory Finset

noncomputable section

/-- An element in front of a sequence. -/
def consSeq {X : Type} (p : X × (Nat → X)) : Nat → X := fun n => Nat.casesOn n p.1 p.2

theorem consSeq_measurable {X : Type} [MeasurableSpace X] : Measurable (consSeq (X := X)) := by
  refine measurable_pi_lambda _ fun n => ?_
  cases n with
  | zero => exact measurable_fst
  | succ n => exact (measurable_pi_apply n).comp measurable_snd

/-- A sequence of independent samples is a sample followed by an independent sequence. -/
theorem infinitePi_cons {X : Type} [MeasurableSpace X] (μ : Measure X) [IsProbabilityMeasure μ] :
    (μ.prod (Measure.infinitePi fun _ : Nat => μ)).map consSeq = Measure.infinitePi fun _ : Nat => μ := by
  refine Measure.eq_infinitePi _ fun s t ht => ?_
  classical
  rw [Measure.map_apply consSeq_measurable (MeasurableSet.pi s.countable_toSet fun i _ => ht i)]
  have e : consSeq ⁻¹' Set.pi s t = (if 0 ∈ s then t 0 else Set.univ) ×ˢ Set.pi (Finset.preimage s Nat.succ Nat.succ_injective.injOn) fun n => t (n + 1) := by
    ext ⟨u, ω⟩
    simp only [Set.mem_preimage, Set.mem_pi, Set.mem_prod, SetLike.mem_coe, Finset.mem_preimage]
    constructor
    · intro h
      refine ⟨?_, fun n hn => h (n + 1) hn⟩
      split
      · rename_i h0; exact h 0 h0
      · trivial
    · rintro ⟨h0, h1⟩ n hn
      cases n with
      | zero => rw [if_pos hn] at h0; exact h0
      | succ n => exact h1 n hn
  rw [e, Measure.prod_prod, Measure.infinitePi_pi _ fun i _ => ht _]
  have e2 : ∏ i ∈ Finset.preimage s Nat.succ Nat.succ_injective.injOn, μ (t (i + 1)) = ∏ i ∈ s.filter (· ∈ Set.range Nat.succ), μ (t i) :=
    Finset.prod_preimage' Nat.succ s Nat.succ_injective.injOn fun i => μ (t i)
  have e3 : s.filter (· ∈ Set.range Nat.succ) = s.erase 0 := by
    ext n
    simp only [Set.mem_range, mem_filter, mem_erase]
    cases n with
    | zero => simp
    | succ n => simp
  rw [e2, e3]
  split
  · rename_i h0
    exact Finset.mul_prod_erase s (fun i => μ (t i)) h0
  · rename_i h0
    rw [Finset.erase_eq_of_notMem h0, measure_univ, one_mul]

instance sessionDraws_probability : IsProbabilityMeasure sessionDraws := by unfold sessionDraws; infer_instance

/-- Probability of an event by its sections at the first stream. -/
theorem sessionDraws_split {E : Set (Nat → Nat → ℝ)} (hE : MeasurableSet E) :
    sessionDraws E = ∫⁻ ω, sessionDraws {Ω | consSeq (ω, Ω) ∈ E} ∂uniformDraws := by
  have := infinitePi_cons uniformDraws
  conv_lhs => rw [sessionDraws, ← this]
  rw [Measure.map_apply consSeq_measurable hE, Measure.prod_apply (consSeq_measurable hE)]
  rfl

/-- Integrals by the first draw. -/
theorem uniformDraws_lintegral {f : (Nat → ℝ) → ENNReal} (hf : Measurable f) :
    ∫⁻ ω, f ω ∂uniformDraws = ∫⁻ u, ∫⁻ ω, f (consDraw (u, ω)) ∂uniformDraws ∂oneDraw := by
  conv_lhs => rw [← uniformDraws_cons]
  rw [lintegral_map hf consDraw_measurable]
  exact lintegral_prod _ (hf.comp consDraw_measurable).aemeasurable

section
variable {ι St : Type} [MeasurableSpace St] [Countable ι]

theorem deal_set {L : List (ι × Op St)} (h : ∀ io ∈ L, io.2.Meas) (st : ι → St) (pos : Nat) {S : Set (ι → St)} (hS : MeasurableSet S) :
    MeasurableSet {ω | (deal ω L (st, pos)).1 ∈ S} :=
  ((deal_measurable h pos).comp (measurable_const.prodMk measurable_id) : Measurable fun ω : Nat → ℝ => (deal ω L (st, pos)).1) hS

/-- The probability of a set of outcomes is a measurable function of the initial states. -/
theorem outcome_measurable {L : List (ι × Op St)} (h : ∀ io ∈ L, io.2.Meas) {S : Set (ι → St)} (hS : MeasurableSet S) :
    Measurable fun st : ι → St => uniformDraws {ω | (deal ω L (st, 0)).1 ∈ S} :=
  measurable_measure_prodMk_left ((deal_measurable h 0) hS)

/-- The states after `L` may be followed by `L'` with a new stream. -/
theorem deal_renew {L L' : List (ι × Op St)} (h : ∀ io ∈ L, io.2.Meas) (h' : ∀ io ∈ L', io.2.Meas) (st : ι → St) {S : Set (ι → St)} (hS : MeasurableSet S) :
    uniformDraws {ω | (deal ω (L ++ L') (st, 0)).1 ∈ S} =
      ∫⁻ ω, uniformDraws {ω' | (deal ω' L' ((deal ω L (st, 0)).1, 0)).1 ∈ S} ∂uniformDraws := by
  induction L generalizing st with
  | nil =>
    simp only [List.nil_append, deal_nil, lintegral_const, measure_univ, mul_one]
  | cons io L ih =>
    have hL : ∀ o ∈ L, o.2.Meas := fun o ho => h o (by simp [ho])
    have hm : ∀ o ∈ L ++ L', o.2.Meas := fun o ho => (List.mem_append.1 ho).elim (hL o) (h' o)
    have hm1 : ∀ o ∈ io :: (L ++ L'), o.2.Meas := fun o ho => (List.mem_append.1 (List.cons_append ▸ ho : o ∈ io :: L ++ L')).elim (h o) (h' o)
    by_cases hn : io.2.need (st io.1)
    · classical
      have first : ∀ (M : List (ι × Op St)) (u : ℝ) (ω : Nat → ℝ), (deal (consDraw (u, ω)) (io :: M) (st, 0)).1 =
          (deal ω M (Function.update st io.1 (io.2.draw (st io.1) u), 0)).1 := by
        intro M u ω
        have e : deal (consDraw (u, ω)) (io :: M) (st, 0) =
            deal (consDraw (u, ω)) M (Function.update st io.1 (io.2.draw (st io.1) u), 0 + 1) := by
          change deal _ M (dealStep _ _ _) = _
          unfold dealStep
          rw [if_pos hn]
          congr 3
        rw [e, deal_shift]
        rfl
      rw [List.cons_append, uniformDraws_split (deal_set hm1 st 0 hS)]
      have hmeas : Measurable fun ω : Nat → ℝ => uniformDraws {ω' | (deal ω' L' ((deal ω (io :: L) (st, 0)).1, 0)).1 ∈ S} :=
        (outcome_measurable h' hS).comp ((deal_measurable h 0).comp (measurable_const.prodMk measurable_id))
      rw [uniformDraws_lintegral hmeas]
      refine lintegral_congr fun u => ?_
      simp only [first]
      have := ih hL (Function.update st io.1 (io.2.draw (st io.1) u))
      simp only [Set.mem_ofPred_eq, first]
      exact this
    · classical
      simp only [List.cons_append, deal_skip _ hn]
      exact ih hL _

/-- Sessions of operations; each reads a stream of its own from some position on. -/
def sessDeal : List (Nat × List (ι × Op St)) → (Nat → Nat → ℝ) → (ι → St) → (ι → St)
  | [], _, st => st
  | L :: Ls, Ω, st => sessDeal Ls (fun n => Ω (n + 1)) (deal (Ω 0) L.2 (st, L.1)).1

theorem sessDeal_measurable {Ls : List (Nat × List (ι × Op St))} (h : ∀ L ∈ Ls, ∀ io ∈ L.2, io.2.Meas) :
    Measurable fun p : (ι → St) × (Nat → Nat → ℝ) => sessDeal Ls p.2 p.1 := by
  induction Ls with
  | nil => exact measurable_fst
  | cons L Ls ih =>
    have h1 : Measurable fun p : (ι → St) × (Nat → Nat → ℝ) => (deal (p.2 0) L.2 (p.1, L.1)).1 :=
      (deal_measurable (h L (by simp)) L.1).comp (measurable_fst.prodMk ((measurable_pi_apply 0).comp measurable_snd))
    have h2 : Measurable fun p : (ι → St) × (Nat → Nat → ℝ) => (fun n => p.2 (n + 1)) :=
      measurable_pi_lambda _ fun n => (measurable_pi_apply (n + 1)).comp measurable_snd
    exact (ih fun L hL => h L (by simp [hL])).comp (h1.prodMk h2)

/-- All sessions in one go. -/
theorem sessDeal_law {Ls : List (Nat × List (ι × Op St))} (h : ∀ L ∈ Ls, ∀ io ∈ L.2, io.2.Meas) (st : ι → St) {S : Set (ι → St)} (hS : MeasurableSet S) :
    sessionDraws {Ω | sessDeal Ls Ω st ∈ S} = uniformDraws {ω | (deal ω (Ls.flatMap (·.2)) (st, 0)).1 ∈ S} := by
  induction Ls generalizing st with
  | nil =>
    simp only [sessDeal, List.flatMap_nil, deal_nil]
    by_cases hs : st ∈ S
    · simp [hs]
    · simp [hs]
  | cons L Ls ih =>
    have hLs : ∀ L ∈ Ls, ∀ io ∈ L.2, io.2.Meas := fun L hL => h L (by simp [hL])
    have hL := h L (by simp)
    have hflat : ∀ io ∈ Ls.flatMap (·.2), io.2.Meas := fun io hio => by
      obtain ⟨M, hM, hio⟩ := List.mem_flatMap.1 hio
      exact hLs M hM io hio
    have hE : MeasurableSet {Ω : Nat → Nat → ℝ | sessDeal (L :: Ls) Ω st ∈ S} :=
      ((sessDeal_measurable h).comp (measurable_const.prodMk measurable_id) : Measurable fun Ω : Nat → Nat → ℝ => sessDeal (L :: Ls) Ω st) hS
    rw [sessionDraws_split hE, List.flatMap_cons, deal_renew hL hflat st hS]
    have e : ∀ ω : Nat → ℝ, sessionDraws {Ω | consSeq (ω, Ω) ∈ {Ω : Nat → Nat → ℝ | sessDeal (L :: Ls) Ω st ∈ S}} =
        uniformDraws {ω' | (deal ω' (Ls.flatMap (·.2)) ((deal (fun n => ω (n + L.1)) L.2 (st, 0)).1, 0)).1 ∈ S} := by
      intro ω
      have hs := deal_shift ω L.2 st 0 L.1
      rw [Nat.zero_add] at hs
      rw [← ih hLs, ← congrArg Prod.fst hs]
      rfl
    simp only [e]
    have hmeas : Measurable fun ω : Nat → ℝ => uniformDraws {ω' | (deal ω' (Ls.flatMap (·.2)) ((deal ω L.2 (st, 0)).1, 0)).1 ∈ S} :=
      (outcome_measurable hflat hS).comp ((deal_measurable hL 0).comp (measurable_const.prodMk measurable_id))
    exact (uniformDraws_shift L.1).lintegral_comp hmeas

end

end

end Dorado
