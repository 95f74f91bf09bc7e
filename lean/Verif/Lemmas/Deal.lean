import Verif.Spec.Law
import Mathlib.MeasureTheory.Measure.Prod
import Mathlib.MeasureTheory.Integral.Lebesgue.Basic

/-! Helper lemmas: participants who draw from one random stream, in an order that may depend on what was drawn, are independent. -/

set_option linter.unusedSectionVars false

namespace Dorado

open MeasureTheory Finset

/-- One action of a participant: depending on the state it uses the next draw or none. -/
structure Op (St : Type) where
  need : St → Prop
  draw : St → ℝ → St
  skip : St → St

/-- Actions that are measurable functions of state and draw. -/
structure Op.Meas {St : Type} [MeasurableSpace St] (o : Op St) : Prop where
  need : MeasurableSet {x | o.need x}
  draw : Measurable fun p : St × ℝ => o.draw p.1 p.2
  skip : Measurable o.skip

open Classical in
/-- One action of participant `i`, from the states and the position in the stream. -/
noncomputable def dealStep {ι St : Type} (ω : Nat → ℝ) (x : (ι → St) × Nat) (io : ι × Op St) : (ι → St) × Nat :=
  if io.2.need (x.1 io.1) then (Function.update x.1 io.1 (io.2.draw (x.1 io.1) (ω x.2)), x.2 + 1)
  else (Function.update x.1 io.1 (io.2.skip (x.1 io.1)), x.2)

/-- A list of actions. -/
noncomputable def deal {ι St : Type} (ω : Nat → ℝ) (L : List (ι × Op St)) (x : (ι → St) × Nat) : (ι → St) × Nat := L.foldl (dealStep ω) x

/-- The actions of participant `i`. -/
def opsOf {ι St : Type} [DecidableEq ι] (i : ι) (L : List (ι × Op St)) : List (Unit × Op St) := (L.filter fun io => io.1 = i).map fun io => ((), io.2)

section
variable {ι St : Type}

theorem dealStep_shift (ω : Nat → ℝ) (st : ι → St) (pos k : Nat) (io : ι × Op St) :
    dealStep ω (st, pos + k) io =
      ((dealStep (fun n => ω (n + k)) (st, pos) io).1, (dealStep (fun n => ω (n + k)) (st, pos) io).2 + k) := by
  unfold dealStep
  simp only
  split
  · simp; omega
  · simp

theorem deal_shift (ω : Nat → ℝ) (L : List (ι × Op St)) (st : ι → St) (pos k : Nat) :
    deal ω L (st, pos + k) = ((deal (fun n => ω (n + k)) L (st, pos)).1, (deal (fun n => ω (n + k)) L (st, pos)).2 + k) := by
  induction L generalizing st pos with
  | nil => rfl
  | cons io L ih =>
    have e : ∀ ω x, deal ω (io :: L) x = deal ω L (dealStep ω x io) := fun _ _ => rfl
    rw [e, e, dealStep_shift, ih]

variable [MeasurableSpace St] [Countable ι]

theorem dealStep_measurable {io : ι × Op St} (h : io.2.Meas) (pos : Nat) :
    Measurable fun p : (ι → St) × (Nat → ℝ) => (dealStep p.2 (p.1, pos) io).1 := by
  classical
  have e : (fun p : (ι → St) × (Nat → ℝ) => (dealStep p.2 (p.1, pos) io).1) = fun p =>
      if io.2.need (p.1 io.1) then Function.update p.1 io.1 (io.2.draw (p.1 io.1) (p.2 pos)) else Function.update p.1 io.1 (io.2.skip (p.1 io.1)) := by
    funext p
    unfold dealStep
    simp only
    split <;> rfl
  rw [e]
  have h1 : Measurable fun p : (ι → St) × (Nat → ℝ) => p.1 io.1 := (measurable_pi_apply _).comp measurable_fst
  have h2 : Measurable fun p : (ι → St) × (Nat → ℝ) => p.2 pos := (measurable_pi_apply _).comp measurable_snd
  refine Measurable.ite (h1 h.need) ?_ ?_
  · exact measurable_update'.comp (measurable_fst.prodMk (h.draw.comp (h1.prodMk h2)))
  · exact measurable_update'.comp (measurable_fst.prodMk (h.skip.comp h1))

theorem deal_measurable {L : List (ι × Op St)} (h : ∀ io ∈ L, io.2.Meas) (pos : Nat) :
    Measurable fun p : (ι → St) × (Nat → ℝ) => (deal p.2 L (p.1, pos)).1 := by
  classical
  induction L generalizing pos with
  | nil => exact measurable_fst
  | cons io L ih =>
    have ho := h io (by simp)
    have hL := fun pos => ih (fun io hio => h io (by simp [hio])) pos
    have e : (fun p : (ι → St) × (Nat → ℝ) => (deal p.2 (io :: L) (p.1, pos)).1) = fun p =>
        if io.2.need (p.1 io.1) then (deal p.2 L ((dealStep p.2 (p.1, pos) io).1, pos + 1)).1
        else (deal p.2 L ((dealStep p.2 (p.1, pos) io).1, pos)).1 := by
      funext p
      change (deal p.2 L (dealStep p.2 (p.1, pos) io)).1 = _
      split <;> rename_i hn
      · have : dealStep p.2 (p.1, pos) io = ((dealStep p.2 (p.1, pos) io).1, pos + 1) := by
          unfold dealStep; simp [hn]
        rw [← this]
      · have : dealStep p.2 (p.1, pos) io = ((dealStep p.2 (p.1, pos) io).1, pos) := by
          unfold dealStep; simp [hn]
        rw [← this]
    rw [e]
    have h1 : Measurable fun p : (ι → St) × (Nat → ℝ) => p.1 io.1 := (measurable_pi_apply _).comp measurable_fst
    refine Measurable.ite (h1 ho.need) ?_ ?_
    · exact (hL _).comp ((dealStep_measurable ho pos).prodMk measurable_snd)
    · exact (hL _).comp ((dealStep_measurable ho pos).prodMk measurable_snd)

end

/-- One draw. -/
noncomputable abbrev oneDraw : Measure ℝ := volume.restrict (Set.Ico 0 1)

instance oneDraw_probability : IsProbabilityMeasure oneDraw := ⟨by simp [oneDraw]⟩

instance uniformDraws_probability : IsProbabilityMeasure uniformDraws := by unfold uniformDraws; infer_instance

/-- A draw in front of a stream. -/
def consDraw (p : ℝ × (Nat → ℝ)) : Nat → ℝ := fun n => Nat.casesOn n p.1 p.2

theorem consDraw_measurable : Measurable consDraw := by
  refine measurable_pi_lambda _ fun n => ?_
  cases n with
  | zero => exact measurable_fst
  | succ n => exact (measurable_pi_apply n).comp measurable_snd

/-- A stream is a draw followed by an independent stream. -/
theorem uniformDraws_cons : (oneDraw.prod uniformDraws).map consDraw = uniformDraws := by
  refine Measure.eq_infinitePi _ fun s t ht => ?_
  classical
  rw [Measure.map_apply consDraw_measurable (MeasurableSet.pi s.countable_toSet fun i _ => ht i)]
  have e : consDraw ⁻¹' Set.pi s t = (if 0 ∈ s then t 0 else Set.univ) ×ˢ Set.pi (Finset.preimage s Nat.succ Nat.succ_injective.injOn) fun n => t (n + 1) := by
    ext ⟨u, ω⟩
    simp only [Set.mem_preimage, Set.mem_pi, Set.mem_prod, SetLike.mem_coe, Finset.mem_preimage]
    constructor
    · intro h
      refine ⟨?_, fun n hn => h (n + 1) hn⟩
      split
      · rename_i h0; exact h 0 h0
      · trivial
    · rintro ⟨h0, h1⟩ n hn
      cases n with
      | zero => rw [if_pos hn] at h0; exact h0
      | succ n => exact h1 n hn
  rw [e, Measure.prod_prod, uniformDraws, Measure.infinitePi_pi _ fun i _ => ht _]
  have e2 : ∏ i ∈ Finset.preimage s Nat.succ Nat.succ_injective.injOn, oneDraw (t (i + 1)) = ∏ i ∈ s.filter (· ∈ Set.range Nat.succ), oneDraw (t i) :=
    Finset.prod_preimage' Nat.succ s Nat.succ_injective.injOn fun i => oneDraw (t i)
  have e3 : s.filter (· ∈ Set.range Nat.succ) = s.erase 0 := by
    ext n
    simp only [Set.mem_range, mem_filter, mem_erase]
    cases n with
    | zero => simp
    | succ n => simp
  change _ * ∏ i ∈ _, oneDraw (t (i + 1)) = ∏ i ∈ s, oneDraw (t i)
  rw [e2, e3]
  split
  · rename_i h0
    exact Finset.mul_prod_erase s (fun i => oneDraw (t i)) h0
  · rename_i h0
    rw [Finset.erase_eq_of_notMem h0, measure_univ, one_mul]

/-- The stream after the first draw. -/
theorem uniformDraws_tail : MeasurePreserving (fun (ω : Nat → ℝ) n => ω (n + 1)) uniformDraws uniformDraws := by
  refine ⟨by fun_prop, ?_⟩
  conv_lhs => rw [← uniformDraws_cons]
  rw [Measure.map_map (by fun_prop) consDraw_measurable]
  have : ((fun (ω : Nat → ℝ) n => ω (n + 1)) ∘ consDraw) = Prod.snd := rfl
  rw [this]
  exact measurePreserving_snd.map_eq

theorem uniformDraws_shift (k : Nat) : MeasurePreserving (fun (ω : Nat → ℝ) n => ω (n + k)) uniformDraws uniformDraws := by
  induction k with
  | zero => exact MeasurePreserving.id _
  | succ k ih =>
    have := ih.comp uniformDraws_tail
    convert this using 2
    funext n
    exact congrArg _ (by omega)

/-- Probability of an event by its sections at the first draw. -/
theorem uniformDraws_split {E : Set (Nat → ℝ)} (hE : MeasurableSet E) :
    uniformDraws E = ∫⁻ u, uniformDraws {ω | consDraw (u, ω) ∈ E} ∂oneDraw := by
  conv_lhs => rw [← uniformDraws_cons]
  rw [Measure.map_apply consDraw_measurable hE, Measure.prod_apply (consDraw_measurable hE)]
  rfl

section
variable {ι St : Type} [MeasurableSpace St] [Fintype ι] [DecidableEq ι]

theorem deal_event {κ : Type} [Countable κ] {L : List (κ × Op St)} (h : ∀ io ∈ L, io.2.Meas) (st : κ → St) (pos : Nat) {S : κ → Set St}
    (hS : ∀ i, MeasurableSet (S i)) : MeasurableSet {ω | ∀ i, (deal ω L (st, pos)).1 i ∈ S i} := by
  have hm : Measurable fun ω : Nat → ℝ => (deal ω L (st, pos)).1 := (deal_measurable h pos).comp (measurable_const.prodMk measurable_id)
  have : {ω | ∀ i, (deal ω L (st, pos)).1 i ∈ S i} = (fun ω : Nat → ℝ => (deal ω L (st, pos)).1) ⁻¹' Set.pi Set.univ S := by
    ext ω; simp [Set.mem_pi]
  rw [this]
  exact hm (MeasurableSet.pi Set.countable_univ fun i _ => hS i)

/-- The first action, if it draws. -/
theorem deal_first {κ : Type} [Countable κ] [DecidableEq κ] {io : κ × Op St} {L : List (κ × Op St)} (h : ∀ o ∈ io :: L, o.2.Meas) {st : κ → St} (hn : io.2.need (st io.1))
    {S : κ → Set St} (hS : ∀ i, MeasurableSet (S i)) :
    uniformDraws {ω | ∀ i, (deal ω (io :: L) (st, 0)).1 i ∈ S i} =
      ∫⁻ u, uniformDraws {ω | ∀ i, (deal ω L (Function.update st io.1 (io.2.draw (st io.1) u), 0)).1 i ∈ S i} ∂oneDraw := by
  rw [uniformDraws_split (deal_event h st 0 hS)]
  refine lintegral_congr fun u => ?_
  congr 1
  ext ω
  have e : deal (consDraw (u, ω)) (io :: L) (st, 0) =
      deal (consDraw (u, ω)) L (Function.update st io.1 (io.2.draw (st io.1) u), 0 + 1) := by
    change deal _ L (dealStep _ _ _) = _
    unfold dealStep
    rw [if_pos hn]
    congr 3
    exact Subsingleton.elim _ _
  simp only [Set.mem_ofPred_eq, e, deal_shift]
  rfl

/-- The first action, if it does not draw. -/
theorem deal_skip {κ : Type} [DecidableEq κ] (ω : Nat → ℝ) {io : κ × Op St} {L : List (κ × Op St)} {st : κ → St} {pos : Nat} (hn : ¬ io.2.need (st io.1)) :
    deal ω (io :: L) (st, pos) = deal ω L (Function.update st io.1 (io.2.skip (st io.1)), pos) := by
  change deal _ L (dealStep _ _ _) = _
  unfold dealStep
  rw [if_neg hn]
  congr 3
  exact Subsingleton.elim _ _

theorem update_unit (st : Unit → St) (x : St) : Function.update st () x = fun _ => x := by
  funext u
  cases u
  simp

/-- Participants drawing from one stream are independent: the probability that all end in given sets of states is the product of the probabilities for each of
them drawing alone. -/
theorem deal_independent {L : List (ι × Op St)} (h : ∀ io ∈ L, io.2.Meas) (st : ι → St) {S : ι → Set St} (hS : ∀ i, MeasurableSet (S i)) :
    uniformDraws {ω | ∀ i, (deal ω L (st, 0)).1 i ∈ S i} =
      ∏ i, uniformDraws {ω | (deal ω (opsOf i L) (fun _ => st i, 0)).1 () ∈ S i} := by
  induction L generalizing st with
  | nil =>
    simp only [deal, opsOf, List.filter_nil, List.map_nil, List.foldl_nil]
    by_cases hall : ∀ i, st i ∈ S i
    · simp [hall]
    · obtain ⟨i, hi⟩ := not_forall.1 hall
      rw [Finset.prod_eq_zero (mem_univ i) (by simp [hi])]
      simp [hall]
  | cons io L ih =>
    have hL : ∀ o ∈ L, o.2.Meas := fun o ho => h o (by simp [ho])
    have ho := h io (by simp)
    have hops : ∀ j, j ≠ io.1 → opsOf j (io :: L) = opsOf j L := by
      intro j hj
      unfold opsOf
      rw [List.filter_cons_of_neg (by simp [hj.symm])]
    have hopi : opsOf io.1 (io :: L) = ((), io.2) :: opsOf io.1 L := by
      unfold opsOf
      rw [List.filter_cons_of_pos (by simp)]
      rfl
    have hmi : ∀ i, ∀ o ∈ opsOf i (io :: L), o.2.Meas := by
      intro i o ho
      unfold opsOf at ho
      obtain ⟨o', ho', rfl⟩ := List.mem_map.1 ho
      exact h o' (List.mem_of_mem_filter ho')
    have hsplit : ∀ x, ∏ i, uniformDraws {ω | (deal ω (opsOf i L) (fun _ => Function.update st io.1 x i, 0)).1 () ∈ S i} =
        uniformDraws {ω | (deal ω (opsOf io.1 L) (fun _ => x, 0)).1 () ∈ S io.1} *
          ∏ i ∈ univ.erase io.1, uniformDraws {ω | (deal ω (opsOf i (io :: L)) (fun _ => st i, 0)).1 () ∈ S i} := by
      intro x
      rw [← Finset.mul_prod_erase univ _ (mem_univ io.1)]
      simp only [Function.update_self]
      congr 1
      refine prod_congr rfl fun i hi => ?_
      have hne := (mem_erase.1 hi).1
      rw [Function.update_of_ne hne, hops i hne]
    rw [← Finset.mul_prod_erase univ _ (mem_univ io.1), hopi]
    by_cases hn : io.2.need (st io.1)
    · rw [deal_first h hn hS]
      simp only [ih hL, hsplit]
      have e := deal_first (io := ((), io.2)) (L := opsOf io.1 L) (st := fun _ => st io.1) (S := fun _ => S io.1)
        (by rw [← hopi]; exact hmi io.1) hn (fun _ => hS io.1)
      simp only [update_unit] at e
      have e1 : ∀ (M : List (Unit × Op St)) (x : St), {ω | ∀ i : Unit, (deal ω M (fun _ => x, 0)).1 i ∈ S io.1} =
          {ω | (deal ω M (fun _ => x, 0)).1 () ∈ S io.1} := fun M x => by
        ext ω
        exact ⟨fun h => h (), fun h i => h⟩
      simp only [e1] at e
      rw [e]
      refine lintegral_mul_const _ ?_
      have hm : Measurable fun p : ℝ × (Nat → ℝ) => (deal p.2 (opsOf io.1 L) (fun _ : Unit => io.2.draw (st io.1) p.1, 0)).1 () := by
        refine (measurable_pi_apply ()).comp ((deal_measurable (ι := Unit) (L := opsOf io.1 L) (fun o ho' => hmi io.1 o (by
          rw [hopi]; exact List.mem_cons_of_mem _ ho')) 0).comp (Measurable.prodMk ?_ measurable_snd))
        exact measurable_pi_lambda _ fun _ => ho.draw.comp (measurable_const.prodMk measurable_fst)
      exact measurable_measure_prodMk_left (hm (hS io.1))
    · simp only [deal_skip _ hn, ih hL, hsplit]
      congr 2
      ext ω
      simp only [Set.mem_ofPred_eq]
      rw [deal_skip (io := ((), io.2)) (st := fun _ => st io.1) ω hn, update_unit]

end

end Dorado
