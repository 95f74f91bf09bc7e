import Verif.Lemmas.StayMap
import Verif.Props.AreaMap
import Verif.Props.ExposureLaw
import Verif.Props.Leave
import Verif.Lemmas.CourseSym

/-! # The map of the residence times of many particles estimates the map of the expected residence times: C119 -/

set_option linter.unusedSectionVars false

namespace Dorado

open MeasureTheory ProbabilityTheory

variable {A : Arith ℝ} {F : Fun ℝ A} {R C : Nat} {P : PObj ℝ} {s : PState ℝ}

/-- Stays of the particles together and of each by itself, from the histories. -/
theorem stays_read (h : Reach A F (Enclosed A F R C) Draws (InsideSeeds R C) P s) {wd : WalkData ℝ} (hwd : s.walk = some wd) (hN : 0 < wd.xinds.length)
    (calls : List (Option (Fl ℝ) × Int)) {L : Nat} (hL : ∀ i, i < wd.xinds.length → wd.records i + (calls.map maxMoves).sum ≤ L) (c : Int × Int) {ω : Nat → ℝ}
    (hω : Draws ω) :
    (staysIn c (runCalls A F P ω calls s) = ∑ i : Fin wd.xinds.length, (historyIn i (runCalls A F P ω calls s)).tally c L (fun _ _ => 1) ∧
      stayTimeIn c (runCalls A F P ω calls s) = ∑ i : Fin wd.xinds.length, (historyIn i (runCalls A F P ω calls s)).tally c L History.stay) ∧
    ∀ i : Fin wd.xinds.length, staysIn c (runCalls A F P ω calls (alone s.world (wd.only i))) =
        (historyIn 0 (runCalls A F P ω calls (alone s.world (wd.only i)))).tally c L (fun _ _ => 1) ∧
      stayTimeIn c (runCalls A F P ω calls (alone s.world (wd.only i))) =
        (historyIn 0 (runCalls A F P ω calls (alone s.world (wd.only i)))).tally c L History.stay := by
  obtain ⟨hR, rows, hrows, hs⟩ := Enclosed.sound h hwd
  have hl : wd.xinds.length = rows.length := by rw [hrows]; simp [ofRows]
  have hrec : ∀ (i : Nat) r, rows[i]? = some r → r.ts.length + (calls.map maxMoves).sum ≤ L := by
    intro i r hr
    have hi := (List.getElem?_eq_some_iff.1 hr).1
    have := hL i (by omega)
    rw [hrows] at this
    simpa [WalkData.records, ofRows, hr] using this
  constructor
  · obtain ⟨s', rows', e1, e2, e3, e4⟩ := records_bound hR hs (by omega) hω calls
    have hlen : ∀ r ∈ rows', r.ts.length ≤ L := fun r' hr' => by
      obtain ⟨i, hi⟩ := List.getElem?_of_mem hr'
      have hlt := (List.getElem?_eq_some_iff.1 hi).1
      have hri := List.getElem?_eq_getElem (show i < rows.length by omega)
      exact (e4 i _ _ hri hi).trans (hrec i _ hri)
    have hn : rows'.length = wd.xinds.length := by omega
    rw [e1, stays_eq e2 hlen c, stayTime_eq e2 hlen c]
    constructor
    · rw [← Finset.sum_range fun i => (historyIn i (.ok s')).tally c L fun _ _ => 1, hn, Finset.sum_range]
    · rw [← Finset.sum_range fun i => (historyIn i (.ok s')).tally c L History.stay, hn, Finset.sum_range]
  · intro i
    have hri := List.getElem?_eq_getElem (show i.val < rows.length by omega)
    obtain ⟨s', rows', e1, e2, e3, e4⟩ := records_bound hR (hs.single hwd hri) (by simp) hω calls
    obtain ⟨r', rfl⟩ := List.length_eq_one_iff.1 e3
    have hlen : ∀ q ∈ [r'], q.ts.length ≤ L := fun q hq => by
      rw [List.mem_singleton.1 hq]
      exact (e4 0 _ _ rfl rfl).trans (hrec i _ hri)
    rw [e1, stays_eq e2 hlen c, stayTime_eq e2 hlen c]
    constructor <;> simp

section
variable (h : Reach A F (Enclosed A F R C) Draws (InsideSeeds R C) P s) {wd : WalkData ℝ} (hwd : s.walk = some wd) (hN : 0 < wd.xinds.length)
  (calls : List (Option (Fl ℝ) × Int))
include h hwd hN

/-- The expectation of a total over the particles. -/
theorem total_unbiased {G : Except PyErr (PState ℝ) → ℝ} {g f : History ℝ → ℝ} (hg : Measurable g) {B : ℝ} (hf : Measurable f) (hf0 : ∀ x, 0 ≤ f x)
    (hf1 : ∀ x, f x ≤ 1)
    (hG : ∀ ω, Draws ω → G (runCalls A F P ω calls s) = ∑ i : Fin wd.xinds.length, g (historyIn i (runCalls A F P ω calls s)))
    (hG1 : ∀ ω, Draws ω → ∀ i : Fin wd.xinds.length, G (runCalls A F P ω calls (alone s.world (wd.only i))) =
      g (historyIn 0 (runCalls A F P ω calls (alone s.world (wd.only i)))))
    (hfg : ∀ ω, Draws ω → ∀ i : Fin wd.xinds.length, g (historyIn i (runCalls A F P ω calls s)) = B * f (historyIn i (runCalls A F P ω calls s))) :
    expectedOf A F P calls s wd G = B * ((∑ i : Fin wd.xinds.length, ∫ x, f x ∂(uniformDraws.map fun ω =>
      historyIn 0 (runCalls A F P ω calls (alone s.world (wd.only i))))) / wd.xinds.length) ∧
    Integrable (fun ω => G (runCalls A F P ω calls s)) uniformDraws ∧
    ∫ ω, G (runCalls A F P ω calls s) / wd.xinds.length ∂uniformDraws = expectedOf A F P calls s wd G := by
  have hone : ∀ i : Fin wd.xinds.length, ∫ ω, G (runCalls A F P ω calls (alone s.world (wd.only i))) ∂uniformDraws =
      ∫ ω, g (historyIn i (runCalls A F P ω calls s)) ∂uniformDraws := by
    intro i
    have e : ∫ ω, G (runCalls A F P ω calls (alone s.world (wd.only i))) ∂uniformDraws =
        ∫ ω, g (historyIn 0 (runCalls A F P ω calls (alone s.world (wd.only i)))) ∂uniformDraws := by
      refine integral_congr_ae ?_
      filter_upwards [uniformDraws_nonzero] with ω hω
      exact hG1 ω hω.1 i
    rw [e, ← integral_map (history_aemeasurable h hwd calls i).2 hg.aestronglyMeasurable, ← C107_own_law h hwd calls i,
      integral_map (history_aemeasurable h hwd calls i).1 hg.aestronglyMeasurable]
  have hint : ∀ i : Fin wd.xinds.length, Integrable (fun ω => g (historyIn i (runCalls A F P ω calls s))) uniformDraws := by
    intro i
    refine Integrable.of_bound (hg.comp_aemeasurable (history_aemeasurable h hwd calls i).1).aestronglyMeasurable |B| ?_
    filter_upwards [uniformDraws_nonzero] with ω hω
    rw [hfg ω hω.1 i, Real.norm_eq_abs, abs_mul, abs_of_nonneg (hf0 _)]
    exact mul_le_of_le_one_right (abs_nonneg _) (hf1 _)
  have hsum := integrable_finsetSum Finset.univ fun i _ => hint i
  refine ⟨?_, hsum.congr ?_, ?_⟩
  · unfold expectedOf
    rw [← mul_div_assoc, Finset.mul_sum]
    congr 1
    refine Finset.sum_congr rfl fun i _ => ?_
    rw [hone i, ← C107_own_law h hwd calls i, integral_map (history_aemeasurable h hwd calls i).1 hf.aestronglyMeasurable, ← integral_const_mul]
    refine integral_congr_ae ?_
    filter_upwards [uniformDraws_nonzero] with ω hω
    exact hfg ω hω.1 i
  · filter_upwards [uniformDraws_nonzero] with ω hω
    exact (hG ω hω.1).symm
  · unfold expectedOf
    rw [integral_div]
    congr 1
    rw [integral_congr_ae (g := fun ω => ∑ i : Fin wd.xinds.length, g (historyIn i (runCalls A F P ω calls s))), integral_finsetSum]
    · exact Finset.sum_congr rfl fun i _ => (hone i).symm
    · exact fun i _ => hint i
    · filter_upwards [uniformDraws_nonzero] with ω hω
      exact hG ω hω.1

/-- A total over the particles is close to its expectation. -/
theorem total_close {G : Except PyErr (PState ℝ) → ℝ} {g f : History ℝ → ℝ} (hg : Measurable g) {B : ℝ} (hB : 0 < B) (hf : Measurable f) (hf0 : ∀ x, 0 ≤ f x)
    (hf1 : ∀ x, f x ≤ 1)
    (hG : ∀ ω, Draws ω → G (runCalls A F P ω calls s) = ∑ i : Fin wd.xinds.length, g (historyIn i (runCalls A F P ω calls s)))
    (hG1 : ∀ ω, Draws ω → ∀ i : Fin wd.xinds.length, G (runCalls A F P ω calls (alone s.world (wd.only i))) =
      g (historyIn 0 (runCalls A F P ω calls (alone s.world (wd.only i)))))
    (hfg : ∀ ω, Draws ω → ∀ i : Fin wd.xinds.length, g (historyIn i (runCalls A F P ω calls s)) = B * f (historyIn i (runCalls A F P ω calls s)))
    {ε : ℝ} (hε : 0 < ε) :
    uniformDraws.real {ω | ε * B ≤ |G (runCalls A F P ω calls s) / wd.xinds.length - expectedOf A F P calls s wd G|} ≤
      2 * Real.exp (-2 * wd.xinds.length * ε ^ 2) := by
  have hm := fun i => history_aemeasurable h hwd calls i
  have := hoeffding_mean hN (fun i => (hm i).1) (C107_independent h hwd calls)
    (ν := fun i => uniformDraws.map fun ω => historyIn 0 (runCalls A F P ω calls (alone s.world (wd.only i))))
    (fun i => C107_own_law h hwd calls i) hf hf0 hf1 hε
  refine le_trans (le_of_eq (measureReal_congr ?_)) this
  filter_upwards [uniformDraws_nonzero] with ω hω
  refine propext ?_
  show ε * B ≤ _ ↔ ε ≤ |_|
  rw [(total_unbiased h hwd hN calls hg hf hf0 hf1 hG hG1 hfg).1, hG ω hω.1, Finset.sum_congr rfl fun i _ => hfg ω hω.1 i, ← Finset.mul_sum, mul_div_assoc,
    ← mul_sub, abs_mul, abs_of_pos hB, mul_comm B, mul_le_mul_iff_left₀ hB]

theorem length_pos {L : Nat} (hL : ∀ i, i < wd.xinds.length → wd.records i + (calls.map maxMoves).sum ≤ L) : 0 < L := by
  obtain ⟨-, rows, hrows, hs⟩ := Enclosed.sound h hwd
  have hl : wd.xinds.length = rows.length := by rw [hrows]; simp [ofRows]
  have hri := List.getElem?_eq_getElem (show 0 < rows.length by omega)
  have h1 := hL 0 hN
  have h2 : wd.records 0 = rows[0].ts.length := by
    have e : ∀ w : WalkData ℝ, w = ofRows (keysOf P) rows → w.records 0 = rows[0].ts.length := by
      rintro w rfl
      simp [WalkData.records, ofRows, hri]
    exact e wd hrows
  obtain ⟨a, b, c⟩ := (hs.ok _ (List.getElem_mem (show 0 < rows.length by omega))).vars.aligned
  omega

end

/-- Residence time at entry `n + 1`, limited to the range from 0 to `b`. -/
noncomputable def History.stayIn (b : ℝ) (n : Nat) (h : History ℝ) : ℝ := min (max (h.stay n) 0) b

theorem History.tally_congr {c : Int × Int} {L : Nat} {w w' : Nat → History ℝ → ℝ} {h : History ℝ} (e : ∀ n, h.StaysAt c n → w n h = w' n h) :
    h.tally c L w = h.tally c L w' := by
  classical
  unfold History.tally
  refine Finset.sum_congr rfl fun n _ => ?_
  split_ifs with hs
  · exact e n hs
  · rfl

section
variable {F : Fun ℝ Arith.exact} (h : Reach Arith.exact F (Routed Arith.exact F R C) Draws (GoodSeeds Arith.exact R C) P s) {wd : WalkData ℝ}
  (hwd : s.walk = some wd) (hN : 0 < wd.xinds.length) (calls : List (Option (Fl ℝ) × Int)) {b : ℝ} (hb0 : 0 < b)
  (hb : ∀ ω, Draws ω → ∀ s' wd', runCalls Arith.exact F P ω calls s = .ok s' → s'.walk = some wd' → Paced b wd')
include h hwd hN hb0 hb

/-- Residence times lie between 0 and the bound. -/
theorem stay_range (c : Int × Int) {ω : Nat → ℝ} (hω : Draws ω) (i n : Nat) (hs : (historyIn i (runCalls Arith.exact F P ω calls s)).StaysAt c n) :
    0 ≤ (historyIn i (runCalls Arith.exact F P ω calls s)).stay n ∧ (historyIn i (runCalls Arith.exact F P ω calls s)).stay n ≤ b := by
  obtain ⟨s', rows', e1, e2, -, -⟩ := company_good rfl rfl h hwd hN hω calls
  obtain ⟨-, -, hm, -⟩ := C67_valid rfl rfl (reach_calls hω calls h e1) e2.has.1
  have hp := hb ω hω s' _ e1 e2.has.1
  rw [e1] at hs ⊢
  have hh : historyIn i (.ok s') = (ofRows (keysOf P) rows').history i := by
    unfold historyIn
    simp only [e2.has.1]
  rw [hh] at hs ⊢
  obtain ⟨-, hlast⟩ := hs
  have hrec : n + 2 < (ofRows (keysOf P) rows').records i := by
    by_contra hc
    refine hlast ?_
    simp only [WalkData.history, WalkData.records] at hc ⊢
    cases hts : (ofRows (keysOf P) rows').times[i]? with
    | none => rfl
    | some ts =>
      rw [hts] at hc
      exact List.getElem?_eq_none (by simpa using hc)
  unfold History.stay
  simp only [tau_history]
  have a1 := hm i n (by omega)
  have a2 := hm i (n + 1) (by omega)
  have b1 := hp i n (by omega)
  have b2 := hp i (n + 1) (by omega)
  constructor <;> linarith

/-- The hypotheses of the estimates for the number and the duration of the stays. -/
theorem stays_unbiased {L : Nat} (hL : ∀ i, i < wd.xinds.length → wd.records i + (calls.map maxMoves).sum ≤ L) (c : Int × Int) :
    (Integrable (fun ω => staysIn c (runCalls Arith.exact F P ω calls s)) uniformDraws ∧
      ∫ ω, staysIn c (runCalls Arith.exact F P ω calls s) / wd.xinds.length ∂uniformDraws = expectedOf Arith.exact F P calls s wd (staysIn c) ∧
      ∀ ε > 0, uniformDraws.real {ω | ε * L ≤ |staysIn c (runCalls Arith.exact F P ω calls s) / wd.xinds.length -
        expectedOf Arith.exact F P calls s wd (staysIn c)|} ≤ 2 * Real.exp (-2 * wd.xinds.length * ε ^ 2)) ∧
    Integrable (fun ω => stayTimeIn c (runCalls Arith.exact F P ω calls s)) uniformDraws ∧
      ∫ ω, stayTimeIn c (runCalls Arith.exact F P ω calls s) / wd.xinds.length ∂uniformDraws = expectedOf Arith.exact F P calls s wd (stayTimeIn c) ∧
      ∀ ε > 0, uniformDraws.real {ω | ε * (L * b) ≤ |stayTimeIn c (runCalls Arith.exact F P ω calls s) / wd.xinds.length -
        expectedOf Arith.exact F P calls s wd (stayTimeIn c)|} ≤ 2 * Real.exp (-2 * wd.xinds.length * ε ^ 2) := by
  have hE := Routed.enclosedReach h
  have hL0 : (0 : ℝ) < L := by exact_mod_cast length_pos hE hwd hN calls hL
  have hLb := mul_pos hL0 hb0
  have hone := History.tally_measurable c L (w := fun _ _ => 1) fun _ => measurable_const
  have hst := History.tally_measurable c L History.stay_measurable
  have hcl := History.tally_measurable c L (w := History.stayIn b) fun n => ((History.stay_measurable n).max measurable_const).min measurable_const
  have b1 := History.tally_bounds c L (w := fun _ _ => 1) zero_le_one (fun _ _ => zero_le_one) fun _ _ => le_rfl
  have b2 := History.tally_bounds c L (w := History.stayIn b) hb0.le (fun _ _ => le_min (le_max_right _ _) hb0.le) fun _ _ => min_le_right _ _
  have f0 : ∀ x : History ℝ, 0 ≤ x.tally c L (fun _ _ => 1) / L := fun x => div_nonneg (b1 x).1 hL0.le
  have f1 : ∀ x : History ℝ, x.tally c L (fun _ _ => 1) / L ≤ 1 := fun x => (div_le_one hL0).2 (by simpa using (b1 x).2)
  have g0 : ∀ x : History ℝ, 0 ≤ x.tally c L (History.stayIn b) / (L * b) := fun x => div_nonneg (b2 x).1 hLb.le
  have g1 : ∀ x : History ℝ, x.tally c L (History.stayIn b) / (L * b) ≤ 1 := fun x => (div_le_one hLb).2 (b2 x).2
  have r := fun ω hω => stays_read hE hwd hN calls hL c (ω := ω) hω
  have e1 : ∀ ω, Draws ω → ∀ i : Fin wd.xinds.length, (historyIn i (runCalls Arith.exact F P ω calls s)).tally c L (fun _ _ => 1) =
      L * ((historyIn i (runCalls Arith.exact F P ω calls s)).tally c L (fun _ _ => 1) / L) := fun ω _ i => by field_simp
  have e2 : ∀ ω, Draws ω → ∀ i : Fin wd.xinds.length, (historyIn i (runCalls Arith.exact F P ω calls s)).tally c L History.stay =
      L * b * ((historyIn i (runCalls Arith.exact F P ω calls s)).tally c L (History.stayIn b) / (L * b)) := fun ω hω i => by
    rw [mul_div_cancel₀ _ hLb.ne']
    refine History.tally_congr fun n hn => ?_
    obtain ⟨c1, c2⟩ := stay_range h hwd hN calls hb0 hb c hω i n hn
    unfold History.stayIn
    rw [max_eq_left c1, min_eq_left c2]
  obtain ⟨-, u1, u2⟩ := total_unbiased hE hwd hN calls hone (hone.div_const _) f0 f1 (G := staysIn c) (fun ω hω => (r ω hω).1.1) (fun ω hω i => ((r ω hω).2 i).1) e1
  obtain ⟨-, v1, v2⟩ := total_unbiased hE hwd hN calls hst (hcl.div_const _) g0 g1 (G := stayTimeIn c) (fun ω hω => (r ω hω).1.2) (fun ω hω i => ((r ω hω).2 i).2) e2
  exact ⟨⟨u1, u2, fun ε hε => total_close hE hwd hN calls hone hL0 (hone.div_const _) f0 f1 (fun ω hω => (r ω hω).1.1) (fun ω hω i => ((r ω hω).2 i).1) e1 hε⟩,
    v1, v2, fun ε hε => total_close hE hwd hN calls hst hLb (hcl.div_const _) g0 g1 (fun ω hω => (r ω hω).1.2) (fun ω hω i => ((r ω hω).2 i).2) e2 hε⟩

/-- The number and the total duration of the stays at a cell, divided by the number of particles, have the expectations of a particle simulated by itself. -/
theorem C119_unbiased (c : Int × Int) :
    ∫ ω, staysIn c (runCalls Arith.exact F P ω calls s) / wd.xinds.length ∂uniformDraws = expectedOf Arith.exact F P calls s wd (staysIn c) ∧
    ∫ ω, stayTimeIn c (runCalls Arith.exact F P ω calls s) / wd.xinds.length ∂uniformDraws = expectedOf Arith.exact F P calls s wd (stayTimeIn c) := by
  obtain ⟨L, hL⟩ := exists_length (wd := wd) (Routed.enclosedReach h) hwd hN calls
  obtain ⟨⟨-, h1, -⟩, -, h2, -⟩ := stays_unbiased h hwd hN calls hb0 hb hL c
  exact ⟨h1, h2⟩

theorem stays_order (c : Int × Int) {ω : Nat → ℝ} (hω : Draws ω) : 0 ≤ staysIn c (runCalls Arith.exact F P ω calls s) ∧
    0 ≤ stayTimeIn c (runCalls Arith.exact F P ω calls s) ∧ stayTimeIn c (runCalls Arith.exact F P ω calls s) ≤ b * staysIn c (runCalls Arith.exact F P ω calls s) := by
  classical
  obtain ⟨L, hL⟩ := exists_length (wd := wd) (Routed.enclosedReach h) hwd hN calls
  obtain ⟨⟨r1, r2⟩, -⟩ := stays_read (Routed.enclosedReach h) hwd hN calls hL c hω
  have hr := fun i n hs => stay_range h hwd hN calls hb0 hb c hω i n hs
  rw [r1, r2, Finset.mul_sum]
  refine ⟨Finset.sum_nonneg fun i _ => (History.tally_bounds c L zero_le_one (fun _ _ => zero_le_one) (fun _ _ => le_rfl) _).1,
    Finset.sum_nonneg fun i _ => Finset.sum_nonneg fun n _ => ?_, Finset.sum_le_sum fun i _ => ?_⟩
  · split_ifs with hs
    · exact (hr _ _ hs).1
    · exact le_rfl
  · unfold History.tally
    rw [Finset.mul_sum]
    refine Finset.sum_le_sum fun n _ => ?_
    split_ifs with hs
    · rw [mul_one]; exact (hr _ _ hs).2
    · rw [mul_zero]

theorem expected_order (c : Int × Int) : 0 ≤ expectedOf Arith.exact F P calls s wd (stayTimeIn c) ∧
    expectedOf Arith.exact F P calls s wd (stayTimeIn c) ≤ b * expectedOf Arith.exact F P calls s wd (staysIn c) ∧
    (expectedOf Arith.exact F P calls s wd (staysIn c) = 0 → ∀ᵐ ω ∂uniformDraws, staysIn c (runCalls Arith.exact F P ω calls s) = 0) := by
  obtain ⟨L, hL⟩ := exists_length (wd := wd) (Routed.enclosedReach h) hwd hN calls
  obtain ⟨⟨i1, h1, -⟩, i2, h2, -⟩ := stays_unbiased h hwd hN calls hb0 hb hL c
  have hN0 : (0 : ℝ) < wd.xinds.length := by exact_mod_cast hN
  have ho := fun ω hω => stays_order h hwd hN calls hb0 hb c (ω := ω) hω
  rw [← h1, ← h2]
  refine ⟨integral_nonneg_of_ae ?_, ?_, fun hz => ?_⟩
  · filter_upwards [uniformDraws_nonzero] with ω hω using div_nonneg (ho ω hω.1).2.1 hN0.le
  · rw [← integral_const_mul]
    refine integral_mono_ae (i2.div_const _) ((i1.div_const _).const_mul b) ?_
    filter_upwards [uniformDraws_nonzero] with ω hω
    show _ ≤ b * (_ / _)
    rw [← mul_div_assoc]
    exact div_le_div_of_nonneg_right (ho ω hω.1).2.2 hN0.le
  · rw [integral_eq_zero_iff_of_nonneg_ae (by filter_upwards [uniformDraws_nonzero] with ω hω using div_nonneg (ho ω hω.1).1 hN0.le) (i1.div_const _)] at hz
    filter_upwards [hz] with ω hω
    exact (div_eq_zero_iff.1 hω).resolve_right hN0.ne'

/-- Exact arithmetic, both routing modes, any history of the object, any sequence of calls, particles seeded anywhere, `L` at least the number of records each
particle can have, no step longer than `b`, no cell that is entered and left again in expectation less than `q` times per particle unless never: the mean
residence time of the simulated particles is within `2 b δ / (q - δ)` of the ratio of the expectations in every cell of the raster at once, up to a probability
of at most `4 R C exp (-2 N (δ / L)²)`. -/
theorem C119_mean {L : Nat} (hL : ∀ i, i < wd.xinds.length → wd.records i + (calls.map maxMoves).sum ≤ L) {δ q : ℝ} (hδ : 0 < δ) (hδq : δ < q)
    (hq : ∀ i j : Nat, i < R → j < C → expectedOf Arith.exact F P calls s wd (staysIn ((i : Int), (j : Int))) ≠ 0 →
      q ≤ expectedOf Arith.exact F P calls s wd (staysIn ((i : Int), (j : Int)))) :
    uniformDraws.real {ω | ∃ i j : Nat, i < R ∧ j < C ∧ 2 * b * δ / (q - δ) <
      |meanStay (stayTimeIn ((i : Int), (j : Int)) (runCalls Arith.exact F P ω calls s)) (staysIn ((i : Int), (j : Int)) (runCalls Arith.exact F P ω calls s)) -
        meanStay (expectedOf Arith.exact F P calls s wd (stayTimeIn ((i : Int), (j : Int)))) (expectedOf Arith.exact F P calls s wd (staysIn ((i : Int), (j : Int))))|} ≤
      4 * R * C * Real.exp (-2 * wd.xinds.length * (δ / L) ^ 2) := by
  have hN0 : (0 : ℝ) < wd.xinds.length := by exact_mod_cast hN
  have hL0 : (0 : ℝ) < L := by exact_mod_cast length_pos (Routed.enclosedReach h) hwd hN calls hL
  set V : Nat × Nat → Set (Nat → ℝ) := fun p => {ω | δ / L * L ≤ |staysIn ((p.1 : Int), (p.2 : Int)) (runCalls Arith.exact F P ω calls s) / wd.xinds.length -
        expectedOf Arith.exact F P calls s wd (staysIn ((p.1 : Int), (p.2 : Int)))|} with hV
  set T : Nat × Nat → Set (Nat → ℝ) := fun p => {ω | δ / L * (L * b) ≤ |stayTimeIn ((p.1 : Int), (p.2 : Int)) (runCalls Arith.exact F P ω calls s) / wd.xinds.length -
        expectedOf Arith.exact F P calls s wd (stayTimeIn ((p.1 : Int), (p.2 : Int)))|} with hT
  have hone : ∀ p, uniformDraws.real (V p ∪ T p) ≤ 4 * Real.exp (-2 * wd.xinds.length * (δ / L) ^ 2) := by
    intro p
    obtain ⟨⟨-, -, h1⟩, -, -, h2⟩ := stays_unbiased h hwd hN calls hb0 hb hL ((p.1 : Int), (p.2 : Int))
    have h1 := h1 (δ / L) (by positivity)
    have h2 := h2 (δ / L) (by positivity)
    refine (measureReal_union_le _ _).trans ?_
    linarith
  have hall : ∀ᵐ ω ∂uniformDraws, ∀ i j : Nat, expectedOf Arith.exact F P calls s wd (staysIn ((i : Int), (j : Int))) = 0 →
      staysIn ((i : Int), (j : Int)) (runCalls Arith.exact F P ω calls s) = 0 := by
    refine ae_all_iff.2 fun i => ae_all_iff.2 fun j => ?_
    by_cases hz : expectedOf Arith.exact F P calls s wd (staysIn ((i : Int), (j : Int))) = 0
    · filter_upwards [(expected_order h hwd hN calls hb0 hb ((i : Int), (j : Int))).2.2 hz] with ω hω _ using hω
    · filter_upwards with ω hc using absurd hc hz
  have hsub : {ω | ∃ i j : Nat, i < R ∧ j < C ∧ 2 * b * δ / (q - δ) <
      |meanStay (stayTimeIn ((i : Int), (j : Int)) (runCalls Arith.exact F P ω calls s)) (staysIn ((i : Int), (j : Int)) (runCalls Arith.exact F P ω calls s)) -
        meanStay (expectedOf Arith.exact F P calls s wd (stayTimeIn ((i : Int), (j : Int)))) (expectedOf Arith.exact F P calls s wd (staysIn ((i : Int), (j : Int))))|} ≤ᵐ[uniformDraws]
      (⋃ p ∈ Finset.range R ×ˢ Finset.range C, V p ∪ T p : Set (Nat → ℝ)) := by
    filter_upwards [hall] with ω hω hex
    obtain ⟨i, j, hi, hj, hlt⟩ := hex
    show ω ∈ (⋃ p ∈ Finset.range R ×ˢ Finset.range C, V p ∪ T p : Set (Nat → ℝ))
    refine Set.mem_iUnion₂.2 ⟨(i, j), by simpa using ⟨hi, hj⟩, ?_⟩
    by_contra hno
    rw [Set.mem_union, not_or] at hno
    obtain ⟨n1, n2⟩ := hno
    simp only [hV, hT, Set.mem_ofPred_eq, not_le] at n1 n2
    rw [div_mul_cancel₀ _ hL0.ne'] at n1
    rw [← mul_assoc, div_mul_cancel₀ _ hL0.ne'] at n2
    obtain ⟨o1, o2, -⟩ := expected_order h hwd hN calls hb0 hb ((i : Int), (j : Int))
    by_cases hz : expectedOf Arith.exact F P calls s wd (staysIn ((i : Int), (j : Int))) = 0
    · unfold meanStay at hlt
      rw [if_pos hz, if_pos (hω i j hz), sub_zero, abs_zero] at hlt
      have : 0 ≤ 2 * b * δ / (q - δ) := div_nonneg (by positivity) (by linarith)
      linarith
    · have hc := meanStay_close hb0.le n2.le n1.le (hq i j hi hj hz) hδq hδ.le o1 o2
      have e : meanStay (stayTimeIn ((i : Int), (j : Int)) (runCalls Arith.exact F P ω calls s) / wd.xinds.length)
          (staysIn ((i : Int), (j : Int)) (runCalls Arith.exact F P ω calls s) / wd.xinds.length) =
          meanStay (stayTimeIn ((i : Int), (j : Int)) (runCalls Arith.exact F P ω calls s)) (staysIn ((i : Int), (j : Int)) (runCalls Arith.exact F P ω calls s)) := by
        unfold meanStay
        simp only [div_eq_zero_iff, hN0.ne', or_false]
        rw [div_div_div_cancel_right₀ hN0.ne']
      rw [e] at hc
      exact absurd hlt (not_lt.2 hc)
  refine le_trans (ENNReal.toReal_mono (measure_ne_top _ _) (measure_mono_ae hsub)) ?_
  refine (measureReal_biUnion_finset_le _ _).trans ((Finset.sum_le_card_nsmul _ _ _ fun p _ => hone p).trans (le_of_eq ?_))
  rw [Finset.card_product, Finset.card_range, Finset.card_range, nsmul_eq_mul]
  push_cast
  ring

/-- Any averaging smoothing, any clipping percentile: `nourishment_time` returns a map for the simulated particles that differs from the map of the ratios of the
expectations, limited and smoothed in the same way, by more than `2 b δ / (q - δ)` in some cell only with probability at most `4 R C exp (-2 N (δ / L)²)`. -/
theorem C119_map {L : Nat} (hL : ∀ i, i < wd.xinds.length → wd.records i + (calls.map maxMoves).sum ≤ L) {smooth : Option (Grid (Fl ℝ) → Grid (Fl ℝ))}
    (hs : SmoothOK smooth) (hav : Averaging smooth) {clip : ℝ} (h0 : 0 ≤ clip) (h1 : clip ≤ 100) {m : Nat → Nat → ℝ}
    (hm : IsTimeMapOf R C smooth clip (fun i j => meanStay (expectedOf Arith.exact F P calls s wd (stayTimeIn ((i : Int), (j : Int))))
      (expectedOf Arith.exact F P calls s wd (staysIn ((i : Int), (j : Int))))) m) {δ q : ℝ} (hδ : 0 < δ) (hδq : δ < q)
    (hq : ∀ i j : Nat, i < R → j < C → expectedOf Arith.exact F P calls s wd (staysIn ((i : Int), (j : Int))) ≠ 0 →
      q ≤ expectedOf Arith.exact F P calls s wd (staysIn ((i : Int), (j : Int)))) :
    uniformDraws.real {ω | OffBy R C smooth (2 * b * δ / (q - δ)) (timeMapIn Arith.exact R C smooth clip (runCalls Arith.exact F P ω calls s)) m} ≤
      4 * R * C * Real.exp (-2 * wd.xinds.length * (δ / L) ^ 2) := by
  refine le_trans (ENNReal.toReal_mono (measure_ne_top _ _) (measure_mono_ae ?_)) (C119_mean h hwd hN calls hb0 hb hL hδ hδq hq)
  filter_upwards [uniformDraws_nonzero] with ω hω hoff
  by_contra hno
  have hno : ∀ i j : Nat, i < R → j < C →
      |meanStay (stayTimeIn ((i : Int), (j : Int)) (runCalls Arith.exact F P ω calls s)) (staysIn ((i : Int), (j : Int)) (runCalls Arith.exact F P ω calls s)) -
        meanStay (expectedOf Arith.exact F P calls s wd (stayTimeIn ((i : Int), (j : Int)))) (expectedOf Arith.exact F P calls s wd (staysIn ((i : Int), (j : Int))))| ≤
          2 * b * δ / (q - δ) := fun i j hi hj => by
    by_contra hc
    exact hno ⟨i, j, hi, hj, not_le.1 hc⟩
  obtain ⟨s', wd', e1, e2, hp, hr, hc⟩ := company_walk h hwd hN calls hω.1
  obtain ⟨-, -, ht, -⟩ := C67_valid rfl rfl (reach_calls hω.1 calls h e1) e2
  obtain ⟨i, j, hi, hj, -⟩ := some_visit hp hr hc
  change OffBy R C smooth (2 * b * δ / (q - δ)) (timeMapIn Arith.exact R C smooth clip (runCalls Arith.exact F P ω calls s)) m at hoff
  rw [e1] at hno hoff
  simp only [staysIn, stayTimeIn, timeMapIn, e2] at hno hoff
  refine timeMap_close hp hr ht (by omega) (by omega) h0 h1 hs hav (fun i j => ?_) hm hno hoff
  obtain ⟨o1, o2, -⟩ := expected_order h hwd hN calls hb0 hb ((i : Int), (j : Int))
  unfold meanStay
  split_ifs with hz
  · exact le_rfl
  · exact div_nonneg o1 (nonneg_of_mul_nonneg_right (o1.trans o2) hb0)

end

/-- An object that is used with its own parameters only has such a bound on the duration of its steps. -/
theorem C119_paced {F : Fun ℝ Arith.exact} (hP : Routed Arith.exact F R C P) (hang : ∀ k, k < 9 → k ≠ 4 → ∃ a, P.angles k = .fin a) :
    ∃ b, 0 < b ∧ ∀ s wd, Reach Arith.exact F (fun Q => Q = P) Draws (GoodSeeds Arith.exact R C) P s → s.walk = some wd → Paced b wd := by
  obtain ⟨b, hb⟩ := freeDur_bound F P R C
  refine ⟨2 * |b| + 1, by positivity, fun s wd h hwd i n hn => ?_⟩
  have hRt : Reach Arith.exact F (Routed Arith.exact F R C) Draws (GoodSeeds Arith.exact R C) P s := h.mono fun Q hQ => hQ ▸ hP
  obtain ⟨hp, -, -, -⟩ := C67_valid rfl rfl hRt hwd
  cases hts : wd.times[i]? with
  | none => simp [WalkData.records, hts] at hn
  | some ts =>
  have hi := (List.getElem?_eq_some_iff.1 hts).1
  obtain ⟨xs, hx⟩ : ∃ xs, wd.xinds[i]? = some xs := ⟨_, List.getElem?_eq_getElem (by have := hp.times; omega)⟩
  obtain ⟨ys, hy⟩ : ∃ ys, wd.yinds[i]? = some ys := ⟨_, List.getElem?_eq_getElem (by have := hp.times; have := hp.cols; omega)⟩
  obtain ⟨l1, l2, l3⟩ := hp.same i _ _ _ hx hy hts
  have hn : n + 1 < ts.length := by simpa [WalkData.records, hts] using hn
  have hpos : ∀ k, k < ts.length → ∃ p t, wd.posAt i k = some p ∧ wd.timeAt i k = some t := by
    intro k hk
    refine ⟨(xs[k]'(by omega), ys[k]'(by omega)), ts[k], ?_, ?_⟩
    · simp only [WalkData.posAt, hx, hy, Option.bind_eq_bind, Option.bind_some, List.getElem?_eq_getElem (show k < xs.length by omega),
        List.getElem?_eq_getElem (show k < ys.length by omega)]
      rfl
    · simp only [WalkData.timeAt, hts, Option.bind_eq_bind, Option.bind_some, List.getElem?_eq_getElem hk]
  obtain ⟨p, t, hp1, ht1⟩ := hpos n (by omega)
  obtain ⟨q, t', hp2, ht2⟩ := hpos (n + 1) hn
  obtain ⟨Q, x, y, hQ, rfl, rfl, k, a, d, vo, vn, va, δ, hk, hk4, hq, ha, hd, hvo, hvn, hva, -, -, hδ, -, -, he⟩ :=
    C19_formula (fun Q hQ => hQ ▸ ⟨hP.enclosed.built, hP.enclosed.steps, hang⟩) (h.monoSd fun _ _ _ _ hS => hS.2) hwd hp1 hp2 ht1 ht2
  subst hQ
  have hne : p ≠ q := by
    intro e
    rw [e, hP.enclosed.walk.1, hP.enclosed.walk.2] at hq
    have e1 := congrArg Prod.fst hq
    have e2 := congrArg Prod.snd hq
    simp only at e1 e2
    interval_cases k <;> simp [defaultJwalk, defaultIwalk] at e1 e2 hk4
  have hfree : IsFreeTime F Q p q (freeTime (d * Q.dx) (F.cos (a - va)) vo vn) := Or.inr ⟨hne, k, a, d, vo, vn, va, hk, hq, ha, hd, hvo, hvn, hva, rfl⟩
  have hE := Routed.enclosedReach hRt
  have hB := hb p q (C17_inside hE hwd hp1) (C17_inside hE hwd hp2)
  rw [IsFreeTime.eq_freeDur hP.enclosed.walk hfree] at hB
  have htau : wd.tau i (n + 1) - wd.tau i n = y - x := by
    unfold WalkData.tau
    rw [ht1, ht2]
  have hδ1 : |1 + δ| ≤ 2 := (abs_add_le _ _).trans (by rw [abs_one]; linarith [hP.diff])
  have hm := mul_le_mul (hB.trans (le_abs_self b)) hδ1 (abs_nonneg _) (abs_nonneg _)
  rw [← abs_mul, ← he] at hm
  rw [htau]
  linarith [le_abs_self (y - x)]

/-- Among finitely many cells some bound `q` on the expected numbers of stays is positive. -/
theorem C119_floor {F : Fun ℝ Arith.exact} {wd : WalkData ℝ}
    (calls : List (Option (Fl ℝ) × Int)) :
    ∃ q > 0, ∀ i j : Nat, i < R → j < C → expectedOf Arith.exact F P calls s wd (staysIn ((i : Int), (j : Int))) ≠ 0 →
      q ≤ expectedOf Arith.exact F P calls s wd (staysIn ((i : Int), (j : Int))) := by
  have h0 : ∀ c, 0 ≤ expectedOf Arith.exact F P calls s wd (staysIn c) := fun c => by
    refine div_nonneg (Finset.sum_nonneg fun _ _ => integral_nonneg fun ω => ?_) (Nat.cast_nonneg _)
    unfold staysIn
    split
    · split
      · exact Nat.cast_nonneg _
      · exact le_rfl
    · exact le_rfl
  have key : ∀ S : Finset (Nat × Nat), ∃ q > 0, ∀ p ∈ S, expectedOf Arith.exact F P calls s wd (staysIn ((p.1 : Int), (p.2 : Int))) ≠ 0 →
      q ≤ expectedOf Arith.exact F P calls s wd (staysIn ((p.1 : Int), (p.2 : Int))) := by
    intro S
    induction S using Finset.induction_on with
    | empty => exact ⟨1, one_pos, fun p hp => by simp at hp⟩
    | insert p S _ ih =>
      obtain ⟨q, hq, hS⟩ := ih
      by_cases hz : expectedOf Arith.exact F P calls s wd (staysIn ((p.1 : Int), (p.2 : Int))) = 0
      · refine ⟨q, hq, fun p' hp' hne => ?_⟩
        rcases Finset.mem_insert.1 hp' with rfl | hp'
        · exact absurd hz hne
        · exact hS p' hp' hne
      · refine ⟨min q (expectedOf Arith.exact F P calls s wd (staysIn ((p.1 : Int), (p.2 : Int)))), lt_min hq (lt_of_le_of_ne (h0 _) (Ne.symm hz)), fun p' hp' hne => ?_⟩
        rcases Finset.mem_insert.1 hp' with rfl | hp'
        · exact min_le_right _ _
        · exact (min_le_left _ _).trans (hS p' hp' hne)
  obtain ⟨q, hq, hS⟩ := key (Finset.range R ×ˢ Finset.range C)
  exact ⟨q, hq, fun i j hi hj hne => hS (i, j) (by simpa using ⟨hi, hj⟩) hne⟩

theorem wideObj_far {a b : Nat} (ha : 2 ≤ a) (ha' : a ≤ 8) (hb : 2 ≤ b) (hb' : b ≤ 8) : ¬ NearEdge wideObj a b := by
  rintro ⟨i, j, hi, hj, h1, h2, h3⟩
  have : wideObj.cellType.at' i j = if interiorB 11 11 i j then (if Fl.lt (.fin (1 : ℝ)) (.fin (1 / 10)) then 2 else 0) else -1 := rfl
  rw [this, if_pos (by unfold interiorB; simp; omega)] at h3
  split_ifs at h3

theorem wideObj_routed : Routed Arith.exact Fun.real 11 11 wideObj :=
  ⟨wideObj_enclosed, show (_ : ℝ) ≤ 2 by change (1 / 5 : ℝ) ≤ 2; norm_num, show (0 : ℝ) ≤ _ by change (0 : ℝ) ≤ 10; norm_num⟩

/-- Particles in the middle of the wide channel enter and leave the next cell downstream in two iterations with positive probability. -/
theorem wide_stays {s : PState ℝ} {wd : WalkData ℝ} (hown : Reach Arith.exact Fun.real (fun Q => Q = wideObj) Draws (GoodSeeds Arith.exact 11 11) wideObj s)
    (hwd : s.walk = some wd) (hN : 0 < wd.xinds.length) (hl0 : ∀ i, i < wd.xinds.length → wd.lists i = some ([5], [5], [.fin ((0 : Int) : ℝ)]))
    (ht0 : ∀ i, i < wd.xinds.length → wd.lastTime i = some (.fin ((0 : Int) : ℝ))) :
    0 < expectedOf Arith.exact Fun.real wideObj [(none, 10000), (none, 10000)] s wd (staysIn (6, 5)) := by
  have hR := hown.mono (Ob' := Routed Arith.exact Fun.real 11 11) fun Q hQ => hQ ▸ wideObj_routed
  have hreach := Routed.enclosedReach hR
  obtain ⟨b, hb0, hb⟩ := C119_paced wideObj_routed wideObj_angles
  have hbc : ∀ ω, Draws ω → ∀ s' wd', runCalls Arith.exact Fun.real wideObj ω [(none, 10000), (none, 10000)] s = .ok s' → s'.walk = some wd' → Paced b wd' :=
    fun ω hω s' wd' hr hw => hb s' wd' (reach_calls hω _ hown hr) hw
  obtain ⟨o1, o2, o3⟩ := expected_order hR hwd hN [(none, 10000), (none, 10000)] hb0 hbc (6, 5)
  refine lt_of_le_of_ne (nonneg_of_mul_nonneg_right (o1.trans o2) hb0) fun hz => ?_
  have ht : ∀ i, i < wd.xinds.length → ∃ t, wd.lastTime i = some (.fin t) := fun i hi => ⟨_, ht0 i hi⟩
  have ex := fun (ω : Nat → ℝ) (hω : Draws ω) (i : Fin wd.xinds.length) => course_exists hreach wideObj_angles hwd ht hω 2 i.2
  have ex' : ∃ X : Fin wd.xinds.length → (Nat → ℝ) → Course 2, ∀ ω, Draws ω → ∀ i : Fin wd.xinds.length, HasCourse Fun.real wideObj ω s 2 i (X i ω) := by
    classical
    exact ⟨fun i ω => if hω : Draws ω then (ex ω hω i).choose else fun _ => ((0, 0), 0), fun ω hω i => by
      simp only [dif_pos hω]
      exact (ex ω hω i).choose_spec⟩
  obtain ⟨X, hX⟩ := ex'
  have hp : ∀ i : Fin wd.xinds.length, wd.lastPos i = some ((fun _ => (5, 5) : Fin wd.xinds.length → Int × Int) i) := fun i =>
    (lists_last (hl0 i i.2)).1
  obtain ⟨-, hlaw⟩ := C104_independent hreach wideObj_angles hwd ht hX hp
  have hlaw := hlaw ⟨0, hN⟩
  have hpos : courseLaw Fun.real wideObj 2 (5, 5) (rect (fun j => ((6 + j.val : Nat), 5)) fun _ => Set.univ) ≠ 0 := by
    rw [courseLaw_rect _ _ _ _ fun _ => MeasurableSet.univ, Fin.prod_univ_two]
    have d : ∀ x, delayProb wideObj.diffCoeff x Set.univ = 1 := fun x => by rw [← durLaw_apply MeasurableSet.univ, measure_univ]
    simp only [d, mul_one]
    refine mul_ne_zero (wideObj_down (a := 5) (b := 5) (by unfold Inside; decide) (wideObj_far (by omega) (by omega) (by omega) (by omega))).ne'
      (wideObj_down (a := 6) (b := 5) (by unfold Inside; decide) (wideObj_far (by omega) (by omega) (by omega) (by omega))).ne'
  rw [← hlaw, Measure.map_apply_of_aemeasurable (course_measurable hreach wideObj_angles hwd ht hX hp ⟨0, hN⟩) (rect_measurable _ fun _ => MeasurableSet.univ)] at hpos
  refine hpos (measure_mono_null (t := {ω | ¬ (staysIn (6, 5) (runCalls Arith.exact Fun.real wideObj ω [(none, 10000), (none, 10000)] s) = 0 ∧ Draws ω)})
    (fun ω hω ⟨hz0, hd⟩ => ?_) (ae_iff.1 ((o3 hz.symm).and (uniformDraws_nonzero.mono fun ω h => h.1))))
  have hc := mem_rect.1 hω
  obtain ⟨⟨s1, w1, wd1, a1, b1, c1⟩, -⟩ := hX ω hd ⟨0, hN⟩ 0
  obtain ⟨⟨s2, w2, wd2, a2, b2, c2⟩, -⟩ := hX ω hd ⟨0, hN⟩ 1
  have hB : Reach Arith.exact Fun.real (Built Arith.exact Fun.real) Draws (GoodSeeds Arith.exact 11 11) wideObj s := hR.mono fun _ h => h.enclosed.built
  rw [(hc 0).1] at c1
  rw [(hc 1).1] at c2
  change AfterRuns _ _ _ _ _ 1 _ _ at a1
  change AfterRuns _ _ _ _ _ 2 _ _ at a2
  obtain _ | ⟨a2, r2⟩ := a2
  obtain ⟨rfl, rfl⟩ := AfterRuns.unique a1 a2
  obtain _ | ⟨a1, r1⟩ := a1
  cases a1
  obtain ⟨d1, d2⟩ := C22_one_step hB r1 hwd
  have hB1 : Reach Arith.exact Fun.real (Built Arith.exact Fun.real) Draws (GoodSeeds Arith.exact 11 11) wideObj _ := .run hB hd r1
  obtain ⟨e1, e2⟩ := C22_one_step hB1 r2 d1
  rw [d1] at b1
  rw [e1] at b2
  cases b1
  cases b2
  have hlast : ∀ (w : WalkData ℝ) (xs ys : List Int) (ts : List (Fl ℝ)) (p : Int × Int), w.lists 0 = some (xs, ys, ts) → w.lastPos 0 = some p →
      xs.getLast? = some p.1 ∧ ys.getLast? = some p.2 := by
    intro w xs ys ts p h hp
    obtain ⟨a1, a2, -⟩ := lists_parts h
    simp only [WalkData.lastPos, a1, a2, Option.bind_eq_bind, Option.bind_some] at hp
    cases hx : xs.getLast? <;> cases hy : ys.getLast? <;> simp [hx, hy] at hp
    subst hp
    exact ⟨rfl, rfl⟩
  rcases d2 0 _ _ _ (hl0 0 hN) with ⟨d3, -⟩ | ⟨q, t, d3, -, -⟩
  · have := hlast _ _ _ _ _ d3 c1
    simp at this
  have l1 := hlast _ _ _ _ _ d3 c1
  simp at l1
  rcases e2 0 _ _ _ d3 with ⟨e3, -⟩ | ⟨q', t', e3, -, -⟩
  · have := hlast _ _ _ _ _ e3 c2
    simp [l1] at this
  obtain ⟨s', w', hrun, hw', e4⟩ : ∃ s' w', runCalls Arith.exact Fun.real wideObj ω [(none, 10000), (none, 10000)] s = .ok s' ∧ s'.walk = some w' ∧
      w'.lists 0 = some ([5] ++ [q.1] ++ [q'.1], [5] ++ [q.2] ++ [q'.2], [.fin ((0 : Int) : ℝ)] ++ [t] ++ [t']) := by
    refine ⟨_, _, ?_, e1, e3⟩
    simp only [runCalls, r1, r2, ok_bind]
  rw [hrun] at hz0
  simp only [staysIn, hw'] at hz0
  have hz0 : w'.innerVisits (6, 5) = 0 := by exact_mod_cast hz0
  obtain ⟨f1, f2, f3⟩ := lists_parts e4
  unfold WalkData.innerVisits at hz0
  have hz1 := (Finset.sum_eq_zero_iff.1 hz0) 0 (Finset.mem_range.2 (List.getElem?_eq_some_iff.1 f1).1)
  have hz2 := (Finset.sum_eq_zero_iff.1 hz1) 0 (by simp [WalkData.records, f3])
  simp [WalkData.posAt, f1, f2, l1] at hz2

/-- The hypotheses are met, with and without smoothing: 32 particles in a cell of a channel, two plain calls. The next cell downstream is entered and left again in expectation. -/
example : ∃ (s : PState ℝ) (wd : WalkData ℝ) (b q : ℝ), 0 < b ∧ 0 < q ∧
    Reach Arith.exact Fun.real (Routed Arith.exact Fun.real 11 11) Draws (GoodSeeds Arith.exact 11 11) wideObj s ∧ s.walk = some wd ∧ wd.xinds.length = 32 ∧ 0 < expectedOf Arith.exact Fun.real wideObj [(none, 10000), (none, 10000)] s wd (staysIn (6, 5)) ∧
    ∀ smooth, smooth = none ∨ smooth = some pairMean → ∃ m, IsTimeMapOf 11 11 smooth 100 (fun i j =>
      meanStay (expectedOf Arith.exact Fun.real wideObj [(none, 10000), (none, 10000)] s wd (stayTimeIn ((i : Int), (j : Int))))
        (expectedOf Arith.exact Fun.real wideObj [(none, 10000), (none, 10000)] s wd (staysIn ((i : Int), (j : Int))))) m ∧
      ∀ δ, 0 < δ → δ < q → uniformDraws.real {ω | OffBy 11 11 smooth (2 * b * δ / (q - δ)) (timeMapIn Arith.exact 11 11 smooth 100
        (runCalls Arith.exact Fun.real wideObj ω [(none, 10000), (none, 10000)] s)) m} ≤ 484 * Real.exp (-64 * (δ / 3) ^ 2) := by
  obtain ⟨s0, h0, wd, hwd, hlen, hrec, hl0, ht0⟩ : ∃ s0, generateParticles Arith.exact wideObj (fun _ => 1 / 2) (initState Arith.exact Fun.real wideObj 0) (.int 32)
    (.list [.int 5, .int 5, .int 5, .int 5, .int 5, .int 5, .int 5, .int 5, .int 5, .int 5, .int 5, .int 5, .int 5, .int 5, .int 5, .int 5, .int 5, .int 5, .int 5, .int 5, .int 5, .int 5, .int 5, .int 5, .int 5, .int 5, .int 5, .int 5, .int 5, .int 5, .int 5, .int 5])
    (.list [.int 5, .int 5, .int 5, .int 5, .int 5, .int 5, .int 5, .int 5, .int 5, .int 5, .int 5, .int 5, .int 5, .int 5, .int 5, .int 5, .int 5, .int 5, .int 5, .int 5, .int 5, .int 5, .int 5, .int 5, .int 5, .int 5, .int 5, .int 5, .int 5, .int 5, .int 5, .int 5])
    (.int 0) (.str "exact") none = .ok s0 ∧ ∃ wd, s0.walk = some wd ∧ wd.xinds.length = 32 ∧ (∀ i, i < 32 → wd.records i = 1) ∧ (∀ i, i < 32 → wd.lists i = some ([5], [5], [.fin ((0 : Int) : ℝ)])) ∧
      ∀ i, i < 32 → wd.lastTime i = some (.fin ((0 : Int) : ℝ)) :=
    ⟨_, rfl, _, rfl, rfl, fun i hi => by interval_cases i <;> rfl, fun i hi => by interval_cases i <;> rfl, fun i hi => by interval_cases i <;> rfl⟩
  have hc : genInputCheck (K := ℝ) (.int 32) (.list [.int 5, .int 5, .int 5, .int 5, .int 5, .int 5, .int 5, .int 5, .int 5, .int 5, .int 5, .int 5, .int 5, .int 5, .int 5, .int 5, .int 5, .int 5, .int 5, .int 5, .int 5, .int 5, .int 5, .int 5, .int 5, .int 5, .int 5, .int 5, .int 5, .int 5, .int 5, .int 5])
    (.list [.int 5, .int 5, .int 5, .int 5, .int 5, .int 5, .int 5, .int 5, .int 5, .int 5, .int 5, .int 5, .int 5, .int 5, .int 5, .int 5, .int 5, .int 5, .int 5, .int 5, .int 5, .int 5, .int 5, .int 5, .int 5, .int 5, .int 5, .int 5, .int 5, .int 5, .int 5, .int 5]) (.int 0) (.str "exact") =
    .ok (32, [5, 5, 5, 5, 5, 5, 5, 5, 5, 5, 5, 5, 5, 5, 5, 5, 5, 5, 5, 5, 5, 5, 5, 5, 5, 5, 5, 5, 5, 5, 5, 5], [5, 5, 5, 5, 5, 5, 5, 5, 5, 5, 5, 5, 5, 5, 5, 5, 5, 5, 5, 5, 5, 5, 5, 5, 5, 5, 5, 5, 5, 5, 5, 5], .fin ((0 : Int) : ℝ), .exact) := rfl
  have hown : Reach Arith.exact Fun.real (fun Q => Q = wideObj) Draws (GoodSeeds Arith.exact 11 11) wideObj s0 :=
    .generate (.new 0 rfl) (fun _ => by norm_num) hc (by norm_num)
      ⟨fun x hx y hy => by
        simp at hx hy
        subst hx hy
        unfold Inside
        decide, _, rfl, rfl⟩ h0
  have hN : 0 < wd.xinds.length := by omega
  have hL : ∀ i, i < wd.xinds.length → wd.records i + ([((none : Option (Fl ℝ)), (10000 : Int)), (none, 10000)].map maxMoves).sum ≤ 3 := fun i hi => by
    rw [hrec i (by omega)]
    simp [maxMoves]
  have hreach := hown.mono (Ob' := Routed Arith.exact Fun.real 11 11) fun Q hQ => hQ ▸ wideObj_routed
  obtain ⟨b, hb0, hb⟩ := C119_paced wideObj_routed wideObj_angles
  have hbc : ∀ ω, Draws ω → ∀ s' wd', runCalls Arith.exact Fun.real wideObj ω [(none, 10000), (none, 10000)] s0 = .ok s' → s'.walk = some wd' → Paced b wd' :=
    fun ω hω s' wd' hr hw => hb s' wd' (reach_calls hω _ hown hr) hw
  obtain ⟨q, hq0, hq⟩ := C119_floor (R := 11) (C := 11) (F := Fun.real) (P := wideObj) (s := s0) (wd := wd) [(none, 10000), (none, 10000)]
  refine ⟨s0, wd, b, q, hb0, hq0, hreach, hwd, hlen, wide_stays hown hwd hN (fun i hi => hl0 i (by omega)) (fun i hi => ht0 i (by omega)), fun smooth hsm => ?_⟩
  have hs : SmoothOK smooth := by
    rcases hsm with rfl | rfl
    · rintro f ⟨⟩
    · exact pairMean_ok
  have hav : Averaging smooth := by
    rcases hsm with rfl | rfl
    · rintro f ⟨⟩
    · exact pairMean_averaging
  obtain ⟨m, hm⟩ := exists_timeMap (R := 11) (C := 11) (clip := 100) hs (by norm_num) (by norm_num) (by norm_num) le_rfl
    (a := fun i j => meanStay (expectedOf Arith.exact Fun.real wideObj [(none, 10000), (none, 10000)] s0 wd (stayTimeIn ((i : Int), (j : Int))))
        (expectedOf Arith.exact Fun.real wideObj [(none, 10000), (none, 10000)] s0 wd (staysIn ((i : Int), (j : Int))))) fun i j => by
      obtain ⟨o1, o2, -⟩ := expected_order hreach hwd hN [(none, 10000), (none, 10000)] hb0 hbc ((i : Int), (j : Int))
      unfold meanStay
      split_ifs with hz
      · exact le_rfl
      · exact div_nonneg o1 (nonneg_of_mul_nonneg_right (o1.trans o2) hb0)
  refine ⟨m, hm, fun δ hδ hδq => ?_⟩
  have := C119_map hreach hwd hN [(none, 10000), (none, 10000)] hb0 hbc hL hs hav (by norm_num) le_rfl hm hδ hδq hq
  rw [hlen] at this
  refine this.trans (le_of_eq ?_)
  norm_num

end Dorado
