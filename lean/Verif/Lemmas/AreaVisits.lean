import Verif.Lemmas.AreaMap
import Verif.Props.Estimate

/-! Helper lemmas for C114: the number of records and of visits, read off the histories. -/

set_option linter.unusedSectionVars false

namespace Dorado

open MeasureTheory

variable {A : Arith ℝ} {F : Fun ℝ A} {R C : Nat} {P : PObj ℝ} {s : PState ℝ} {rows : List (Row ℝ)}

/-- A particle records at most one cell per move. -/
theorem deal_count {ι : Type} {i : ι} {L : List (ι × Op Mach)} {n : Nat} (hL : Costs i L n) (ω : Nat → ℝ) (x : (ι → Mach) × Nat) :
    ((deal ω L x).1 i).1.cells.length ≤ (x.1 i).1.cells.length + n := by
  induction hL generalizing x with
  | nil => exact le_rfl
  | @other a L n h hL ih =>
    rw [deal_cons]
    obtain ⟨y, hy, h1, h2⟩ := dealStep_out ω x a
    have hc : ((dealStep ω x a).1 i).1.cells = (x.1 i).1.cells := by
      by_cases hi : i = a.1
      · subst hi
        rcases h with h | h
        · exact absurd rfl h
        · rw [h1]; exact h _ _ hy
      · rw [h2 i hi]
    have := ih (dealStep ω x a)
    rwa [hc] at this
  | @near a L n h hL ih =>
    rw [deal_cons]
    obtain ⟨y, hy, h1, h2⟩ := dealStep_out ω x a
    have hc : ((dealStep ω x a).1 i).1.cells.length ≤ (x.1 i).1.cells.length + 1 := by
      by_cases hi : i = a.1
      · subst hi
        rw [h1]
        rcases h _ _ hy with hc | ⟨q, hc, -⟩
        · rw [hc]; omega
        · rw [hc]; simp
      · rw [h2 i hi]; omega
    have := ih (dealStep ω x a)
    omega

/-- The records added by a sequence of calls. -/
theorem records_bound (hR : Routable A P) (hs : Sound A F P s rows) (hne : 0 < rows.length) {ω : Nat → ℝ} (hω : Draws ω) (calls : List (Option (Fl ℝ) × Int)) :
    ∃ s' rows', runCalls A F P ω calls s = .ok s' ∧ Sound A F P s' rows' ∧ rows'.length = rows.length ∧
      ∀ (i : Nat) r r', rows[i]? = some r → rows'[i]? = some r' → r'.ts.length ≤ r.ts.length + (calls.map maxMoves).sum := by
  obtain ⟨s', rows', e1, e2, e3, e4⟩ := calls_feed hR hω (N := rows.length) hne calls hs (st := fun j => machOf rows[j.val]) ⟨rfl, fun j r hr => by
    rw [List.getElem?_eq_getElem j.2] at hr
    cases hr
    exact machOf_match (hs.ok _ (List.getElem_mem _)).vars.aligned⟩
  refine ⟨s', rows', e1, e2, e3, fun i r r' hr hr' => ?_⟩
  obtain ⟨hi, rfl⟩ := List.getElem?_eq_some_iff.1 hr
  obtain ⟨m, hm, hcost⟩ := callsOps_costs (F := F) hR.walk hR.steps (⟨i, hi⟩ : Fin rows.length) calls
  have h1 := deal_count hcost ω (fun j => machOf rows[j.val], s.world.pos)
  have h2 := (e4 ⟨i, hi⟩ r' hr').ts
  have h3 : (machOf rows[i]).1.cells.length = rows[i].ts.length := by
    have := congrArg List.length (machOf_match (hs.ok _ (List.getElem_mem hi)).vars.aligned).ts
    simpa using this.symm
  rw [h2]
  simp only [List.length_map, List.length_range]
  simp only [h3] at h1
  omega

/-- The number of visits among the first `L` entries. -/
noncomputable def History.seen (c : Int × Int) (L : Nat) (h : History ℝ) : ℝ :=
  ∑ n ∈ Finset.range L, if ((h n).1, (h n).2.1) = (some c.1, some c.2) then 1 else 0

theorem History.seen_measurable (c : Int × Int) (L : Nat) : Measurable (History.seen c L) := by
  unfold History.seen
  refine Finset.measurable_sum _ fun n _ => ?_
  exact Measurable.ite (measurable_cell n (MeasurableSet.of_discrete (s := {(some c.1, some c.2)}))) measurable_const measurable_const

theorem History.seen_nonneg (c : Int × Int) (L : Nat) (h : History ℝ) : 0 ≤ h.seen c L :=
  Finset.sum_nonneg fun _ _ => by split_ifs <;> norm_num

theorem History.seen_le (c : Int × Int) (L : Nat) (h : History ℝ) : h.seen c L ≤ L := by
  refine (Finset.sum_le_card_nsmul _ _ 1 fun _ _ => by split_ifs <;> norm_num).trans ?_
  simp

theorem visits_eq (hs : Sound A F P s rows) {L : Nat} (hL : ∀ r ∈ rows, r.ts.length ≤ L) (c : Int × Int) :
    (visitsIn c (.ok s) : ℝ) = ∑ i : Fin rows.length, (historyIn i (.ok s)).seen c L := by
  unfold visitsIn
  simp only [hs.has.1]
  have hh : ∀ i, historyIn i (.ok s) = (ofRows (keysOf P) rows).history i := fun i => by
    unfold historyIn
    simp only [hs.has.1]
  unfold WalkData.visits
  have hc : (ofRows (keysOf P) rows).count = rows.length := by simp [WalkData.count, ofRows]
  rw [hc, Finset.sum_range]
  push_cast
  refine Finset.sum_congr rfl fun i _ => ?_
  have hri := List.getElem?_eq_getElem i.2
  have hm := List.getElem_mem i.2
  obtain ⟨a, b, -⟩ := (hs.ok _ hm).vars.aligned
  have hrec : (ofRows (keysOf P) rows).records i = rows[i.val].ts.length := by simp [WalkData.records, ofRows]
  have hpos : ∀ n, (ofRows (keysOf P) rows).posAt i n = some c ↔ (((historyIn i (.ok s)) n).1, ((historyIn i (.ok s)) n).2.1) = (some c.1, some c.2) := by
    intro n
    rw [hh, history_ofRows hri]
    simp only [WalkData.posAt, ofRows, List.getElem?_map, hri, Option.map_some, Option.bind_eq_bind, Option.bind_some, Prod.mk.injEq]
    cases rows[i.val].xs[n]? <;> cases rows[i.val].ys[n]? <;> simp [Prod.ext_iff]
  unfold History.seen
  rw [hrec]
  rw [← Finset.sum_subset (Finset.range_subset_range.2 (hL _ hm)) fun n _ hn => ?_]
  · refine Finset.sum_congr rfl fun n _ => ?_
    by_cases h : (ofRows (keysOf P) rows).posAt i n = some c
    · rw [if_pos h, if_pos ((hpos n).1 h)]
    · rw [if_neg h, if_neg (mt (hpos n).2 h)]
  · rw [if_neg]
    intro h
    rw [hh, history_ofRows hri] at h
    have hn : rows[i.val].ts.length ≤ n := by simpa using hn
    simp only [Prod.mk.injEq] at h
    rw [List.getElem?_eq_none (by omega)] at h
    cases h.1

end Dorado
