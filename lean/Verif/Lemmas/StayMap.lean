import Verif.Spec.StayMap
import Verif.Lemmas.AreaVisits

/-! Helper lemmas for C119: stays and their durations, read off the histories; maps of similar mean durations. -/

set_option linter.unusedSectionVars false

namespace Dorado

open MeasureTheory

variable {A : Arith ℝ} {F : Fun ℝ A} {R C : Nat} {P : PObj ℝ} {s : PState ℝ} {rows : List (Row ℝ)}

/-- Entry `n + 1` is at the cell `c` and not the last one. -/
def History.StaysAt (c : Int × Int) (n : Nat) (h : History ℝ) : Prop :=
  ((h (n + 1)).1, (h (n + 1)).2.1) = (some c.1, some c.2) ∧ (h (n + 2)).2.2 ≠ none

open Classical in
/-- Sum of `w` over the stays at the cell `c` among the first `L` entries. -/
noncomputable def History.tally (c : Int × Int) (L : Nat) (w : Nat → History ℝ → ℝ) (h : History ℝ) : ℝ :=
  ∑ n ∈ Finset.range L, if h.StaysAt c n then w n h else 0

/-- Residence time at entry `n + 1`. -/
noncomputable def History.stay (n : Nat) (h : History ℝ) : ℝ := (h.tau (n + 2) - h.tau n) / 2

theorem History.tally_measurable (c : Int × Int) (L : Nat) {w : Nat → History ℝ → ℝ} (hw : ∀ n, Measurable (w n)) : Measurable (History.tally c L w) := by
  classical
  unfold History.tally
  refine Finset.measurable_sum _ fun n _ => ?_
  refine Measurable.ite ?_ (hw n) measurable_const
  exact (measurable_cell (n + 1) (MeasurableSet.of_discrete (s := {(some c.1, some c.2)}))).inter (measurable_entry (n + 2) measurableSet_none).compl

theorem History.stay_measurable (n : Nat) : Measurable (History.stay n) :=
  ((History.tau_measurable (n + 2)).sub (History.tau_measurable n)).div_const 2

theorem History.tally_bounds (c : Int × Int) (L : Nat) {w : Nat → History ℝ → ℝ} {b : ℝ} (hb : 0 ≤ b) (h0 : ∀ n h, 0 ≤ w n h) (h1 : ∀ n h, w n h ≤ b)
    (h : History ℝ) : 0 ≤ h.tally c L w ∧ h.tally c L w ≤ L * b := by
  classical
  constructor
  · exact Finset.sum_nonneg fun n _ => by split_ifs <;> [exact h0 n h; exact le_rfl]
  · refine (Finset.sum_le_card_nsmul _ _ b fun n _ => by split_ifs <;> [exact h1 n h; exact hb]).trans ?_
    simp

/-- Sums over the inner records of all particles. -/
theorem tally_eq (hs : Sound A F P s rows) {L : Nat} (hL : ∀ r ∈ rows, r.ts.length ≤ L) (c : Int × Int) {w : Nat → History ℝ → ℝ} {u : Nat → Nat → ℝ}
    (hw : ∀ i n, w n (historyIn i (.ok s)) = u i n) :
    (∑ p ∈ Finset.range (ofRows (keysOf P) rows).count, ∑ n ∈ Finset.range ((ofRows (keysOf P) rows).records p - 2),
      if (ofRows (keysOf P) rows).posAt p (n + 1) = some c then u p n else 0) = ∑ i : Fin rows.length, (historyIn i (.ok s)).tally c L w := by
  classical
  have hh : ∀ i, historyIn i (.ok s) = (ofRows (keysOf P) rows).history i := fun i => by
    unfold historyIn
    simp only [hs.has.1]
  have hc : (ofRows (keysOf P) rows).count = rows.length := by simp [WalkData.count, ofRows]
  rw [hc, Finset.sum_range]
  refine Finset.sum_congr rfl fun i _ => ?_
  have hri := List.getElem?_eq_getElem i.2
  have hm := List.getElem_mem i.2
  obtain ⟨a, b, -⟩ := (hs.ok _ hm).vars.aligned
  have hrec : (ofRows (keysOf P) rows).records i = rows[i.val].ts.length := by simp [WalkData.records, ofRows]
  have hpos : ∀ n, n + 2 < rows[i.val].ts.length → ((ofRows (keysOf P) rows).posAt i (n + 1) = some c ↔ (historyIn i (.ok s)).StaysAt c n) := by
    intro n hn
    rw [hh, history_ofRows hri]
    unfold History.StaysAt
    simp only [WalkData.posAt, ofRows, List.getElem?_map, hri, Option.map_some, Option.bind_eq_bind, Option.bind_some, Prod.mk.injEq]
    rw [List.getElem?_eq_getElem hn]
    cases rows[i.val].xs[n + 1]? <;> cases rows[i.val].ys[n + 1]? <;> simp [Prod.ext_iff]
  unfold History.tally
  rw [hrec, ← Finset.sum_subset (Finset.range_subset_range.2 ((Nat.sub_le _ 2).trans (hL _ hm))) fun n _ hn => ?_]
  · refine Finset.sum_congr rfl fun n hn => ?_
    have hn := Finset.mem_range.1 hn
    rw [hw]
    by_cases h : (ofRows (keysOf P) rows).posAt i (n + 1) = some c
    · rw [if_pos h, if_pos ((hpos n (by omega)).1 h)]
    · rw [if_neg h, if_neg (mt (hpos n (by omega)).2 h)]
  · rw [if_neg]
    rintro ⟨-, h⟩
    rw [hh, history_ofRows hri] at h
    have hn : rows[i.val].ts.length - 2 ≤ n := by simpa using hn
    exact h (List.getElem?_eq_none (by omega))

theorem tau_history (wd : WalkData ℝ) (i n : Nat) : (wd.history i).tau n = wd.tau i n := by
  unfold History.tau WalkData.tau WalkData.history WalkData.timeAt
  simp only
  simp only [Option.bind_eq_bind]
  generalize (wd.times[i]?.bind fun x => x[n]?) = o
  rcases o with _ | _ | _ | _ | _ <;> rfl

theorem stays_eq (hs : Sound A F P s rows) {L : Nat} (hL : ∀ r ∈ rows, r.ts.length ≤ L) (c : Int × Int) :
    staysIn c (.ok s) = ∑ i : Fin rows.length, (historyIn i (.ok s)).tally c L fun _ _ => 1 := by
  rw [← tally_eq hs hL c (w := fun _ _ => 1) (u := fun _ _ => 1) fun _ _ => rfl]
  unfold staysIn
  simp only [hs.has.1]
  unfold WalkData.innerVisits
  push_cast
  rfl

theorem stayTime_eq (hs : Sound A F P s rows) {L : Nat} (hL : ∀ r ∈ rows, r.ts.length ≤ L) (c : Int × Int) :
    stayTimeIn c (.ok s) = ∑ i : Fin rows.length, (historyIn i (.ok s)).tally c L History.stay := by
  rw [← tally_eq hs hL c (w := History.stay) (u := (ofRows (keysOf P) rows).residence) fun i n => ?_]
  · unfold stayTimeIn
    simp only [hs.has.1]
    rfl
  · unfold History.stay WalkData.residence historyIn
    simp only [hs.has.1, tau_history]

/-! ## Ratios -/

theorem meanStay_close {x y t v b δ q : ℝ} (hb : 0 ≤ b) (hx : |x - t| ≤ δ * b) (hy : |y - v| ≤ δ) (hq : q ≤ v) (hδ : δ < q) (hδ0 : 0 ≤ δ) (ht : 0 ≤ t) (htv : t ≤ b * v) :
    |meanStay x y - meanStay t v| ≤ 2 * b * δ / (q - δ) := by
  have hv : 0 < v := by linarith
  have hy0 : 0 < q - δ := by linarith
  have hyq : q - δ ≤ y := by linarith [(abs_le.1 hy).1]
  have hyp : 0 < y := by linarith
  unfold meanStay
  rw [if_neg hyp.ne', if_neg hv.ne']
  have e : x / y - t / v = ((x - t) + t / v * (v - y)) / y := by
    field_simp
    ring
  have hr0 : 0 ≤ t / v := div_nonneg ht hv.le
  have hr1 : t / v ≤ b := (div_le_iff₀ hv).2 htv
  rw [e, abs_div, abs_of_pos hyp]
  have h1 : |t / v * (v - y)| ≤ b * δ := by
    rw [abs_mul, abs_of_nonneg hr0, abs_sub_comm]
    exact mul_le_mul hr1 hy (abs_nonneg _) hb
  have h2 : |x - t + t / v * (v - y)| ≤ 2 * b * δ := (abs_add_le _ _).trans (by linarith)
  exact div_le_div₀ (by positivity) h2 hy0 hyq

/-! ## Maps -/

theorem time_vals {wd : WalkData ℝ} {clip : ℝ} {smooth : Option (Grid (Fl ℝ) → Grid (Fl ℝ))} (hp : Proper wd) (hr : OnRaster R C wd) (hm : TimesMono wd)
    (hR : 0 < R) (hC : 0 < C) (h0 : 0 ≤ clip) (h1 : clip ≤ 100) (hs : SmoothOK smooth) :
    ∃ (v : ℝ) (X : Nat → Nat → ℝ) (g : Grid (Fl ℝ)),
      (∀ i j : Nat, 0 ≤ meanStay (wd.residenceAt ((i : Int), (j : Int))) (wd.innerVisits ((i : Int), (j : Int)))) ∧
      Percentile (rasterOf R C fun i j => meanStay (wd.residenceAt ((i : Int), (j : Int))) (wd.innerVisits ((i : Int), (j : Int)))).values clip v ∧ 0 ≤ v ∧
      nourishmentTime Arith.exact wd (R, C) smooth clip = .ok g ∧
      ∀ i j, i < R → j < C →
        (smoothed smooth (rasterOf R C fun i j => min (meanStay (wd.residenceAt ((i : Int), (j : Int))) (wd.innerVisits ((i : Int), (j : Int)))) v)).at' i j =
          .fin (X i j) ∧ (g.at' i j = .fin (X i j) ∨ g.at' i j = .nan ∧ (smooth = none → X i j = 0)) := by
  obtain ⟨h, eh, hh⟩ := meanTime_eq (A := Arith.exact) hp hr
  have heq : h = fun (i j : Nat) => meanStay (wd.residenceAt ((i : Int), (j : Int))) (wd.innerVisits ((i : Int), (j : Int))) := by
    funext i j
    rw [(hh i j).2.2 fun _ => rfl]
    unfold meanStay
    simp only [Nat.cast_eq_zero]
  have hnn : ∀ i j, 0 ≤ h i j := fun i j => (hh i j).1 hm
  subst heq
  have hne : Grid.flat (⟨R, C, fun i j => meanStay (wd.residenceAt ((i : Int), (j : Int))) (wd.innerVisits ((i : Int), (j : Int)))⟩ : Grid ℝ) ≠ [] := by
    intro e
    have := flat_length (⟨R, C, fun i j => meanStay (wd.residenceAt ((i : Int), (j : Int))) (wd.innerVisits ((i : Int), (j : Int)))⟩ : Grid ℝ)
    rw [e] at this
    simp at this
    omega
  obtain ⟨v, ev, hperc⟩ := percK_spec h0 h1 hne
  have v0 : 0 ≤ v := hperc.nonneg fun x hx => by
    obtain ⟨i, j, -, -, rfl⟩ := mem_flat.1 hx
    exact hnn i j
  obtain ⟨X, m, e1, r1, c1, hX⟩ := smoothOrNan_vals (R := R) (C := C) hs (fun i j => le_min (hnn i j) v0) hR hC
  refine ⟨v, X, m, hnn, by rw [values_raster]; exact hperc, v0, ?_, fun i j hi hj => ⟨(hX i j hi hj).1, (hX i j hi hj).2.2.imp id fun h => ⟨h.1, h.2.2⟩⟩⟩
  unfold nourishmentTime
  rw [eh]
  simp only [ok_bind]
  rw [nanpercentile_fin h0 h1 (Nat.mul_pos hR hC), ev]
  simp only [ok_bind]
  rw [npClip_fin hnn]
  exact e1

/-- Similar mean durations have similar maps. -/
theorem timeMap_close {wd : WalkData ℝ} {clip : ℝ} {smooth : Option (Grid (Fl ℝ) → Grid (Fl ℝ))} (hp : Proper wd) (hr : OnRaster R C wd) (hm : TimesMono wd)
    (hR : 0 < R) (hC : 0 < C) (h0 : 0 ≤ clip) (h1 : clip ≤ 100) (hs : SmoothOK smooth) (hav : Averaging smooth) {a m : Nat → Nat → ℝ} (ha : ∀ i j, 0 ≤ a i j)
    (hmap : IsTimeMapOf R C smooth clip a m) {d : ℝ}
    (hd : ∀ i j, i < R → j < C → |meanStay (wd.residenceAt ((i : Int), (j : Int))) (wd.innerVisits ((i : Int), (j : Int))) - a i j| ≤ d) :
    ¬ OffBy R C smooth d (nourishmentTime Arith.exact wd (R, C) smooth clip).toOption m := by
  obtain ⟨w, X, g, hnn, hw, w0, eg, hX⟩ := time_vals hp hr hm hR hC h0 h1 hs
  obtain ⟨v, hv, hm⟩ := hmap
  have hv0 : 0 ≤ v := hv.nonneg fun x hx => by
    rw [values_raster] at hx
    obtain ⟨i, j, -, -, rfl⟩ := mem_flat.1 hx
    exact ha i j
  have hwv : |w - v| ≤ d := by
    rw [values_raster] at hw hv
    exact hw.close (flat_forall₂ fun i j hi hj => hd i j hi hj) hv
  have hmin : Near R C 1 d (rasterOf R C fun i j => min (meanStay (wd.residenceAt ((i : Int), (j : Int))) (wd.innerVisits ((i : Int), (j : Int)))) w)
      (rasterOf R C fun i j => min (a i j) v) := by
    intro i j x x' hi hj hx hx'
    simp only [rasterOf, Fl.fin.injEq] at hx hx'
    subst hx hx'
    rw [one_mul]
    exact (abs_min_sub_min_le_max _ _ _ _).trans (max_le (hd i j hi hj) hwv)
  have hXm : ∀ i j, i < R → j < C → |X i j - m i j| ≤ d := by
    intro i j hi hj
    have hnear : Near R C 1 d (smoothed smooth (rasterOf R C fun i j => min (meanStay (wd.residenceAt ((i : Int), (j : Int))) (wd.innerVisits ((i : Int), (j : Int)))) w))
        (smoothed smooth (rasterOf R C fun i j => min (a i j) v)) := by
      cases hsm : smooth with
      | none => exact hmin
      | some f => exact hav f hsm R C _ _ (fun i j => le_min (hnn i j) w0) (fun i j => le_min (ha i j) hv0) _ _ one_pos hmin
    have := hnear i j _ _ hi hj (hX i j hi hj).1 (hm i j hi hj)
    rwa [one_mul] at this
  rw [eg]
  rintro (h | ⟨g', hg', i, j, hi, hj, h⟩)
  · cases h
  cases hg'
  have hcell := hXm i j hi hj
  rcases h with ⟨x, hx, hlt⟩ | ⟨hsm, hn, hlt⟩
  · rcases (hX i j hi hj).2 with hval | hval
    · rw [hval] at hx
      cases hx
      exact absurd hlt (not_lt.2 hcell)
    · rw [hval.1] at hx; cases hx
  · rcases (hX i j hi hj).2 with hval | hval
    · rw [hval] at hn; cases hn
    · rw [hval.2 hsm, zero_sub, abs_neg] at hcell
      linarith [le_abs_self (m i j)]

/-- Numbers have a map. -/
theorem exists_timeMap {clip : ℝ} {smooth : Option (Grid (Fl ℝ) → Grid (Fl ℝ))} (hs : SmoothOK smooth) (hR : 0 < R) (hC : 0 < C) (h0 : 0 ≤ clip)
    (h1 : clip ≤ 100) {a : Nat → Nat → ℝ} (ha : ∀ i j, 0 ≤ a i j) : ∃ m, IsTimeMapOf R C smooth clip a m := by
  have hne : Grid.flat (⟨R, C, a⟩ : Grid ℝ) ≠ [] := by
    intro e
    have := flat_length (⟨R, C, a⟩ : Grid ℝ)
    rw [e] at this
    simp at this
    omega
  obtain ⟨v, -, hv⟩ := percK_spec h0 h1 hne
  rw [← values_raster] at hv
  have hv0 : 0 ≤ v := hv.nonneg fun x hx => by
    rw [values_raster] at hx
    obtain ⟨i, j, -, -, rfl⟩ := mem_flat.1 hx
    exact ha i j
  obtain ⟨X, _, _, _, _, hX⟩ := smoothOrNan_vals hs (fun i j => le_min (ha i j) hv0) hR hC
  exact ⟨X, v, hv, fun i j hi hj => (hX i j hi hj).1⟩

end Dorado
