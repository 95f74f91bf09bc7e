import Verif.Lemmas.Nourish
import Verif.Props.Exposure

/-! # Nourishment area and time: C44, C45, C46 -/

set_option linter.unusedSectionVars false

namespace Dorado

variable {K : Type} [Field K] [LinearOrder K] [IsStrictOrderedRing K] [FloorRing K] {A : Arith K}

/-! ## C44 -/

/-- An `R` x `C` map with values NaN or in [0,1]. -/
def UnitMap (R C : Nat) (g : Grid (Fl K)) : Prop :=
  g.rows = R ∧ g.cols = C ∧ ∀ i j, i < R → j < C → g.at' i j = .nan ∨ ∃ x, g.at' i j = .fin x ∧ 0 ≤ x ∧ x ≤ 1

/-- The maximum value of the map is 1. -/
def MaxOne (R C : Nat) (g : Grid (Fl K)) : Prop := ∃ i j, i < R ∧ j < C ∧ g.at' i j = .fin 1

/-- The map has no value at all. -/
def AllNan (R C : Nat) (g : Grid (Fl K)) : Prop := ∀ i j, i < R → j < C → g.at' i j = .nan

/-- Any rounding, smoothing operator and percentile: values are NaN or in [0,1], and either the maximum is exactly 1 or all are NaN.
(The full claim, maximum 1 in every case, is false, see `C44_sparse_counterexample`.) -/
theorem C44_range_partial {wd : WalkData K} {R C : Nat} {clip : K} {smooth : Option (Grid (Fl K) → Grid (Fl K))} (hp : Proper wd)
    (hr : OnRaster R C wd) (hR : 0 < R) (hC : 0 < C) (h0 : 0 ≤ clip) (h1 : clip ≤ 100) (hs : SmoothOK smooth) :
    ∃ g, nourishmentArea A wd (R, C) smooth clip = .ok g ∧ UnitMap R C g ∧ (MaxOne R C g ∨ AllNan R C g) := by
  obtain ⟨h, v, hc, v0, -, e⟩ := nourishArea_steps (A := A) hp hr hR hC h0 h1 smooth
  obtain ⟨m, e1, r1, c1, hm⟩ := smoothOrNan_pos hs (nonneg_finGrid (R := R) (C := C) (h := fun i j => min (h i j) v)
    fun i j => le_min (hc i j).1 v0) hR hC
  change m.rows = R at r1
  change m.cols = C at c1
  have hm' : ∀ i j, i < m.rows → j < m.cols → m.at' i j = .nan ∨ ∃ x, m.at' i j = .fin x ∧ 0 < x := by
    intro i j hi hj
    exact hm i j (by rw [← r1]; exact hi) (by rw [← c1]; exact hj)
  obtain ⟨top, e2, ht⟩ := normalise_pos (by omega) (by omega) hm'
  rw [e, e1]
  simp only [ok_bind, e2, pure_def]
  refine ⟨_, rfl, ⟨r1, c1, fun i j hi hj => ?_⟩, ?_⟩
  · simp only [Grid.map]
    rcases ht with ⟨rfl, ht⟩ | ⟨t, rfl, t0, -, hle⟩
    · left
      rw [ht i j (by omega) (by omega)]
      rfl
    · rcases hm' i j (by omega) (by omega) with hn | ⟨x, hx, x0⟩
      · left
        rw [hn]
        rfl
      · right
        have := hle i j x (by omega) (by omega) hx
        refine ⟨A.rnd (x / t), ?_, rnd_nonneg A (div_nonneg x0.le t0.le), ?_⟩
        · rw [hx]
          simp [Arith.div, t0.ne']
        · rw [← A.one]
          exact A.mono _ _ (by rw [div_le_one t0]; exact this.2)
  · rcases ht with ⟨rfl, ht⟩ | ⟨t, rfl, t0, ⟨i, j, hi, hj, hij⟩, -⟩
    · right
      intro i j hi hj
      simp only [Grid.map]
      rw [ht i j (by omega) (by omega)]
      rfl
    · left
      refine ⟨i, j, by omega, by omega, ?_⟩
      simp only [Grid.map]
      rw [hij]
      simp [Arith.div, t0.ne', A.one]

/-- Values without smoothing in exact arithmetic, given the clipping value. -/
theorem area_exact {wd : WalkData K} {R C : Nat} {clip : K} (hp : Proper wd) (hr : OnRaster R C wd) (hR : 0 < R) (hC : 0 < C)
    (h0 : 0 ≤ clip) (h1 : clip ≤ 100) :
    ∃ v g, percK Arith.exact (Grid.flat ⟨R, C, fun i j => (wd.visits ((i : Int), (j : Int)) : K)⟩) clip = .fin v ∧ 0 ≤ v ∧
      nourishmentArea Arith.exact wd (R, C) none clip = .ok g ∧ g.rows = R ∧ g.cols = C ∧
      ∃ top, (∀ i j, i < R → j < C → g.at' i j = Arith.exact.div (if min (wd.visits ((i : Int), (j : Int)) : K) v = 0 then .nan
        else .fin (min (wd.visits ((i : Int), (j : Int)) : K) v)) top) ∧
      ((top = .nan ∧ ∀ i j, i < R → j < C → min (wd.visits ((i : Int), (j : Int)) : K) v = 0) ∨
        ∃ t, top = .fin t ∧ 0 < t ∧ (∃ i j, i < R ∧ j < C ∧ min (wd.visits ((i : Int), (j : Int)) : K) v = t) ∧
          ∀ i j, i < R → j < C → min (wd.visits ((i : Int), (j : Int)) : K) v ≤ t) := by
  obtain ⟨h, v, hc, v0, ev, e⟩ := nourishArea_steps (A := Arith.exact) hp hr hR hC h0 h1 none
  have heq : h = fun (i j : Nat) => (wd.visits ((i : Int), (j : Int)) : K) := by
    funext i j
    exact (hc i j).2.2.2 fun _ => rfl
  subst heq
  refine ⟨v, ?_⟩
  have e1 : smoothOrNan none (finGrid R C fun i j => min (wd.visits ((i : Int), (j : Int)) : K) v) = .ok
      ⟨R, C, fun i j => if min (wd.visits ((i : Int), (j : Int)) : K) v = 0 then .nan else .fin (min (wd.visits ((i : Int), (j : Int)) : K) v)⟩ := by
    simp only [smoothOrNan]
    rw [nanWhere_fin]
  have hnn : ∀ i j : Nat, 0 ≤ min (wd.visits ((i : Int), (j : Int)) : K) v := fun i j => le_min (Nat.cast_nonneg _) v0
  obtain ⟨top, e2, ht⟩ := normalise_pos (m := ⟨R, C, fun i j => if min (wd.visits ((i : Int), (j : Int)) : K) v = 0 then .nan
    else .fin (min (wd.visits ((i : Int), (j : Int)) : K) v)⟩) hR hC (fun i j _ _ => by
      simp only
      split_ifs with hz
      · exact Or.inl rfl
      · exact Or.inr ⟨_, rfl, lt_of_le_of_ne (hnn i j) (Ne.symm hz)⟩)
  rw [e, e1]
  simp only [ok_bind, e2, pure_def]
  refine ⟨_, ev, v0, rfl, rfl, rfl, top, fun i j _ _ => rfl, ?_⟩
  rcases ht with ⟨rfl, ht⟩ | ⟨t, rfl, t0, ⟨i, j, hi, hj, hij⟩, hle⟩
  · left
    refine ⟨rfl, fun i j hi hj => ?_⟩
    have := ht i j hi hj
    simp only at this
    split_ifs at this with hz
    exact hz
  · right
    simp only at hij hle
    refine ⟨t, rfl, t0, ⟨i, j, hi, hj, ?_⟩, fun i' j' hi' hj' => ?_⟩
    · split_ifs at hij with hz
      · simpa using hij
    · by_cases hz : min (wd.visits ((i' : Int), (j' : Int)) : K) v = 0
      · rw [hz]; exact t0.le
      · exact (hle i' j' _ hi' hj' (if_neg hz)).2

theorem clip_pos_iff {wd : WalkData K} {R C : Nat} {clip v : K} (hR : 0 < R) (hC : 0 < C) (h0 : 0 ≤ clip) (h1 : clip ≤ 100)
    (hv : percK Arith.exact (Grid.flat ⟨R, C, fun i j => (wd.visits ((i : Int), (j : Int)) : K)⟩) clip = .fin v) :
    0 < v ↔ (wd.unvisited R C : K) - 1 < clip / 100 * ((R * C - 1 : Nat) : K) := by
  have hlen : (Grid.flat (⟨R, C, fun i j => (wd.visits ((i : Int), (j : Int)) : K)⟩ : Grid K)).length = R * C := flat_length _
  have hne : Grid.flat (⟨R, C, fun i j => (wd.visits ((i : Int), (j : Int)) : K)⟩ : Grid K) ≠ [] := by
    intro e
    rw [e] at hlen
    have := Nat.mul_pos hR hC
    simp at hlen
    omega
  obtain ⟨v', e', -, hiff⟩ := percK_pos (q := clip) hne (fun x hx => by
    obtain ⟨i, j, -, -, rfl⟩ := mem_flat.1 hx
    exact Nat.cast_nonneg _) h0 h1
  rw [hv] at e'
  cases e'
  rw [hiff, hlen, countP_flat]
  simp only [WalkData.unvisited, Nat.cast_eq_zero, decide_eq_true_eq]

/-- If the percentile `clip` lies beyond the unvisited cells (exact arithmetic, no smoothing): the maximum is 1 and a cell is NaN iff no
particle visited it. What is missing from the full claim: percentiles among the unvisited cells, for which it is false
(`C44_sparse_counterexample`). -/
theorem C44_dense_partial {wd : WalkData K} {R C : Nat} {clip : K} (hp : Proper wd) (hr : OnRaster R C wd) (hR : 0 < R) (hC : 0 < C)
    (h0 : 0 ≤ clip) (h1 : clip ≤ 100) (hd : (wd.unvisited R C : K) - 1 < clip / 100 * ((R * C - 1 : Nat) : K)) :
    ∃ g, nourishmentArea Arith.exact wd (R, C) none clip = .ok g ∧ UnitMap R C g ∧ MaxOne R C g ∧
      ∀ i j, i < R → j < C → (g.at' i j = .nan ↔ wd.visits ((i : Int), (j : Int)) = 0) := by
  obtain ⟨v, g, ev, v0, eg, gr, gc, top, hg, ht⟩ := area_exact hp hr hR hC h0 h1
  obtain ⟨g', eg', hu, hmx⟩ := C44_range_partial (A := Arith.exact) hp hr hR hC h0 h1 (smooth := none) (fun f hf => by cases hf)
  rw [eg] at eg'
  cases eg'
  have vp : 0 < v := (clip_pos_iff hR hC h0 h1 ev).2 hd
  have hmin : ∀ i j : Nat, (min (wd.visits ((i : Int), (j : Int)) : K) v = 0 ↔ wd.visits ((i : Int), (j : Int)) = 0) := by
    intro i j
    rcases min_choice (wd.visits ((i : Int), (j : Int)) : K) v with h | h
    · rw [h, Nat.cast_eq_zero]
    · constructor
      · intro h'
        rw [h] at h'
        exact absurd h' vp.ne'
      · intro h'
        rw [h'] at *
        simp [vp.le]
  have hvis : ¬ ∀ i j, i < R → j < C → wd.visits ((i : Int), (j : Int)) = 0 := by
    intro hall
    have : wd.unvisited R C = R * C := by
      unfold WalkData.unvisited
      rw [Finset.sum_congr rfl fun i hi => Finset.sum_congr rfl fun j hj =>
        if_pos (hall i j (Finset.mem_range.1 hi) (Finset.mem_range.1 hj))]
      simp
    rw [this] at hd
    have hpos := Nat.mul_pos hR hC
    have e : ((R * C : Nat) : K) - 1 = ((R * C - 1 : Nat) : K) := by
      rw [Nat.cast_sub hpos]
      simp
    rw [e] at hd
    have hn : (0 : K) ≤ ((R * C - 1 : Nat) : K) := Nat.cast_nonneg _
    have : clip / 100 * ((R * C - 1 : Nat) : K) ≤ 1 * ((R * C - 1 : Nat) : K) := mul_le_mul_of_nonneg_right (by linarith) hn
    linarith
  refine ⟨g, eg, hu, ?_, ?_⟩
  · rcases hmx with h | h
    · exact h
    · exfalso
      apply hvis
      intro i j hi hj
      rw [← hmin]
      rcases ht with ⟨-, ht⟩ | ⟨t, rfl, t0, -, -⟩
      · exact ht i j hi hj
      · by_contra hz
        have := h i j hi hj
        rw [hg i j hi hj, if_neg hz] at this
        simp [Arith.div, t0.ne'] at this
  · intro i j hi hj
    rcases ht with ⟨-, ht⟩ | ⟨t, rfl, t0, -, -⟩
    · exact absurd (fun i j hi hj => (hmin i j).1 (ht i j hi hj)) hvis
    · rw [hg i j hi hj, ← hmin]
      constructor
      · intro hn
        by_contra hz
        rw [if_neg hz] at hn
        simp [Arith.div, t0.ne'] at hn
      · intro hz
        rw [if_pos hz]
        rfl

/-- If the percentile falls among the unvisited cells, all values are NaN, visited or not (exact arithmetic, no smoothing). -/
theorem C44_sparse_counterexample {wd : WalkData K} {R C : Nat} {clip : K} (hp : Proper wd) (hr : OnRaster R C wd) (hR : 0 < R)
    (hC : 0 < C) (h0 : 0 ≤ clip) (h1 : clip ≤ 100) (hd : clip / 100 * ((R * C - 1 : Nat) : K) ≤ (wd.unvisited R C : K) - 1) :
    ∃ g, nourishmentArea Arith.exact wd (R, C) none clip = .ok g ∧ AllNan R C g := by
  obtain ⟨v, g, ev, v0, eg, gr, gc, top, hg, ht⟩ := area_exact hp hr hR hC h0 h1
  refine ⟨g, eg, fun i j hi hj => ?_⟩
  have vz : v = 0 := by
    by_contra h
    have := (clip_pos_iff hR hC h0 h1 ev).1 (lt_of_le_of_ne v0 (Ne.symm h))
    linarith
  rw [hg i j hi hj, vz, min_eq_right (Nat.cast_nonneg _), if_pos rfl]
  rfl

/-! ## C45 -/

theorem flat_fun_ne {R C : Nat} (hR : 0 < R) (hC : 0 < C) (h : Nat → Nat → K) : Grid.flat (⟨R, C, h⟩ : Grid K) ≠ [] := by
  intro e
  have hlen : (Grid.flat (⟨R, C, h⟩ : Grid K)).length = R * C := flat_length _
  rw [e] at hlen
  have := Nat.mul_pos hR hC
  simp at hlen
  omega

/-- Without smoothing and with `clip = 100` the value is the number of records at the cell over the maximum of these numbers. -/
theorem C45_counts {wd : WalkData K} {R C : Nat} (hp : Proper wd) (hr : OnRaster R C wd) (hR : 0 < R) (hC : 0 < C) :
    ∃ g M, nourishmentArea Arith.exact wd (R, C) none 100 = .ok g ∧ g.rows = R ∧ g.cols = C ∧
      (∃ i j, i < R ∧ j < C ∧ wd.visits ((i : Int), (j : Int)) = M) ∧
      (∀ i j, i < R → j < C → wd.visits ((i : Int), (j : Int)) ≤ M) ∧
      ∀ i j, i < R → j < C → g.at' i j = if wd.visits ((i : Int), (j : Int)) = 0 then .nan
        else .fin ((wd.visits ((i : Int), (j : Int)) : K) / M) := by
  obtain ⟨v, g, ev, v0, eg, gr, gc, top, hg, ht⟩ := area_exact hp hr hR hC (clip := 100) (by norm_num) le_rfl
  obtain ⟨w, hw, ew, hmax⟩ := percK_hundred (flat_fun_ne hR hC fun i j => (wd.visits ((i : Int), (j : Int)) : K))
  rw [ev] at ew
  cases ew
  obtain ⟨i0, j0, hi0, hj0, e0⟩ := mem_flat.1 hw
  simp only at hi0 hj0 e0
  have hle : ∀ i j, i < R → j < C → (wd.visits ((i : Int), (j : Int)) : K) ≤ v := fun i j hi hj =>
    hmax _ (mem_flat.2 ⟨i, j, hi, hj, rfl⟩)
  refine ⟨g, wd.visits ((i0 : Int), (j0 : Int)), eg, gr, gc, ⟨i0, j0, hi0, hj0, rfl⟩, fun i j hi hj => ?_, fun i j hi hj => ?_⟩
  · have := hle i j hi hj
    rw [← e0] at this
    exact_mod_cast this
  · rw [hg i j hi hj, min_eq_left (hle i j hi hj)]
    simp only [Nat.cast_eq_zero]
    by_cases hz : wd.visits ((i : Int), (j : Int)) = 0
    · rw [if_pos hz, if_pos hz]
      rfl
    · rw [if_neg hz, if_neg hz]
      rcases ht with ⟨-, ht⟩ | ⟨t, rfl, t0, ⟨i1, j1, hi1, hj1, e1⟩, htop⟩
      · have := ht i j hi hj
        rw [min_eq_left (hle i j hi hj), Nat.cast_eq_zero] at this
        exact absurd this hz
      · have tv : t = v := by
          apply le_antisymm
          · rw [← e1]
            exact min_le_right _ _
          · have := htop i0 j0 hi0 hj0
            rw [e0, min_self] at this
            exact this
        have e2 : (wd.visits ((i0 : Int), (j0 : Int)) : K) = t := by rw [tv, e0]
        rw [e2]
        simp [Arith.div, t0.ne', Arith.exact]

/-! ## C46 -/

/-- Without smoothing and with `clip = 100`: mean residence time of the inner visits, NaN if it is 0 or there are none. -/
theorem C46_mean {wd : WalkData K} {R C : Nat} (hp : Proper wd) (hr : OnRaster R C wd) (hm : TimesMono wd) (hR : 0 < R) (hC : 0 < C) :
    ∃ g, nourishmentTime Arith.exact wd (R, C) none 100 = .ok g ∧ g.rows = R ∧ g.cols = C ∧
      ∀ i j, i < R → j < C → g.at' i j = if wd.residenceAt ((i : Int), (j : Int)) = 0 then .nan
        else .fin (wd.residenceAt ((i : Int), (j : Int)) / wd.innerVisits ((i : Int), (j : Int))) := by
  obtain ⟨h, eh, hh⟩ := meanTime_eq (A := Arith.exact) hp hr
  obtain ⟨v, hv, ev, hmax⟩ := percK_hundred (flat_fun_ne hR hC h)
  unfold nourishmentTime
  rw [eh]
  simp only [ok_bind]
  rw [nanpercentile_fin (by norm_num) le_rfl (Nat.mul_pos hR hC), ev]
  simp only [ok_bind]
  rw [npClip_fin fun i j => (hh i j).1 hm]
  simp only [smoothOrNan]
  rw [nanWhere_fin]
  refine ⟨_, rfl, rfl, rfl, fun i j hi hj => ?_⟩
  have hle : h i j ≤ v := hmax _ (mem_flat.2 ⟨i, j, hi, hj, rfl⟩)
  simp only
  rw [min_eq_left hle, (hh i j).2.2 fun _ => rfl]
  by_cases hz : wd.innerVisits ((i : Int), (j : Int)) = 0
  · have hres : wd.residenceAt ((i : Int), (j : Int)) = 0 := by
      unfold WalkData.innerVisits at hz
      unfold WalkData.residenceAt
      refine Finset.sum_eq_zero fun p hp => Finset.sum_eq_zero fun n hn => ?_
      have h1 := (Finset.sum_eq_zero_iff.1 hz) p hp
      have h2 := (Finset.sum_eq_zero_iff.1 h1) n hn
      simp only [ite_eq_right_iff, one_ne_zero, imp_false] at h2
      rw [if_neg h2]
    rw [if_pos hz, if_pos rfl, if_pos hres]
  · rw [if_neg hz]
    have hz' : (wd.innerVisits ((i : Int), (j : Int)) : K) ≠ 0 := by exact_mod_cast hz
    by_cases hres : wd.residenceAt ((i : Int), (j : Int)) = 0
    · rw [if_pos hres, hres, zero_div, if_pos rfl]
    · rw [if_neg hres, if_neg (div_ne_zero hres hz')]

/-- Values are NaN or positive for non-decreasing times, under any rounding, smoothing operator and percentile. -/
theorem C46_nonneg {wd : WalkData K} {R C : Nat} {clip : K} {smooth : Option (Grid (Fl K) → Grid (Fl K))} (hp : Proper wd)
    (hr : OnRaster R C wd) (hm : TimesMono wd) (hR : 0 < R) (hC : 0 < C) (h0 : 0 ≤ clip) (h1 : clip ≤ 100) (hs : SmoothOK smooth) :
    ∃ g, nourishmentTime A wd (R, C) smooth clip = .ok g ∧ g.rows = R ∧ g.cols = C ∧
      ∀ i j, i < R → j < C → g.at' i j = .nan ∨ ∃ x, g.at' i j = .fin x ∧ 0 < x := by
  obtain ⟨h, eh, hh⟩ := meanTime_eq (A := A) hp hr
  obtain ⟨v, ev, v0⟩ := percK_nonneg A h0 (flat_fun_ne hR hC h) (fun x hx => by
      obtain ⟨i, j, -, -, rfl⟩ := mem_flat.1 hx
      exact (hh i j).1 hm) (fun x hx => by
      obtain ⟨i, j, -, -, rfl⟩ := mem_flat.1 hx
      exact (hh i j).2.1)
  unfold nourishmentTime
  rw [eh]
  simp only [ok_bind]
  rw [nanpercentile_fin h0 h1 (Nat.mul_pos hR hC), ev]
  simp only [ok_bind]
  rw [npClip_fin fun i j => (hh i j).1 hm]
  exact smoothOrNan_pos hs (nonneg_finGrid fun i j => le_min ((hh i j).1 hm) v0) hR hC

/-- Numeric value of a map entry, 0 for NaN. -/
def Fl.valOr0 : Fl K → K
  | .fin x => x
  | _ => 0

/-- The value at a cell times the number of inner visits is the residence time there. -/
theorem residence_value {wd : WalkData K} {c : Int × Int} {x : Fl K}
    (hx : x = if wd.residenceAt c = 0 then .nan else .fin (wd.residenceAt c / wd.innerVisits c)) :
    (wd.innerVisits c : K) * x.valOr0 = wd.residenceAt c := by
  rw [hx]
  by_cases hres : wd.residenceAt c = 0
  · rw [if_pos hres, hres]
    simp [Fl.valOr0]
  · rw [if_neg hres]
    have hz : (wd.innerVisits c : K) ≠ 0 := by
      intro hz
      rw [Nat.cast_eq_zero] at hz
      apply hres
      unfold WalkData.innerVisits at hz
      unfold WalkData.residenceAt
      refine Finset.sum_eq_zero fun p hp => Finset.sum_eq_zero fun n hn => ?_
      have h1 := (Finset.sum_eq_zero_iff.1 hz) p hp
      have h2 := (Finset.sum_eq_zero_iff.1 h1) n hn
      simp only [ite_eq_right_iff, one_ne_zero, imp_false] at h2
      rw [if_neg h2]
    simp only [Fl.valOr0]
    field_simp

/-- Values times visit counts add up to the residence time of all inner records. -/
theorem C46_total {wd : WalkData K} {R C : Nat} (hp : Proper wd) (hr : OnRaster R C wd) (hm : TimesMono wd) (hR : 0 < R) (hC : 0 < C) :
    ∃ g, nourishmentTime Arith.exact wd (R, C) none 100 = .ok g ∧
      ∑ i ∈ Finset.range R, ∑ j ∈ Finset.range C, (wd.innerVisits ((i : Int), (j : Int)) : K) * (g.at' i j).valOr0 =
        ∑ p ∈ Finset.range wd.count, ∑ n ∈ Finset.range (wd.records p - 2), wd.residence p n := by
  obtain ⟨g, eg, -, -, hg⟩ := C46_mean hp hr hm hR hC
  refine ⟨g, eg, ?_⟩
  have h1 : ∀ i ∈ Finset.range R, ∀ j ∈ Finset.range C,
      (wd.innerVisits ((i : Int), (j : Int)) : K) * (g.at' i j).valOr0 = wd.residenceAt ((i : Int), (j : Int)) := fun i hi j hj =>
    residence_value (hg i j (Finset.mem_range.1 hi) (Finset.mem_range.1 hj))
  rw [Finset.sum_congr rfl fun i hi => Finset.sum_congr rfl fun j hj => h1 i hi j hj]
  unfold WalkData.residenceAt
  simp only [Finset.sum_comm (s := Finset.range C) (t := Finset.range wd.count)]
  rw [Finset.sum_comm]
  refine Finset.sum_congr rfl fun p hpp => ?_
  simp only [Finset.sum_comm (s := Finset.range C)]
  rw [Finset.sum_comm]
  refine Finset.sum_congr rfl fun n hn => ?_
  have hp' := Finset.mem_range.1 hpp
  have hn' := Finset.mem_range.1 hn
  obtain ⟨⟨x, y⟩, hpos⟩ := hp.pos (n := n + 1) hp' (by omega)
  obtain ⟨x0, x1, y0, y1⟩ := hr p (n + 1) _ hpos
  simp only at x0 x1 y0 y1
  rw [Finset.sum_eq_single x.toNat, Finset.sum_eq_single y.toNat]
  · rw [if_pos (by rw [hpos, Int.toNat_of_nonneg x0, Int.toNat_of_nonneg y0])]
  · intro j _ hj
    rw [if_neg]
    rw [hpos]
    simp only [Option.some.injEq, Prod.mk.injEq, not_and]
    omega
  · intro hj
    exact absurd (Finset.mem_range.2 (by omega)) hj
  · intro i _ hi
    refine Finset.sum_eq_zero fun j _ => if_neg ?_
    rw [hpos]
    simp only [Option.some.injEq, Prod.mk.injEq, not_and]
    omega
  · intro hi
    exact absurd (Finset.mem_range.2 (by omega)) hi

/-! ## Concrete cases -/

set_option synthInstance.maxSize 1024

/-- Visit counts of the sample walks over a 2 x 3 raster; cell (1,2) is never visited. -/
example : (Grid.flat ⟨2, 3, fun i j => demoWalks.visits ((i : Int), (j : Int))⟩) = [1, 2, 1, 1, 3, 0] := by decide +kernel

/-- C45 on the sample walks. -/
example : (nourishmentArea Arith.exact demoWalks (2, 3) none 100).toOption.map Grid.flat =
    some [.fin (1 / 3), .fin (2 / 3), .fin (1 / 3), .fin (1 / 3), .fin 1, .nan] := by decide +kernel

/-- C44: clipping at the median (position 2.5 of 0, 1, 1, 1, 2, 3). -/
example : (nourishmentArea Arith.exact demoWalks (2, 3) none 50).toOption.map Grid.flat =
    some [.fin 1, .fin 1, .fin 1, .fin 1, .fin 1, .nan] := by decide +kernel

/-- The hypothesis of `C44_dense_partial` at the default percentile. -/
example : ∃ g, nourishmentArea Arith.exact demoWalks (2, 3) none (199 / 2) = .ok g ∧ UnitMap 2 3 g ∧ MaxOne 2 3 g ∧
    ∀ i j, i < 2 → j < 3 → (g.at' i j = .nan ↔ demoWalks.visits ((i : Int), (j : Int)) = 0) :=
  C44_dense_partial demoWalks_proper demoWalks_on (by norm_num) (by norm_num) (by norm_num) (by norm_num) (by decide +kernel)

/-- Averaging each cell with its right neighbour. -/
def blur (g : Grid (Fl ℚ)) : Grid (Fl ℚ) :=
  ⟨g.rows, g.cols, fun i j => Arith.exact.div (Arith.exact.add (g.at' i j) (g.at' i ((j + 1) % g.cols))) (.fin 2)⟩

theorem blur_ok : SmoothOK (some blur) := by
  intro f hf g hg
  cases hf
  refine ⟨rfl, rfl, fun i j hi hj => ?_⟩
  obtain ⟨x, hx, x0⟩ := hg i j hi hj
  obtain ⟨y, hy, y0⟩ := hg i ((j + 1) % g.cols) hi (Nat.mod_lt _ (by have : j < g.cols := hj; omega))
  refine ⟨(x + y) / 2, ?_, by positivity⟩
  simp only [blur, hx, hy]
  simp [Arith.add, Arith.div, Arith.exact]

/-- C44 and C46 with smoothing. -/
example : (nourishmentArea Arith.exact demoWalks (2, 3) (some blur) 100).toOption.map Grid.flat =
    some [.fin (3 / 4), .fin (3 / 4), .fin (1 / 2), .fin 1, .fin (3 / 4), .nan] := by decide +kernel

example : ∃ g, nourishmentArea Arith.exact demoWalks (2, 3) (some blur) 90 = .ok g ∧ UnitMap 2 3 g ∧ (MaxOne 2 3 g ∨ AllNan 2 3 g) :=
  C44_range_partial demoWalks_proper demoWalks_on (by norm_num) (by norm_num) (by norm_num) (by norm_num) blur_ok

theorem demoWalks_on40 : OnRaster 40 40 demoWalks := by
  intro i n p h
  obtain ⟨a, b, c, d⟩ := demoWalks_on i n p h
  omega

/-- Five visited cells of a 40 x 40 raster at the default percentile: nothing but NaN, although cell (0, 0) was visited. -/
theorem C44_sparse_witness_counterexample : ∃ g, nourishmentArea Arith.exact demoWalks (40, 40) none (199 / 2) = .ok g ∧ AllNan 40 40 g ∧
    demoWalks.visits (0, 0) = 1 := by
  obtain ⟨g, hg, ha⟩ := C44_sparse_counterexample (clip := 199 / 2) demoWalks_proper demoWalks_on40 (by norm_num) (by norm_num) (by norm_num)
    (by norm_num) (by decide +kernel)
  exact ⟨g, hg, ha, by decide +kernel⟩

/-- C46 on the sample walks: only the first particle has inner records, two of them at different cells and times. -/
example : (nourishmentTime Arith.exact demoWalks (2, 3) none 100).toOption.map Grid.flat =
    some [.nan, .fin (3 / 2), .fin (5 / 2), .nan, .fin (5 / 2), .nan] := by decide +kernel

example : ∃ g, nourishmentTime Arith.exact demoWalks (2, 3) (some blur) 95 = .ok g ∧ g.rows = 2 ∧ g.cols = 3 ∧
    ∀ i j, i < 2 → j < 3 → g.at' i j = .nan ∨ ∃ x, g.at' i j = .fin x ∧ 0 < x :=
  C46_nonneg demoWalks_proper demoWalks_on demoWalks_mono (by norm_num) (by norm_num) (by norm_num) (by norm_num) blur_ok

end Dorado
