import Verif.Props.Exposure
import Verif.Props.Nourish

/-! # C99: exposure times and residence maps account for the same time -/

set_option linter.unusedSectionVars false

namespace Dorado

variable {K : Type} [Field K] [LinearOrder K] [IsStrictOrderedRing K] [FloorRing K]

/-- Half of the first step if particle `p` started in the region, and half of the last step if it ended there: the part of its time in the region
that no inner record stands for. -/
noncomputable def WalkData.ends (wd : WalkData K) (g : Grid Int) (p : Nat) : K :=
  if wd.records p < 2 then 0
  else wd.mark g p 0 * ((wd.tau p 1 - wd.tau p 0) / 2) +
    wd.mark g p (wd.records p - 1) * ((wd.tau p (wd.records p - 1) - wd.tau p (wd.records p - 2)) / 2)

/-- Summation by parts. -/
theorem sum_parts (τ m : Nat → K) (N : Nat) : ∑ n ∈ Finset.range (N + 1), (τ (n + 1) - τ n) * ((m n + m (n + 1)) / 2) =
    ∑ n ∈ Finset.range N, m (n + 1) * ((τ (n + 2) - τ n) / 2) + (m 0 * ((τ 1 - τ 0) / 2) + m (N + 1) * ((τ (N + 1) - τ N) / 2)) := by
  induction N with
  | zero =>
    simp
    ring
  | succ N ih =>
    rw [Finset.sum_range_succ, ih, Finset.sum_range_succ]
    ring

/-- Exposure of one particle by records instead of steps. -/
theorem exposure_records {wd : WalkData K} {g : Grid Int} {p : Nat} : wd.exposure g p =
    ∑ n ∈ Finset.range (wd.records p - 2), wd.mark g p (n + 1) * wd.residence p n + wd.ends g p := by
  unfold WalkData.exposure WalkData.ends WalkData.residence
  by_cases h : wd.records p < 2
  · rw [if_pos h, show wd.records p - 1 = 0 by omega, show wd.records p - 2 = 0 by omega]
    simp
  · obtain ⟨N, e⟩ : ∃ N, wd.records p = N + 2 := ⟨wd.records p - 2, by omega⟩
    rw [if_neg h]
    simp only [e, Nat.add_sub_cancel, show N + 2 - 1 = N + 1 by omega]
    exact sum_parts _ _ _

/-- The residence times at the cells of the region are those of the inner records in the region. -/
theorem residence_region {wd : WalkData K} {g : Grid Int} (hp : Proper wd) (hr : OnRaster g.rows g.cols wd) (hb : Binary g) :
    ∑ i ∈ Finset.range g.rows, ∑ j ∈ Finset.range g.cols, (g.at' i j : K) * wd.residenceAt ((i : Int), (j : Int)) =
      ∑ p ∈ Finset.range wd.count, ∑ n ∈ Finset.range (wd.records p - 2), wd.mark g p (n + 1) * wd.residence p n := by
  unfold WalkData.residenceAt
  simp only [Finset.mul_sum]
  simp only [Finset.sum_comm (s := Finset.range g.cols) (t := Finset.range wd.count)]
  rw [Finset.sum_comm]
  refine Finset.sum_congr rfl fun p hpp => ?_
  simp only [Finset.sum_comm (s := Finset.range g.cols)]
  rw [Finset.sum_comm]
  refine Finset.sum_congr rfl fun n hn => ?_
  have hp' := Finset.mem_range.1 hpp
  have hn' := Finset.mem_range.1 hn
  obtain ⟨⟨x, y⟩, hpos⟩ := hp.pos (n := n + 1) hp' (by omega)
  obtain ⟨x0, x1, y0, y1⟩ := hr p (n + 1) _ hpos
  simp only at x0 x1 y0 y1
  have hmark : wd.mark g p (n + 1) = (g.at' x.toNat y.toNat : K) := by
    rcases hb x.toNat y.toNat (by omega) (by omega) with h | h
    · rw [h, mark_zero]
      · simp
      · rintro ⟨q, hq, e⟩
        rw [hpos] at hq
        cases hq
        simp only at e
        omega
    · rw [h, mark_one ⟨_, hpos, h⟩]
      simp
  rw [hmark, Finset.sum_eq_single x.toNat, Finset.sum_eq_single y.toNat]
  · rw [if_pos (by rw [hpos, Int.toNat_of_nonneg x0, Int.toNat_of_nonneg y0])]
  · intro j _ hj
    rw [if_neg, mul_zero]
    rw [hpos]
    simp only [Option.some.injEq, Prod.mk.injEq, not_and]
    omega
  · intro hj
    exact absurd (Finset.mem_range.2 (by omega)) hj
  · intro i _ hi
    refine Finset.sum_eq_zero fun j _ => ?_
    rw [if_neg, mul_zero]
    rw [hpos]
    simp only [Option.some.injEq, Prod.mk.injEq, not_and]
    omega
  · intro hi
    exact absurd (Finset.mem_range.2 (by omega)) hi

/-- C99: the exposure times of a region add up to the values of the nourishment time map at its cells times their inner visits, plus the half steps at
the beginnings and ends of the walks (exact arithmetic, no smoothing, no clipping). -/
theorem C99_balance {wd : WalkData K} {g : Grid Int} (hp : Proper wd) (hr : OnRaster g.rows g.cols wd) (hm : TimesMono wd) (hb : Binary g)
    (hR : 0 < g.rows) (hC : 0 < g.cols) :
    ∃ res map, exposureTime Arith.exact wd g = .ok res ∧ nourishmentTime Arith.exact wd (g.rows, g.cols) none 100 = .ok map ∧
      (res.times.map Fl.valOr0).sum =
        ∑ i ∈ Finset.range g.rows, ∑ j ∈ Finset.range g.cols,
          (if g.at' i j = 1 then (wd.innerVisits ((i : Int), (j : Int)) : K) * (map.at' i j).valOr0 else 0) +
        ∑ p ∈ Finset.range wd.count, wd.ends g p := by
  obtain ⟨res, e1, ht⟩ := C42_formula hp hr hb
  obtain ⟨map, e2, -, -, hv⟩ := C46_mean hp hr hm hR hC
  refine ⟨res, map, e1, e2, ?_⟩
  have h1 : ∀ i ∈ Finset.range g.rows, ∀ j ∈ Finset.range g.cols,
      (if g.at' i j = 1 then (wd.innerVisits ((i : Int), (j : Int)) : K) * (map.at' i j).valOr0 else 0) =
        (g.at' i j : K) * wd.residenceAt ((i : Int), (j : Int)) := by
    intro i hi j hj
    rw [residence_value (hv i j (Finset.mem_range.1 hi) (Finset.mem_range.1 hj))]
    rcases hb i j (Finset.mem_range.1 hi) (Finset.mem_range.1 hj) with h | h <;> simp [h]
  rw [Finset.sum_congr rfl fun i hi => Finset.sum_congr rfl fun j hj => h1 i hi j hj, residence_region hp hr hb, ← Finset.sum_add_distrib, ht]
  rw [List.map_map, ← List.sum_toFinset _ List.nodup_range]
  have hs : (List.range wd.count).toFinset = Finset.range wd.count := by
    ext
    simp
  rw [hs]
  exact Finset.sum_congr rfl fun p _ => exposure_records

/-- C99: if no particle starts or ends in the region, the exposure times of the region add up to the map values at its cells times their inner visits. -/
theorem C99_passing {wd : WalkData K} {g : Grid Int} (hp : Proper wd) (hr : OnRaster g.rows g.cols wd) (hm : TimesMono wd) (hb : Binary g)
    (hR : 0 < g.rows) (hC : 0 < g.cols) (ho : ∀ p, p < wd.count → ¬ wd.inRegion g p 0 ∧ ¬ wd.inRegion g p (wd.records p - 1)) :
    ∃ res map, exposureTime Arith.exact wd g = .ok res ∧ nourishmentTime Arith.exact wd (g.rows, g.cols) none 100 = .ok map ∧
      (res.times.map Fl.valOr0).sum = ∑ i ∈ Finset.range g.rows, ∑ j ∈ Finset.range g.cols,
        (if g.at' i j = 1 then (wd.innerVisits ((i : Int), (j : Int)) : K) * (map.at' i j).valOr0 else 0) := by
  obtain ⟨res, map, e1, e2, h⟩ := C99_balance hp hr hm hb hR hC
  refine ⟨res, map, e1, e2, ?_⟩
  rw [h, Finset.sum_eq_zero (s := Finset.range wd.count), add_zero]
  intro p hpp
  obtain ⟨h0, h1⟩ := ho p (Finset.mem_range.1 hpp)
  unfold WalkData.ends
  rw [mark_zero h0, mark_zero h1]
  simp

/-- C99: the exposure times of the whole domain are the travel times of the particles. -/
theorem C99_domain {wd : WalkData K} {g : Grid Int} (hp : Proper wd) (hr : OnRaster g.rows g.cols wd)
    (h1 : ∀ i j, i < g.rows → j < g.cols → g.at' i j = 1) :
    ∃ res, exposureTime Arith.exact wd g = .ok res ∧ res.times = (List.range wd.count).map fun p => .fin (wd.duration p) := by
  obtain ⟨res, e, ht⟩ := C42_formula hp hr fun i j hi hj => .inr (h1 i j hi hj)
  refine ⟨res, e, ht.trans (List.map_congr_left fun p hpp => ?_)⟩
  rw [exposure_extremes.2]
  intro n hn
  obtain ⟨q, hq⟩ := hp.pos (List.mem_range.1 hpp) hn
  obtain ⟨a, b, c, d⟩ := hr p n q hq
  exact ⟨q, hq, h1 _ _ (by omega) (by omega)⟩

/-! ## Concrete cases -/

/-- Three particles, one of them staying inside: 13/2 for the inner records of the first, 3 for the ends of the second. -/
example : ∃ res map, exposureTime Arith.exact demoWalks demoRegion = .ok res ∧ nourishmentTime Arith.exact demoWalks (2, 3) none 100 = .ok map ∧
    (res.times.map Fl.valOr0).sum = ∑ i ∈ Finset.range 2, ∑ j ∈ Finset.range 3,
      (if demoRegion.at' i j = 1 then (demoWalks.innerVisits ((i : Int), (j : Int)) : ℚ) * (map.at' i j).valOr0 else 0) +
      ∑ p ∈ Finset.range 3, demoWalks.ends demoRegion p :=
  C99_balance demoWalks_proper demoWalks_on demoWalks_mono (fun i j _ _ => by unfold demoRegion; dsimp only; split_ifs <;> simp) (by decide) (by decide)

example : (exposureTime Arith.exact demoWalks demoRegion).toOption.map (fun r => (r.times.map Fl.valOr0).sum) = some (13 / 2 + 3) := by decide +kernel

/-- Only the first particle passes through the right column. -/
example : ∃ res map, exposureTime Arith.exact demoWalks ⟨2, 3, fun _ j => if j = 2 then 1 else 0⟩ = .ok res ∧
    nourishmentTime Arith.exact demoWalks (2, 3) none 100 = .ok map ∧
    (res.times.map Fl.valOr0).sum = ∑ i ∈ Finset.range 2, ∑ j ∈ Finset.range 3,
      (if (if j = 2 then 1 else 0) = (1 : Int) then (demoWalks.innerVisits ((i : Int), (j : Int)) : ℚ) * (map.at' i j).valOr0 else 0) :=
  C99_passing (g := ⟨2, 3, fun _ j => if j = 2 then 1 else 0⟩) demoWalks_proper demoWalks_on demoWalks_mono
    (fun i j _ _ => by dsimp only; split_ifs <;> simp) (by decide) (by decide) (fun p hp => by
      have : p < 3 := hp
      interval_cases p <;> refine ⟨?_, ?_⟩ <;> rintro ⟨q, hq, e⟩ <;> (cases hq; revert e; decide))

example : (exposureTime Arith.exact demoWalks ⟨2, 3, fun _ j => if j = 2 then 1 else 0⟩).toOption.map (·.times) = some [.fin (5 / 2), .fin 0, .fin 0] := by
  decide +kernel

example : ∃ res, exposureTime Arith.exact demoWalks ⟨2, 3, fun _ _ => 1⟩ = .ok res ∧ res.times = [.fin 8, .fin 3, .fin 0] := by
  obtain ⟨res, e, h⟩ := C99_domain (g := ⟨2, 3, fun _ _ => 1⟩) demoWalks_proper demoWalks_on fun _ _ _ _ => rfl
  exact ⟨res, e, h.trans (by decide +kernel)⟩

end Dorado
