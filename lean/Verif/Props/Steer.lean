import Verif.Spec.Steer
import Verif.Props.Throughflow
import Verif.Props.Downstream

/-! # What theta and gamma do: C124 -/

set_option linter.unusedSectionVars false

namespace Dorado

open MeasureTheory Finset

/-- A simulation in which particle `i` is at the cell `q`: any history of an accepted object, finite travel times so far. -/
structure Standing (F : Fun ℝ Arith.exact) (R C : Nat) (P : PObj ℝ) (s : PState ℝ) (i : Nat) (q : Int × Int) : Prop where
  reach : Reach Arith.exact F (Enclosed Arith.exact F R C) Draws (InsideSeeds R C) P s
  angles : ∀ k, k < 9 → k ≠ 4 → ∃ a, P.angles k = .fin a
  walk : ∃ wd, s.walk = some wd ∧ i < wd.xinds.length ∧ wd.lastPos i = some q ∧ ∀ j, j < wd.xinds.length → ∃ t, wd.lastTime j = some (.fin t)

section
variable {F : Fun ℝ Arith.exact} {R C : Nat} {P : PObj ℝ} {s : PState ℝ}

theorem Standing.inside {i : Nat} {q : Int × Int} (h : Standing F R C P s i q) : Inside R C q := by
  obtain ⟨wd, hwd, hi, hp, -⟩ := h.walk
  obtain ⟨x, hx, hin⟩ := last_inside h.reach hwd hi
  rw [hp] at hx
  cases hx
  exact hin

theorem foundIn_law {i : Nat} {q : Int × Int} (h : Standing F R C P s i q) (D : Set (Int × Int)) (n : Nat) :
    uniformDraws {ω | FoundIn F P ω s n i D} = stay (moveProb (flowOf F P) P) (fun c => c ∉ D) n q := by
  classical
  obtain ⟨wd, hwd, hi, hp, ht0⟩ := h.walk
  have ex := fun (ω : Nat → ℝ) (hω : Draws ω) (i : Fin wd.xinds.length) => course_exists h.reach h.angles hwd ht0 hω n i.2
  obtain ⟨X, hX⟩ : ∃ X : Fin wd.xinds.length → (Nat → ℝ) → Course n, ∀ ω, Draws ω → ∀ i : Fin wd.xinds.length, HasCourse F P ω s n i (X i ω) :=
    ⟨fun i ω => if hω : Draws ω then (ex ω hω i).choose else fun _ => ((0, 0), 0), fun ω hω i => by
      simp only [dif_pos hω]
      exact (ex ω hω i).choose_spec⟩
  choose pos hpos _ using fun i : Fin wd.xinds.length => last_inside h.reach hwd i.2
  have hm := course_measurable h.reach h.angles hwd ht0 hX hpos ⟨i, hi⟩
  have hlaw := (C104_independent h.reach h.angles hwd ht0 hX hpos).2 ⟨i, hi⟩
  have hpi : pos ⟨i, hi⟩ = q := by
    have := hpos ⟨i, hi⟩
    rw [hp] at this
    exact (Option.some.inj this).symm
  rw [hpi] at hlaw
  have hS : MeasurableSet {x : Course n | endCell q x ∈ D} := cells_measurable fun c => Fin.cons (α := fun _ => Int × Int) q c (Fin.last n) ∈ D
  have hae : {ω | FoundIn F P ω s n i D} =ᵐ[uniformDraws] X ⟨i, hi⟩ ⁻¹' {x | endCell q x ∈ D} := by
    rw [Filter.eventuallyEq_set]
    filter_upwards [uniformDraws_nonzero] with ω hω
    have hf := fun c => found_iff hwd (hX ω hω.1 ⟨i, hi⟩) hp (c := c)
    constructor
    · rintro ⟨c, hc, hx⟩
      have := (hf c).1 hx
      rw [Set.mem_preimage, Set.mem_ofPred_eq, this]
      exact hc
    · exact fun hx => ⟨_, hx, (hf _).2 rfl⟩
  rw [measure_congr hae, ← Measure.map_apply_of_aemeasurable hm hS, hlaw, ← end_law]
  simp only [not_not]

open Classical in
/-- Where a particle is after the next call. -/
theorem next_law {i : Nat} {q : Int × Int} (h : Standing F R C P s i q) (D : Set (Int × Int)) :
    uniformDraws.real {ω | FoundIn F P ω s 1 i D} = if NearEdge P q.1.toNat q.2.toNat then (if q ∈ D then 1 else 0) else
      ∑ k ∈ range 9, if neighbour q k ∈ D then ((flowOf F P).chooseProb P.steepest q.1.toNat q.2.toNat k).toReal else 0 := by
  have hE := h.reach.obj
  have hch := chain_of hE
  have h1 : (stay (moveProb (flowOf F P) P) (fun c => c ∉ D) 1 q).toReal =
      ∑ c ∈ innerCells R C, (moveProb (flowOf F P) P q c).toReal * if c ∈ D then 1 else 0 := by
    rw [(hch.stay_gains mem_innerCells (fun c => c ∉ D) 1 h.inside).2, gains]
    refine sum_congr rfl fun c _ => ?_
    unfold gains
    by_cases hc : c ∈ D <;> simp [hc]
  rw [measureReal_def, foundIn_law h, h1]
  split_ifs with hn hq
  · rw [hch.stop_real mem_innerCells h.inside hn fun c => if c ∈ D then 1 else 0, if_pos hq]
  · rw [hch.stop_real mem_innerCells h.inside hn fun c => if c ∈ D then 1 else 0, if_neg hq]
  · have e : ∀ c ∈ innerCells R C, (moveProb (flowOf F P) P q c).toReal * (if c ∈ D then 1 else 0) = ∑ k ∈ range 9,
        if neighbour q k = c then (if neighbour q k ∈ D then ((flowOf F P).chooseProb P.steepest q.1.toNat q.2.toNat k).toReal else 0) else 0 := by
      intro c _
      rw [move_real hE h.inside hn, sum_mul]
      refine sum_congr rfl fun k _ => ?_
      by_cases hk : neighbour q k = c
      · subst hk
        rw [if_pos rfl, if_pos rfl]
        split_ifs <;> simp
      · rw [if_neg hk, if_neg hk, zero_mul]
    rw [sum_congr rfl e, sum_comm]
    refine sum_congr rfl fun k hk => ?_
    rw [sum_ite_eq]
    split_ifs with h2 h3 h3
    · rfl
    · rfl
    · have h0 : moveProb (flowOf F P) P q (neighbour q k) = 0 := hch.inside q _ h.inside fun hc => h2 ((mem_innerCells _).2 hc)
      have h4 := move_real hE h.inside hn (neighbour q k)
      rw [h0, ENNReal.toReal_zero] at h4
      have h5 := (sum_eq_zero_iff_of_nonneg fun m _ => by split_ifs <;> simp).1 h4.symm k hk
      rw [if_pos rfl] at h5
      exact h5.symm
    · rfl

end

theorem share_mono {c c' : Nat → ℝ} {D : Nat → Prop} [DecidablePred D]
    (hs : 0 < ∑ k ∈ range 9, c k) (hs' : 0 < ∑ k ∈ range 9, c' k)
    (h : (∑ k ∈ range 9, if D k then c k else 0) * (∑ k ∈ range 9, if D k then 0 else c' k) ≤
      (∑ k ∈ range 9, if D k then c' k else 0) * ∑ k ∈ range 9, if D k then 0 else c k) :
    (∑ k ∈ range 9, if D k then c k / ∑ m ∈ range 9, c m else 0) ≤ ∑ k ∈ range 9, if D k then c' k / ∑ m ∈ range 9, c' m else 0 := by
  have split : ∀ x : Nat → ℝ, ∑ k ∈ range 9, x k = (∑ k ∈ range 9, if D k then x k else 0) + ∑ k ∈ range 9, if D k then 0 else x k := by
    intro x
    rw [← sum_add_distrib]
    refine sum_congr rfl fun k _ => ?_
    split_ifs <;> simp
  have out : ∀ x : Nat → ℝ, (∑ k ∈ range 9, if D k then x k / ∑ m ∈ range 9, x m else 0) = (∑ k ∈ range 9, if D k then x k else 0) / ∑ m ∈ range 9, x m := by
    intro x
    rw [sum_div]
    refine sum_congr rfl fun k _ => ?_
    split_ifs <;> simp
  rw [out, out, div_le_div_iff₀ hs hs', split c, split c']
  nlinarith

/-- The same, neighbour by neighbour. -/
theorem share_mono_pairs {c c' : Nat → ℝ} {D : Nat → Prop} [DecidablePred D]
    (hs : 0 < ∑ k ∈ range 9, c k) (hs' : 0 < ∑ k ∈ range 9, c' k)
    (h : ∀ j ∈ range 9, ∀ k ∈ range 9, D j → ¬ D k → c j * c' k ≤ c' j * c k) :
    (∑ k ∈ range 9, if D k then c k / ∑ m ∈ range 9, c m else 0) ≤ ∑ k ∈ range 9, if D k then c' k / ∑ m ∈ range 9, c' m else 0 := by
  refine share_mono hs hs' ?_
  rw [sum_mul_sum, sum_mul_sum]
  refine sum_le_sum fun j hj => sum_le_sum fun k hk => ?_
  by_cases h1 : D j <;> by_cases h2 : D k <;> simp only [h1, h2, if_true, if_false, mul_zero, zero_mul, le_refl]
  exact h j hj k hk h1 h2

section
variable {K : Type} [Field K] [LinearOrder K] [IsStrictOrderedRing K] {A : Arith K} {F : Fun K A} {p : Params K} {P : PObj K}

/-- C124: an object is accepted with any other `theta`, and only that attribute differs. -/
theorem C124_theta_accepted (h : initParticles A F p = .ok P) (t : K) : initParticles A F { p with theta := some t } = .ok { P with theta := t } := by
  simp only [initParticles, bind_ok, pure_ok] at h ⊢
  obtain ⟨dx, h1, d, h2, st, h3, fl, h4, r, h5, ct, h6, rfl⟩ := h
  exact ⟨dx, h1, d, h2, st, h3, fl, h4, r, h5, ct, h6, rfl⟩

/-- C124: the same for `gamma`. -/
theorem C124_gamma_accepted (h : initParticles A F p = .ok P) (g : K) : initParticles A F { p with gamma := some g } = .ok { P with gamma := g } := by
  simp only [initParticles, bind_ok, pure_ok] at h ⊢
  obtain ⟨dx, h1, d, h2, st, h3, fl, h4, r, h5, ct, h6, rfl⟩ := h
  exact ⟨dx, h1, d, h2, st, h3, fl, h4, r, h5, ct, h6, rfl⟩

end

theorem Flow.share_nonneg {x : Nat → ℝ} (hx : ∀ k, 0 ≤ x k) (k : Nat) : 0 ≤ Flow.share x k := div_nonneg (hx k) (sum_nonneg fun m _ => hx m)

theorem Flow.slope_nonneg (f : Flow ℝ) (a b k : Nat) : 0 ≤ f.slope a b k := by
  unfold Flow.slope
  split_ifs
  · unfold Flow.drop
    split
    · exact le_max_left _ _
    · exact le_rfl
  · exact le_rfl

theorem Flow.inertia_nonneg (f : Flow ℝ) (a b k : Nat) : 0 ≤ f.inertia a b k := by
  unfold Flow.inertia
  split_ifs
  · exact le_max_left _ _
  · exact le_rfl

section
variable {F : Fun ℝ Arith.exact} {P : PObj ℝ}

theorem pw_nonneg (F : Fun ℝ Arith.exact) (P : PObj ℝ) {x : ℝ} (hx : 0 < x) : 0 ≤ (flowOf F P).pw x := by
  obtain ⟨y, hy, h0⟩ := F.pow_pos x P.theta hx
  change 0 ≤ (F.pow (.fin x) P.theta).num
  rw [hy]
  exact h0

theorem flow_nonneg (hd : 0 ≤ P.dryDepth) (hg0 : 0 ≤ P.gamma) (hg1 : P.gamma ≤ 1) (a b k : Nat) : 0 ≤ (flowOf F P).flow a b k := by
  unfold Flow.flow
  split_ifs with h
  · refine mul_nonneg (pw_nonneg F P (lt_of_le_of_lt hd h.1.1)) (add_nonneg (mul_nonneg hg0 (Flow.share_nonneg (Flow.slope_nonneg _ _ _) k))
      (mul_nonneg (sub_nonneg.2 hg1) (Flow.share_nonneg (Flow.inertia_nonneg _ _ _) k)))
  · exact le_rfl

theorem weight_nonneg (hd : 0 ≤ P.dryDepth) (hg0 : 0 ≤ P.gamma) (hg1 : P.gamma ≤ 1) (a b k : Nat) : 0 ≤ (flowOf F P).weight a b k := by
  unfold Flow.weight
  split_ifs
  · exact zero_le_one
  · exact le_rfl
  · exact flow_nonneg hd hg0 hg1 a b k

theorem candidate_nonneg (hd : 0 ≤ P.dryDepth) (hg0 : 0 ≤ P.gamma) (hg1 : P.gamma ≤ 1) (st : Bool) (a b k : Nat) : 0 ≤ (flowOf F P).candidate st a b k := by
  unfold Flow.candidate
  split_ifs
  · exact le_rfl
  · exact weight_nonneg hd hg0 hg1 a b k

/-- The probability of a choice as a share. -/
theorem choose_share (hd : 0 ≤ P.dryDepth) (hg0 : 0 ≤ P.gamma) (hg1 : P.gamma ≤ 1) {st : Bool} {a b : Nat}
    (h : 0 < ∑ m ∈ range 9, (flowOf F P).candidate st a b m) (k : Nat) :
    ((flowOf F P).chooseProb st a b k).toReal = (flowOf F P).candidate st a b k / ∑ m ∈ range 9, (flowOf F P).candidate st a b m := by
  unfold Flow.chooseProb
  rw [if_neg, ENNReal.toReal_ofReal (div_nonneg (candidate_nonneg hd hg0 hg1 st a b k) h.le)]
  rintro ⟨-, h0⟩
  rw [sum_eq_zero fun m hm => h0 m (mem_range.1 hm)] at h
  exact lt_irrefl _ h

end

/-- Positive weight away from dead ends. -/
theorem candidates_pos {F : Fun ℝ Arith.exact} {P : PObj ℝ} (hd : 0 ≤ P.dryDepth) (hg0 : 0 ≤ P.gamma) (hg1 : P.gamma ≤ 1) {a b : Nat}
    (hD : ¬ (flowOf F P).DeadEnd a b) (h4 : P.steepest = false ∨ (flowOf F P).flow a b 4 = 0) :
    0 < ∑ m ∈ range 9, (flowOf F P).candidate P.steepest a b m := by
  have hw : ∀ k, (flowOf F P).weight a b k = (flowOf F P).flow a b k := fun k => if_neg hD
  obtain ⟨m, hm, hmax⟩ := exists_max_image (range 9) (fun k => (flowOf F P).weight a b k) ⟨0, by simp⟩
  have hpos : 0 < (flowOf F P).weight a b m := by
    unfold Flow.DeadEnd at hD
    push Not at hD
    obtain ⟨k, hk, hk0⟩ := hD
    refine lt_of_lt_of_le (lt_of_le_of_ne (flow_nonneg hd hg0 hg1 a b k) (Ne.symm hk0)) ?_
    rw [← hw]
    exact hmax k (mem_range.2 hk)
  refine sum_pos' (fun k _ => candidate_nonneg hd hg0 hg1 _ a b k) ⟨m, hm, ?_⟩
  unfold Flow.candidate
  rw [if_neg]
  · exact hpos
  · rintro ⟨hst, hc⟩
    rcases hc with rfl | ⟨k, hk, hlt⟩
    · rcases h4 with h4 | h4
      · rw [h4] at hst
        exact Bool.false_ne_true hst
      · rw [hw, h4] at hpos
        exact lt_irrefl _ hpos
    · exact absurd (hmax k (mem_range.2 hk)) (not_le.2 hlt)

/-! ## theta -/

theorem pw_rpow (P : PObj ℝ) {x : ℝ} (hx : 0 < x) : (flowOf Fun.real P).pw x = x ^ P.theta := by
  change (Fun.real.pow (.fin x) P.theta).num = x ^ P.theta
  unfold Fun.real
  by_cases h : P.theta = 0
  · simp [h, Fl.num]
  · simp [h, hx, Fl.num]

open Classical in
/-- The part of the flow-derived weight that does not depend on `theta`. -/
noncomputable def baseWeight (P : PObj ℝ) (a b k : Nat) : ℝ :=
  if (flowOf Fun.real P).Passable a b k ∧ ((flowOf Fun.real P).stage a b).isSome ∧ ((flowOf Fun.real P).stage (Flow.nr a k) (Flow.nc b k)).isSome then
    P.gamma * Flow.share ((flowOf Fun.real P).slope a b) k + (1 - P.gamma) * Flow.share ((flowOf Fun.real P).inertia a b) k else 0

theorem flow_base (P : PObj ℝ) (hd : 0 ≤ P.dryDepth) (t : ℝ) (a b k : Nat) :
    (flowOf Fun.real { P with theta := t }).flow a b k = ((flowOf Fun.real P).depth (Flow.nr a k) (Flow.nc b k)) ^ t * baseWeight P a b k := by
  unfold Flow.flow baseWeight
  by_cases h : (flowOf Fun.real P).Passable a b k ∧ ((flowOf Fun.real P).stage a b).isSome ∧ ((flowOf Fun.real P).stage (Flow.nr a k) (Flow.nc b k)).isSome
  · rw [if_pos h]
    refine (if_pos h).trans ?_
    congr 1
    exact pw_rpow { P with theta := t } (lt_of_le_of_lt hd h.1.1)
  · rw [if_neg h, mul_zero]
    exact if_neg h

theorem baseWeight_nonneg {P : PObj ℝ} (hg0 : 0 ≤ P.gamma) (hg1 : P.gamma ≤ 1) (a b k : Nat) : 0 ≤ baseWeight P a b k := by
  unfold baseWeight
  split_ifs
  · exact add_nonneg (mul_nonneg hg0 (Flow.share_nonneg (Flow.slope_nonneg _ _ _) k)) (mul_nonneg (sub_nonneg.2 hg1) (Flow.share_nonneg (Flow.inertia_nonneg _ _ _) k))
  · exact le_rfl

theorem baseWeight_depth {P : PObj ℝ} (hd : 0 ≤ P.dryDepth) {a b k : Nat} (h : baseWeight P a b k ≠ 0) :
    0 < (flowOf Fun.real P).depth (Flow.nr a k) (Flow.nc b k) := by
  unfold baseWeight at h
  by_cases hc : (flowOf Fun.real P).Passable a b k ∧ ((flowOf Fun.real P).stage a b).isSome ∧ ((flowOf Fun.real P).stage (Flow.nr a k) (Flow.nc b k)).isSome
  · exact lt_of_le_of_lt hd hc.1.1
  · rw [if_neg hc] at h
    exact absurd rfl h

/-- Two neighbours with flow-derived weight: a larger `theta` shifts the weights towards the deeper one. -/
theorem theta_pair {P : PObj ℝ} (hd : 0 ≤ P.dryDepth) (hg0 : 0 ≤ P.gamma) (hg1 : P.gamma ≤ 1) {a b j k : Nat} {t t' : ℝ} (hlt : t < t')
    (hzy : (flowOf Fun.real P).depth (Flow.nr a k) (Flow.nc b k) < (flowOf Fun.real P).depth (Flow.nr a j) (Flow.nc b j))
    (hbj : baseWeight P a b j ≠ 0) (hbk : baseWeight P a b k ≠ 0) :
    (flowOf Fun.real P).depth (Flow.nr a j) (Flow.nc b j) ^ t * baseWeight P a b j * ((flowOf Fun.real P).depth (Flow.nr a k) (Flow.nc b k) ^ t' * baseWeight P a b k) <
    (flowOf Fun.real P).depth (Flow.nr a j) (Flow.nc b j) ^ t' * baseWeight P a b j * ((flowOf Fun.real P).depth (Flow.nr a k) (Flow.nc b k) ^ t * baseWeight P a b k) := by
  have dj := baseWeight_depth hd hbj
  have dk := baseWeight_depth hd hbk
  set y := (flowOf Fun.real P).depth (Flow.nr a j) (Flow.nc b j)
  set z := (flowOf Fun.real P).depth (Flow.nr a k) (Flow.nc b k)
  have hpow : y ^ t * z ^ t' < y ^ t' * z ^ t := by
    have e : t' = t + (t' - t) := by ring
    rw [e, Real.rpow_add dj, Real.rpow_add dk]
    have h1 := Real.rpow_lt_rpow dk.le hzy (sub_pos.2 hlt)
    have h2 := Real.rpow_pos_of_pos dj t
    have h3 := Real.rpow_pos_of_pos dk t
    calc y ^ t * (z ^ t * z ^ (t' - t)) = (y ^ t * z ^ t) * z ^ (t' - t) := by ring
      _ < (y ^ t * z ^ t) * y ^ (t' - t) := mul_lt_mul_of_pos_left h1 (mul_pos h2 h3)
      _ = _ := by ring
  have bj := lt_of_le_of_ne (baseWeight_nonneg hg0 hg1 a b j) (Ne.symm hbj)
  have bk := lt_of_le_of_ne (baseWeight_nonneg hg0 hg1 a b k) (Ne.symm hbk)
  calc _ = (y ^ t * z ^ t') * (baseWeight P a b j * baseWeight P a b k) := by ring
      _ < (y ^ t' * z ^ t) * (baseWeight P a b j * baseWeight P a b k) := mul_lt_mul_of_pos_right hpow (mul_pos bj bk)
      _ = _ := by ring

open Classical in
/-- One choice: a larger `theta` makes the deeper neighbours more likely. -/
theorem theta_mono {P : PObj ℝ} (hd : 0 ≤ P.dryDepth) (hg0 : 0 ≤ P.gamma) (hg1 : P.gamma ≤ 1) {a b : Nat}
    (h4 : P.steepest = false ∨ baseWeight P a b 4 = 0) {t t' : ℝ} (htt : t ≤ t') (x : ℝ) :
    (∑ k ∈ range 9, if x ≤ (flowOf Fun.real P).depth (Flow.nr a k) (Flow.nc b k) then
      ((flowOf Fun.real { P with theta := t }).chooseProb P.steepest a b k).toReal else 0) ≤
    ∑ k ∈ range 9, if x ≤ (flowOf Fun.real P).depth (Flow.nr a k) (Flow.nc b k) then
      ((flowOf Fun.real { P with theta := t' }).chooseProb P.steepest a b k).toReal else 0 := by
  rcases htt.eq_or_lt with rfl | hlt
  · exact le_rfl
  set f := flowOf Fun.real { P with theta := t } with hf
  set f' := flowOf Fun.real { P with theta := t' } with hf'
  have hdead : ∀ t, (flowOf Fun.real { P with theta := t }).DeadEnd a b ↔ ∀ k, k < 9 → baseWeight P a b k = 0 := by
    intro t
    unfold Flow.DeadEnd
    refine forall_congr' fun k => forall_congr' fun _ => ?_
    rw [flow_base P hd]
    constructor
    · intro h
      by_contra hc
      rcases mul_eq_zero.1 h with h | h
      · exact absurd h (Real.rpow_pos_of_pos (baseWeight_depth hd hc) t).ne'
      · exact hc h
    · intro h
      rw [h, mul_zero]
  by_cases hD : ∀ k, k < 9 → baseWeight P a b k = 0
  · have hw : ∀ k, f'.weight a b k = f.weight a b k := by
      intro k
      unfold Flow.weight
      rw [if_pos ((hdead t).2 hD), if_pos ((hdead t').2 hD)]
      rfl
    have hc : ∀ k, f'.candidate P.steepest a b k = f.candidate P.steepest a b k := by
      intro k
      unfold Flow.candidate
      simp only [hw]
      congr
    have hp : ∀ k, f'.chooseProb P.steepest a b k = f.chooseProb P.steepest a b k := by
      intro k
      unfold Flow.chooseProb
      simp only [hc]
      congr
    simp only [hp, le_refl]
  · have hDt : ¬ f.DeadEnd a b := fun h => hD ((hdead t).1 h)
    have hDt' : ¬ f'.DeadEnd a b := fun h => hD ((hdead t').1 h)
    have h40 : ∀ t, P.steepest = false ∨ (flowOf Fun.real { P with theta := t }).flow a b 4 = 0 := fun t => h4.imp_right fun h => by
      rw [flow_base P hd, h, mul_zero]
    have s1 : 0 < ∑ m ∈ range 9, f.candidate P.steepest a b m := candidates_pos (P := { P with theta := t }) hd hg0 hg1 hDt (h40 t)
    have s2 : 0 < ∑ m ∈ range 9, f'.candidate P.steepest a b m := candidates_pos (P := { P with theta := t' }) hd hg0 hg1 hDt' (h40 t')
    have e1 : ∀ k, (f.chooseProb P.steepest a b k).toReal = _ := choose_share (P := { P with theta := t }) hd hg0 hg1 s1
    have e2 : ∀ k, (f'.chooseProb P.steepest a b k).toReal = _ := choose_share (P := { P with theta := t' }) hd hg0 hg1 s2
    simp only [e1, e2]
    refine share_mono_pairs s1 s2 fun j hj k hk hDj hDk => ?_
    have w1 : ∀ k, f.weight a b k = ((flowOf Fun.real P).depth (Flow.nr a k) (Flow.nc b k)) ^ t * baseWeight P a b k := fun k =>
      (if_neg hDt).trans (flow_base P hd t a b k)
    have w2 : ∀ k, f'.weight a b k = ((flowOf Fun.real P).depth (Flow.nr a k) (Flow.nc b k)) ^ t' * baseWeight P a b k := fun k =>
      (if_neg hDt').trans (flow_base P hd t' a b k)
    have key : f.weight a b j * f'.weight a b k ≤ f'.weight a b j * f.weight a b k ∧
        (baseWeight P a b j ≠ 0 → baseWeight P a b k ≠ 0 → f.weight a b j * f'.weight a b k < f'.weight a b j * f.weight a b k) := by
      rw [w1, w1, w2, w2]
      by_cases hbj : baseWeight P a b j = 0
      · simp [hbj]
      by_cases hbk : baseWeight P a b k = 0
      · simp [hbk]
      have hzy : (flowOf Fun.real P).depth (Flow.nr a k) (Flow.nc b k) < (flowOf Fun.real P).depth (Flow.nr a j) (Flow.nc b j) := lt_of_lt_of_le (not_le.1 hDk) hDj
      have hfin := theta_pair (a := a) (b := b) (j := j) (k := k) hd hg0 hg1 hlt hzy hbj hbk
      exact ⟨hfin.le, fun _ _ => hfin⟩
    have n1 := fun k => candidate_nonneg (F := Fun.real) (P := { P with theta := t }) hd hg0 hg1 P.steepest a b k
    have n2 := fun k => candidate_nonneg (F := Fun.real) (P := { P with theta := t' }) hd hg0 hg1 P.steepest a b k
    by_cases hst : P.steepest = true
    · -- both positive is impossible
      by_cases z1 : f.candidate P.steepest a b j = 0
      · rw [z1, zero_mul]
        exact mul_nonneg (n2 j) (n1 k)
      by_cases z2 : f'.candidate P.steepest a b k = 0
      · rw [z2, mul_zero]
        exact mul_nonneg (n2 j) (n1 k)
      exfalso
      have m1 : f.candidate P.steepest a b j = f.weight a b j ∧ ∀ m, m < 9 → f.weight a b m ≤ f.weight a b j := by
        unfold Flow.candidate at z1 ⊢
        split_ifs at z1 ⊢ with hc
        · exact absurd rfl z1
        · push Not at hc
          exact ⟨rfl, fun m hm => (hc hst).2 m hm⟩
      have m2 : f'.candidate P.steepest a b k = f'.weight a b k ∧ ∀ m, m < 9 → f'.weight a b m ≤ f'.weight a b k := by
        unfold Flow.candidate at z2 ⊢
        split_ifs at z2 ⊢ with hc
        · exact absurd rfl z2
        · push Not at hc
          exact ⟨rfl, fun m hm => (hc hst).2 m hm⟩
      rw [m1.1] at z1
      rw [m2.1] at z2
      have hbj : baseWeight P a b j ≠ 0 := fun h => z1 (by rw [w1, h, mul_zero])
      have hbk : baseWeight P a b k ≠ 0 := fun h => z2 (by rw [w2, h, mul_zero])
      have h1 := key.2 hbj hbk
      have h2 := m1.2 k (mem_range.1 hk)
      have h3 := m2.2 j (mem_range.1 hj)
      have p1 : 0 ≤ f.weight a b k := weight_nonneg (F := Fun.real) (P := { P with theta := t }) hd hg0 hg1 a b k
      have p2 : 0 ≤ f'.weight a b k := weight_nonneg (F := Fun.real) (P := { P with theta := t' }) hd hg0 hg1 a b k
      have : f'.weight a b j * f.weight a b k ≤ f'.weight a b k * f.weight a b j := mul_le_mul h3 h2 p1 p2
      linarith
    · have c1 : ∀ (g : Flow ℝ) m, g.candidate P.steepest a b m = g.weight a b m := fun g m => if_neg fun h => hst h.1
      rw [c1, c1, c1, c1]
      exact key.1

/-- With the default direction tables the cell itself has no flow-derived weight. -/
theorem baseWeight_self {P : PObj ℝ} (hi : P.ivec 4 = .fin 0) (hj : P.jvec 4 = .fin 0) {a b : Nat} (ha : 1 ≤ a) (hb : 1 ≤ b) : baseWeight P a b 4 = 0 := by
  have n1 : Flow.nr a 4 = a := by unfold Flow.nr; omega
  have n2 : Flow.nc b 4 = b := by unfold Flow.nc; omega
  have h1 : (flowOf Fun.real P).slope a b 4 = 0 := by
    unfold Flow.slope
    rw [n1, n2]
    split_ifs
    · unfold Flow.drop
      split
      · rename_i e e' he he'
        rw [he] at he'
        cases he'
        simp
      · rfl
    · rfl
  have h2 : (flowOf Fun.real P).inertia a b 4 = 0 := by
    unfold Flow.inertia
    have r1 : (flowOf Fun.real P).rowVec 4 = 0 := by change (P.jvec 4).num = 0; rw [hj]; rfl
    have r2 : (flowOf Fun.real P).colVec 4 = 0 := by change (P.ivec 4).num = 0; rw [hi]; rfl
    rw [r1, r2]
    simp
  unfold baseWeight Flow.share
  rw [h1, h2]
  simp

open Classical in
theorem theta_law {R C : Nat} {p : Params ℝ} {O : ℝ → PObj ℝ} (hO : ∀ t, initParticles Arith.exact Fun.real { p with theta := some t } = .ok (O t))
    {S : ℝ → PState ℝ} {I : ℝ → Nat} {q : Int × Int}
    (hS : ∀ t, Standing Fun.real R C (O t) (S t) (I t) q) {depth : Grid (Fl ℝ)} (hdep : ∀ t, (O t).depth = depth) (x : ℝ) :
    ∃ a b : Nat, 1 ≤ a ∧ 1 ≤ b ∧ q = ((a : Int), (b : Int)) ∧ ∀ t, uniformDraws.real {ω | FoundIn Fun.real (O t) ω (S t) 1 (I t) (AtLeast depth x)} =
      if NearEdge (O 0) a b then (if ((a : Int), (b : Int)) ∈ AtLeast depth x then 1 else 0) else ∑ k ∈ range 9,
        if x ≤ (flowOf Fun.real (O 0)).depth (Flow.nr a k) (Flow.nc b k) then
          ((flowOf Fun.real { O 0 with theta := t }).chooseProb (O 0).steepest a b k).toReal else 0 := by
  set P := O 0 with hP
  have e : ∀ t, O t = { P with theta := t } := fun t => by
    have h1 := C124_theta_accepted (hO 0) t
    have h2 := hO t
    exact Except.ok.inj (h2.symm.trans h1)
  have G := (hS 0).reach.obj.built.good
  obtain ⟨a, b, rfl, g1, g2, g3, g4⟩ := (hS 0).inside.nat
  have hin : Interior P a b := ⟨g1, by rw [(hS 0).reach.obj.rows]; exact g2, g3, by rw [(hS 0).reach.obj.cols]; exact g4⟩
  have hmem : ∀ k, k < 9 → (neighbour ((a : Int), (b : Int)) k ∈ AtLeast depth x ↔ x ≤ (flowOf Fun.real P).depth (Flow.nr a k) (Flow.nc b k)) := by
    intro k hk
    obtain ⟨r1, r2⟩ := win_lt hin hk
    obtain ⟨d, hd⟩ := G.depth_fin _ _ r1 r2
    have hd' : P.depth.at' (Flow.nr a k) (Flow.nc b k) = .fin d := hd
    have e1 : (flowOf Fun.real P).depth (Flow.nr a k) (Flow.nc b k) = d := by
      change (P.depth.at' (Flow.nr a k) (Flow.nc b k)).num = d
      rw [hd']
      rfl
    rw [e1, ← hdep 0]
    constructor
    · rintro ⟨d', h1, h2⟩
      have h1' : P.depth.at' (Flow.nr a k) (Flow.nc b k) = .fin d' := h1
      rw [hd'] at h1'
      cases h1'
      exact h2
    · exact fun h => ⟨d, hd', h⟩
  have hlaw : ∀ t, uniformDraws.real {ω | FoundIn Fun.real (O t) ω (S t) 1 (I t) (AtLeast depth x)} =
      if NearEdge P a b then (if ((a : Int), (b : Int)) ∈ AtLeast depth x then 1 else 0) else ∑ k ∈ range 9,
        if x ≤ (flowOf Fun.real P).depth (Flow.nr a k) (Flow.nc b k) then ((flowOf Fun.real { P with theta := t }).chooseProb P.steepest a b k).toReal else 0 := by
    intro t
    rw [next_law (hS t), e t]
    refine if_congr Iff.rfl rfl (sum_congr rfl fun k hk => ?_)
    exact if_congr (hmem k (mem_range.1 hk)) rfl rfl
  exact ⟨a, b, g1, g3, rfl, hlaw⟩

/-- C124: the probability that a particle is in a cell at least `x` deep after the next call of `run_iteration()` does not fall if `theta` grows. The simulations that
are compared differ in `theta`; each may have any history that led the particle to the same cell. -/
theorem C124_theta {R C : Nat} {p : Params ℝ} {O : ℝ → PObj ℝ} (hO : ∀ t, initParticles Arith.exact Fun.real { p with theta := some t } = .ok (O t))
    (h4 : p.steepest = some true → p.ivec = none ∧ p.jvec = none) {S : ℝ → PState ℝ} {I : ℝ → Nat} {q : Int × Int}
    (hS : ∀ t, Standing Fun.real R C (O t) (S t) (I t) q) {depth : Grid (Fl ℝ)} (hdep : ∀ t, (O t).depth = depth) (x : ℝ) :
    Monotone fun t => uniformDraws.real {ω | FoundIn Fun.real (O t) ω (S t) 1 (I t) (AtLeast depth x)} := by
  classical
  intro t t' htt
  have G := (hS 0).reach.obj.built.good
  obtain ⟨a, b, g1, g3, -, hlaw⟩ := theta_law hO hS hdep x
  change uniformDraws.real _ ≤ uniformDraws.real _
  rw [hlaw, hlaw]
  split_ifs
  · exact le_rfl
  · exact le_rfl
  · refine theta_mono G.dry_nonneg G.gamma_nonneg G.gamma_le ?_ htt x
    by_cases hst : (O 0).steepest = true
    · right
      have h0 := hO 0
      simp only [initParticles, bind_ok, pure_ok] at h0
      obtain ⟨dx, -, d, -, st, -, fl, -, r, -, ct, -, h0⟩ := h0
      have hsp : p.steepest = some true := by
        have h5 : (O 0).steepest = true := hst
        rw [← h0] at h5
        exact beq_iff_eq.1 h5
      obtain ⟨hi, hj⟩ := h4 hsp
      refine baseWeight_self ?_ ?_ g1 g3
      · rw [← h0]
        simp only [hi]
        rfl
      · rw [← h0]
        simp only [hj]
        rfl
    · exact .inl (by simpa using hst)

theorem share_lt_pairs {c c' : Nat → ℝ} {D : Nat → Prop} [DecidablePred D]
    (hs : 0 < ∑ k ∈ range 9, c k) (hs' : 0 < ∑ k ∈ range 9, c' k)
    (h : ∀ j ∈ range 9, ∀ k ∈ range 9, D j → ¬ D k → c j * c' k ≤ c' j * c k)
    {j k : Nat} (hj : j ∈ range 9) (hk : k ∈ range 9) (hDj : D j) (hDk : ¬ D k) (hlt : c j * c' k < c' j * c k) :
    (∑ k ∈ range 9, if D k then c k / ∑ m ∈ range 9, c m else 0) < ∑ k ∈ range 9, if D k then c' k / ∑ m ∈ range 9, c' m else 0 := by
  have split : ∀ x : Nat → ℝ, ∑ k ∈ range 9, x k = (∑ k ∈ range 9, if D k then x k else 0) + ∑ k ∈ range 9, if D k then 0 else x k := by
    intro x
    rw [← sum_add_distrib]
    refine sum_congr rfl fun k _ => ?_
    split_ifs <;> simp
  have out : ∀ x : Nat → ℝ, (∑ k ∈ range 9, if D k then x k / ∑ m ∈ range 9, x m else 0) = (∑ k ∈ range 9, if D k then x k else 0) / ∑ m ∈ range 9, x m := by
    intro x
    rw [sum_div]
    refine sum_congr rfl fun k _ => ?_
    split_ifs <;> simp
  have hle : ∀ j ∈ range 9, ∀ k ∈ range 9, (if D j then c j else 0) * (if D k then 0 else c' k) ≤ (if D j then c' j else 0) * if D k then 0 else c k := by
    intro j hj k hk
    by_cases h1 : D j <;> by_cases h2 : D k <;> simp only [h1, h2, if_true, if_false, mul_zero, zero_mul, le_refl]
    exact h j hj k hk h1 h2
  have key : (∑ k ∈ range 9, if D k then c k else 0) * (∑ k ∈ range 9, if D k then 0 else c' k) <
      (∑ k ∈ range 9, if D k then c' k else 0) * ∑ k ∈ range 9, if D k then 0 else c k := by
    rw [sum_mul_sum, sum_mul_sum]
    refine sum_lt_sum (fun j hj => sum_le_sum fun k hk => hle j hj k hk) ⟨j, hj, sum_lt_sum (fun k hk => hle j hj k hk) ⟨k, hk, ?_⟩⟩
    simp only [hDj, hDk, if_true, if_false]
    exact hlt
  rw [out, out, div_lt_div_iff₀ hs hs', split c, split c']
  nlinarith

/-- C124: without steepest descent, if for some value of `theta` deeper and shallower cells are both possible, the probability of the deeper ones grows strictly. -/
theorem C124_theta_strict {R C : Nat} {p : Params ℝ} {O : ℝ → PObj ℝ} (hO : ∀ t, initParticles Arith.exact Fun.real { p with theta := some t } = .ok (O t))
    (hns : p.steepest ≠ some true) {S : ℝ → PState ℝ} {I : ℝ → Nat} {q : Int × Int}
    (hS : ∀ t, Standing Fun.real R C (O t) (S t) (I t) q) {depth : Grid (Fl ℝ)} (hdep : ∀ t, (O t).depth = depth) {x t₀ : ℝ}
    (h0 : 0 < uniformDraws.real {ω | FoundIn Fun.real (O t₀) ω (S t₀) 1 (I t₀) (AtLeast depth x)})
    (h1 : uniformDraws.real {ω | FoundIn Fun.real (O t₀) ω (S t₀) 1 (I t₀) (AtLeast depth x)} < 1) :
    StrictMono fun t => uniformDraws.real {ω | FoundIn Fun.real (O t) ω (S t) 1 (I t) (AtLeast depth x)} := by
  classical
  have G := (hS 0).reach.obj.built.good
  obtain ⟨a, b, g1, g3, -, hlaw⟩ := theta_law hO hS hdep x
  have hsteep : (O 0).steepest = false := by
    have h2 := hO 0
    simp only [initParticles, bind_ok, pure_ok] at h2
    obtain ⟨dx, -, d, -, st, -, fl, -, r, -, ct, -, h2⟩ := h2
    rw [← h2]
    exact beq_eq_false_iff_ne.2 hns
  rw [hlaw] at h0 h1
  by_cases hn : NearEdge (O 0) a b
  · rw [if_pos hn] at h0 h1
    split_ifs at h0 h1
    · exact absurd h1 (lt_irrefl _)
    · exact absurd h0 (lt_irrefl _)
  rw [if_neg hn] at h0 h1
  rw [hsteep] at h0 h1 hlaw
  set P := O 0 with hP
  set D : Nat → Prop := fun k => x ≤ (flowOf Fun.real P).depth (Flow.nr a k) (Flow.nc b k) with hDdef
  have hd := G.dry_nonneg
  have hw : ∀ t k, (flowOf Fun.real { P with theta := t }).candidate false a b k = (flowOf Fun.real { P with theta := t }).weight a b k := fun t k =>
    if_neg fun h => Bool.false_ne_true h.1
  have hpos : ∀ t, 0 < ∑ m ∈ range 9, (flowOf Fun.real { P with theta := t }).candidate false a b m := by
    intro t
    by_cases hD : (flowOf Fun.real { P with theta := t }).DeadEnd a b
    · obtain ⟨m, hm, hmax⟩ := exists_max_image (range 9) (fun k => (flowOf Fun.real { P with theta := t }).depth (Flow.nr a k) (Flow.nc b k)) ⟨0, by simp⟩
      refine sum_pos' (fun k _ => candidate_nonneg (F := Fun.real) (P := { P with theta := t }) hd G.gamma_nonneg G.gamma_le false a b k) ⟨m, hm, ?_⟩
      rw [hw]
      unfold Flow.weight
      rw [if_pos hD, if_pos (show (flowOf Fun.real { P with theta := t }).Deepest a b m from fun k hk => hmax k (mem_range.2 hk))]
      exact one_pos
    · have := candidates_pos (F := Fun.real) (P := { P with theta := t }) hd G.gamma_nonneg G.gamma_le hD (.inl hsteep)
      change 0 < ∑ m ∈ range 9, (flowOf Fun.real { P with theta := t }).candidate P.steepest a b m at this
      rw [hsteep] at this
      exact this
  have hsh : ∀ t k, ((flowOf Fun.real { P with theta := t }).chooseProb false a b k).toReal = (flowOf Fun.real { P with theta := t }).weight a b k /
      ∑ m ∈ range 9, (flowOf Fun.real { P with theta := t }).weight a b m := by
    intro t k
    rw [choose_share (F := Fun.real) (P := { P with theta := t }) hd G.gamma_nonneg G.gamma_le (hpos t) k]
    simp only [hw]
  simp only [hw] at hpos
  simp only [hsh] at h0 h1 hlaw
  obtain ⟨j, hj, hj0⟩ : ∃ j ∈ range 9, D j ∧ (flowOf Fun.real { P with theta := t₀ }).weight a b j ≠ 0 := by
    by_contra hc
    push Not at hc
    rw [sum_eq_zero fun k hk => by
      split_ifs with hk2
      · rw [hc k hk hk2, zero_div]
      · rfl] at h0
    exact lt_irrefl _ h0
  obtain ⟨k, hk, hk0⟩ : ∃ k ∈ range 9, ¬ D k ∧ (flowOf Fun.real { P with theta := t₀ }).weight a b k ≠ 0 := by
    by_contra hc
    push Not at hc
    rw [sum_congr rfl fun k hk => show _ = (flowOf Fun.real { P with theta := t₀ }).weight a b k /
      ∑ m ∈ range 9, (flowOf Fun.real { P with theta := t₀ }).weight a b m from by
      split_ifs with hk2
      · rfl
      · rw [hc k hk hk2, zero_div], ← sum_div, div_self (hpos t₀).ne'] at h1
    exact lt_irrefl _ h1
  have hND : ¬ (flowOf Fun.real { P with theta := t₀ }).DeadEnd a b := by
    intro hD
    have u1 := hj0.2
    have u2 := hk0.2
    unfold Flow.weight at u1 u2
    rw [if_pos hD] at u1 u2
    split_ifs at u1 u2 with v1 v2 <;> try exact absurd rfl (by assumption)
    exact hk0.1 (hj0.1.trans (v2 j (mem_range.1 hj)))
  have hb : ∀ k, (flowOf Fun.real { P with theta := t₀ }).weight a b k ≠ 0 → baseWeight P a b k ≠ 0 := by
    intro k hk hc
    apply hk
    refine (if_neg hND).trans ?_
    rw [flow_base P hd, hc, mul_zero]
  have hbj := hb j hj0.2
  have hbk := hb k hk0.2
  have hND' : ∀ t, ¬ (flowOf Fun.real { P with theta := t }).DeadEnd a b := by
    intro t hD
    have := hD j (mem_range.1 hj)
    rw [flow_base P hd] at this
    rcases mul_eq_zero.1 this with h | h
    · exact absurd h (Real.rpow_pos_of_pos (baseWeight_depth hd hbj) t).ne'
    · exact hbj h
  have hwt : ∀ t k, (flowOf Fun.real { P with theta := t }).weight a b k = ((flowOf Fun.real P).depth (Flow.nr a k) (Flow.nc b k)) ^ t * baseWeight P a b k := fun t k =>
    (if_neg (hND' t)).trans (flow_base P hd t a b k)
  intro t t' htt
  change uniformDraws.real _ < uniformDraws.real _
  rw [hlaw, hlaw, if_neg hn, if_neg hn]
  have pair : ∀ j k, D j → ¬ D k → baseWeight P a b j ≠ 0 → baseWeight P a b k ≠ 0 →
      (flowOf Fun.real { P with theta := t }).weight a b j * (flowOf Fun.real { P with theta := t' }).weight a b k <
      (flowOf Fun.real { P with theta := t' }).weight a b j * (flowOf Fun.real { P with theta := t }).weight a b k := by
    intro j k hDj hDk hbj hbk
    rw [hwt, hwt, hwt, hwt]
    exact theta_pair hd G.gamma_nonneg G.gamma_le htt (lt_of_lt_of_le (not_le.1 hDk) hDj) hbj hbk
  refine share_lt_pairs (D := D) (hpos t) (hpos t') (fun j _ k _ hDj hDk => ?_) hj hk hj0.1 hk0.1 (pair j k hj0.1 hk0.1 hbj hbk)
  by_cases b1 : baseWeight P a b j = 0
  · rw [hwt t j, hwt t' j, b1]
    simp
  by_cases b2 : baseWeight P a b k = 0
  · rw [hwt t k, hwt t' k, b2]
    simp
  exact (pair j k hDj hDk b1 b2).le

/-! ## gamma -/

open Classical in
/-- Flow-derived weight from the water surface alone or from the discharge alone. -/
noncomputable def partWeight (F : Fun ℝ Arith.exact) (P : PObj ℝ) (x : Nat → ℝ) (a b k : Nat) : ℝ :=
  if (flowOf F P).Passable a b k ∧ ((flowOf F P).stage a b).isSome ∧ ((flowOf F P).stage (Flow.nr a k) (Flow.nc b k)).isSome then
    (flowOf F P).pw ((flowOf F P).depth (Flow.nr a k) (Flow.nc b k)) * Flow.share x k else 0

theorem flow_parts (F : Fun ℝ Arith.exact) (P : PObj ℝ) (g : ℝ) (a b k : Nat) : (flowOf F { P with gamma := g }).flow a b k =
    g * partWeight F P ((flowOf F P).slope a b) a b k + (1 - g) * partWeight F P ((flowOf F P).inertia a b) a b k := by
  unfold Flow.flow partWeight
  by_cases h : (flowOf F P).Passable a b k ∧ ((flowOf F P).stage a b).isSome ∧ ((flowOf F P).stage (Flow.nr a k) (Flow.nc b k)).isSome
  · rw [if_pos h, if_pos h]
    refine (if_pos h).trans ?_
    change (flowOf F P).pw ((flowOf F P).depth (Flow.nr a k) (Flow.nc b k)) * (g * Flow.share ((flowOf F P).slope a b) k +
      (1 - g) * Flow.share ((flowOf F P).inertia a b) k) = _
    ring
  · rw [if_neg h, if_neg h, mul_zero, mul_zero, add_zero]
    exact if_neg h

theorem partWeight_nonneg {F : Fun ℝ Arith.exact} {P : PObj ℝ} (hd : 0 ≤ P.dryDepth) {x : Nat → ℝ} (hx : ∀ k, 0 ≤ x k) (a b k : Nat) :
    0 ≤ partWeight F P x a b k := by
  unfold partWeight
  split_ifs with h
  · exact mul_nonneg (pw_nonneg F P (lt_of_le_of_lt hd h.1.1)) (Flow.share_nonneg hx k)
  · exact le_rfl

/-- C124: at a cell where both the water surface and the discharge lead somewhere, the probability that a particle is in a cell of a given set after the next call of
`run_iteration()` grows with `gamma` all the way from 0 to 1 or falls all the way; in particular it always lies between the probabilities with discharge alone
and with water-surface slope alone. -/
theorem C124_gamma {F : Fun ℝ Arith.exact} {R C : Nat} {p : Params ℝ} (hst : p.steepest ≠ some true) {O : ℝ → PObj ℝ}
    (hO : ∀ g, 0 ≤ g → g ≤ 1 → initParticles Arith.exact F { p with gamma := some g } = .ok (O g)) {S : ℝ → PState ℝ} {I : ℝ → Nat} {q : Int × Int}
    (hS : ∀ g, 0 ≤ g → g ≤ 1 → Standing F R C (O g) (S g) (I g) q) (h0 : ¬ (flowOf F (O 0)).DeadEnd q.1.toNat q.2.toNat)
    (h1 : ¬ (flowOf F (O 1)).DeadEnd q.1.toNat q.2.toNat) (D : Set (Int × Int)) :
    MonotoneOn (fun g => uniformDraws.real {ω | FoundIn F (O g) ω (S g) 1 (I g) D}) (Set.Icc 0 1) ∨
    AntitoneOn (fun g => uniformDraws.real {ω | FoundIn F (O g) ω (S g) 1 (I g) D}) (Set.Icc 0 1) := by
  classical
  set P := O 0 with hP
  have e : ∀ g, 0 ≤ g → g ≤ 1 → O g = { P with gamma := g } := fun g g0 g1 =>
    Except.ok.inj ((hO g g0 g1).symm.trans (C124_gamma_accepted (hO 0 le_rfl zero_le_one) g))
  have G := (hS 0 le_rfl zero_le_one).reach.obj.built.good
  have hsteep : P.steepest = false := by
    have h2 := hO 0 le_rfl zero_le_one
    simp only [initParticles, bind_ok, pure_ok] at h2
    obtain ⟨dx, -, d, -, st, -, fl, -, r, -, ct, -, h2⟩ := h2
    change (O 0).steepest = false
    rw [← h2]
    exact beq_eq_false_iff_ne.2 hst
  set a := q.1.toNat
  set b := q.2.toNat
  set X : Nat → ℝ := fun k => partWeight F P ((flowOf F P).slope a b) a b k with hX
  set Y : Nat → ℝ := fun k => partWeight F P ((flowOf F P).inertia a b) a b k with hY
  have hX0 : ∀ k, 0 ≤ X k := partWeight_nonneg G.dry_nonneg (Flow.slope_nonneg _ _ _) a b
  have hY0 : ∀ k, 0 ≤ Y k := partWeight_nonneg G.dry_nonneg (Flow.inertia_nonneg _ _ _) a b
  have hfl : ∀ g k, (flowOf F { P with gamma := g }).flow a b k = g * X k + (1 - g) * Y k := fun g k => flow_parts F P g a b k
  have sX : 0 < ∑ k ∈ range 9, X k := by
    rw [e 1 zero_le_one le_rfl] at h1
    unfold Flow.DeadEnd at h1
    push Not at h1
    obtain ⟨k, hk, hk0⟩ := h1
    rw [hfl] at hk0
    exact sum_pos' (fun k _ => hX0 k) ⟨k, mem_range.2 hk, lt_of_le_of_ne (hX0 k) fun h => hk0 (by rw [← h]; ring)⟩
  have sY : 0 < ∑ k ∈ range 9, Y k := by
    rw [show flowOf F P = flowOf F { P with gamma := 0 } from congrArg _ (e 0 le_rfl zero_le_one)] at h0
    unfold Flow.DeadEnd at h0
    push Not at h0
    obtain ⟨k, hk, hk0⟩ := h0
    rw [hfl] at hk0
    exact sum_pos' (fun k _ => hY0 k) ⟨k, mem_range.2 hk, lt_of_le_of_ne (hY0 k) fun h => hk0 (by rw [← h]; ring)⟩
  have sZ : ∀ g, 0 ≤ g → g ≤ 1 → 0 < ∑ k ∈ range 9, (g * X k + (1 - g) * Y k) := by
    intro g g0 g1
    rw [sum_add_distrib, ← mul_sum, ← mul_sum]
    rcases g0.eq_or_lt with rfl | hg
    · simpa using sY
    · exact add_pos_of_pos_of_nonneg (mul_pos hg sX) (mul_nonneg (by linarith) sY.le)
  have hlaw : ∀ g, 0 ≤ g → g ≤ 1 → uniformDraws.real {ω | FoundIn F (O g) ω (S g) 1 (I g) D} = if NearEdge P a b then (if q ∈ D then 1 else 0) else
      ∑ k ∈ range 9, if neighbour q k ∈ D then (g * X k + (1 - g) * Y k) / ∑ m ∈ range 9, (g * X m + (1 - g) * Y m) else 0 := by
    intro g g0 g1
    have hD : ¬ (flowOf F { P with gamma := g }).DeadEnd a b := by
      intro hc
      have := sZ g g0 g1
      rw [sum_eq_zero fun k hk => (hfl g k).symm.trans (hc k (mem_range.1 hk))] at this
      exact lt_irrefl _ this
    have hcand : ∀ k, (flowOf F { P with gamma := g }).candidate false a b k = g * X k + (1 - g) * Y k := fun k =>
      (if_neg fun h => Bool.false_ne_true h.1).trans ((if_neg hD).trans (hfl g k))
    have hsum : 0 < ∑ m ∈ range 9, (flowOf F { P with gamma := g }).candidate false a b m := by
      simp only [hcand]
      exact sZ g g0 g1
    have hch := choose_share (P := { P with gamma := g }) (F := F) G.dry_nonneg g0 g1 hsum
    simp only [hcand] at hch
    rw [next_law (hS g g0 g1), e g g0 g1]
    refine if_congr Iff.rfl rfl (sum_congr rfl fun k _ => if_congr Iff.rfl ?_ rfl)
    change ((flowOf F { P with gamma := g }).chooseProb P.steepest a b k).toReal = _
    rw [hsteep]
    exact hch k
  have hcross : ∀ g g' : ℝ, ∀ Z : Nat → Prop, ∀ _ : DecidablePred Z,
      (∑ k ∈ range 9, if Z k then g' * X k + (1 - g') * Y k else 0) * (∑ k ∈ range 9, if Z k then 0 else g * X k + (1 - g) * Y k) -
      (∑ k ∈ range 9, if Z k then g * X k + (1 - g) * Y k else 0) * (∑ k ∈ range 9, if Z k then 0 else g' * X k + (1 - g') * Y k) =
      (g' - g) * ((∑ k ∈ range 9, if Z k then X k else 0) * (∑ k ∈ range 9, if Z k then 0 else Y k) -
        (∑ k ∈ range 9, if Z k then Y k else 0) * ∑ k ∈ range 9, if Z k then 0 else X k) := by
    intro g g' Z _
    have i1 : ∀ g : ℝ, (∑ k ∈ range 9, if Z k then g * X k + (1 - g) * Y k else 0) =
        g * (∑ k ∈ range 9, if Z k then X k else 0) + (1 - g) * ∑ k ∈ range 9, if Z k then Y k else 0 := by
      intro g
      rw [mul_sum, mul_sum, ← sum_add_distrib]
      exact sum_congr rfl fun k _ => by split_ifs <;> simp
    have i2 : ∀ g : ℝ, (∑ k ∈ range 9, if Z k then 0 else g * X k + (1 - g) * Y k) =
        g * (∑ k ∈ range 9, if Z k then 0 else X k) + (1 - g) * ∑ k ∈ range 9, if Z k then 0 else Y k := by
      intro g
      rw [mul_sum, mul_sum, ← sum_add_distrib]
      exact sum_congr rfl fun k _ => by split_ifs <;> simp
    rw [i1, i1, i2, i2]
    ring
  rcases le_total 0 ((∑ k ∈ range 9, if neighbour q k ∈ D then X k else 0) * (∑ k ∈ range 9, if neighbour q k ∈ D then 0 else Y k) -
        (∑ k ∈ range 9, if neighbour q k ∈ D then Y k else 0) * ∑ k ∈ range 9, if neighbour q k ∈ D then 0 else X k) with hs | hs
  · left
    intro g hg g' hg' hgg
    change uniformDraws.real _ ≤ uniformDraws.real _
    rw [hlaw g hg.1 hg.2, hlaw g' hg'.1 hg'.2]
    split_ifs
    · exact le_rfl
    · exact le_rfl
    · refine share_mono (D := fun k => neighbour q k ∈ D) (sZ g hg.1 hg.2) (sZ g' hg'.1 hg'.2) ?_
      have := hcross g g' (fun k => neighbour q k ∈ D) inferInstance
      have h2 := mul_nonneg (sub_nonneg.2 hgg) hs
      linarith
  · right
    intro g hg g' hg' hgg
    change uniformDraws.real _ ≤ uniformDraws.real _
    rw [hlaw g hg.1 hg.2, hlaw g' hg'.1 hg'.2]
    split_ifs
    · exact le_rfl
    · exact le_rfl
    · refine share_mono (D := fun k => neighbour q k ∈ D) (sZ g' hg'.1 hg'.2) (sZ g hg.1 hg.2) ?_
      have := hcross g g' (fun k => neighbour q k ∈ D) inferInstance
      have h2 := mul_nonpos_of_nonneg_of_nonpos (sub_nonneg.2 hgg) hs
      linarith

theorem vectors_of {F : Fun ℝ Arith.exact} {p : Params ℝ} {P : PObj ℝ} (hi : p.ivec = none) (hj : p.jvec = none)
    (h : initParticles Arith.exact F p = .ok P) : DefaultVectors Arith.exact F P := by
  simp only [initParticles, bind_ok, pure_ok] at h
  obtain ⟨dx, -, d, -, st, -, fl, -, r, -, ct, -, rfl⟩ := h
  simp only [DefaultVectors, hi, hj]
  exact ⟨rfl, rfl⟩

/-- At a cell with a flow-derived weight the next call almost surely does not lead upstream. -/
theorem next_downstream {F : Fun ℝ Arith.exact} {R C : Nat} {P : PObj ℝ} {s : PState ℝ} {i : Nat} {q : Int × Int} (h : Standing F R C P s i q)
    (hv : DefaultVectors Arith.exact F P) (hne : ¬ NearEdge P q.1.toNat q.2.toNat) (hD : ¬ (flowOf F P).DeadEnd q.1.toNat q.2.toNat) {D : Set (Int × Int)}
    (hDn : ∀ c ∈ D, ¬ Downstream P q.1.toNat q.2.toNat c.1.toNat c.2.toNat) : uniformDraws.real {ω | FoundIn F P ω s 1 i D} = 0 := by
  have hE := h.reach.obj
  obtain ⟨a, b, rfl, g1, g2, g3, g4⟩ := h.inside.nat
  simp only [Int.toNat_natCast] at hne hD hDn
  have hin : Interior P a b := ⟨g1, by rw [hE.rows]; exact g2, g3, by rw [hE.cols]; exact g4⟩
  obtain ⟨wd, hwd, hi, hp, -⟩ := h.walk
  have : ∀ᵐ ω ∂uniformDraws, ω ∉ {ω | FoundIn F P ω s 1 i D} := by
    filter_upwards [uniformDraws_nonzero] with ω hω
    rintro ⟨c, hc, s', w, wd', hr, hw', hl⟩
    cases hr with
    | succ h0 hrun =>
      cases h0
      obtain ⟨x, y, hxy, hdn⟩ := C120_step odd_exact (h.reach.mono fun _ hP => hP.built) hE.walk hv hE.steps hω hrun hwd hw' hp hin hne
        (fun hn => hD ((deadEnd_repr hE.built.good (represents_flowOf hE.built.good) hin).1 hn))
      rw [hl] at hxy
      cases hxy
      exact hDn _ hc (by simpa using hdn)
  rw [measureReal_def, measure_eq_zero_iff_ae_notMem.2 this, ENNReal.toReal_zero]

theorem gamma_const {F : Fun ℝ Arith.exact} {R C : Nat} {O : ℝ → PObj ℝ} {S : ℝ → PState ℝ} {I : ℝ → Nat} {q : Int × Int}
    (hS : ∀ g, 0 ≤ g → g ≤ 1 → Standing F R C (O g) (S g) (I g) q) (e : ∀ g, 0 ≤ g → g ≤ 1 → (O g).cellType = (O 0).cellType)
    (hn : NearEdge (O 0) q.1.toNat q.2.toNat) (D : Set (Int × Int)) {g g' : ℝ} (hg : g ∈ Set.Icc (0 : ℝ) 1) (hg' : g' ∈ Set.Icc (0 : ℝ) 1) :
    uniformDraws.real {ω | FoundIn F (O g) ω (S g) 1 (I g) D} = uniformDraws.real {ω | FoundIn F (O g') ω (S g') 1 (I g') D} := by
  have hn' : ∀ g ∈ Set.Icc (0 : ℝ) 1, NearEdge (O g) q.1.toNat q.2.toNat := fun g hg => by
    unfold NearEdge at hn ⊢
    rw [e g hg.1 hg.2]
    exact hn
  rw [next_law (hS g hg.1 hg.2), next_law (hS g' hg'.1 hg'.2), if_pos (hn' g hg), if_pos (hn' g' hg')]

/-- C124: a higher `gamma` does not make it more probable that the next call takes the particle to a cell whose water surface is not lower. -/
theorem C124_gamma_surface {F : Fun ℝ Arith.exact} {R C : Nat} {p : Params ℝ} (hst : p.steepest ≠ some true) (hiv : p.ivec = none) (hjv : p.jvec = none)
    {O : ℝ → PObj ℝ} (hO : ∀ g, 0 ≤ g → g ≤ 1 → initParticles Arith.exact F { p with gamma := some g } = .ok (O g)) {S : ℝ → PState ℝ} {I : ℝ → Nat} {q : Int × Int}
    (hS : ∀ g, 0 ≤ g → g ≤ 1 → Standing F R C (O g) (S g) (I g) q) (h0 : ¬ (flowOf F (O 0)).DeadEnd q.1.toNat q.2.toNat)
    (h1 : ¬ (flowOf F (O 1)).DeadEnd q.1.toNat q.2.toNat) {D : Set (Int × Int)}
    (hD : ∀ c ∈ D, ¬ Below (O 1) q.1.toNat q.2.toNat c.1.toNat c.2.toNat) :
    AntitoneOn (fun g => uniformDraws.real {ω | FoundIn F (O g) ω (S g) 1 (I g) D}) (Set.Icc 0 1) := by
  rcases C124_gamma hst hO hS h0 h1 D with hm | hm
  · intro g hg g' hg' hgg
    change uniformDraws.real _ ≤ uniformDraws.real _
    have e : ∀ g, 0 ≤ g → g ≤ 1 → O g = { O 0 with gamma := g } := fun g g0 g1 =>
      Except.ok.inj ((hO g g0 g1).symm.trans (C124_gamma_accepted (hO 0 le_rfl zero_le_one) g))
    by_cases hn : NearEdge (O 0) q.1.toNat q.2.toNat
    · exact (gamma_const hS (fun g g0 g1 => by rw [e g g0 g1]) hn D hg' hg).le
    · have hz : uniformDraws.real {ω | FoundIn F (O 1) ω (S 1) 1 (I 1) D} = 0 := by
        refine next_downstream (hS 1 zero_le_one le_rfl) (vectors_of (p := { p with gamma := some 1 }) hiv hjv (hO 1 zero_le_one le_rfl))
          (by rw [e 1 zero_le_one le_rfl]; exact hn) h1 fun c hc hdn => ?_
        obtain ⟨-, -, -, -, ⟨-, hb⟩ | ⟨hlt, -⟩⟩ := hdn
        · exact hD c hc hb
        · rw [e 1 zero_le_one le_rfl] at hlt
          exact lt_irrefl _ hlt
      have := hm hg' (Set.right_mem_Icc.2 zero_le_one) hg'.2
      change uniformDraws.real _ ≤ uniformDraws.real _ at this
      rw [hz] at this
      exact this.trans measureReal_nonneg
  · exact hm

/-- C124: a higher `gamma` does not make it less probable that the next call takes the particle to a cell that does not lie along the discharge. -/
theorem C124_gamma_discharge {F : Fun ℝ Arith.exact} {R C : Nat} {p : Params ℝ} (hst : p.steepest ≠ some true) (hiv : p.ivec = none) (hjv : p.jvec = none)
    {O : ℝ → PObj ℝ} (hO : ∀ g, 0 ≤ g → g ≤ 1 → initParticles Arith.exact F { p with gamma := some g } = .ok (O g)) {S : ℝ → PState ℝ} {I : ℝ → Nat} {q : Int × Int}
    (hS : ∀ g, 0 ≤ g → g ≤ 1 → Standing F R C (O g) (S g) (I g) q) (h0 : ¬ (flowOf F (O 0)).DeadEnd q.1.toNat q.2.toNat)
    (h1 : ¬ (flowOf F (O 1)).DeadEnd q.1.toNat q.2.toNat) {D : Set (Int × Int)}
    (hD : ∀ c ∈ D, ¬ WithFlow (O 0) q.1.toNat q.2.toNat c.1.toNat c.2.toNat) :
    MonotoneOn (fun g => uniformDraws.real {ω | FoundIn F (O g) ω (S g) 1 (I g) D}) (Set.Icc 0 1) := by
  rcases C124_gamma hst hO hS h0 h1 D with hm | hm
  · exact hm
  · intro g hg g' hg' hgg
    change uniformDraws.real _ ≤ uniformDraws.real _
    have e : ∀ g, 0 ≤ g → g ≤ 1 → O g = { O 0 with gamma := g } := fun g g0 g1 =>
      Except.ok.inj ((hO g g0 g1).symm.trans (C124_gamma_accepted (hO 0 le_rfl zero_le_one) g))
    by_cases hn : NearEdge (O 0) q.1.toNat q.2.toNat
    · exact (gamma_const hS (fun g g0 g1 => by rw [e g g0 g1]) hn D hg hg').le
    · have hz : uniformDraws.real {ω | FoundIn F (O 0) ω (S 0) 1 (I 0) D} = 0 := by
        refine next_downstream (hS 0 le_rfl zero_le_one) (vectors_of (p := { p with gamma := some 0 }) hiv hjv (hO 0 le_rfl zero_le_one)) hn h0
          fun c hc hdn => ?_
        obtain ⟨-, -, -, -, ⟨hlt, -⟩ | ⟨-, hb⟩⟩ := hdn
        · have e0 : (O 0).gamma = 0 := (congrArg PObj.gamma (e 0 le_rfl zero_le_one)).trans rfl
          rw [e0] at hlt
          exact lt_irrefl _ hlt
        · exact hD c hc hb
      have := hm (Set.left_mem_Icc.2 zero_le_one) hg hg.1
      change uniformDraws.real _ ≤ uniformDraws.real _ at this
      rw [hz] at this
      exact this.trans measureReal_nonneg

/-! ## Concrete cases -/

/-- The 5 by 5 channel with flow to the south; column 3 has its own depth `d` and water surface `h`. -/
noncomputable def bankPar (d h t g : ℝ) : Params ℝ := { realChan with
  depth := some ⟨5, 5, fun _ j => .fin (if j = 3 then d else 1)⟩, stage := some ⟨5, 5, fun _ j => .fin (if j = 3 then h else 1)⟩,
  theta := some t, gamma := some g }

noncomputable def bankObj (d h t g : ℝ) : PObj ℝ := (initParticles Arith.exact Fun.real (bankPar d h t g)).toOption.get rfl

theorem bankObj_init (d h t g : ℝ) : initParticles Arith.exact Fun.real (bankPar d h t g) = .ok (bankObj d h t g) := rfl

theorem bankObj_standing {d h t g : ℝ} (g0 : 0 ≤ g) (g1 : g ≤ 1) : ∃ s, Standing Fun.real 5 5 (bankObj d h t g) s 0 (2, 2) := by
  have hv : ValidParams (bankPar d h t g) := { realChan_valid with
    depth := by intro x hx; cases hx; exact fun _ _ _ _ => Or.inr ⟨_, rfl⟩
    stage := by intro x hx; cases hx; exact fun _ _ _ _ => Or.inr ⟨_, rfl⟩
    gamma := by intro x hx; cases hx; exact ⟨g0, g1⟩ }
  have hb : Built Arith.exact Fun.real (bankObj d h t g) := ⟨bankPar d h t g, hv, bankObj_init d h t g⟩
  have hs : StepsNonzero Arith.exact (bankObj d h t g) := by
    intro k hk h0
    obtain ⟨e, he, he0⟩ := hb.good.dist_pos k hk
    rw [he] at h0
    injection h0 with h0
    exact (mul_pos he0 (show (0 : ℝ) < (bankObj d h t g).dx by change (0 : ℝ) < 10; norm_num)).ne' h0
  have hE : Enclosed Arith.exact Fun.real 5 5 (bankObj d h t g) := by
    obtain ⟨h1, h2, h3⟩ := C17_default_ring (p := bankPar d h t g) rfl rfl rfl rfl (bankObj_init d h t g)
    exact ⟨hb, rfl, rfl, h1, h2, hs, h3⟩
  obtain ⟨s0, h0, wd, hwd, hlen, hl0, ht0⟩ : ∃ s0, generateParticles Arith.exact (bankObj d h t g) (fun _ => 1 / 2)
      (initState Arith.exact Fun.real (bankObj d h t g) 0) (.int 1) (.list [.int 2]) (.list [.int 2]) (.int 0) (.str "exact") none = .ok s0 ∧
      ∃ wd, s0.walk = some wd ∧ wd.xinds.length = 1 ∧ wd.lastPos 0 = some (2, 2) ∧ wd.lastTime 0 = some (.fin ((0 : Int) : ℝ)) :=
    ⟨_, rfl, _, rfl, rfl, rfl, rfl⟩
  have hc : genInputCheck (K := ℝ) (.int 1) (.list [.int 2]) (.list [.int 2]) (.int 0) (.str "exact") =
    .ok (1, [2], [2], .fin ((0 : Int) : ℝ), .exact) := rfl
  refine ⟨s0, .generate (.new 0 hE) (fun _ => by norm_num) hc (by norm_num)
      (by intro x hx y hy; simp at hx hy; subst hx hy; unfold Inside; decide) h0, ?_, wd, hwd, by omega, hl0, ?_⟩
  · intro k hk _
    interval_cases k <;> exact ⟨_, rfl⟩
  · intro j hj
    obtain rfl : j = 0 := by omega
    exact ⟨_, ht0⟩

theorem bankObj_far {d h t g : ℝ} : ¬ NearEdge (bankObj d h t g) 2 2 := by
  intro he
  obtain ⟨i, j, hi, hj, h1, h2, h3⟩ := he
  have : (bankObj d h t g).cellType.at' i j = if interiorB 5 5 i j then (if Fl.lt (.fin (if j = 3 then d else 1)) (.fin (1 / 10)) then 2 else 0) else -1 := rfl
  rw [this, if_pos (by unfold interiorB; simp; omega)] at h3
  split_ifs at h3

theorem bankObj_cell {d h t g : ℝ} (hd : 1 / 10 < d) (i j : Nat) :
    (flowOf Fun.real (bankObj d h t g)).depth i j = (if j = 3 then d else 1) ∧
    (flowOf Fun.real (bankObj d h t g)).stage i j = some (if j = 3 then h else 1) ∧ (flowOf Fun.real (bankObj d h t g)).a i j = 2 ∧
    (flowOf Fun.real (bankObj d h t g)).b i j = 0 ∧ ¬ (flowOf Fun.real (bankObj d h t g)).land i j := by
  have h0 : (1 / 10 : ℝ) < if j = 3 then d else 1 := by split_ifs; exact hd; norm_num
  refine ⟨rfl, ?_, rfl, rfl, ?_⟩
  · change ((if Fl.eq (.fin (if j = 3 then d else 1)) (.fin 0) then Fl.nan else .fin (if j = 3 then h else 1)) : Fl ℝ).num? = _
    rw [if_neg (by
      simp only [Fl.eq, decide_eq_true_eq]
      intro hc
      rw [hc] at h0
      norm_num at h0)]
    rfl
  · change ¬ ((if interiorB 5 5 i j then (if Fl.lt (.fin (if j = 3 then d else 1)) (.fin (1 / 10)) then 2 else 0) else -1) : Int) = 2
    have : Fl.lt (.fin (if j = 3 then d else 1)) (.fin (1 / 10 : ℝ)) = false := by
      simp only [Fl.lt, decide_eq_false_iff_not, not_lt]
      exact h0.le
    rw [this]
    split_ifs <;> simp_all

theorem bankObj_pass {d h t g : ℝ} (hd : 1 / 10 < d) (k : Nat) : (flowOf Fun.real (bankObj d h t g)).Passable 2 2 k := by
  obtain ⟨d1, -, -, -, d5⟩ := bankObj_cell (h := h) (t := t) (g := g) hd (Flow.nr 2 k) (Flow.nc 2 k)
  refine ⟨?_, d5⟩
  rw [d1]
  change (1 / 10 : ℝ) < _
  split_ifs
  · exact hd
  · norm_num

theorem bankObj_inertia {d h t g : ℝ} (hd : 1 / 10 < d) {k : Nat} (hk : k < 9) :
    (flowOf Fun.real (bankObj d h t g)).inertia 2 2 k = if k = 7 then 2 else if k = 6 ∨ k = 8 then 1 else 0 := by
  obtain ⟨-, -, c3, c4, -⟩ := bankObj_cell (h := h) (t := t) (g := g) hd 2 2
  have hr : Real.sqrt (1 / 2) / Real.sqrt 2 = 1 / 2 := by
    rw [← Real.sqrt_div (by norm_num), show (1 / 2 / 2 : ℝ) = (1 / 2) ^ 2 by norm_num]
    exact Real.sqrt_sq (by norm_num)
  have hpos2 : (0 : ℝ) < Real.sqrt 2 := by positivity
  have hpos3 : (0 : ℝ) < Real.sqrt (1 / 2) := by positivity
  unfold Flow.inertia
  rw [if_pos (bankObj_pass hd k), c3, c4]
  change max 0 (((2 : ℝ) * (defaultJvec Arith.exact Fun.real k).num + 0 * _) / (defaultDistances Arith.exact Fun.real k).num) = _
  rw [zero_mul, add_zero]
  have neg : max 0 (2 * (-Real.sqrt (1 / 2)) / Real.sqrt 2) = 0 := by
    rw [max_eq_left]
    rw [mul_neg, neg_div]
    have : 0 < 2 * Real.sqrt (1 / 2) / Real.sqrt 2 := by positivity
    linarith
  have pos : max 0 (2 * (Real.sqrt (1 / 2)) / Real.sqrt 2) = 1 := by
    rw [mul_div_assoc, hr]
    norm_num
  interval_cases k
  · exact neg
  · change max (0 : ℝ) (2 * -1 / 1) = 0; norm_num
  · exact neg
  · change max (0 : ℝ) (2 * 0 / 1) = 0; norm_num
  · change max (0 : ℝ) (2 * 0 / 1) = 0; norm_num
  · change max (0 : ℝ) (2 * 0 / 1) = 0; norm_num
  · exact pos
  · change max (0 : ℝ) (2 * 1 / 1) = 2; norm_num
  · exact pos

theorem bankObj_flow {d h t g : ℝ} (hd : 1 / 10 < d) {k : Nat} (hk : k < 9) :
    (flowOf Fun.real (bankObj d h t g)).flow 2 2 k = (if Flow.nc 2 k = 3 then d else 1) ^ t *
      (g * Flow.share ((flowOf Fun.real (bankObj d h t g)).slope 2 2) k + (1 - g) * ((if k = 7 then 2 else if k = 6 ∨ k = 8 then 1 else 0) / 4)) := by
  have hsum : ∑ m ∈ range 9, (flowOf Fun.real (bankObj d h t g)).inertia 2 2 m = 4 := by
    rw [sum_congr rfl fun m hm => bankObj_inertia hd (mem_range.1 hm)]
    norm_num [sum_range_succ]
  have e : Flow.share ((flowOf Fun.real (bankObj d h t g)).inertia 2 2) k = (if k = 7 then 2 else if k = 6 ∨ k = 8 then 1 else 0) / 4 := by
    unfold Flow.share
    rw [hsum, bankObj_inertia hd hk]
  unfold Flow.flow
  rw [if_pos ⟨bankObj_pass hd k, by rw [(bankObj_cell hd _ _).2.1]; rfl, by rw [(bankObj_cell hd _ _).2.1]; rfl⟩, (bankObj_cell hd _ _).1, e,
    pw_rpow _ (by split_ifs <;> linarith)]
  rfl

open Classical in
/-- The next position of a particle at the centre, if the weights add up to something positive. -/
theorem bankObj_next {d h t g : ℝ} (g0 : 0 ≤ g) (g1 : g ≤ 1) {s : PState ℝ} (hs : Standing Fun.real 5 5 (bankObj d h t g) s 0 (2, 2))
    (hD : ¬ (flowOf Fun.real (bankObj d h t g)).DeadEnd 2 2) (D : Set (Int × Int)) :
    uniformDraws.real {ω | FoundIn Fun.real (bankObj d h t g) ω s 1 0 D} = ∑ k ∈ range 9, if neighbour (2, 2) k ∈ D then
      (flowOf Fun.real (bankObj d h t g)).flow 2 2 k / ∑ m ∈ range 9, (flowOf Fun.real (bankObj d h t g)).flow 2 2 m else 0 := by
  have hst : (bankObj d h t g).steepest = false := rfl
  have hp := candidates_pos (F := Fun.real) (P := bankObj d h t g) (a := 2) (b := 2) (by change (0 : ℝ) ≤ 1 / 10; norm_num) g0 g1 hD (.inl hst)
  have hc : ∀ k, (flowOf Fun.real (bankObj d h t g)).candidate (bankObj d h t g).steepest 2 2 k = (flowOf Fun.real (bankObj d h t g)).flow 2 2 k := fun k =>
    (if_neg fun hx => Bool.false_ne_true hx.1).trans (if_neg hD)
  have hch := choose_share (F := Fun.real) (P := bankObj d h t g) (by change (0 : ℝ) ≤ 1 / 10; norm_num) g0 g1 hp
  simp only [hc] at hch
  rw [next_law hs]
  refine (if_neg bankObj_far).trans (sum_congr rfl fun k _ => if_congr Iff.rfl (hch k) rfl)

/-- The cells of column 3. -/
theorem bank_col {k : Nat} (hk : k < 9) : (neighbour (2, 2) k).2 = 3 ↔ (k = 2 ∨ k = 5 ∨ k = 8) := by
  interval_cases k <;> decide

/-- C124: column 3 is twice as deep. Half of the discharge-driven choices lead straight on, a quarter to the deep column; with `theta = 1` this quarter grows to two
fifths, and the probability of being in the deep column grows with `theta` throughout. -/
example : ∃ S : ℝ → PState ℝ, (∀ t, Standing Fun.real 5 5 (bankObj 2 1 t (1 / 20)) (S t) 0 (2, 2)) ∧
    (StrictMono fun t => uniformDraws.real {ω | FoundIn Fun.real (bankObj 2 1 t (1 / 20)) ω (S t) 1 0 (AtLeast ⟨5, 5, fun _ j => .fin (if j = 3 then 2 else 1)⟩ 2)}) ∧
    (Monotone fun t => uniformDraws.real {ω | FoundIn Fun.real (bankObj 2 1 t (1 / 20)) ω (S t) 1 0
      (AtLeast ⟨5, 5, fun _ j => .fin (if j = 3 then 2 else 1)⟩ (3 / 2))}) ∧
    uniformDraws.real {ω | FoundIn Fun.real (bankObj 2 1 0 (1 / 20)) ω (S 0) 1 0 (AtLeast ⟨5, 5, fun _ j => .fin (if j = 3 then 2 else 1)⟩ 2)} = 1 / 4 ∧
    uniformDraws.real {ω | FoundIn Fun.real (bankObj 2 1 1 (1 / 20)) ω (S 1) 1 0 (AtLeast ⟨5, 5, fun _ j => .fin (if j = 3 then 2 else 1)⟩ 2)} = 2 / 5 := by
  classical
  choose S hS using fun t => bankObj_standing (d := 2) (h := 1) (t := t) (g := 1 / 20) (by norm_num) (by norm_num)
  have hsl : ∀ t k, (flowOf Fun.real (bankObj 2 1 t (1 / 20))).slope 2 2 k = 0 := by
    intro t k
    unfold Flow.slope
    rw [if_pos (bankObj_pass (by norm_num) k), (bankObj_cell (by norm_num) _ _).2.1, (bankObj_cell (by norm_num) _ _).2.1]
    simp [Flow.drop]
  have hfl : ∀ t k, k < 9 → (flowOf Fun.real (bankObj 2 1 t (1 / 20))).flow 2 2 k = (if Flow.nc 2 k = 3 then 2 else 1) ^ t *
      (19 / 20 * ((if k = 7 then 2 else if k = 6 ∨ k = 8 then 1 else 0) / 4)) := by
    intro t k hk
    rw [bankObj_flow (by norm_num) hk]
    unfold Flow.share
    rw [hsl]
    norm_num
  have hD : ∀ t, ¬ (flowOf Fun.real (bankObj 2 1 t (1 / 20))).DeadEnd 2 2 := by
    intro t hc
    have := hc 7 (by norm_num)
    rw [hfl t 7 (by norm_num), show Flow.nc 2 7 = 2 from rfl] at this
    norm_num at this
  have hm : ∀ k, k < 9 → (neighbour (2, 2) k ∈ AtLeast (⟨5, 5, fun _ j => .fin (if j = 3 then 2 else 1)⟩ : Grid (Fl ℝ)) 2 ↔ (k = 2 ∨ k = 5 ∨ k = 8)) := by
    intro k hk
    constructor
    · rintro ⟨x, hx, h2⟩
      change Fl.fin (if (neighbour (2, 2) k).2.toNat = 3 then (2 : ℝ) else 1) = Fl.fin x at hx
      injection hx with hx
      split_ifs at hx with h3
      · exact (bank_col hk).1 (by omega)
      · rw [← hx] at h2
        norm_num at h2
    · intro h
      have h3 := (bank_col hk).2 h
      refine ⟨2, ?_, le_rfl⟩
      change Fl.fin (if (neighbour (2, 2) k).2.toNat = 3 then (2 : ℝ) else 1) = Fl.fin 2
      rw [if_pos (by omega)]
  have hval : ∀ t, uniformDraws.real {ω | FoundIn Fun.real (bankObj 2 1 t (1 / 20)) ω (S t) 1 0 (AtLeast ⟨5, 5, fun _ j => .fin (if j = 3 then 2 else 1)⟩ 2)} =
      (2 ^ t * (19 / 80)) / (19 / 80 + 19 / 40 + 2 ^ t * (19 / 80)) := by
    intro t
    rw [bankObj_next (by norm_num) (by norm_num) (hS t) (hD t)]
    have hsum : ∑ m ∈ range 9, (flowOf Fun.real (bankObj 2 1 t (1 / 20))).flow 2 2 m = 19 / 80 + 19 / 40 + 2 ^ t * (19 / 80) := by
      rw [sum_congr rfl fun m hm => hfl t m (mem_range.1 hm)]
      norm_num [sum_range_succ, Flow.nc]
    rw [hsum, sum_congr rfl fun k hk => if_congr (hm k (mem_range.1 hk)) (by rw [hfl t k (mem_range.1 hk)]) rfl]
    norm_num [sum_range_succ, Flow.nc]
  refine ⟨S, hS, ?_, C124_theta (p := bankPar 2 1 0 (1 / 20)) (fun t => bankObj_init 2 1 t (1 / 20)) (fun h => by cases h) hS (fun _ => rfl) (3 / 2), ?_, ?_⟩
  · refine C124_theta_strict (t₀ := 0) (p := bankPar 2 1 0 (1 / 20)) (fun t => bankObj_init 2 1 t (1 / 20)) (by simp [bankPar, realChan]) hS (fun _ => rfl) ?_ ?_
    · refine lt_of_lt_of_eq ?_ (hval 0).symm
      rw [Real.rpow_zero]
      norm_num
    · refine lt_of_eq_of_lt (hval 0) ?_
      rw [Real.rpow_zero]
      norm_num
  · rw [hval, Real.rpow_zero]
    norm_num
  · rw [hval, Real.rpow_one]
    norm_num

/-- C124: the discharge leads south, the water surface falls to the east. With `gamma = 0` a quarter of the choices lead to the column in the east, with `gamma = 1`
all of them, and in between the probability grows; the cell straight on gets less probable, the cell straight to the east more probable. -/
example : ∃ S : ℝ → PState ℝ, (∀ g, 0 ≤ g → g ≤ 1 → Standing Fun.real 5 5 (bankObj 1 (1 / 2) 1 g) (S g) 0 (2, 2)) ∧
    MonotoneOn (fun g => uniformDraws.real {ω | FoundIn Fun.real (bankObj 1 (1 / 2) 1 g) ω (S g) 1 0 {c | c.2 = 3}}) (Set.Icc 0 1) ∧
    uniformDraws.real {ω | FoundIn Fun.real (bankObj 1 (1 / 2) 1 0) ω (S 0) 1 0 {c | c.2 = 3}} = 1 / 4 ∧
    uniformDraws.real {ω | FoundIn Fun.real (bankObj 1 (1 / 2) 1 1) ω (S 1) 1 0 {c | c.2 = 3}} = 1 ∧
    AntitoneOn (fun g => uniformDraws.real {ω | FoundIn Fun.real (bankObj 1 (1 / 2) 1 g) ω (S g) 1 0 {(3, 2)}}) (Set.Icc 0 1) ∧
    MonotoneOn (fun g => uniformDraws.real {ω | FoundIn Fun.real (bankObj 1 (1 / 2) 1 g) ω (S g) 1 0 {(2, 3)}}) (Set.Icc 0 1) := by
  classical
  have ex : ∀ g : ℝ, ∃ s, 0 ≤ g → g ≤ 1 → Standing Fun.real 5 5 (bankObj 1 (1 / 2) 1 g) s 0 (2, 2) := by
    intro g
    by_cases hg : 0 ≤ g ∧ g ≤ 1
    · obtain ⟨s, hs⟩ := bankObj_standing (d := 1) (h := 1 / 2) (t := 1) hg.1 hg.2
      exact ⟨s, fun _ _ => hs⟩
    · exact ⟨initState Arith.exact Fun.real realObj 0, fun h0 h1 => absurd ⟨h0, h1⟩ hg⟩
  choose S hS using ex
  have hsl0 : ∀ g k, k < 9 → ¬ (k = 2 ∨ k = 5 ∨ k = 8) → (flowOf Fun.real (bankObj 1 (1 / 2) 1 g)).slope 2 2 k = 0 := by
    intro g k hk hn
    unfold Flow.slope
    rw [if_pos (bankObj_pass (by norm_num) k), (bankObj_cell (by norm_num) _ _).2.1, (bankObj_cell (by norm_num) _ _).2.1, if_neg (by norm_num),
      if_neg (by unfold Flow.nc; omega)]
    simp [Flow.drop]
  have hsl5 : ∀ g, 0 < (flowOf Fun.real (bankObj 1 (1 / 2) 1 g)).slope 2 2 5 := by
    intro g
    unfold Flow.slope
    rw [if_pos (bankObj_pass (by norm_num) 5), (bankObj_cell (by norm_num) _ _).2.1, (bankObj_cell (by norm_num) _ _).2.1, if_neg (by norm_num),
      if_pos (by rfl)]
    change 0 < max 0 (((1 : ℝ) - 1 / 2) / 1)
    norm_num
  have hfl : ∀ g k, k < 9 → (flowOf Fun.real (bankObj 1 (1 / 2) 1 g)).flow 2 2 k =
      g * Flow.share ((flowOf Fun.real (bankObj 1 (1 / 2) 1 g)).slope 2 2) k + (1 - g) * ((if k = 7 then 2 else if k = 6 ∨ k = 8 then 1 else 0) / 4) := by
    intro g k hk
    rw [bankObj_flow (by norm_num) hk]
    simp
  have hspos : ∀ g, 0 < ∑ m ∈ range 9, (flowOf Fun.real (bankObj 1 (1 / 2) 1 g)).slope 2 2 m := fun g =>
    sum_pos' (fun k _ => Flow.slope_nonneg _ _ _ k) ⟨5, by simp, hsl5 g⟩
  have hD0 : ¬ (flowOf Fun.real (bankObj 1 (1 / 2) 1 0)).DeadEnd 2 2 := by
    intro hc
    have := hc 7 (by norm_num)
    rw [hfl 0 7 (by norm_num)] at this
    norm_num at this
  have hD1 : ¬ (flowOf Fun.real (bankObj 1 (1 / 2) 1 1)).DeadEnd 2 2 := by
    intro hc
    have := hc 5 (by norm_num)
    rw [hfl 1 5 (by norm_num)] at this
    unfold Flow.share at this
    have hp := div_pos (hsl5 1) (hspos 1)
    rw [sub_self, zero_mul, add_zero, one_mul] at this
    exact hp.ne' this
  have v0 : uniformDraws.real {ω | FoundIn Fun.real (bankObj 1 (1 / 2) 1 0) ω (S 0) 1 0 {c | c.2 = 3}} = 1 / 4 := by
    rw [bankObj_next (by norm_num) (by norm_num) (hS 0 le_rfl zero_le_one) hD0]
    have hsum : ∑ m ∈ range 9, (flowOf Fun.real (bankObj 1 (1 / 2) 1 0)).flow 2 2 m = 1 := by
      rw [sum_congr rfl fun m hm => hfl 0 m (mem_range.1 hm)]
      norm_num [sum_range_succ]
    rw [hsum]
    rw [sum_congr rfl fun k hk => show _ = if k = 8 then (1 / 4 : ℝ) else 0 from by
      have hk := mem_range.1 hk
      rw [hfl 0 k hk]
      split_ifs with h1 h2 h3 h4 h5 <;> first | omega | (norm_num; done) | skip
      all_goals first
        | (exact absurd ((bank_col hk).1 h1) (by omega))
        | (exact absurd ((bank_col hk).2 (by omega)) h1)]
    norm_num [sum_range_succ]
  have v1 : uniformDraws.real {ω | FoundIn Fun.real (bankObj 1 (1 / 2) 1 1) ω (S 1) 1 0 {c | c.2 = 3}} = 1 := by
    rw [bankObj_next (by norm_num) (by norm_num) (hS 1 zero_le_one le_rfl) hD1]
    have hz : ∀ k, k < 9 → ¬ (k = 2 ∨ k = 5 ∨ k = 8) → (flowOf Fun.real (bankObj 1 (1 / 2) 1 1)).flow 2 2 k = 0 := by
      intro k hk hn
      rw [hfl 1 k hk]
      unfold Flow.share
      rw [hsl0 1 k hk hn]
      simp
    have hpos : 0 < ∑ m ∈ range 9, (flowOf Fun.real (bankObj 1 (1 / 2) 1 1)).flow 2 2 m := by
      refine lt_of_le_of_ne (sum_nonneg fun k _ => flow_nonneg (by change (0 : ℝ) ≤ 1 / 10; norm_num) zero_le_one le_rfl 2 2 k) fun h0 => hD1 fun k hk => ?_
      exact (sum_eq_zero_iff_of_nonneg fun k _ => flow_nonneg (by change (0 : ℝ) ≤ 1 / 10; norm_num) zero_le_one le_rfl 2 2 k).1 h0.symm k (mem_range.2 hk)
    rw [sum_congr rfl fun k hk => show _ = (flowOf Fun.real (bankObj 1 (1 / 2) 1 1)).flow 2 2 k / ∑ m ∈ range 9, (flowOf Fun.real (bankObj 1 (1 / 2) 1 1)).flow 2 2 m from by
      split_ifs with hc
      · rfl
      · rw [hz k (mem_range.1 hk) fun h => hc ((bank_col (mem_range.1 hk)).2 h), zero_div], ← sum_div, div_self hpos.ne']
  refine ⟨S, hS, ?_, v0, v1, ?_, ?_⟩
  rotate_left
  · refine C124_gamma_surface (p := bankPar 1 (1 / 2) 1 0) (by simp [bankPar, realChan]) rfl rfl (fun g _ _ => bankObj_init 1 (1 / 2) 1 g) hS hD0 hD1 ?_
    rintro c rfl ⟨e, e', he, he', hlt⟩
    have c1 := (bankObj_cell (d := 1) (h := 1 / 2) (t := 1) (g := 1) (by norm_num) 2 2).2.1
    have c2 := (bankObj_cell (d := 1) (h := 1 / 2) (t := 1) (g := 1) (by norm_num) 3 2).2.1
    change ((bankObj 1 (1 / 2) 1 1).stage.at' 2 2).num? = _ at c1
    change ((bankObj 1 (1 / 2) 1 1).stage.at' 3 2).num? = _ at c2
    change (bankObj 1 (1 / 2) 1 1).stage.at' 2 2 = _ at he
    change (bankObj 1 (1 / 2) 1 1).stage.at' 3 2 = _ at he'
    rw [he] at c1
    rw [he'] at c2
    simp only [Fl.num?, Option.some.injEq] at c1 c2
    rw [c1, c2] at hlt
    norm_num at hlt
  · refine C124_gamma_discharge (p := bankPar 1 (1 / 2) 1 0) (by simp [bankPar, realChan]) rfl rfl (fun g _ _ => bankObj_init 1 (1 / 2) 1 g) hS hD0 hD1 ?_
    rintro c rfl ⟨x, y, hx, hy, hlt⟩
    obtain ⟨-, -, c3, c4, -⟩ := bankObj_cell (d := 1) (h := 1 / 2) (t := 1) (g := 0) (by norm_num) 2 2
    change ((bankObj 1 (1 / 2) 1 0).qx.at' 2 2).num = _ at c3
    change ((bankObj 1 (1 / 2) 1 0).qy.at' 2 2).num = _ at c4
    change (bankObj 1 (1 / 2) 1 0).qx.at' 2 2 = _ at hx
    change (bankObj 1 (1 / 2) 1 0).qy.at' 2 2 = _ at hy
    rw [hx] at c3
    rw [hy] at c4
    simp only [Fl.num] at c3 c4
    rw [c3, c4] at hlt
    norm_num at hlt
  rcases C124_gamma (p := bankPar 1 (1 / 2) 1 0) (by simp [bankPar, realChan]) (fun g _ _ => bankObj_init 1 (1 / 2) 1 g) hS hD0 hD1 {c | c.2 = 3} with h | h
  · exact h
  · have := h (Set.left_mem_Icc.2 zero_le_one) (Set.right_mem_Icc.2 zero_le_one) zero_le_one
    change uniformDraws.real _ ≤ uniformDraws.real _ at this
    rw [v0, v1] at this
    norm_num at this

end Dorado
