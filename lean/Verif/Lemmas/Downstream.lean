import Verif.Lemmas.Moves
import Verif.Lemmas.Exact
import Verif.Spec.Downstream

/-! A neighbour with a positive flow-derived weight lies downstream, for any odd rounding. -/

set_option linter.unusedSectionVars false

namespace Dorado

variable {K : Type} [Field K] [LinearOrder K] [IsStrictOrderedRing K] [FloorRing K] {A : Arith K} {F : Fun K A} {P : PObj K}

theorem pos_of_rnd {x : K} (h : 0 < A.rnd x) : 0 < x := by
  by_contra hc
  have := A.mono _ _ (not_lt.1 hc)
  rw [A.zero] at this
  exact absurd h (not_lt.2 this)

theorem DefaultVectors.self (hv : DefaultVectors A F P) : SelfZero P := by
  unfold SelfZero
  rw [hv.1, hv.2]
  exact ⟨rfl, rfl⟩

/-- A normalised value is a positive number only if the value itself is, and a number only if the value itself is. -/
theorem normalise_fin {w : Arr3 K} {i j k : Nat} (hn : ∀ k, k < 9 → NN A (w i j k)) (hk : k < 9) {x : K} (h : normalise A w i j k = .fin x) :
    ∃ y, w i j k = .fin y ∧ (0 < x → 0 < y) := by
  obtain ⟨v, hv, hv0, hvr⟩ := NN_vec A hn
  obtain ⟨S, hS, hS0, -, -⟩ := nansum9_NN hv hv0 hvr
  unfold normalise at h
  simp only [hS] at h
  by_cases hp : 0 < S
  · simp only [Fl.lt, hp, decide_true, if_true] at h
    rcases hn k hk with hn' | ⟨y, hy, hy0, -⟩
    · rw [hn'] at h; cases h
    · refine ⟨y, hy, fun hx => ?_⟩
      rw [hy] at h
      simp only [Arith.div, hp.ne', if_false, Fl.fin.injEq] at h
      rw [← h] at hx
      have := pos_of_rnd hx
      rcases hy0.lt_or_eq with h1 | h1
      · exact h1
      · rw [← h1, zero_div] at this
        exact absurd this (lt_irrefl _)
  · simp only [Fl.lt, hp, decide_false, Bool.false_eq_true, if_false] at h
    exact ⟨x, h, id⟩

theorem clip_pos {a : Fl K} {d x : K} (hd : 0 < d) (h : (if Fl.le (A.div a (.fin d)) (.fin 0) then .fin 0 else A.div a (.fin d)) = .fin x)
    (ha : a = .nan ∨ ∃ y, a = .fin y) : ∃ y, a = .fin y ∧ (0 < x → 0 < y) := by
  rcases ha with rfl | ⟨y, rfl⟩
  · cases h
  · refine ⟨y, rfl, fun hx => ?_⟩
    simp only [Arith.div, hd.ne', if_false, Fl.le] at h
    by_cases hc : A.rnd (y / d) ≤ 0
    · simp only [hc, decide_true, if_true, Fl.fin.injEq] at h
      rw [← h] at hx
      exact absurd hx (lt_irrefl _)
    · have := pos_of_rnd (not_le.1 hc)
      exact (div_pos_iff_of_pos_right hd).1 this

/-- The slope component as a number: both surfaces are known; if it is positive, the neighbour's surface is lower. -/
theorem weightSfc0_fin (G : Good P) {a b : Nat} (h : Interior P a b) {k : Nat} (hk : k < 9) {x : K} (hx : weightSfc0 A P a b k = .fin x) :
    (∃ e, P.stage.at' a b = .fin e) ∧ (∃ e, P.stage.at' (Flow.nr a k) (Flow.nc b k) = .fin e) ∧ (0 < x → Below P a b (Flow.nr a k) (Flow.nc b k)) := by
  unfold weightSfc0 at hx
  simp only [G.stage_rows, G.stage_cols] at hx
  rw [clearBorders_interior h] at hx
  unfold clipPos tileDomain tileLocal bigSlidingWindow at hx
  beta_reduce at hx
  rw [G.stage_rows, G.stage_cols, if_pos (interiorB_true h)] at hx
  obtain ⟨d, hd, hd0⟩ := G.dist_pos k hk
  rw [hd] at hx
  change _ ∧ (∃ e, P.stage.at' (winRow a k) (winCol b k) = .fin e) ∧ (0 < x → Below P a b (winRow a k) (winCol b k))
  rcases G.stage_fin a b (by have := h.2.1; omega) (by have := h.2.2.2; omega) with h1 | ⟨e, h1⟩
  · rw [h1] at hx; cases hx
  rcases G.stage_fin _ _ (win_lt h hk).1 (win_lt h hk).2 with h2 | ⟨e', h2⟩
  · rw [h1, h2] at hx; cases hx
  refine ⟨⟨e, h1⟩, ⟨e', h2⟩, fun h0 => ⟨e, e', h1, h2, ?_⟩⟩
  rw [h1, h2] at hx
  obtain ⟨y, hy, hy0⟩ := clip_pos hd0 hx (Or.inr ⟨_, rfl⟩)
  simp only [Arith.sub, Fl.neg, Arith.add, Fl.fin.injEq] at hy
  have := pos_of_rnd (hy ▸ hy0 h0)
  linarith

theorem adjacent_win {a b k : Nat} (ha : 1 ≤ a) (hb : 1 ≤ b) (hk : k < 9) (h4 : k ≠ 4) : Adjacent a b (Flow.nr a k) (Flow.nc b k) := by
  unfold Adjacent Flow.nr Flow.nc
  refine ⟨fun h => ?_, by omega, by omega⟩
  simp only [Prod.mk.injEq] at h
  omega

/-- A rounded sum of two rounded multiples is positive only if the exact sum is. -/
theorem odd_sum (ho : OddRounding A) {x y s : K} (hs : 0 < s) (h : 0 < A.rnd (x * s) + A.rnd (y * s)) : 0 < x + y := by
  by_contra hc
  have h1 : x * s ≤ -(y * s) := by nlinarith [not_lt.1 hc]
  have h2 := A.mono _ _ h1
  rw [ho] at h2
  linarith

/-- The discharge component: positive only towards neighbours along the discharge. -/
theorem weightInt0_with (ho : OddRounding A) (hv : DefaultVectors A F P) (G : Good P) {a b : Nat} (h : Interior P a b) {k : Nat} (hk : k < 9)
    {x : K} (hx : weightInt0 A P a b k = .fin x) (h0 : 0 < x) : WithFlow P a b (Flow.nr a k) (Flow.nc b k) := by
  unfold weightInt0 at hx
  simp only [G.stage_rows, G.stage_cols] at hx
  rw [clearBorders_interior h] at hx
  unfold clipPos tileDomain tileLocal at hx
  beta_reduce at hx
  obtain ⟨d, hd, hd0⟩ := G.dist_pos k hk
  obtain ⟨u, hu⟩ := G.qx_fin a b (by have := h.2.1; omega) (by have := h.2.2.2; omega)
  obtain ⟨v, hv'⟩ := G.qy_fin a b (by have := h.2.1; omega) (by have := h.2.2.2; omega)
  have ha := h.1
  have hb := h.2.2.1
  refine ⟨u, v, hu, hv', ?_⟩
  obtain ⟨a, rfl⟩ : ∃ m, a = m + 1 := ⟨a - 1, by omega⟩
  obtain ⟨b, rfl⟩ : ∃ m, b = m + 1 := ⟨b - 1, by omega⟩
  rw [hd, hu, hv', hv.1, hv.2] at hx
  have hs : 0 < F.sqrt (1 / 2) := F.sqrt_pos _ (by positivity)
  have key : ∀ c e : K, defaultJvec A F k = .fin c → defaultIvec A F k = .fin e → 0 < A.rnd (u * c) + A.rnd (v * e) := by
    intro c e hc he
    rw [hc, he] at hx
    obtain ⟨y, hy, hy0⟩ := clip_pos hd0 hx (Or.inr ⟨_, rfl⟩)
    simp only [Arith.mul, Arith.add, Fl.fin.injEq] at hy
    exact pos_of_rnd (hy ▸ hy0 h0)
  unfold Flow.nr Flow.nc
  interval_cases k
  · have := key _ _ rfl rfl
    rw [show u * -F.sqrt (1 / 2) = -u * F.sqrt (1 / 2) by ring, show v * -F.sqrt (1 / 2) = -v * F.sqrt (1 / 2) by ring] at this
    have := odd_sum ho hs this
    push_cast [show a + 1 + 0 / 3 - 1 = a by omega, show b + 1 + 0 % 3 - 1 = b by omega]
    linarith
  · have := key (-1) 0 rfl rfl
    rw [mul_zero, A.zero, add_zero] at this
    have := pos_of_rnd this
    push_cast [show a + 1 + 1 / 3 - 1 = a by omega, show b + 1 + 1 % 3 - 1 = b + 1 by omega]
    linarith
  · have := key _ _ rfl rfl
    rw [show u * -F.sqrt (1 / 2) = -u * F.sqrt (1 / 2) by ring] at this
    have := odd_sum ho hs this
    push_cast [show a + 1 + 2 / 3 - 1 = a by omega, show b + 1 + 2 % 3 - 1 = b + 2 by omega]
    linarith
  · have := key 0 (-1) rfl rfl
    rw [mul_zero, A.zero, zero_add] at this
    have := pos_of_rnd this
    push_cast [show a + 1 + 3 / 3 - 1 = a + 1 by omega, show b + 1 + 3 % 3 - 1 = b by omega]
    linarith
  · have := key 0 0 rfl rfl
    rw [mul_zero, mul_zero, A.zero, add_zero] at this
    exact absurd this (lt_irrefl _)
  · have := key 0 1 rfl rfl
    rw [mul_zero, A.zero, zero_add] at this
    have := pos_of_rnd this
    push_cast [show a + 1 + 5 / 3 - 1 = a + 1 by omega, show b + 1 + 5 % 3 - 1 = b + 2 by omega]
    linarith
  · have := key _ _ rfl rfl
    rw [show v * -F.sqrt (1 / 2) = -v * F.sqrt (1 / 2) by ring] at this
    have := odd_sum ho hs this
    push_cast [show a + 1 + 6 / 3 - 1 = a + 2 by omega, show b + 1 + 6 % 3 - 1 = b by omega]
    linarith
  · have := key 1 0 rfl rfl
    rw [mul_zero, A.zero, add_zero] at this
    have := pos_of_rnd this
    push_cast [show a + 1 + 7 / 3 - 1 = a + 2 by omega, show b + 1 + 7 % 3 - 1 = b + 1 by omega]
    linarith
  · have := key _ _ rfl rfl
    have := odd_sum ho hs this
    push_cast [show a + 1 + 8 / 3 - 1 = a + 2 by omega, show b + 1 + 8 % 3 - 1 = b + 2 by omega]
    linarith

/-- A neighbour with a positive flow-derived weight lies downstream. -/
theorem downstream_of_pos (ho : OddRounding A) (hv : DefaultVectors A F P) (G : Good P) {a b : Nat} (h : Interior P a b)
    (hd : ¬ NoFlowWeight A F P a b) {k : Nat} (hk : k < 9) (h4 : k ≠ 4) {x : K} (hx : makeWeight A F P a b k = .fin x) (h0 : 0 < x) :
    Downstream P a b (Flow.nr a k) (Flow.nc b k) := by
  have hwet := passable_of_pos G h hd hk hx h0
  rw [makeWeight_flow A F G h hd, weightFlow_eq] at hx
  have hm : dryMask P a b k = false := by
    by_contra hc
    rw [if_pos (by simpa using hc)] at hx
    injection hx with hx
    exact absurd h0 (by rw [← hx]; exact lt_irrefl _)
  rw [if_neg (by rw [hm]; simp)] at hx
  obtain ⟨dep, hdep, hdry⟩ := dryMask_false G h hk hm
  obtain ⟨y, hy, hy0⟩ := F.pow_pos dep P.theta (lt_of_le_of_lt G.dry_nonneg hdry)
  rw [hdep, hy] at hx
  have n1 : ∀ k, k < 9 → NN A (maskZero (dryMask P) (weightSfc0 A P) a b k) := fun k hk => maskZero_NN A (weightSfc0_NN A G h hk)
  have n2 : ∀ k, k < 9 → NN A (maskZero (dryMask P) (weightInt0 A P) a b k) := fun k hk => maskZero_NN A (weightInt0_NN A G h hk).1
  rcases normalise_NN A n1 hk with e1 | ⟨s, e1, s0, -⟩
  · rw [e1] at hx; cases hx
  rcases normalise_NN A n2 hk with e2 | ⟨t, e2, t0, -⟩
  · rw [e1, e2] at hx; cases hx
  obtain ⟨s', f1, p1⟩ := normalise_fin n1 hk e1
  obtain ⟨t', f2, p2⟩ := normalise_fin n2 hk e2
  have m1 : maskZero (dryMask P) (weightSfc0 A P) a b k = weightSfc0 A P a b k := by unfold maskZero; rw [hm]; rfl
  have m2 : maskZero (dryMask P) (weightInt0 A P) a b k = weightInt0 A P a b k := by unfold maskZero; rw [hm]; rfl
  rw [m1] at f1
  rw [m2] at f2
  obtain ⟨k1, k2, k3⟩ := weightSfc0_fin G h hk f1
  refine ⟨adjacent_win h.1 h.2.2.1 hk h4, hwet, k1, k2, ?_⟩
  rw [e1, e2] at hx
  simp only [Arith.mul, Arith.add, Arith.sub, Fl.neg, Fl.fin.injEq] at hx
  rw [← hx] at h0
  have q1 := pos_of_rnd h0
  have q2 : 0 < A.rnd (A.rnd (P.gamma * s) + A.rnd (A.rnd (1 + -P.gamma) * t)) := by
    by_contra hc
    nlinarith [not_lt.1 hc, rnd_nonneg (A := A) (add_nonneg (rnd_nonneg (A := A) (mul_nonneg G.gamma_nonneg s0))
      (rnd_nonneg (A := A) (mul_nonneg (rnd_nonneg (A := A) (x := 1 + -P.gamma) (by linarith [G.gamma_le])) t0)))]
  have q3 := pos_of_rnd q2
  by_cases c : 0 < A.rnd (P.gamma * s)
  · left
    have c1 := pos_of_rnd c
    have g : 0 < P.gamma := lt_of_le_of_ne G.gamma_nonneg fun e => by rw [← e, zero_mul] at c1; exact lt_irrefl _ c1
    exact ⟨g, k3 (p1 ((mul_pos_iff_of_pos_left g).1 c1))⟩
  · right
    have c1 : 0 < A.rnd (A.rnd (1 + -P.gamma) * t) := by linarith [not_lt.1 c]
    have c2 := pos_of_rnd c1
    have g0 : 0 ≤ A.rnd (1 + -P.gamma) := rnd_nonneg (by linarith [G.gamma_le])
    have g : 0 < A.rnd (1 + -P.gamma) := lt_of_le_of_ne g0 fun e => by rw [← e, zero_mul] at c2; exact lt_irrefl _ c2
    have g1 := pos_of_rnd g
    exact ⟨by linarith, weightInt0_with ho hv G h hk f2 (p2 ((mul_pos_iff_of_pos_left g).1 c2))⟩

open Finset in
theorem share_pos {x : Nat → K} (hx : ∀ k, 0 ≤ x k) {k : Nat} (hk : k < 9) (h : 0 < x k) : 0 < Flow.share x k :=
  div_pos h (sum_pos' (fun m _ => hx m) ⟨k, mem_range.2 hk, h⟩)

theorem share_nonneg {x : Nat → K} (hx : ∀ k, 0 ≤ x k) (k : Nat) : 0 ≤ Flow.share x k :=
  div_nonneg (hx k) (Finset.sum_nonneg fun m _ => hx m)

/-- The place of a neighbour in the window. -/
theorem Adjacent.place {a b c d : Nat} (h : Adjacent a b c d) (ha : 1 ≤ a) (hb : 1 ≤ b) :
    ∃ k, k < 9 ∧ k ≠ 4 ∧ c = Flow.nr a k ∧ d = Flow.nc b k := by
  obtain ⟨h1, h2, h3⟩ := h
  have h1' : ¬ (c = a ∧ d = b) := fun hh => h1 (by rw [hh.1, hh.2])
  refine ⟨3 * (c + 1 - a) + (d + 1 - b), ?_, ?_, ?_, ?_⟩ <;> (try unfold Flow.nr) <;> (try unfold Flow.nc) <;> omega

/-- In exact arithmetic the discharge towards a neighbour along the discharge counts. -/
theorem inertia_pos {F : Fun K Arith.exact} (hv : DefaultVectors Arith.exact F P) (G : Good P) {a b k : Nat} (ha : 1 ≤ a) (hb : 1 ≤ b) (hk : k < 9)
    (hp : (flowOf F P).Passable a b k) (hw : WithFlow P a b (Flow.nr a k) (Flow.nc b k)) : 0 < (flowOf F P).inertia a b k := by
  unfold Flow.inertia
  rw [if_pos hp]
  refine lt_max_of_lt_right ?_
  obtain ⟨d, hd, hd0⟩ := G.dist_pos k hk
  obtain ⟨u, v, hu, hv', h⟩ := hw
  have e1 : (flowOf F P).a a b = u := by change (P.qx.at' a b).num = u; rw [hu]; rfl
  have e2 : (flowOf F P).b a b = v := by change (P.qy.at' a b).num = v; rw [hv']; rfl
  have e3 : (flowOf F P).dist k = d := by change (P.distances k).num = d; rw [hd]; rfl
  have e4 : (flowOf F P).rowVec k = (defaultJvec Arith.exact F k).num := by change (P.jvec k).num = _; rw [hv.2]
  have e5 : (flowOf F P).colVec k = (defaultIvec Arith.exact F k).num := by change (P.ivec k).num = _; rw [hv.1]
  rw [e1, e2, e3, e4, e5]
  refine div_pos ?_ hd0
  have hs : 0 < F.sqrt (1 / 2) := F.sqrt_pos _ (by positivity)
  obtain ⟨a, rfl⟩ : ∃ m, a = m + 1 := ⟨a - 1, by omega⟩
  obtain ⟨b, rfl⟩ : ∃ m, b = m + 1 := ⟨b - 1, by omega⟩
  unfold Flow.nr Flow.nc at h
  interval_cases k
  · push_cast [show a + 1 + 0 / 3 - 1 = a by omega, show b + 1 + 0 % 3 - 1 = b by omega] at h
    change 0 < u * -F.sqrt (1 / 2) + v * -F.sqrt (1 / 2)
    nlinarith
  · push_cast [show a + 1 + 1 / 3 - 1 = a by omega, show b + 1 + 1 % 3 - 1 = b + 1 by omega] at h
    change 0 < u * -1 + v * 0
    linarith
  · push_cast [show a + 1 + 2 / 3 - 1 = a by omega, show b + 1 + 2 % 3 - 1 = b + 2 by omega] at h
    change 0 < u * -F.sqrt (1 / 2) + v * F.sqrt (1 / 2)
    nlinarith
  · push_cast [show a + 1 + 3 / 3 - 1 = a + 1 by omega, show b + 1 + 3 % 3 - 1 = b by omega] at h
    change 0 < u * 0 + v * -1
    linarith
  · push_cast [show a + 1 + 4 / 3 - 1 = a + 1 by omega, show b + 1 + 4 % 3 - 1 = b + 1 by omega] at h
    linarith
  · push_cast [show a + 1 + 5 / 3 - 1 = a + 1 by omega, show b + 1 + 5 % 3 - 1 = b + 2 by omega] at h
    change 0 < u * 0 + v * 1
    linarith
  · push_cast [show a + 1 + 6 / 3 - 1 = a + 2 by omega, show b + 1 + 6 % 3 - 1 = b by omega] at h
    change 0 < u * F.sqrt (1 / 2) + v * -F.sqrt (1 / 2)
    nlinarith
  · push_cast [show a + 1 + 7 / 3 - 1 = a + 2 by omega, show b + 1 + 7 % 3 - 1 = b + 1 by omega] at h
    change 0 < u * 1 + v * 0
    linarith
  · push_cast [show a + 1 + 8 / 3 - 1 = a + 2 by omega, show b + 1 + 8 % 3 - 1 = b + 2 by omega] at h
    change 0 < u * F.sqrt (1 / 2) + v * F.sqrt (1 / 2)
    nlinarith

/-- In exact arithmetic a cell with a neighbour downstream has a flow-derived weight. -/
theorem flow_of_downstream {F : Fun K Arith.exact} (hpow : ∀ x, 0 < x → F.pow (.fin x) P.theta ≠ .fin 0) (hv : DefaultVectors Arith.exact F P) (G : Good P)
    {a b c d : Nat} (h : Interior P a b) (hd : Downstream P a b c d) : ¬ NoFlowWeight Arith.exact F P a b := by
  obtain ⟨hadj, ⟨⟨x, hx, hx0⟩, hland⟩, ⟨e, he⟩, ⟨e', he'⟩, hor⟩ := hd
  obtain ⟨k, hk, -, rfl, rfl⟩ := hadj.place h.1 h.2.2.1
  rw [deadEnd_repr G (represents_flowOf G) h]
  intro hdead
  have hdead := hdead k hk
  have hdep : (flowOf F P).depth (Flow.nr a k) (Flow.nc b k) = x := by change (P.depth.at' _ _).num = x; rw [hx]; rfl
  have hp : (flowOf F P).Passable a b k := ⟨by rw [hdep]; exact hx0, hland⟩
  have s1 : (flowOf F P).stage a b = some e := by change (P.stage.at' a b).num? = _; rw [he]; rfl
  have s2 : (flowOf F P).stage (Flow.nr a k) (Flow.nc b k) = some e' := by change (P.stage.at' _ _).num? = _; rw [he']; rfl
  have hx1 : 0 < x := lt_of_le_of_lt G.dry_nonneg hx0
  have hpw : 0 < (flowOf F P).pw x := by
    obtain ⟨y, hy, hy0⟩ := F.pow_pos x P.theta hx1
    have e : (flowOf F P).pw x = y := by change (F.pow (.fin x) P.theta).num = y; rw [hy]; rfl
    rw [e]
    exact lt_of_le_of_ne hy0 fun h0 => hpow x hx1 (by rw [hy, ← h0])
  have g0 : 0 ≤ (flowOf F P).gamma := G.gamma_nonneg
  have g1 : (flowOf F P).gamma ≤ 1 := G.gamma_le
  have n1 := share_nonneg (slope_nonneg (flowOf F P) a b) k
  have n2 := share_nonneg (inertia_nonneg (flowOf F P) a b) k
  unfold Flow.flow at hdead
  rw [if_pos ⟨hp, by rw [s1]; rfl, by rw [s2]; rfl⟩, hdep] at hdead
  have hpos : 0 < (flowOf F P).gamma * Flow.share ((flowOf F P).slope a b) k + (1 - (flowOf F P).gamma) * Flow.share ((flowOf F P).inertia a b) k := by
    rcases hor with ⟨hg, e1, e2, h1, h2, h3⟩ | ⟨hg, hw⟩
    · rw [he] at h1
      rw [he'] at h2
      cases h1
      cases h2
      obtain ⟨dd, hdd, hdd0⟩ := G.dist_pos k hk
      have hs : 0 < (flowOf F P).slope a b k := by
        unfold Flow.slope
        rw [if_pos hp, s1, s2]
        refine lt_max_of_lt_right (div_pos (by linarith) ?_)
        change 0 < (P.distances k).num
        rw [hdd]
        exact hdd0
      have := mul_pos (show 0 < (flowOf F P).gamma from hg) (share_pos (slope_nonneg _ a b) hk hs)
      have := mul_nonneg (sub_nonneg.2 g1) n2
      linarith
    · have hs := inertia_pos hv G h.1 h.2.2.1 hk hp hw
      have := mul_pos (sub_pos.2 (show (flowOf F P).gamma < 1 from hg)) (share_pos (inertia_nonneg _ a b) hk hs)
      have := mul_nonneg g0 n1
      linarith
  exact (mul_pos hpw hpos).ne' hdead

end Dorado
