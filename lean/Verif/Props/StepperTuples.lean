import Verif.Props.Stepper

/-!
# The particle stepper called with tuples (C76)
-/

set_option linter.unusedSectionVars false

namespace Dorado

variable {K : Type} [Field K] [LinearOrder K] [IsStrictOrderedRing K] [FloorRing K] {A : Arith K} {F : Fun K A}

/-- If `g` succeeds on every element, agrees with `f` on the elements of `D` and neither changes the state, the runs agree on `D`. -/
theorem mapAcc_agree {α β σ : Type} {f g : σ → α → Except PyErr (β × σ)} {D : α → Prop}
    (hf : ∀ s a b s', f s a = .ok (b, s') → s' = s) (hg : ∀ s a b s', g s a = .ok (b, s') → s' = s) (hD : ∀ s a, D a → f s a = g s a)
    {s s1 s2 : σ} {l : List α} {r1 r2 : List β} (h1 : mapAcc f s l = .ok (r1, s1)) (h2 : mapAcc g s l = .ok (r2, s2)) :
    s1 = s ∧ s2 = s ∧ r1.length = l.length ∧ r2.length = l.length ∧ ∀ (i : Nat) a, l[i]? = some a → D a → r1[i]? = r2[i]? := by
  induction l generalizing s1 s2 r1 r2 with
  | nil =>
    cases h1
    cases h2
    simp
  | cons a l ih =>
    simp only [mapAcc, bind_ok, pure_ok, Prod.exists, Prod.mk.injEq] at h1 h2
    obtain ⟨b1, t1, hb1, bs1, u1, hbs1, rfl, rfl⟩ := h1
    obtain ⟨b2, t2, hb2, bs2, u2, hbs2, rfl, rfl⟩ := h2
    have e1 := hf _ _ _ _ hb1
    have e2 := hg _ _ _ _ hb2
    subst e1 e2
    obtain ⟨e3, e4, hl1, hl2, hi⟩ := ih hbs1 hbs2
    refine ⟨e3, e4, by simp [hl1], by simp [hl2], fun i x hx hDx => ?_⟩
    cases i with
    | zero =>
      simp only [List.getElem?_cons_zero, Option.some.injEq] at hx
      subst hx
      rw [hD _ _ hDx, hb2] at hb1
      cases hb1
      rfl
    | succ i => simpa using hi i x (by simpa using hx) hDx

theorem mapAcc_len {α β σ : Type} {f : σ → α → Except PyErr (β × σ)} {s s1 : σ} {l : List α} {r : List β}
    (h : mapAcc f s l = .ok (r, s1)) : r.length = l.length :=
  (mapAcc_inv (fun _ => True) (fun _ _ => True) (fun _ _ _ _ _ _ => ⟨trivial, trivial⟩) trivial h).2.length_eq.symm

theorem mapAcc_congr {α β σ : Type} {f g : σ → α → Except PyErr (β × σ)} {l : List α} (h : ∀ s, ∀ a ∈ l, f s a = g s a) (s : σ) :
    mapAcc f s l = mapAcc g s l := by
  induction l generalizing s with
  | nil => rfl
  | cons a l ih =>
    simp only [mapAcc]
    rw [h s a (by simp)]
    congr 1
    funext p
    rw [ih fun s x hx => h s x (by simp [hx])]

theorem travelTimeTuple_total {P : PObj K} (R : Routable A P) {ω : Nat → K} {m k : Nat} (hk : k < 9) {p q : Int × Int} (d : Fl K)
    (hp : Inside P.depth.rows P.depth.cols p) (hq : Inside P.depth.rows P.depth.cols q) :
    ∃ dt m', travelTimeTuple A F P ω m k p q d = .ok (dt, m') := by
  have hflat : flat9 P.angles k = .ok (P.angles k) := by unfold flat9; rw [if_pos hk]
  obtain ⟨ov, hov⟩ := get_inside R.fields.vel_rows R.fields.vel_cols hp
  obtain ⟨nv, hnv⟩ := get_inside R.fields.vel_rows R.fields.vel_cols hq
  obtain ⟨va, hva⟩ := get_inside R.fields.ang.2.1 R.fields.ang.2.2 hp
  obtain ⟨c, hc⟩ := mathCos_ok (A := A) (F := F) R.angles R.fields.ang hflat hva
  unfold travelTimeTuple
  rw [hov, hnv]
  simp only [ok_bind]
  rw [hflat, hva]
  simp only [ok_bind, hc]
  exact ⟨_, _, rfl⟩

theorem travelTimeTuple_pos {P : PObj K} {ω : Nat → K} (hd : P.diffCoeff ≤ 0) {m m' k : Nat} {p q : Int × Int} {d dt : Fl K}
    (h : travelTimeTuple A F P ω m k p q d = .ok (dt, m')) : m' = m := by
  unfold travelTimeTuple at h
  rw [if_neg (not_lt.2 hd)] at h
  simp only [bind_ok, pure_ok, Prod.mk.injEq] at h
  obtain ⟨_, _, _, _, _, _, _, _, _, _, -, rfl⟩ := h
  rfl

/-- The parts of a `particle_stepper` call that do not depend on how positions are passed. -/
theorem stepperTuples_parts {P : PObj K} (R : Routable A P) {ω : Nat → K} {s w : World K} (hw : PickEquiv A F P s.weight)
    {cur news : List (Int × Int)} (hcur : ∀ p ∈ cur, Inside P.depth.rows P.depth.cols p) {times times' : List (Fl K)} {vars : List String}
    {upd : List (String × List (Val K))} (h : particleStepper A F P ω s cur times vars = .ok ((news, times', upd), w)) :
    ∃ (items : List ((Nat × (Int × Int)) × ((Int × Int) × Fl K))) (s1 : World K) (temp tempT : List (Fl K)) (pos' posT : Nat),
      items.length = cur.length ∧ news.length = cur.length ∧
      (∀ (i : Nat) x, items[i]? = some x → cur[i]? = some x.1.2 ∧ news[i]? = some x.2.1 ∧ stepUpdate A x.1.1 P.distances P.dx = .ok x.2.2) ∧
      mapAcc (fun pos q => calcTravelTime A F P ω pos q.1.1 q.1.2 q.2.1 q.2.2) s1.pos items = .ok (temp, pos') ∧
      mapAcc (fun pos q => travelTimeTuple A F P ω pos q.1.1 q.1.2 q.2.1 q.2.2) s1.pos items = .ok (tempT, posT) ∧
      times' = List.zipWith A.add times temp ∧ w = { s1 with pos := pos' } ∧
      particleStepperTuples A F P ω s cur times vars =
        .ok ((news, List.zipWith A.add times tempT, upd), { s1 with pos := posT }) := by
  have G := R.fields.good
  obtain ⟨-, hnl, hstep, -⟩ := particleStepper_inv A F G hw h
  have hin : ∀ q ∈ news, Inside P.depth.rows P.depth.cols q := by
    intro q hq
    obtain ⟨i, hi⟩ := List.getElem?_of_mem hq
    have hlt : i < cur.length := by rw [← hnl]; exact (List.getElem?_eq_some_iff.1 hi).1
    have hx : ∃ times2 upd2 w2, particleStepper A F P ω s cur (cur.map fun _ => .fin 0) vars = .ok ((news, times2, upd2), w2) := by
      unfold particleStepper at h ⊢
      simp only [bind_ok, pure_ok, Prod.exists, Prod.mk.injEq] at h ⊢
      obtain ⟨cells, s1, hcells, inds0, hinds0, dist, hdist, temp, pos', htemp, opt, hopt, ⟨rfl, rfl, rfl⟩, rfl⟩ := h
      exact ⟨_, _, _, cells, s1, hcells, inds0, hinds0, dist, hdist, temp, pos', htemp, _, hopt, ⟨rfl, rfl, rfl⟩, rfl⟩
    obtain ⟨times2, upd2, w2, hx⟩ := hx
    obtain ⟨-, -, hstep2, -⟩ := particleStepper_inv A F G hw hx
    obtain ⟨q', t', hq', -, k, q0, d, m, m', dt, -, hq0, hd, rfl, -, -⟩ :=
      hstep2 i _ (.fin 0) (List.getElem?_eq_getElem hlt) (by simp [hlt])
    rw [hi] at hq'
    cases hq'
    exact dest_inside G R.walk R.steps R.ring (hcur _ (List.getElem_mem hlt)) hq0 hd
  unfold particleStepper at h
  simp only [bind_ok, pure_ok, Prod.exists, Prod.mk.injEq] at h
  obtain ⟨cells, s1, hcells, inds0, hinds0, dist, hdist, temp, pos', htemp, opt, hopt, ⟨rfl, rfl, rfl⟩, rfl⟩ := h
  have hlc := mapAcc_len hcells
  have hld := mapE_length hdist
  have hk9 : ∀ k ∈ cells, k < 9 := by
    intro k hk
    obtain ⟨i, hi⟩ := List.getElem?_of_mem hk
    obtain ⟨d, hd, hd'⟩ := mapE_get hdist hi
    unfold stepUpdate flat9 at hd'
    by_contra hn
    rw [if_neg hn] at hd'
    cases hd'
  obtain ⟨tempT, posT, hT⟩ := mapAcc_exists
    (f := fun pos (q : (Nat × (Int × Int)) × ((Int × Int) × Fl K)) => travelTimeTuple A F P ω pos q.1.1 q.1.2 q.2.1 q.2.2)
    (fun _ : Nat => True)
    (l := (cells.zip cur).zip ((checkForBoundary (List.zipWith zeroDist inds0 dist) cur P.cellType).zip dist))
    (fun m _ q hq => by
      obtain ⟨h1, h2⟩ := List.of_mem_zip (show (q.1, q.2) ∈ _ from hq)
      obtain ⟨h1a, h1b⟩ := List.of_mem_zip (show (q.1.1, q.1.2) ∈ _ from h1)
      obtain ⟨h2a, -⟩ := List.of_mem_zip (show (q.2.1, q.2.2) ∈ _ from h2)
      obtain ⟨dt, m', hdt⟩ := travelTimeTuple_total (F := F) R (ω := ω) (m := m) (hk9 _ h1a) q.2.2 (hcur _ h1b) (hin _ h2a)
      exact ⟨dt, m', hdt, trivial⟩) trivial (s := s1.pos)
  refine ⟨_, s1, temp, tempT, pos', posT, ?_, hnl, ?_, htemp, hT, rfl, rfl, ?_⟩
  · simp only [List.length_zip]
    omega
  · rintro i ⟨⟨k, p⟩, ⟨q, d⟩⟩ hx
    rw [List.getElem?_zip_eq_some, List.getElem?_zip_eq_some, List.getElem?_zip_eq_some] at hx
    obtain ⟨⟨hk, hp⟩, hq, hd⟩ := hx
    obtain ⟨d', hd', hs⟩ := mapE_get hdist hk
    rw [hd] at hd'
    cases hd'
    exact ⟨hp, hq, hs⟩
  · unfold particleStepperTuples
    rw [hcells]
    simp only [ok_bind]
    rw [hinds0]
    simp only [ok_bind]
    rw [hdist]
    simp only [ok_bind]
    rw [hT]
    simp only [ok_bind]
    rw [hopt]
    rfl

theorem Reach.routable {R C : Nat} {P : PObj K} {s : PState K} (h : Reach A F (Enclosed A F R C) Draws (InsideSeeds R C) P s)
    (hwd : s.walk ≠ none) : Routable A P :=
  have hO := h.obj
  ⟨hO.built.fields, hO.walk, hO.steps, hO.ring, hO.angles, h.avail hwd⟩

/-- Any history, any draws, any rounding: when the call with lists returns, the call with tuples returns too, with the same positions and the same
variables; without diffusion the time of every particle that moves is the same and the same number of draws is used. Missing: a particle that
stays does not keep its time (`C76_counterexample`), and with diffusion it takes the random number of the next (`C76_shift_counterexample`). -/
theorem C76_tuples_partial {R C : Nat} {P : PObj K} {s : PState K} (h : Reach A F (Enclosed A F R C) Draws (InsideSeeds R C) P s)
    (hwd : s.walk ≠ none) {ω : Nat → K} {cur news : List (Int × Int)} (hcur : ∀ p ∈ cur, Inside R C p)
    {times times' : List (Fl K)} (hlen : times.length = cur.length) {vars : List String} {upd : List (String × List (Val K))} {w : World K}
    (hs : particleStepper A F P ω s.world cur times vars = .ok ((news, times', upd), w)) :
    ∃ timesT wT, particleStepperTuples A F P ω s.world cur times vars = .ok ((news, timesT, upd), wT) ∧ timesT.length = cur.length ∧
      (P.diffCoeff ≤ 0 → wT = w ∧ ∀ (i : Nat), news[i]? ≠ cur[i]? → timesT[i]? = times'[i]?) := by
  have hO := h.obj
  obtain ⟨items, s1, temp, tempT, pos', posT, hl, hnl, hitems, h1, h2, rfl, rfl, hT⟩ :=
    stepperTuples_parts (h.routable hwd) (Enclosed.rowsOk h).1 (by rw [hO.rows, hO.cols]; exact hcur) hs
  refine ⟨_, _, hT, by rw [List.length_zipWith, mapAcc_len h2]; omega, fun hd => ?_⟩
  obtain ⟨e1, e2, l1, l2, hi⟩ := mapAcc_agree (D := fun x : (Nat × (Int × Int)) × ((Int × Int) × Fl K) => x.1.2 ≠ x.2.1)
    (fun m a b m' hb => by
      by_cases hne : a.1.2 = a.2.1
      · unfold calcTravelTime at hb
        rw [if_neg (by simpa using hne)] at hb
        cases hb
        rfl
      · rw [calcTravelTime_moved hne] at hb
        exact travelTimeTuple_pos hd hb)
    (fun m a b m' hb => travelTimeTuple_pos hd hb) (fun m a ha => calcTravelTime_moved ha) h1 h2
  refine ⟨by rw [e1, e2], fun i hne => ?_⟩
  by_cases hlt : i < items.length
  · obtain ⟨hp, hq, -⟩ := hitems i _ (List.getElem?_eq_getElem hlt)
    have := hi i _ (List.getElem?_eq_getElem hlt) fun he => hne (by rw [hp, hq, he])
    rw [List.getElem?_zipWith, List.getElem?_zipWith, this]
  · exact absurd (by rw [List.getElem?_eq_none (by omega), List.getElem?_eq_none (by omega)]) hne

/-- When every particle moves the two calls return exactly the same, diffusion included. -/
theorem C76_moving {R C : Nat} {P : PObj K} {s : PState K} (h : Reach A F (Enclosed A F R C) Draws (InsideSeeds R C) P s)
    (hwd : s.walk ≠ none) {ω : Nat → K} {cur news : List (Int × Int)} (hcur : ∀ p ∈ cur, Inside R C p)
    {times times' : List (Fl K)} {vars : List String} {upd : List (String × List (Val K))} {w : World K}
    (hs : particleStepper A F P ω s.world cur times vars = .ok ((news, times', upd), w))
    (hmove : ∀ i < cur.length, news[i]? ≠ cur[i]?) :
    particleStepperTuples A F P ω s.world cur times vars = .ok ((news, times', upd), w) := by
  have hO := h.obj
  obtain ⟨items, s1, temp, tempT, pos', posT, hl, hnl, hitems, h1, h2, rfl, rfl, hT⟩ :=
    stepperTuples_parts (h.routable hwd) (Enclosed.rowsOk h).1 (by rw [hO.rows, hO.cols]; exact hcur) hs
  rw [mapAcc_congr (g := fun pos q => travelTimeTuple A F P ω pos q.1.1 q.1.2 q.2.1 q.2.2) (fun m a ha => by
    obtain ⟨i, hi⟩ := List.getElem?_of_mem ha
    obtain ⟨hp, hq, -⟩ := hitems i a hi
    refine calcTravelTime_moved fun he => hmove i (by rw [← hl]; exact (List.getElem?_eq_some_iff.1 hi).1) ?_
    rw [hp, hq, he]), h2] at h1
  cases h1
  exact hT

/-- With `diff_coeff <= 2` and a non-negative cell size no time decreases in the call with tuples either. -/
theorem C76_time (hh : A.rnd (-(1 / 2)) = -(1 / 2)) (h1 : A.rnd (-1) = -1) {R C : Nat} {P : PObj K} {s : PState K}
    (h : Reach A F (Enclosed A F R C) Draws (InsideSeeds R C) P s) (hwd : s.walk ≠ none) (hd : P.diffCoeff ≤ 2) (hx : 0 ≤ P.dx)
    {ω : Nat → K} (hω : Draws ω) {cur : List (Int × Int)} (hcur : ∀ p ∈ cur, Inside R C p) {times : List (Fl K)} {vars : List String}
    (hvars : ∀ v ∈ vars, OptVar P v) :
    ∃ news times' upd w, particleStepperTuples A F P ω s.world cur times vars = .ok ((news, times', upd), w) ∧
      ∀ (i : Nat) p t, cur[i]? = some p → times[i]? = some (.fin t) → A.rnd t = t → ∃ t', times'[i]? = some (.fin t') ∧ t ≤ t' := by
  have hO := h.obj
  have hcur' : ∀ p ∈ cur, Inside P.depth.rows P.depth.cols p := by rw [hO.rows, hO.cols]; exact hcur
  obtain ⟨news, times', upd, w, hs, -⟩ := particleStepper_total (h.routable hwd) hω (Enclosed.rowsOk h).1 hcur' times vars
    fun v hv => optVar_iff.1 (hvars v hv)
  obtain ⟨items, s1, temp, tempT, pos', posT, hl, hnl, hitems, -, h2, rfl, rfl, hT⟩ :=
    stepperTuples_parts (h.routable hwd) (Enclosed.rowsOk h).1 hcur' hs
  refine ⟨_, _, _, _, hT, fun i p t hp ht hr => ?_⟩
  have hlt : i < items.length := by rw [hl]; exact (List.getElem?_eq_some_iff.1 hp).1
  obtain ⟨-, -, hd'⟩ := hitems i _ (List.getElem?_eq_getElem hlt)
  have hf := (mapAcc_inv (fun _ : Nat => True)
    (fun (q : (Nat × (Int × Int)) × ((Int × Int) × Fl K)) dt => ∃ m m', travelTimeTuple A F P ω m q.1.1 q.1.2 q.2.1 q.2.2 = .ok (dt, m'))
    (fun s a b s' _ hb => ⟨trivial, s, s', hb⟩) trivial h2).2
  obtain ⟨dt, hdt, m, m', hm⟩ := Forall₂_get hf (List.getElem?_eq_getElem hlt)
  obtain ⟨D, hD, hD0⟩ := dist_nonneg_of hO.built.good hx hd'
  rw [hD] at hm
  obtain ⟨i', j, i'', j', vo, vn, va, c, diff, hpq⟩ := travelTimeTuple_inv hO.built.fields hm
  obtain ⟨y, rfl, hy⟩ := hpq.nonneg hω hd hh h1 hD0
  refine ⟨A.rnd (t + y), ?_, ?_⟩
  · rw [List.getElem?_zipWith, ht, hdt]
    rfl
  · conv_lhs => rw [← hr]
    exact A.mono _ _ (by linarith)

/-- The channel with tracked variables and no diffusion. -/
def chanStill : Params ℚ := { chanVars with diffCoeff := some 0 }
theorem chanStill_init : initParticles Arith.exact Fun.toy chanStill = .ok (objOf chanStill) := rfl
theorem chanStill_built : Built Arith.exact Fun.toy (objOf chanStill) := ⟨chanStill, { chan_valid with }, chanStill_init⟩

theorem chanStill_enclosed : Enclosed Arith.exact Fun.toy 5 5 (objOf chanStill) where
  built := chanStill_built
  rows := rfl
  cols := rfl
  ring := (C17_default_ring rfl rfl rfl rfl chanStill_init).1
  walk := ⟨rfl, rfl⟩
  steps := fun k hk => by interval_cases k <;> decide +kernel
  angles := (C17_default_ring rfl rfl rfl rfl chanStill_init).2.2

/-- Positions and times of a call made after seeding one particle at (2,2); `tup` chooses tuples or lists. -/
def tuplesCall (tup : Bool) (s : PState ℚ) (cur : List (Int × Int)) (times : List (Fl ℚ)) : Option ((List (Int × Int) × List (Fl ℚ)) × Nat) :=
  ((if tup then particleStepperTuples Arith.exact Fun.toy (objOf chanStill) (fun _ => 1 / 2) s.world cur times ["depth"]
    else particleStepper Arith.exact Fun.toy (objOf chanStill) (fun _ => 1 / 2) s.world cur times ["depth"]).toOption).map
      fun r => ((r.1.1, r.1.2.1), r.2.pos)

theorem chanStill_seeded : ∃ s, demo chanStill (fun _ => 1 / 2) 1 [2] [2] [] = .ok s ∧ s.walk ≠ none ∧
    Reach Arith.exact Fun.toy (Enclosed Arith.exact Fun.toy 5 5) Draws (InsideSeeds 5 5) (objOf chanStill) s := by
  obtain ⟨s, wd, hr, hw, -, hd⟩ := demo_walk (p := chanStill) (ω := fun _ => 1 / 2) (n := 1) (xs := [2]) (ys := [2])
    (runs := []) (Ob := Enclosed Arith.exact Fun.toy 5 5) (Ω := Draws) (Sd := InsideSeeds 5 5)
    chanStill_enclosed half_draws.1 (fun x hx y hy => by simp at hx hy; subst hx hy; unfold Inside; decide)
    (f := fun wd => (wd.xinds, wd.yinds)) (b := ([[2]], [[2]])) (by decide +kernel)
  exact ⟨s, hd, by rw [hw]; simp, hr⟩

/-- A particle next to an edge cell, passed as a tuple as documented: it stays at (1,3), its time goes from 8 to more than 15. Passed as a list
it keeps its time. -/
theorem C76_counterexample : ∃ s, Reach Arith.exact Fun.toy (Enclosed Arith.exact Fun.toy 5 5) Draws (InsideSeeds 5 5) (objOf chanStill) s ∧
    s.walk ≠ none ∧ Inside 5 5 (1, 3) ∧ (∃ m, tuplesCall false s [(1, 3)] [.fin 8] = some (([(1, 3)], [.fin 8]), m)) ∧
    ∃ m t, tuplesCall true s [(1, 3)] [.fin 8] = some (([(1, 3)], [.fin t]), m) ∧ 15 < t := by
  obtain ⟨s, hd, hw, hr⟩ := chanStill_seeded
  have h1 : (demo chanStill (fun _ => 1 / 2) 1 [2] [2] []).toOption.bind (tuplesCall false · [(1, 3)] [.fin 8]) =
      some (([(1, 3)], [.fin 8]), 1) := by decide +kernel
  have h2 : (demo chanStill (fun _ => 1 / 2) 1 [2] [2] []).toOption.bind (tuplesCall true · [(1, 3)] [.fin 8]) =
      some (([(1, 3)], [.fin (2400000005600000007 / 160000000000000000)]), 1) := by decide +kernel
  rw [hd] at h1 h2
  exact ⟨s, hr, hw, by unfold Inside; decide, ⟨_, h1⟩, _, _, h2, by norm_num⟩

/-- Random numbers 1/2 and 1/4 by turns. -/
def turnDraws (n : Nat) : ℚ := if n % 2 = 0 then 1 / 2 else 1 / 4

theorem turnDraws_draws : Draws turnDraws := by
  intro n
  unfold turnDraws
  split <;> norm_num

/-- With diffusion a particle that moves is affected by another one that stays: the latter takes its random number. The second particle goes from (2,2) to (3,2) in both
calls, with different times. -/
theorem C76_shift_counterexample : ∃ s t t' m', Reach Arith.exact Fun.toy (Enclosed Arith.exact Fun.toy 5 5) Draws (InsideSeeds 5 5) (objOf chanVars) s ∧
    s.walk ≠ none ∧ Inside 5 5 (1, 3) ∧ Inside 5 5 (2, 2) ∧ Draws turnDraws ∧
    ((particleStepper Arith.exact Fun.toy (objOf chanVars) turnDraws s.world [(1, 3), (2, 2)] [.fin 8, .fin 7] ["depth"]).toOption.map fun r => (r.1.1, r.1.2.1)) =
      some ([(1, 3), (3, 2)], [.fin 8, .fin t]) ∧
    ((particleStepperTuples Arith.exact Fun.toy (objOf chanVars) turnDraws s.world [(1, 3), (2, 2)] [.fin 8, .fin 7] ["depth"]).toOption.map fun r => (r.1.1, r.1.2.1)) =
      some ([(1, 3), (3, 2)], [.fin m', .fin t']) ∧ t ≠ t' := by
  obtain ⟨s, wd, hr, hw, -, hd⟩ := demo_walk (p := chanVars) (ω := fun _ => 1 / 2) (n := 1) (xs := [2]) (ys := [2])
    (runs := []) (Ob := Enclosed Arith.exact Fun.toy 5 5) (Ω := Draws) (Sd := InsideSeeds 5 5)
    chanVars_enclosed half_draws.1 (fun x hx y hy => by simp at hx hy; subst hx hy; unfold Inside; decide)
    (f := fun wd => (wd.xinds, wd.yinds)) (b := ([[2]], [[2]])) (by decide +kernel)
  have h1 : (demo chanVars (fun _ => 1 / 2) 1 [2] [2] []).toOption.bind (fun s => (particleStepper Arith.exact Fun.toy (objOf chanVars) turnDraws s.world
      [(1, 3), (2, 2)] [.fin 8, .fin 7] ["depth"]).toOption.map fun r => (r.1.1, r.1.2.1)) =
      some ([(1, 3), (3, 2)], [.fin 8, .fin (8190000012600000007 / 360000000000000000)]) := by decide +kernel
  have h2 : (demo chanVars (fun _ => 1 / 2) 1 [2] [2] []).toOption.bind (fun s => (particleStepperTuples Arith.exact Fun.toy (objOf chanVars) turnDraws s.world
      [(1, 3), (2, 2)] [.fin 8, .fin 7] ["depth"]).toOption.map fun r => (r.1.1, r.1.2.1)) =
      some ([(1, 3), (3, 2)], [.fin (2400000005600000007 / 160000000000000000), .fin (56490000088200000049 / 2400000000000000000)]) := by decide +kernel
  rw [hd] at h1 h2
  exact ⟨s, _, _, _, hr, by rw [hw]; simp, by unfold Inside; decide, by unfold Inside; decide, turnDraws_draws, h1, h2, by norm_num⟩

/-- The hypotheses of the theorems of C76 hold for the seeded object without diffusion; the first particle moves and has the same time in both
calls, the second stays and does not. -/
example : ∃ s, Reach Arith.exact Fun.toy (Enclosed Arith.exact Fun.toy 5 5) Draws (InsideSeeds 5 5) (objOf chanStill) s ∧ s.walk ≠ none ∧
    (objOf chanStill).diffCoeff ≤ 0 ∧ 0 ≤ (objOf chanStill).dx ∧ OptVar (objOf chanStill) "depth" ∧
    (∀ p ∈ [((2 : Int), (2 : Int)), (1, 3)], Inside 5 5 p) ∧
    tuplesCall false s [(2, 2), (1, 3)] [.fin 7, .fin 8] =
      some (([(3, 2), (1, 3)], [.fin (8190000012600000007 / 360000000000000000), .fin 8]), 2) ∧
    tuplesCall true s [(2, 2), (1, 3)] [.fin 7, .fin 8] = some (([(3, 2), (1, 3)],
      [.fin (8190000012600000007 / 360000000000000000), .fin (2400000005600000007 / 160000000000000000)]), 2) ∧
    tuplesCall true s [(2, 2)] [.fin 7] = tuplesCall false s [(2, 2)] [.fin 7] := by
  obtain ⟨s, hd, hw, hr⟩ := chanStill_seeded
  have h1 : (demo chanStill (fun _ => 1 / 2) 1 [2] [2] []).toOption.bind (tuplesCall false · [(2, 2), (1, 3)] [.fin 7, .fin 8]) =
      some (([(3, 2), (1, 3)], [.fin (8190000012600000007 / 360000000000000000), .fin 8]), 2) := by decide +kernel
  have h2 : (demo chanStill (fun _ => 1 / 2) 1 [2] [2] []).toOption.bind (tuplesCall true · [(2, 2), (1, 3)] [.fin 7, .fin 8]) =
      some (([(3, 2), (1, 3)], [.fin (8190000012600000007 / 360000000000000000), .fin (2400000005600000007 / 160000000000000000)]), 2) := by
    decide +kernel
  have h3 : (demo chanStill (fun _ => 1 / 2) 1 [2] [2] []).toOption.bind (tuplesCall true · [(2, 2)] [.fin 7]) =
      (demo chanStill (fun _ => 1 / 2) 1 [2] [2] []).toOption.bind (tuplesCall false · [(2, 2)] [.fin 7]) := by decide +kernel
  rw [hd] at h1 h2 h3
  exact ⟨s, hr, hw, by decide +kernel, by decide +kernel, ⟨by decide +kernel, by decide, by decide, by decide⟩, by unfold Inside; decide, h1, h2, h3⟩

end Dorado
