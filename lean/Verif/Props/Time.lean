import Verif.Lemmas.Time
import Verif.Lemmas.Local
import Verif.Spec.Time
import Verif.Spec.Demo

/-! # C18-C20: travel times -/

set_option linter.unusedSectionVars false
set_option synthInstance.maxSize 1024

namespace Dorado

variable {K : Type} [Field K] [LinearOrder K] [IsStrictOrderedRing K] [FloorRing K] {A : Arith K} {F : Fun K A}

theorem dist_nonneg_of {P : PObj K} (G : Good P) (hx : 0 ≤ P.dx) {k : Nat} {d : Fl K} (h : stepUpdate A k P.distances P.dx = .ok d) :
    ∃ D, d = .fin D ∧ 0 ≤ D := by
  unfold stepUpdate flat9 at h
  simp only [bind_ok, pure_ok] at h
  obtain ⟨a, ha, rfl⟩ := h
  split at ha
  · rename_i hk
    injection ha with ha
    obtain ⟨x, hx', hx0⟩ := G.dist_pos k hk
    rw [← ha, hx']
    exact ⟨_, rfl, rnd_nonneg (mul_nonneg hx0.le hx)⟩
  · cases ha

/-! ## C18 -/

/-- Any rounding that represents -1/2 and -1, any draws, any history (including continuation from other objects): with `diff_coeff <= 2`
and a non-negative cell size every recorded time is finite and later records have later or equal times. -/
theorem C18_monotone (hh : A.rnd (-(1 / 2)) = -(1 / 2)) (h1 : A.rnd (-1) = -1) {P : PObj K} {s : PState K}
    (h : Reach A F (fun P => Built A F P ∧ P.diffCoeff ≤ 2 ∧ 0 ≤ P.dx) Draws (FinSeed A) P s) {wd : WalkData K} (hwd : s.walk = some wd) :
    (∀ i n t, wd.timeAt i n = some t → ∃ x, t = .fin x) ∧
    ∀ i n m x y, n ≤ m → wd.timeAt i n = some (.fin x) → wd.timeAt i m = some (.fin y) → x ≤ y := by
  obtain ⟨rows, rfl, -, hrows⟩ := Reach.walk (I := fun _ t => ∃ x, t = .fin x ∧ A.rnd x = x)
    (R := fun _ t _ t' => ∃ x y, t = .fin x ∧ t' = .fin y ∧ x ≤ y)
    (fun P hP => hP.1.good) (fun _ _ _ _ _ _ _ hS _ _ => hS)
    (fun P ω p t q t' hP hω hI hs hne => by
      obtain ⟨x, rfl, hx⟩ := hI
      obtain ⟨k, q0, d, m, m', dt, -, -, hd, -, ht, rfl⟩ := hs
      obtain ⟨D, rfl, hD⟩ := dist_nonneg_of hP.1.good hP.2.2 hd
      obtain ⟨i, j, i', j', vo, vn, va, c, diff, hp⟩ := calcTravelTime_inv hP.1.fields (Ne.symm hne) ht
      obtain ⟨y, rfl, hy⟩ := hp.nonneg hω hP.2.1 hh h1 hD
      refine ⟨⟨_, rfl, A.idem _⟩, x, _, rfl, rfl, ?_⟩
      conv_lhs => rw [← hx]
      exact A.mono _ _ (by linarith)) h hwd
  refine ⟨fun i n t ht => ?_, fun i n m x y hnm hx hy => ?_⟩
  · obtain ⟨r, hr, ht⟩ := timeAt_ofRows.1 ht
    have hI := hrows r (List.mem_of_getElem? hr)
    have hn : n < r.xs.length := by rw [← hI.aligned.2.1]; exact (List.getElem?_eq_some_iff.1 ht).1
    obtain ⟨x, hx, -⟩ := hI.recs n (r.xs[n], r.ys[n]'(by rw [hI.aligned.1]; exact hn)) t
      ⟨List.getElem?_eq_getElem _, List.getElem?_eq_getElem _, ht⟩
    exact ⟨x, hx⟩
  · obtain ⟨r, hr, hx⟩ := timeAt_ofRows.1 hx
    obtain ⟨r', hr', hy⟩ := timeAt_ofRows.1 hy
    rw [hr] at hr'
    cases hr'
    have hI := hrows r (List.mem_of_getElem? hr)
    induction m, hnm using Nat.le_induction generalizing y with
    | base =>
      rw [hx] at hy
      injection hy with hy
      injection hy with hy
      exact hy.le
    | succ m hnm ih =>
      have hm : m + 1 < r.xs.length := by rw [← hI.aligned.2.1]; exact (List.getElem?_eq_some_iff.1 hy).1
      have hys := hI.aligned.1
      have hts := hI.aligned.2.1
      obtain ⟨-, a, b, ha, hb, hab⟩ := hI.pairs m (r.xs[m], r.ys[m]) r.ts[m] (r.xs[m + 1], r.ys[m + 1]) (.fin y)
        ⟨List.getElem?_eq_getElem _, List.getElem?_eq_getElem _, List.getElem?_eq_getElem _⟩
        ⟨List.getElem?_eq_getElem _, List.getElem?_eq_getElem _, hy⟩
      injection hb with hb
      subst hb
      exact le_trans (ih a (timeAt_ofRows.2 ⟨r, hr, by rw [← ha]; exact List.getElem?_eq_getElem _⟩) (by rw [← ha]; exact List.getElem?_eq_getElem _)) hab

/-- Draws alternating between 1/2 (choice of cell) and 9/10 (diffusion). -/
def swing : Nat → ℚ := fun n => if n % 2 = 0 then 1 / 2 else 9 / 10

theorem swing_draws : Draws swing := fun n => by
  unfold swing
  split_ifs <;> norm_num

/-- The open channel with diffusion coefficient `d`. -/
def chanDiff (d : ℚ) : Params ℚ := { chanOpen with diffCoeff := some d }

theorem chanDiff_built (d : ℚ) : Built Arith.exact Fun.toy (objOf (chanDiff d)) := ⟨chanDiff d, { chan_valid with }, rfl⟩

/-- Two calls of `run_iteration()` in the open channel with diffusion. -/
theorem chanDiff_run : ∃ (s : PState ℚ) (wd : WalkData ℚ),
    Reach Arith.exact Fun.toy (fun P => Built Arith.exact Fun.toy P ∧ StepsNonzero Arith.exact P ∧
      (∀ k, k < 9 → k ≠ 4 → ∃ a, P.angles k = .fin a) ∧ P.diffCoeff ≤ 2 ∧ 0 ≤ P.dx) Draws (FinSeed Arith.exact) (objOf (chanDiff 1)) s ∧
    s.walk = some wd ∧ wd.posAt 0 1 = some (2, 2) ∧ wd.posAt 0 2 = some (3, 2) ∧
    wd.timeAt 0 1 = some (.fin (5670000012600000007 / 600000000000000000)) ∧
    wd.timeAt 0 2 = some (.fin (5670000012600000007 / 300000000000000000)) := by
  obtain ⟨s, wd, h, hw, hf, -⟩ := demo_walk (p := chanDiff 1) (Ob := fun P => Built Arith.exact Fun.toy P ∧ StepsNonzero Arith.exact P ∧
      (∀ k, k < 9 → k ≠ 4 → ∃ a, P.angles k = .fin a) ∧ P.diffCoeff ≤ 2 ∧ 0 ≤ P.dx) (n := 1) (xs := [1]) (ys := [2])
    (runs := [(none, 1), (none, 1)]) (f := fun wd => (wd.posAt 0 1, wd.posAt 0 2, wd.timeAt 0 1, wd.timeAt 0 2))
    (b := (some (2, 2), some (3, 2), some (.fin (5670000012600000007 / 600000000000000000)),
      some (.fin (5670000012600000007 / 300000000000000000))))
    (Sd := FinSeed Arith.exact)
    ⟨chanDiff_built 1, fun k hk => by interval_cases k <;> decide +kernel, fun k hk h4 => by interval_cases k <;> exact ⟨_, rfl⟩,
      by decide +kernel, by decide +kernel⟩ swing_draws ⟨0, rfl, rfl⟩ (by decide +kernel)
  simp only [Prod.mk.injEq] at hf
  exact ⟨s, wd, h, hw, hf.1, hf.2.1, hf.2.2.1, hf.2.2.2⟩

/-- `diff_coeff = 1`: the recorded times after one and two steps, 9.45 and 18.9. -/
example : ∃ (s : PState ℚ) (wd : WalkData ℚ), Reach Arith.exact Fun.toy (fun P => Built Arith.exact Fun.toy P ∧ P.diffCoeff ≤ 2 ∧ 0 ≤ P.dx)
    Draws (FinSeed Arith.exact) (objOf (chanDiff 1)) s ∧ s.walk = some wd ∧
    wd.timeAt 0 1 = some (.fin (5670000012600000007 / 600000000000000000)) ∧
    wd.timeAt 0 2 = some (.fin (5670000012600000007 / 300000000000000000)) ∧
    (Arith.exact : Arith ℚ).rnd (-(1 / 2)) = -(1 / 2) ∧ (Arith.exact : Arith ℚ).rnd (-1) = -1 := by
  obtain ⟨s, wd, h, hw, -, -, h1, h2⟩ := chanDiff_run
  exact ⟨s, wd, h.mono fun P hP => ⟨hP.1, hP.2.2.2.1, hP.2.2.2.2⟩, hw, h1, h2, rfl, rfl⟩

/-- The bound on the diffusion coefficient is needed: with `diff_coeff = 4` a recorded time is negative, earlier than the seed time 0. -/
theorem C18_large_diffusion_counterexample : ∃ (s : PState ℚ) (wd : WalkData ℚ),
    Reach Arith.exact Fun.toy (fun P => Built Arith.exact Fun.toy P ∧ P.diffCoeff = 4 ∧ 0 ≤ P.dx) Draws (FinSeed Arith.exact)
      (objOf (chanDiff 4)) s ∧ s.walk = some wd ∧
    wd.timeAt 0 0 = some (.fin 0) ∧ wd.timeAt 0 1 = some (.fin (-5670000012600000007 / 600000000000000000)) := by
  obtain ⟨s, wd, h, hw, hf, -⟩ := demo_walk (p := chanDiff 4) (Ob := fun P => Built Arith.exact Fun.toy P ∧ P.diffCoeff = 4 ∧ 0 ≤ P.dx)
    (n := 1) (xs := [1]) (ys := [2])
    (runs := [(none, 1)]) (f := fun wd => (wd.timeAt 0 0, wd.timeAt 0 1))
    (b := (some (.fin 0), some (.fin (-5670000012600000007 / 600000000000000000)))) (Sd := FinSeed Arith.exact)
    ⟨chanDiff_built 4, by decide +kernel, by decide +kernel⟩ swing_draws ⟨0, rfl, rfl⟩ (by decide +kernel)
  simp only [Prod.mk.injEq] at hf
  exact ⟨s, wd, h, hw, hf.1, hf.2⟩

/-! ## C19 -/

/-- What the statements C19 and C20 say about one recorded step of an object. -/
def DocumentedStep {A : Arith K} (F : Fun K A) (P : PObj K) (p : Int × Int) (t : K) (q : Int × Int) (t' : K) : Prop :=
  ∃ k a d vo vn va δ, k < 9 ∧ k ≠ 4 ∧ q = (p.1 + P.jwalk k, p.2 + P.iwalk k) ∧ P.angles k = .fin a ∧ P.distances k = .fin d ∧
    FieldAt P.velocity p vo ∧ FieldAt P.velocity q vn ∧ FieldAt P.velocityAngle p va ∧ 0 < vo ∧ 0 < vn ∧
    |δ| ≤ P.diffCoeff / 2 ∧ (P.diffCoeff ≤ 0 → δ = 0) ∧ (P.diffCoeff ≠ 0 → -(P.diffCoeff / 2) < δ) ∧
    t' - t = freeTime (d * P.dx) (F.cos (a - va)) vo vn * (1 + δ)

theorem fieldAt_of {P : PObj K} {p : Int × Int} {i j : Nat} {g : Grid (Fl K)} {x : K} (hr : g.rows = P.depth.rows)
    (hc : g.cols = P.depth.cols) (hi : pyIdx P.depth.rows p.1 = .ok i) (hj : pyIdx P.depth.cols p.2 = .ok j) (hx : g.at' i j = .fin x) :
    FieldAt g p x := by
  unfold FieldAt Grid.get
  rw [hr, hc, hi, hj, ← hx]
  rfl

theorem step_documented {F : Fun K (Arith.exact : Arith K)} {P : PObj K} (hB : Built Arith.exact F P) (hz : StepsNonzero Arith.exact P)
    (ha : ∀ k, k < 9 → k ≠ 4 → ∃ a, P.angles k = .fin a)
    {ω : Nat → K} (hω : Draws ω) {p q : Int × Int} {x : K} {t' : Fl K} (hs : StepOf Arith.exact F P ω p (.fin x) q t') (hne : q ≠ p) :
    ∃ y, t' = .fin y ∧ DocumentedStep F P p x q y := by
  have Fd := hB.fields
  obtain ⟨i0, j0, k, r, hm⟩ := hs.move hz hne
  obtain ⟨m, m', dt, ht, rfl⟩ := hm.time
  obtain ⟨d, hd, hd0⟩ := Fd.good.dist_pos k hm.lt
  rw [hd] at ht
  obtain ⟨i, j, i', j', vo, vn, va, c, diff, hp⟩ := calcTravelTime_inv Fd (Ne.symm hne) ht
  obtain ⟨a, hak⟩ := ha k hm.lt hm.ne4
  have hdt := hp.eq
  have hc := hp.c_eq a hak
  simp only [Arith.exact, id] at hc
  subst hdt
  refine ⟨_, rfl, k, a, d, vo, vn, va, diff, hm.lt, hm.ne4, hm.dest, hak, hd,
    fieldAt_of Fd.vel_rows Fd.vel_cols hp.oldRow hp.oldCol hp.oldVel,
    fieldAt_of Fd.vel_rows Fd.vel_cols hp.newRow hp.newCol hp.newVel,
    fieldAt_of Fd.ang.2.1 Fd.ang.2.2 hp.oldRow hp.oldCol hp.angle, lt_of_lt_of_le (eps8_pos _) hp.vo_pos,
    lt_of_lt_of_le (eps8_pos _) hp.vn_pos, ?_, fun h0 => hp.diff_zero (not_lt.2 h0), ?_, ?_⟩
  · by_cases h0 : 0 < P.diffCoeff
    · obtain ⟨n, hn⟩ := hp.diff_pos h0
      simp only [Arith.exact, id] at hn
      rw [hn, abs_mul, abs_of_pos h0]
      have : |1 / 2 - ω n| ≤ 1 / 2 := by
        rw [abs_le]
        have := hω n
        constructor <;> linarith
      nlinarith
    · rw [hp.diff_zero h0, abs_zero]
      have := Fd.diff
      linarith
  · intro hne0
    have h0 : 0 < P.diffCoeff := lt_of_le_of_ne Fd.diff (Ne.symm hne0)
    obtain ⟨n, hn⟩ := hp.diff_pos h0
    simp only [Arith.exact, id] at hn
    rw [hn]
    have := (hω n).2
    nlinarith
  · simp only [Arith.exact, id, freeTime]
    rw [hc]
    ring

/-- Consecutive records of any history were made by a documented step of one of the objects used. -/
theorem C19_formula {F : Fun K (Arith.exact : Arith K)} {Ob : PObj K → Prop}
    (hOb : ∀ P, Ob P → Built Arith.exact F P ∧ StepsNonzero Arith.exact P ∧ ∀ k, k < 9 → k ≠ 4 → ∃ a, P.angles k = .fin a)
    {P : PObj K} {s : PState K} (h : Reach Arith.exact F Ob Draws (FinSeed Arith.exact) P s) {wd : WalkData K} (hwd : s.walk = some wd)
    {i n : Nat} {p q : Int × Int} {t t' : Fl K} (hp : wd.posAt i n = some p) (hq : wd.posAt i (n + 1) = some q)
    (ht : wd.timeAt i n = some t) (ht' : wd.timeAt i (n + 1) = some t') :
    ∃ P' x y, Ob P' ∧ t = .fin x ∧ t' = .fin y ∧ DocumentedStep F P' p x q y := by
  obtain ⟨rows, rfl, -, hrows⟩ := Reach.walk (I := fun _ t => ∃ x, t = .fin x)
    (R := fun p t q t' => ∃ P' x y, Ob P' ∧ t = .fin x ∧ t' = .fin y ∧ DocumentedStep F P' p x q y)
    (fun P hP => (hOb P hP).1.good) (fun _ _ _ _ _ _ _ hS _ _ => hS.imp fun _ h => h.1)
    (fun P ω p t q t' hP hω hI hs hne => by
      obtain ⟨x, rfl⟩ := hI
      obtain ⟨hB, hz, ha⟩ := hOb P hP
      obtain ⟨y, rfl, hd⟩ := step_documented hB hz ha hω hs hne
      exact ⟨⟨y, rfl⟩, P, x, y, hP, rfl, rfl, hd⟩) h hwd
  obtain ⟨r, hr, hx, hy⟩ := posAt_ofRows.1 hp
  obtain ⟨r1, hr1, hx1, hy1⟩ := posAt_ofRows.1 hq
  obtain ⟨r2, hr2, h2⟩ := timeAt_ofRows.1 ht
  obtain ⟨r3, hr3, h3⟩ := timeAt_ofRows.1 ht'
  rw [hr] at hr1 hr2 hr3
  cases hr1; cases hr2; cases hr3
  exact ((hrows r (List.mem_of_getElem? hr)).pairs n p t q t' ⟨hx, hy, h2⟩ ⟨hx1, hy1, h3⟩).2

/-- A documented step takes a time within the factors `1 ∓ diff_coeff/2` of the diffusion-free time. -/
theorem C19_band {F : Fun K A} {P : PObj K} (hx : 0 ≤ P.dx) (hpos : ∀ k d, k < 9 → P.distances k = .fin d → 0 ≤ d)
    {p q : Int × Int} {t t' : K} (h : DocumentedStep F P p t q t') :
    ∃ T, 0 ≤ T ∧ (1 - P.diffCoeff / 2) * T ≤ t' - t ∧ t' - t ≤ (1 + P.diffCoeff / 2) * T ∧ (P.diffCoeff ≤ 0 → t' - t = T) ∧
      ∃ k a d vo vn va, k < 9 ∧ q = (p.1 + P.jwalk k, p.2 + P.iwalk k) ∧ P.angles k = .fin a ∧ P.distances k = .fin d ∧
        FieldAt P.velocity p vo ∧ FieldAt P.velocity q vn ∧ FieldAt P.velocityAngle p va ∧ T = freeTime (d * P.dx) (F.cos (a - va)) vo vn := by
  obtain ⟨k, a, d, vo, vn, va, δ, hk, -, hq, ha, hd, hvo, hvn, hva, h1, h2, h3, h4, -, h5⟩ := h
  have hT : 0 ≤ freeTime (d * P.dx) (F.cos (a - va)) vo vn := by
    unfold freeTime
    have := hpos k d hk hd
    have := le_max_left 0 (F.cos (a - va))
    positivity
  rw [abs_le] at h3
  refine ⟨_, hT, ?_, ?_, fun h0 => by rw [h5, h4 h0]; ring, k, a, d, vo, vn, va, hk, hq, ha, hd, hvo, hvn, hva, rfl⟩
  · rw [h5]; nlinarith
  · rw [h5]; nlinarith

/-- The second step of the channel run with diffusion meets the hypotheses of `C19_formula`; its conclusion meets those of `C19_band`. -/
example : ∃ (s : PState ℚ) (wd : WalkData ℚ),
    Reach Arith.exact Fun.toy (fun P => Built Arith.exact Fun.toy P ∧ StepsNonzero Arith.exact P ∧
      ∀ k, k < 9 → k ≠ 4 → ∃ a, P.angles k = .fin a) Draws (FinSeed Arith.exact) (objOf (chanDiff 1)) s ∧
    s.walk = some wd ∧ wd.posAt 0 1 = some (2, 2) ∧ wd.posAt 0 (1 + 1) = some (3, 2) ∧
    wd.timeAt 0 1 = some (.fin (5670000012600000007 / 600000000000000000)) ∧
    wd.timeAt 0 (1 + 1) = some (.fin (5670000012600000007 / 300000000000000000)) := by
  obtain ⟨s, wd, h, hw, h1, h2, h3, h4⟩ := chanDiff_run
  exact ⟨s, wd, h.mono fun P hP => ⟨hP.1, hP.2.1, hP.2.2.1⟩, hw, h1, h2, h3, h4⟩

/-! ## C20 -/

theorem arctan2_cos {u v : ℝ} (h : u ≠ 0) :
    Real.cos (Fun.real.arctan2 (-u) v) = v / Real.sqrt (u ^ 2 + v ^ 2) ∧ Real.sin (Fun.real.arctan2 (-u) v) = -u / Real.sqrt (u ^ 2 + v ^ 2) := by
  show Real.cos (Complex.arg ⟨v, -u⟩) = _ ∧ Real.sin (Complex.arg ⟨v, -u⟩) = _
  have hne : (⟨v, -u⟩ : ℂ) ≠ 0 := by
    intro h0
    have := congrArg Complex.im h0
    simp at this
    exact h this
  have hn : ‖(⟨v, -u⟩ : ℂ)‖ = Real.sqrt (u ^ 2 + v ^ 2) := by
    rw [Complex.norm_def, Complex.normSq_mk]
    congr 1
    ring
  rw [Complex.cos_arg hne, Complex.sin_arg, hn]
  exact ⟨rfl, rfl⟩

/-- The default step directions: `cos` and `sin` of the step angle against the offsets of the step. -/
theorem angle_default {k : Nat} (hk : k < 9) (h4 : k ≠ 4) : ∃ a, defaultAngles Arith.exact Fun.real k = .fin a ∧
    Real.cos a = (defaultIwalk k : ℝ) / Real.sqrt ((defaultJwalk k : ℝ) ^ 2 + (defaultIwalk k : ℝ) ^ 2) ∧
    Real.sin a = -(defaultJwalk k : ℝ) / Real.sqrt ((defaultJwalk k : ℝ) ^ 2 + (defaultIwalk k : ℝ) ^ 2) := by
  have h2 : Real.sqrt 2 / 2 = 1 / Real.sqrt 2 := by
    rw [div_eq_div_iff (by norm_num) (by positivity)]
    simp
  have hpi : (Fun.real).pi = Real.pi := rfl
  have hr : ∀ x : ℝ, (Arith.exact (K := ℝ)).rnd x = x := fun _ => rfl
  have e0 : (3 : ℝ) * Real.pi / 4 = Real.pi - Real.pi / 4 := by ring
  have e6 : (5 : ℝ) * Real.pi / 4 = Real.pi / 4 + Real.pi := by ring
  have e7 : (3 : ℝ) * Real.pi / 2 = Real.pi / 2 + Real.pi := by ring
  have e8 : (7 : ℝ) * Real.pi / 4 = 2 * Real.pi - Real.pi / 4 := by ring
  have : k = 0 ∨ k = 1 ∨ k = 2 ∨ k = 3 ∨ k = 5 ∨ k = 6 ∨ k = 7 ∨ k = 8 := by omega
  rcases this with rfl | rfl | rfl | rfl | rfl | rfl | rfl | rfl <;>
    refine ⟨_, rfl, ?_, ?_⟩ <;>
    simp only [hr, hpi, e0, e6, e7, e8, defaultIwalk, defaultJwalk] <;> norm_num [h2] <;> (try ring_nf)

/-- The projection factor of a step is the cosine of the angle between the step `(drow, dcol)` and the velocity `(u, v)`. -/
theorem C20_projection {k : Nat} (hk : k < 9) (h4 : k ≠ 4) {u v : ℝ} (hu : u ≠ 0) :
    ∃ a, defaultAngles Arith.exact Fun.real k = .fin a ∧
      Real.cos (a - Fun.real.arctan2 (-u) v) = (u * defaultJwalk k + v * defaultIwalk k) /
        (Real.sqrt ((defaultJwalk k : ℝ) ^ 2 + (defaultIwalk k : ℝ) ^ 2) * Real.sqrt (u ^ 2 + v ^ 2)) := by
  obtain ⟨a, ha, hc, hs⟩ := angle_default hk h4
  obtain ⟨hc', hs'⟩ := arctan2_cos (v := v) hu
  refine ⟨a, ha, ?_⟩
  rw [Real.cos_sub, hc, hs, hc', hs', div_mul_div_comm, div_mul_div_comm, ← add_div]
  congr 1
  ring

/-- The step to the south (`k = 7`) in a flow to the south has projection factor 1. -/
example : ∃ a, defaultAngles Arith.exact Fun.real 7 = .fin a ∧ Real.cos (a - Fun.real.arctan2 (-2) 0) = 1 := by
  obtain ⟨a, ha, hc⟩ := C20_projection (k := 7) (by norm_num) (by norm_num) (u := 2) (v := 0) (by norm_num)
  refine ⟨a, ha, hc.trans ?_⟩
  have : Real.sqrt 4 = 2 := by rw [show (4 : ℝ) = 2 ^ 2 by norm_num]; exact Real.sqrt_sq (by norm_num)
  norm_num [defaultIwalk, defaultJwalk, this]

theorem Built.angle {P : PObj K} (h : Built A F P) : P.velocityAngle = Grid.zip (npArctan2 A F) (P.u.map Fl.neg) P.v := by
  obtain ⟨p, -, h⟩ := h
  unfold initParticles at h
  simp only [bind_ok, pure_ok, Prod.exists] at h
  obtain ⟨dx, hdx, d, hd, s, hs, qx, qy, u, v, hf, ct, hct, ru, hroi, rfl⟩ := h
  rfl

theorem FieldAt.inv {g : Grid (Fl K)} {p : Int × Int} {x : K} (h : FieldAt g p x) :
    ∃ i j, pyIdx g.rows p.1 = .ok i ∧ pyIdx g.cols p.2 = .ok j ∧ g.at' i j = .fin x := by
  unfold FieldAt Grid.get at h
  simp only [bind_ok, pure_ok] at h
  exact h.imp fun i h => by obtain ⟨h1, j, h2, h3⟩ := h; exact ⟨j, h1, h2, h3⟩

theorem angle_at {P : PObj K} (hB : Built A F P) {p : Int × Int} {va : K} (h : FieldAt P.velocityAngle p va) :
    ∃ u v, FieldAt P.u p u ∧ FieldAt P.v p v ∧ eps8 A ≤ |u| ∧ eps8 A ≤ |v| ∧ va = F.arctan2 (-u) v := by
  have Fd := hB.fields
  obtain ⟨i, j, hi, hj, hat⟩ := h.inv
  rw [Fd.ang.2.1] at hi
  rw [Fd.ang.2.2] at hj
  obtain ⟨u, hu⟩ := Fd.u.1 i j (by rw [Fd.u.2.1]; exact pyIdx_lt hi) (by rw [Fd.u.2.2]; exact pyIdx_lt hj)
  obtain ⟨v, hv⟩ := Fd.v.1 i j (by rw [Fd.v.2.1]; exact pyIdx_lt hi) (by rw [Fd.v.2.2]; exact pyIdx_lt hj)
  refine ⟨u, v, fieldAt_of Fd.u.2.1 Fd.u.2.2 hi hj hu, fieldAt_of Fd.v.2.1 Fd.v.2.2 hi hj hv,
    Fd.u_abs i j u (pyIdx_lt hi) (pyIdx_lt hj) hu, Fd.v_abs i j v (pyIdx_lt hi) (pyIdx_lt hj) hv, ?_⟩
  rw [hB.angle] at hat
  simp only [Grid.zip, Grid.map, hu, hv, Fl.neg, npArctan2] at hat
  injection hat with hat
  exact hat.symm

/-- Default direction tables, positive cell size, `diff_coeff <= 2`: a recorded step from `p` to `q` took positive time iff it has a
positive component along the velocity `(u, v)` at `p`, and no time otherwise. `u` and `v` are the object's own velocity fields. A concrete history is in Props/TimeReal. -/
theorem C20_along_flow {Ob : PObj ℝ → Prop} (hOb : ∀ P, Ob P → Built Arith.exact Fun.real P ∧ DefaultWalk P ∧
      P.angles = defaultAngles Arith.exact Fun.real ∧ 0 < P.dx ∧ P.diffCoeff ≤ 2)
    {P : PObj ℝ} {s : PState ℝ} (h : Reach Arith.exact Fun.real Ob Draws (FinSeed Arith.exact) P s) {wd : WalkData ℝ} (hwd : s.walk = some wd)
    {i n : Nat} {p q : Int × Int} {t t' : Fl ℝ} (hp : wd.posAt i n = some p) (hq : wd.posAt i (n + 1) = some q)
    (ht : wd.timeAt i n = some t) (ht' : wd.timeAt i (n + 1) = some t') :
    ∃ P' x y u v, Ob P' ∧ t = .fin x ∧ t' = .fin y ∧ FieldAt P'.u p u ∧ FieldAt P'.v p v ∧
      (0 < u * (q.1 - p.1 : ℤ) + v * (q.2 - p.2 : ℤ) → x < y) ∧ (u * (q.1 - p.1 : ℤ) + v * (q.2 - p.2 : ℤ) ≤ 0 → x = y) := by
  obtain ⟨P', x, y, hO, hx, hy, k, a, d, vo, vn, va, δ, hk, h4, hq', ha, hd, hvo, hvn, hva, h1, h2, h3, h5, h6, h7⟩ :=
    C19_formula (Ob := Ob) (fun P hP => ⟨(hOb P hP).1, fun k hk => by
      obtain ⟨d, hd, hd0⟩ := (hOb P hP).1.good.dist_pos k hk
      rw [hd]
      intro h0
      injection h0 with h0
      exact (mul_pos hd0 (hOb P hP).2.2.2.1).ne' h0, fun k hk h4 => by
      rw [(hOb P hP).2.2.1]
      obtain ⟨a, ha, -⟩ := angle_default hk h4
      exact ⟨a, ha⟩⟩) h hwd hp hq ht ht'
  obtain ⟨hB, hw, hang, hdx, hD⟩ := hOb P' hO
  obtain ⟨u, v, hu, hv, hu0, hv0, rfl⟩ := angle_at hB hva
  have hune : u ≠ 0 := by
    rintro rfl
    rw [abs_zero] at hu0
    exact absurd hu0 (not_le.2 (eps8_pos _))
  refine ⟨P', x, y, u, v, hO, hx, hy, hu, hv, ?_⟩
  obtain ⟨a', ha', hcos⟩ := C20_projection hk h4 (v := v) hune
  rw [hang, ha'] at ha
  injection ha with ha
  subst ha
  obtain ⟨d', hd', hd0⟩ := hB.good.dist_pos k hk
  rw [hd] at hd'
  injection hd' with hd'
  subst hd'
  have hδ : 0 < 1 + δ := by
    by_cases hz : P'.diffCoeff = 0
    · rw [h5 hz.le]; norm_num
    · have := h6 hz
      linarith
  have hr : q.1 - p.1 = defaultJwalk k := by rw [hq', hw.2]; simp
  have hc : q.2 - p.2 = defaultIwalk k := by rw [hq', hw.1]; simp
  rw [hr, hc]
  have hn1 : 0 < Real.sqrt ((defaultJwalk k : ℝ) ^ 2 + (defaultIwalk k : ℝ) ^ 2) := by
    apply Real.sqrt_pos.2
    have : k = 0 ∨ k = 1 ∨ k = 2 ∨ k = 3 ∨ k = 5 ∨ k = 6 ∨ k = 7 ∨ k = 8 := by omega
    rcases this with rfl | rfl | rfl | rfl | rfl | rfl | rfl | rfl <;> norm_num [defaultIwalk, defaultJwalk]
  have hn2 : 0 < Real.sqrt (u ^ 2 + v ^ 2) := by
    apply Real.sqrt_pos.2
    positivity
  have hcr : (Fun.real).cos (a' - Fun.real.arctan2 (-u) v) = _ := hcos
  rw [hcr] at h7
  have hv2 : 0 < 1 / vo + 1 / vn := by positivity
  constructor
  · intro hpos
    have h8 := div_pos hpos (mul_pos hn1 hn2)
    rw [freeTime, max_eq_right h8.le] at h7
    have : 0 < y - x := by rw [h7]; positivity
    linarith
  · intro hneg
    have h8 := div_nonpos_of_nonpos_of_nonneg hneg (mul_pos hn1 hn2).le
    rw [freeTime, max_eq_left h8] at h7
    simp at h7
    linarith

end Dorado
