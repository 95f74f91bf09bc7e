import Verif.Lemmas.Delay
import Verif.Spec.Delay
import Verif.Props.Law
import Verif.Props.Time
import Verif.Props.StepperTuples
import Mathlib.Probability.Independence.InfinitePi
import Mathlib.Probability.Independence.Integration
import Mathlib.MeasureTheory.Measure.Haar.Unique
import Mathlib.Analysis.SpecialFunctions.Integrals.Basic

/-! # The law of the travel times: C103 -/

set_option linter.unusedSectionVars false

namespace Dorado

open MeasureTheory Finset

section
variable {K : Type} [Field K] [LinearOrder K] [IsStrictOrderedRing K] [FloorRing K]

theorem walk_injective {P : PObj K} (hw : DefaultWalk P) {k k' : Nat} (hk : k < 9) (hk' : k' < 9) (h1 : P.jwalk k = P.jwalk k')
    (h2 : P.iwalk k = P.iwalk k') : k = k' := by
  rw [hw.1] at h2
  rw [hw.2] at h1
  interval_cases k <;> interval_cases k' <;> first | rfl | (exfalso; revert h1 h2; decide)

theorem IsFreeTime.unique {A : Arith K} {F : Fun K A} {P : PObj K} (hw : DefaultWalk P) {p q : Int × Int} {x y : K} (h : IsFreeTime F P p q x)
    (h' : IsFreeTime F P p q y) : x = y := by
  rcases h with ⟨rfl, rfl⟩ | ⟨hne, k, a, d, vo, vn, va, hk, hq, ha, hd, hvo, hvn, hva, rfl⟩
  · rcases h' with ⟨-, rfl⟩ | ⟨hne, -⟩
    · rfl
    · exact absurd rfl hne
  · rcases h' with ⟨rfl, -⟩ | ⟨-, k', a', d', vo', vn', va', hk', hq', ha', hd', hvo', hvn', hva', rfl⟩
    · exact absurd rfl hne
    · have e := hq.symm.trans hq'
      rw [Prod.mk.injEq] at e
      obtain rfl := walk_injective hw hk hk' (by linarith [e.1]) (by linarith [e.2])
      unfold FieldAt at hvo hvn hva hvo' hvn' hva'
      rw [hvo] at hvo'
      rw [hvn] at hvn'
      rw [hva] at hva'
      rw [ha] at ha'
      rw [hd] at hd'
      cases ha'; cases hd'; cases hvo'; cases hvn'; cases hva'
      rfl

theorem TimeAfter.unique {A : Arith K} {F : Fun K A} {P : PObj K} {ω : Nat → K} {s : PState K} {j i : Nat} {t t' : K}
    (h : TimeAfter A F P ω s j i t) (h' : TimeAfter A F P ω s j i t') : t = t' := by
  obtain ⟨s1, w1, wd1, r1, e1, l1⟩ := h
  obtain ⟨s2, w2, wd2, r2, e2, l2⟩ := h'
  obtain ⟨rfl, -⟩ := r1.unique r2
  rw [e1] at e2
  cases e2
  rw [l1] at l2
  cases l2
  rfl

/-- The duration of a move in exact arithmetic. -/
theorem move_duration {F : Fun K (Arith.exact : Arith K)} {P : PObj K} (hB : Built Arith.exact F P) (hz : StepsNonzero Arith.exact P)
    (ha : ∀ k, k < 9 → k ≠ 4 → ∃ a, P.angles k = .fin a) {ω : Nat → K} {p q q0 : Int × Int} {k m m' : Nat} {d dt : Fl K} (hne : p ≠ q)
    (hq0 : newInd1 P p k = .ok q0) (hd : stepUpdate Arith.exact k P.distances P.dx = .ok d)
    (hq : q = checkForBoundary1 (zeroDist q0 d) p P.cellType) (ht : calcTravelTime Arith.exact F P ω m k p q d = .ok (dt, m')) :
    ∃ x, IsFreeTime F P p q x ∧ dt = .fin (x * (1 + (1 / 2 - ω m) * P.diffCoeff)) := by
  have Fd := hB.fields
  have hk : k < 9 ∧ Arith.exact.mul (P.distances k) (.fin P.dx) = d := by
    unfold stepUpdate flat9 at hd
    simp only [bind_ok, pure_ok] at hd
    obtain ⟨a, ha, rfl⟩ := hd
    split at ha
    · injection ha with ha; subst ha; exact ⟨‹_›, rfl⟩
    · cases ha
  obtain ⟨hk, rfl⟩ := hk
  have hzd : zeroDist q0 (Arith.exact.mul (P.distances k) (.fin P.dx)) = q0 := by
    unfold zeroDist
    rw [if_neg]
    have := hz k hk
    intro hh
    cases hm : Arith.exact.mul (P.distances k) (.fin P.dx) <;> rw [hm] at hh this <;> simp [Fl.eq] at hh
    exact this (by rw [hh])
  rw [hzd] at hq
  unfold checkForBoundary1 at hq
  have hedge : edgeInWindow P.cellType p.1 p.2 = false := by
    by_contra he
    rw [if_pos (by simpa using he)] at hq
    exact hne hq.symm
  rw [hedge] at hq
  simp only [Bool.false_eq_true, if_false] at hq
  have h4 : k ≠ 4 := by
    rintro rfl
    unfold newInd1 at hq0
    simp at hq0
    exact hne (by rw [hq, hq0])
  have hdest : q = (p.1 + P.jwalk k, p.2 + P.iwalk k) := by
    unfold newInd1 calculateNewInd flat9 at hq0
    rw [if_pos h4, if_pos hk, if_pos hk] at hq0
    simp only [ok_bind, pure_ok] at hq0
    rw [hq, ← hq0]
  obtain ⟨m2, ht'⟩ := calcTravelTime_draw (ω' := fun _ => ω m) (m' := 0) ht rfl
  obtain ⟨d, hd, hd0⟩ := Fd.good.dist_pos k hk
  rw [hd] at ht'
  obtain ⟨i, j, i', j', vo, vn, va, c, diff, hp⟩ := calcTravelTime_inv Fd hne ht'
  obtain ⟨a, hak⟩ := ha k hk h4
  have hdt := hp.eq
  have hc := hp.c_eq a hak
  simp only [Arith.exact, id] at hc
  have hdiff : diff = (1 / 2 - ω m) * P.diffCoeff := by
    by_cases h0 : 0 < P.diffCoeff
    · obtain ⟨n, hn⟩ := hp.diff_pos h0
      simpa only [Arith.exact, id] using hn
    · rw [hp.diff_zero h0, le_antisymm (not_lt.1 h0) Fd.diff, mul_zero]
  refine ⟨freeTime (d * P.dx) (F.cos (a - va)) vo vn, .inr ⟨hne, k, a, d, vo, vn, va, hk, hdest, hak, hd,
    fieldAt_of Fd.vel_rows Fd.vel_cols hp.oldRow hp.oldCol hp.oldVel,
    fieldAt_of Fd.vel_rows Fd.vel_cols hp.newRow hp.newCol hp.newVel,
    fieldAt_of Fd.ang.2.1 Fd.ang.2.2 hp.oldRow hp.oldCol hp.angle, rfl⟩, ?_⟩
  rw [hdt, ← hdiff]
  simp only [Arith.exact, id, freeTime]
  rw [hc]

/-- Position of the draw that decides the duration of the step of particle `i` in iteration `j`. -/
def delayDraw (P : PObj K) (pos N : Nat) (path : Nat → Nat → Int × Int) (j i : Nat) : Nat :=
  drawsBefore P pos N path j + N + if 0 < P.diffCoeff then
    ((((List.range N).map (path j)).take i).zip (((List.range N).map (path (j + 1))).take i)).countP fun x => decide (x.1 ≠ x.2) else 0

theorem delayDraw_bounds {P : PObj K} {pos N : Nat} {path : Nat → Nat → Int × Int} {j i : Nat} (hi : i < N) (hD : 0 < P.diffCoeff)
    (hm : path j i ≠ path (j + 1) i) :
    drawsBefore P pos N path j + N ≤ delayDraw P pos N path j i ∧ delayDraw P pos N path j i < drawsBefore P pos N path (j + 1) ∧
      ∀ i', i < i' → i' < N → delayDraw P pos N path j i < delayDraw P pos N path j i' := by
  have e : ∀ i, ((((List.range N).map (path j)).take i).zip (((List.range N).map (path (j + 1))).take i)) =
      (((List.range N).map (path j)).zip ((List.range N).map (path (j + 1)))).take i := by
    intro i
    unfold List.zip
    rw [List.take_zipWith]
  have hL : (((List.range N).map (path j)).zip ((List.range N).map (path (j + 1))))[i]? = some (path j i, path (j + 1) i) := by
    rw [List.getElem?_zip_eq_some]
    simp [hi]
  have hs : ∀ i', i < i' → ((((List.range N).map (path j)).zip ((List.range N).map (path (j + 1)))).take i).countP (fun x => decide (x.1 ≠ x.2)) <
      ((((List.range N).map (path j)).zip ((List.range N).map (path (j + 1)))).take i').countP fun x => decide (x.1 ≠ x.2) := by
    intro i' hlt
    have h1 : ((((List.range N).map (path j)).zip ((List.range N).map (path (j + 1)))).take (i + 1)).countP (fun x => decide (x.1 ≠ x.2)) =
        ((((List.range N).map (path j)).zip ((List.range N).map (path (j + 1)))).take i).countP (fun x => decide (x.1 ≠ x.2)) + 1 := by
      rw [List.take_add_one, hL, List.countP_append]
      simp [hm]
    have h2 := (List.take_sublist_take_left (l := ((List.range N).map (path j)).zip ((List.range N).map (path (j + 1)))) (show i + 1 ≤ i' from hlt)).countP_le
      (p := fun x => decide (x.1 ≠ x.2))
    omega
  refine ⟨by unfold delayDraw; omega, ?_, fun i' hlt hi' => ?_⟩
  · have := hs N hi
    have hN : (((List.range N).map (path j)).zip ((List.range N).map (path (j + 1)))).take N =
        ((List.range N).map (path j)).zip ((List.range N).map (path (j + 1))) := List.take_of_length_le (by simp)
    rw [hN] at this
    simp only [delayDraw, drawsBefore, if_pos hD, e, movedAt]
    omega
  · have := hs i' hlt
    simp only [delayDraw, if_pos hD, e]
    omega

/-- The travel times along a path. -/
theorem path_times {F : Fun K (Arith.exact : Arith K)} {R C : Nat} {P : PObj K} (ha : ∀ k, k < 9 → k ≠ 4 → ∃ a, P.angles k = .fin a)
    {ω : Nat → K} (hω : Draws ω) {s : PState K} {N : Nat} {path : Nat → Nat → Int × Int} (h0 : OnPath Arith.exact F R C P ω s N path 0 s)
    {t0 : Nat → K} (ht0 : ∀ i, i < N → TimeAfter Arith.exact F P ω s 0 i (t0 i)) {n : Nat} {base : Nat → Nat → K}
    (hb : ∀ j, j < n → ∀ i, i < N → IsFreeTime F P (path j i) (path (j + 1) i) (base j i)) (hF : Follows Arith.exact F P ω s n path) {j : Nat}
    (hj : j ≤ n) {i : Nat} (hi : i < N) :
    TimeAfter Arith.exact F P ω s j i
      (t0 i + ∑ l ∈ range j, base l i * (1 + (1 / 2 - ω (delayDraw P s.world.pos N path l i)) * P.diffCoeff)) := by
  have hon : ∀ j, j ≤ n → ∃ s', OnPath Arith.exact F R C P ω s N path j s' := fun j hj =>
    (follows_iff hω h0 j).1 fun l hl => hF l (by omega)
  induction j with
  | zero => simpa using ht0 i hi
  | succ j ih =>
    obtain ⟨s1, w1, wd1, hruns1, hwd1, hlt1⟩ := ih (by omega)
    obtain ⟨s', hs'⟩ := hon j (by omega)
    obtain ⟨s'', hs''⟩ := hon (j + 1) hj
    obtain ⟨⟨w, hruns⟩, hreach, ⟨rows, hr, hlen, hlast⟩, hpos⟩ := hs'
    obtain ⟨⟨w', hruns'⟩, -, ⟨rows', hr', hlen', hlast'⟩, -⟩ := hs''
    obtain ⟨rfl, -⟩ := hruns1.unique hruns
    generalize hm : j + 1 = m at hruns'
    cases hruns' with
    | zero => omega
    | @succ j1 s2 w2 res hr2 hres =>
      obtain rfl : j = j1 := by omega
      obtain ⟨rfl, -⟩ := hruns1.unique hr2
      rw [hr.1] at hwd1
      cases hwd1
      obtain ⟨r, hri, hrt⟩ := lastTime_ofRows.1 hlt1
      obtain ⟨hpe, hbad | ⟨rows0, hr0, hok⟩⟩ := Enclosed.rowsOk hreach
      · rw [hr.1] at hbad; cases hbad
      have hin : ∀ r ∈ rows, ∀ p, r.lastPos p → p ≠ (0, 0) := by
        intro r hrm p hp
        obtain ⟨i, hi⟩ := List.getElem?_of_mem hrm
        have hp' : (ofRows (keysOf P) rows).lastPos i = some p := lastPos_ofRows.2 ⟨r, hi, hp⟩
        have e : ofRows (keysOf P) rows = ofRows (keysOf P) rows0 := by
          have := hr.1.symm.trans hr0.1
          injection this
        rw [e] at hp'
        obtain ⟨r0, hr0i, hp0⟩ := lastPos_ofRows.1 hp'
        obtain ⟨hv, hin⟩ := hok r0 (List.mem_of_getElem? hr0i)
        have hal := hv.aligned
        have hne : r0.ts ≠ [] := by
          intro h0
          have h1 := hal.2.1
          have h2 := hal.2.2
          rw [h0] at h1
          simp at h1
          omega
        exact inside_ne (hin _ p _ (Row.last_rec hal hp0 (List.getLast?_eq_some_getLast hne)))
      have hi' : i < rows'.length := by omega
      have hO := hreach.obj
      have hcur : ∀ (i : Nat) r p, rows[i]? = some r → r.lastPos p → ((List.range N).map (path j))[i]? = some p := by
        intro i r p hri hp
        have hi : i < N := by rw [← hlen]; exact (List.getElem?_eq_some_iff.1 hri).1
        rw [Row.lastPos_unique hp (hlast i r hri)]
        simp [hi]
      have hnews : ∀ (i : Nat) r' q, rows'[i]? = some r' → ((List.range N).map (path (j + 1)))[i]? = some q → r'.lastPos q := by
        intro i r' q hri hq
        have hi : i < N := by rw [← hlen']; exact (List.getElem?_eq_some_iff.1 hri).1
        simp [hi] at hq
        subst hq
        exact hlast' i r' hri
      have key := runIteration_delay hO.built.good hpe hr hin hres hr' (by simp [hlen]) (by simp [hlen]) hcur hnews hri
        (List.getElem?_eq_getElem hi') (hlast i r hri) (hlast' i _ (List.getElem?_eq_getElem hi')) hrt
      refine ⟨_, _, _, .succ hruns1 hres, hr'.1, lastTime_ofRows.2 ⟨_, List.getElem?_eq_getElem hi', ?_⟩⟩
      rw [sum_range_succ, ← add_assoc]
      rcases key with ⟨hst, hl⟩ | ⟨hmv, k, q0, d, dt, m, c1, c2, c3, c4, c5⟩
      · rw [hl]
        have : base j i = 0 := by
          rcases hb j (by omega) i hi with ⟨-, h⟩ | ⟨h, -⟩
          · exact h
          · exact absurd hst h
        rw [this, zero_mul, add_zero]
      · obtain ⟨x, hx, rfl⟩ := move_duration hO.built hO.steps ha hmv c1 c2 c3 c4
        rw [c5, hx.unique hO.walk (hb j (by omega) i hi)]
        have : s1.world.pos + rows.length + (if 0 < P.diffCoeff then
            ((((List.range N).map (path j)).take i).zip (((List.range N).map (path (j + 1))).take i)).countP (fun x => decide (x.1 ≠ x.2)) else 0) =
            delayDraw P s.world.pos N path j i := by
          rw [hpos, hlen]
          rfl
        rw [this]
        simp [Arith.add, Arith.exact]

end

/-! ## Independent uniform draws -/

/-- Conditions on different draws, sorted by draw. -/
theorem event_image {ι : Type} (S : Finset ι) (c : ι → Nat) (hinj : Set.InjOn c S) (t : ι → Set ℝ) (ht : ∀ x ∈ S, MeasurableSet (t x)) :
    ∃ u : Nat → Set ℝ, (∀ m ∈ S.image c, MeasurableSet (u m)) ∧ (∀ x ∈ S, u (c x) = t x) ∧
      {ω : Nat → ℝ | ∀ x ∈ S, ω (c x) ∈ t x} = {ω | ∀ m ∈ S.image c, ω m ∈ u m} := by
  set u : Nat → Set ℝ := fun m => {r | ∀ x ∈ S, c x = m → r ∈ t x} with hu
  have huc : ∀ x ∈ S, u (c x) = t x := by
    intro x hx
    ext r
    exact ⟨fun hh => hh x hx rfl, fun hh y hy e => by rw [hinj (mem_coe.2 hy) (mem_coe.2 hx) e]; exact hh⟩
  refine ⟨u, fun m hm => ?_, huc, ?_⟩
  · obtain ⟨x, hx, rfl⟩ := mem_image.1 hm
    rw [huc x hx]
    exact ht x hx
  · ext ω
    simp only [Set.mem_ofPred_eq, mem_image]
    constructor
    · rintro hh m ⟨x, hx, rfl⟩
      rw [huc x hx]
      exact hh x hx
    · intro hh x hx
      have := hh (c x) ⟨x, hx, rfl⟩
      rwa [huc x hx] at this

theorem draws_prod {ι : Type} (S : Finset ι) (c : ι → Nat) (hinj : Set.InjOn c S) (t : ι → Set ℝ) (ht : ∀ x ∈ S, MeasurableSet (t x)) :
    uniformDraws {ω | ∀ x ∈ S, ω (c x) ∈ t x} = ∏ x ∈ S, volume.restrict (Set.Ico (0 : ℝ) 1) (t x) := by
  obtain ⟨u, hm, huc, e⟩ := event_image S c hinj t ht
  have hset : {ω : Nat → ℝ | ∀ m ∈ S.image c, ω m ∈ u m} = Set.pi (S.image c : Finset Nat) u := by
    ext ω
    simp [Set.mem_pi]
  rw [e, hset, uniformDraws, Measure.infinitePi_pi, prod_image hinj]
  · exact prod_congr rfl fun x hx => by rw [huc x hx]
  · exact hm

instance : IsProbabilityMeasure uniformDraws := by unfold uniformDraws; infer_instance

theorem draws_iIndep : ProbabilityTheory.iIndepFun (fun (m : Nat) (ω : Nat → ℝ) => ω m) uniformDraws :=
  ProbabilityTheory.iIndepFun_infinitePi (X := fun _ ω => ω) (by fun_prop)

/-- An event decided by some draws does not tell anything about two others. -/
theorem event_indep {S : Finset Nat} {t : Nat → Set ℝ} (ht : ∀ m ∈ S, MeasurableSet (t m)) {a b : Nat} (ha : a ∉ S) (hb : b ∉ S)
    {g : ℝ × ℝ → ℝ} (hg : Measurable g) :
    ∫ ω in {ω | ∀ m ∈ S, ω m ∈ t m}, g (ω a, ω b) ∂uniformDraws =
      uniformDraws.real {ω | ∀ m ∈ S, ω m ∈ t m} * ∫ ω, g (ω a, ω b) ∂uniformDraws := by
  have hE : MeasurableSet {ω : Nat → ℝ | ∀ m ∈ S, ω m ∈ t m} := by
    have : {ω : Nat → ℝ | ∀ m ∈ S, ω m ∈ t m} = ⋂ m ∈ S, (fun ω : Nat → ℝ => ω m) ⁻¹' t m := by
      ext ω
      simp
    rw [this]
    exact S.measurableSet_biInter fun m hm => measurable_pi_apply m (ht m hm)
  have hind := draws_iIndep.indepFun_finset S {a, b} (by
    rw [Finset.disjoint_left]
    intro m hm hm'
    simp only [mem_insert, mem_singleton] at hm'
    rcases hm' with rfl | rfl
    · exact ha hm
    · exact hb hm) fun m => measurable_pi_apply m
  have hS : MeasurableSet {f : S → ℝ | ∀ m : S, f m ∈ t m} := by
    have : {f : S → ℝ | ∀ m : S, f m ∈ t m} = ⋂ m : S, (fun f : S → ℝ => f m) ⁻¹' t m := by
      ext ω
      simp
    rw [this]
    exact MeasurableSet.iInter fun m => measurable_pi_apply m (ht m m.2)
  have m1 : Measurable (Set.indicator {f : S → ℝ | ∀ m : S, f m ∈ t m} fun _ => (1 : ℝ)) := measurable_const.indicator hS
  have m2 : Measurable fun f : ({a, b} : Finset Nat) → ℝ => g (f ⟨a, by simp⟩, f ⟨b, by simp⟩) :=
    hg.comp ((measurable_pi_apply _).prodMk (measurable_pi_apply _))
  have hind2 := hind.comp (φ := Set.indicator {f : S → ℝ | ∀ m : S, f m ∈ t m} fun _ => (1 : ℝ))
    (ψ := fun f : ({a, b} : Finset Nat) → ℝ => g (f ⟨a, by simp⟩, f ⟨b, by simp⟩)) m1 m2
  have hmul := hind2.integral_fun_mul_eq_mul_integral (m1.comp (by fun_prop)).aestronglyMeasurable
    (m2.comp (by fun_prop)).aestronglyMeasurable
  have e1 : (Set.indicator {f : S → ℝ | ∀ m : S, f m ∈ t m} (fun _ => (1 : ℝ)) ∘ fun (ω : Nat → ℝ) (m : S) => ω m) =
      Set.indicator {ω : Nat → ℝ | ∀ m ∈ S, ω m ∈ t m} fun _ => 1 := by
    ext ω
    by_cases h : ∀ m ∈ S, ω m ∈ t m
    · rw [Function.comp, Set.indicator_of_mem (show (fun m : S => ω m) ∈ {f : S → ℝ | ∀ m : S, f m ∈ t m} from fun m => h m m.2),
        Set.indicator_of_mem (show ω ∈ {ω : Nat → ℝ | ∀ m ∈ S, ω m ∈ t m} from h)]
    · rw [Function.comp, Set.indicator_of_notMem (show (fun m : S => ω m) ∉ {f : S → ℝ | ∀ m : S, f m ∈ t m} from
        fun hh => h fun m hm => hh ⟨m, hm⟩), Set.indicator_of_notMem (show ω ∉ {ω : Nat → ℝ | ∀ m ∈ S, ω m ∈ t m} from h)]
  have e2 : ∫ ω, Set.indicator {ω : Nat → ℝ | ∀ m ∈ S, ω m ∈ t m} (fun _ => (1 : ℝ)) ω ∂uniformDraws =
      uniformDraws.real {ω | ∀ m ∈ S, ω m ∈ t m} := integral_indicator_one hE
  rw [e1, e2] at hmul
  rw [← integral_indicator hE]
  refine Eq.trans ?_ hmul
  congr 1
  ext ω
  by_cases h : ω ∈ {ω : Nat → ℝ | ∀ m ∈ S, ω m ∈ t m}
  · rw [Set.indicator_of_mem h, Set.indicator_of_mem h, one_mul]
    rfl
  · rw [Set.indicator_of_notMem h, Set.indicator_of_notMem h, zero_mul]

/-! ## The walk and its times -/

theorem start_onPath {F : Fun ℝ Arith.exact} {R C : Nat} {P : PObj ℝ} {s : PState ℝ}
    (h : Reach Arith.exact F (Enclosed Arith.exact F R C) Draws (InsideSeeds R C) P s) {wd : WalkData ℝ}
    (hwd : s.walk = some wd) {N : Nat} (hN : wd.xinds.length = N) {path : Nat → Nat → Int × Int}
    (h0 : ∀ i, i < N → wd.lastPos i = some (path 0 i)) :
    (∀ ω, OnPath Arith.exact F R C P ω s N path 0 s) ∧ ∀ i, i < N → Inside R C (path 0 i) := by
  obtain ⟨hpe, hbad | ⟨rows, hr, hok⟩⟩ := Enclosed.rowsOk h
  · rw [hwd] at hbad; cases hbad
  have hwd' := hwd
  rw [hr.1] at hwd'
  cases hwd'
  have hlen : rows.length = N := by simpa [ofRows] using hN
  refine ⟨fun ω => ⟨⟨_, .zero⟩, h, ⟨rows, hr, hlen, fun i r hri => ?_⟩, rfl⟩, fun i hi => ?_⟩
  · have hi : i < N := by rw [← hlen]; exact (List.getElem?_eq_some_iff.1 hri).1
    obtain ⟨r', hr', hp⟩ := lastPos_ofRows.1 (h0 i hi)
    rw [hri] at hr'
    cases hr'
    exact hp
  · obtain ⟨r', hr', hp⟩ := lastPos_ofRows.1 (h0 i hi)
    obtain ⟨hv, hin⟩ := hok r' (List.mem_of_getElem? hr')
    have hal := hv.aligned
    have hne : r'.ts ≠ [] := by
      intro h0
      have h1 := hal.2.1
      have h2 := hal.2.2
      rw [h0] at h1
      simp at h1
      omega
    exact hin _ _ _ (Row.last_rec hal hp (List.getLast?_eq_some_getLast hne))

/-- The draws that take particle `x.2` along the path in iteration `x.1`. -/
def landing (F : Fun ℝ Arith.exact) (P : PObj ℝ) (path : Nat → Nat → Int × Int) (x : Nat × Nat) : Set ℝ :=
  {r | 0 ≤ r ∧ r < 1 ∧ Lands Arith.exact F P (path x.1 x.2) r (path (x.1 + 1) x.2)}

theorem follows_event {F : Fun ℝ Arith.exact} {R C : Nat} {P : PObj ℝ} {s : PState ℝ} {N : Nat} {path : Nat → Nat → Int × Int}
    (h0 : ∀ ω, OnPath Arith.exact F R C P ω s N path 0 s) (n : Nat) : {ω | Follows Arith.exact F P ω s n path} =ᵐ[uniformDraws]
      {ω | ∀ x ∈ range n ×ˢ range N, ω (drawsBefore P s.world.pos N path x.1 + x.2) ∈ landing F P path x} := by
  rw [Filter.eventuallyEq_set]
  filter_upwards [uniformDraws_nonzero] with ω hω
  rw [(follows_iff hω.1 (h0 ω) n).2]
  simp only [mem_product, mem_range, landing, Set.mem_ofPred_eq]
  exact ⟨fun hh x hx => ⟨(hω.1 _).1, (hω.1 _).2, hh x.1 hx.1 x.2 hx.2⟩, fun hh j hj i hi => (hh (j, i) ⟨hj, hi⟩).2.2⟩

theorem landDraw_inj {P : PObj ℝ} {pos N : Nat} {path : Nat → Nat → Int × Int} {x y : Nat × Nat} (hx : x.2 < N) (hy : y.2 < N)
    (e : drawsBefore P pos N path x.1 + x.2 = drawsBefore P pos N path y.1 + y.2) : x = y := by
  obtain ⟨j, i⟩ := x
  obtain ⟨j', i'⟩ := y
  simp only at hx hy e
  rcases Nat.lt_trichotomy j j' with hlt | rfl | hlt
  · have := drawsBefore_le P pos N path hlt
    omega
  · simp only [Prod.mk.injEq, true_and]
    omega
  · have := drawsBefore_le P pos N path hlt
    omega

theorem drawsBefore_mono (P : PObj ℝ) (pos N : Nat) (path : Nat → Nat → Int × Int) {j k : Nat} (h : j ≤ k) :
    drawsBefore P pos N path j ≤ drawsBefore P pos N path k := by
  rcases Nat.lt_or_ge j k with h1 | h1
  · have := drawsBefore_le P pos N path h1
    omega
  · obtain rfl : j = k := by omega
    exact le_rfl

theorem delayDraw_inj {P : PObj ℝ} {pos N : Nat} {path : Nat → Nat → Int × Int} (hD : 0 < P.diffCoeff) {x y : Nat × Nat} (hx : x.2 < N) (hy : y.2 < N)
    (mx : path x.1 x.2 ≠ path (x.1 + 1) x.2) (my : path y.1 y.2 ≠ path (y.1 + 1) y.2)
    (e : delayDraw P pos N path x.1 x.2 = delayDraw P pos N path y.1 y.2) : x = y := by
  obtain ⟨j, i⟩ := x
  obtain ⟨j', i'⟩ := y
  simp only at hx hy e mx my
  obtain ⟨a1, a2, a3⟩ := delayDraw_bounds (pos := pos) hx hD mx
  obtain ⟨b1, b2, b3⟩ := delayDraw_bounds (pos := pos) hy hD my
  rcases Nat.lt_trichotomy j j' with hlt | rfl | hlt
  · have := drawsBefore_mono P pos N path (show j + 1 ≤ j' from hlt)
    omega
  · rcases Nat.lt_trichotomy i i' with hl | rfl | hl
    · have := a3 i' hl hy
      omega
    · rfl
    · have := b3 i hl hx
      omega
  · have := drawsBefore_mono P pos N path (show j' + 1 ≤ j from hlt)
    omega

theorem delayDraw_ne {P : PObj ℝ} {pos N : Nat} {path : Nat → Nat → Int × Int} (hD : 0 < P.diffCoeff) {x y : Nat × Nat} (hx : x.2 < N) (hy : y.2 < N)
    (my : path y.1 y.2 ≠ path (y.1 + 1) y.2) : drawsBefore P pos N path x.1 + x.2 ≠ delayDraw P pos N path y.1 y.2 := by
  intro e
  obtain ⟨b1, b2, -⟩ := delayDraw_bounds (pos := pos) hy hD my
  rcases Nat.lt_or_ge y.1 x.1 with hlt | hge
  · have := drawsBefore_mono P pos N path (show y.1 + 1 ≤ x.1 from hlt)
    omega
  · have := drawsBefore_mono P pos N path hge
    omega

theorem path_inside {F : Fun ℝ Arith.exact} {R C : Nat} {P : PObj ℝ} (hP : Enclosed Arith.exact F R C P) {n N : Nat}
    {path : Nat → Nat → Int × Int} (h0 : ∀ i, i < N → Inside R C (path 0 i))
    (hne : ∏ j ∈ range n, ∏ i ∈ range N, moveProb (flowOf F P) P (path j i) (path (j + 1) i) ≠ 0) {j i : Nat} (hj : j < n) (hi : i < N) :
    Inside R C (path j i) := by
  induction j with
  | zero => exact h0 i hi
  | succ j ih =>
    by_contra hc
    refine hne (prod_eq_zero (mem_range.2 (show j < n by omega)) (prod_eq_zero (mem_range.2 hi) ?_))
    exact moveProb_outside hP (ih (by omega)) hc

theorem delayProb_eq {D x : ℝ} {B : Set ℝ} (hB : MeasurableSet B) :
    volume.restrict (Set.Ico (0 : ℝ) 1) {r : ℝ | x * (1 + (1 / 2 - r) * D) ∈ B} = delayProb D x B := by
  have hm : MeasurableSet {u : ℝ | x * (1 + u * D) ∈ B} := (by fun_prop : Measurable fun u : ℝ => x * (1 + u * D)) hB
  have hm2 : MeasurableSet {r : ℝ | x * (1 + (1 / 2 - r) * D) ∈ B} := (by fun_prop : Measurable fun r : ℝ => x * (1 + (1 / 2 - r) * D)) hB
  rw [Measure.restrict_apply hm2]
  have e1 : {r : ℝ | x * (1 + (1 / 2 - r) * D) ∈ B} ∩ Set.Ico 0 1 =
      (fun r : ℝ => 1 / 2 - r) ⁻¹' ({u : ℝ | x * (1 + u * D) ∈ B} ∩ Set.Ioc (-(1 / 2)) (1 / 2)) := by
    ext r
    simp only [Set.mem_inter_iff, Set.mem_preimage, Set.mem_ofPred_eq, Set.mem_Ico, Set.mem_Ioc]
    refine and_congr_right fun _ => ⟨fun hh => ⟨?_, ?_⟩, fun hh => ⟨?_, ?_⟩⟩ <;> linarith [hh.1, hh.2]
  have hp : MeasurePreserving (fun r : ℝ => 1 / 2 - r) volume volume := Measure.measurePreserving_sub_left volume (1 / 2)
  rw [e1, hp.measure_preimage (hm.inter measurableSet_Ioc).nullMeasurableSet]
  unfold delayProb
  refine measure_congr ?_
  rw [Filter.eventuallyEq_set]
  have : ∀ᵐ u : ℝ, u ≠ -(1 / 2) := by simp [ae_iff]
  filter_upwards [this] with u hu
  simp only [Set.mem_inter_iff, Set.mem_ofPred_eq, Set.mem_Ioc]
  rw [abs_le]
  exact ⟨fun hh => ⟨⟨hh.2.1.le, hh.2.2⟩, hh.1⟩, fun hh => ⟨hh.2, lt_of_le_of_ne hh.1.1 (Ne.symm hu), hh.1.2⟩⟩

/-- A duration without scatter. -/
theorem delayProb_fixed {D x : ℝ} {B : Set ℝ} (h : x * D = 0) : delayProb D x B = Set.indicator B (fun _ => 1) x := by
  have e : ∀ u : ℝ, x * (1 + u * D) = x := fun u => by
    rw [mul_add, mul_one, mul_left_comm, h, mul_zero, add_zero]
  unfold delayProb
  simp only [e]
  by_cases hx : x ∈ B
  · rw [Set.indicator_of_mem hx]
    have : {u : ℝ | |u| ≤ 1 / 2 ∧ x ∈ B} = Set.Icc (-(1 / 2)) (1 / 2) := by
      ext u
      simp only [Set.mem_ofPred_eq, Set.mem_Icc, abs_le]
      exact ⟨fun h => h.1, fun h => ⟨h, hx⟩⟩
    rw [this, Real.volume_Icc]
    norm_num
  · rw [Set.indicator_of_notMem hx]
    simp [hx]

/-- The law of the walks and their durations together with conditions on the draws used before. -/
theorem law_after {F : Fun ℝ Arith.exact} {R C : Nat} {P : PObj ℝ} {s : PState ℝ}
    (h : Reach Arith.exact F (Enclosed Arith.exact F R C) Draws (InsideSeeds R C) P s)
    (ha : ∀ k, k < 9 → k ≠ 4 → ∃ a, P.angles k = .fin a) {wd : WalkData ℝ} (hwd : s.walk = some wd) {N : Nat} (hN : wd.xinds.length = N)
    (ht0 : ∀ i, i < N → ∃ t, wd.lastTime i = some (.fin t)) (n : Nat) (path : Nat → Nat → Int × Int)
    (h0 : ∀ i, i < N → wd.lastPos i = some (path 0 i)) (base : Nat → Nat → ℝ)
    (hb : ∀ j, j < n → ∀ i, i < N → IsFreeTime F P (path j i) (path (j + 1) i) (base j i)) (B : Nat → Nat → Set ℝ)
    (hB : ∀ j i, MeasurableSet (B j i)) {u : Nat → Set ℝ} (hu : ∀ m, MeasurableSet (u m)) :
    uniformDraws {ω | (∀ m, m < s.world.pos → ω m ∈ u m) ∧ Follows Arith.exact F P ω s n path ∧ ∀ j, j < n → ∀ i, i < N → TakesIn Arith.exact F P ω s j i (B j i)} =
      (∏ m ∈ range s.world.pos, volume.restrict (Set.Ico (0 : ℝ) 1) (u m)) *
        ∏ j ∈ range n, ∏ i ∈ range N, moveProb (flowOf F P) P (path j i) (path (j + 1) i) * delayProb P.diffCoeff (base j i) (B j i) := by
  have hO := h.obj
  obtain ⟨hstart, hin0⟩ := start_onPath h hwd hN h0
  have hsplit : ∏ j ∈ range n, ∏ i ∈ range N, moveProb (flowOf F P) P (path j i) (path (j + 1) i) * delayProb P.diffCoeff (base j i) (B j i) =
      (∏ j ∈ range n, ∏ i ∈ range N, moveProb (flowOf F P) P (path j i) (path (j + 1) i)) *
        ∏ j ∈ range n, ∏ i ∈ range N, delayProb P.diffCoeff (base j i) (B j i) := by
    simp only [prod_mul_distrib]
  rw [hsplit]
  by_cases hz : ∏ j ∈ range n, ∏ i ∈ range N, moveProb (flowOf F P) P (path j i) (path (j + 1) i) = 0
  · rw [hz, zero_mul, mul_zero]
    refine le_antisymm ?_ bot_le
    rw [← hz, ← C75_law h hwd hN n path h0]
    exact measure_mono fun ω hω => hω.2.1
  have hall : ∀ j, j < n → ∀ i, i < N → Inside R C (path j i) := fun j hj i hi => path_inside hO hin0 hz hj hi
  choose! t0 ht0 using ht0
  -- durations along the path
  have htake : ∀ ω, Draws ω → Follows Arith.exact F P ω s n path → ∀ j, j < n → ∀ i, i < N → (TakesIn Arith.exact F P ω s j i (B j i) ↔
      base j i * (1 + (1 / 2 - ω (delayDraw P s.world.pos N path j i)) * P.diffCoeff) ∈ B j i) := by
    intro ω hω hF j hj i hi
    have hT := fun l (hl : l ≤ n) => path_times (R := R) (C := C) ha hω (hstart ω) (t0 := t0)
      (fun i hi => ⟨s, none, wd, .zero, hwd, ht0 i hi⟩) hb hF hl hi
    have h1 := hT j (by omega)
    have h2 := hT (j + 1) (by omega)
    rw [sum_range_succ, ← add_assoc] at h2
    constructor
    · rintro ⟨t, t', g1, g2, g3⟩
      rw [g1.unique h1, g2.unique h2, add_sub_cancel_left] at g3
      exact g3
    · intro hh
      exact ⟨_, _, h1, h2, by rw [add_sub_cancel_left]; exact hh⟩
  set I : Finset (Nat × Nat) := range n ×ˢ range N with hI
  classical
  set M : Finset (Nat × Nat) := I.filter fun x => 0 < P.diffCoeff ∧ path x.1 x.2 ≠ path (x.1 + 1) x.2 with hM
  have hfix : ∀ x ∈ I, x ∉ M → base x.1 x.2 * P.diffCoeff = 0 := by
    intro x hx hxM
    rw [hI, mem_product, mem_range, mem_range] at hx
    by_cases hD : 0 < P.diffCoeff
    · have hm : path x.1 x.2 = path (x.1 + 1) x.2 := by
        by_contra hm
        exact hxM (mem_filter.2 ⟨by rw [hI, mem_product, mem_range, mem_range]; exact hx, hD, hm⟩)
      rcases hb x.1 hx.1 x.2 hx.2 with ⟨-, h⟩ | ⟨h, -⟩
      · rw [h, zero_mul]
      · exact absurd hm h
    · have : P.diffCoeff = 0 := le_antisymm (not_lt.1 hD) hO.built.fields.diff
      rw [this, mul_zero]
  rw [← prod_product', ← prod_product']
  by_cases hbad : ∃ x ∈ I, x ∉ M ∧ base x.1 x.2 ∉ B x.1 x.2
  · obtain ⟨x, hx, hxM, hxB⟩ := hbad
    rw [prod_eq_zero (f := fun x : Nat × Nat => delayProb P.diffCoeff (base x.1 x.2) (B x.1 x.2)) hx
      (by rw [delayProb_fixed (hfix x hx hxM), Set.indicator_of_notMem hxB]), mul_zero, mul_zero]
    have : {ω | (∀ m, m < s.world.pos → ω m ∈ u m) ∧ Follows Arith.exact F P ω s n path ∧ ∀ j, j < n → ∀ i, i < N → TakesIn Arith.exact F P ω s j i (B j i)} =ᵐ[uniformDraws]
        (∅ : Set (Nat → ℝ)) := by
      rw [Filter.eventuallyEq_set]
      filter_upwards [uniformDraws_nonzero] with ω hω
      simp only [Set.mem_empty_iff_false, iff_false]
      rintro ⟨-, hF, hT⟩
      have hx' := hx
      rw [hI, mem_product, mem_range, mem_range] at hx'
      have := (htake ω hω.1 hF x.1 hx'.1 x.2 hx'.2).1 (hT _ hx'.1 _ hx'.2)
      rw [mul_add, mul_one, mul_left_comm, hfix x hx hxM, mul_zero, add_zero] at this
      exact hxB this
    rw [measure_congr this]
    simp
  push Not at hbad
  have hprod : ∏ x ∈ I, delayProb P.diffCoeff (base x.1 x.2) (B x.1 x.2) = ∏ x ∈ M, delayProb P.diffCoeff (base x.1 x.2) (B x.1 x.2) := by
    symm
    refine prod_subset (filter_subset _ _) fun x hx hxM => ?_
    rw [delayProb_fixed (hfix x hx hxM), Set.indicator_of_mem (hbad x hx hxM)]
  rw [hprod]
  set S : Finset (((Nat × Nat) ⊕ (Nat × Nat)) ⊕ Nat) := (I.disjSum M).disjSum (range s.world.pos) with hS
  set c : ((Nat × Nat) ⊕ (Nat × Nat)) ⊕ Nat → Nat := Sum.elim (Sum.elim (fun x => drawsBefore P s.world.pos N path x.1 + x.2)
    fun x => delayDraw P s.world.pos N path x.1 x.2) id with hc
  set t : ((Nat × Nat) ⊕ (Nat × Nat)) ⊕ Nat → Set ℝ := Sum.elim (Sum.elim (landing F P path)
    fun x => {r | base x.1 x.2 * (1 + (1 / 2 - r) * P.diffCoeff) ∈ B x.1 x.2}) u with ht
  have hev : {ω | (∀ m, m < s.world.pos → ω m ∈ u m) ∧ Follows Arith.exact F P ω s n path ∧ ∀ j, j < n → ∀ i, i < N → TakesIn Arith.exact F P ω s j i (B j i)} =ᵐ[uniformDraws]
      {ω | ∀ x ∈ S, ω (c x) ∈ t x} := by
    have h1 := follows_event hstart n
    rw [Filter.eventuallyEq_set] at h1 ⊢
    filter_upwards [uniformDraws_nonzero, h1] with ω hω h1
    simp only [hS, mem_disjSum] at h1 ⊢
    constructor
    · rintro ⟨hm, hF, hT⟩ x (⟨x, ⟨y, hy, rfl⟩ | ⟨y, hy, rfl⟩, rfl⟩ | ⟨y, hy, rfl⟩)
      · exact h1.1 hF y hy
      · have hy' := mem_of_mem_filter _ hy
        rw [hI, mem_product, mem_range, mem_range] at hy'
        exact (htake ω hω.1 hF y.1 hy'.1 y.2 hy'.2).1 (hT _ hy'.1 _ hy'.2)
      · exact hm y (mem_range.1 hy)
    · intro hh
      have hF := h1.2 fun x hx => hh (.inl (.inl x)) (.inl ⟨.inl x, .inl ⟨x, hx, rfl⟩, rfl⟩)
      refine ⟨fun m hm => hh (.inr m) (.inr ⟨m, mem_range.2 hm, rfl⟩), hF, fun j hj i hi => (htake ω hω.1 hF j hj i hi).2 ?_⟩
      have hji : (j, i) ∈ I := by rw [hI, mem_product, mem_range, mem_range]; exact ⟨hj, hi⟩
      by_cases hm : (j, i) ∈ M
      · exact hh (.inl (.inr (j, i))) (.inl ⟨.inr (j, i), .inr ⟨_, hm, rfl⟩, rfl⟩)
      · have := hfix _ hji hm
        simp only at this
        rw [mul_add, mul_one, mul_left_comm, this, mul_zero, add_zero]
        exact hbad _ hji hm
  have hIm : ∀ x ∈ I, x.1 < n ∧ x.2 < N := fun x hx => by rwa [hI, mem_product, mem_range, mem_range] at hx
  have hge1 : ∀ x : Nat × Nat, s.world.pos ≤ drawsBefore P s.world.pos N path x.1 + x.2 := fun x => by
    have : drawsBefore P s.world.pos N path 0 ≤ drawsBefore P s.world.pos N path x.1 := drawsBefore_mono P s.world.pos N path (Nat.zero_le _)
    change s.world.pos ≤ _ at this
    omega
  have hge2 : ∀ x : Nat × Nat, s.world.pos ≤ delayDraw P s.world.pos N path x.1 x.2 := fun x => by
    have : drawsBefore P s.world.pos N path 0 ≤ drawsBefore P s.world.pos N path x.1 := drawsBefore_mono P s.world.pos N path (Nat.zero_le _)
    change s.world.pos ≤ _ at this
    unfold delayDraw
    omega
  have hge : ∀ x, s.world.pos ≤ c (.inl x) := by
    rintro (x | x)
    · exact hge1 x
    · exact hge2 x
  rw [measure_congr hev, draws_prod S c ?_ t ?_, hS, prod_disjSum, prod_disjSum, mul_comm]
  · congr 1
    congr 1
    · refine prod_congr rfl fun x hx => ?_
      obtain ⟨h1, h2⟩ := lands_volume hO (hall x.1 (hIm x hx).1 x.2 (hIm x hx).2) (path (x.1 + 1) x.2)
      rw [← h2]
      show volume.restrict (Set.Ico (0 : ℝ) 1) (landing F P path x) = _
      unfold landing
      rw [Measure.restrict_apply h1]
      congr 1
      ext r
      simp only [Set.mem_inter_iff, Set.mem_ofPred_eq, Set.mem_Ico]
      tauto
    · exact prod_congr rfl fun x _ => delayProb_eq (hB _ _)
  · rintro (x | x) hx (y | y) hy e
    · rw [mem_coe, hS, inl_mem_disjSum] at hx hy
      refine congrArg Sum.inl ?_
      rcases x with x | x <;> rcases y with y | y
      · rw [inl_mem_disjSum] at hx hy
        rw [landDraw_inj (hIm x hx).2 (hIm y hy).2 e]
      · rw [inl_mem_disjSum] at hx
        rw [inr_mem_disjSum] at hy
        obtain ⟨hyI, hD, hm⟩ := mem_filter.1 hy
        exact absurd e (delayDraw_ne hD (hIm x hx).2 (hIm y hyI).2 hm)
      · rw [inl_mem_disjSum] at hy
        rw [inr_mem_disjSum] at hx
        obtain ⟨hxI, hD, hm⟩ := mem_filter.1 hx
        exact absurd e.symm (delayDraw_ne hD (hIm y hy).2 (hIm x hxI).2 hm)
      · rw [inr_mem_disjSum] at hx hy
        obtain ⟨hxI, hD, hm⟩ := mem_filter.1 hx
        obtain ⟨hyI, -, hm'⟩ := mem_filter.1 hy
        rw [delayDraw_inj hD (hIm x hxI).2 (hIm y hyI).2 hm hm' e]
    · rw [mem_coe, hS, inr_mem_disjSum, mem_range] at hy
      have := hge x
      rw [e] at this
      change s.world.pos ≤ y at this
      omega
    · rw [mem_coe, hS, inr_mem_disjSum, mem_range] at hx
      have := hge y
      rw [← e] at this
      change s.world.pos ≤ x at this
      omega
    · exact congrArg Sum.inr e
  · rintro ((x | x) | x) hx
    · rw [hS, inl_mem_disjSum, inl_mem_disjSum] at hx
      exact (lands_volume hO (hall x.1 (hIm x hx).1 x.2 (hIm x hx).2) (path (x.1 + 1) x.2)).1
    · exact (by fun_prop : Measurable fun r : ℝ => base x.1 x.2 * (1 + (1 / 2 - r) * P.diffCoeff)) (hB _ _)
    · exact hu x

/-- Exact arithmetic, independent uniform draws, random or steepest-descent routing, any number of particles and any starting state with interior seeds and finite
times: the probability that the next `n` calls of `run_iteration()` take the particles along a given joint path with the duration of each
step in a given set is the product, over iterations and particles, of the probability of the move and the probability of the duration, which is
uniform within the factors `1 ∓ diff_coeff/2` of the diffusion-free duration. So durations are independent of each other and, given the
path, of everything else. -/
theorem C103_law {F : Fun ℝ Arith.exact} {R C : Nat} {P : PObj ℝ} {s : PState ℝ}
    (h : Reach Arith.exact F (Enclosed Arith.exact F R C) Draws (InsideSeeds R C) P s)
    (ha : ∀ k, k < 9 → k ≠ 4 → ∃ a, P.angles k = .fin a) {wd : WalkData ℝ} (hwd : s.walk = some wd) {N : Nat} (hN : wd.xinds.length = N)
    (ht0 : ∀ i, i < N → ∃ t, wd.lastTime i = some (.fin t)) (n : Nat) (path : Nat → Nat → Int × Int)
    (h0 : ∀ i, i < N → wd.lastPos i = some (path 0 i)) (base : Nat → Nat → ℝ)
    (hb : ∀ j, j < n → ∀ i, i < N → IsFreeTime F P (path j i) (path (j + 1) i) (base j i)) (B : Nat → Nat → Set ℝ)
    (hB : ∀ j i, MeasurableSet (B j i)) :
    uniformDraws {ω | Follows Arith.exact F P ω s n path ∧ ∀ j, j < n → ∀ i, i < N → TakesIn Arith.exact F P ω s j i (B j i)} =
      ∏ j ∈ range n, ∏ i ∈ range N, moveProb (flowOf F P) P (path j i) (path (j + 1) i) * delayProb P.diffCoeff (base j i) (B j i) := by
  have := law_after h ha hwd hN ht0 n path h0 base hb B hB (u := fun _ => Set.univ) fun _ => MeasurableSet.univ
  simpa using this

/-! ## Mean and spread -/

/-- Integral of a function of one draw. -/
theorem draw_integral {f : ℝ → ℝ} (hf : Continuous f) (a : Nat) : ∫ ω, f (ω a) ∂uniformDraws = ∫ r in (0 : ℝ)..1, f r := by
  have hmp := measurePreserving_eval_infinitePi (fun _ : Nat => volume.restrict (Set.Ico (0 : ℝ) 1)) a
  have h1 : ∫ ω, f (ω a) ∂uniformDraws = ∫ r, f r ∂(volume.restrict (Set.Ico (0 : ℝ) 1)) := by
    rw [← hmp.map_eq]
    exact (integral_map hmp.measurable.aemeasurable hf.aestronglyMeasurable).symm
  rw [h1, intervalIntegral.integral_of_le zero_le_one, integral_Ico_eq_integral_Ioo, integral_Ioc_eq_integral_Ioo]

theorem half_mean (a : Nat) : ∫ ω, (1 / 2 - ω a) ∂uniformDraws = 0 := by
  rw [draw_integral (f := fun r => 1 / 2 - r) (by fun_prop) a]
  rw [intervalIntegral.integral_sub (by simp) (by simp)]
  simp

theorem half_square (a : Nat) : ∫ ω, (1 / 2 - ω a) * (1 / 2 - ω a) ∂uniformDraws = 1 / 12 := by
  rw [draw_integral (f := fun r => (1 / 2 - r) * (1 / 2 - r)) (by fun_prop) a]
  have e : (fun r : ℝ => (1 / 2 - r) * (1 / 2 - r)) = fun r => 1 / 4 - r + r ^ 2 := by
    ext r
    ring
  rw [e, intervalIntegral.integral_add (by apply Continuous.intervalIntegrable; fun_prop) (by apply Continuous.intervalIntegrable; fun_prop),
    intervalIntegral.integral_sub (by simp) (by simp)]
  simp
  norm_num

theorem half_cross {a b : Nat} (h : a ≠ b) : ∫ ω, (1 / 2 - ω a) * (1 / 2 - ω b) ∂uniformDraws = 0 := by
  have hind := (draws_iIndep.indepFun h).comp (φ := fun r : ℝ => 1 / 2 - r) (ψ := fun r : ℝ => 1 / 2 - r) (by fun_prop) (by fun_prop)
  have := hind.integral_fun_mul_eq_mul_integral
    ((by fun_prop : Measurable fun ω : Nat → ℝ => 1 / 2 - ω a)).aestronglyMeasurable
    ((by fun_prop : Measurable fun ω : Nat → ℝ => 1 / 2 - ω b)).aestronglyMeasurable
  refine this.trans ?_
  have : ∫ ω, ((fun r : ℝ => 1 / 2 - r) ∘ fun ω : Nat → ℝ => ω a) ω ∂uniformDraws = 0 := half_mean a
  rw [this, zero_mul]

theorem half_integrable (a b : Nat) : Integrable (fun ω : Nat → ℝ => (1 / 2 - ω a) * (1 / 2 - ω b)) uniformDraws := by
  refine Integrable.of_bound (by fun_prop : Measurable fun ω : Nat → ℝ => (1 / 2 - ω a) * (1 / 2 - ω b)).aestronglyMeasurable 1 ?_
  filter_upwards [uniformDraws_nonzero] with ω hω
  have h1 := hω.1 a
  have h2 := hω.1 b
  rw [Real.norm_eq_abs, abs_mul]
  have h3 : |1 / 2 - ω a| ≤ 1 := by rw [abs_le]; constructor <;> linarith [h1.1, h1.2]
  have h4 : |1 / 2 - ω b| ≤ 1 := by rw [abs_le]; constructor <;> linarith [h2.1, h2.2]
  nlinarith [abs_nonneg (1 / 2 - ω a), abs_nonneg (1 / 2 - ω b)]

theorem half_integrable1 (a : Nat) : Integrable (fun ω : Nat → ℝ => 1 / 2 - ω a) uniformDraws := by
  refine Integrable.of_bound (by fun_prop : Measurable fun ω : Nat → ℝ => 1 / 2 - ω a).aestronglyMeasurable 1 ?_
  filter_upwards [uniformDraws_nonzero] with ω hω
  have h1 := hω.1 a
  rw [Real.norm_eq_abs, abs_le]
  constructor <;> linarith [h1.1, h1.2]

/-- The deviations of the durations of different iterations from the diffusion-free ones, on the event that the path is followed. -/
theorem deviations {F : Fun ℝ Arith.exact} {R C : Nat} {P : PObj ℝ} {s : PState ℝ}
    (h : Reach Arith.exact F (Enclosed Arith.exact F R C) Draws (InsideSeeds R C) P s)
    {wd : WalkData ℝ} (hwd : s.walk = some wd) {N : Nat} (hN : wd.xinds.length = N) {n : Nat} {path : Nat → Nat → Int × Int}
    (h0 : ∀ i, i < N → wd.lastPos i = some (path 0 i)) {base : Nat → Nat → ℝ}
    (hb : ∀ j, j < n → ∀ i, i < N → IsFreeTime F P (path j i) (path (j + 1) i) (base j i)) {i : Nat} (hi : i < N) {l l' : Nat} (hl : l < n) (hl' : l' < n) :
    (∫ ω in {ω | Follows Arith.exact F P ω s n path}, base l i * ((1 / 2 - ω (delayDraw P s.world.pos N path l i)) * P.diffCoeff) ∂uniformDraws = 0) ∧
    (∫ ω in {ω | Follows Arith.exact F P ω s n path}, (base l i * ((1 / 2 - ω (delayDraw P s.world.pos N path l i)) * P.diffCoeff)) *
        (base l' i * ((1 / 2 - ω (delayDraw P s.world.pos N path l' i)) * P.diffCoeff)) ∂uniformDraws =
      if l = l' then uniformDraws.real {ω | Follows Arith.exact F P ω s n path} * ((base l i * P.diffCoeff) ^ 2 / 12) else 0) := by
  have hO := h.obj
  obtain ⟨hstart, hin0⟩ := start_onPath h hwd hN h0
  by_cases hz : ∏ j ∈ range n, ∏ i ∈ range N, moveProb (flowOf F P) P (path j i) (path (j + 1) i) = 0
  · have hz' := C75_law h hwd hN n path h0
    rw [hz] at hz'
    have hr : uniformDraws.restrict {ω | Follows Arith.exact F P ω s n path} = 0 := Measure.restrict_eq_zero.2 hz'
    rw [hr]
    simp [Measure.real, hz']
  have hfix : ∀ l, l < n → ¬ (0 < P.diffCoeff ∧ path l i ≠ path (l + 1) i) → base l i * P.diffCoeff = 0 := by
    intro l hl hx
    by_cases hD : 0 < P.diffCoeff
    · have hm : path l i = path (l + 1) i := by
        by_contra hm
        exact hx ⟨hD, hm⟩
      rcases hb l hl i hi with ⟨-, h⟩ | ⟨h, -⟩
      · rw [h, zero_mul]
      · exact absurd hm h
    · have : P.diffCoeff = 0 := le_antisymm (not_lt.1 hD) hO.built.fields.diff
      rw [this, mul_zero]
  have hzero : ∀ l (ω : Nat → ℝ), base l i * P.diffCoeff = 0 →
      base l i * ((1 / 2 - ω (delayDraw P s.world.pos N path l i)) * P.diffCoeff) = 0 := by
    intro l ω h
    rw [mul_left_comm, h, mul_zero]
  set I : Finset (Nat × Nat) := range n ×ˢ range N with hI
  have hIm : ∀ x ∈ I, x.1 < n ∧ x.2 < N := fun x hx => by rwa [hI, mem_product, mem_range, mem_range] at hx
  obtain ⟨u, hum, -, hue⟩ := event_image I (fun x => drawsBefore P s.world.pos N path x.1 + x.2)
    (fun x hx y hy e => landDraw_inj (hIm x hx).2 (hIm y hy).2 e) (landing F P path)
    fun x hx => (lands_volume hO (path_inside hO hin0 hz (hIm x hx).1 (hIm x hx).2) (path (x.1 + 1) x.2)).1
  have hev := follows_event hstart n
  rw [hue] at hev
  have hnot : ∀ l, l < n → 0 < P.diffCoeff → path l i ≠ path (l + 1) i →
      delayDraw P s.world.pos N path l i ∉ I.image fun x => drawsBefore P s.world.pos N path x.1 + x.2 := by
    intro l hl hD hm hmem
    obtain ⟨x, hx, e⟩ := mem_image.1 hmem
    exact delayDraw_ne (y := (l, i)) hD (hIm x hx).2 hi hm e
  have hrl : uniformDraws.real {ω | Follows Arith.exact F P ω s n path} =
      uniformDraws.real {ω | ∀ m ∈ I.image (fun x => drawsBefore P s.world.pos N path x.1 + x.2), ω m ∈ u m} := by
    unfold Measure.real
    rw [measure_congr hev]
  rw [hrl, Measure.restrict_congr_set hev]
  by_cases hm : 0 < P.diffCoeff ∧ path l i ≠ path (l + 1) i
  · have hn := hnot l hl hm.1 hm.2
    refine ⟨?_, ?_⟩
    · have := event_indep hum hn hn (g := fun x => 1 / 2 - x.1) (by fun_prop)
      simp only [half_mean, mul_zero] at this
      rw [integral_const_mul, integral_mul_const, this]
      simp
    · by_cases hm' : 0 < P.diffCoeff ∧ path l' i ≠ path (l' + 1) i
      · have hn' := hnot l' hl' hm'.1 hm'.2
        have := event_indep hum hn hn' (g := fun x => (1 / 2 - x.1) * (1 / 2 - x.2)) (by fun_prop)
        have e : ∀ ω : Nat → ℝ, (base l i * ((1 / 2 - ω (delayDraw P s.world.pos N path l i)) * P.diffCoeff)) *
            (base l' i * ((1 / 2 - ω (delayDraw P s.world.pos N path l' i)) * P.diffCoeff)) = base l i * P.diffCoeff * (base l' i * P.diffCoeff) *
            ((1 / 2 - ω (delayDraw P s.world.pos N path l i)) * (1 / 2 - ω (delayDraw P s.world.pos N path l' i))) := fun ω => by ring
        simp only [e]
        rw [integral_const_mul, this]
        by_cases hll : l = l'
        · subst hll
          rw [if_pos rfl, half_square]
          ring
        · rw [if_neg hll, half_cross fun e => hll (by
            have := delayDraw_inj (x := (l, i)) (y := (l', i)) hm.1 hi hi hm.2 hm'.2 e
            simpa using this), mul_zero, mul_zero]
      · have hf := hfix l' hl' hm'
        simp only [hzero l' _ hf, mul_zero, integral_zero]
        by_cases hll : l = l'
        · subst hll
          exact absurd hm hm'
        · rw [if_neg hll]
  · have hf := hfix l hl hm
    simp only [hzero l _ hf, zero_mul, integral_zero, true_and]
    rw [hf]
    simp

theorem follows_null {F : Fun ℝ Arith.exact} {R C : Nat} {P : PObj ℝ} {s : PState ℝ}
    (h : Reach Arith.exact F (Enclosed Arith.exact F R C) Draws (InsideSeeds R C) P s)
    {wd : WalkData ℝ} (hwd : s.walk = some wd) {N : Nat} (hN : wd.xinds.length = N) (n : Nat) {path : Nat → Nat → Int × Int}
    (h0 : ∀ i, i < N → wd.lastPos i = some (path 0 i)) : NullMeasurableSet {ω | Follows Arith.exact F P ω s n path} uniformDraws := by
  obtain ⟨hstart, hin0⟩ := start_onPath h hwd hN h0
  have hev := follows_event hstart n
  by_cases hz : ∏ j ∈ range n, ∏ i ∈ range N, moveProb (flowOf F P) P (path j i) (path (j + 1) i) = 0
  · have hz' := C75_law h hwd hN n path h0
    rw [hz] at hz'
    exact NullMeasurableSet.of_null hz'
  · refine NullMeasurableSet.congr ?_ hev.symm
    have : {ω : Nat → ℝ | ∀ x ∈ range n ×ˢ range N, ω (drawsBefore P s.world.pos N path x.1 + x.2) ∈ landing F P path x} =
        ⋂ x ∈ range n ×ˢ range N, (fun ω : Nat → ℝ => ω (drawsBefore P s.world.pos N path x.1 + x.2)) ⁻¹' landing F P path x := by
      ext ω
      simp
    rw [this]
    refine (Finset.measurableSet_biInter _ fun x hx => measurable_pi_apply _ ?_).nullMeasurableSet
    rw [mem_product, mem_range, mem_range] at hx
    exact (lands_volume h.obj (path_inside h.obj hin0 hz hx.1 hx.2) (path (x.1 + 1) x.2)).1

/-- Exact arithmetic, independent uniform draws: diffusion does not change the mean travel time. Over the runs that follow a
given joint path for `n` iterations, the average travel time of a particle is its time before plus the diffusion-free durations of the steps. -/
theorem C103_mean {F : Fun ℝ Arith.exact} {R C : Nat} {P : PObj ℝ} {s : PState ℝ}
    (h : Reach Arith.exact F (Enclosed Arith.exact F R C) Draws (InsideSeeds R C) P s)
    (ha : ∀ k, k < 9 → k ≠ 4 → ∃ a, P.angles k = .fin a) {wd : WalkData ℝ} (hwd : s.walk = some wd) {N : Nat} (hN : wd.xinds.length = N)
    {t0 : Nat → ℝ} (ht0 : ∀ i, i < N → wd.lastTime i = some (.fin (t0 i))) {n : Nat} {path : Nat → Nat → Int × Int}
    (h0 : ∀ i, i < N → wd.lastPos i = some (path 0 i)) {base : Nat → Nat → ℝ}
    (hb : ∀ j, j < n → ∀ i, i < N → IsFreeTime F P (path j i) (path (j + 1) i) (base j i)) {i : Nat} (hi : i < N) {T : (Nat → ℝ) → ℝ}
    (hT : ∀ ω, Draws ω → Follows Arith.exact F P ω s n path → TimeAfter Arith.exact F P ω s n i (T ω)) :
    IntegrableOn T {ω | Follows Arith.exact F P ω s n path} uniformDraws ∧
    ∫ ω in {ω | Follows Arith.exact F P ω s n path}, T ω ∂uniformDraws =
      uniformDraws.real {ω | Follows Arith.exact F P ω s n path} * (t0 i + ∑ l ∈ range n, base l i) ∧
    ∫ ω in {ω | Follows Arith.exact F P ω s n path}, (T ω - (t0 i + ∑ l ∈ range n, base l i)) ^ 2 ∂uniformDraws =
      uniformDraws.real {ω | Follows Arith.exact F P ω s n path} * ∑ l ∈ range n, (base l i * P.diffCoeff) ^ 2 / 12 := by
  obtain ⟨hstart, hin0⟩ := start_onPath h hwd hN h0
  have hnull := follows_null h hwd hN n h0
  set Δ : Nat → (Nat → ℝ) → ℝ := fun l ω => base l i * ((1 / 2 - ω (delayDraw P s.world.pos N path l i)) * P.diffCoeff) with hΔ
  have hTe : ∀ᵐ ω ∂uniformDraws, ω ∈ {ω | Follows Arith.exact F P ω s n path} →
      T ω = (t0 i + ∑ l ∈ range n, base l i) + ∑ l ∈ range n, Δ l ω := by
    filter_upwards [uniformDraws_nonzero] with ω hω hF
    rw [(hT ω hω.1 hF).unique (path_times (R := R) (C := C) ha hω.1 (hstart ω) (t0 := t0)
      (fun i hi => ⟨s, none, wd, .zero, hwd, ht0 i hi⟩) hb hF le_rfl hi), add_assoc, ← sum_add_distrib]
    congr 1
    refine sum_congr rfl fun l _ => ?_
    rw [hΔ]
    ring
  have hdev := fun {l l' : Nat} (hl : l < n) (hl' : l' < n) => deviations h hwd hN h0 hb hi hl hl'
  have hint : ∀ l, Integrable (Δ l) uniformDraws := fun l => ((half_integrable1 _).mul_const _).const_mul _
  have hint2 : ∀ l l', Integrable (fun ω => Δ l ω * Δ l' ω) uniformDraws := by
    intro l l'
    have := ((half_integrable (delayDraw P s.world.pos N path l i) (delayDraw P s.world.pos N path l' i)).const_mul
      (base l i * P.diffCoeff * (base l' i * P.diffCoeff)))
    refine this.congr (Filter.Eventually.of_forall fun ω => ?_)
    simp only [hΔ]
    ring
  refine ⟨?_, ?_, ?_⟩
  · have hi2 : Integrable (fun ω => (t0 i + ∑ l ∈ range n, base l i) + ∑ l ∈ range n, Δ l ω) uniformDraws :=
      (integrable_const _).add (integrable_finsetSum _ fun l _ => hint l)
    refine hi2.integrableOn.congr ?_
    filter_upwards [(ae_restrict_iff'₀ hnull).2 hTe] with ω hω
    exact hω.symm
  · rw [setIntegral_congr_ae₀ hnull hTe, integral_add (integrable_const _) (integrable_finsetSum _ fun l _ => (hint l).integrableOn),
      integral_finsetSum _ fun l _ => (hint l).integrableOn, sum_eq_zero fun l hl => (hdev (mem_range.1 hl) (mem_range.1 hl)).1]
    simp
  · have e : ∀ᵐ ω ∂uniformDraws, ω ∈ {ω | Follows Arith.exact F P ω s n path} →
        (T ω - (t0 i + ∑ l ∈ range n, base l i)) ^ 2 = ∑ l ∈ range n, ∑ l' ∈ range n, Δ l ω * Δ l' ω := by
      filter_upwards [hTe] with ω h hF
      rw [h hF, add_sub_cancel_left, sq, sum_mul_sum]
    rw [setIntegral_congr_ae₀ hnull e, integral_finsetSum _ fun l _ => integrable_finsetSum _ fun l' _ => (hint2 l l').integrableOn, mul_sum]
    refine sum_congr rfl fun l hl => ?_
    rw [integral_finsetSum _ fun l' _ => (hint2 l l').integrableOn, sum_congr rfl fun l' hl' => (hdev (mem_range.1 hl) (mem_range.1 hl')).2]
    simp [mem_range.1 hl]

/-! ## The mean over all runs -/

/-- A move that some draw makes has a diffusion-free duration. -/
theorem freeTime_exists {F : Fun ℝ Arith.exact} {R C : Nat} {P : PObj ℝ} (hR : Routable Arith.exact P) (hP : Enclosed Arith.exact F R C P)
    (ha : ∀ k, k < 9 → k ≠ 4 → ∃ a, P.angles k = .fin a) {p q : Int × Int} (hp : Inside R C p) (hin : Inside R C q) {r : ℝ}
    (hq : Lands Arith.exact F P p r q) : ∃ x, IsFreeTime F P p q x := by
  by_cases hne : p = q
  · exact ⟨0, .inl ⟨hne, rfl⟩⟩
  obtain ⟨i, j, k, q0, d, -, -, -, hq0, hd, hqe⟩ := hq
  have hk : k < 9 := by
    unfold stepUpdate flat9 at hd
    by_contra hk
    rw [if_neg hk] at hd
    cases hd
  obtain ⟨dt, m', ht⟩ := travelTimeTuple_total (F := F) hR (ω := fun _ => 0) (m := 0) hk (p := p) (q := q) d (by rw [hP.rows, hP.cols]; exact hp)
    (by rw [hP.rows, hP.cols]; exact hin)
  rw [← calcTravelTime_moved hne] at ht
  obtain ⟨x, hx, -⟩ := move_duration hP.built hP.steps ha hne hq0 hd hqe ht
  exact ⟨x, hx⟩

/-- Last positions exist and are interior. -/
theorem last_inside {F : Fun ℝ Arith.exact} {R C : Nat} {P : PObj ℝ} {s : PState ℝ}
    (h : Reach Arith.exact F (Enclosed Arith.exact F R C) Draws (InsideSeeds R C) P s) {wd : WalkData ℝ} (hwd : s.walk = some wd) {i : Nat}
    (hi : i < wd.xinds.length) : ∃ p, wd.lastPos i = some p ∧ Inside R C p := by
  obtain ⟨hpe, hbad | ⟨rows, hr, hok⟩⟩ := Enclosed.rowsOk h
  · rw [hwd] at hbad; cases hbad
  rw [hr.1] at hwd
  cases hwd
  have hi' : i < rows.length := by simpa [ofRows] using hi
  obtain ⟨hv, hin⟩ := hok _ (List.getElem_mem hi')
  obtain ⟨hx, hy, hz⟩ := hv.aligned
  have hal := hv.aligned
  have nx : (rows[i]).xs ≠ [] := fun e => by rw [e] at hz; simp at hz
  have ny : (rows[i]).ys ≠ [] := fun e => by rw [e] at hx; exact nx (List.length_eq_zero_iff.1 hx.symm)
  have nt : (rows[i]).ts ≠ [] := fun e => by rw [e] at hy; exact nx (List.length_eq_zero_iff.1 hy.symm)
  have hl : (rows[i]).lastPos ((rows[i]).xs.getLast nx, (rows[i]).ys.getLast ny) :=
    ⟨List.getLast?_eq_some_getLast nx, List.getLast?_eq_some_getLast ny⟩
  exact ⟨_, lastPos_ofRows.2 ⟨_, List.getElem?_eq_getElem hi', hl⟩, hin _ _ _ (Row.last_rec hal hl (List.getLast?_eq_some_getLast nt))⟩

/-- Every run follows some path of interior cells. -/
theorem follows_some {F : Fun ℝ Arith.exact} {R C : Nat} {P : PObj ℝ} {s : PState ℝ}
    (h : Reach Arith.exact F (Enclosed Arith.exact F R C) Draws (InsideSeeds R C) P s) {wd : WalkData ℝ} (hwd : s.walk = some wd)
    {ω : Nat → ℝ} (hω : Draws ω) (j : Nat) :
    ∃ s' w wd', AfterRuns Arith.exact F P ω s j s' w ∧ s'.walk = some wd' ∧ wd'.xinds.length = wd.xinds.length ∧
      Reach Arith.exact F (Enclosed Arith.exact F R C) Draws (InsideSeeds R C) P s' := by
  induction j with
  | zero => exact ⟨s, none, wd, .zero, hwd, rfl, h⟩
  | succ j ih =>
    obtain ⟨s', w, wd', hr, hw, hl, hre⟩ := ih
    obtain ⟨res, hres⟩ := C17_no_crash hre (by rw [hw]; simp) hω none 10000 (Or.inl rfl)
    have hre' : Reach Arith.exact F (Enclosed Arith.exact F R C) Draws (InsideSeeds R C) P res.state := .run hre hω hres
    obtain ⟨hpe, hbad | ⟨rows, hrows, -⟩⟩ := Enclosed.rowsOk hre
    · rw [hw] at hbad; cases hbad
    obtain ⟨-, rows', hlen, -, hwalk, -⟩ := runIteration_inv Arith.exact F hre.obj.built.good hpe hrows.1 (Or.inl hrows.2) hres
    rw [hrows.1] at hw
    cases hw
    refine ⟨_, _, _, .succ hr hres, hwalk, ?_, hre'⟩
    rw [← hl]
    simp [ofRows, hlen]

/-- A joint path of interior cells as a finite object. -/
def pathOf {n N R C : Nat} (x : Fin (n + 1) → Fin N → Fin R × Fin C) (j i : Nat) : Int × Int :=
  if h : j < n + 1 ∧ i < N then (((x ⟨j, h.1⟩ ⟨i, h.2⟩).1 : Nat), ((x ⟨j, h.1⟩ ⟨i, h.2⟩).2 : Nat)) else (0, 0)

/-- Almost every run follows exactly one of the finitely many paths. -/
theorem follows_unique {F : Fun ℝ Arith.exact} {R C : Nat} {P : PObj ℝ} {s : PState ℝ}
    (h : Reach Arith.exact F (Enclosed Arith.exact F R C) Draws (InsideSeeds R C) P s) {wd : WalkData ℝ} (hwd : s.walk = some wd)
    {ω : Nat → ℝ} (hω : Draws ω) (n : Nat) :
    ∃! x : Fin (n + 1) → Fin wd.xinds.length → Fin R × Fin C, Follows Arith.exact F P ω s n (pathOf x) := by
  have hst := fun j => follows_some h hwd hω j
  choose st w wds hruns hw hlen hre using hst
  have hpos := fun (j : Fin (n + 1)) (i : Fin wd.xinds.length) => last_inside (hre j) (hw j) (i := i) (by rw [hlen]; exact i.2)
  choose pos hpos hin using hpos
  have hb : ∀ j i, (pos j i).1.toNat < R ∧ (pos j i).2.toNat < C ∧ ((pos j i).1.toNat : Int) = (pos j i).1 ∧ ((pos j i).2.toNat : Int) = (pos j i).2 := by
    intro j i
    obtain ⟨a, b, e, h1, h2, h3, h4⟩ := (hin j i).nat
    rw [e]
    simp
    omega
  refine ⟨fun j i => (⟨(pos j i).1.toNat, (hb j i).1⟩, ⟨(pos j i).2.toNat, (hb j i).2.1⟩), fun j hj => ?_, fun x hx => ?_⟩
  · refine ⟨_, _, _, hruns j, hw j, fun i hi => ?_⟩
    rw [hlen] at hi
    rw [hpos ⟨j, by omega⟩ ⟨i, hi⟩]
    unfold pathOf
    rw [dif_pos ⟨by omega, hi⟩]
    simp only [(hb ⟨j, by omega⟩ ⟨i, hi⟩).2.2]
  · funext j i
    obtain ⟨s2, w2, wd2, r2, e2, l2⟩ := hx j (by omega)
    obtain ⟨rfl, -⟩ := r2.unique (hruns j)
    rw [hw] at e2
    cases e2
    have := l2 i (by rw [hlen]; exact i.2)
    rw [hpos j i] at this
    unfold pathOf at this
    rw [dif_pos ⟨j.2, i.2⟩] at this
    simp only [Option.some.injEq] at this
    refine Prod.ext (Fin.ext ?_) (Fin.ext ?_)
    · simp [this]
    · simp [this]

/-- The steps of a path that is followed have diffusion-free durations. -/
theorem follows_free {F : Fun ℝ Arith.exact} {R C : Nat} {P : PObj ℝ} {s : PState ℝ}
    (h : Reach Arith.exact F (Enclosed Arith.exact F R C) Draws (InsideSeeds R C) P s)
    (ha : ∀ k, k < 9 → k ≠ 4 → ∃ a, P.angles k = .fin a) {wd : WalkData ℝ} (hwd : s.walk = some wd) {ω : Nat → ℝ} (hω : Draws ω) {n : Nat}
    {path : Nat → Nat → Int × Int} (h0 : ∀ i, i < wd.xinds.length → wd.lastPos i = some (path 0 i)) (hF : Follows Arith.exact F P ω s n path)
    {j i : Nat} (hj : j < n) (hi : i < wd.xinds.length) : IsFreeTime F P (path j i) (path (j + 1) i) (freeDur F P (path j i) (path (j + 1) i)) := by
  have hin : ∀ j, j ≤ n → Inside R C (path j i) := by
    intro j hj
    obtain ⟨s', w, wd', hr, hw, hl, hre⟩ := follows_some h hwd hω j
    obtain ⟨s2, w2, wd2, r2, e2, l2⟩ := hF j hj
    obtain ⟨rfl, -⟩ := r2.unique hr
    rw [hw] at e2
    cases e2
    obtain ⟨p, hp, hpin⟩ := last_inside hre hw (i := i) (by rw [hl]; exact hi)
    have := l2 i (by rw [hl]; exact hi)
    rw [hp] at this
    cases this
    exact hpin
  obtain ⟨hstart, -⟩ := start_onPath h hwd rfl h0
  have hex := freeTime_exists (h.routable (by rw [hwd]; simp)) h.obj ha (hin j (by omega)) (hin (j + 1) (by omega))
    ((follows_iff hω (hstart ω) n).2.1 hF j hj i hi)
  unfold freeDur
  rw [dif_pos hex]
  exact hex.choose_spec

/-- The travel time is defined for every sequence of draws. -/
theorem time_exists {F : Fun ℝ Arith.exact} {R C : Nat} {P : PObj ℝ} {s : PState ℝ}
    (h : Reach Arith.exact F (Enclosed Arith.exact F R C) Draws (InsideSeeds R C) P s)
    (ha : ∀ k, k < 9 → k ≠ 4 → ∃ a, P.angles k = .fin a) {wd : WalkData ℝ} (hwd : s.walk = some wd)
    {t0 : Nat → ℝ} (ht0 : ∀ i, i < wd.xinds.length → wd.lastTime i = some (.fin (t0 i))) {ω : Nat → ℝ} (hω : Draws ω) (n : Nat) {i : Nat}
    (hi : i < wd.xinds.length) : ∃ t, TimeAfter Arith.exact F P ω s n i t := by
  obtain ⟨x, hx, -⟩ := follows_unique h hwd hω n
  have h0 : ∀ i, i < wd.xinds.length → wd.lastPos i = some (pathOf x 0 i) := by
    obtain ⟨s2, w2, wd2, r2, e2, l2⟩ := hx 0 (by omega)
    obtain ⟨rfl, -⟩ := r2.unique .zero
    rw [hwd] at e2
    cases e2
    exact l2
  obtain ⟨hstart, -⟩ := start_onPath h hwd rfl h0
  exact ⟨_, path_times (R := R) (C := C) ha hω (hstart ω) (t0 := t0) (fun i hi => ⟨s, none, wd, .zero, hwd, ht0 i hi⟩)
    (fun j hj i hi => follows_free h ha hwd hω h0 hx hj hi) hx le_rfl hi⟩

/-- One path. -/
theorem path_mean {F : Fun ℝ Arith.exact} {R C : Nat} {P : PObj ℝ} {s : PState ℝ}
    (h : Reach Arith.exact F (Enclosed Arith.exact F R C) Draws (InsideSeeds R C) P s)
    (ha : ∀ k, k < 9 → k ≠ 4 → ∃ a, P.angles k = .fin a) {wd : WalkData ℝ} (hwd : s.walk = some wd)
    {t0 : Nat → ℝ} (ht0 : ∀ i, i < wd.xinds.length → wd.lastTime i = some (.fin (t0 i))) (n : Nat) {path : Nat → Nat → Int × Int}
    (h0 : ∀ i, i < wd.xinds.length → wd.lastPos i = some (path 0 i)) {i : Nat} (hi : i < wd.xinds.length) {T : (Nat → ℝ) → ℝ}
    (hT : ∀ ω, Draws ω → TimeAfter Arith.exact F P ω s n i (T ω)) :
    IntegrableOn T {ω | Follows Arith.exact F P ω s n path} uniformDraws ∧ ∫ ω in {ω | Follows Arith.exact F P ω s n path}, T ω ∂uniformDraws =
      (∏ j ∈ range n, ∏ i ∈ range wd.xinds.length, moveProb (flowOf F P) P (path j i) (path (j + 1) i)).toReal *
          (t0 i + ∑ l ∈ range n, freeDur F P (path l i) (path (l + 1) i)) := by
  have hlaw := C75_law h hwd rfl n path h0
  by_cases hz : uniformDraws {ω | Follows Arith.exact F P ω s n path} = 0
  · rw [← hlaw, hz]
    unfold IntegrableOn
    rw [Measure.restrict_eq_zero.2 hz]
    simp
  have hz' : ¬ ∀ᵐ ω ∂uniformDraws, ¬ (Draws ω ∧ Follows Arith.exact F P ω s n path) := by
    intro hc
    refine hz (measure_eq_zero_iff_ae_notMem.2 ?_)
    filter_upwards [hc, uniformDraws_nonzero] with ω h1 h2 h3
    exact h1 ⟨h2.1, h3⟩
  obtain ⟨ω0, hω0, hF0⟩ : ∃ ω, Draws ω ∧ Follows Arith.exact F P ω s n path := by
    by_contra hc
    push Not at hc
    exact hz' (Filter.Eventually.of_forall fun ω hω => hc ω hω.1 hω.2)
  obtain ⟨h1, h2, -⟩ := C103_mean h ha hwd rfl ht0 h0 (fun j hj i hi => follows_free h ha hwd hω0 h0 hF0 hj hi) hi fun ω hω _ => hT ω hω
  refine ⟨h1, h2.trans ?_⟩
  rw [← hlaw]
  rfl

/-- The mean travel time, as a sum over paths, and that it is a mean in the proper sense. -/
theorem mean_formula {F : Fun ℝ Arith.exact} {R C : Nat} {P : PObj ℝ} {s : PState ℝ}
    (h : Reach Arith.exact F (Enclosed Arith.exact F R C) Draws (InsideSeeds R C) P s)
    (ha : ∀ k, k < 9 → k ≠ 4 → ∃ a, P.angles k = .fin a) {wd : WalkData ℝ} (hwd : s.walk = some wd) {N : Nat} (hN : wd.xinds.length = N)
    {p0 : Nat → Int × Int} (hp0 : ∀ i, i < N → wd.lastPos i = some (p0 i))
    {t0 : Nat → ℝ} (ht0 : ∀ i, i < N → wd.lastTime i = some (.fin (t0 i))) (n : Nat) {i : Nat} (hi : i < N) {T : (Nat → ℝ) → ℝ}
    (hT : ∀ ω, Draws ω → TimeAfter Arith.exact F P ω s n i (T ω)) :
    Integrable T uniformDraws ∧ ∫ ω, T ω ∂uniformDraws = ∑ x : Fin (n + 1) → Fin N → Fin R × Fin C,
      if ∀ i, i < N → p0 i = pathOf x 0 i then
        (∏ j ∈ range n, ∏ i ∈ range N, moveProb (flowOf F P) P (pathOf x j i) (pathOf x (j + 1) i)).toReal *
          (t0 i + ∑ l ∈ range n, freeDur F P (pathOf x l i) (pathOf x (l + 1) i)) else 0 := by
  subst hN
  set E : (Fin (n + 1) → Fin wd.xinds.length → Fin R × Fin C) → Set (Nat → ℝ) := fun x => {ω | Follows Arith.exact F P ω s n (pathOf x)} with hE
  have hother : ∀ x, (¬ ∀ i, i < wd.xinds.length → p0 i = pathOf x 0 i) → E x = ∅ := by
    intro x hx
    ext ω
    simp only [hE, Set.mem_ofPred_eq, Set.mem_empty_iff_false, iff_false]
    intro hF
    obtain ⟨s2, w2, wd2, r2, e2, l2⟩ := hF 0 (by omega)
    obtain ⟨rfl, -⟩ := r2.unique .zero
    rw [hwd] at e2
    cases e2
    refine hx fun i hi => ?_
    have := (hp0 i hi).symm.trans (l2 i hi)
    simpa using this
  have hone : ∀ x : Fin (n + 1) → Fin wd.xinds.length → Fin R × Fin C, (∀ i, i < wd.xinds.length → p0 i = pathOf x 0 i) → ∀ i, i < wd.xinds.length → wd.lastPos i = some (pathOf x 0 i) := by
    intro x hx i hi
    rw [← hx i hi]
    exact hp0 i hi
  have hnull : ∀ x, NullMeasurableSet (E x) uniformDraws := by
    intro x
    by_cases hx : ∀ i, i < wd.xinds.length → p0 i = pathOf x 0 i
    · exact follows_null h hwd rfl n (hone x hx)
    · rw [hother x hx]
      exact MeasurableSet.empty.nullMeasurableSet
  have hdis : Pairwise (Function.onFun (AEDisjoint uniformDraws) E) := by
    intro x y hxy
    refine measure_eq_zero_iff_ae_notMem.2 ?_
    filter_upwards [uniformDraws_nonzero] with ω hω hmem
    exact hxy ((follows_unique h hwd hω.1 n).unique hmem.1 hmem.2)
  have hall : (⋃ x, E x) =ᵐ[uniformDraws] Set.univ := by
    rw [Filter.eventuallyEq_set]
    filter_upwards [uniformDraws_nonzero] with ω hω
    obtain ⟨x, hx, -⟩ := follows_unique h hwd hω.1 n
    simp only [Set.mem_iUnion, Set.mem_univ, iff_true]
    exact ⟨x, hx⟩
  have hint : ∀ x, IntegrableOn T (E x) uniformDraws := by
    intro x
    by_cases hx : ∀ i, i < wd.xinds.length → p0 i = pathOf x 0 i
    · exact (path_mean h ha hwd ht0 n (hone x hx) hi hT).1
    · rw [hother x hx]
      exact integrableOn_empty
  have hU : IntegrableOn T (⋃ x, E x) uniformDraws := integrableOn_finite_iUnion.2 hint
  have hI : Integrable T uniformDraws := by
    unfold IntegrableOn at hU
    rwa [Measure.restrict_congr_set hall, Measure.restrict_univ] at hU
  refine ⟨hI, ?_⟩
  rw [← setIntegral_univ, ← Measure.restrict_congr_set hall, integral_iUnion_ae hnull hdis hU, tsum_fintype]
  refine sum_congr rfl fun x _ => ?_
  by_cases hx : ∀ i, i < wd.xinds.length → p0 i = pathOf x 0 i
  · rw [if_pos hx]
    exact (path_mean h ha hwd ht0 n (hone x hx) hi hT).2
  · rw [if_neg hx, hother x hx]
    simp

/-- Exact arithmetic, independent uniform draws, random or steepest-descent routing, any number of particles and iterations: the expected travel time of a particle
after `n` iterations does not depend on `diff_coeff`. -/
theorem C103_unbiased {F : Fun ℝ Arith.exact} {R C : Nat} {P P' : PObj ℝ} {D : ℝ} (hPP : P' = { P with diffCoeff := D }) {s s' : PState ℝ}
    (h : Reach Arith.exact F (Enclosed Arith.exact F R C) Draws (InsideSeeds R C) P s)
    (h' : Reach Arith.exact F (Enclosed Arith.exact F R C) Draws (InsideSeeds R C) P' s')
    (ha : ∀ k, k < 9 → k ≠ 4 → ∃ a, P.angles k = .fin a) {wd wd' : WalkData ℝ} (hwd : s.walk = some wd) (hwd' : s'.walk = some wd')
    (hlen : wd'.xinds.length = wd.xinds.length) (hpos : ∀ i, i < wd.xinds.length → wd'.lastPos i = wd.lastPos i)
    (htime : ∀ i, i < wd.xinds.length → ∃ t, wd.lastTime i = some (.fin t) ∧ wd'.lastTime i = some (.fin t)) (n : Nat) {i : Nat}
    (hi : i < wd.xinds.length) :
    ∃ T T' : (Nat → ℝ) → ℝ, (∀ ω, Draws ω → TimeAfter Arith.exact F P ω s n i (T ω)) ∧ (∀ ω, Draws ω → TimeAfter Arith.exact F P' ω s' n i (T' ω)) ∧
      Integrable T uniformDraws ∧ Integrable T' uniformDraws ∧ ∫ ω, T ω ∂uniformDraws = ∫ ω, T' ω ∂uniformDraws := by
  have hwd1 := hwd'
  choose! t0 ht0 using htime
  have hp0 := fun (i : Nat) (hi : i < wd.xinds.length) => last_inside h hwd hi
  choose! p0 hp0 using hp0
  have ha' : ∀ k, k < 9 → k ≠ 4 → ∃ a, P'.angles k = .fin a := by rw [hPP]; exact ha
  have ex := fun (ω : Nat → ℝ) (hω : Draws ω) => time_exists h ha hwd (fun i hi => (ht0 i hi).1) hω n hi
  have ex' := fun (ω : Nat → ℝ) (hω : Draws ω) => time_exists h' ha' hwd' (fun i hi => (ht0 i (by rw [← hlen]; exact hi)).2) hω n (by rw [hlen]; exact hi)
  choose! T hT using ex
  choose! T' hT' using ex'
  obtain ⟨i1, e1⟩ := mean_formula h ha hwd rfl (fun i hi => (hp0 i hi).1) (fun i hi => (ht0 i hi).1) n hi hT
  obtain ⟨i2, e2⟩ := mean_formula h' ha' hwd' hlen (p0 := p0) (fun i hi => (hpos i hi).trans (hp0 i hi).1) (fun i hi => (ht0 i hi).2) n hi hT'
  refine ⟨T, T', hT, hT', i1, i2, ?_⟩
  rw [e1, e2]
  subst hPP
  rfl

/-! ## Concrete cases -/

theorem real_div {a b : ℝ} (hb : b ≠ 0) : Arith.exact.div (.fin a) (.fin b) = .fin (a / b) := by
  simp [Arith.div, Arith.exact, hb]

theorem clamp_big {x e : ℝ} (h : ¬ |x| < e) : (if Fl.lt (Fl.abs (Fl.fin x)) (.fin e) then Fl.fin e else Fl.fin x) = .fin x := by
  rw [if_neg]
  rw [abs_eq_max_neg] at h
  simpa [Fl.abs, Fl.lt] using h

theorem clamp_small {x e : ℝ} (h : |x| < e) : (if Fl.lt (Fl.abs (Fl.fin x)) (.fin e) then Fl.fin e else Fl.fin x) = .fin e := by
  rw [if_pos]
  rw [abs_eq_max_neg] at h
  simpa [Fl.abs, Fl.lt] using h

theorem realObj_angle : realObj.velocityAngle.get 2 2 = .ok (.fin (Complex.arg ⟨1 / 100000000, -(2 * 1 / (1 * 1 + 1 / 100000000))⟩)) := by
  have h0 : ∀ y : ℝ, Fl.nanTo0 (Arith.exact.div (.fin (y * 1)) (.fin (1 * 1 + 1 / 100000000))) = .fin (y * 1 / (1 * 1 + 1 / 100000000)) := by
    intro y
    rw [real_div (by norm_num)]
    rfl
  have h3 : realObj.u.at' 2 2 = .fin (2 * 1 / (1 * 1 + 1 / 100000000)) := by
    change (fun x : Fl ℝ => if Fl.lt (Fl.abs x) (.fin (1 / 100000000)) then Fl.fin (1 / 100000000) else x)
      (Fl.nanTo0 (Arith.exact.div (.fin (2 * 1)) (.fin (1 * 1 + 1 / 100000000)))) = _
    rw [h0]
    exact clamp_big (by rw [abs_of_pos] <;> norm_num)
  have h4 : realObj.v.at' 2 2 = .fin (1 / 100000000) := by
    change (fun x : Fl ℝ => if Fl.lt (Fl.abs x) (.fin (1 / 100000000)) then Fl.fin (1 / 100000000) else x)
      (Fl.nanTo0 (Arith.exact.div (.fin (0 * 1)) (.fin (1 * 1 + 1 / 100000000)))) = _
    rw [h0]
    exact clamp_small (by norm_num)
  have h1 : realObj.velocityAngle.get 2 2 = .ok (npArctan2 Arith.exact Fun.real (Fl.neg (realObj.u.at' 2 2)) (realObj.v.at' 2 2)) := rfl
  rw [h1, h3, h4]
  rfl

theorem realObj_free : ∃ x, 0 < x ∧ IsFreeTime Fun.real realObj (2, 2) (3, 2) x := by
  have Fd := realObj_built.fields
  obtain ⟨vo, ho, ho1⟩ := Fd.vel 2 2 (by change 2 < 5; norm_num) (by change 2 < 5; norm_num)
  obtain ⟨vn, hn, hn1⟩ := Fd.vel 3 2 (by change 3 < 5; norm_num) (by change 2 < 5; norm_num)
  have he : (0 : ℝ) < eps8 Arith.exact := eps8_pos _
  refine ⟨_, ?_, .inr ⟨by decide, 7, Real.pi * 3 / 2, 1, vo, vn, _, by norm_num, rfl, ?_, rfl, ?_, ?_, realObj_angle, rfl⟩⟩
  · have hc : (0 : ℝ) < Real.cos (Real.pi * 3 / 2 - Complex.arg ⟨1 / 100000000, -(2 * 1 / (1 * 1 + 1 / 100000000))⟩) := by
      have : Real.pi * 3 / 2 - Complex.arg ⟨1 / 100000000, -(2 * 1 / (1 * 1 + 1 / 100000000))⟩ =
        Real.pi / 2 - (Complex.arg ⟨1 / 100000000, -(2 * 1 / (1 * 1 + 1 / 100000000))⟩ - Real.pi) := by ring
      rw [this, Real.cos_pi_div_two_sub, Real.sin_sub_pi, Complex.sin_arg]
      have hne : (⟨1 / 100000000, -(2 * 1 / (1 * 1 + 1 / 100000000))⟩ : ℂ) ≠ 0 := by
        intro h
        have := congrArg Complex.re h
        norm_num at this
      have := norm_pos_iff.2 hne
      rw [← neg_div]
      refine div_pos ?_ this
      norm_num
    unfold freeTime
    have hm := lt_max_of_lt_right (b := (0 : ℝ)) hc
    have h1 := one_div_pos.2 (he.trans_le ho1)
    have h2 := one_div_pos.2 (he.trans_le hn1)
    have h3 : (0 : ℝ) < 1 * realObj.dx := by change (0 : ℝ) < 1 * 10; norm_num
    exact mul_pos (mul_pos (by norm_num) (mul_pos h3 hm)) (add_pos h1 h2)
  · change Fl.fin (3 * Real.pi / 2) = _
    rw [mul_comm]
  · exact congrArg Except.ok ho
  · exact congrArg Except.ok hn

theorem half_delay {D x : ℝ} (hD : 0 < D) (hx : 0 < x) : delayProb D x (Set.Iic x) = ENNReal.ofReal (1 / 2) := by
  have : {u : ℝ | |u| ≤ 1 / 2 ∧ x * (1 + u * D) ∈ Set.Iic x} = Set.Icc (-(1 / 2)) 0 := by
    ext u
    simp only [Set.mem_ofPred_eq, Set.mem_Iic, Set.mem_Icc, abs_le]
    constructor
    · rintro ⟨h1, h2⟩
      have : x * (u * D) ≤ 0 := by linarith
      refine ⟨h1.1, ?_⟩
      by_contra hc
      push Not at hc
      have := mul_pos hx (mul_pos hc hD)
      linarith
    · rintro ⟨h1, h2⟩
      refine ⟨⟨h1, by linarith⟩, ?_⟩
      have := mul_nonneg hx.le (mul_nonneg (neg_nonneg.2 h2) hD.le)
      linarith
  unfold delayProb
  rw [this, Real.volume_Icc]
  norm_num

theorem realObj_angles : ∀ k, k < 9 → k ≠ 4 → ∃ a, realObj.angles k = .fin a := by
  intro k hk _
  interval_cases k <;> exact ⟨_, rfl⟩

/-- C103: one particle at the centre of the channel, default diffusion coefficient 0.2. With probability one quarter the next iteration takes it to the
cell ahead (probability one half) in at most the diffusion-free time (probability one half); over the runs that go there the mean duration
is the diffusion-free one, and the mean square deviation 0.2²/12 of its square. -/
example : ∃ (s : PState ℝ) (wd : WalkData ℝ) (x : ℝ) (T : (Nat → ℝ) → ℝ), Reach Arith.exact Fun.real (Enclosed Arith.exact Fun.real 5 5) Draws (InsideSeeds 5 5) realObj s ∧
    s.walk = some wd ∧ wd.xinds.length = 1 ∧ 0 < x ∧ (∀ ω, Draws ω → TimeAfter Arith.exact Fun.real realObj ω s 1 0 (T ω)) ∧
    uniformDraws {ω | Follows Arith.exact Fun.real realObj ω s 1 (fun j _ => if j = 0 then (2, 2) else (3, 2)) ∧
      ∀ j, j < 1 → ∀ i, i < 1 → TakesIn Arith.exact Fun.real realObj ω s j i (Set.Iic x)} = ENNReal.ofReal (1 / 4) ∧
    ∫ ω in {ω | Follows Arith.exact Fun.real realObj ω s 1 (fun j _ => if j = 0 then (2, 2) else (3, 2))}, T ω ∂uniformDraws = 1 / 2 * x ∧
    ∫ ω in {ω | Follows Arith.exact Fun.real realObj ω s 1 (fun j _ => if j = 0 then (2, 2) else (3, 2))}, (T ω - x) ^ 2 ∂uniformDraws =
      1 / 2 * ((x * (1 / 5)) ^ 2 / 12) := by
  obtain ⟨s0, h0, wd, hwd, hlen, hl0, ht0⟩ : ∃ s0, generateParticles Arith.exact realObj (fun _ => 1 / 2) (initState Arith.exact Fun.real realObj 0) (.int 1)
    (.list [.int 2]) (.list [.int 2]) (.int 0) (.str "exact") none = .ok s0 ∧
      ∃ wd, s0.walk = some wd ∧ wd.xinds.length = 1 ∧ wd.lastPos 0 = some (2, 2) ∧ wd.lastTime 0 = some (.fin ((0 : Int) : ℝ)) :=
    ⟨_, rfl, _, rfl, rfl, rfl, rfl⟩
  have hc : genInputCheck (K := ℝ) (.int 1) (.list [.int 2]) (.list [.int 2]) (.int 0) (.str "exact") =
    .ok (1, [2], [2], .fin ((0 : Int) : ℝ), .exact) := rfl
  rw [Int.cast_zero] at ht0
  have hreach : Reach Arith.exact Fun.real (Enclosed Arith.exact Fun.real 5 5) Draws (InsideSeeds 5 5) realObj s0 :=
    .generate (.new 0 realObj_enclosed) (fun _ => by norm_num) hc (by norm_num)
      (by intro x hx y hy; simp at hx hy; subst hx hy; unfold Inside; decide) h0
  obtain ⟨x, hx, hfree⟩ := realObj_free
  have hb : ∀ j, j < 1 → ∀ i, i < 1 → IsFreeTime Fun.real realObj ((fun j _ => if j = 0 then (2, 2) else (3, 2) : Nat → Nat → Int × Int) j i)
      ((fun j _ => if j = 0 then (2, 2) else (3, 2) : Nat → Nat → Int × Int) (j + 1) i) ((fun _ _ => x : Nat → Nat → ℝ) j i) := by
    intro j hj i hi
    obtain rfl : j = 0 := by omega
    exact hfree
  have hp : ∀ i, i < 1 → wd.lastPos i = some ((fun j _ => if j = 0 then (2, 2) else (3, 2) : Nat → Nat → Int × Int) 0 i) := by
    intro i hi
    obtain rfl : i = 0 := by omega
    exact hl0
  have ht : ∀ i, i < 1 → wd.lastTime i = some (.fin ((fun _ => 0 : Nat → ℝ) i)) := by
    intro i hi
    obtain rfl : i = 0 := by omega
    exact ht0
  have ex := fun (ω : Nat → ℝ) (hω : Draws ω) => time_exists hreach realObj_angles hwd (t0 := fun _ => 0) (by rw [hlen]; exact ht) hω 1 (i := 0) (by omega)
  choose! T hT using ex
  have hlaw := C103_law hreach realObj_angles hwd hlen (fun i hi => ⟨_, ht i hi⟩) 1 _ hp _ hb (fun _ _ => Set.Iic x) fun _ _ => measurableSet_Iic
  have hfol := C75_law hreach hwd hlen 1 (fun j _ => if j = 0 then (2, 2) else (3, 2)) hp
  obtain ⟨-, hmean, hvar⟩ := C103_mean hreach realObj_angles hwd hlen ht hp hb (i := 0) (by omega) fun ω hω _ => hT ω hω
  simp only [prod_range_one, sum_range_one, if_true, Nat.zero_add, one_ne_zero, if_false] at hlaw hfol hmean hvar
  have hreal : uniformDraws.real {ω | Follows Arith.exact Fun.real realObj ω s0 1 (fun j _ => if j = 0 then (2, 2) else (3, 2))} = 1 / 2 := by
    unfold Measure.real
    rw [hfol, realObj_half, ENNReal.toReal_ofReal (by norm_num)]
  rw [hreal] at hmean hvar
  refine ⟨s0, wd, x, T, hreach, hwd, hlen, hx, hT, ?_, ?_, ?_⟩
  · rw [hlaw, realObj_half, half_delay (by change (0 : ℝ) < 1 / 5; norm_num) hx, ← ENNReal.ofReal_mul (by norm_num)]
    norm_num
  · rw [hmean, zero_add]
  · rw [zero_add] at hvar
    exact hvar

/-- The same channel with diffusion coefficient 1. -/
noncomputable def realSpread : PObj ℝ := (initParticles Arith.exact Fun.real { realChan with diffCoeff := some 1 }).toOption.get rfl

theorem realSpread_eq : realSpread = { realObj with diffCoeff := 1 } := by
  have : realSpread = { realObj with diffCoeff := if (1 : ℝ) < 0 then 0 else 1 } := rfl
  rw [this, if_neg (by norm_num)]

theorem realSpread_enclosed : Enclosed Arith.exact Fun.real 5 5 realSpread := by
  have hi : initParticles Arith.exact Fun.real { realChan with diffCoeff := some 1 } = .ok realSpread := rfl
  have hv : ValidParams { realChan with diffCoeff := some 1 } := by
    have h := realChan_valid
    exact ⟨h.depth, h.stage, h.topography, h.qx, h.qy, h.u, h.v, h.gamma, h.dryDepth, h.distances, h.ivec, h.jvec⟩
  obtain ⟨h1, h2, h3⟩ := C17_default_ring (p := { realChan with diffCoeff := some 1 }) rfl rfl rfl rfl hi
  exact ⟨⟨_, hv, hi⟩, rfl, rfl, h1, h2, realObj_steps, h3⟩

/-- C103: particles in the same two channels, one with diffusion coefficient 0.2 and one with 1, have the same expected travel time. -/
example (n : Nat) : ∃ (s s' : PState ℝ) (T T' : (Nat → ℝ) → ℝ),
    Reach Arith.exact Fun.real (Enclosed Arith.exact Fun.real 5 5) Draws (InsideSeeds 5 5) realObj s ∧
    Reach Arith.exact Fun.real (Enclosed Arith.exact Fun.real 5 5) Draws (InsideSeeds 5 5) realSpread s' ∧
    (∀ ω, Draws ω → TimeAfter Arith.exact Fun.real realObj ω s n 0 (T ω)) ∧ (∀ ω, Draws ω → TimeAfter Arith.exact Fun.real realSpread ω s' n 0 (T' ω)) ∧
    ∫ ω, T ω ∂uniformDraws = ∫ ω, T' ω ∂uniformDraws := by
  obtain ⟨s0, h0, wd, hwd, hlen, hl0, ht0⟩ : ∃ s0, generateParticles Arith.exact realObj (fun _ => 1 / 2) (initState Arith.exact Fun.real realObj 0) (.int 1)
    (.list [.int 2]) (.list [.int 2]) (.int 0) (.str "exact") none = .ok s0 ∧
      ∃ wd, s0.walk = some wd ∧ wd.xinds.length = 1 ∧ wd.lastPos 0 = some (2, 2) ∧ wd.lastTime 0 = some (.fin ((0 : Int) : ℝ)) :=
    ⟨_, rfl, _, rfl, rfl, rfl, rfl⟩
  obtain ⟨s1, h1, wd1, hwd1, hlen1, hl1, ht1⟩ : ∃ s0, generateParticles Arith.exact realSpread (fun _ => 1 / 2) (initState Arith.exact Fun.real realSpread 0) (.int 1)
    (.list [.int 2]) (.list [.int 2]) (.int 0) (.str "exact") none = .ok s0 ∧
      ∃ wd, s0.walk = some wd ∧ wd.xinds.length = 1 ∧ wd.lastPos 0 = some (2, 2) ∧ wd.lastTime 0 = some (.fin ((0 : Int) : ℝ)) :=
    ⟨_, rfl, _, rfl, rfl, rfl, rfl⟩
  have hc : genInputCheck (K := ℝ) (.int 1) (.list [.int 2]) (.list [.int 2]) (.int 0) (.str "exact") =
    .ok (1, [2], [2], .fin ((0 : Int) : ℝ), .exact) := rfl
  have hreach : Reach Arith.exact Fun.real (Enclosed Arith.exact Fun.real 5 5) Draws (InsideSeeds 5 5) realObj s0 :=
    .generate (.new 0 realObj_enclosed) (fun _ => by norm_num) hc (by norm_num)
      (by intro x hx y hy; simp at hx hy; subst hx hy; unfold Inside; decide) h0
  have hreach1 : Reach Arith.exact Fun.real (Enclosed Arith.exact Fun.real 5 5) Draws (InsideSeeds 5 5) realSpread s1 :=
    .generate (.new 0 realSpread_enclosed) (fun _ => by norm_num) hc (by norm_num)
      (by intro x hx y hy; simp at hx hy; subst hx hy; unfold Inside; decide) h1
  obtain ⟨T, T', hT, hT', -, -, he⟩ := C103_unbiased realSpread_eq hreach hreach1 realObj_angles hwd hwd1 (by rw [hlen, hlen1]) (i := 0)
    (fun i hi => by
      rw [hlen] at hi
      obtain rfl : i = 0 := by omega
      rw [hl0, hl1])
    (fun i hi => by
      rw [hlen] at hi
      obtain rfl : i = 0 := by omega
      exact ⟨_, ht0, ht1⟩) n (by rw [hlen]; norm_num)
  exact ⟨s0, s1, T, T', hreach, hreach1, hT, hT', he⟩

end Dorado
