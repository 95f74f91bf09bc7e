import Verif.Lemmas.Loop
import Verif.Lemmas.Exact
import Verif.Spec.Demo

/-! # C24-C26, C66: running to a target time -/

set_option linter.unusedSectionVars false
set_option synthInstance.maxSize 1024

namespace Dorado

variable {K : Type} [Field K] [LinearOrder K] [IsStrictOrderedRing K] [FloorRing K]

/-- Objects with default step tables and non-zero cell size. -/
structure Standard {A : Arith K} (F : Fun K A) (P : PObj K) : Prop where
  built : Built A F P
  walk : DefaultWalk P
  self : SelfZero P
  steps : StepsNonzero A P

theorem RowStill.trapped {F : Fun K (Arith.exact : Arith K)} {P : PObj K} (hP : Standard F P) {ω : Nat → K} (hω : NonzeroDraws Arith.exact ω)
    {r : Row K} (h : RowStill Arith.exact F P ω r) {p : Int × Int} (hp : r.lastPos p) : Trapped F P p := by
  rintro a b rfl hin
  obtain ⟨t, t', -, hs⟩ := h.lastPos hp
  exact (hs.trapped hP.built.good hP.walk hP.self hP.steps hω hin).imp_right
    fun h => (deadEnd_repr hP.built.good (represents_flowOf hP.built.good) hin).1 h

theorem edge_trapped {A : Arith K} {F : Fun K A} {P : PObj K} {p : Int × Int} (h : edgeInWindow P.cellType p.1 p.2 = true) : Trapped F P p := by
  rintro a b rfl hin
  exact Or.inl ((nearEdge_iff hin.1 hin.2.2.1).1 h)

/-- A cell of the open channel from which particles move on. -/
theorem chan_free {p : Params ℚ} (hP : Standard Fun.toy (objOf p)) {a b : Nat} (hin : Interior (objOf p) a b)
    (he : edgeInWindow (objOf p).cellType a b = false) (hd : ¬ NoFlowWeight Arith.exact Fun.toy (objOf p) a b) :
    ¬ Trapped Fun.toy (objOf p) ((a : Int), (b : Int)) := by
  intro h
  rcases h a b rfl hin with h | h
  · rw [(nearEdge_iff hin.1 hin.2.2.1).2 h] at he
    cases he
  · exact hd ((deadEnd_repr hP.built.good (represents_flowOf hP.built.good) hin).2 h)

theorem chanFull_standard : Standard Fun.toy (objOf chanFull) :=
  ⟨chanFull_built, ⟨rfl, rfl⟩, by unfold SelfZero; decide +kernel, fun k hk => by interval_cases k <;> decide +kernel⟩

theorem chanFull_free : ¬ Trapped Fun.toy (objOf chanFull) (2, 2) :=
  chan_free chanFull_standard (by unfold Interior; decide +kernel) (by decide +kernel) (by unfold NoFlowWeight; decide +kernel)

/-- The open channel with cells of size 1/20, where steps take less than 1/10. -/
def chanShort : Params ℚ := { chanOpen with dx := some (1 / 20) }

theorem chanShort_standard : Standard Fun.toy (objOf chanShort) :=
  ⟨⟨chanShort, { chan_valid with }, rfl⟩, ⟨rfl, rfl⟩, by unfold SelfZero; decide +kernel,
    fun k hk => by interval_cases k <;> decide +kernel⟩

theorem chanShort_free : ¬ Trapped Fun.toy (objOf chanShort) (2, 2) :=
  chan_free chanShort_standard (by unfold Interior; decide +kernel) (by decide +kernel) (by unfold NoFlowWeight; decide +kernel)

theorem finSeed_zero {P : PObj ℚ} {xs ys : List Int} : FinSeed Arith.exact P xs ys (.fin 0) := ⟨0, rfl, rfl⟩

/-! ## C24 -/

/-- Exact arithmetic, non-zero draws, any history, any target and limit. A call `run_iteration(T, max_iter)` appends times `new` to those
of particle `i` and ends with time `x` at position `p` in one of three ways: `max_iter` (or more) steps were taken, the particle may stand
still at `p`, or `|x - T| < |x + e - T|` for the last estimate `e`. Each of its steps started at a time `y` with `|y + e - T| <= |y - T|`
for the estimate `e` at that moment. -/
theorem C24_ends_near {F : Fun K (Arith.exact : Arith K)} {Ob : PObj K → Prop} (hOb : ∀ P, Ob P → Standard F P) {P : PObj K} {s : PState K}
    (h : Reach Arith.exact F Ob (NonzeroDraws Arith.exact) (FinSeed Arith.exact) P s) {ω : Nat → K} (hω : NonzeroDraws Arith.exact ω)
    {T : K} {maxIter : Int} {res : RunResult K} (hrun : runIteration Arith.exact F P ω s (some (.fin T)) maxIter = .ok res)
    {wd : WalkData K} (hwd : s.walk = some wd) {i : Nat} {xs ys : List Int} {ts : List (Fl K)} (hl : wd.lists i = some (xs, ys, ts)) :
    ∃ xs' ys' new p x, res.returned.lists i = some (xs', ys', ts ++ new) ∧ xs'.length = xs.length + new.length ∧
      res.returned.lastPos i = some p ∧ res.returned.lastTime i = some (.fin x) ∧
      ((1 ≤ new.length ∧ maxIter ≤ new.length) ∨ Trapped F P p ∨ |x - T| < |x + estimate ts new new.length - T|) ∧
      ∀ n, n < new.length → ∃ y, (ts ++ new)[ts.length - 1 + n]? = some (.fin y) ∧ |y + estimate ts new n - T| ≤ |y - T| := by
  have hG : ∀ P, Ob P → Good P := fun P hP => (hOb P hP).built.good
  obtain ⟨hpe, -⟩ := h.state hG
  obtain ⟨rows, rfl, hnp, hfin⟩ := h.finTimes (fun P hP => (hOb P hP).built) hwd
  obtain ⟨-, rows', hlen, hret, hwalk', hnp', -, hits, hout, -⟩ := runIteration_inv Arith.exact F (hG _ h.obj) hpe hwd (Or.inl hnp) hrun
  obtain ⟨rows2, hr2, -, hfin'⟩ := (Reach.run h hω hrun).finTimes (fun P hP => (hOb P hP).built) hwalk'
  obtain ⟨r, hri, e⟩ := lists_ofRows.1 hl
  cases e
  obtain ⟨r', hri', p, hp, hcase⟩ := hout i r hri
  have ha := (hfin r (List.mem_of_getElem? hri)).1
  have hf' : FinTimes r'.ts := by
    have : (ofRows (keysOf P) rows').lists i = some (r'.xs, r'.ys, r'.ts) := lists_ofRows.2 ⟨r', hri', rfl⟩
    rw [hr2] at this
    obtain ⟨r2, hr2', e⟩ := lists_ofRows.1 this
    simp only [Prod.mk.injEq] at e
    rw [e.2.2]
    exact (hfin' r2 (List.mem_of_getElem? hr2')).2
  rw [hret]
  rcases hcase with ⟨hedge, rfl, -⟩ | ⟨-, est', e, n, hloop, -⟩
  · have hne : r'.ts ≠ [] := by
      intro h0
      have := ha.2
      rw [h0] at this
      simp at this
      omega
    obtain ⟨x, hx⟩ := hf' _ (List.getLast_mem hne)
    exact ⟨r'.xs, r'.ys, [], p, x, lists_ofRows.2 ⟨r', hri', by simp⟩, by simp, lastPos_ofRows.2 ⟨r', hri', hp⟩,
      lastTime_ofRows.2 ⟨r', hri', by rw [List.getLast?_eq_some_getLast hne, hx]⟩, Or.inr (Or.inl (edge_trapped hedge)), by simp⟩
  · obtain ⟨new, h1, h2, h3, h4, h5, h6, h7⟩ := hloop.spec
    obtain ⟨hcount, -⟩ := hloop.count
    have ha' : r'.aligned := by
      have := hloop.steps Arith.exact F
      exact this.inv Arith.exact F (Q := Row.aligned) (fun a b hab hs => by
        obtain ⟨_, _, _, _, _, -, -, -, -, -, rfl⟩ := hs
        exact a.append_aligned hab _ _ _) ha
    have hne : r'.ts ≠ [] := by rw [h1]; simp [h3]
    obtain ⟨x, hx⟩ := hf' _ (List.getLast_mem hne)
    have hlx : r'.ts.getLast? = some (.fin x) := by rw [List.getLast?_eq_some_getLast hne, hx]
    obtain ⟨q, hq⟩ : ∃ q, r'.lastPos q := by
      have hx0 : r'.xs ≠ [] := by intro h0; have := ha'.2.2; rw [h0] at this; simp at this
      have hy0 : r'.ys ≠ [] := by intro h0; have := ha'.1; have := ha'.2.2; rw [h0] at *; simp at *; omega
      exact ⟨(r'.xs.getLast hx0, r'.ys.getLast hy0), List.getLast?_eq_some_getLast _, List.getLast?_eq_some_getLast _⟩
    rw [h1] at hf'
    refine ⟨r'.xs, r'.ys, new, q, x, lists_ofRows.2 ⟨r', hri', by rw [h1]⟩, by rw [hcount, h2], lastPos_ofRows.2 ⟨r', hri', hq⟩,
      lastTime_ofRows.2 ⟨r', hri', hlx⟩, ?_, fun m hm => ?_⟩
    · cases e with
      | reached =>
        obtain ⟨t, ht, hc⟩ := h4 rfl
        rw [hlx] at ht
        injection ht with ht
        subst ht
        rw [estAt_exact hf', loopCond_exact, not_le, ← h2] at hc
        exact Or.inr (Or.inr hc)
      | still => exact Or.inr (Or.inl ((h5 rfl).trapped (hOb _ h.obj) hω hq))
      | limit =>
        obtain ⟨ha, hb⟩ := h6.1 rfl
        exact Or.inl (by omega)
    · obtain ⟨t, ht, hc⟩ := h7 m (by omega)
      obtain ⟨y, rfl⟩ := hf' t (by rw [← h1]; exact List.mem_of_getElem? ht)
      rw [estAt_exact hf', loopCond_exact] at hc
      exact ⟨y, by rw [← h1]; exact ht, hc⟩

theorem near_iff {x e T : K} (he : 0 < e) : |x - T| < |x + e - T| ↔ T - e / 2 < x := by
  constructor
  · intro h
    by_contra hc
    have h1 : |x + e - T| ≤ |x - T| := by
      rw [abs_of_nonpos (by linarith : x - T ≤ 0), abs_le]
      constructor <;> linarith
    exact absurd h (not_lt.2 h1)
  · intro h
    have h1 : |x - T| < x + e - T := by
      rw [abs_lt]
      constructor <;> linarith
    exact lt_of_lt_of_le h1 (le_abs_self _)

/-- The same in terms of the times: when a call took at least one step and ended neither by the limit nor at a cell where particles may
stand still, the final time is later than `T - e/2`, with `e` the last duration (at least 1/10); every step was started at a time of at
most `T - e/2`, with `e` the estimate at that moment, unless that estimate was not positive. -/
theorem C24_window {F : Fun K (Arith.exact : Arith K)} {Ob : PObj K → Prop} (hOb : ∀ P, Ob P → Standard F P) {P : PObj K} {s : PState K}
    (h : Reach Arith.exact F Ob (NonzeroDraws Arith.exact) (FinSeed Arith.exact) P s) {ω : Nat → K} (hω : NonzeroDraws Arith.exact ω)
    {T : K} {maxIter : Int} {res : RunResult K} (hrun : runIteration Arith.exact F P ω s (some (.fin T)) maxIter = .ok res)
    {wd : WalkData K} (hwd : s.walk = some wd) {i : Nat} {xs ys xs' ys' : List Int} {ts new : List (Fl K)}
    (hl : wd.lists i = some (xs, ys, ts)) (hl' : res.returned.lists i = some (xs', ys', ts ++ new)) {p : Int × Int}
    (hp : res.returned.lastPos i = some p) (hnew : new ≠ []) (hlim : (new.length : Int) < maxIter) (htrap : ¬ Trapped F P p) :
    ∃ x, res.returned.lastTime i = some (.fin x) ∧ T - max (1 / 10) (firstEstimate (ts ++ new)) / 2 < x ∧
      ∀ n, n < new.length → ∃ y, (ts ++ new)[ts.length - 1 + n]? = some (.fin y) ∧
        (0 < estimate ts new n → y ≤ T - estimate ts new n / 2) := by
  obtain ⟨xs1, ys1, new1, p1, x, e1, -, e3, e4, e5, e6⟩ := C24_ends_near hOb h hω hrun hwd hl
  rw [hl'] at e1
  simp only [Option.some.injEq, Prod.mk.injEq, List.append_cancel_left_eq] at e1
  obtain ⟨-, -, rfl⟩ := e1
  rw [hp] at e3
  injection e3 with e3
  subst e3
  have h0 : new.length ≠ 0 := by simpa using hnew
  refine ⟨x, e4, ?_, fun n hn => ?_⟩
  · rcases e5 with e5 | e5 | e5
    · omega
    · exact absurd e5 htrap
    · unfold estimate at e5
      rw [if_neg h0, List.take_length] at e5
      exact (near_iff (lt_of_lt_of_le (by norm_num) (le_max_left _ _))).1 e5
  · obtain ⟨y, hy, hc⟩ := e6 n hn
    refine ⟨y, hy, fun he => ?_⟩
    by_contra hcon
    exact absurd ((near_iff he).2 (not_le.1 hcon)) (not_lt.2 hc)

/-- Particle 0 of three starts at (1,2), takes one step of 15.75 to (2,2) towards the target 20 and stops there: neither stuck, nor stopped
by the limit 10. -/
example : ∃ (s : PState ℚ) (r : RunResult ℚ) (wd : WalkData ℚ) (new : List (Fl ℚ)),
    Reach Arith.exact Fun.toy (Standard Fun.toy) (NonzeroDraws Arith.exact) (FinSeed Arith.exact) (objOf chanFull) s ∧
    NonzeroDraws (K := ℚ) Arith.exact (fun _ => 1 / 2) ∧
    runIteration Arith.exact Fun.toy (objOf chanFull) (fun _ => 1 / 2) s (some (.fin 20)) 10 = .ok r ∧ s.walk = some wd ∧
    wd.lists 0 = some ([1], [2], [.fin 0]) ∧ r.returned.lists 0 = some ([1, 2], [2, 2], [.fin 0] ++ new) ∧
    r.returned.lastPos 0 = some (2, 2) ∧ new = [.fin (5670000012600000007 / 360000000000000000)] ∧ (new.length : Int) < 10 ∧
    ¬ Trapped Fun.toy (objOf chanFull) (2, 2) := by
  obtain ⟨s, r, h, hr, hf⟩ := demo_run (p := chanFull) (Ob := Standard Fun.toy) (ω' := fun _ => 1 / 2) (n := 3) (xs := [1, 2]) (ys := [2, 1])
    (runs := []) (tgt := some (.fin 20)) (mi := 10) (f := fun s r => (s.walk.map (·.lists 0), r.returned.lists 0, r.returned.lastPos 0))
    (b := (some (some ([1], [2], [.fin 0])), some ([1, 2], [2, 2], [.fin 0, .fin (5670000012600000007 / 360000000000000000)]), some (2, 2)))
    chanFull_standard half_draws (finSeed_zero) (by decide +kernel)
  simp only [Prod.mk.injEq, Option.map_eq_some_iff] at hf
  obtain ⟨⟨wd, hw, hf1⟩, hf2, hf3⟩ := hf
  exact ⟨s, r, wd, _, h, half_draws, hr, hw, hf1, hf2, hf3, rfl, by norm_num, chanFull_free⟩

/-! ## C25

Full claim: calling `run_iteration(T)` again leaves a particle untouched that has ended normally. The estimate at the beginning of a
call is the raw duration of the last step, that at its end is at least 1/10; so the claim fails when the last step was shorter than 1/10
(`C25_short_step_counterexample`), hence `_partial`. -/

/-- If the call ended neither by the limit nor at a cell where particles may stand still, and either took no step or its last step took
at least 1/10, then a second call with the same target (any draws, any limit) changes nothing for this particle. -/
theorem C25_idempotent_partial {F : Fun K (Arith.exact : Arith K)} {Ob : PObj K → Prop} (hOb : ∀ P, Ob P → Standard F P) {P : PObj K} {s : PState K}
    (h : Reach Arith.exact F Ob (NonzeroDraws Arith.exact) (FinSeed Arith.exact) P s) {ω : Nat → K} (hω : NonzeroDraws Arith.exact ω)
    {T : K} {maxIter : Int} {res : RunResult K} (hrun : runIteration Arith.exact F P ω s (some (.fin T)) maxIter = .ok res)
    {wd : WalkData K} (hwd : s.walk = some wd) {i : Nat} {xs ys xs' ys' : List Int} {ts new : List (Fl K)}
    (hl : wd.lists i = some (xs, ys, ts)) (hl' : res.returned.lists i = some (xs', ys', ts ++ new)) {p : Int × Int}
    (hp : res.returned.lastPos i = some p) (hlim : (new.length : Int) < max 1 maxIter) (htrap : ¬ Trapped F P p)
    (hdur : new = [] ∨ 1 / 10 ≤ firstEstimate (ts ++ new))
    {ω' : Nat → K} {maxIter' : Int} {res' : RunResult K}
    (hrun' : runIteration Arith.exact F P ω' res.state (some (.fin T)) maxIter' = .ok res') :
    res'.returned.lists i = res.returned.lists i ∧ ∀ var, res'.returned.optList var i = res.returned.optList var i := by
  have hG : ∀ P, Ob P → Good P := fun P hP => (hOb P hP).built.good
  obtain ⟨xs1, ys1, new1, p1, x, e1, -, e3, e4, e5, -⟩ := C24_ends_near hOb h hω hrun hwd hl
  rw [hl'] at e1
  simp only [Option.some.injEq, Prod.mk.injEq, List.append_cancel_left_eq] at e1
  obtain ⟨-, -, rfl⟩ := e1
  rw [hp] at e3
  injection e3 with e3
  subst e3
  have hnear : |x - T| < |x + firstEstimate (ts ++ new) - T| := by
    rcases e5 with e5 | e5 | e5
    · rcases le_or_gt maxIter 1 with hm | hm
      · rw [max_eq_left hm] at hlim; omega
      · rw [max_eq_right hm.le] at hlim; omega
    · exact absurd e5 htrap
    · unfold estimate at e5
      rcases hdur with rfl | hd
      · simpa using e5
      · by_cases h0 : new = []
        · subst h0; simpa using e5
        · have h0 : new.length ≠ 0 := by simpa using h0
          rw [if_neg h0, List.take_length, laterEstimate, max_eq_right hd] at e5
          exact e5
  have h1 := Reach.run h hω hrun
  obtain ⟨hpe, -⟩ := h.state hG
  obtain ⟨rows0, rfl, hnp0, -⟩ := h.finTimes (fun P hP => (hOb P hP).built) hwd
  obtain ⟨hpe1, rows, -, hret, hwalk, hnp, -, -⟩ := runIteration_inv Arith.exact F (hG _ h.obj) hpe hwd (Or.inl hnp0) hrun
  obtain ⟨rows1, hr1, hnp1, hfin⟩ := h1.finTimes (fun P hP => (hOb P hP).built) hwalk
  rw [hr1] at hret hwalk
  obtain ⟨-, rows', -, hret', -, -, -, hits, hout, -⟩ := runIteration_inv Arith.exact F (hG _ h.obj) hpe1 hwalk (Or.inl hnp1) hrun'
  rw [hret] at hl' e4 ⊢
  obtain ⟨r, hri, e⟩ := lists_ofRows.1 hl'
  simp only [Prod.mk.injEq] at e
  obtain ⟨rfl, rfl, e⟩ := e
  obtain ⟨r', hri', p', -, hcase⟩ := hout i r hri
  have hrr : r' = r := by
    rcases hcase with ⟨-, h0, -⟩ | ⟨-, est', ex, n, hloop, -⟩
    · exact h0
    · have hfr := (hfin r (List.mem_of_getElem? hri)).2
      obtain ⟨r2, hr2, hlast⟩ := lastTime_ofRows.1 e4
      rw [hri] at hr2
      cases hr2
      have hn : ¬ loopCond Arith.exact (.fin T) (.fin x) (initEst Arith.exact r.ts) := by
        rw [initEst_exact hfr, loopCond_exact, not_le, ← e]
        exact hnear
      cases hloop with
      | reached => rfl
      | still => rfl
      | limit ht hc => rw [hlast] at ht; cases ht; exact absurd hc hn
      | more ht hc => rw [hlast] at ht; cases ht; exact absurd hc hn
  subst hrr
  rw [hret']
  refine ⟨by rw [lists_ofRows.2 ⟨_, hri', rfl⟩, lists_ofRows.2 ⟨_, hri, rfl⟩], fun var => ?_⟩
  apply Option.ext
  intro l
  rw [optList_ofRows, optList_ofRows, hri, hri']

/-- The claim itself fails: in the channel with small cells the particle takes one step of 0.079 towards the target 0.12 and the loop
ends normally, one of ten steps used, at a cell where it cannot stand still; the same call again moves it one step further. -/
theorem C25_short_step_counterexample : ∃ (s : PState ℚ) (r r' : RunResult ℚ),
    Reach Arith.exact Fun.toy (Standard Fun.toy) (NonzeroDraws Arith.exact) (FinSeed Arith.exact) (objOf chanShort) s ∧
    NonzeroDraws (K := ℚ) Arith.exact (fun _ => 1 / 2) ∧
    runIteration Arith.exact Fun.toy (objOf chanShort) (fun _ => 1 / 2) s (some (.fin (12 / 100))) 10 = .ok r ∧
    runIteration Arith.exact Fun.toy (objOf chanShort) (fun _ => 1 / 2) r.state (some (.fin (12 / 100))) 10 = .ok r' ∧
    r.returned.lastPos 0 = some (2, 2) ∧ ¬ Trapped Fun.toy (objOf chanShort) (2, 2) ∧
    s.walk.map (·.xinds) = some [[1]] ∧ r.returned.xinds = [[1, 2]] ∧ r'.returned.xinds = [[1, 2, 3]] := by
  obtain ⟨s, r, h, hr, hf⟩ := demo_run (p := chanShort) (Ob := Standard Fun.toy) (ω' := fun _ => 1 / 2) (n := 1) (xs := [1]) (ys := [2])
    (runs := []) (tgt := some (.fin (12 / 100))) (mi := 10)
    (f := fun s r => (s.walk.map (·.xinds), r.returned.xinds, r.returned.lastPos 0,
      (runIteration Arith.exact Fun.toy (objOf chanShort) (fun _ => 1 / 2) r.state (some (.fin (12 / 100))) 10).toOption.map (·.returned.xinds)))
    (b := (some [[1]], [[1, 2]], some (2, 2), some [[1, 2, 3]]))
    chanShort_standard half_draws (finSeed_zero) (by decide +kernel)
  simp only [Prod.mk.injEq] at hf
  obtain ⟨hf1, hf2, hf3, hf4⟩ := hf
  cases hr' : runIteration Arith.exact Fun.toy (objOf chanShort) (fun _ => 1 / 2) r.state (some (.fin (12 / 100))) 10 with
  | error e => rw [hr'] at hf4; simp [Except.toOption] at hf4
  | ok r' =>
    rw [hr'] at hf4
    simp only [Except.toOption, Option.map_some, Option.some.injEq] at hf4
    exact ⟨s, r, r', h, half_draws, hr, hr', hf3, chanShort_free, hf1, hf2, hf4⟩

/-- The hypotheses of the partial claim: one step of 15.75 towards the target 20; the second call uses other draws and another limit. -/
example : ∃ (s : PState ℚ) (r r' : RunResult ℚ) (wd : WalkData ℚ) (new : List (Fl ℚ)),
    Reach Arith.exact Fun.toy (Standard Fun.toy) (NonzeroDraws Arith.exact) (FinSeed Arith.exact) (objOf chanFull) s ∧
    runIteration Arith.exact Fun.toy (objOf chanFull) (fun _ => 1 / 2) s (some (.fin 20)) 10 = .ok r ∧ s.walk = some wd ∧
    wd.lists 0 = some ([1], [2], [.fin 0]) ∧ r.returned.lists 0 = some ([1, 2], [2, 2], [.fin 0] ++ new) ∧
    r.returned.lastPos 0 = some (2, 2) ∧ (new.length : Int) < max 1 10 ∧ ¬ Trapped Fun.toy (objOf chanFull) (2, 2) ∧
    1 / 10 ≤ firstEstimate ([.fin 0] ++ new) ∧ new ≠ [] ∧
    runIteration Arith.exact Fun.toy (objOf chanFull) (fun _ => 1 / 3) r.state (some (.fin 20)) 5 = .ok r' := by
  obtain ⟨s, r, h, hr, hf⟩ := demo_run (p := chanFull) (Ob := Standard Fun.toy) (ω' := fun _ => 1 / 2) (n := 3) (xs := [1, 2]) (ys := [2, 1])
    (runs := []) (tgt := some (.fin 20)) (mi := 10)
    (f := fun s r => (s.walk.map (·.lists 0), r.returned.lists 0, r.returned.lastPos 0,
      (runIteration Arith.exact Fun.toy (objOf chanFull) (fun _ => 1 / 3) r.state (some (.fin 20)) 5).toOption.isSome))
    (b := (some (some ([1], [2], [.fin 0])), some ([1, 2], [2, 2], [.fin 0, .fin (5670000012600000007 / 360000000000000000)]), some (2, 2),
      true)) chanFull_standard half_draws (finSeed_zero) (by decide +kernel)
  simp only [Prod.mk.injEq, Option.map_eq_some_iff] at hf
  obtain ⟨⟨wd, hw, hf1⟩, hf2, hf3, hf4⟩ := hf
  cases hr' : runIteration Arith.exact Fun.toy (objOf chanFull) (fun _ => 1 / 3) r.state (some (.fin 20)) 5 with
  | error e => rw [hr'] at hf4; simp [Except.toOption] at hf4
  | ok r' =>
    exact ⟨s, r, r', wd, _, h, hr, hw, hf1, hf2, hf3, by norm_num, chanFull_free, by decide +kernel, by simp, hr'⟩

/-! ## C26

Full claim: the warning lists exactly the particles stopped by `max_iter`. The list is re-initialised for every particle, so it can only
contain the last one (`C26_two_particles_counterexample`), and a call with no particles raises UnboundLocalError (`C26_no_particles`);
hence `_partial`. -/

variable {A : Arith K} {F : Fun K A} {Ω : (Nat → K) → Prop} {Sd : PObj K → List Int → List Int → Fl K → Prop}

/-- Any rounding, any draws, any history. A particle is stopped by the limit iff it took `max 1 max_iter` steps; the warning names the last
particle iff that one was stopped (and output is verbose), and never any other. -/
theorem C26_last_particle_partial {P : PObj K} {s : PState K} (h : Reach A F (Built A F) Ω Sd P s) {ω : Nat → K} {target : Fl K}
    {maxIter : Int} {res : RunResult K} (hrun : runIteration A F P ω s (some target) maxIter = .ok res) {wd : WalkData K}
    (hwd : s.walk = some wd) :
    ∃ xs ys ts xs' ys' ts', 1 ≤ s.np ∧ wd.lists (s.np - 1) = some (xs, ys, ts) ∧ res.returned.lists (s.np - 1) = some (xs', ys', ts') ∧
      res.warned = if P.verbose = true ∧ (xs'.length : Int) - xs.length = max 1 maxIter then [s.np - 1] else [] := by
  have hG : ∀ P, Built A F P → Good P := fun P hP => hP.good
  obtain ⟨hpe, h0 | ⟨rows, hr⟩⟩ := h.state hG
  · rw [h0] at hwd; cases hwd
  rw [hr.1] at hwd
  cases hwd
  obtain ⟨-, rows', -, hret, -, -, hne, hits, hout, hwarn⟩ := runIteration_inv A F (hG _ h.obj) hpe hr.1 (Or.inl hr.2) hrun
  have hlen : 0 < rows.length := List.length_pos_iff.2 hne
  have hri := List.getElem?_eq_getElem (by omega : rows.length - 1 < rows.length)
  obtain ⟨r', hri', p, -, hcase⟩ := hout _ _ hri
  rw [hr.2, hret, hwarn]
  refine ⟨_, _, _, _, _, _, hlen, lists_ofRows.2 ⟨_, hri, rfl⟩, lists_ofRows.2 ⟨_, hri', rfl⟩, ?_⟩
  have key : hits (rows.length - 1) = true ↔ (r'.xs.length : Int) - (rows[rows.length - 1].xs.length : Int) = max 1 maxIter := by
    rcases hcase with ⟨-, rfl, h0⟩ | ⟨-, est', e, n, hloop, hh⟩
    · rw [h0]
      have := le_max_left 1 maxIter
      simp
      omega
    · obtain ⟨hc, hb⟩ := hloop.count
      obtain ⟨-, -, -, -, -, -, h6, -⟩ := hloop.spec
      rw [hh, h6, hc]
      push_cast
      have h1 := le_max_left 1 maxIter
      have h2 := le_max_right 1 maxIter
      have h3 := max_choice 1 maxIter
      generalize max 1 maxIter = M at h1 h2 h3
      omega
  by_cases hv : P.verbose = true
  · simp only [hv, if_true, true_and]
    by_cases hk : hits (rows.length - 1) = true
    · rw [if_pos hk, if_pos (key.1 hk)]
    · rw [if_neg hk, if_neg (fun hh => hk (key.2 hh))]
  · simp [hv]

/-- With zero particles a call with a target raises UnboundLocalError instead of returning. -/
theorem C26_no_particles {P : PObj K} {s : PState K} (h : Reach A F (Built A F) Ω Sd P s) (h0 : s.np = 0) {wd : WalkData K}
    (hwd : s.walk = some wd) (ω : Nat → K) (target : Fl K) (maxIter : Int) :
    runIteration A F P ω s (some target) maxIter = .error .unboundLocalError := by
  have hG : ∀ P, Built A F P → Good P := fun P hP => hP.good
  obtain ⟨hpe, hn | ⟨rows, hr⟩⟩ := h.state hG
  · rw [hn] at hwd; cases hwd
  have hz : rows = [] := List.length_eq_zero_iff.1 (by rw [← hr.2]; exact h0)
  subst hz
  unfold runIteration
  rw [hr.1, h0]
  simp only [if_true, ofRows, List.map_nil, List.length_nil, List.range_zero, mapE, ok_bind, targetAll]
  have : ∀ (l : List (String × List (List (Val K)))), ∃ b, mapE (fun _ => (.ok [] : Except PyErr (List (Val K)))) l = .ok b := by
    intro l
    induction l with
    | nil => exact ⟨_, rfl⟩
    | cons a l ih =>
      obtain ⟨b, hb⟩ := ih
      refine ⟨[] :: b, ?_⟩
      rw [mapE, hb]
      rfl
  obtain ⟨b, hb⟩ := this _
  rw [hb]
  rfl

/-- The claim itself fails: with verbose output and `max_iter = 1`, particle 0 is stopped by the limit after one step far from the target
100, particle 1 is next to the edge and does not move; nothing is reported. When both are stopped only the second is reported. -/
theorem C26_two_particles_counterexample : ∃ (s s2 : PState ℚ) (r r2 : RunResult ℚ), (objOf chanFull).verbose = true ∧
    Reach Arith.exact Fun.toy (Standard Fun.toy) (NonzeroDraws Arith.exact) (FinSeed Arith.exact) (objOf chanFull) s ∧
    Reach Arith.exact Fun.toy (Standard Fun.toy) (NonzeroDraws Arith.exact) (FinSeed Arith.exact) (objOf chanFull) s2 ∧
    runIteration Arith.exact Fun.toy (objOf chanFull) (fun _ => 1 / 2) s (some (.fin 100)) 1 = .ok r ∧
    runIteration Arith.exact Fun.toy (objOf chanFull) (fun _ => 1 / 2) s2 (some (.fin 100)) 1 = .ok r2 ∧
    s.walk.map (·.xinds) = some [[1], [3]] ∧ r.returned.xinds = [[1, 2], [3]] ∧ r.warned = [] ∧
    s2.walk.map (·.xinds) = some [[1], [2]] ∧ r2.returned.xinds = [[1, 2], [2, 3]] ∧ r2.warned = [1] := by
  obtain ⟨s, r, h, hr, hf⟩ := demo_run (p := chanFull) (Ob := Standard Fun.toy) (ω' := fun _ => 1 / 2) (n := 2) (xs := [1, 3]) (ys := [2, 2])
    (runs := []) (tgt := some (.fin 100)) (mi := 1) (f := fun s r => (s.walk.map (·.xinds), r.returned.xinds, r.warned))
    (b := (some [[1], [3]], [[1, 2], [3]], [])) chanFull_standard half_draws (finSeed_zero) (by decide +kernel)
  obtain ⟨s2, r2, h2, hr2, hf2⟩ := demo_run (p := chanFull) (Ob := Standard Fun.toy) (ω' := fun _ => 1 / 2) (n := 2) (xs := [1, 2])
    (ys := [2, 2]) (runs := []) (tgt := some (.fin 100)) (mi := 1) (f := fun s r => (s.walk.map (·.xinds), r.returned.xinds, r.warned))
    (b := (some [[1], [2]], [[1, 2], [2, 3]], [1])) chanFull_standard half_draws (finSeed_zero) (by decide +kernel)
  simp only [Prod.mk.injEq] at hf hf2
  exact ⟨s, s2, r, r2, rfl, h, h2, hr, hr2, hf.1, hf.2.1, hf.2.2, hf2.1, hf2.2.1, hf2.2.2⟩

/-- States with no particles are reachable: `generate_particles(0, …)`. -/
example : ∃ (s : PState ℚ) (wd : WalkData ℚ), Reach Arith.exact Fun.toy (Built Arith.exact Fun.toy) (NonzeroDraws Arith.exact)
    (FinSeed Arith.exact) (objOf chanFull) s ∧ s.np = 0 ∧ s.walk = some wd := by
  obtain ⟨s, h, hf⟩ := demo_obs (x := demo chanFull (fun _ => 1 / 2) 0 [1, 3] [2, 2] []) (f := fun s => s.walk.map fun w => (w.xinds, s.np))
    (b := ([], 0)) (by decide +kernel)
  simp only [Option.map_eq_some_iff, Prod.mk.injEq] at hf
  obtain ⟨wd, hw, -, hn⟩ := hf
  exact ⟨s, wd, (demo_reach half_draws finSeed_zero h).mono fun P hP => hP ▸ chanFull_built, hn, hw⟩

/-! ## C66 -/

/-- Any rounding, non-zero draws: `run_iteration()` moves every particle that is at an interior cell with some flow-derived weight away
from edge cells; it never stands still there. -/
theorem C66_progress {Ob : PObj K → Prop} (hOb : ∀ P, Ob P → Standard F P) {P : PObj K} {s : PState K}
    (h : Reach A F Ob Ω Sd P s) {ω : Nat → K} (hω : NonzeroDraws A ω) {maxIter : Int} {res : RunResult K}
    (hrun : runIteration A F P ω s none maxIter = .ok res) {wd : WalkData K} (hwd : s.walk = some wd) {i a b : Nat}
    {xs ys : List Int} {ts : List (Fl K)} (hl : wd.lists i = some (xs, ys, ts)) (hp : wd.lastPos i = some ((a : Int), (b : Int)))
    (hin : Interior P a b) (he : ¬ NearEdge P a b) (hd : ¬ NoFlowWeight A F P a b) :
    ∃ q t, res.returned.lists i = some (xs ++ [q.1], ys ++ [q.2], ts ++ [t]) ∧ q ≠ ((a : Int), (b : Int)) := by
  have hG : ∀ P, Ob P → Good P := fun P hP => (hOb P hP).built.good
  obtain ⟨hpe, h0 | ⟨rows, hr⟩⟩ := h.state hG
  · rw [h0] at hwd; cases hwd
  rw [hr.1] at hwd
  cases hwd
  obtain ⟨-, rows', -, hret, -, -, -, hout⟩ := runIteration_inv A F (hG _ h.obj) hpe hr.1 (Or.inl hr.2) hrun
  obtain ⟨r, hri, e⟩ := lists_ofRows.1 hl
  cases e
  obtain ⟨r2, hri2, hlp⟩ := lastPos_ofRows.1 hp
  rw [hri] at hri2
  cases hri2
  obtain ⟨r', hri', ⟨-, hstill⟩ | ⟨p, t, q, t', v, hp', -, -, hne, -, rfl⟩⟩ := hout i r hri
  · obtain ⟨t, t', -, hs⟩ := hstill.lastPos hlp
    have hP := hOb _ h.obj
    exact absurd (hs.trapped hP.built.good hP.walk hP.self hP.steps hω hin) (by simp [he, hd])
  · have := Row.lastPos_unique hp' hlp
    subst this
    rw [hret]
    exact ⟨q, t', lists_ofRows.2 ⟨_, hri', rfl⟩, hne⟩

/-- Three particles of the open channel at interior cells, of which (1,2) and (2,1) are not next to the edge and have flow weights. -/
example : ∃ (s : PState ℚ) (r : RunResult ℚ) (wd : WalkData ℚ),
    Reach Arith.exact Fun.toy (Standard Fun.toy) (NonzeroDraws Arith.exact) (FinSeed Arith.exact) (objOf chanFull) s ∧
    runIteration Arith.exact Fun.toy (objOf chanFull) (fun _ => 1 / 2) s none 1 = .ok r ∧ s.walk = some wd ∧
    wd.lists 1 = some ([2], [1], [.fin 0]) ∧ wd.lastPos 1 = some (((2 : Nat) : Int), ((1 : Nat) : Int)) ∧ Interior (objOf chanFull) 2 1 ∧
    ¬ NearEdge (objOf chanFull) 2 1 ∧ ¬ NoFlowWeight Arith.exact Fun.toy (objOf chanFull) 2 1 := by
  obtain ⟨s, r, h, hr, hf⟩ := demo_run (p := chanFull) (Ob := Standard Fun.toy) (ω' := fun _ => 1 / 2) (n := 3) (xs := [1, 2]) (ys := [2, 1])
    (runs := []) (tgt := none) (mi := 1) (f := fun s _ => s.walk.map fun w => (w.lists 1, w.lastPos 1))
    (b := some (some ([2], [1], [.fin 0]), some (2, 1))) chanFull_standard half_draws (finSeed_zero) (by decide +kernel)
  simp only [Prod.mk.injEq, Option.map_eq_some_iff] at hf
  obtain ⟨wd, hw, hf1, hf2⟩ := hf
  have hin : Interior (objOf chanFull) 2 1 := by unfold Interior; decide +kernel
  refine ⟨s, r, wd, h, hr, hw, hf1, hf2, hin, fun he => ?_, by unfold NoFlowWeight; decide +kernel⟩
  exact absurd ((nearEdge_iff hin.1 hin.2.2.1).2 he) (by decide +kernel)

end Dorado
