import Verif.Lemmas.Limit
import Verif.Spec.Limit
import Verif.Props.Target

/-! # C128: the iteration limit of target-time calls

`max_iter` matters only through the particles which it stops. The warning about such particles cannot be relied on for this. -/

set_option linter.unusedSectionVars false
set_option synthInstance.maxSize 1024

namespace Dorado

variable {K : Type} [Field K] [LinearOrder K] [IsStrictOrderedRing K] [FloorRing K] {A : Arith K} {F : Fun K A}
  {Ω : (Nat → K) → Prop} {Sd : PObj K → List Int → List Int → Fl K → Prop}

/-- If no particle recorded as many new positions as the limit admits, a call with any larger limit has the same result: returned data, object
state, place in the random stream, warnings. -/
theorem C128_same {P : PObj K} {s : PState K} (h : Reach A F (Built A F) Ω Sd P s) {ω : Nat → K} {target : Fl K} {m m' : Int} (hm : m ≤ m')
    {r : RunResult K} (hr : runIteration A F P ω s (some target) m = .ok r) (hfree : ∀ i, ¬ AtLimit m s r i) :
    runIteration A F P ω s (some target) m' = .ok r := by
  have hG : ∀ P, Built A F P → Good P := fun P hP => hP.good
  obtain ⟨hpe, h0 | ⟨rows, hrow⟩⟩ := h.state hG
  · unfold runIteration at hr; rw [h0] at hr; cases hr
  obtain ⟨⟨out, w1, l, hall, rfl⟩, hback⟩ := runTarget_ok hrow hr
  obtain ⟨-, rows', hits, hout, hlen, -, -⟩ := targetAll_inv A F (hG _ h.obj) _ List.nodup_range hpe hall
  refine hback m' out w1 l (targetAll_more (hG _ h.obj) hm _ List.nodup_range hpe hall hout ?_)
  intro i _ r r' hr hr' he
  refine hfree i ⟨r.xs, r.ys, r.ts, r'.xs, r'.ys, r'.ts, ?_, ?_, he⟩
  · rw [hrow.1]
    exact lists_ofRows.2 ⟨_, hr, rfl⟩
  · show out.lists i = _
    rw [hout]
    exact lists_ofRows.2 ⟨_, hr', rfl⟩

/-- As long as no particle with a lower index was at the limit, what is recorded of a particle under a limit is the beginning of what is recorded of it
under a larger one, and the particles with lower indices have the same records. In particular this holds for the first particle, whatever the
limits. -/
theorem C128_begins {P : PObj K} {s : PState K} (h : Reach A F (Built A F) Ω Sd P s) {ω : Nat → K} {target : Fl K} {m m' : Int} (hm : m ≤ m')
    {r r' : RunResult K} (hr : runIteration A F P ω s (some target) m = .ok r) (hr' : runIteration A F P ω s (some target) m' = .ok r')
    {i : Nat} (hi : i < r.state.np) (hfree : ∀ j < i, ¬ AtLimit m s r j) :
    (∀ j < i, r'.returned.lists j = r.returned.lists j ∧ ∀ var, r'.returned.optList var j = r.returned.optList var j) ∧
    r.returned.Begins r'.returned i := by
  have hG : ∀ P, Built A F P → Good P := fun P hP => hP.good
  have G := hG _ h.obj
  obtain ⟨hpe, h0 | ⟨rows, hrow⟩⟩ := h.state hG
  · unfold runIteration at hr; rw [h0] at hr; cases hr
  obtain ⟨⟨out, w1, l, hall, rfl⟩, -⟩ := runTarget_ok hrow hr
  obtain ⟨⟨out', w1', l', hall', rfl⟩, -⟩ := runTarget_ok hrow hr'
  simp only at hi
  have hsplit : List.range rows.length = List.range i ++ i :: (List.range (rows.length - (i + 1))).map (i + 1 + ·) := by
    have e : rows.length = i + 1 + (rows.length - (i + 1)) := by omega
    conv_lhs => rw [e, List.range_add, List.range_succ]
    simp
  have hnd : (i :: (List.range (rows.length - (i + 1))).map (i + 1 + ·)).Nodup := by
    have := List.nodup_range (n := rows.length)
    rw [hsplit] at this
    exact (List.nodup_append.1 this).2.1
  rw [hsplit, targetAll_append] at hall hall'
  simp only [bind_ok] at hall hall'
  obtain ⟨⟨wd, s1, wn⟩, h1, h2⟩ := hall
  obtain ⟨⟨wd', s1', wn'⟩, h1', h2'⟩ := hall'
  obtain ⟨hw1, ra, hits, rfl, hla, hra, -⟩ := targetAll_inv A F G _ List.nodup_range hpe h1
  obtain ⟨-, rb, hits1, hout, hlb, hrb, -⟩ := targetAll_inv A F G _ hnd hw1 h2
  have hkeep : ∀ j < i, rb[j]? = ra[j]? := by
    intro j hj
    obtain ⟨q, hq, hq', -⟩ := hrb j ra[j] (List.getElem?_eq_getElem (by omega))
    have hnot : j ∉ i :: (List.range (rows.length - (i + 1))).map (i + 1 + ·) := by
      simp only [List.mem_cons, List.mem_map, List.mem_range, not_or, not_exists, not_and]
      exact ⟨by omega, fun x _ => by omega⟩
    rw [hq, hq' hnot, ← List.getElem?_eq_getElem]
  have hmore := targetAll_more G hm _ List.nodup_range hpe h1 rfl (rows' := ra) (by
    intro j hj q q' hq hq' he
    have hji : j < i := by simpa using hj
    refine hfree j hji ⟨q.xs, q.ys, q.ts, q'.xs, q'.ys, q'.ts, ?_, ?_, he⟩
    · rw [hrow.1]
      exact lists_ofRows.2 ⟨_, hq, rfl⟩
    · show out.lists j = _
      rw [hout]
      exact lists_ofRows.2 ⟨_, (hkeep j hji).trans hq', rfl⟩)
  rw [hmore] at h1'
  simp only [Except.ok.injEq, Prod.mk.injEq] at h1'
  obtain ⟨rfl, rfl, rfl⟩ := h1'
  obtain ⟨-, rb', hits2, hout', hlb', hrb', -⟩ := targetAll_inv A F G _ hnd hw1 h2'
  have hkeep' : ∀ j < i, rb'[j]? = ra[j]? := by
    intro j hj
    obtain ⟨q, hq, hq', -⟩ := hrb' j ra[j] (List.getElem?_eq_getElem (by omega))
    have hnot : j ∉ i :: (List.range (rows.length - (i + 1))).map (i + 1 + ·) := by
      simp only [List.mem_cons, List.mem_map, List.mem_range, not_or, not_exists, not_and]
      exact ⟨by omega, fun x _ => by omega⟩
    rw [hq, hq' hnot, ← List.getElem?_eq_getElem]
  simp only [targetAll, bind_ok] at h2 h2'
  obtain ⟨⟨u, su, hu⟩, h3, h4⟩ := h2
  obtain ⟨⟨u', su', hu'⟩, h3', h4'⟩ := h2'
  obtain ⟨q, q', rfl, rfl, hpre⟩ := targetOne_begins G hm hw1 h3 h3'
  rw [List.nodup_cons] at hnd
  obtain ⟨hw2, -⟩ := targetOne_inv A F G hw1 h3
  obtain ⟨hw2', -⟩ := targetOne_inv A F G hw1 h3'
  obtain ⟨-, rc, hits3, hc, -, hrc, -⟩ := targetAll_inv A F G _ hnd.2 hw2 h4
  obtain ⟨-, rc', hits4, hc', -, hrc', -⟩ := targetAll_inv A F G _ hnd.2 hw2' h4'
  obtain ⟨q1, hq1, e1, -⟩ := hrc i q (List.getElem?_set_self (by omega))
  obtain ⟨q2, hq2, e2, -⟩ := hrc' i q' (List.getElem?_set_self (by omega))
  rw [e1 hnd.1] at hq1
  rw [e2 hnd.1] at hq2
  constructor
  · intro j hj
    simp only [hout, hout']
    have := (hkeep j hj).trans (hkeep' j hj).symm
    constructor
    · refine Option.ext fun x => ?_
      rw [lists_ofRows, lists_ofRows, this]
    · intro var
      refine Option.ext fun x => ?_
      rw [optList_ofRows, optList_ofRows, this]
  · simp only [hc, hc']
    refine ⟨_, _, _, _, _, _, lists_ofRows.2 ⟨q, hq1, rfl⟩, lists_ofRows.2 ⟨q', hq2, rfl⟩, hpre.xs, hpre.ys, hpre.ts, ?_⟩
    intro var vs hv
    obtain ⟨hk, r0, hr0, rfl⟩ := optList_ofRows.1 hv
    rw [hq1] at hr0
    cases hr0
    exact ⟨_, optList_ofRows.2 ⟨hk, q', hq2, rfl⟩, hpre.os var⟩

/-- The absence of the warning is no sign that the limit did not matter: two particles, the first of which is stopped by the limit 1. No warning is
issued, and with the limit 10 the first particle goes on. -/
theorem C128_warning_counterexample : ∃ (s : PState ℚ) (r r' : RunResult ℚ), (objOf chanFull).verbose = true ∧
    Reach Arith.exact Fun.toy (Built Arith.exact Fun.toy) (NonzeroDraws Arith.exact) (FinSeed Arith.exact) (objOf chanFull) s ∧
    runIteration Arith.exact Fun.toy (objOf chanFull) (fun _ => 1 / 2) s (some (.fin 100)) 1 = .ok r ∧
    runIteration Arith.exact Fun.toy (objOf chanFull) (fun _ => 1 / 2) s (some (.fin 100)) 10 = .ok r' ∧
    r.warned = [] ∧ r.returned.xinds = [[1, 2], [3]] ∧ r'.returned.xinds = [[1, 2, 3], [3]] := by
  obtain ⟨s, r, h, hr, hf⟩ := demo_run (p := chanFull) (Ob := Built Arith.exact Fun.toy) (ω' := fun _ => 1 / 2) (n := 2) (xs := [1, 3])
    (ys := [2, 2]) (runs := []) (tgt := some (.fin 100)) (mi := 1)
    (f := fun s r => (r.warned, r.returned.xinds,
      (runIteration Arith.exact Fun.toy (objOf chanFull) (fun _ => 1 / 2) s (some (.fin 100)) 10).toOption.map (·.returned.xinds)))
    (b := ([], [[1, 2], [3]], some [[1, 2, 3], [3]])) chanFull_standard.built half_draws finSeed_zero (by decide +kernel)
  simp only [Prod.mk.injEq] at hf
  obtain ⟨g1, g2, g3⟩ := hf
  cases hr' : runIteration Arith.exact Fun.toy (objOf chanFull) (fun _ => 1 / 2) s (some (.fin 100)) 10 with
  | error e => rw [hr'] at g3; cases g3
  | ok r' =>
    rw [hr'] at g3
    exact ⟨s, r, r', rfl, h, hr, hr', g1, g2, Option.some.inj g3⟩

/-- `C128_same` is not vacuous: with the limit 5 both particles stop below it, one after two steps. -/
example : ∃ (s : PState ℚ) (r : RunResult ℚ),
    Reach Arith.exact Fun.toy (Built Arith.exact Fun.toy) (NonzeroDraws Arith.exact) (FinSeed Arith.exact) (objOf chanFull) s ∧
    runIteration Arith.exact Fun.toy (objOf chanFull) (fun _ => 1 / 2) s (some (.fin 100)) 5 = .ok r ∧
    r.returned.xinds = [[1, 2, 3], [3]] ∧ (∀ i, ¬ AtLimit 5 s r i) ∧
    runIteration Arith.exact Fun.toy (objOf chanFull) (fun _ => 1 / 2) s (some (.fin 100)) 1000 = .ok r := by
  obtain ⟨s, r, h, hr, hf⟩ := demo_run (p := chanFull) (Ob := Built Arith.exact Fun.toy) (ω' := fun _ => 1 / 2) (n := 2) (xs := [1, 3])
    (ys := [2, 2]) (runs := []) (tgt := some (.fin 100)) (mi := 5) (f := fun _ r => r.returned.xinds)
    (b := [[1, 2, 3], [3]]) chanFull_standard.built half_draws finSeed_zero (by decide +kernel)
  have hfree : ∀ i, ¬ AtLimit 5 s r i := by
    rintro i ⟨xs, ys, ts, xs', ys', ts', -, h2, h3⟩
    have hx : r.returned.xinds[i]? = some xs' := by
      unfold WalkData.lists at h2
      simp only [bind, Option.bind_eq_some_iff, pure, Option.some.injEq, Prod.mk.injEq] at h2
      obtain ⟨a, ha, b, -, c, -, rfl, -⟩ := h2
      exact ha
    rw [hf] at hx
    have hb : xs'.length ≤ 3 := by
      have := List.mem_of_getElem? hx
      simp only [List.mem_cons, List.not_mem_nil, or_false] at this
      rcases this with rfl | rfl <;> simp
    have h5 : max (1 : Int) 5 = 5 := by decide
    rw [h5] at h3
    omega
  exact ⟨s, r, h, hr, hf, hfree, C128_same h (by decide) hr hfree⟩

/-- `C128_begins` with a proper beginning: the first particle is stopped by the limit 1 and goes on under the limit 10. -/
example : ∃ (s : PState ℚ) (r r' : RunResult ℚ), r.returned.xinds = [[1, 2], [3]] ∧ r'.returned.xinds = [[1, 2, 3], [3]] ∧
    runIteration Arith.exact Fun.toy (objOf chanFull) (fun _ => 1 / 2) s (some (.fin 100)) 1 = .ok r ∧ r.returned.Begins r'.returned 0 := by
  obtain ⟨s, r, r', -, h, hr, hr', -, g2, g3⟩ := C128_warning_counterexample
  refine ⟨s, r, r', g2, g3, hr, (C128_begins h (by decide) hr hr' (i := 0) ?_ (by simp)).2⟩
  obtain ⟨-, h0 | ⟨rows, hrow⟩⟩ := h.state fun P hP => hP.good
  · unfold runIteration at hr; rw [h0] at hr; cases hr
  · obtain ⟨⟨out, w1, l, hall, rfl⟩, -⟩ := runTarget_ok hrow hr
    obtain ⟨hpe, -⟩ := h.state fun P hP => hP.good
    obtain ⟨-, rows', hits, rfl, hlen, -⟩ := targetAll_inv Arith.exact Fun.toy h.obj.good _ List.nodup_range hpe hall
    have := congrArg List.length g2
    simp only [ofRows, List.length_map, List.length_cons, List.length_nil] at this
    show 0 < rows.length
    omega

end Dorado
