import Verif.Lemmas.Alone
import Verif.Lemmas.Hist
import Verif.Lemmas.Init
import Verif.Spec.Demo

/-! # C91: a target-time call takes the steps of plain iterations, one particle after the other -/

set_option linter.unusedSectionVars false

namespace Dorado

variable {K : Type} [Field K] [LinearOrder K] [IsStrictOrderedRing K] [FloorRing K] {A : Arith K} {F : Fun K A}

/-- `run_iteration(target_time=T)` handles the particles one after the other: what it does to particle `i` is what some number `k` of plain
`run_iteration()` calls do to an object holding that particle alone, starting from the weights and the place in the random stream the previous
particle left. Each of those calls records one step, except possibly the last, which may leave the particle where it is. Any rounding, both
modes, any target and any iteration limit. -/
theorem C91_each {Ω : (Nat → K) → Prop} {Sd : PObj K → List Int → List Int → Fl K → Prop} {P : PObj K}
    {s : PState K} (h : Reach A F (Built A F) Ω Sd P s) {wd : WalkData K} (hwd : s.walk = some wd) {ω : Nat → K} {T : Fl K} {maxIter : Int}
    {r : RunResult K} (hr : runIteration A F P ω s (some T) maxIter = .ok r) :
    ∃ w : Nat → World K, w 0 = s.world ∧ w s.np = r.state.world ∧ ∀ i < s.np, ∃ k,
      plainRuns A F P ω k (alone (w i) (wd.only i)) = .ok (alone (w (i + 1)) (r.returned.only i)) ∧
      ∀ xs xs', wd.xinds[i]? = some xs → r.returned.xinds[i]? = some xs' → xs'.length = xs.length + k ∨ xs'.length + 1 = xs.length + k := by
  obtain ⟨rows, rfl, hnp, hv⟩ := Reach.vars (V := fun _ _ _ => True) (fun _ hP => hP.good) h
    (fun _ _ _ _ _ _ _ _ => trivial) hwd
  obtain ⟨-, -, l, -, hall⟩ := runIteration_targetAll ⟨hwd, hnp⟩ hr
  rw [List.range_eq_range'] at hall
  obtain ⟨rows', w, hout, hlen, hw0, hw1, -, hrow⟩ := targetAll_plain _ _ (by simp) (fun r hr => (hv r hr).full) hall
  rw [zero_add, ← hnp] at hw1
  refine ⟨w, hw0, hw1, fun i hi => ?_⟩
  have hget := List.getElem?_eq_getElem (l := rows) (i := i) (by omega)
  obtain ⟨r', k, hr', hp, hk⟩ := hrow i _ (Nat.zero_le i) hget
  rw [hout, only_ofRows hget, only_ofRows hr']
  refine ⟨k, hp, fun xs xs' hx hx' => ?_⟩
  simp only [ofRows, List.getElem?_map, hget, hr', Option.map_some, Option.some.injEq] at hx hx'
  rw [← hx, ← hx']
  exact hk

/-- A case: two particles after one iteration, target 30; the first already stands on an edge cell, the second takes
one more step. -/
example : ∃ s r, Reach Arith.exact Fun.toy (Built Arith.exact Fun.toy) (NonzeroDraws Arith.exact) AnySeed (objOf chanFull) s ∧
    runIteration Arith.exact Fun.toy (objOf chanFull) (fun _ => 1 / 2) s (some (.fin 30)) 10 = .ok r ∧
    (s.walk.map fun wd => wd.xinds, r.returned.xinds, s.world.pos, r.state.world.pos) =
      (some [[2, 3], [1, 2]], [[2, 3], [1, 2, 3]], 4, 6) :=
  demo_run (p := chanFull) (ω := fun _ => 1 / 2) (n := 2) (xs := [2, 1]) (ys := [2, 1]) (runs := [(none, 10)]) chanFull_built half_draws trivial
    (by decide +kernel)

/-- The plain calls of that case: one iteration of the second particle alone, from stream position 4 to 6. -/
example : ((demo chanFull (fun _ => 1 / 2) 2 [2, 1] [2, 1] [(none, 10)]).toOption.bind fun s => s.walk.bind fun wd =>
    (plainRuns Arith.exact Fun.toy (objOf chanFull) (fun _ => 1 / 2) 1 (alone s.world (wd.only 1))).toOption.map fun r =>
      (s.world.pos, r.world.pos, r.walk.map (·.xinds))) = some (4, 6, some [[1, 2, 3]]) := by decide +kernel

/-- With a single particle: a target-time call is nothing but a number of plain calls — same walk, same weights, same place in the random
stream. -/
theorem C91_single {Ω : (Nat → K) → Prop} {Sd : PObj K → List Int → List Int → Fl K → Prop} {P : PObj K}
    {s : PState K} (h : Reach A F (Built A F) Ω Sd P s) (hn : s.np = 1) {ω : Nat → K} {T : Fl K} {maxIter : Int} {r : RunResult K}
    (hr : runIteration A F P ω s (some T) maxIter = .ok r) : ∃ k, plainRuns A F P ω k s = .ok r.state := by
  cases hw : s.walk with
  | none => unfold runIteration at hr; rw [hw] at hr; cases hr
  | some wd =>
    obtain ⟨rows, rfl, hnp, hv⟩ := Reach.vars (V := fun _ _ _ => True) (fun _ hP => hP.good) h
      (fun _ _ _ _ _ _ _ _ => trivial) hw
    obtain ⟨h1, h2, l, -, hall⟩ := runIteration_targetAll ⟨hw, hnp⟩ hr
    rw [List.range_eq_range'] at hall
    obtain ⟨rows', w, hout, hlen, hw0, hw1, -, hrow⟩ := targetAll_plain _ _ (by simp) (fun r hr => (hv r hr).full) hall
    obtain ⟨r0, rfl⟩ := List.length_eq_one_iff.1 (hnp.symm.trans hn)
    obtain ⟨r1, rfl⟩ := List.length_eq_one_iff.1 hlen
    obtain ⟨r', k, hr', hp, -⟩ := hrow 0 r0 le_rfl rfl
    simp only [List.getElem?_cons_zero, Option.some.injEq] at hr'
    subst hr'
    refine ⟨k, ?_⟩
    have e1 : s = alone (w 0) (ofRows (keysOf P) [r0]) := by
      obtain ⟨sw, sn, sk⟩ := s
      simp only at hn hw hw0
      subst hn hw hw0
      rfl
    have e2 : r.state = alone (w (0 + 1)) (ofRows (keysOf P) [r1]) := by
      obtain ⟨ret, ⟨sw, sn, sk⟩, warned⟩ := r
      simp only at h1 h2 hout hw1
      subst h1 h2 hout hw1
      rfl
    rw [e1, hp, e2]

/-- A case of one particle: from cell 1 to target 30 in two plain calls. -/
example : ∃ s r, Reach Arith.exact Fun.toy (Built Arith.exact Fun.toy) (NonzeroDraws Arith.exact) AnySeed (objOf chanFull) s ∧
    runIteration Arith.exact Fun.toy (objOf chanFull) (fun _ => 1 / 2) s (some (.fin 30)) 10 = .ok r ∧
    (s.np, s.walk.map fun wd => wd.xinds, r.returned.xinds, s.world.pos, r.state.world.pos) = (1, some [[1]], [[1, 2, 3]], 0, 4) :=
  demo_run (p := chanFull) (ω := fun _ => 1 / 2) (n := 1) (xs := [1]) (ys := [1]) (runs := []) chanFull_built half_draws trivial
    (by decide +kernel)

example : ((demo chanFull (fun _ => 1 / 2) 1 [1] [1] []).toOption.bind fun s =>
    (plainRuns Arith.exact Fun.toy (objOf chanFull) (fun _ => 1 / 2) 2 s).toOption.map fun r => (r.world.pos, r.walk.map (·.xinds))) =
      some (4, some [[1, 2, 3]]) := by decide +kernel

end Dorado
