import Verif.Lemmas.Hist
import Verif.Lemmas.Init
import Verif.Spec.Demo

/-! # C14-C16, C21, C22: recorded histories -/

set_option linter.unusedSectionVars false

namespace Dorado

variable {K : Type} [Field K] [LinearOrder K] [IsStrictOrderedRing K] [FloorRing K] {A : Arith K} {F : Fun K A}
variable {Ω : (Nat → K) → Prop} {Sd : PObj K → List Int → List Int → Fl K → Prop}

/-! ## C14 -/

/-- Any rounding, any draws whatever, any history (including continuation from other objects): consecutive positions differ by at most
one in each index. -/
theorem C14_connected {P : PObj K} {s : PState K}
    (h : Reach A F (fun P => Built A F P ∧ DefaultWalk P ∧ StepsNonzero A P) Ω Sd P s) {wd : WalkData K} (hwd : s.walk = some wd)
    {i n : Nat} {p q : Int × Int} (hp : wd.posAt i n = some p) (hq : wd.posAt i (n + 1) = some q) :
    |q.1 - p.1| ≤ 1 ∧ |q.2 - p.2| ≤ 1 := by
  obtain ⟨rows, rfl, -, hrows⟩ := Reach.walk (I := fun _ _ => True)
    (R := fun p _ q _ => |q.1 - p.1| ≤ 1 ∧ |q.2 - p.2| ≤ 1)
    (fun P hP => hP.1.good) (fun _ _ _ _ _ _ _ _ _ _ => trivial)
    (fun P ω p t q t' hP hω _ hs hne => ⟨trivial, by
      obtain ⟨i, j, k, r, hm⟩ := hs.move hP.2.2 hne
      rw [hm.dest, hP.2.1.1, hP.2.1.2]
      have hk := hm.lt
      have : k = 0 ∨ k = 1 ∨ k = 2 ∨ k = 3 ∨ k = 4 ∨ k = 5 ∨ k = 6 ∨ k = 7 ∨ k = 8 := by omega
      rcases this with rfl | rfl | rfl | rfl | rfl | rfl | rfl | rfl | rfl <;> simp [defaultIwalk, defaultJwalk]⟩) h hwd
  obtain ⟨r, hr, hx, hy⟩ := posAt_ofRows.1 hp
  obtain ⟨r', hr', hx', hy'⟩ := posAt_ofRows.1 hq
  rw [hr] at hr'
  cases hr'
  have hI := hrows r (List.mem_of_getElem? hr)
  obtain ⟨t, -, hrec⟩ := rec_of_pos hI.aligned hx hy
  obtain ⟨t', -, hrec'⟩ := rec_of_pos hI.aligned hx' hy'
  exact (hI.pairs n _ _ _ _ hrec hrec').2

/-! ## C15 -/

/-- Any rounding, any history: one list per particle, equal non-zero lengths, for the base entries and every optional variable. -/
theorem C15_aligned {P : PObj K} {s : PState K} (h : Reach A F (Built A F) Ω Sd P s) {wd : WalkData K} (hwd : s.walk = some wd) :
    wd.xinds.length = s.np ∧ wd.yinds.length = s.np ∧ wd.times.length = s.np ∧
    (∀ var, OptVar P var → ∃ l, dictGet wd.opt var = some l ∧ l.length = s.np) ∧
    ∀ i, i < s.np → ∃ xs ys ts, wd.lists i = some (xs, ys, ts) ∧ xs ≠ [] ∧ ys.length = xs.length ∧ ts.length = xs.length ∧
      ∀ var, OptVar P var → ∃ vs, wd.optList var i = some vs ∧ vs.length = xs.length := by
  obtain ⟨rows, rfl, hnp, hrows⟩ := Reach.vars (V := fun _ _ _ => True) (fun P hP => hP.good) h
    (fun _ _ _ _ _ _ _ _ => trivial) hwd
  refine ⟨by simp [ofRows, hnp], by simp [ofRows, hnp], by simp [ofRows, hnp], fun var hv => ?_, fun i hi => ?_⟩
  · refine ⟨rows.map fun r => r.os var, ?_, by simp [hnp]⟩
    show dictGet (dictOf (keysOf P) _) var = _
    rw [dictGet_dictOf, if_pos (optVar_iff.1 hv)]
  · have hi' : i < rows.length := by omega
    have hr := List.getElem?_eq_getElem hi'
    obtain ⟨⟨h1, h2, h3⟩, hl, -⟩ := hrows _ (List.getElem_mem hi')
    refine ⟨_, _, _, lists_ofRows.2 ⟨_, hr, rfl⟩, fun h0 => ?_, h1, h2, fun var hv => ?_⟩
    · rw [h0] at h3; simp at h3
    · exact ⟨_, optList_ofRows.2 ⟨optVar_iff.1 hv, _, hr, rfl⟩, hl var (optVar_iff.1 hv)⟩

/-- Consecutive recorded positions are different. -/
theorem C15_no_repeat {P : PObj K} {s : PState K} (h : Reach A F (Built A F) Ω Sd P s) {wd : WalkData K} (hwd : s.walk = some wd)
    {i n : Nat} {p q : Int × Int} (hp : wd.posAt i n = some p) (hq : wd.posAt i (n + 1) = some q) : q ≠ p := by
  obtain ⟨rows, rfl, -, hrows⟩ := Reach.walk (I := fun _ _ => True) (R := fun _ _ _ _ => True)
    (fun P hP => hP.good) (fun _ _ _ _ _ _ _ _ _ _ => trivial) (fun _ _ _ _ _ _ _ _ _ _ _ => ⟨trivial, trivial⟩) h hwd
  obtain ⟨r, hr, hx, hy⟩ := posAt_ofRows.1 hp
  obtain ⟨r', hr', hx', hy'⟩ := posAt_ofRows.1 hq
  rw [hr] at hr'
  cases hr'
  have hI := hrows r (List.mem_of_getElem? hr)
  obtain ⟨t, -, hrec⟩ := rec_of_pos hI.aligned hx hy
  obtain ⟨t', -, hrec'⟩ := rec_of_pos hI.aligned hx' hy'
  exact (hI.pairs n _ _ _ _ hrec hrec').1

/-! ## C16 -/

/-- Any rounding, any draws: whatever calls follow, all lists of a particle next to an edge cell stay as they are. -/
theorem C16_stops {P : PObj K} {s s' : PState K} (h : Reach A F (Built A F) Ω Sd P s) (hl : Later A F Ω Sd P s s')
    {wd : WalkData K} (hwd : s.walk = some wd) {i a b : Nat} (hp : wd.lastPos i = some ((a : Int), (b : Int))) (ha : 1 ≤ a) (hb : 1 ≤ b)
    (he : NearEdge P a b) :
    ∃ wd', s'.walk = some wd' ∧ wd'.lists i = wd.lists i ∧ ∀ var, wd'.optList var i = wd.optList var i := by
  have hG : ∀ P, Built A F P → Good P := fun P hP => hP.good
  rcases (h.state hG).2 with h0 | ⟨rows, hr⟩
  · rw [h0] at hwd; cases hwd
  rw [hr.1] at hwd
  cases hwd
  obtain ⟨r, hri, hlp⟩ := lastPos_ofRows.1 hp
  have hedge := (nearEdge_iff ha hb).2 he
  obtain ⟨rows', hr', hT⟩ := Later.rows hG h hl hr (T := fun r r' => r.lastPos ((a : Int), (b : Int)) → r' = r) (fun _ _ => rfl)
    (fun ω r0 r r' hω hs hT hlast => by
      have e := hT hlast
      subst e
      clear hT
      induction hs with
      | refl => rfl
      | tail _ hst ih =>
        rw [ih] at hst
        obtain ⟨p, t, q, t', v, hp', -, hso, hne, -⟩ := hst
        have := Row.lastPos_unique hp' hlast
        subst this
        exact absurd (hso.edge hedge) hne)
  obtain ⟨r', hi', e⟩ := hT i r hri
  rw [e hlp] at hi'
  refine ⟨_, hr'.1, ?_, fun var => ?_⟩
  · rw [(lists_ofRows.2 ⟨r, hi', rfl⟩ : (ofRows (keysOf P) rows').lists i = _), lists_ofRows.2 ⟨r, hri, rfl⟩]
  · apply Option.ext
    intro l
    rw [optList_ofRows, optList_ofRows, hri, hi']

/-! ## C21 -/

/-- Any rounding, any draws: after any later calls every particle keeps its index and its lists extend the earlier ones. -/
theorem C21_append_only {P : PObj K} {s s' : PState K} (h : Reach A F (Built A F) Ω Sd P s) (hl : Later A F Ω Sd P s s')
    {wd : WalkData K} (hwd : s.walk = some wd) :
    ∃ wd', s'.walk = some wd' ∧ ∀ i xs ys ts, wd.lists i = some (xs, ys, ts) → ∃ xs' ys' ts', wd'.lists i = some (xs', ys', ts') ∧
      xs <+: xs' ∧ ys <+: ys' ∧ ts <+: ts' ∧
      ∀ var vs, wd.optList var i = some vs → ∃ vs', wd'.optList var i = some vs' ∧ vs <+: vs' := by
  have hG : ∀ P, Built A F P → Good P := fun P hP => hP.good
  rcases (h.state hG).2 with h0 | ⟨rows, hr⟩
  · rw [h0] at hwd; cases hwd
  rw [hr.1] at hwd
  cases hwd
  obtain ⟨rows', hr', hT⟩ := Later.rows hG h hl hr (T := Row.Prefix) (fun r => .refl r)
    (fun ω r0 r r' hω hs hT => hT.trans hs.prefix)
  refine ⟨_, hr'.1, fun i xs ys ts hlists => ?_⟩
  obtain ⟨r, hri, e⟩ := lists_ofRows.1 hlists
  cases e
  obtain ⟨r', hi', hpre⟩ := hT i r hri
  refine ⟨_, _, _, lists_ofRows.2 ⟨r', hi', rfl⟩, hpre.xs, hpre.ys, hpre.ts, fun var vs hvs => ?_⟩
  obtain ⟨hk, r2, hr2, rfl⟩ := optList_ofRows.1 hvs
  rw [hri] at hr2
  cases hr2
  exact ⟨_, optList_ofRows.2 ⟨hk, r', hi', rfl⟩, hpre.os var⟩

/-! ## C22 -/

/-- What `run_iteration()` does to the walk data `wd`, in terms of observable lists. -/
def OneStep (P : PObj K) (wd : WalkData K) (res : RunResult K) : Prop :=
    res.state.walk = some res.returned ∧
    ∀ i xs ys ts, wd.lists i = some (xs, ys, ts) →
      (res.returned.lists i = some (xs, ys, ts) ∧ ∀ var, res.returned.optList var i = wd.optList var i) ∨
      ∃ q t, res.returned.lists i = some (xs ++ [q.1], ys ++ [q.2], ts ++ [t]) ∧ wd.lastPos i ≠ some q ∧
        ∀ var, OptVar P var → ∃ vs v, wd.optList var i = some vs ∧ res.returned.optList var i = some (vs ++ [v])

theorem oneStep_rows {P : PObj K} (hG : Good P) {s : PState K} (hpe : PickEquiv A F P s.world.weight) {rows : List (Row K)} (hr : HasRows P s rows)
    {ω : Nat → K} {maxIter : Int} {res : RunResult K} (hrun : runIteration A F P ω s none maxIter = .ok res) :
    OneStep P (ofRows (keysOf P) rows) res := by
  obtain ⟨-, rows', -, hret, hwk, -, -, hout⟩ := runIteration_inv A F hG hpe hr.1 (Or.inl hr.2) hrun
  refine ⟨by rw [hwk, hret], fun i xs ys ts hlists => ?_⟩
  obtain ⟨r, hri, e⟩ := lists_ofRows.1 hlists
  cases e
  obtain ⟨r', hri', hcase⟩ := hout i r hri
  rw [hret]
  rcases hcase with ⟨rfl, -⟩ | ⟨p, t, q, t', v, hp, -, -, hne, -, rfl⟩
  · left
    refine ⟨lists_ofRows.2 ⟨_, hri', rfl⟩, fun var => ?_⟩
    apply Option.ext
    intro l
    rw [optList_ofRows, optList_ofRows, hri, hri']
  · right
    refine ⟨q, t', lists_ofRows.2 ⟨_, hri', rfl⟩, fun hh => ?_, fun var hv => ?_⟩
    · rw [(lastPos_ofRows.2 ⟨r, hri, hp⟩)] at hh
      injection hh with hh
      exact hne hh.symm
    · exact ⟨_, v var, optList_ofRows.2 ⟨optVar_iff.1 hv, r, hri, rfl⟩, optList_ofRows.2 ⟨optVar_iff.1 hv, _, hri', rfl⟩⟩

/-- Any rounding, any draws: `run_iteration()` leaves a particle's lists unchanged, or appends one entry with a new position to each
of them. The returned dictionary is the stored walk data. -/
theorem C22_one_step {P : PObj K} {s : PState K} (h : Reach A F (Built A F) Ω Sd P s) {ω : Nat → K} {maxIter : Int} {res : RunResult K}
    (hrun : runIteration A F P ω s none maxIter = .ok res) {wd : WalkData K} (hwd : s.walk = some wd) :
    OneStep P wd res := by
  have hG : ∀ P, Built A F P → Good P := fun P hP => hP.good
  obtain ⟨hpe, h0 | ⟨rows, hr⟩⟩ := h.state hG
  · rw [h0] at hwd; cases hwd
  rw [hr.1] at hwd
  cases hwd
  exact oneStep_rows (hG _ h.obj) hpe hr hrun

/-! ## Concrete cases -/

/-- C14: a walk of two steps, with a diagonal move of the second particle; three particles, a mixed call history. -/
example : ∃ s wd, Reach Arith.exact Fun.toy (fun P => Built Arith.exact Fun.toy P ∧ DefaultWalk P ∧ StepsNonzero Arith.exact P)
      (NonzeroDraws Arith.exact) AnySeed (objOf chanFull) s ∧ s.walk = some wd ∧
    (wd.xinds, wd.yinds) = ([[1, 2, 3], [2, 3], [1, 2, 3]], [[2, 2, 2], [1, 2], [2, 2, 2]]) := by
  obtain ⟨s, wd, hr, hw, hf, -⟩ := demo_walk (p := chanFull) (ω := fun _ => 1 / 2) (n := 3) (xs := [1, 2]) (ys := [2, 1])
    (runs := [(none, 10), (some (.fin 30), 10), (none, 10)])
    (Ob := fun P => Built Arith.exact Fun.toy P ∧ DefaultWalk P ∧ StepsNonzero Arith.exact P)
    (Ω := NonzeroDraws Arith.exact) (Sd := AnySeed) ⟨chanFull_built, ⟨rfl, rfl⟩, fun k hk => by interval_cases k <;> decide +kernel⟩
    half_draws trivial
    (f := fun wd => (wd.xinds, wd.yinds)) (b := ([[1, 2, 3], [2, 3], [1, 2, 3]], [[2, 2, 2], [1, 2], [2, 2, 2]])) (by decide +kernel)
  exact ⟨s, wd, hr, hw, hf⟩

/-- A channel whose cells have size zero. -/
def chanFlat : Params ℚ := { chanOpen with dx := some 0 }
theorem chanFlat_built : Built Arith.exact Fun.toy (objOf chanFlat) := ⟨chanFlat, { chan_valid with }, rfl⟩

/-- The hypothesis `StepsNonzero` of C14 is needed: with `dx = 0` a particle jumps to the corner of the grid. -/
theorem C14_zero_dx_counterexample :
    ∃ s wd, Reach Arith.exact Fun.toy (Built Arith.exact Fun.toy) (NonzeroDraws Arith.exact) AnySeed (objOf chanFlat) s ∧
      s.walk = some wd ∧ (wd.posAt 0 0, wd.posAt 0 1) = (some (1, 2), some (0, 0)) := by
  obtain ⟨s, wd, hr, hw, hf, -⟩ := demo_walk (p := chanFlat) (ω := fun _ => 1 / 2) (n := 1) (xs := [1]) (ys := [2])
    (runs := [(none, 10)]) (Ω := NonzeroDraws Arith.exact) (Sd := AnySeed) chanFlat_built half_draws trivial
    (f := fun wd => (wd.posAt 0 0, wd.posAt 0 1)) (b := (some (1, 2), some (0, 0))) (by decide +kernel)
  exact ⟨s, wd, hr, hw, hf⟩

/-- C15: the lengths of all lists in a run with three tracked variables, seeded twice. -/
example : ∃ s wd, Reach Arith.exact Fun.toy (Built Arith.exact Fun.toy) (NonzeroDraws Arith.exact) AnySeed (objOf chanFull) s ∧
    s.walk = some wd ∧ wd.xinds.map List.length = [3, 2, 3] ∧ wd.opt.map (fun e => (e.1, e.2.map List.length)) =
      [("depth", [3, 2, 3]), ("u", [3, 2, 3]), ("roi_flag", [3, 2, 3])] := by
  obtain ⟨s, wd, hr, hw, hf, -⟩ := demo_walk (p := chanFull) (ω := fun _ => 1 / 2) (n := 3) (xs := [1, 2]) (ys := [2, 1])
    (runs := [(none, 10), (some (.fin 30), 10), (none, 10)]) (Ω := NonzeroDraws Arith.exact) (Sd := AnySeed) chanFull_built half_draws trivial
    (f := fun wd => (wd.xinds.map List.length, wd.opt.map (fun e => (e.1, e.2.map List.length))))
    (b := ([3, 2, 3], [("depth", [3, 2, 3]), ("u", [3, 2, 3]), ("roi_flag", [3, 2, 3])])) (by decide +kernel)
  simp only [Prod.mk.injEq] at hf
  exact ⟨s, wd, hr, hw, hf⟩

/-- C16, C21, C22: after two steps the first particle is next to an edge; calls with and without target follow. -/
example : ∃ s s' wd wd', Reach Arith.exact Fun.toy (Built Arith.exact Fun.toy) (NonzeroDraws Arith.exact) AnySeed (objOf chanFull) s ∧
    Later Arith.exact Fun.toy (NonzeroDraws Arith.exact) AnySeed (objOf chanFull) s s' ∧ s.walk = some wd ∧ s'.walk = some wd' ∧
    wd.lastPos 1 = some (3, 2) ∧ wd.lastPos 0 = some (2, 2) ∧ wd'.lastPos 0 = some (3, 2) ∧ NearEdge (objOf chanFull) 3 2 ∧
    ¬ NearEdge (objOf chanFull) 2 2 := by
  obtain ⟨s, s', wd, wd', hr, hl, hw, hw', hf, hf'⟩ := demo_later (p := chanFull) (ω := fun _ => 1 / 2) (n := 3) (xs := [1, 2])
    (ys := [2, 1]) (runs := [(none, 10)]) (runs' := [(some (.fin 100), 10), (none, 10)]) (Ω := NonzeroDraws Arith.exact) (Sd := AnySeed)
    chanFull_built half_draws trivial (f := fun wd => (wd.lastPos 1, wd.lastPos 0))
    (b := (some (3, 2), some (2, 2))) (b' := (some (3, 2), some (3, 2))) (by decide +kernel) (by decide +kernel)
  simp only [Prod.mk.injEq] at hf hf'
  exact ⟨s, s', wd, wd', hr, hl, hw, hw', hf.1, hf.2, hf'.2,
    (nearEdge_iff (by omega) (by omega)).1 (by decide +kernel), fun h => absurd ((nearEdge_iff (by omega) (by omega)).2 h) (by decide +kernel)⟩

end Dorado
