import Verif.Props.Sharing

/-! # Concrete cases for the sharing properties, and counterexamples for particles held twice -/

set_option linter.unusedSectionVars false

namespace Dorado

/-- Every object of the examples: a constructed object with the tracked variables of `chanFull`. -/
def FullObj (P : PObj ℚ) : Prop := Built Arith.exact Fun.toy P ∧ P.particleVars = (objOf chanFull).particleVars

theorem fullObj : FullObj (objOf chanFull) := ⟨chanFull_built, rfl⟩

theorem full_ok {Sd : PObj ℚ → List Int → List Int → Fl ℚ → Prop} {Ob : PObj ℚ → Prop} (hO : Ob (objOf chanFull))
    (hS : ∀ P xs ys, Sd P xs ys (.fin 0)) {cs : List Cmd}
    (h : ∀ c ∈ cs, ∀ p, c = .new p → p = chanFull) : ∀ c ∈ cs, c.Ok Ob Sd := by
  intro c hc
  cases c with
  | new p => rw [h _ hc p rfl]; exact hO
  | seed i n xs ys prev => exact fun P => hS P xs ys
  | _ => trivial

/-- One object is routed once; its dictionary is kept. -/
def shareA : List Cmd := [.new chanFull, .seed 0 1 [1] [2] none]
/-- A second object continues from the dictionary of the first, and both are routed. -/
def shareB : List Cmd := [.new chanFull, .seed 1 1 [1] [1] (some 0), .run 1 none 10, .run 0 none 10]

theorem share_ok {Sd : PObj ℚ → List Int → List Int → Fl ℚ → Prop} {Ob : PObj ℚ → Prop} (hO : Ob (objOf chanFull))
    (hS : ∀ P xs ys, Sd P xs ys (.fin 0)) : (∀ c ∈ shareA, c.Ok Ob Sd) ∧ (∀ c ∈ shareB, c.Ok Ob Sd) := by
  constructor <;> refine full_ok hO hS ?_ <;> (intro c hc p hp; subst hp; simp [shareA, shareB] at hc; exact hc)

/-- C64_returned, C64_returned_variables, C64_extends: the dictionary returned by the first call shows one step at first; after the second object
has been continued from it and routed, it shows the further step. -/
example : ∃ as bs S S1 S2, SysRun Arith.exact Fun.toy FullObj (NonzeroDraws Arith.exact) AnySeed as Sys.start S ∧
    SysStep Arith.exact Fun.toy FullObj (NonzeroDraws Arith.exact) AnySeed (.run 0) S S1 ∧
    SysRun Arith.exact Fun.toy FullObj (NonzeroDraws Arith.exact) AnySeed bs S1 S2 ∧ Act.clear 0 ∉ bs ∧
    S1.dicts = [([[1, 2]], [[2, 2]])] ∧ S2.dicts.head? = some ([[1, 2, 3]], [[2, 2, 2]]) ∧
    S2.walks = [some ([[1, 2, 3]], [[2, 2, 2]]), some ([[1, 2, 3], [1, 2]], [[2, 2, 2], [1, 1]])] := by
  obtain ⟨as, a, bs, S, S1, S2, h0, h1, h2, hf⟩ := exec_split (Ob := FullObj) (Ω := NonzeroDraws Arith.exact) (Sd := AnySeed) (ω := fun _ => 1 / 2)
    half_draws (cs := shareA) (c := .run 0 none 10) (cs' := shareB) (share_ok fullObj fun _ _ _ => trivial).1 trivial
    (share_ok fullObj fun _ _ _ => trivial).2
    (f := fun a bs _ S1 S2 => decide (a = .run 0 ∧ Act.clear 0 ∉ bs ∧ S1.dicts = [([[1, 2]], [[2, 2]])] ∧
      S2.dicts.head? = some ([[1, 2, 3]], [[2, 2, 2]]) ∧
      S2.walks = [some ([[1, 2, 3]], [[2, 2, 2]]), some ([[1, 2, 3], [1, 2]], [[2, 2, 2], [1, 1]])])) (b := true) (by decide +kernel)
  obtain ⟨rfl, h3, h4, h5, h6⟩ := of_decide_eq_true hf
  exact ⟨as, bs, S, S1, S2, h0, h1, h2, h3, h4, h5, h6⟩

/-- C64_live: only `run_iteration` is called on the object. -/
example : ∃ as bs S S1 S2, SysRun Arith.exact Fun.toy FullObj (NonzeroDraws Arith.exact) AnySeed as Sys.start S ∧
    SysStep Arith.exact Fun.toy FullObj (NonzeroDraws Arith.exact) AnySeed (.run 0) S S1 ∧
    SysRun Arith.exact Fun.toy FullObj (NonzeroDraws Arith.exact) AnySeed bs S1 S2 ∧ bs = [.run 0, .run 0] ∧
    S1.dicts = [([[1, 2]], [[2, 2]])] ∧ S2.dicts.head? = some ([[1, 2, 3]], [[2, 2, 2]]) := by
  obtain ⟨as, a, bs, S, S1, S2, h0, h1, h2, hf⟩ := exec_split (Ob := FullObj) (Ω := NonzeroDraws Arith.exact) (Sd := AnySeed) (ω := fun _ => 1 / 2)
    half_draws (cs := shareA) (c := .run 0 none 10) (cs' := [.run 0 none 10, .run 0 (some (.fin 100)) 10]) (share_ok fullObj fun _ _ _ => trivial).1 trivial
    (by simp [Cmd.Ok])
    (f := fun a bs _ S1 S2 => decide (a = .run 0 ∧ bs = [.run 0, .run 0] ∧ S1.dicts = [([[1, 2]], [[2, 2]])] ∧
      S2.dicts.head? = some ([[1, 2, 3]], [[2, 2, 2]]))) (b := true) (by decide +kernel)
  obtain ⟨rfl, h3, h4, h5⟩ := of_decide_eq_true hf
  exact ⟨as, bs, S, S1, S2, h0, h1, h2, h3, h4, h5⟩

/-- C64_previous, C64_previous_variables: the dictionary of the first object is passed to the second one; routing the second object extends it. -/
example : ∃ as bs d S S1 S2, SysRun Arith.exact Fun.toy FullObj (NonzeroDraws Arith.exact) AnySeed as Sys.start S ∧
    SysStep Arith.exact Fun.toy FullObj (NonzeroDraws Arith.exact) AnySeed (.generate 1 (some d)) S S1 ∧
    SysRun Arith.exact Fun.toy FullObj (NonzeroDraws Arith.exact) AnySeed bs S1 S2 ∧ Act.clear 1 ∉ bs ∧
    ((S1.heap.read d).xinds, (S1.heap.read d).yinds) = ([[1, 2]], [[2, 2]]) ∧
    ((S2.heap.read d).xinds, (S2.heap.read d).yinds) = ([[1, 2, 3]], [[2, 2, 2]]) ∧
    S2.walks = [none, some ([[1, 2, 3], [1, 2]], [[2, 2, 2], [1, 1]])] := by
  obtain ⟨as, a, bs, S, S1, S2, h0, h1, h2, hf⟩ := exec_split (Ob := FullObj) (Ω := NonzeroDraws Arith.exact) (Sd := AnySeed) (ω := fun _ => 1 / 2)
    half_draws (cs := shareA ++ [.run 0 none 10, .new chanFull]) (c := .seed 1 1 [1] [1] (some 0)) (cs' := [.clear 0, .run 1 none 10])
    (full_ok fullObj (fun _ _ _ => trivial) (by intro c hc p hp; subst hp; simp [shareA] at hc; exact hc)) (fun _ => trivial)
    (by simp [Cmd.Ok])
    (f := fun a bs _ S1 S2 => decide (∃ d ∈ S1.held.head?, a = .generate 1 (some d) ∧ Act.clear 1 ∉ bs ∧
      ((S1.heap.read d).xinds, (S1.heap.read d).yinds) = ([[1, 2]], [[2, 2]]) ∧
      ((S2.heap.read d).xinds, (S2.heap.read d).yinds) = ([[1, 2, 3]], [[2, 2, 2]]) ∧
      S2.walks = [none, some ([[1, 2, 3], [1, 2]], [[2, 2, 2], [1, 1]])])) (b := true) (by decide +kernel)
  obtain ⟨d, -, rfl, h3, h4, h5, h6⟩ := of_decide_eq_true hf
  exact ⟨as, bs, d, S, S1, S2, h0, h1, h2, h3, h4, h5, h6⟩

/-- C64_both: two further objects are given the dictionary of the first, and only the last one is routed; all three show the new record. -/
example : ∃ as bs cs d S S1 S2 S3 S4, SysRun Arith.exact Fun.toy FullObj (NonzeroDraws Arith.exact) AnySeed as Sys.start S ∧
    SysStep Arith.exact Fun.toy FullObj (NonzeroDraws Arith.exact) AnySeed (.generate 1 (some d)) S S1 ∧
    SysRun Arith.exact Fun.toy FullObj (NonzeroDraws Arith.exact) AnySeed bs S1 S2 ∧
    SysStep Arith.exact Fun.toy FullObj (NonzeroDraws Arith.exact) AnySeed (.generate 2 (some d)) S2 S3 ∧
    SysRun Arith.exact Fun.toy FullObj (NonzeroDraws Arith.exact) AnySeed cs S3 S4 ∧ Act.clear 1 ∉ bs ++ cs ∧ Act.clear 2 ∉ cs ∧
    S4.walks = [some ([[1, 2, 3]], [[2, 2, 2]]), some ([[1, 2, 3], [1]], [[2, 2, 2], [1]]), some ([[1, 2, 3], [1, 2]], [[2, 2, 2], [3, 3]])] := by
  obtain ⟨as, a, bs, S, S1, S2, h0, h1, h2, hf⟩ := exec_split (Ob := FullObj) (Ω := NonzeroDraws Arith.exact) (Sd := AnySeed) (ω := fun _ => 1 / 2)
    half_draws (cs := shareA ++ [.run 0 none 10, .new chanFull]) (c := .seed 1 1 [1] [1] (some 0)) (cs' := [.new chanFull])
    (full_ok fullObj (fun _ _ _ => trivial) (by intro c hc p hp; subst hp; simp [shareA] at hc; exact hc)) (fun _ => trivial)
    (full_ok fullObj (fun _ _ _ => trivial) (by intro c hc p hp; subst hp; simp at hc; exact hc))
    (f := fun a bs _ S1 S2 => (Cmd.exec (fun _ => 1 / 2) S2 (.seed 2 1 [1] [3] (some 0))).bind fun (r : Act × Sys ℚ) => (Cmd.exec (fun _ => 1 / 2) r.2 (.run 2 none 10)).map fun (r' : Act × Sys ℚ) =>
      decide (∃ d ∈ S1.held.head?, a = .generate 1 (some d) ∧ r.1 = .generate 2 (some d) ∧ Act.clear 1 ∉ bs ++ [r'.1] ∧ Act.clear 2 ∉ [r'.1] ∧
      r'.2.walks = [some ([[1, 2, 3]], [[2, 2, 2]]), some ([[1, 2, 3], [1]], [[2, 2, 2], [1]]), some ([[1, 2, 3], [1, 2]], [[2, 2, 2], [3, 3]])]))
    (b := some true) (by decide +kernel)
  obtain ⟨r, hr, hf⟩ := Option.bind_eq_some_iff.1 hf
  obtain ⟨r', hr', hf⟩ := Option.map_eq_some_iff.1 hf
  obtain ⟨d, -, rfl, h4, h5, h6, h7⟩ := of_decide_eq_true hf
  have hs := exec_step (Ob := FullObj) (Ω := NonzeroDraws Arith.exact) (Sd := AnySeed) half_draws (c := .seed 2 1 [1] [3] (some 0)) (fun _ => trivial) hr
  rw [h4] at hs
  have ht := exec_step (Ob := FullObj) (Ω := NonzeroDraws Arith.exact) (Sd := AnySeed) half_draws (c := .run 2 none 10) trivial hr'
  exact ⟨as, bs, _, d, S, S1, S2, r.2, r'.2, h0, h1, h2, hs, .tail (.refl _) ht, h5, h6, h7⟩

/-- No `previous_walk_data` is used. -/
def Act.fresh : Act → Bool
  | .generate _ (some _) => false
  | _ => true

theorem OwnReach.runs {Ob : PObj ℚ → Prop} {Ω : (Nat → ℚ) → Prop} {Sd : PObj ℚ → List Int → List Int → Fl ℚ → Prop} {as : List Act} {S S' : Sys ℚ}
    (h : OwnReach Arith.exact Fun.toy Ob Ω Sd S) (hr : SysRun Arith.exact Fun.toy Ob Ω Sd as S S') (ha : as.all Act.fresh = true) :
    OwnReach Arith.exact Fun.toy Ob Ω Sd S' := by
  induction hr with
  | refl => exact h
  | tail _ hs ih =>
    rw [List.all_append, Bool.and_eq_true] at ha
    refine .step (ih h ha.1) hs fun i d e => ?_
    rw [e] at ha
    simp [Act.fresh] at ha

/-- C64_separate: the particles of the first object are handed over to the second one, which adds one and is routed. -/
example : ∃ S, OwnReach Arith.exact Fun.toy FullObj (NonzeroDraws Arith.exact) AnySeed S ∧
    S.walks = [none, some ([[1, 2, 3], [1, 2]], [[2, 2, 2], [1, 1]])] := by
  obtain ⟨as, S, h0, hf⟩ := exec_obs (Ob := FullObj) (Ω := NonzeroDraws Arith.exact) (Sd := AnySeed) (ω := fun _ => 1 / 2)
    half_draws (cs := shareA ++ [.run 0 none 10, .new chanFull])
    (full_ok fullObj (fun _ _ _ => trivial) (by intro c hc p hp; subst hp; simp [shareA] at hc; exact hc))
    (f := fun as S => (Cmd.exec (fun _ => 1 / 2) S (.seed 1 1 [1] [1] (some 0))).bind fun (r0 : Act × Sys ℚ) =>
      (Cmd.exec (fun _ => 1 / 2) r0.2 (.clear 0)).bind fun (r : Act × Sys ℚ) => (Cmd.exec (fun _ => 1 / 2) r.2 (.run 1 none 10)).map fun (r' : Act × Sys ℚ) =>
      decide (as.all Act.fresh = true ∧ ∃ d ∈ S.held.head?, ((S.objs[0]?).bind fun (o : PObj ℚ × RefState ℚ) => o.2.walk) = some d ∧ r0.1 = .generate 1 (some d) ∧
        ((S.objs[0]?).map fun (o : PObj ℚ × RefState ℚ) => o.1.particleVars) = ((S.objs[1]?).map fun (o : PObj ℚ × RefState ℚ) => o.1.particleVars) ∧ r.1 = .clear 0 ∧ r'.1 = .run 1 ∧
        r'.2.walks = [none, some ([[1, 2, 3], [1, 2]], [[2, 2, 2], [1, 1]])]))
    (b := some true) (by decide +kernel)
  obtain ⟨r0, hr0, hf⟩ := Option.bind_eq_some_iff.1 hf
  obtain ⟨r, hr, hf⟩ := Option.bind_eq_some_iff.1 hf
  obtain ⟨r', hr', hf⟩ := Option.map_eq_some_iff.1 hf
  obtain ⟨hfr, d, -, hod, h3, hv, h4, h5, h6⟩ := of_decide_eq_true hf
  obtain ⟨⟨P', s'⟩, ho0, hd⟩ := Option.bind_eq_some_iff.1 hod
  have h1 := exec_step (Ob := FullObj) (Ω := NonzeroDraws Arith.exact) (Sd := AnySeed) half_draws (c := .seed 1 1 [1] [1] (some 0)) (fun _ => trivial) hr0
  rw [h3] at h1
  have hs := exec_step (Ob := FullObj) (Ω := NonzeroDraws Arith.exact) (Sd := AnySeed) half_draws (c := .clear 0) trivial hr
  rw [h4] at hs
  have ht := exec_step (Ob := FullObj) (Ω := NonzeroDraws Arith.exact) (Sd := AnySeed) half_draws (c := .run 1 none 10) trivial hr'
  rw [h5] at ht
  refine ⟨r'.2, .step (.handover (.runs .start h0 hfr) (i := 1) (j := 0) (by decide) ho0 hd (fun P1 s1 h => ?_) h1 hs) ht (by simp), h6⟩
  rw [ho0, h] at hv
  exact Option.some.inj hv

/-! ## Programs in which a particle is held by several objects -/

/-- C14, C15, C18, C22: two objects share a particle and take turns moving it; no object holds it twice. -/
example : ∃ S, SysReach Arith.exact Fun.toy NoTwice (fun P => Built Arith.exact Fun.toy P ∧ DefaultWalk P ∧ StepsNonzero Arith.exact P ∧
      P.diffCoeff ≤ 2 ∧ 0 ≤ P.dx ∧ P.particleVars = (objOf chanFull).particleVars) Draws (FinSeed Arith.exact) S ∧
    S.walks = [some ([[1, 2, 3]], [[2, 2, 2]]), some ([[1, 2, 3], [1, 2]], [[2, 2, 2], [1, 1]])] ∧
    (∃ o ∈ (S.objs[1]? : Option (PObj ℚ × RefState ℚ)), (runRef Arith.exact Fun.toy o.1 (fun _ => 1 / 2) S.heap o.2 none 10).isOk) := by
  obtain ⟨S, h, hf⟩ := exec_obs_reach (Ω := Draws) (Sd := FinSeed Arith.exact) (ω := fun _ => 1 / 2)
    half_draws.1 (cs := shareA ++ (.run 0 none 10 :: shareB)) (Ob := fun P => Built Arith.exact Fun.toy P ∧ DefaultWalk P ∧ StepsNonzero Arith.exact P ∧
      P.diffCoeff ≤ 2 ∧ 0 ≤ P.dx ∧ P.particleVars = (objOf chanFull).particleVars)
    (full_ok ⟨chanFull_built, ⟨rfl, rfl⟩, fun k hk => by interval_cases k <;> decide +kernel, by decide +kernel, by decide +kernel, rfl⟩
      (fun _ _ _ => ⟨0, rfl, rfl⟩) (by intro c hc p hp; subst hp; simpa [shareA, shareB] using hc))
    (f := fun S => decide (S.walks = [some ([[1, 2, 3]], [[2, 2, 2]]), some ([[1, 2, 3], [1, 2]], [[2, 2, 2], [1, 1]])] ∧
      ∃ o ∈ (S.objs[1]? : Option (PObj ℚ × RefState ℚ)), (runRef Arith.exact Fun.toy o.1 (fun _ => 1 / 2) S.heap o.2 none 10).isOk)) (b := true) (by decide +kernel)
  obtain ⟨h1, h2⟩ := of_decide_eq_true hf
  exact ⟨S, h, h1, h2⟩

/-- C15_shared_aligned, C17, C18_shared_finite, C28, C29: the walk data of the object is passed to itself as `previous_walk_data`, so that it
holds every particle twice; the centre particle moves, the one next to the ring stays. -/
example : ∃ as S, SysRun Arith.exact Fun.toy (fun P => Enclosed Arith.exact Fun.toy 5 5 P ∧ P.diffCoeff ≤ 2 ∧ 0 ≤ P.dx ∧
      P.roi = (objOf chanVars).roi ∧ fieldOf P "depth" = some (objOf chanVars).depth ∧ P.particleVars = (objOf chanVars).particleVars) Draws
      (fun P xs ys t => InsideSeeds 5 5 P xs ys t ∧ FinSeed Arith.exact P xs ys t) as Sys.start S ∧
    "roi_flag" ∈ (objOf chanVars).particleVars ∧ "depth" ∈ (objOf chanVars).particleVars ∧ (objOf chanVars).roi.isSome ∧
    S.walks = [some ([[2, 3, 3], [1], [2, 3, 3], [1], [2, 3]], [[2, 2, 2], [2], [2, 2, 2], [2], [2, 2]])] := by
  obtain ⟨as, S, h, hf⟩ := exec_obs (Ω := Draws) (Sd := fun P xs ys t => InsideSeeds 5 5 P xs ys t ∧ FinSeed Arith.exact P xs ys t) (ω := fun _ => 1 / 2)
    half_draws.1 (cs := [.new chanVars, .seed 0 2 [2, 1] [2, 2] none, .look 0, .seed 0 1 [2] [2] (some 0), .run 0 none 10])
    (Ob := fun P => Enclosed Arith.exact Fun.toy 5 5 P ∧ P.diffCoeff ≤ 2 ∧ 0 ≤ P.dx ∧
      P.roi = (objOf chanVars).roi ∧ fieldOf P "depth" = some (objOf chanVars).depth ∧ P.particleVars = (objOf chanVars).particleVars)
    (by
      have hS : ∀ (P : PObj ℚ) (xs ys : List Int), (∀ x ∈ xs, 1 ≤ x ∧ x ≤ 3) → (∀ y ∈ ys, 1 ≤ y ∧ y ≤ 3) →
          InsideSeeds 5 5 P xs ys (.fin 0) ∧ FinSeed Arith.exact P xs ys (.fin 0) := fun P xs ys hx hy =>
        ⟨fun x h y h' => ⟨by have := hx x h; omega, by have := hx x h; omega, by have := hy y h'; omega, by have := hy y h'; omega⟩, ⟨0, rfl, rfl⟩⟩
      simp only [List.mem_cons, List.not_mem_nil, or_false, forall_eq_or_imp, forall_eq]
      exact ⟨⟨chanVars_enclosed, by decide +kernel, by decide +kernel, rfl, rfl, rfl⟩, fun P => hS P _ _ (by simp) (by simp), trivial,
        fun P => hS P _ _ (by simp) (by simp), trivial⟩)
    (f := fun _ S => decide ("roi_flag" ∈ (objOf chanVars).particleVars ∧ "depth" ∈ (objOf chanVars).particleVars ∧ (objOf chanVars).roi.isSome ∧
      S.walks = [some ([[2, 3, 3], [1], [2, 3, 3], [1], [2, 3]], [[2, 2, 2], [2], [2, 2, 2], [2], [2, 2]])])) (b := true) (by decide +kernel)
  obtain ⟨h1, h2, h3, h4⟩ := of_decide_eq_true hf
  exact ⟨as, S, h, h1, h2, h3, h4⟩

/-! ## Counterexamples: a particle held twice -/

/-- Draws that move the two copies to different sides. -/
def forkA : Nat → ℚ := fun n => if n % 4 = 0 then 1 / 10 else if n % 4 = 2 then 99 / 100 else 1 / 2
/-- The same with the sides exchanged. -/
def forkB : Nat → ℚ := fun n => if n % 4 = 2 then 1 / 10 else if n % 4 = 0 then 99 / 100 else 1 / 2

theorem forkA_draws : Draws forkA := fun n => by unfold forkA; split_ifs <;> norm_num
theorem forkB_draws : Draws forkB := fun n => by unfold forkB; split_ifs <;> norm_num

/-- One particle; the object's own walk data is passed as `previous_walk_data`, adding no new particle. -/
def twice (x y : Int) : List Cmd := [.new chanOpen, .seed 0 1 [x] [y] none, .look 0, .seed 0 0 [1] [1] (some 0)]

/-- Conditions of the single-object theorems on the objects. -/
def TwiceObj (P : PObj ℚ) : Prop := Built Arith.exact Fun.toy P ∧ DefaultWalk P ∧ StepsNonzero Arith.exact P ∧ P.diffCoeff ≤ 2 ∧ 0 ≤ P.dx

theorem twiceObj : TwiceObj (objOf chanOpen) :=
  ⟨chanOpen_built, ⟨rfl, rfl⟩, fun k hk => by interval_cases k <;> decide +kernel, by decide +kernel, by decide +kernel⟩

theorem twice_ok {x y : Int} {cs : List Cmd} (hcs : ∀ c ∈ cs, ∃ i t m, c = .run i t m) : ∀ c ∈ twice x y ++ cs, c.Ok TwiceObj (FinSeed Arith.exact) := by
  intro c hc
  rcases List.mem_append.1 hc with hc | hc
  · simp only [twice, List.mem_cons, List.not_mem_nil, or_false] at hc
    rcases hc with rfl | rfl | rfl | rfl
    · exact twiceObj
    · exact fun P => ⟨0, rfl, rfl⟩
    · trivial
    · exact fun P => ⟨0, rfl, rfl⟩
  · obtain ⟨i, t, m, rfl⟩ := hcs c hc
    trivial

/-- C15 and C22 fail when an object is given its own walk data: one call of `run_iteration` appends two records to a particle's lists, with the
same position. -/
theorem C15_twice_counterexample : ∃ as S S1 d, SysRun Arith.exact Fun.toy TwiceObj (NonzeroDraws Arith.exact) (FinSeed Arith.exact) as Sys.start S ∧
    SysStep Arith.exact Fun.toy TwiceObj (NonzeroDraws Arith.exact) (FinSeed Arith.exact) (.run 0) S S1 ∧ d ∈ S.held ∧ S1.objs.length = 1 ∧
    ((S.heap.read d).posAt 0 0, (S.heap.read d).posAt 0 1) = (some (2, 2), none) ∧
    ((S1.heap.read d).posAt 0 1, (S1.heap.read d).posAt 0 2) = (some (3, 2), some (3, 2)) := by
  obtain ⟨as, a, bs, S, S1, S2, h0, h1, h2, hf⟩ := exec_split (Ob := TwiceObj) (Ω := NonzeroDraws Arith.exact) (Sd := FinSeed Arith.exact) (ω := fun _ => 1 / 2)
    half_draws (cs := twice 2 2 ++ []) (c := .run 0 none 10) (cs' := []) (twice_ok (by simp)) trivial (by simp)
    (f := fun a _ S S1 _ => decide (a = .run 0 ∧ ∃ d ∈ S.held, S1.objs.length = 1 ∧
      ((S.heap.read d).posAt 0 0, (S.heap.read d).posAt 0 1) = (some (2, 2), none) ∧
      ((S1.heap.read d).posAt 0 1, (S1.heap.read d).posAt 0 2) = (some (3, 2), some (3, 2)))) (b := true) (by decide +kernel)
  obtain ⟨rfl, d, h3, h4, h5, h6⟩ := of_decide_eq_true hf
  exact ⟨as, S, S1, d, h0, h1, h3, h4, h5, h6⟩

/-- C22 fails in the same program: one call of `run_iteration()` lets both lists of the particle grow by two entries. -/
theorem C22_twice_counterexample : ∃ as S S1 d, SysRun Arith.exact Fun.toy TwiceObj (NonzeroDraws Arith.exact) (FinSeed Arith.exact) as Sys.start S ∧
    SysStep Arith.exact Fun.toy TwiceObj (NonzeroDraws Arith.exact) (FinSeed Arith.exact) (.run 0) S S1 ∧ d ∈ S.held ∧ S1.objs.length = 1 ∧
    (S.heap.read d).xinds = [[2]] ∧ (S1.heap.read d).xinds = [[2, 3, 3]] := by
  obtain ⟨as, a, bs, S, S1, S2, h0, h1, h2, hf⟩ := exec_split (Ob := TwiceObj) (Ω := NonzeroDraws Arith.exact) (Sd := FinSeed Arith.exact) (ω := fun _ => 1 / 2)
    half_draws (cs := twice 2 2 ++ []) (c := .run 0 none 10) (cs' := []) (twice_ok (by simp)) trivial (by simp)
    (f := fun a _ S S1 _ => decide (a = .run 0 ∧ ∃ d ∈ S.held, S1.objs.length = 1 ∧
      (S.heap.read d).xinds = [[2]] ∧ (S1.heap.read d).xinds = [[2, 3, 3]])) (b := true) (by decide +kernel)
  obtain ⟨rfl, d, h3, h4, h5, h6⟩ := of_decide_eq_true hf
  exact ⟨as, S, S1, d, h0, h1, h3, h4, h5, h6⟩

/-- C14 fails when an object is given its own walk data: after two calls of `run_iteration` consecutive positions are two columns apart. -/
theorem C14_twice_counterexample : ∃ as S d n y y', SysRun Arith.exact Fun.toy TwiceObj Draws (FinSeed Arith.exact) as Sys.start S ∧
    S.objs.length = 1 ∧ S.Sees d ∧ (S.heap.read d).posAt 0 n = some (3, y) ∧ (S.heap.read d).posAt 0 (n + 1) = some (3, y') ∧ y' = y + 2 := by
  obtain ⟨as, S, h, hf⟩ := exec_obs (Ob := TwiceObj) (Ω := Draws) (Sd := FinSeed Arith.exact) forkA_draws
    (cs := twice 1 1 ++ [.run 0 none 10, .run 0 none 10]) (twice_ok (by simp))
    (f := fun _ S => decide (S.objs.length = 1 ∧ ∃ d ∈ S.held, (S.heap.read d).posAt 0 3 = some (3, 0) ∧ (S.heap.read d).posAt 0 4 = some (3, 2)))
    (b := true) (by decide +kernel)
  obtain ⟨h1, d, hd, h2, h3⟩ := of_decide_eq_true hf
  exact ⟨as, S, d, 3, 0, 2, h, h1, Or.inl hd, h2, h3, by norm_num⟩

/-- C18 fails when an object is given its own walk data: one call of `run_iteration` records the times 24.57 and then 15.75. -/
theorem C18_twice_counterexample : ∃ as S d x y, SysRun Arith.exact Fun.toy TwiceObj Draws (FinSeed Arith.exact) as Sys.start S ∧
    S.objs.length = 1 ∧ S.Sees d ∧ (S.heap.read d).timeAt 0 1 = some (.fin x) ∧ (S.heap.read d).timeAt 0 2 = some (.fin y) ∧ y < x := by
  obtain ⟨as, S, h, hf⟩ := exec_obs (Ob := TwiceObj) (Ω := Draws) (Sd := FinSeed Arith.exact) forkB_draws
    (cs := twice 1 2 ++ [.run 0 none 10]) (twice_ok (by simp))
    (f := fun _ S => decide (S.objs.length = 1 ∧ ∃ d ∈ S.held, (S.heap.read d).timeAt 0 1 = some (.fin (98280000302400000273 / 4000000000000000000)) ∧
      (S.heap.read d).timeAt 0 2 = some (.fin (5670000012600000007 / 360000000000000000))))
    (b := true) (by decide +kernel)
  obtain ⟨h1, d, hd, h2, h3⟩ := of_decide_eq_true hf
  exact ⟨as, S, d, _, _, h, h1, Or.inl hd, h2, h3, by norm_num⟩

end Dorado
