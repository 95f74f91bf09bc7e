import Verif.Lemmas.Safe
import Verif.Lemmas.Seed
import Verif.Spec.Demo

/-! # C17, C23, C27-C29: routing stays inside, terminates, and records the right values -/

set_option linter.unusedSectionVars false

namespace Dorado

variable {K : Type} [Field K] [LinearOrder K] [IsStrictOrderedRing K] [FloorRing K] {A : Arith K} {F : Fun K A}
variable {Ω : (Nat → K) → Prop} {Sd : PObj K → List Int → List Int → Fl K → Prop}

/-! ## C17 -/

/-- Objects covered by C17: constructed from valid inputs on a grid of `R` rows and `C` columns, outer ring of edge cells, default step
tables, non-zero step lengths, no infinite angle. -/
structure Enclosed (A : Arith K) (F : Fun K A) (R C : Nat) (P : PObj K) : Prop where
  built : Built A F P
  rows : P.depth.rows = R
  cols : P.depth.cols = C
  ring : EdgeRing P
  walk : DefaultWalk P
  steps : StepsNonzero A P
  angles : AnglesOk P

/-- Seeds at interior cells. -/
def InsideSeeds (R C : Nat) : PObj K → List Int → List Int → Fl K → Prop := fun _ xs ys _ => ∀ x ∈ xs, ∀ y ∈ ys, Inside R C (x, y)

theorem Enclosed.rowsOk {R C : Nat} {P : PObj K} {s : PState K} (h : Reach A F (Enclosed A F R C) Draws (InsideSeeds R C) P s) :
    PickEquiv A F P s.world.weight ∧ (s.walk = none ∨ ∃ rows, HasRows P s rows ∧ ∀ r ∈ rows, VarInv (fun _ _ _ => True) (keysOf P) r ∧
      ∀ n p t, r.recAt n p t → Inside R C p) := by
  have hG : ∀ P, Enclosed A F R C P → Good P := fun P hP => hP.built.good
  obtain ⟨hpe, h0 | ⟨rows, hr⟩⟩ := h.state hG
  · exact ⟨hpe, Or.inl h0⟩
  obtain ⟨rows1, e1, -, h1⟩ := Reach.vars (V := fun _ _ _ => True) hG h (fun _ _ _ _ _ _ _ _ => trivial) hr.1
  obtain ⟨rows2, e2, -, h2⟩ := Reach.walk (I := fun p _ => Inside R C p) (R := fun _ _ _ _ => True) hG
    (fun P xs ys t x y _ hS hx hy => hS x hx y hy)
    (fun P ω p t q t' hP hω hp hs hne => ⟨by
      obtain ⟨k, q0, d, m, m', dt, -, hq0, hd, rfl, -, -⟩ := hs
      have := dest_inside (A := A) hP.built.good hP.walk hP.steps hP.ring (by rw [hP.rows, hP.cols]; exact hp) hq0 hd
      rwa [hP.rows, hP.cols] at this, trivial⟩) h hr.1
  refine ⟨hpe, Or.inr ⟨rows, hr, fun r hrm => ?_⟩⟩
  obtain ⟨i, hi⟩ := List.getElem?_of_mem hrm
  have hl : (ofRows (keysOf P) rows).lists i = some (r.xs, r.ys, r.ts) := lists_ofRows.2 ⟨r, hi, rfl⟩
  constructor
  · obtain ⟨ri, hri, hri'⟩ := lists_ofRows.1 (e1 ▸ hl)
    have hm := h1 ri (List.mem_of_getElem? hri)
    simp only [Prod.mk.injEq] at hri'
    obtain ⟨a1, a2, a3⟩ := hri'
    refine ⟨?_, fun key hk => ?_, fun _ _ _ _ _ _ _ _ => trivial⟩
    · have := hm.aligned
      unfold Row.aligned at this ⊢
      rw [a1, a2, a3]; exact this
    · have h3 : (ofRows (keysOf P) rows).optList key i = some (r.os key) := optList_ofRows.2 ⟨hk, r, hi, rfl⟩
      rw [e1] at h3
      obtain ⟨-, r3, hr3, hr3'⟩ := optList_ofRows.1 h3
      rw [hri] at hr3
      cases hr3
      rw [hr3', a1]
      exact hm.len key hk
  · intro n p t hrec
    obtain ⟨ri, hri, hri'⟩ := lists_ofRows.1 (e2 ▸ hl)
    have hm := h2 ri (List.mem_of_getElem? hri)
    simp only [Prod.mk.injEq] at hri'
    obtain ⟨a1, a2, a3⟩ := hri'
    refine hm.recs n p t ?_
    unfold Row.recAt at hrec ⊢
    rw [← a1, ← a2, ← a3]; exact hrec

/-- Any rounding, any history: every recorded position is interior. -/
theorem C17_inside {R C : Nat} {P : PObj K} {s : PState K} (h : Reach A F (Enclosed A F R C) Draws (InsideSeeds R C) P s)
    {wd : WalkData K} (hwd : s.walk = some wd) {i n : Nat} {p : Int × Int} (hp : wd.posAt i n = some p) : Inside R C p := by
  obtain ⟨-, h0 | ⟨rows, hr, hrows⟩⟩ := Enclosed.rowsOk h
  · rw [h0] at hwd; cases hwd
  rw [hr.1] at hwd
  cases hwd
  obtain ⟨r, hri, hx, hy⟩ := posAt_ofRows.1 hp
  obtain ⟨hv, hin⟩ := hrows r (List.mem_of_getElem? hri)
  obtain ⟨t, -, hrec⟩ := rec_of_pos hv.aligned hx hy
  exact hin n p t hrec

/-- Any rounding, any history, any draws: `run_iteration` raises no exception at all (with a target: when there is a particle). -/
theorem C17_no_crash {R C : Nat} {P : PObj K} {s : PState K} (h : Reach A F (Enclosed A F R C) Draws (InsideSeeds R C) P s)
    (hwd : s.walk ≠ none) {ω : Nat → K} (hω : Draws ω) (target : Option (Fl K)) (maxIter : Int) (ht : target = none ∨ s.np ≠ 0) :
    ∃ res, runIteration A F P ω s target maxIter = .ok res := by
  obtain ⟨hpe, h0 | ⟨rows, hr, hrows⟩⟩ := Enclosed.rowsOk h
  · exact absurd h0 hwd
  have hO := h.obj
  have hR : Routable A P := ⟨hO.built.fields, hO.walk, hO.steps, hO.ring, hO.angles, h.avail hwd⟩
  refine runIteration_total hR hω hpe hr (fun r hrm => ?_) (ht.imp_right fun hn he => hn (by rw [hr.2, he]; rfl))
  obtain ⟨hv, hin⟩ := hrows r hrm
  refine ⟨hv, fun p hp => ?_⟩
  rw [hO.rows, hO.cols]
  have hlen := hv.aligned
  have hne : r.ts ≠ [] := by
    intro h0
    have h1 := hlen.2.1
    have h2 := hlen.2.2
    rw [h0] at h1
    simp at h1
    omega
  exact hin _ p _ (Row.last_rec hlen hp (List.getLast?_eq_some_getLast hne))

/-- The default cell types have the edge ring, and the default tables satisfy the other table conditions. -/
theorem C17_default_ring {p : Params K} (hc : p.cellType = none) (hi : p.iwalk = none) (hj : p.jwalk = none) (ha : p.angles = none)
    {P : PObj K} (h : initParticles A F p = .ok P) : EdgeRing P ∧ DefaultWalk P ∧ AnglesOk P := by
  unfold initParticles at h
  simp only [bind_ok, pure_ok, Prod.exists] at h
  obtain ⟨dx, -, d, -, s, -, qx, qy, u, v, -, ru, -, ct, hct, rfl⟩ := h
  obtain ⟨e, -⟩ | ⟨-, -, -, rfl⟩ := initCellType_ok.1 hct
  · rw [hc] at e; cases e
  refine ⟨fun i j hi hj hb => ?_, ⟨by simp [hi], by simp [hj]⟩, fun k _ => Or.inr ?_⟩
  · simp only [defaultCellType] at hi hj hb ⊢
    rw [if_neg]
    simp only [interiorB, decide_eq_true_eq]
    omega
  · simp only [ha, Option.getD_none]
    unfold defaultAngles
    split_ifs <;> exact ⟨_, rfl⟩

/-! ## C23 -/

/-- Any rounding, any state whatever (reachable or not), any draws: the loop of `run_iteration` ends by itself, i.e. the recursion bound
of the model is never the reason for stopping. -/
theorem C23_terminates (P : PObj K) (ω : Nat → K) (s : PState K) (target : Option (Fl K)) (maxIter : Int) :
    runIteration A F P ω s target maxIter ≠ .error .outOfFuel := by
  cases hw : s.walk with
  | none => unfold runIteration; rw [hw]; simp
  | some wd =>
    intro h
    exact runIteration_err (S := (· ≠ .outOfFuel)) ⟨by simp, by simp, by simp, by simp⟩ (Or.inl (by simp)) hw _ h rfl

/-- A call with a target adds at most `max 1 max_iter` records to each particle. -/
theorem C23_bound {P : PObj K} {s : PState K} (h : Reach A F (Built A F) Ω Sd P s) {ω : Nat → K} {target : Fl K} {maxIter : Int}
    {res : RunResult K} (hrun : runIteration A F P ω s (some target) maxIter = .ok res) {wd : WalkData K} (hwd : s.walk = some wd)
    {i : Nat} {xs ys : List Int} {ts : List (Fl K)} (hl : wd.lists i = some (xs, ys, ts)) :
    ∃ xs' ys' ts', res.returned.lists i = some (xs', ys', ts') ∧ xs.length ≤ xs'.length ∧
      (xs'.length : Int) - xs.length ≤ max 1 maxIter := by
  have hG : ∀ P, Built A F P → Good P := fun P hP => hP.good
  obtain ⟨hpe, h0 | ⟨rows, hr⟩⟩ := h.state hG
  · rw [h0] at hwd; cases hwd
  rw [hr.1] at hwd
  cases hwd
  obtain ⟨-, rows', -, hret, -, -, -, hits, hout, -⟩ := runIteration_inv A F (hG _ h.obj) hpe hr.1 (Or.inl hr.2) hrun
  obtain ⟨r, hri, e⟩ := lists_ofRows.1 hl
  cases e
  obtain ⟨r', hri', p, -, ⟨-, rfl, -⟩ | ⟨-, est, e, n, hloop, -⟩⟩ := hout i r hri
  · exact ⟨_, _, _, by rw [hret]; exact lists_ofRows.2 ⟨_, hri', rfl⟩, le_refl _, by simp⟩
  · obtain ⟨hc, hb⟩ := hloop.count
    refine ⟨_, _, _, by rw [hret]; exact lists_ofRows.2 ⟨_, hri', rfl⟩, by omega, ?_⟩
    rw [hc]
    push_cast
    rcases hb with hb | hb
    · exact le_trans (by omega) (le_max_left _ _)
    · exact le_trans (by omega) (le_max_right _ _)

/-! ## C27 -/

/-- A fresh object cannot be routed. -/
theorem C27_fresh (P : PObj K) (pos : Nat) (ω : Nat → K) (target : Option (Fl K)) (maxIter : Int) :
    runIteration A F P ω (initState A F P pos) target maxIter = .error .valueError := rfl

/-- Neither can an object whose walk data was cleared, whatever happened before. -/
theorem C27_cleared (P : PObj K) (s : PState K) (ω : Nat → K) (target : Option (Fl K)) (maxIter : Int) :
    runIteration A F P ω (clearWalkData s) target maxIter = .error .valueError := rfl

/-- Any rounding: after a successful `generate_particles` (on any reachable object, with or without previous walk data) and any further
calls, `run_iteration` never raises ValueError. -/
theorem C27_seeded {P : PObj K} {s s1 s2 : PState K} (h : Reach A F (fun P => Built A F P ∧ AnglesOk P) Ω Sd P s) {ω0 : Nat → K}
    {np xs ys time method : PyVal K} {prev : Option (WalkData K)}
    (hg : generateParticles A P ω0 s np xs ys time method prev = .ok s1) (hl : Later A F Ω Sd P s1 s2)
    (ω : Nat → K) (target : Option (Fl K)) (maxIter : Int) : runIteration A F P ω s2 target maxIter ≠ .error .valueError := by
  have hO := h.obj
  have hs : s2.walk ≠ none := by
    have hgen : ∀ {s s' : PState K} {ω : Nat → K} {np xs ys time method : PyVal K} {prev : Option (WalkData K)},
        generateParticles A P ω s np xs ys time method prev = .ok s' → s'.walk ≠ none := by
      intro s s' ω np xs ys time method prev hg
      unfold generateParticles generateCore at hg
      simp only [bind_ok, Prod.exists, pure_ok] at hg
      obtain ⟨n, x, y, t, m, -, w, pos, -, rfl⟩ := hg
      simp
    have h1 := hgen hg
    clear hg h
    induction hl with
    | refl => exact h1
    | run _ _ hr ih =>
      unfold runIteration at hr
      split at hr
      · cases hr
      · simp only [bind_ok] at hr
        obtain ⟨_, -, _, -, _, -, _, -, hr⟩ := hr
        split at hr
        · simp only [bind_ok] at hr
          obtain ⟨⟨⟨_, _, _⟩, _⟩, -, _, -, hr⟩ := hr
          simp only [pure_ok] at hr
          subst hr
          simp
        · simp only [bind_ok] at hr
          obtain ⟨⟨_, _, w⟩, -, hr⟩ := hr
          cases w with
          | none => cases hr
          | some l =>
            simp only [pure_ok] at hr
            subst hr
            simp
    | @failed s1 s' ω target maxIter e _ _ hr ih =>
      have := runStmt_keeps (A := A) (F := F) P ω target maxIter (s := s1) ih
      rw [hr] at this
      exact this
    | reseed _ _ ih => exact ih
    | generate _ _ _ _ _ hg _ => exact hgen hg
  obtain ⟨wd, hwd⟩ := Option.ne_none_iff_exists'.1 hs
  intro hh
  exact runIteration_err (S := (· ≠ .valueError)) ⟨by simp, by simp, by simp, by simp⟩ (Or.inr ⟨hO.2, hO.1.fields.ang⟩) hwd _ hh rfl

/-! ## C28 -/

/-- Any rounding, any history of calls on one object: record `n` of a tracked grid variable is the grid value at recorded position `n`
(and there is such a record for every position). -/
theorem C28_tracked {P : PObj K} {s : PState K} (h : Reach A F (fun P' => P' = P ∧ Built A F P) Ω Sd P s) {wd : WalkData K}
    (hwd : s.walk = some wd) {var : String} (hvar : var ∈ P.particleVars) {g : Grid (Fl K)} (hg : fieldOf P var = some g)
    {i n : Nat} {p : Int × Int} (hp : wd.posAt i n = some p) :
    ∃ x, g.get p.1 p.2 = .ok x ∧ wd.valAt var i n = some (.num x) := by
  have hroi : var ≠ "roi_flag" := by rintro rfl; simp [fieldOf] at hg
  have hopt : var ∈ keysOf P := by
    refine optVar_iff.1 ⟨hvar, ?_, ?_, ?_⟩ <;> rintro rfl <;> simp [fieldOf] at hg
  obtain ⟨rows, rfl, -, hrows⟩ := Reach.vars (V := fun key p v => key = var → ∃ x, g.get p.1 p.2 = .ok x ∧ v = .num x)
    (fun P' hP => by rw [hP.1]; exact hP.2.good) h
    (fun P' hP _ key _ q v hv e => by
      subst e
      rw [hP.1] at hv
      rcases hv with ⟨h1, -⟩ | ⟨-, g', hg', hs⟩
      · exact absurd h1 hroi
      · rw [availVar_eq_fieldOf, hg] at hg'
        cases hg'
        unfold sampleAt at hs
        simp only [bind_ok, pure_ok] at hs
        obtain ⟨x, hx, rfl⟩ := hs
        exact ⟨x, hx, rfl⟩) hwd
  obtain ⟨r, hri, hx, hy⟩ := posAt_ofRows.1 hp
  have hv := hrows r (List.mem_of_getElem? hri)
  obtain ⟨t, ht, hrec⟩ := rec_of_pos hv.aligned hx hy
  have hn : n < (r.os var).length := by rw [hv.len var hopt]; exact (List.getElem?_eq_some_iff.1 hx).1
  have hval := List.getElem?_eq_getElem hn
  obtain ⟨x, hx1, hx2⟩ := hv.val var hopt n p t _ hrec hval rfl
  exact ⟨x, hx1, valAt_ofRows.2 ⟨hopt, r, hri, by rw [hval, hx2]⟩⟩

/-! ## C29 -/

/-- Any rounding. Missing for the full claim: previous walk data from an object without `roi_flag` or with another region grid
(see the counterexample). Proved: if all objects involved use the region grid `g`, every record has a flag, and it is 1 iff `g` is 1 at
the recorded position. -/
theorem C29_roi_partial {P : PObj K} {s : PState K} {g : Grid (Fl K)} (h : Reach A F (fun P => Built A F P ∧ P.roi = some g) Ω Sd P s)
    {wd : WalkData K} (hwd : s.walk = some wd) {i n : Nat} {p : Int × Int} (hp : wd.posAt i n = some p) :
    ∃ x b, g.get p.1 p.2 = .ok x ∧ wd.valAt "roi_flag" i n = some (.flag b) ∧ ((b = 1 ∧ x = .fin 1) ∨ (b = 0 ∧ x ≠ .fin 1)) := by
  have hopt : "roi_flag" ∈ keysOf P := by
    refine optVar_iff.1 ⟨?_, by decide, by decide, by decide⟩
    obtain ⟨⟨p, hv, hi⟩, hr⟩ := h.obj
    unfold initParticles at hi
    simp only [bind_ok, pure_ok, Prod.exists] at hi
    obtain ⟨dx, -, d, -, s, -, qx, qy, u, v, -, ct, -, ru, -, rfl⟩ := hi
    simp only at hr ⊢
    unfold initVars
    simp only [hr, Option.isSome_some, Bool.and_true]
    split
    · simp
    · simp_all
  obtain ⟨rows, rfl, -, hrows⟩ := Reach.vars
    (V := fun key p v => key = "roi_flag" → ∃ x b, g.get p.1 p.2 = .ok x ∧ v = .flag b ∧ ((b = 1 ∧ x = .fin 1) ∨ (b = 0 ∧ x ≠ .fin 1)))
    (fun P' hP => hP.1.good) h
    (fun P' hP _ key _ q v hv e => by
      subst e
      rcases hv with ⟨-, g', hg', hs⟩ | ⟨h1, -⟩
      · rw [hP.2] at hg'
        cases hg'
        unfold roiFlagAt at hs
        simp only [bind_ok, pure_ok] at hs
        obtain ⟨x, hx, rfl⟩ := hs
        refine ⟨x, _, hx, rfl, ?_⟩
        cases x with
        | fin y => by_cases hy : y = 1 <;> simp [Fl.eq, hy]
        | nan => right; simp [Fl.eq]
        | pinf => right; simp [Fl.eq]
        | ninf => right; simp [Fl.eq]
      · exact absurd ⟨rfl, by rw [hP.2]; rfl⟩ h1) hwd
  obtain ⟨r, hri, hx, hy⟩ := posAt_ofRows.1 hp
  have hv := hrows r (List.mem_of_getElem? hri)
  obtain ⟨t, ht, hrec⟩ := rec_of_pos hv.aligned hx hy
  have hn : n < (r.os "roi_flag").length := by rw [hv.len _ hopt]; exact (List.getElem?_eq_some_iff.1 hx).1
  have hval := List.getElem?_eq_getElem hn
  obtain ⟨x, b, hx1, hx2, hx3⟩ := hv.val _ hopt n p t _ hrec hval rfl
  exact ⟨x, b, hx1, valAt_ofRows.2 ⟨hopt, r, hri, by rw [hval, hx2]⟩, hx3⟩

/-- The open channel with a region of interest. -/
def chanRoi : Params ℚ := { chanOpen with roi := chanVars.roi }
theorem chanRoi_built : Built Arith.exact Fun.toy (objOf chanRoi) := ⟨chanRoi, { chan_valid with }, rfl⟩

/-- One particle at (2,2), inside the region, added to the walk data `prev`. -/
def roiContinue (prev : WalkData ℚ) : Except PyErr (PState ℚ) :=
  generateParticles Arith.exact (objOf chanRoi) (fun _ => 1 / 2) (initState Arith.exact Fun.toy (objOf chanRoi) 0) (.int 1)
    (.list [.int 2]) (.list [.int 2]) (.int 0) (.str "exact") (some prev)

/-- C29 fails for previous walk data without `roi_flag` (a particle at (1,2), outside the region): the first particle is flagged 1,
the second has no flag, and the next `run_iteration` raises IndexError. -/
theorem C29_previous_counterexample :
    ∃ s0 prev s wd, Reach Arith.exact Fun.toy (Built Arith.exact Fun.toy) (NonzeroDraws Arith.exact) AnySeed (objOf chanOpen) s0 ∧
      s0.walk = some prev ∧ roiContinue prev = .ok s ∧ s.walk = some wd ∧
      (wd.posAt 0 0, wd.posAt 1 0) = (some (1, 2), some (2, 2)) ∧
      (objOf chanRoi).roi.map (fun g => (g.get 1 2).toOption) = some (some (.fin 0)) ∧
      (wd.valAt "roi_flag" 0 0, wd.valAt "roi_flag" 1 0) = (some (.flag 1), none) ∧
      ∀ maxIter, runIteration Arith.exact Fun.toy (objOf chanRoi) (fun _ => 1 / 2) s none maxIter = .error .indexError := by
  obtain ⟨s0, prev, hr, hw, hf, -⟩ := demo_walk (p := chanOpen) (ω := fun _ => 1 / 2) (n := 1) (xs := [1]) (ys := [2])
    (runs := []) (Ω := NonzeroDraws Arith.exact) (Sd := AnySeed) chanOpen_built half_draws trivial
    (f := id) (b := ⟨[[1]], [[2]], [[.fin 0]], []⟩) (by decide +kernel)
  subst hf
  obtain ⟨s, hs, hobs⟩ := demo_obs (x := roiContinue ⟨[[1]], [[2]], [[.fin 0]], []⟩)
    (f := fun s => s.walk.map fun wd => (s.np, wd))
    (b := (2, ⟨[[1], [2]], [[2], [2]], [[.fin 0], [.fin 0]], [("roi_flag", [[.flag 1]])]⟩)) (by decide +kernel)
  simp only [Option.map_eq_some_iff, Prod.mk.injEq] at hobs
  obtain ⟨wd, hwd, hnp, rfl⟩ := hobs
  refine ⟨s0, _, s, _, hr, hw, hs, hwd, by decide +kernel, by decide +kernel, by decide +kernel, fun maxIter => ?_⟩
  unfold runIteration
  rw [hwd, hnp]
  rfl

/-! ## Concrete cases -/

/-- The channel with the default ring of edge cells, tracked variables and a region: it satisfies all hypotheses of C17. -/
theorem chanVars_enclosed : Enclosed Arith.exact Fun.toy 5 5 (objOf chanVars) where
  built := chanVars_built
  rows := rfl
  cols := rfl
  ring := (C17_default_ring rfl rfl rfl rfl chanVars_init).1
  walk := ⟨rfl, rfl⟩
  steps := fun k hk => by interval_cases k <;> decide +kernel
  angles := (C17_default_ring rfl rfl rfl rfl chanVars_init).2.2

/-- C17: one particle moves away from the centre and stops at the ring, the other is next to the ring from the start. The hypotheses of
`C17_no_crash` hold for the state reached. -/
example : ∃ s wd, Reach Arith.exact Fun.toy (Enclosed Arith.exact Fun.toy 5 5) Draws (InsideSeeds 5 5) (objOf chanVars) s ∧
    s.walk = some wd ∧ (wd.xinds, wd.yinds) = ([[2, 3], [1]], [[2, 2], [1]]) := by
  obtain ⟨s, wd, hr, hw, hf, -⟩ := demo_walk (p := chanVars) (ω := fun _ => 1 / 2) (n := 2) (xs := [2, 1]) (ys := [2, 1])
    (runs := [(none, 1), (some (.fin 30), 5), (none, 1)]) (Ob := Enclosed Arith.exact Fun.toy 5 5) (Ω := Draws) (Sd := InsideSeeds 5 5)
    chanVars_enclosed half_draws.1 (fun x hx y hy => by simp at hx hy; rcases hx with rfl | rfl <;> rcases hy with rfl | rfl <;> (unfold Inside; decide))
    (f := fun wd => (wd.xinds, wd.yinds)) (b := ([[2, 3], [1]], [[2, 2], [1]])) (by decide +kernel)
  exact ⟨s, wd, hr, hw, hf⟩

/-- C23: with `max_iter = 1` and a far target each particle takes one step, with `max_iter = 2` the first takes two. -/
example : ((demo chanFull (fun _ => 1 / 2) 3 [1, 2] [2, 1] [(some (.fin 100), 1)]).toOption.bind (·.walk)).map (fun wd => wd.xinds) =
      some [[1, 2], [2, 3], [1, 2]] ∧
    ((demo chanFull (fun _ => 1 / 2) 3 [1, 2] [2, 1] [(some (.fin 100), 2)]).toOption.bind (·.walk)).map (fun wd => wd.xinds) =
      some [[1, 2, 3], [2, 3], [1, 2, 3]] := by decide +kernel

/-- C27: the angles of the sample objects are finite; their states after seeding are those of the examples above. -/
example : AnglesOk (objOf chanFull) := fun k hk => Or.inr (by interval_cases k <;> exact ⟨_, rfl⟩)

/-- C28, C29: depth, u and the region flag along the walks of three particles. -/
example : ∃ s wd, Reach Arith.exact Fun.toy (fun P => P = objOf chanFull ∧ Built Arith.exact Fun.toy (objOf chanFull)) (NonzeroDraws Arith.exact)
      AnySeed (objOf chanFull) s ∧ s.walk = some wd ∧
    ((wd.posAt 1 0, wd.valAt "depth" 1 0, wd.valAt "roi_flag" 1 0) = (some (2, 1), some (.num (.fin 2)), some (.flag 1)) ∧
    (wd.posAt 1 1, wd.valAt "depth" 1 1, wd.valAt "roi_flag" 1 1) = (some (3, 2), some (.num (.fin 3)), some (.flag 1))) ∧
    (wd.posAt 0 0, wd.valAt "u" 0 0, wd.valAt "roi_flag" 0 0) = (some (1, 2), some (.num (.fin (600000000 / 900000001))), some (.flag 0)) := by
  obtain ⟨s, wd, hr, hw, hf, -⟩ := demo_walk (p := chanFull) (ω := fun _ => 1 / 2) (n := 3) (xs := [1, 2]) (ys := [2, 1])
    (runs := [(none, 1), (none, 1), (none, 1)]) (Ob := fun P => P = objOf chanFull ∧ Built Arith.exact Fun.toy (objOf chanFull))
    (Ω := NonzeroDraws Arith.exact) (Sd := AnySeed) ⟨rfl, chanFull_built⟩ half_draws trivial
    (f := fun wd => decide (((wd.posAt 1 0, wd.valAt "depth" 1 0, wd.valAt "roi_flag" 1 0) = (some (2, 1), some (.num (.fin 2)), some (.flag 1)) ∧
    (wd.posAt 1 1, wd.valAt "depth" 1 1, wd.valAt "roi_flag" 1 1) = (some (3, 2), some (.num (.fin 3)), some (.flag 1))) ∧
    (wd.posAt 0 0, wd.valAt "u" 0 0, wd.valAt "roi_flag" 0 0) = (some (1, 2), some (.num (.fin (600000000 / 900000001))), some (.flag 0))))
    (b := true) (by decide +kernel)
  exact ⟨s, wd, hr, hw, of_decide_eq_true hf⟩

end Dorado
