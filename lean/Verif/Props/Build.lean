import Verif.Lemmas.Rebuild
import Verif.Spec.BuildDemo

/-! # C82, C83: building `Particles` from shared arrays -/

set_option linter.unusedSectionVars false

namespace Dorado

variable {K : Type} [Field K] [LinearOrder K] [IsStrictOrderedRing K] [FloorRing K] {A : Arith K} {F : Fun K A}

/-- C82: with the fields in different array objects, `Particles(params)` succeeds exactly when it does on the values, and its attributes are the ones
computed from the values (overwriting the arrays on the way makes no difference). -/
theorem C82_values {h : ArrHeap K} {p : RParams K} (ha : Apart h p) (P : PObj K) :
    initParticles A F (p.val h) = .ok P ↔ ∃ h' p' o, buildParticles A F h p = .ok (h', p', o) ∧ o.val h' = P := by
  constructor
  · intro e
    obtain ⟨⟨h', p', o⟩, e'⟩ := build_exists ha e
    refine ⟨h', p', o, e', ?_⟩
    have := (build_ok ha e').init
    rw [e] at this; injection this with this; exact this.symm
  · rintro ⟨h', p', o, e, rfl⟩
    exact (build_ok ha e).init

/-- C82: two parameter objects with equal values give equal objects, wherever their arrays are and whichever flow components share an array. -/
theorem C82_copies {h k : ArrHeap K} {p q : RParams K} (ha : Apart h p) (hb : Apart k q) (hv : p.val h = q.val k) {h' : ArrHeap K} {p' : RParams K}
    {o : RObj K} (e : buildParticles A F h p = .ok (h', p', o)) : ∃ k' q' w, buildParticles A F k q = .ok (k', q', w) ∧ w.val k' = o.val h' :=
  (C82_values hb _).1 (hv ▸ (build_ok ha e).init)

example : Apart buildHeap buildChan ∧ (buildChan.val buildHeap).depth = chan.depth ∧
    (buildParticles Arith.exact Fun.toy buildHeap buildChan).toOption.isSome = true := by
  refine ⟨by decide, rfl, by decide +kernel⟩

/-- C82: an object built earlier is not disturbed by building further objects from the same arrays, whatever the other parameters. -/
theorem C82_earlier_kept {h h' k : ArrHeap K} {p p' : RParams K} {o : RObj K} {ps : List (RParams K)} {os : List (RObj K)} (ha : Apart h p)
    (e : buildParticles A F h p = .ok (h', p', o)) (hs : ∀ q ∈ ps, SameArrays p q) (e2 : buildAll A F h' ps = .ok (k, os)) :
    o.val k = o.val h' := by
  have S := (build_ok ha e).settled ha
  clear e ha
  induction ps generalizing h' os with
  | nil => cases e2; rfl
  | cons q ps ih =>
    unfold buildAll at e2
    simp only [bind_ok, pure_ok, Prod.exists, Prod.mk.injEq] at e2
    obtain ⟨h2, q', o2, e3, k2, os2, e4, rfl, rfl⟩ := e2
    have hq := hs q List.mem_cons_self
    obtain ⟨h1, S2⟩ := S.step hq (build_ok (hq.apart S.apart le_rfl) e3)
    rw [ih (fun q hq => hs q (List.mem_cons_of_mem _ hq)) e4 S2, h1]

/-- C82: in a loop that builds objects one after the other from the same arrays (a parameter sweep), every object is the one that its parameters give on
the arrays as they were before the loop.  Missing: velocities that are missing or smaller than 1e-8 (see `C82_still_differs`), a region
given for some of the objects only (see `C82_roi_differs`), fields sharing an array (see `C82_alias_differs`). -/
theorem C82_sweep_partial {h k : ArrHeap K} {p : RParams K} {ps : List (RParams K)} {os : List (RObj K)} (ha : Apart h p)
    (hs : ∀ q ∈ ps, SameArrays p q) (hstill : NoStill A h p) (hroi : RoiSteady h ps) (e : buildAll A F h ps = .ok (k, os)) :
    os.length = ps.length ∧ ∀ (i : Nat) q o, ps[i]? = some q → os[i]? = some o → initParticles A F (q.val h) = .ok (o.val k) := by
  induction ps generalizing h p os with
  | nil => cases e; simp
  | cons q ps ih =>
    unfold buildAll at e
    simp only [bind_ok, pure_ok, Prod.exists, Prod.mk.injEq] at e
    obtain ⟨h2, q', o2, e3, k2, os2, e4, rfl, rfl⟩ := e
    obtain ⟨haq, hst, hsame, B, hroi2, hag⟩ := sweep_step ha hs hstill hroi e3
    obtain ⟨hl, hi⟩ := ih (SameArrays.apart ⟨rfl, rfl, rfl, rfl, rfl, rfl, rfl, rfl⟩ haq B.next) hsame
      (B.steady haq ⟨rfl, rfl, rfl, rfl, rfl, rfl, rfl, rfl⟩ hst) hroi2 e4
    refine ⟨by simp [hl], fun i x o hx ho => ?_⟩
    cases i with
    | zero =>
      simp only [List.getElem?_cons_zero, Option.some.injEq] at hx ho
      subst hx; subst ho
      rw [C82_earlier_kept haq e3 hsame e4]
      exact B.init
    | succ i =>
      simp only [List.getElem?_cons_succ] at hx ho
      have hxm : x ∈ ps := List.mem_of_getElem? hx
      rw [← hi i x o hx ho]
      exact (hag x hxm).symm

/-- C82: such a loop succeeds when each of its parameter objects is accepted on the arrays as they were before. -/
theorem C82_sweep_accepted {h : ArrHeap K} {p : RParams K} {ps : List (RParams K)} (ha : Apart h p)
    (hs : ∀ q ∈ ps, SameArrays p q) (hstill : NoStill A h p) (hroi : RoiSteady h ps)
    (hok : ∀ q ∈ ps, ∃ P, initParticles A F (q.val h) = .ok P) : ∃ r, buildAll A F h ps = .ok r := by
  induction ps generalizing h p with
  | nil => exact ⟨_, rfl⟩
  | cons q ps ih =>
    have hq := hs q List.mem_cons_self
    obtain ⟨P, hP⟩ := hok q List.mem_cons_self
    obtain ⟨⟨h2, q', o2⟩, e3⟩ := build_exists (hq.apart ha le_rfl) hP
    obtain ⟨haq, hst, hsame, B, hroi2, hag⟩ := sweep_step ha hs hstill hroi e3
    obtain ⟨⟨k, os⟩, e4⟩ := ih (SameArrays.apart ⟨rfl, rfl, rfl, rfl, rfl, rfl, rfl, rfl⟩ haq B.next) hsame
      (B.steady haq ⟨rfl, rfl, rfl, rfl, rfl, rfl, rfl, rfl⟩ hst) hroi2
      (fun x hx => by rw [hag x hx]; exact hok x (List.mem_cons_of_mem _ hx))
    refine ⟨(k, o2 :: os), ?_⟩
    unfold buildAll
    simp [e3, e4, pure, Except.pure]

/-- Parameters of the sweep used as an example: the channel, the channel with another `theta`, and the channel in the default orientation. -/
def sweepDemo (p : RParams ℚ) : List (RParams ℚ) := [p, p.withBase { chan with theta := some 0 }, p.withBase { chan with deltaRCM := false }]

example : Apart buildHeap buildChan ∧ (∀ q ∈ sweepDemo buildChan, SameArrays buildChan q) ∧ NoStill Arith.exact buildHeap buildChan ∧
    RoiSteady buildHeap (sweepDemo buildChan) ∧ (buildAll Arith.exact Fun.toy buildHeap (sweepDemo buildChan)).toOption.isSome = true ∧
    ((buildAll Arith.exact Fun.toy buildHeap (sweepDemo buildChan)).toOption.map fun r =>
      (r.1.arr 4).at' 2 2) = some (.fin 0) := by
  refine ⟨by decide, ?_, Or.inl (by decide), Or.inl ?_, by decide +kernel, by decide +kernel⟩
  · intro q hq; simp only [sweepDemo, List.mem_cons, List.not_mem_nil, or_false] at hq
    rcases hq with rfl | rfl | rfl <;> exact ⟨rfl, rfl, rfl, rfl, rfl, rfl, rfl, rfl⟩
  · intro q hq; simp only [sweepDemo, List.mem_cons, List.not_mem_nil, or_false] at hq
    rcases hq with rfl | rfl | rfl <;> rfl
example : Apart buildHeap buildFlowing ∧ ¬buildFlowing.GivesQ ∧ NoStill Arith.exact buildHeap buildFlowing ∧
    (buildAll Arith.exact Fun.toy buildHeap (sweepDemo buildFlowing)).toOption.isSome = true := by
  refine ⟨by decide, by decide, Or.inr ?_, by decide +kernel⟩
  rintro r (hr | hr) <;> cases hr <;> intro i j <;> show (Fl.fin 2 : Fl ℚ) ≠ .nan ∧ Fl.lt (Fl.abs (Fl.fin (2 : ℚ))) _ = false <;> decide +kernel

/-- C82: with velocities that may be missing or small, building again with the same orientation changes no attribute except the discharges and the speed.
(In the default orientation the two components must not be one array object.) -/
theorem C82_still_partial {h h' : ArrHeap K} {p p' p2 : RParams K} {o : RObj K} {P : PObj K} (ha : Apart h p)
    (e : buildParticles A F h p = .ok (h', p', o)) (hs : SameArrays p p2) (hm : p2.base.deltaRCM = p.base.deltaRCM)
    (hone : p.base.deltaRCM = true ∨ p.u ≠ p.v) (hroi : RoiSteady h [p, p2]) (e2 : initParticles A F (p2.val h) = .ok P) :
    ∃ h'' p2' o2 qx qy w, buildParticles A F h' p2 = .ok (h'', p2', o2) ∧ o2.val h'' = { P with qx := qx, qy := qy, velocity := w } := by
  have B := build_ok ha e
  have gq : p2.GivesQ ↔ p.GivesQ := by unfold RParams.GivesQ; rw [hs.qx, hs.qy]
  have hroi' : p.base.roi = none ∨ p2.base.roi.isSome ∨ ∀ r, p.vars = some r → "roi_flag" ∈ h.strs r := by
    rcases hroi with g | g | g
    · exact Or.inl (g p (by simp))
    · exact Or.inr (Or.inl (g p2 (by simp)))
    · exact Or.inr (Or.inr (g p (by simp)))
  have key : ∃ qx qy w, initParticles A F (p2.val h') = .ok { P with qx := qx, qy := qy, velocity := w } := by
    by_cases g : p.GivesQ
    · exact ⟨P.qx, P.qy, P.velocity, by rw [B.again ha hs (Or.inl g) hroi', e2]⟩
    · refine initParticles_clamp (B.depthAgain ha hs) (fun _ hD => B.stageAgain ha hs hD) (fun D qx qy u v eF => ?_) (B.varsAgain hs hroi') e2
      have cl : ∀ r, r ∈ p.flowRefs → clampSmall A (nanZeroGrid (h'.arr r)) = clampSmall A (nanZeroGrid (h.arr r)) := by
        intro r hr
        rcases B.flowArr ha hr with e | ⟨g', -⟩ | ⟨-, -, e⟩
        · rw [e]
        · exact absurd g' g
        · rw [e, clampSmall_nanZero, clampSmall_idem]
      refine initFlow_clamp (fun h => g (gq.1 h)) (fun r hr => cl r (mem_flowRefs.2 ?_)) (fun r hr => ?_) eF
      · rw [hs.u] at hr; tauto
      · rw [hs.v] at hr
        split
        · exact cl r (mem_flowRefs.2 (by tauto))
        · rename_i hd
          rw [hm] at hd
          rcases B.flowArr ha (r := r) (mem_flowRefs.2 (by tauto)) with e | ⟨g', -⟩ | ⟨-, hu, -⟩
          · exact e
          · exact absurd g' g
          · rcases hone with hone | hone
            · exact absurd hone hd
            · rcases hu with hu | ⟨hu, -⟩
              · exact absurd (hu.trans hr.symm) hone
              · exact absurd hu hd
  obtain ⟨qx, qy, w, hk⟩ := key
  obtain ⟨h'', p2', o2, e3, hv⟩ := (C82_values (hs.apart ha B.next) _).1 hk
  exact ⟨h'', p2', o2, qx, qy, w, e3, hv⟩

/-- The attributes of the last object of a loop, at the end of it. -/
def lastBuilt (h : ArrHeap ℚ) (ps : List (RParams ℚ)) : Option (PObj ℚ) :=
  (buildAll Arith.exact Fun.toy h ps).toOption.bind fun r => r.2.getLast?.map fun o => o.val r.1

example : Apart buildHeap buildStill ∧ (buildStill.base.deltaRCM = true ∨ buildStill.u ≠ buildStill.v) ∧ RoiSteady buildHeap [buildStill, buildStill] ∧
    (lastBuilt buildHeap [buildStill]).isSome = true := by
  refine ⟨by decide, Or.inl rfl, Or.inl ?_, by decide +kernel⟩
  intro q hq; simp only [List.mem_cons, List.not_mem_nil, or_false, or_self] at hq; subst hq; rfl

/-- C82 fails for velocities that are 0: built from the same parameters a second time, the object has another discharge. -/
theorem C82_still_differs : Apart buildHeap buildStill ∧
    (lastBuilt buildHeap [buildStill]).map (fun P => P.qy.at' 2 2) = some (.fin 0) ∧
    (lastBuilt buildHeap [buildStill, buildStill]).map (fun P => P.qy.at' 2 2) = some (.fin (3 / 100000000)) := by
  refine ⟨by decide, by decide +kernel, by decide +kernel⟩

/-- Placing one particle at the centre with the last object of a loop. -/
def placedWith (ps : List (RParams ℚ)) : Option (Option PyErr) := (lastBuilt buildHeap ps).map fun P =>
  errOf (generateParticles Arith.exact P (fun _ => 1 / 3) (initState Arith.exact Fun.toy P 0) (.int 1) (.list [.int 2]) (.list [.int 2]) (.int 0)
    (.str "exact") none)

/-- C82 fails for the tracked variables: after an object with a region of interest, an object without one tracks `roi_flag` too if the list is shared,
and then placing particles raises. -/
theorem C82_roi_differs :
    (lastBuilt buildHeap [buildChan]).map (fun P => P.particleVars) = some ["depth", "u"] ∧ placedWith [buildChan] = some none ∧
    (lastBuilt buildHeap [buildChan.withBase { chan with roi := chanVars.roi }, buildChan]).map (fun P => P.particleVars) =
      some ["depth", "u", "roi_flag"] ∧
    placedWith [buildChan.withBase { chan with roi := chanVars.roi }, buildChan] = some (some .valueError) := by
  refine ⟨by decide +kernel, by decide +kernel, by decide +kernel, by decide +kernel⟩

/-- C82 fails for a stage that is the same array object as the depth: the object loses the depth of dry cells, though equal values
in different arrays give depth 0 there. -/
theorem C82_alias_differs : (buildAliased.val buildHeap).stage = (buildCopied.val copyHeap).stage ∧
    (lastBuilt copyHeap [buildCopied]).map (fun P => P.depth.at' 3 1) = some (.fin 0) ∧
    (lastBuilt buildHeap [buildAliased]).map (fun P => P.depth.at' 3 1) = some .nan := by
  refine ⟨rfl, by decide +kernel, by decide +kernel⟩

/-- C83: building leaves every array the caller had as it was, cell by cell, except missing depths, the stage of dry cells, missing discharges and
missing or tiny velocities; the shapes stay. -/
theorem C83_cells {h h' : ArrHeap K} {p p' : RParams K} {o : RObj K} (ha : Apart h p) (e : buildParticles A F h p = .ok (h', p', o)) {r : Nat}
    (hr : r < h.next) : (h'.arr r).rows = (h.arr r).rows ∧ (h'.arr r).cols = (h.arr r).cols ∧
    ∀ i j, CellChange A p r ((o.val h').depth.at' i j) ((h.arr r).at' i j) ((h'.arr r).at' i j) := by
  have B := build_ok ha e
  have nz : ∀ x : Fl K, Fl.nanTo0 x = x ∨ x = .nan ∧ Fl.nanTo0 x = .fin 0 := by
    intro x; cases x <;> simp [Fl.nanTo0, Fl.isNan]
  rcases B.changes r hr with e | ⟨hd, e⟩ | ⟨hd, e⟩ | ⟨g, hd, e⟩ | ⟨g, hd, e⟩
  · rw [e]; exact ⟨rfl, rfl, fun i j => .same rfl⟩
  · rw [e]; refine ⟨rfl, rfl, fun i j => ?_⟩
    rcases nz ((h.arr r).at' i j) with h1 | ⟨h1, h2⟩
    · exact .same h1
    · exact .depth hd h1 h2
  · rw [e]; refine ⟨rfl, rfl, fun i j => ?_⟩
    by_cases h0 : Fl.eq ((h'.arr o.depth).at' i j) (.fin 0) = true
    · exact .stage hd (Fl.eq_zero h0) (if_pos h0)
    · exact .same (if_neg h0)
  · rw [e]; refine ⟨rfl, rfl, fun i j => ?_⟩
    rcases nz ((h.arr r).at' i j) with h1 | ⟨h1, h2⟩
    · exact .same h1
    · exact .discharge g hd h1 h2
  · rw [e]; refine ⟨rfl, rfl, fun i j => ?_⟩
    by_cases h0 : Fl.lt (Fl.abs (Fl.nanTo0 ((h.arr r).at' i j))) (.fin (eps8 A)) = true
    · refine .velocity g hd ?_ (if_pos h0)
      rcases nz ((h.arr r).at' i j) with h1 | ⟨h1, h2⟩
      · rw [h1] at h0; exact Or.inr h0
      · exact Or.inl h1
    · have hx : ((clampSmall A (nanZeroGrid (h.arr r))).at' i j) = Fl.nanTo0 ((h.arr r).at' i j) := if_neg h0
      rcases nz ((h.arr r).at' i j) with h1 | ⟨h1, h2⟩
      · exact .same (hx.trans h1)
      · rw [h2] at h0
        exact absurd (by simp [Fl.lt, Fl.abs, eps8_pos A]) h0

/-- C83: lists other than the one given as `particle_variables` stay as they are; that one gains `roi_flag` at its end if a region is given
and the flag is not there. -/
theorem C83_list {h h' : ArrHeap K} {p p' : RParams K} {o : RObj K} (ha : Apart h p) (e : buildParticles A F h p = .ok (h', p', o)) (r : Nat) :
    h'.strs r = h.strs r ∨ p.vars = some r ∧ p.base.roi.isSome ∧ "roi_flag" ∉ h.strs r ∧ h'.strs r = h.strs r ++ ["roi_flag"] := by
  have B := build_ok ha e
  rw [B.strs r]
  unfold initVars
  split
  · simp only [Option.getD_some]
    split
    · rename_i h1 h2
      simp only [Bool.and_eq_true, Bool.not_eq_true', List.contains_eq_mem, decide_eq_false_iff_not] at h2
      exact Or.inr ⟨h1, h2.2, h2.1, rfl⟩
    · exact Or.inl rfl
  · exact Or.inl rfl

/-- C83: the parameter object keeps its attributes; only a negative diffusion coefficient is replaced by 0. -/
theorem C83_params {h h' : ArrHeap K} {p p' : RParams K} {o : RObj K} (ha : Apart h p) (e : buildParticles A F h p = .ok (h', p', o)) :
    ∃ d, p' = { p with base := { p.base with diffCoeff := d } } ∧ (d = p.base.diffCoeff ∨ d = some 0 ∧ ∃ x, p.base.diffCoeff = some x ∧ x < 0) := by
  have B := build_ok ha e
  refine ⟨_, B.params, ?_⟩
  cases hd : p.base.diffCoeff with
  | none => exact Or.inl rfl
  | some x =>
    by_cases hx : x < 0
    · exact Or.inr ⟨by simp [hx], x, rfl, hx⟩
    · exact Or.inl (by simp [hx])

/-- C83: the caller's arrays do change: the stage of the dry cell is gone, the missing discharge is 0, the zero velocities are 1e-8. -/
theorem C83_changes : (buildHeap.arr 1).at' 3 1 = .fin 3 ∧
    (buildAll Arith.exact Fun.toy buildHeap [buildChan]).toOption.map (fun r => ((r.1.arr 1).at' 3 1, (r.1.arr 4).at' 2 2)) = some (.nan, .fin 0) ∧
    (buildAll Arith.exact Fun.toy buildHeap [buildStill]).toOption.map (fun r => (r.1.arr 3).at' 2 2) = some (.fin (1 / 100000000)) := by
  refine ⟨rfl, by decide +kernel, by decide +kernel⟩

example : Apart buildHeap (buildChan.withBase { chan with roi := chanVars.roi, diffCoeff := some (-1) }) ∧
    (buildParticles Arith.exact Fun.toy buildHeap (buildChan.withBase { chan with roi := chanVars.roi, diffCoeff := some (-1) })).toOption.map
      (fun r => (r.1.strs 0, r.2.1.base.diffCoeff)) = some (["depth", "u", "roi_flag"], some 0) := by
  refine ⟨by decide, by decide +kernel⟩

end Dorado
