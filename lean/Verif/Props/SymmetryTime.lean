import Verif.Lemmas.CourseSym
import Verif.Props.Final
import Verif.Props.SymmetryWalks

/-! # C118: travel times and exposure times in a mirrored domain

The transposed domain has the transposed walks with the same travel times, in law. The mirrored domains do so at the cells where the reversed velocity component
is not the replacement value 1e-8 of components smaller than that: the constructor replaces those by +1e-8 whatever their sign, so that times in a flow along an
axis are not mirrored exactly (`C118_clamp_breaks`). -/

set_option linter.unusedSectionVars false

namespace Dorado

open MeasureTheory Finset

/-! ## Statements -/

/-- No particle leaves the set `W` of cells. -/
def Closed (F : Fun ℝ Arith.exact) (R C : Nat) (P : PObj ℝ) (W : Set (Int × Int)) : Prop :=
  ∀ p q, p ∈ W → Inside R C p → moveProb (flowOf F P) P p q ≠ 0 → q ∈ W

/-- `P'` has the courses of `P` mapped by `m`, in law: `N` particles at cells of `W` in the domain of `P` and `N` particles at the mapped cells in that of `P'`, after
any history. The joint law of what they do in the next `n` iterations, cells and durations of all particles, is the same up to the mapping. -/
def MirroredCourses (F : Fun ℝ Arith.exact) (R C R' C' : Nat) (P P' : PObj ℝ) (m : Int × Int → Int × Int) (W : Set (Int × Int)) : Prop :=
  ∀ (s s' : PState ℝ) (wd wd' : WalkData ℝ) (N n : Nat) (p : Fin N → Int × Int) (X X' : Fin N → (Nat → ℝ) → Course n),
    Reach Arith.exact F (Enclosed Arith.exact F R C) Draws (InsideSeeds R C) P s →
    Reach Arith.exact F (Enclosed Arith.exact F R' C') Draws (InsideSeeds R' C') P' s' → s.walk = some wd → s'.walk = some wd' →
    wd.xinds.length = N → wd'.xinds.length = N → (∀ i : Fin N, p i ∈ W ∧ wd.lastPos i = some (p i) ∧ wd'.lastPos i = some (m (p i))) →
    (∀ i : Fin N, (∃ t, wd.lastTime i = some (.fin t)) ∧ ∃ t, wd'.lastTime i = some (.fin t)) →
    (∀ ω, Draws ω → ∀ i : Fin N, HasCourse F P ω s n i (X i ω)) → (∀ ω, Draws ω → ∀ i : Fin N, HasCourse F P' ω s' n i (X' i ω)) →
    uniformDraws.map (fun ω i => X' i ω) = uniformDraws.map fun ω i => mirrorCourse m (X i ω)

/-- `P'` has the exposure times of `P`, in law: random seeding at the locations `xs`, `ys` in `W` for `P` and at the locations `seeds xs ys` for `P'`, `n` iterations, then
`exposure_time` for the region `g` and for the region `reg g`. -/
def MirroredExposures (F : Fun ℝ Arith.exact) (R C R' C' : Nat) (P P' : PObj ℝ) (seeds : List Int → List Int → List Int × List Int)
    (reg : Grid Int → Grid Int) (W : Set (Int × Int)) : Prop :=
  ∀ (s s' : PState ℝ) (N n : Nat) (xs ys : List Int) (t t' : ℝ) (g : Grid Int) (E E' : Fin N → (Nat → ℝ) → ℝ),
    Reach Arith.exact F (Enclosed Arith.exact F R C) Draws (InsideSeeds R C) P s →
    Reach Arith.exact F (Enclosed Arith.exact F R' C') Draws (InsideSeeds R' C') P' s' → s.walk = none → s'.walk = none →
    xs ≠ [] → ys ≠ [] → (∀ x ∈ xs, ∀ y ∈ ys, Inside R C (x, y) ∧ (x, y) ∈ W) → Binary g → g.rows = R → g.cols = C →
    (∀ ω, Draws ω → SeededExposure F P ω s N xs ys t n g fun i => E i ω) →
    (∀ ω, Draws ω → SeededExposure F P' ω s' N (seeds xs ys).1 (seeds xs ys).2 t' n (reg g) fun i => E' i ω) →
    uniformDraws.map (fun ω i => E' i ω) = uniformDraws.map fun ω i => E i ω

/-! ## Law of courses and of exposure times -/

section
variable {F : Fun ℝ Arith.exact} {R C R' C' : Nat} {P P' : PObj ℝ} {m : Int × Int → Int × Int} {W : Set (Int × Int)}

theorem course_law {s : PState ℝ} (h : Reach Arith.exact F (Enclosed Arith.exact F R C) Draws (InsideSeeds R C) P s)
    (ha : ∀ k, k < 9 → k ≠ 4 → ∃ a, P.angles k = .fin a) {wd : WalkData ℝ} (hwd : s.walk = some wd) {N : Nat} (hN : wd.xinds.length = N)
    (ht0 : ∀ i : Fin N, ∃ t, wd.lastTime i = some (.fin t)) {n : Nat} {X : Fin N → (Nat → ℝ) → Course n}
    (hX : ∀ ω, Draws ω → ∀ i : Fin N, HasCourse F P ω s n i (X i ω)) {p : Fin N → Int × Int} (hp : ∀ i : Fin N, wd.lastPos i = some (p i)) :
    (∀ i, AEMeasurable (X i) uniformDraws) ∧ uniformDraws.map (fun ω i => X i ω) = Measure.pi fun i => courseLaw F P n (p i) := by
  subst hN
  exact ⟨course_measurable h ha hwd (fun i hi => ht0 ⟨i, hi⟩) hX hp, C104_law h ha hwd (fun i hi => ht0 ⟨i, hi⟩) hX hp⟩

theorem courses_sym (S : CourseSym F R C R' C' P P' m W) (ha : ∀ k, k < 9 → k ≠ 4 → ∃ a, P.angles k = .fin a)
    (ha' : ∀ k, k < 9 → k ≠ 4 → ∃ a, P'.angles k = .fin a) (hst : P.steepest = false) (hW : Closed F R C P W) :
    MirroredCourses F R C R' C' P P' m W := by
  intro s s' wd wd' N n p X X' h h' hwd hwd' hN hN' hp ht hX hX'
  have hin : ∀ i, Inside R C (p i) := fun i => lastPos_inside h hwd (hp i).2.1
  obtain ⟨hm, hl⟩ := course_law h ha hwd hN (fun i => (ht i).1) hX fun i => (hp i).2.1
  obtain ⟨-, hl'⟩ := course_law h' ha' hwd' hN' (fun i => (ht i).2) hX' fun i => (hp i).2.2
  have hmm := mirrorCourse_measurable m n
  have hmp : Measurable fun (x : Fin N → Course n) (i : Fin N) => mirrorCourse m (x i) :=
    measurable_pi_lambda _ fun i => hmm.comp (measurable_pi_apply i)
  have hcomp : (uniformDraws.map fun ω i => X i ω).map (fun (x : Fin N → Course n) (i : Fin N) => mirrorCourse m (x i)) =
      uniformDraws.map fun ω i => mirrorCourse m (X i ω) :=
    AEMeasurable.map_map_of_aemeasurable hmp.aemeasurable (aemeasurable_pi_lambda _ hm)
  rw [hl', ← hcomp, hl]
  have hpr : ∀ i, IsProbabilityMeasure (courseLaw F P n (p i)) := fun i => courseLaw_prob h.obj n (hin i)
  have hsf : ∀ i, SigmaFinite ((courseLaw F P n (p i)).map (mirrorCourse m)) := by
    intro i
    have := Measure.isProbabilityMeasure_map (μ := courseLaw F P n (p i)) hmm.aemeasurable
    infer_instance
  rw [Measure.pi_map_pi fun i => hmm.aemeasurable]
  congr 1
  funext i
  exact courseLaw_sym S h.obj hst hW n (hin i) (hp i).1

/-- Almost surely all cells are interior. -/
theorem cells_inside (hE : Enclosed Arith.exact F R C P) (n : Nat) {p : Int × Int} (hp : Inside R C p) :
    ∀ᵐ c ∂courseLaw F P n p, ∀ j, Inside R C (c j).1 := by
  classical
  rw [ae_iff]
  have := courseLaw_cells F P n p fun q => ¬ ∀ j, Inside R C (q j)
  refine this.trans (ENNReal.tsum_eq_zero.2 fun q => ?_)
  by_cases hz : ∏ j, moveProb (flowOf F P) P (prevCell p q j) (q j) = 0
  · rw [hz, zero_mul]
  · rw [if_neg (not_not.2 fun j => (path_cells hE hp hz j).2), mul_zero]

theorem exposure_mirror {n : Nat} {g g' : Grid Int} (hreg : ∀ p, Inside R C p → cellMark g' (m p) = cellMark g p) {p : Int × Int} (hp : Inside R C p)
    {c : Course n} (hc : ∀ j, Inside R C (c j).1) : (mirrorCourse m c).exposure g' (m p) = c.exposure g p := by
  unfold Course.exposure
  refine sum_congr rfl fun j _ => ?_
  have h1 : Inside R C (prevCell p (fun j => (c j).1) j) := by
    obtain ⟨j, hj⟩ := j
    cases j with
    | zero => exact hp
    | succ j => exact hc ⟨j, by omega⟩
  have h2 : prevCell (m p) (fun j => (mirrorCourse m c j).1) j = m (prevCell p (fun j => (c j).1) j) := prevCell_map m p _ j
  rw [h2, hreg _ h1]
  show (c j).2 * ((_ + cellMark g' (m (c j).1)) / 2) = _
  rw [hreg _ (hc j)]

theorem seededLaw_exposure {n : Nat} (g : Grid Int) (xs ys : List Int) :
    (seededLaw F P xs ys n).map (fun c => c.2.exposure g c.1) =
      Measure.sum fun p => seedProb xs ys p • (courseLaw F P n p).map fun c => c.exposure g p := by
  have hm := exposure_measurable g n
  unfold seededLaw
  rw [Measure.map_sum hm.aemeasurable]
  congr 1
  funext p
  rw [Measure.map_smul, Measure.map_map hm (show Measurable fun c : Course n => (p, c) from measurable_const.prodMk measurable_id)]
  rfl

theorem exposure_law_sym (S : CourseSym F R C R' C' P P' m W) (hE : Enclosed Arith.exact F R C P) (hst : P.steepest = false) (hW : Closed F R C P W)
    {n : Nat} {xs ys xs' ys' : List Int} {g g' : Grid Int} (hxy : ∀ x ∈ xs, ∀ y ∈ ys, Inside R C (x, y) ∧ (x, y) ∈ W)
    (hsd : ∀ p, seedProb xs' ys' (m p) = seedProb xs ys p) (hreg : ∀ p, Inside R C p → cellMark g' (m p) = cellMark g p) :
    (seededLaw F P' xs' ys' n).map (fun c => c.2.exposure g' c.1) = (seededLaw F P xs ys n).map fun c => c.2.exposure g c.1 := by
  rw [seededLaw_exposure, seededLaw_exposure]
  let e : (Int × Int) ≃ (Int × Int) := ⟨m, m, S.invol, S.invol⟩
  ext B hB
  rw [Measure.sum_apply _ hB, Measure.sum_apply _ hB, ← e.tsum_eq]
  refine tsum_congr fun p => ?_
  rw [show e p = m p from rfl, hsd]
  by_cases hz : seedProb xs ys p = 0
  · rw [hz]
    simp
  obtain ⟨hin, hpW⟩ := hxy _ (seedProb_mem hz).1 _ (seedProb_mem hz).2
  congr 2
  have hm' : Measurable fun c : Course n => c.exposure g' (m p) := (exposure_measurable g' n).comp (measurable_const.prodMk measurable_id)
  rw [courseLaw_sym S hE hst hW n hin hpW, Measure.map_map hm' (mirrorCourse_measurable m n)]
  refine Measure.map_congr ?_
  filter_upwards [cells_inside hE n hin] with c hc
  exact exposure_mirror hreg hin hc

theorem exposures_sym (S : CourseSym F R C R' C' P P' m W) (ha : ∀ k, k < 9 → k ≠ 4 → ∃ a, P.angles k = .fin a)
    (ha' : ∀ k, k < 9 → k ≠ 4 → ∃ a, P'.angles k = .fin a) (hst : P.steepest = false) (hW : Closed F R C P W)
    (hv : ∀ var, OptVar P var → Trackable P var) (hv' : ∀ var, OptVar P' var → Trackable P' var)
    {seeds : List Int → List Int → List Int × List Int} {reg : Grid Int → Grid Int}
    (hs0 : ∀ xs ys, xs ≠ [] → ys ≠ [] → (seeds xs ys).1 ≠ [] ∧ (seeds xs ys).2 ≠ [])
    (hs1 : ∀ xs ys, (∀ x ∈ xs, ∀ y ∈ ys, Inside R C (x, y)) → ∀ x ∈ (seeds xs ys).1, ∀ y ∈ (seeds xs ys).2, Inside R' C' (x, y))
    (hsd : ∀ xs ys p, seedProb (seeds xs ys).1 (seeds xs ys).2 (m p) = seedProb xs ys p)
    (hr0 : ∀ g, Binary g → g.rows = R → g.cols = C → Binary (reg g) ∧ (reg g).rows = R' ∧ (reg g).cols = C')
    (hreg : ∀ g, g.rows = R → g.cols = C → ∀ p, Inside R C p → cellMark (reg g) (m p) = cellMark g p) :
    MirroredExposures F R C R' C' P P' seeds reg W := by
  intro s s' N n xs ys t t' g E E' h h' hw hw' hx hy hxy hb hgr hgc hE hE'
  obtain ⟨hb', hgr', hgc'⟩ := hr0 g hb hgr hgc
  obtain ⟨m1, i1, l1⟩ := C106_sample h hw ha hv hx hy (fun x hx y hy => (hxy x hx y hy).1) hb hgr hgc hE
  obtain ⟨m2, i2, l2⟩ := C106_sample h' hw' ha' hv' (hs0 xs ys hx hy).1 (hs0 xs ys hx hy).2 (hs1 xs ys fun x hx y hy => (hxy x hx y hy).1) hb' hgr' hgc' hE'
  rw [(ProbabilityTheory.iIndepFun_iff_map_fun_eq_pi_map m2).1 i2, (ProbabilityTheory.iIndepFun_iff_map_fun_eq_pi_map m1).1 i1]
  congr 1
  funext i
  rw [l1 i, l2 i]
  exact exposure_law_sym S h.obj hst hW hxy (hsd xs ys) (hreg g hgr hgc)

end

/-! ## The three symmetries -/

section
variable {R C : Nat} {P P' : PObj ℝ}

theorem angles_default {p : Params ℝ} (hP : initParticles Arith.exact Fun.real p = .ok P) (ha : p.angles = none) :
    P.angles = defaultAngles Arith.exact Fun.real := by
  obtain ⟨u, v, X⟩ := init_parts _ _ hP
  rw [X.angles, ha]
  rfl

theorem angles_finite (h : P.angles = defaultAngles Arith.exact Fun.real) : ∀ k, k < 9 → k ≠ 4 → ∃ a, P.angles k = .fin a := by
  intro k hk h4
  obtain ⟨a, ha, -⟩ := angle_default hk h4
  exact ⟨a, by rw [h]; exact ha⟩

theorem trackable_of {p p' : Params ℝ} (hP : initParticles Arith.exact Fun.real p = .ok P) (hP' : initParticles Arith.exact Fun.real p' = .ok P')
    (h1 : p'.particleVars = p.particleVars) (h2 : p'.roi.isSome = p.roi.isSome) (hv : ∀ var, OptVar P var → Trackable P var) :
    ∀ var, OptVar P' var → Trackable P' var := by
  obtain ⟨u, v, X⟩ := init_parts _ _ hP
  obtain ⟨u', v', X'⟩ := init_parts _ _ hP'
  have e : P'.particleVars = P.particleVars := by
    rw [X'.vars, X.vars]
    unfold initVars
    rw [h1, h2]
  intro var ho
  have ho' : OptVar P var := by
    unfold OptVar at *
    rwa [← e]
  rcases hv var ho' with ⟨g, hg⟩ | ⟨rfl, g, hg⟩
  · left
    unfold fieldOf at hg ⊢
    split at hg <;> first | exact ⟨_, rfl⟩ | cases hg
  · right
    refine ⟨rfl, ?_⟩
    rw [X.roi] at hg
    rw [X'.roi]
    exact Option.isSome_iff_exists.1 (by rw [h2, hg]; rfl)

theorem diff_of {p p' : Params ℝ} (hP : initParticles Arith.exact Fun.real p = .ok P) (hP' : initParticles Arith.exact Fun.real p' = .ok P')
    (h0 : p'.dx = p.dx) (h1 : p'.diffCoeff = p.diffCoeff) (h2 : p'.steepest = p.steepest) : P'.diffCoeff = P.diffCoeff ∧ P'.dx = P.dx := by
  obtain ⟨u, v, X⟩ := init_parts _ _ hP
  obtain ⟨u', v', X'⟩ := init_parts _ _ hP'
  constructor
  · rw [X'.diff, X.diff]
    unfold initDiff
    rw [h1, h2]
  · have := X'.dx
    rw [h0, X.dx] at this
    exact (Option.some.inj this).symm

theorem clamp_neg {a : Fl ℝ} (h : (if Fl.lt (Fl.abs a) (.fin (eps8 Arith.exact)) then Fl.fin (eps8 Arith.exact) else a) ≠ .fin (eps8 Arith.exact)) :
    (if Fl.lt (Fl.abs a.neg) (.fin (eps8 Arith.exact)) then Fl.fin (eps8 Arith.exact) else a.neg) =
      (if Fl.lt (Fl.abs a) (.fin (eps8 Arith.exact)) then Fl.fin (eps8 Arith.exact) else a).neg := by
  have e : Fl.abs a.neg = Fl.abs a := by cases a <;> simp [Fl.neg, Fl.abs, max_comm]
  rw [e]
  split
  · rename_i hc
    rw [if_pos hc] at h
    exact absurd rfl h
  · rfl

theorem distances_default {p : Params ℝ} (hP : initParticles Arith.exact Fun.real p = .ok P) (hT : DefaultTables p) :
    P.distances = defaultDistances Arith.exact Fun.real := by
  obtain ⟨u, v, X⟩ := init_parts _ _ hP
  rw [X.distances, hT.1]
  rfl

/-- Speed and velocity components of the mirrored object, cell by cell. -/
theorem fieldsLR {p : Params ℝ} (hv : ValidParams p) (hP : initParticles Arith.exact Fun.real p = .ok P)
    (hP' : initParticles Arith.exact Fun.real p.mirrorLR = .ok P') (hd : P'.depth = gact false phiLR P.depth) (i j : Nat) :
    P'.velocity.at' i j = P.velocity.at' i (P.depth.cols - 1 - j) ∧ P'.u.at' i j = P.u.at' i (P.depth.cols - 1 - j) ∧
      (P.v.at' i (P.depth.cols - 1 - j) ≠ .fin (eps8 Arith.exact) → P'.v.at' i j = (P.v.at' i (P.depth.cols - 1 - j)).neg) := by
  have Fd := Built.fields (A := Arith.exact) (F := Fun.real) ⟨p, hv, hP⟩
  obtain ⟨u, v, X⟩ := init_parts _ _ hP
  obtain ⟨u', v', X'⟩ := init_parts _ _ hP'
  have hf := X'.flow
  rw [hd] at hf
  obtain ⟨rfl, rfl⟩ := velLR X.flow hf
  have cu : u.cols = P.depth.cols := by rw [← Fd.u.2.2, X.uEq]; rfl
  have cv : v.cols = P.depth.cols := by rw [← Fd.v.2.2, X.vEq]; rfl
  rw [X'.vel, X.vel, X'.uEq, X.uEq, X'.vEq, X.vEq]
  simp only [initVelocity, clampSmall, negGrid, Grid.map, Grid.zip, gact, phiLR, cu, cv]
  refine ⟨?_, trivial, fun h => clamp_neg h⟩
  rw [neg_sq']

theorem fieldsUD {p : Params ℝ} (hv : ValidParams p) (hP : initParticles Arith.exact Fun.real p = .ok P)
    (hP' : initParticles Arith.exact Fun.real p.mirrorUD = .ok P') (hd : P'.depth = gact false phiUD P.depth) (i j : Nat) :
    P'.velocity.at' i j = P.velocity.at' (P.depth.rows - 1 - i) j ∧ P'.v.at' i j = P.v.at' (P.depth.rows - 1 - i) j ∧
      (P.u.at' (P.depth.rows - 1 - i) j ≠ .fin (eps8 Arith.exact) → P'.u.at' i j = (P.u.at' (P.depth.rows - 1 - i) j).neg) := by
  have Fd := Built.fields (A := Arith.exact) (F := Fun.real) ⟨p, hv, hP⟩
  obtain ⟨u, v, X⟩ := init_parts _ _ hP
  obtain ⟨u', v', X'⟩ := init_parts _ _ hP'
  have hf := X'.flow
  rw [hd] at hf
  obtain ⟨rfl, rfl⟩ := velUD X.flow hf
  have cu : u.rows = P.depth.rows := by rw [← Fd.u.2.1, X.uEq]; rfl
  have cv : v.rows = P.depth.rows := by rw [← Fd.v.2.1, X.vEq]; rfl
  rw [X'.vel, X.vel, X'.uEq, X.uEq, X'.vEq, X.vEq]
  simp only [initVelocity, clampSmall, negGrid, Grid.map, Grid.zip, gact, phiUD, cu, cv]
  refine ⟨?_, trivial, fun h => clamp_neg h⟩
  rw [neg_sq']

theorem fieldsT {p : Params ℝ} (hP : initParticles Arith.exact Fun.real p = .ok P)
    (hP' : initParticles Arith.exact Fun.real p.transpose = .ok P') (hd : P'.depth = gact true phiT P.depth) (i j : Nat) :
    P'.velocity.at' i j = P.velocity.at' j i ∧ P'.u.at' i j = P.v.at' j i ∧ P'.v.at' i j = P.u.at' j i := by
  obtain ⟨u, v, X⟩ := init_parts _ _ hP
  obtain ⟨u', v', X'⟩ := init_parts _ _ hP'
  have hf := X'.flow
  rw [hd] at hf
  obtain ⟨rfl, rfl⟩ := velT X.flow hf
  rw [X'.vel, X.vel, X'.uEq, X.uEq, X'.vEq, X.vEq]
  simp only [initVelocity, clampSmall, Grid.map, Grid.zip, gact, phiT]
  have e := add_swap' (Arith.exact.mul (v.at' j i) (v.at' j i)) (Arith.exact.mul (u.at' j i) (u.at' j i))
  simp only [e]
  exact ⟨rfl, rfl, rfl⟩

theorem eps8_exact : eps8 (Arith.exact : Arith ℝ) = 1 / 100000000 := by
  norm_num [eps8, Arith.exact]

/-- Fields at a cell given by its indices. -/
theorem fieldAt_sym {f : (Q : PObj ℝ) → Grid (Fl ℝ)} (hf : ∀ Q : PObj ℝ, Built Arith.exact Fun.real Q → (f Q).rows = Q.depth.rows ∧ (f Q).cols = Q.depth.cols)
    (hE : Enclosed Arith.exact Fun.real R C P) {a b : Nat} (ha : a < R) (hb : b < C) {x : ℝ} :
    FieldAt (f P) ((a : Int), (b : Int)) x ↔ (f P).at' a b = .fin x :=
  fieldAt_nat (by rw [(hf P hE.built).1, hE.rows]; exact ha) (by rw [(hf P hE.built).2, hE.cols]; exact hb)

theorem velDims (Q : PObj ℝ) (h : Built Arith.exact Fun.real Q) : Q.velocity.rows = Q.depth.rows ∧ Q.velocity.cols = Q.depth.cols :=
  ⟨h.fields.vel_rows, h.fields.vel_cols⟩
theorem uDims (Q : PObj ℝ) (h : Built Arith.exact Fun.real Q) : Q.u.rows = Q.depth.rows ∧ Q.u.cols = Q.depth.cols := h.fields.u.2
theorem vDims (Q : PObj ℝ) (h : Built Arith.exact Fun.real Q) : Q.v.rows = Q.depth.rows ∧ Q.v.cols = Q.depth.cols := h.fields.v.2

theorem courseSym_leftRight {p : Params ℝ} (hv : ValidParams p) (hT : DefaultTables p) (ha : p.angles = none)
    (hP : initParticles Arith.exact Fun.real p = .ok P) (hE : Enclosed Arith.exact Fun.real R C P) {W : Set (Int × Int)}
    (hc : ∀ q, q ∈ W → Inside R C q → ¬ FieldAt P.v q (1 / 100000000)) :
    ∃ P', initParticles Arith.exact Fun.real p.mirrorLR = .ok P' ∧ CourseSym Fun.real R C R C P P' (cellLR C) W := by
  obtain ⟨P', hP', S⟩ := movesSym_leftRight hv hT hP hE
  obtain ⟨P2, hP2, hd, -, -, -, -, -⟩ := init_act (swap := false) (φ := phiLR)
    (fun L W i j hi hj => by
      simp only [cond] at hi hj
      rw [Bool.eq_iff_iff, interiorB_iff, interiorB_iff]; simp only [phiLR, cond]; omega) (actLR p) hP (fun u v h => flowLR h)
  rw [hP'] at hP2
  cases hP2
  have hf := fieldsLR hv hP hP' hd
  have hcell : ∀ a b : Nat, 1 ≤ b → b + 1 < C → cellLR C ((a : Int), (b : Int)) = ((a : Int), ((C - 1 - b : Nat) : Int)) := by
    intro a b h1 h2
    unfold cellLR
    ext
    · rfl
    · simp only; omega
  refine ⟨P', hP', courseSym_of S hE (fun p => by unfold cellLR; ext <;> simp) (diff_of hP hP' rfl rfl rfl).1 (diff_of hP hP' rfl rfl rfl).2
    (angles_default hP ha) (angles_default hP' ha) (π := mirrorK) (fun k hk => by unfold mirrorK; omega) rfl (fun q k hk => ?_) (fun k hk => ?_)
    (fun k hk => ?_) (fun q x hq hx => ?_) (fun q u v hqW hq hu hw => ?_)⟩
  · unfold cellLR
    interval_cases k <;> simp [mirrorK, defaultJwalk, defaultIwalk] <;> ring
  · interval_cases k <;> simp [mirrorK, defaultJwalk, defaultIwalk]
  · rw [distances_default hP hT, distances_default hP' hT]
    interval_cases k <;> rfl
  · obtain ⟨a, b, rfl, h1, h2, h3, h4⟩ := hq.nat
    rw [hcell a b h3 h4, fieldAt_sym velDims S.enclosed (by omega) (by omega), (hf a (C - 1 - b)).1, hE.cols, show C - 1 - (C - 1 - b) = b by omega]
    exact (fieldAt_sym velDims hE (by omega) (by omega)).1 hx
  · have hne := hc q hqW hq
    obtain ⟨a, b, rfl, h1, h2, h3, h4⟩ := hq.nat
    rw [← eps8_exact, fieldAt_sym vDims hE (by omega) (by omega)] at hne
    have hf' := hf a (C - 1 - b)
    rw [hE.cols, show C - 1 - (C - 1 - b) = b by omega] at hf'
    refine ⟨u, -v, ?_, ?_, by ring, fun k hk => ?_⟩
    · rw [hcell a b h3 h4, fieldAt_sym uDims S.enclosed (by omega) (by omega), hf'.2.1]
      exact (fieldAt_sym uDims hE (by omega) (by omega)).1 hu
    · rw [hcell a b h3 h4, fieldAt_sym vDims S.enclosed (by omega) (by omega), hf'.2.2 hne, (fieldAt_sym vDims hE (by omega) (by omega)).1 hw]
      rfl
    · interval_cases k <;> simp [mirrorK, defaultJwalk, defaultIwalk]

theorem courseSym_upDown {p : Params ℝ} (hv : ValidParams p) (hT : DefaultTables p) (ha : p.angles = none)
    (hP : initParticles Arith.exact Fun.real p = .ok P) (hE : Enclosed Arith.exact Fun.real R C P) {W : Set (Int × Int)}
    (hc : ∀ q, q ∈ W → Inside R C q → ¬ FieldAt P.u q (1 / 100000000)) :
    ∃ P', initParticles Arith.exact Fun.real p.mirrorUD = .ok P' ∧ CourseSym Fun.real R C R C P P' (cellUD R) W := by
  obtain ⟨P', hP', S⟩ := movesSym_upDown hv hT hP hE
  obtain ⟨P2, hP2, hd, -, -, -, -, -⟩ := init_act (swap := false) (φ := phiUD)
    (fun L W i j hi hj => by
      simp only [cond] at hi hj
      rw [Bool.eq_iff_iff, interiorB_iff, interiorB_iff]; simp only [phiUD, cond]; omega) (actUD p) hP (fun u v h => flowUD h)
  rw [hP'] at hP2
  cases hP2
  have hf := fieldsUD hv hP hP' hd
  have hcell : ∀ a b : Nat, 1 ≤ a → a + 1 < R → cellUD R ((a : Int), (b : Int)) = (((R - 1 - a : Nat) : Int), (b : Int)) := by
    intro a b h1 h2
    unfold cellUD
    ext
    · simp only; omega
    · rfl
  refine ⟨P', hP', courseSym_of S hE (fun p => by unfold cellUD; ext <;> simp) (diff_of hP hP' rfl rfl rfl).1 (diff_of hP hP' rfl rfl rfl).2
    (angles_default hP ha) (angles_default hP' ha) (π := flipK) (fun k hk => by unfold flipK; omega) rfl (fun q k hk => ?_) (fun k hk => ?_)
    (fun k hk => ?_) (fun q x hq hx => ?_) (fun q u v hqW hq hu hw => ?_)⟩
  · unfold cellUD
    interval_cases k <;> simp [flipK, defaultJwalk, defaultIwalk] <;> ring
  · interval_cases k <;> simp [flipK, defaultJwalk, defaultIwalk]
  · rw [distances_default hP hT, distances_default hP' hT]
    interval_cases k <;> rfl
  · obtain ⟨a, b, rfl, h1, h2, h3, h4⟩ := hq.nat
    rw [hcell a b h1 h2, fieldAt_sym velDims S.enclosed (by omega) (by omega), (hf (R - 1 - a) b).1, hE.rows, show R - 1 - (R - 1 - a) = a by omega]
    exact (fieldAt_sym velDims hE (by omega) (by omega)).1 hx
  · have hne := hc q hqW hq
    obtain ⟨a, b, rfl, h1, h2, h3, h4⟩ := hq.nat
    rw [← eps8_exact, fieldAt_sym uDims hE (by omega) (by omega)] at hne
    have hf' := hf (R - 1 - a) b
    rw [hE.rows, show R - 1 - (R - 1 - a) = a by omega] at hf'
    refine ⟨-u, v, ?_, ?_, by ring, fun k hk => ?_⟩
    · rw [hcell a b h1 h2, fieldAt_sym uDims S.enclosed (by omega) (by omega), hf'.2.2 hne, (fieldAt_sym uDims hE (by omega) (by omega)).1 hu]
      rfl
    · rw [hcell a b h1 h2, fieldAt_sym vDims S.enclosed (by omega) (by omega), hf'.2.1]
      exact (fieldAt_sym vDims hE (by omega) (by omega)).1 hw
    · interval_cases k <;> simp [flipK, defaultJwalk, defaultIwalk]

theorem courseSym_transposition {p : Params ℝ} (hv : ValidParams p) (hT : DefaultTables p) (ha : p.angles = none)
    (hP : initParticles Arith.exact Fun.real p = .ok P) (hE : Enclosed Arith.exact Fun.real R C P) :
    ∃ P', initParticles Arith.exact Fun.real p.transpose = .ok P' ∧ CourseSym Fun.real R C C R P P' cellT Set.univ := by
  obtain ⟨P', hP', S⟩ := movesSym_transposition hv hT hP hE
  obtain ⟨P2, hP2, hd, -, -, -, -, -⟩ := init_act (swap := true) (φ := phiT)
    (fun L W i j hi hj => by
      simp only [cond] at hi hj
      rw [Bool.eq_iff_iff, interiorB_iff, interiorB_iff]; simp only [phiT, cond]; omega) (actT p) hP (fun u v h => flowT h)
  rw [hP'] at hP2
  cases hP2
  have hf := fieldsT hP hP' hd
  refine ⟨P', hP', courseSym_of S hE (fun p => rfl) (diff_of hP hP' rfl rfl rfl).1 (diff_of hP hP' rfl rfl rfl).2
    (angles_default hP ha) (angles_default hP' ha) (π := transpK) (fun k hk => by unfold transpK; omega) rfl (fun q k hk => ?_) (fun k hk => ?_)
    (fun k hk => ?_) (fun q x hq hx => ?_) (fun q u v hqW hq hu hw => ?_)⟩
  · unfold cellT
    interval_cases k <;> simp [transpK, defaultJwalk, defaultIwalk]
  · interval_cases k <;> simp [transpK, defaultJwalk, defaultIwalk]
  · rw [distances_default hP hT, distances_default hP' hT]
    interval_cases k <;> rfl
  · obtain ⟨a, b, rfl, h1, h2, h3, h4⟩ := hq.nat
    unfold cellT
    rw [fieldAt_sym velDims S.enclosed (by omega) (by omega), (hf b a).1]
    exact (fieldAt_sym velDims hE (by omega) (by omega)).1 hx
  · obtain ⟨a, b, rfl, h1, h2, h3, h4⟩ := hq.nat
    unfold cellT
    refine ⟨v, u, ?_, ?_, by ring, fun k hk => ?_⟩
    · rw [fieldAt_sym uDims S.enclosed (by omega) (by omega), (hf b a).2.1]
      exact (fieldAt_sym vDims hE (by omega) (by omega)).1 hw
    · rw [fieldAt_sym vDims S.enclosed (by omega) (by omega), (hf b a).2.2]
      exact (fieldAt_sym uDims hE (by omega) (by omega)).1 hu
    · interval_cases k <;> simp [transpK, defaultJwalk, defaultIwalk, add_comm]

/-! ### Seeds and regions -/

theorem count_mirror (C : Int) (l : List Int) (y : Int) : (l.map fun z => C - 1 - z).count (C - 1 - y) = l.count y :=
  List.count_map_of_injective _ _ (fun a b h => by simpa using h) _

theorem seeds_leftRight (xs ys : List Int) (p : Int × Int) : seedProb xs (ys.map fun y => C - 1 - y) (cellLR C p) = seedProb xs ys p := by
  unfold seedProb cellLR
  simp only [count_mirror, List.length_map]

theorem seeds_upDown (xs ys : List Int) (p : Int × Int) : seedProb (xs.map fun x => R - 1 - x) ys (cellUD R p) = seedProb xs ys p := by
  unfold seedProb cellUD
  simp only [count_mirror, List.length_map]

theorem seeds_transposition (xs ys : List Int) (p : Int × Int) : seedProb ys xs (cellT p) = seedProb xs ys p := by
  unfold seedProb cellT
  rw [mul_comm]

theorem mark_leftRight {g : Grid Int} (hc : g.cols = C) {p : Int × Int} (hp : Inside R C p) : cellMark g.flipLR (cellLR C p) = cellMark g p := by
  obtain ⟨a, b, rfl, h1, h2, h3, h4⟩ := hp.nat
  have e : ((C : Int) - 1 - (b : Int)).toNat = C - 1 - b := by omega
  unfold cellMark cellLR Grid.flipLR
  simp only [Int.toNat_natCast, e, hc, show C - 1 - (C - 1 - b) = b by omega]

theorem mark_upDown {g : Grid Int} (hc : g.rows = R) {p : Int × Int} (hp : Inside R C p) : cellMark g.flipUD (cellUD R p) = cellMark g p := by
  obtain ⟨a, b, rfl, h1, h2, h3, h4⟩ := hp.nat
  have e : ((R : Int) - 1 - (a : Int)).toNat = R - 1 - a := by omega
  unfold cellMark cellUD Grid.flipUD
  simp only [Int.toNat_natCast, e, hc, show R - 1 - (R - 1 - a) = a by omega]

/-! ## C118 -/

/-- The transposed domain has the transposed walks with the same durations, jointly for all particles and iterations, and the same exposure times. -/
theorem C118_transposition {p : Params ℝ} (hv : ValidParams p) (hT : DefaultTables p) (ha : p.angles = none)
    (hP : initParticles Arith.exact Fun.real p = .ok P) (hE : Enclosed Arith.exact Fun.real R C P) (hst : P.steepest = false)
    (ho : ∀ var, OptVar P var → Trackable P var) :
    ∃ P', initParticles Arith.exact Fun.real p.transpose = .ok P' ∧ Enclosed Arith.exact Fun.real C R P' ∧
      MirroredCourses Fun.real R C C R P P' cellT Set.univ ∧
      MirroredExposures Fun.real R C C R P P' (fun xs ys => (ys, xs)) Grid.transp Set.univ := by
  obtain ⟨P', hP', S⟩ := courseSym_transposition hv hT ha hP hE
  have a1 := angles_finite (angles_default hP ha)
  have a2 := angles_finite (angles_default hP' ha)
  have hW : Closed Fun.real R C P Set.univ := fun _ _ _ _ _ => trivial
  refine ⟨P', hP', S.enclosed, courses_sym S a1 a2 hst hW, exposures_sym S a1 a2 hst hW ho ?_ (fun xs ys hx hy => ⟨hy, hx⟩) ?_
    seeds_transposition (fun g hb hr hc => ⟨fun i j hi hj => hb j i hj hi, hc, hr⟩) (fun g _ _ p _ => rfl)⟩
  · exact trackable_of hP hP' rfl (by show (p.roi.map _).isSome = _; simp) ho
  · intro xs ys h x hx y hy
    have := h y hy x hx
    unfold Inside at *
    omega

/-- The domain mirrored left-right has the mirrored walks with the same durations, and the same exposure times, for particles in cells where the velocity
component along the rows is not the value 1e-8 put in place of smaller ones. Missing: other cells, where the claim is false (`C118_clamp_breaks`). -/
theorem C118_leftRight_partial {p : Params ℝ} (hv : ValidParams p) (hT : DefaultTables p) (ha : p.angles = none)
    (hP : initParticles Arith.exact Fun.real p = .ok P) (hE : Enclosed Arith.exact Fun.real R C P) (hst : P.steepest = false)
    (ho : ∀ var, OptVar P var → Trackable P var) {W : Set (Int × Int)} (hW : Closed Fun.real R C P W)
    (hc : ∀ q, q ∈ W → Inside R C q → ¬ FieldAt P.v q (1 / 100000000)) :
    ∃ P', initParticles Arith.exact Fun.real p.mirrorLR = .ok P' ∧ Enclosed Arith.exact Fun.real R C P' ∧
      MirroredCourses Fun.real R C R C P P' (cellLR C) W ∧
      MirroredExposures Fun.real R C R C P P' (fun xs ys => (xs, ys.map fun y => C - 1 - y)) Grid.flipLR W := by
  obtain ⟨P', hP', S⟩ := courseSym_leftRight hv hT ha hP hE hc
  have a1 := angles_finite (angles_default hP ha)
  have a2 := angles_finite (angles_default hP' ha)
  refine ⟨P', hP', S.enclosed, courses_sym S a1 a2 hst hW, exposures_sym S a1 a2 hst hW ho ?_ (fun xs ys hx hy => ⟨hx, by simpa using hy⟩) ?_
    seeds_leftRight (fun g hb hr hc => ⟨fun i j hi hj => hb i _ hi ?_, hr, hc⟩) (fun g _ hc p hp => mark_leftRight hc hp)⟩
  · exact trackable_of hP hP' rfl (by show (p.roi.map _).isSome = _; simp) ho
  · intro xs ys h x hx y hy
    obtain ⟨z, hz, rfl⟩ := List.mem_map.1 hy
    have := h x hx z hz
    unfold Inside at *
    simp only at *
    omega
  · have : j < g.cols := hj
    omega

/-- The domain mirrored up-down has the mirrored walks with the same durations, and the same exposure times, for particles in cells where the velocity
component along the columns is not the value 1e-8 put in place of smaller ones. Missing: other cells, where the claim is false. -/
theorem C118_upDown_partial {p : Params ℝ} (hv : ValidParams p) (hT : DefaultTables p) (ha : p.angles = none)
    (hP : initParticles Arith.exact Fun.real p = .ok P) (hE : Enclosed Arith.exact Fun.real R C P) (hst : P.steepest = false)
    (ho : ∀ var, OptVar P var → Trackable P var) {W : Set (Int × Int)} (hW : Closed Fun.real R C P W)
    (hc : ∀ q, q ∈ W → Inside R C q → ¬ FieldAt P.u q (1 / 100000000)) :
    ∃ P', initParticles Arith.exact Fun.real p.mirrorUD = .ok P' ∧ Enclosed Arith.exact Fun.real R C P' ∧
      MirroredCourses Fun.real R C R C P P' (cellUD R) W ∧
      MirroredExposures Fun.real R C R C P P' (fun xs ys => (xs.map fun x => R - 1 - x, ys)) Grid.flipUD W := by
  obtain ⟨P', hP', S⟩ := courseSym_upDown hv hT ha hP hE hc
  have a1 := angles_finite (angles_default hP ha)
  have a2 := angles_finite (angles_default hP' ha)
  refine ⟨P', hP', S.enclosed, courses_sym S a1 a2 hst hW, exposures_sym S a1 a2 hst hW ho ?_ (fun xs ys hx hy => ⟨by simpa using hx, hy⟩) ?_
    seeds_upDown (fun g hb hr hc => ⟨fun i j hi hj => hb _ j ?_ hj, hr, hc⟩) (fun g hr _ p hp => mark_upDown hr hp)⟩
  · exact trackable_of hP hP' rfl (by show (p.roi.map _).isSome = _; simp) ho
  · intro xs ys h x hx y hy
    obtain ⟨z, hz, rfl⟩ := List.mem_map.1 hx
    have := h z hz y hy
    unfold Inside at *
    simp only at *
    omega
  · have : i < g.rows := hi
    omega

end

/-! ## The replacement of small components breaks the mirror symmetry -/

/-- The channel of C75 mirrored left-right. -/
noncomputable def realObjLR : PObj ℝ := (initParticles Arith.exact Fun.real realChan.mirrorLR).toOption.get rfl

theorem realObjLR_init : initParticles Arith.exact Fun.real realChan.mirrorLR = .ok realObjLR := rfl

theorem realObjLR_sym : MovesSym Fun.real 5 5 5 5 realObj realObjLR (cellLR 5) ∧ realObjLR.depth = gact false phiLR realObj.depth := by
  obtain ⟨P', hP', S⟩ := movesSym_leftRight realChan_valid ⟨rfl, rfl, rfl⟩ realObj_init realObj_enclosed
  rw [realObjLR_init] at hP'
  cases hP'
  exact ⟨S, rfl⟩

theorem realObj_uv : realObj.u.at' 2 2 = .fin (2 * 1 / (1 * 1 + 1 / 100000000)) ∧ realObj.v.at' 2 2 = .fin (1 / 100000000) ∧
    realObjLR.v.at' 2 2 = .fin (1 / 100000000) := by
  have h0 : ∀ y : ℝ, Fl.nanTo0 (Arith.exact.div (.fin (y * 1)) (.fin (1 * 1 + 1 / 100000000))) = .fin (y * 1 / (1 * 1 + 1 / 100000000)) := by
    intro y
    rw [real_div (by norm_num)]
    rfl
  refine ⟨?_, ?_, ?_⟩
  · change (fun x : Fl ℝ => if Fl.lt (Fl.abs x) (.fin (1 / 100000000)) then Fl.fin (1 / 100000000) else x)
      (Fl.nanTo0 (Arith.exact.div (.fin (2 * 1)) (.fin (1 * 1 + 1 / 100000000)))) = _
    rw [h0]
    exact clamp_big (by rw [abs_of_pos] <;> norm_num)
  · change (fun x : Fl ℝ => if Fl.lt (Fl.abs x) (.fin (1 / 100000000)) then Fl.fin (1 / 100000000) else x)
      (Fl.nanTo0 (Arith.exact.div (.fin (0 * 1)) (.fin (1 * 1 + 1 / 100000000)))) = _
    rw [h0]
    exact clamp_small (by norm_num)
  · change (fun x : Fl ℝ => if Fl.lt (Fl.abs x) (.fin (1 / 100000000)) then Fl.fin (1 / 100000000) else x)
      (Fl.nanTo0 (Arith.exact.div (.fin (-0 * 1)) (.fin (1 * 1 + 1 / 100000000)))) = _
    rw [h0]
    exact clamp_small (by norm_num)

theorem realObj_diag : moveProb (flowOf Fun.real realObj) realObj (2, 2) (3, 3) = ENNReal.ofReal (1 / 4) := by
  have hw : ∀ k, k < 9 → (flowOf Fun.real realObj).weight 2 2 k = 19 / 20 * ((if k = 7 then 2 else if k = 6 ∨ k = 8 then 1 else 0) / 4) :=
    fun k hk => realObj_weight hk
  have hW : ∑ m ∈ range 9, (flowOf Fun.real realObj).weight 2 2 m = 19 / 20 := by
    rw [sum_congr rfl fun m hm => hw m (mem_range.1 hm)]
    norm_num [sum_range_succ]
  unfold moveProb
  rw [if_neg (show ¬ NearEdge realObj ((2, 2) : Int × Int).1.toNat ((2, 2) : Int × Int).2.toNat from realObj_far)]
  rw [sum_eq_single 8]
  · rw [if_pos (by decide)]
    change ENNReal.ofReal ((flowOf Fun.real realObj).weight 2 2 8 / ∑ m ∈ range 9, (flowOf Fun.real realObj).weight 2 2 m) = _
    rw [hW, hw 8 (by norm_num)]
    norm_num
  · intro k hk hne
    rw [if_neg]
    have hk := mem_range.1 hk
    unfold Flow.nr Flow.nc
    change ¬ ((3, 3) : Int × Int) = (((2 + k / 3 - 1 : Nat) : Int), ((2 + k % 3 - 1 : Nat) : Int))
    interval_cases k <;> first | exact absurd rfl hne | decide
  · intro h
    exact absurd (mem_range.2 (by norm_num)) h

/-- The step to the right takes longer than the mirrored step in the mirrored domain. -/
theorem realObj_diag_dur : 0 ≤ freeDur Fun.real realObjLR (2, 2) (3, 1) ∧
    freeDur Fun.real realObjLR (2, 2) (3, 1) < freeDur Fun.real realObj (2, 2) (3, 3) := by
  obtain ⟨S, hd⟩ := realObjLR_sym
  obtain ⟨hu, hv, hv'⟩ := realObj_uv
  have hf := fieldsLR realChan_valid realObj_init realObjLR_init hd
  have Fd := realObj_built.fields
  obtain ⟨vo, ho, ho1⟩ := Fd.vel 2 2 (by change 2 < 5; norm_num) (by change 2 < 5; norm_num)
  obtain ⟨vn, hn, hn1⟩ := Fd.vel 3 3 (by change 3 < 5; norm_num) (by change 3 < 5; norm_num)
  have he : (0 : ℝ) < eps8 Arith.exact := eps8_pos _
  have e1 := freeDur_formula (p := (2, 2)) (q := (3, 3)) realObj_enclosed (angles_default realObj_init rfl) (by unfold Inside; decide) (k := 8) (by norm_num)
    (by norm_num) rfl (d := Real.sqrt 2) (vo := vo) (vn := vn) (u := 2 * 1 / (1 * 1 + 1 / 100000000)) (v := 1 / 100000000) rfl
    (congrArg Except.ok ho) (congrArg Except.ok hn) (congrArg Except.ok hu) (congrArg Except.ok hv)
  have e2 := freeDur_formula (p := (2, 2)) (q := (3, 1)) S.enclosed (angles_default realObjLR_init rfl) (by unfold Inside; decide) (k := 6) (by norm_num)
    (by norm_num) rfl (d := Real.sqrt 2) (vo := vo) (vn := vn) (u := 2 * 1 / (1 * 1 + 1 / 100000000)) (v := 1 / 100000000) rfl
    (congrArg Except.ok ((hf 2 2).1.trans ho)) (congrArg Except.ok ((hf 3 1).1.trans hn)) (congrArg Except.ok ((hf 2 2).2.1.trans hu)) (congrArg Except.ok hv')
  rw [e1, e2, show realObjLR.dx = 10 from rfl, show realObj.dx = 10 from rfl]
  have h1 := one_div_pos.2 (he.trans_le ho1)
  have h2 := one_div_pos.2 (he.trans_le hn1)
  have h2' : (0 : ℝ) < Real.sqrt 2 := by positivity
  have hs : ∀ x : ℝ, (0 : ℝ) < Real.sqrt (2 * x ^ 2 / x ^ 2 + 1) := fun x => Real.sqrt_pos.2 (by positivity)
  have p8 : projFactor 8 (2 * 1 / (1 * 1 + 1 / 100000000)) (1 / 100000000) = (2 * 1 / (1 * 1 + 1 / 100000000) + 1 / 100000000) /
      (Real.sqrt 2 * Real.sqrt ((2 * 1 / (1 * 1 + 1 / 100000000)) ^ 2 + (1 / 100000000) ^ 2)) := by
    unfold projFactor
    rw [show defaultJwalk 8 = 1 from rfl, show defaultIwalk 8 = 1 from rfl]
    norm_num
  have p6 : projFactor 6 (2 * 1 / (1 * 1 + 1 / 100000000)) (1 / 100000000) = (2 * 1 / (1 * 1 + 1 / 100000000) - 1 / 100000000) /
      (Real.sqrt 2 * Real.sqrt ((2 * 1 / (1 * 1 + 1 / 100000000)) ^ 2 + (1 / 100000000) ^ 2)) := by
    unfold projFactor
    rw [show defaultJwalk 6 = 1 from rfl, show defaultIwalk 6 = -1 from rfl]
    norm_num
  have hden : (0 : ℝ) < Real.sqrt 2 * Real.sqrt ((2 * 1 / (1 * 1 + 1 / 100000000)) ^ 2 + (1 / 100000000) ^ 2) :=
    mul_pos h2' (Real.sqrt_pos.2 (by norm_num))
  have q6 : 0 < projFactor 6 (2 * 1 / (1 * 1 + 1 / 100000000)) (1 / 100000000) := by
    rw [p6]
    exact div_pos (by norm_num) hden
  have q8 : projFactor 6 (2 * 1 / (1 * 1 + 1 / 100000000)) (1 / 100000000) < projFactor 8 (2 * 1 / (1 * 1 + 1 / 100000000)) (1 / 100000000) := by
    rw [p6, p8]
    exact div_lt_div_of_pos_right (by norm_num) hden
  unfold freeTime
  rw [max_eq_right q6.le, max_eq_right (q6.trans q8).le]
  constructor
  · have := add_pos h1 h2
    positivity
  · have hvv := add_pos h1 h2
    have : Real.sqrt 2 * 10 * projFactor 6 (2 * 1 / (1 * 1 + 1 / 100000000)) (1 / 100000000) <
        Real.sqrt 2 * 10 * projFactor 8 (2 * 1 / (1 * 1 + 1 / 100000000)) (1 / 100000000) := mul_lt_mul_of_pos_left q8 (by positivity)
    exact mul_lt_mul_of_pos_right (by linarith) hvv

/-- A larger duration can exceed all values of a smaller one. -/
theorem delay_exceeds {D x x' : ℝ} (hD : 0 < D) (hx' : 0 ≤ x') (hxx : x' < x) :
    delayProb D x' (Set.Ioi (x' * (1 + D / 2))) = 0 ∧ delayProb D x (Set.Ioi (x' * (1 + D / 2))) ≠ 0 := by
  constructor
  · have : {u : ℝ | |u| ≤ 1 / 2 ∧ x' * (1 + u * D) ∈ Set.Ioi (x' * (1 + D / 2))} = ∅ := by
      ext u
      simp only [Set.mem_ofPred_eq, Set.mem_Ioi, Set.mem_empty_iff_false, iff_false, not_and, not_lt]
      intro hu
      have := (abs_le.1 hu).2
      have : u * D ≤ D / 2 := by nlinarith
      exact mul_le_mul_of_nonneg_left (by linarith) hx'
    unfold delayProb
    rw [this, measure_empty]
  · unfold delayProb
    have hx : 0 < x := hx'.trans_lt hxx
    set δ : ℝ := min 1 ((x - x') * (1 + D / 2) / (x * D)) with hδ
    have hδ0 : 0 < δ := lt_min one_pos (div_pos (mul_pos (by linarith) (by linarith)) (mul_pos hx hD))
    have hδ1 : δ * (x * D) ≤ (x - x') * (1 + D / 2) := by
      rw [← le_div_iff₀ (mul_pos hx hD)]
      exact min_le_right _ _
    have hsub : Set.Ioc (1 / 2 - δ) (1 / 2 : ℝ) ⊆ {u : ℝ | |u| ≤ 1 / 2 ∧ x * (1 + u * D) ∈ Set.Ioi (x' * (1 + D / 2))} := by
      intro u hu
      have h1 : δ ≤ 1 := min_le_left _ _
      refine ⟨abs_le.2 ⟨by linarith [hu.1], hu.2⟩, ?_⟩
      show x' * (1 + D / 2) < x * (1 + u * D)
      have : (1 / 2 - δ) * (x * D) < u * (x * D) := mul_lt_mul_of_pos_right hu.1 (mul_pos hx hD)
      nlinarith
    intro h0
    have := measure_mono_null hsub h0
    rw [Real.volume_Ioc, ENNReal.ofReal_eq_zero] at this
    linarith

/-- A straight channel, along the columns, and the same channel mirrored left-right: the particle at the centre takes longer to the lower right than the
mirrored particle to the lower left, since both have the velocity component +1e-8 along the rows. -/
theorem C118_clamp_breaks : ∃ (p : Params ℝ) (P P' : PObj ℝ), ValidParams p ∧ DefaultTables p ∧ p.angles = none ∧
    initParticles Arith.exact Fun.real p = .ok P ∧ initParticles Arith.exact Fun.real p.mirrorLR = .ok P' ∧ Enclosed Arith.exact Fun.real 5 5 P ∧
    P.steepest = false ∧ ¬ MirroredCourses Fun.real 5 5 5 5 P P' (cellLR 5) Set.univ := by
  refine ⟨realChan, realObj, realObjLR, realChan_valid, ⟨rfl, rfl, rfl⟩, rfl, realObj_init, realObjLR_init, realObj_enclosed, rfl, fun hM => ?_⟩
  obtain ⟨S, -⟩ := realObjLR_sym
  have hc : genInputCheck (K := ℝ) (.int 1) (.list [.int 2]) (.list [.int 2]) (.int 0) (.str "exact") =
    .ok (1, [2], [2], .fin ((0 : Int) : ℝ), .exact) := rfl
  have hin : ∀ P : PObj ℝ, InsideSeeds 5 5 P [2] [2] (.fin ((0 : Int) : ℝ)) := by
    intro P x hx y hy
    simp at hx hy
    subst hx hy
    unfold Inside
    decide
  obtain ⟨s0, h0, wd, hwd, hlen, hl0, ht0⟩ : ∃ s0, generateParticles Arith.exact realObj (fun _ => 1 / 2) (initState Arith.exact Fun.real realObj 0) (.int 1)
    (.list [.int 2]) (.list [.int 2]) (.int 0) (.str "exact") none = .ok s0 ∧
      ∃ wd, s0.walk = some wd ∧ wd.xinds.length = 1 ∧ wd.lastPos 0 = some (2, 2) ∧ wd.lastTime 0 = some (.fin ((0 : Int) : ℝ)) :=
    ⟨_, rfl, _, rfl, rfl, rfl, rfl⟩
  obtain ⟨s1, h1, wd1, hwd1, hlen1, hl1, ht1⟩ : ∃ s1, generateParticles Arith.exact realObjLR (fun _ => 1 / 2) (initState Arith.exact Fun.real realObjLR 0)
    (.int 1) (.list [.int 2]) (.list [.int 2]) (.int 0) (.str "exact") none = .ok s1 ∧
      ∃ wd, s1.walk = some wd ∧ wd.xinds.length = 1 ∧ wd.lastPos 0 = some (2, 2) ∧ wd.lastTime 0 = some (.fin ((0 : Int) : ℝ)) :=
    ⟨_, rfl, _, rfl, rfl, rfl, rfl⟩
  have r0 : Reach Arith.exact Fun.real (Enclosed Arith.exact Fun.real 5 5) Draws (InsideSeeds 5 5) realObj s0 :=
    .generate (.new 0 realObj_enclosed) (fun _ => by norm_num) hc (by norm_num) (hin _) h0
  have r1 : Reach Arith.exact Fun.real (Enclosed Arith.exact Fun.real 5 5) Draws (InsideSeeds 5 5) realObjLR s1 :=
    .generate (.new 0 S.enclosed) (fun _ => by norm_num) hc (by norm_num) (hin _) h1
  have a0 := angles_finite (angles_default realObj_init rfl)
  have a1 := angles_finite (angles_default realObjLR_init rfl)
  have z : ∀ i : Fin 1, (i : Nat) = 0 := fun i => by omega
  have t0 : ∀ i : Fin 1, ∃ t, wd.lastTime i = some (.fin t) := fun i => by rw [z i]; exact ⟨_, ht0⟩
  have t1 : ∀ i : Fin 1, ∃ t, wd1.lastTime i = some (.fin t) := fun i => by rw [z i]; exact ⟨_, ht1⟩
  have l0 : ∀ i : Fin 1, wd.lastPos i = some (2, 2) := fun i => by rw [z i]; exact hl0
  have l1 : ∀ i : Fin 1, wd1.lastPos i = some (2, 2) := fun i => by rw [z i]; exact hl1
  classical
  obtain ⟨X, hX⟩ : ∃ X : Fin 1 → (Nat → ℝ) → Course 1, ∀ ω, Draws ω → ∀ i : Fin 1, HasCourse Fun.real realObj ω s0 1 i (X i ω) := by
    have ex := fun (ω : Nat → ℝ) (hω : Draws ω) (i : Fin 1) => course_exists r0 a0 hwd (fun i hi => t0 ⟨i, by omega⟩) hω 1 (i := i) (by rw [hlen]; exact i.2)
    exact ⟨fun i ω => if hω : Draws ω then (ex ω hω i).choose else fun _ => ((0, 0), 0), fun ω hω i => by
      simp only [dif_pos hω]
      exact (ex ω hω i).choose_spec⟩
  obtain ⟨X', hX'⟩ : ∃ X : Fin 1 → (Nat → ℝ) → Course 1, ∀ ω, Draws ω → ∀ i : Fin 1, HasCourse Fun.real realObjLR ω s1 1 i (X i ω) := by
    have ex := fun (ω : Nat → ℝ) (hω : Draws ω) (i : Fin 1) => course_exists r1 a1 hwd1 (fun i hi => t1 ⟨i, by omega⟩) hω 1 (i := i) (by rw [hlen1]; exact i.2)
    exact ⟨fun i ω => if hω : Draws ω then (ex ω hω i).choose else fun _ => ((0, 0), 0), fun ω hω i => by
      simp only [dif_pos hω]
      exact (ex ω hω i).choose_spec⟩
  have key := hM s0 s1 wd wd1 1 1 (fun _ => (2, 2)) X X' r0 r1 hwd hwd1 hlen hlen1 (fun i => ⟨trivial, l0 i, l1 i⟩) (fun i => ⟨t0 i, t1 i⟩) hX hX'
  obtain ⟨m0, w0⟩ := course_law r0 a0 hwd hlen t0 hX l0
  obtain ⟨-, w1⟩ := course_law r1 a1 hwd1 hlen1 t1 hX' l1
  have hmm := mirrorCourse_measurable (cellLR 5) 1
  have hmp : Measurable fun (x : Fin 1 → Course 1) (i : Fin 1) => mirrorCourse (cellLR 5) (x i) :=
    measurable_pi_lambda _ fun i => hmm.comp (measurable_pi_apply i)
  have hcomp : (uniformDraws.map fun ω i => X i ω).map (fun (x : Fin 1 → Course 1) (i : Fin 1) => mirrorCourse (cellLR 5) (x i)) =
      uniformDraws.map fun ω i => mirrorCourse (cellLR 5) (X i ω) :=
    AEMeasurable.map_map_of_aemeasurable hmp.aemeasurable (aemeasurable_pi_lambda _ m0)
  rw [w1, ← hcomp, w0] at key
  have i0 : Inside 5 5 (2, 2) := by unfold Inside; decide
  have pr0 := courseLaw_prob (n := 1) realObj_enclosed i0
  have pr1 := courseLaw_prob (n := 1) S.enclosed i0
  obtain ⟨d0, d1⟩ := realObj_diag_dur
  obtain ⟨v0, v1⟩ := delay_exceeds (D := 1 / 5) (by norm_num) d0 d1
  set B : Set ℝ := Set.Ioi (freeDur Fun.real realObjLR (2, 2) (3, 1) * (1 + 1 / 5 / 2)) with hB
  have hBm : ∀ j : Fin 1, MeasurableSet ((fun _ : Fin 1 => B) j) := fun _ => measurableSet_Ioi
  have hr1 := rect_measurable (n := 1) (fun _ => ((3, 1) : Int × Int)) hBm
  have hpre : (fun (x : Fin 1 → Course 1) (i : Fin 1) => mirrorCourse (cellLR 5) (x i)) ⁻¹' (Set.univ.pi fun _ => rect (fun _ => (3, 1)) fun _ => B) =
      Set.univ.pi fun _ => rect (fun _ => (3, 3)) fun _ => B := by
    ext x
    simp only [Set.mem_preimage, Set.mem_pi, Set.mem_univ, true_implies, mem_rect]
    refine forall_congr' fun i => forall_congr' fun j => and_congr ?_ Iff.rfl
    show cellLR 5 (x i j).1 = (3, 1) ↔ (x i j).1 = (3, 3)
    unfold cellLR
    rw [Prod.ext_iff, Prod.ext_iff]
    simp only
    omega
  have e := congrArg (fun μ => μ (Set.univ.pi fun _ : Fin 1 => rect (fun _ => (3, 1)) fun _ => B)) key
  rw [Measure.map_apply hmp (MeasurableSet.univ_pi fun _ => hr1), hpre, Measure.pi_pi, Measure.pi_pi, Fin.prod_univ_one, Fin.prod_univ_one,
    courseLaw_rect _ _ _ _ hBm, courseLaw_rect _ _ _ _ hBm, Fin.prod_univ_one, Fin.prod_univ_one] at e
  change _ * delayProb (1 / 5) (freeDur Fun.real realObjLR (2, 2) (3, 1)) B =
    moveProb (flowOf Fun.real realObj) realObj (2, 2) (3, 3) * delayProb (1 / 5) (freeDur Fun.real realObj (2, 2) (3, 3)) B at e
  rw [v0, mul_zero, realObj_diag] at e
  exact mul_ne_zero (by norm_num) v1 e.symm

/-! ## Examples -/

/-- A hundred particles seeded at two cells of the wide domain, and at the two transposed cells of the transposed domain: after 30 iterations the exposure times of the
lower half in the one and of the right half in the other have the same joint law. -/
example : ∃ (P' : PObj ℝ) (E E' : Fin 100 → (Nat → ℝ) → ℝ), initParticles Arith.exact Fun.real wideChan.transpose = .ok P' ∧
    (∀ ω, Draws ω → SeededExposure Fun.real wideObj ω (initState Arith.exact Fun.real wideObj 0) 100 [4, 5] [5] 0 30 lowerWide fun i => E i ω) ∧
    (∀ ω, Draws ω → SeededExposure Fun.real P' ω (initState Arith.exact Fun.real P' 0) 100 [5] [4, 5] 0 30 lowerWide.transp fun i => E' i ω) ∧
    uniformDraws.map (fun ω i => E' i ω) = uniformDraws.map fun ω i => E i ω := by
  classical
  have hv : ∀ var, OptVar wideObj var → Trackable wideObj var := by
    rintro var ⟨hm, -⟩
    have e : wideObj.particleVars = [] := rfl
    rw [e] at hm
    simp at hm
  obtain ⟨P', hP', hE', -, hX⟩ := C118_transposition wideChan_valid ⟨rfl, rfl, rfl⟩ rfl wideObj_init wideObj_enclosed rfl hv
  have hv' : ∀ var, OptVar P' var → Trackable P' var := trackable_of wideObj_init hP' rfl rfl hv
  have ha' := angles_finite (angles_default hP' rfl)
  have h : Reach Arith.exact Fun.real (Enclosed Arith.exact Fun.real 11 11) Draws (InsideSeeds 11 11) wideObj (initState Arith.exact Fun.real wideObj 0) :=
    .new 0 wideObj_enclosed
  have h' : Reach Arith.exact Fun.real (Enclosed Arith.exact Fun.real 11 11) Draws (InsideSeeds 11 11) P' (initState Arith.exact Fun.real P' 0) := .new 0 hE'
  have hxy : ∀ x ∈ ([4, 5] : List Int), ∀ y ∈ ([5] : List Int), Inside 11 11 (x, y) := by
    intro x hx y hy
    simp at hx hy
    obtain rfl | rfl := hx <;> subst hy <;> (unfold Inside; decide)
  have hxy' : ∀ x ∈ ([5] : List Int), ∀ y ∈ ([4, 5] : List Int), Inside 11 11 (x, y) := by
    intro x hx y hy
    simp at hx hy
    obtain rfl | rfl := hy <;> subst hx <;> (unfold Inside; decide)
  have hb : Binary lowerWide := by
    intro i j _ _
    unfold lowerWide
    simp only
    split_ifs <;> simp
  have hb' : Binary lowerWide.transp := fun i j hi hj => hb j i hj hi
  have ex := fun (ω : Nat → ℝ) (hω : Draws ω) => C106_accepts h rfl wideObj_angles hv (xs := [4, 5]) (ys := [5]) (by simp) (by simp) hxy hb rfl rfl hω 100 30 0
  have ex' := fun (ω : Nat → ℝ) (hω : Draws ω) => C106_accepts h' rfl ha' hv' (xs := [5]) (ys := [4, 5]) (by simp) (by simp) hxy' hb' rfl rfl hω 100 30 0
  have e : ∀ ω, Draws ω → SeededExposure Fun.real wideObj ω (initState Arith.exact Fun.real wideObj 0) 100 [4, 5] [5] 0 30 lowerWide
      fun i => (if hω : Draws ω then (ex ω hω).choose else 0) i := by
    intro ω hω
    simp only [dif_pos hω]
    exact (ex ω hω).choose_spec
  have e' : ∀ ω, Draws ω → SeededExposure Fun.real P' ω (initState Arith.exact Fun.real P' 0) 100 [5] [4, 5] 0 30 lowerWide.transp
      fun i => (if hω : Draws ω then (ex' ω hω).choose else 0) i := by
    intro ω hω
    simp only [dif_pos hω]
    exact (ex' ω hω).choose_spec
  exact ⟨P', fun i ω => (if hω : Draws ω then (ex ω hω).choose else 0) i, fun i ω => (if hω : Draws ω then (ex' ω hω).choose else 0) i, hP', e, e',
    hX _ _ 100 30 [4, 5] [5] 0 0 lowerWide _ _ h h' rfl rfl (by simp) (by simp) (fun x hx y hy => ⟨hxy x hx y hy, trivial⟩) hb rfl rfl e e'⟩

/-- The hypotheses of the two mirrorings are met by uniform oblique flow, for all cells. -/
example : ∃ P, initParticles Arith.exact Fun.real realOblique = .ok P ∧ Enclosed Arith.exact Fun.real 5 5 P ∧
    (∃ P', initParticles Arith.exact Fun.real realOblique.mirrorLR = .ok P' ∧ MirroredCourses Fun.real 5 5 5 5 P P' (cellLR 5) Set.univ) ∧
    ∃ P', initParticles Arith.exact Fun.real realOblique.mirrorUD = .ok P' ∧ MirroredCourses Fun.real 5 5 5 5 P P' (cellUD 5) Set.univ := by
  obtain ⟨P, hP, hu, hv0, hvars, hst, hdx, hr, hc, ur, uc, vr, vc⟩ : ∃ P, initParticles Arith.exact Fun.real realOblique = .ok P ∧
      (∀ i j, P.u.at' i j = if Fl.lt (Fl.abs (.fin (1 : ℝ))) (.fin (eps8 Arith.exact)) then Fl.fin (eps8 Arith.exact) else .fin 1) ∧
      (∀ i j, P.v.at' i j = if Fl.lt (Fl.abs (.fin (1 : ℝ))) (.fin (eps8 Arith.exact)) then Fl.fin (eps8 Arith.exact) else .fin 1) ∧
      P.particleVars = [] ∧ P.steepest = false ∧ P.dx = 10 ∧ P.depth.rows = 5 ∧ P.depth.cols = 5 ∧
      P.u.rows = 5 ∧ P.u.cols = 5 ∧ P.v.rows = 5 ∧ P.v.cols = 5 :=
    ⟨(initParticles Arith.exact Fun.real realOblique).toOption.get rfl, rfl, fun _ _ => rfl, fun _ _ => rfl, rfl, rfl, rfl, rfl, rfl,
      rfl, rfl, rfl, rfl⟩
  have h1 : ((if Fl.lt (Fl.abs (.fin (1 : ℝ))) (.fin (eps8 Arith.exact)) then Fl.fin (eps8 Arith.exact) else .fin 1) : Fl ℝ) = .fin 1 :=
    clamp_keep (by norm_num [eps8, Arith.exact])
  have hb : Built Arith.exact Fun.real P := ⟨realOblique, realOblique_valid, hP⟩
  have hE : Enclosed Arith.exact Fun.real 5 5 P := by
    obtain ⟨r1, r2, r3⟩ := C17_default_ring (p := realOblique) rfl rfl rfl rfl hP
    refine ⟨hb, hr, hc, r1, r2, ?_, r3⟩
    intro k hk h0
    obtain ⟨d, hd, hd0⟩ := hb.good.dist_pos k hk
    rw [hd] at h0
    injection h0 with h0
    exact (mul_pos hd0 (show (0 : ℝ) < P.dx by rw [hdx]; norm_num)).ne' h0
  have ho : ∀ var, OptVar P var → Trackable P var := by
    rintro var ⟨hm, -⟩
    rw [hvars] at hm
    simp at hm
  have hW : Closed Fun.real 5 5 P Set.univ := fun _ _ _ _ _ => trivial
  refine ⟨P, hP, hE, ?_, ?_⟩
  · obtain ⟨P', hP', -, hX, -⟩ := C118_leftRight_partial realOblique_valid ⟨rfl, rfl, rfl⟩ rfl hP hE hst ho hW (by
      intro q _ hq hf
      obtain ⟨a, b, rfl, -, ha, -, hb⟩ := hq.nat
      have := (fieldAt_nat (by rw [vr]; omega) (by rw [vc]; omega)).1 hf
      rw [hv0, h1] at this
      injection this with this
      norm_num at this)
    exact ⟨P', hP', hX⟩
  · obtain ⟨P', hP', -, hX, -⟩ := C118_upDown_partial realOblique_valid ⟨rfl, rfl, rfl⟩ rfl hP hE hst ho hW (by
      intro q _ hq hf
      obtain ⟨a, b, rfl, -, ha, -, hb⟩ := hq.nat
      have := (fieldAt_nat (by rw [ur]; omega) (by rw [uc]; omega)).1 hf
      rw [hu, h1] at this
      injection this with this
      norm_num at this)
    exact ⟨P', hP', hX⟩

end Dorado
