import Verif.Props.Course
import Verif.Props.Seed

/-! # Randomly seeded particles are independent samples: C105 -/

set_option linter.unusedSectionVars false

namespace Dorado

open MeasureTheory Finset

/-! ## Seeding as a function of the picks -/

section
variable {K : Type} [Field K] [LinearOrder K] [IsStrictOrderedRing K] [FloorRing K] {A : Arith K}

theorem randomSeeds_congr {ω ω' : Nat → K} {locs : List Int} {pos n : Nat}
    (h : ∀ i, i < n → randomPickSeed A locs (ω (pos + i)) = randomPickSeed A locs (ω' (pos + i))) :
    randomSeeds A ω pos locs n = randomSeeds A ω' pos locs n := by
  unfold randomSeeds
  have key : ∀ (L : List Nat) (pos : Nat), (∀ i, i < L.length → randomPickSeed A locs (ω (pos + i)) = randomPickSeed A locs (ω' (pos + i))) →
      mapAcc (fun pos (_ : Nat) => do let c ← randomPickSeed A locs (ω pos); return (c, pos + 1)) pos L =
      mapAcc (fun pos (_ : Nat) => do let c ← randomPickSeed A locs (ω' pos); return (c, pos + 1)) pos L := by
    intro L
    induction L with
    | nil => intro pos _; rfl
    | cons b L ih =>
      intro pos h
      have h0 := h 0 (by simp)
      rw [Nat.add_zero] at h0
      have hrec := ih (pos + 1) fun i hi => by
        have := h (i + 1) (by simpa using hi)
        rwa [show pos + (i + 1) = pos + 1 + i by omega] at this
      simp only [mapAcc, h0]
      cases randomPickSeed A locs (ω' pos) with
      | error e => rfl
      | ok c =>
        simp only [ok_bind, pure_def]
        simp only [pure_def] at hrec
        rw [hrec]
  exact key _ _ (by simpa using h)

/-- Random seeding uses the random stream through the picks only. -/
theorem generate_congr {P : PObj K} {ω ω' : Nat → K} {s : PState K} {N : Nat} {xs ys : List Int} {t : Fl K} {prev : Option (WalkData K)}
    (hx : ∀ i, i < N → randomPickSeed A xs (ω (s.world.pos + i)) = randomPickSeed A xs (ω' (s.world.pos + i)))
    (hy : ∀ i, i < N → randomPickSeed A ys (ω (s.world.pos + N + i)) = randomPickSeed A ys (ω' (s.world.pos + N + i))) :
    generateParticles A P ω s (.int N) (ints xs) (ints ys) (.flt t) (.str "random") prev =
      generateParticles A P ω' s (.int N) (ints xs) (ints ys) (.flt t) (.str "random") prev := by
  have hs : startIndices A ω s.world.pos (N : Int) xs ys .random = startIndices A ω' s.world.pos (N : Int) xs ys .random := by
    simp only [startIndices, Int.toNat_natCast]
    rw [randomSeeds_congr hx]
    cases hr : randomSeeds A ω' s.world.pos xs N with
    | error e => rfl
    | ok v =>
      obtain ⟨l, pos'⟩ := v
      obtain ⟨rfl, -⟩ := randomSeeds_get hr
      simp only [ok_bind]
      rw [randomSeeds_congr hy]
  unfold generateParticles
  rw [check_ints, if_pos rfl]
  simp only [ok_bind, generateCore, newWalk, hs]

/-- Random seeding takes two draws per particle. -/
theorem generate_pos {P : PObj K} {ω : Nat → K} {s s' : PState K} {N : Nat} {xs ys : List Int} {t : Fl K} {prev : Option (WalkData K)}
    (h : generateParticles A P ω s (.int N) (ints xs) (ints ys) (.flt t) (.str "random") prev = .ok s') : s'.world.pos = s.world.pos + N + N := by
  unfold generateParticles at h
  rw [check_ints, if_pos rfl] at h
  simp only [ok_bind, generateCore, newWalk, startIndices, Int.toNat_natCast, bind_ok, pure_ok, Prod.exists, Prod.mk.injEq] at h
  obtain ⟨_, _, ⟨_, _, _, ⟨_, _, hx, _, _, hy, rfl, rfl, rfl⟩, _, _, _, _, _, _, rfl, rfl⟩, rfl⟩ := h
  obtain ⟨rfl, -⟩ := randomSeeds_get hx
  obtain ⟨rfl, -⟩ := randomSeeds_get hy
  rfl

theorem lists_last {wd : WalkData K} {i : Nat} {x y : Int} {t : Fl K} (h : wd.lists i = some ([x], [y], [t])) :
    wd.lastPos i = some (x, y) ∧ wd.lastTime i = some t := by
  unfold WalkData.lists at h
  simp only [Option.bind_eq_bind, Option.bind_eq_some_iff, Option.pure_def, Option.some.injEq, Prod.mk.injEq] at h
  obtain ⟨l1, h1, l2, h2, l3, h3, rfl, rfl, rfl⟩ := h
  unfold WalkData.lastPos WalkData.lastTime
  rw [h1, h2, h3]
  exact ⟨rfl, rfl⟩

end

/-! ## The law -/

/-- The single cells. -/
def singles : Set (Set (Int × Int)) := {S | ∃ p, S = {p}}

theorem singles_pi : IsPiSystem singles := by
  rintro _ ⟨p, rfl⟩ _ ⟨p', rfl⟩ ⟨c, h1, h2⟩
  rw [Set.mem_singleton_iff] at h1 h2
  subst h1 h2
  exact ⟨c, by simp⟩

theorem singles_generate : MeasurableSpace.generateFrom singles = Prod.instMeasurableSpace := by
  refine le_antisymm (MeasurableSpace.generateFrom_le ?_) fun A _ => ?_
  · rintro _ ⟨p, rfl⟩
    exact MeasurableSet.singleton p
  · rw [← Set.biUnion_of_singleton A]
    exact @MeasurableSet.biUnion _ _ (MeasurableSpace.generateFrom singles) _ _ A.to_countable fun p _ =>
      MeasurableSpace.measurableSet_generateFrom ⟨p, rfl⟩

theorem singles_span : IsCountablySpanning singles := by
  obtain ⟨e, he⟩ := exists_surjective_nat (Int × Int)
  refine ⟨fun k => {e k}, fun k => ⟨_, rfl⟩, Set.eq_univ_of_forall fun p => Set.mem_iUnion.2 ?_⟩
  obtain ⟨k, rfl⟩ := he p
  exact ⟨k, rfl⟩

theorem rects_countable (n : Nat) : IsCountablySpanning (rects n) := by
  obtain ⟨e, he⟩ := exists_surjective_nat (Fin n → Int × Int)
  refine ⟨fun k => rect (e k) fun _ => Set.univ, fun k => ⟨_, _, fun _ => MeasurableSet.univ, rfl⟩, Set.eq_univ_of_forall fun c => Set.mem_iUnion.2 ?_⟩
  obtain ⟨k, hk⟩ := he fun j => (c j).1
  exact ⟨k, mem_rect.2 fun j => ⟨by rw [hk], trivial⟩⟩

theorem seededLaw_rect (F : Fun ℝ Arith.exact) (P : PObj ℝ) (xs ys : List Int) {n : Nat} (p : Int × Int) {S : Set (Course n)} (hS : MeasurableSet S) :
    seededLaw F P xs ys n ({p} ×ˢ S) = seedProb xs ys p * courseLaw F P n p S := by
  unfold seededLaw
  have hm : ∀ p' : Int × Int, Measurable fun c : Course n => (p', c) := fun p' => by fun_prop
  have hR : MeasurableSet (({p} : Set (Int × Int)) ×ˢ S) := (MeasurableSet.singleton p).prod hS
  rw [Measure.sum_apply _ hR, tsum_eq_single p]
  · rw [Measure.smul_apply, Measure.map_apply (hm p) hR, smul_eq_mul]
    congr 2
    ext c
    simp
  · intro p' hne
    rw [Measure.smul_apply, Measure.map_apply (hm p') hR, smul_eq_mul]
    have : (fun c : Course n => (p', c)) ⁻¹' (({p} : Set (Int × Int)) ×ˢ S) = ∅ := by
      ext c
      simp [hne]
    rw [this, measure_empty, mul_zero]

theorem count_sum {l : List Int} (hl : l ≠ []) : ∑' a : Int, ENNReal.ofReal (l.count a / l.length) = 1 := by
  rw [tsum_eq_sum (s := l.toFinset) fun a ha => by
    rw [List.mem_toFinset] at ha
    rw [List.count_eq_zero_of_not_mem ha]
    simp]
  have hpos : (0 : ℝ) < l.length := by exact_mod_cast List.length_pos_iff.2 hl
  rw [← ENNReal.ofReal_sum_of_nonneg fun a _ => by positivity, ← sum_div, ← Nat.cast_sum, List.sum_toFinset_count_eq_length, div_self hpos.ne',
    ENNReal.ofReal_one]

theorem seedProb_sum {xs ys : List Int} (hx : xs ≠ []) (hy : ys ≠ []) : ∑' p, seedProb xs ys p = 1 := by
  unfold seedProb
  rw [ENNReal.tsum_prod']
  simp only [ENNReal.tsum_mul_left]
  rw [count_sum hy]
  simp only [mul_one]
  exact count_sum hx

theorem seedProb_mem {xs ys : List Int} {p : Int × Int} (h : seedProb xs ys p ≠ 0) : p.1 ∈ xs ∧ p.2 ∈ ys := by
  constructor <;> by_contra hc <;> refine h ?_ <;> unfold seedProb <;> rw [List.count_eq_zero_of_not_mem hc] <;> simp

theorem seededLaw_prob {F : Fun ℝ Arith.exact} {R C : Nat} {P : PObj ℝ} (hP : Enclosed Arith.exact F R C P) {xs ys : List Int} (hx : xs ≠ [])
    (hy : ys ≠ []) (hxy : ∀ x ∈ xs, ∀ y ∈ ys, Inside R C (x, y)) (n : Nat) : IsProbabilityMeasure (seededLaw F P xs ys n) := by
  constructor
  unfold seededLaw
  rw [Measure.sum_apply _ MeasurableSet.univ, ← seedProb_sum hx hy]
  refine tsum_congr fun p => ?_
  by_cases h0 : seedProb xs ys p = 0
  · rw [h0]
    simp
  · obtain ⟨h1, h2⟩ := seedProb_mem h0
    have := courseLaw_prob hP n (hxy _ h1 _ h2)
    rw [Measure.smul_apply, Measure.map_apply (by fun_prop) MeasurableSet.univ, Set.preimage_univ, measure_univ, smul_eq_mul, mul_one]

section
variable {F : Fun ℝ Arith.exact} {R C : Nat} {P : PObj ℝ} {s : PState ℝ} {N : Nat} {xs ys : List Int} {t : ℝ}

/-- The draws that seed the particles at the cells `p`. -/
def Seeds (ω : Nat → ℝ) (pos : Nat) (xs ys : List Int) (p : Fin N → Int × Int) : Prop :=
  ∀ i : Fin N, randomPickSeed Arith.exact xs (ω (pos + i)) = .ok (p i).1 ∧ randomPickSeed Arith.exact ys (ω (pos + N + i)) = .ok (p i).2

/-- What is known about the state after seeding. -/
structure Seeded (F : Fun ℝ Arith.exact) (R C : Nat) (P : PObj ℝ) (s : PState ℝ) (N : Nat) (xs ys : List Int) (t : ℝ) (p : Fin N → Int × Int)
    (s1 : PState ℝ) (wd : WalkData ℝ) : Prop where
  gen : ∀ ω, Seeds ω s.world.pos xs ys p →
    generateParticles Arith.exact P ω s (.int N) (ints xs) (ints ys) (.flt (.fin t)) (.str "random") none = .ok s1
  walk : s1.walk = some wd
  reach : Reach Arith.exact F (Enclosed Arith.exact F R C) Draws (InsideSeeds R C) P s1
  len : wd.xinds.length = N
  pos : s1.world.pos = s.world.pos + N + N
  last : ∀ i : Fin N, wd.lastPos i = some (p i) ∧ wd.lastTime i = some (.fin t)
  lists : ∀ i : Fin N, wd.lists i = some ([(p i).1], [(p i).2], [.fin t])

theorem seeded_exists (h : Reach Arith.exact F (Enclosed Arith.exact F R C) Draws (InsideSeeds R C) P s) (hw : s.walk = none)
    (hv : ∀ var, OptVar P var → Trackable P var) (hx : xs ≠ []) (hy : ys ≠ []) (hxy : ∀ x ∈ xs, ∀ y ∈ ys, Inside R C (x, y))
    {ω : Nat → ℝ} (hω : Draws ω) : ∃ p : Fin N → Int × Int, Seeds ω s.world.pos xs ys p ∧ ∃ s1 wd, Seeded F R C P s N xs ys t p s1 wd := by
  have hB := h.obj.built
  have hg : ∀ x ∈ xs, ∀ y ∈ ys, OnGrid P x y := by
    intro x hx y hy
    obtain ⟨h1, h2, h3, h4⟩ := hxy x hx y hy
    have := h.obj.rows
    have := h.obj.cols
    unfold OnGrid
    simp only at h1 h2 h3 h4
    omega
  obtain ⟨s1, hs1⟩ := C31_succeeds hB hv hω s N hx hy rfl rfl hg (.fin t) none
  obtain ⟨wd, hwd, hlen, hmem⟩ := C31_members (fun P hP => Enclosed.built hP) h (prev := none) (fun w hw => by cases hw) hs1
  rw [hw] at hlen hmem
  simp only [count, held, List.length_nil, Nat.zero_add] at hlen hmem
  choose! x y hxm hym px py hl using hmem
  refine ⟨fun i => (x i, y i), fun i => ⟨px i i.2, py i i.2⟩, s1, wd, fun ω' hω' => ?_, hwd, ?_, hlen, generate_pos hs1, fun i => lists_last (hl i i.2),
    fun i => hl i i.2⟩
  · rw [← hs1]
    exact generate_congr (fun i hi => by rw [(hω' ⟨i, hi⟩).1, px i hi]) fun i hi => by rw [(hω' ⟨i, hi⟩).2, py i hi]
  · exact .generate h hω (by rw [check_ints, if_pos rfl]) (by omega) hxy hs1

/-- Seeds determine the start cells. -/
theorem Seeds.unique {ω : Nat → ℝ} {pos : Nat} {p p' : Fin N → Int × Int} (h : Seeds ω pos xs ys p) (h' : Seeds ω pos xs ys p') : p = p' := by
  funext i
  have h1 := (h i).1
  have h2 := (h i).2
  rw [(h' i).1] at h1
  rw [(h' i).2] at h2
  injection h1 with h1
  injection h2 with h2
  exact Prod.ext h1.symm h2.symm

/-- Start cell and course in terms of the state after seeding. -/
theorem HasSeeded.course {ω : Nat → ℝ} {p : Fin N → Int × Int} (hp : Seeds ω s.world.pos xs ys p) {s1 : PState ℝ} {wd : WalkData ℝ}
    (hS : Seeded F R C P s N xs ys t p s1 wd) {n : Nat} {i : Fin N} {c : (Int × Int) × Course n} (h : HasSeeded F P ω s N xs ys t n i c) :
    c.1 = p i ∧ HasCourse F P ω s1 n i c.2 := by
  obtain ⟨s2, wd2, g, w, l, hc⟩ := h
  rw [hS.gen ω hp] at g
  cases g
  rw [hS.walk] at w
  cases w
  rw [(hS.last i).1] at l
  exact ⟨(Option.some.inj l).symm, hc⟩

theorem seeds_measurable (pos : Nat) (hx : xs ≠ []) (hy : ys ≠ []) (p : Fin N → Int × Int) :
    NullMeasurableSet {ω | Seeds ω pos xs ys p} uniformDraws := by
  have hm : ∀ {l : List Int} (_ : l ≠ []) (a : Int), MeasurableSet {r : ℝ | 0 ≤ r ∧ r < 1 ∧ randomPickSeed Arith.exact l r = .ok a} :=
    fun hl a => pickSeed_measurable hl a
  refine NullMeasurableSet.congr (s := ⋂ i : Fin N, ((fun ω : Nat → ℝ => ω (pos + i)) ⁻¹' {r : ℝ | 0 ≤ r ∧ r < 1 ∧ randomPickSeed Arith.exact xs r = .ok (p i).1} ∩
    (fun ω : Nat → ℝ => ω (pos + N + i)) ⁻¹' {r : ℝ | 0 ≤ r ∧ r < 1 ∧ randomPickSeed Arith.exact ys r = .ok (p i).2})) ?_ ?_
  · exact (MeasurableSet.iInter fun i : Fin N => ((by fun_prop : Measurable fun ω : Nat → ℝ => ω (pos + i)) (hm hx (p i).1)).inter
      ((by fun_prop : Measurable fun ω : Nat → ℝ => ω (pos + N + i)) (hm hy (p i).2))).nullMeasurableSet
  · rw [Filter.eventuallyEq_set]
    filter_upwards [uniformDraws_nonzero] with ω hω
    simp only [Set.mem_iInter, Set.mem_inter_iff, Set.mem_preimage, Set.mem_ofPred_eq, Seeds]
    exact forall_congr' fun i => ⟨fun hh => ⟨hh.1.2.2, hh.2.2.2⟩, fun hh => ⟨⟨(hω.1 _).1, (hω.1 _).2, hh.1⟩, (hω.1 _).1, (hω.1 _).2, hh.2⟩⟩

theorem seeded_at (h : Reach Arith.exact F (Enclosed Arith.exact F R C) Draws (InsideSeeds R C) P s) (hw : s.walk = none)
    (hv : ∀ var, OptVar P var → Trackable P var) (hx : xs ≠ []) (hy : ys ≠ []) (hxy : ∀ x ∈ xs, ∀ y ∈ ys, Inside R C (x, y))
    {p : Fin N → Int × Int} (hp : ∃ ω, Draws ω ∧ Seeds ω s.world.pos xs ys p) : ∃ s1 wd, Seeded F R C P s N xs ys t p s1 wd := by
  obtain ⟨ω, hω, hp⟩ := hp
  obtain ⟨p', hp', hS⟩ := seeded_exists (N := N) (t := t) h hw hv hx hy hxy hω
  rw [hp.unique hp']
  exact hS

/-- Every randomly seeded particle has a start cell and a course. -/
theorem seeded_course (h : Reach Arith.exact F (Enclosed Arith.exact F R C) Draws (InsideSeeds R C) P s) (hw : s.walk = none)
    (ha : ∀ k, k < 9 → k ≠ 4 → ∃ a, P.angles k = .fin a) (hv : ∀ var, OptVar P var → Trackable P var) (hx : xs ≠ []) (hy : ys ≠ [])
    (hxy : ∀ x ∈ xs, ∀ y ∈ ys, Inside R C (x, y)) {ω : Nat → ℝ} (hω : Draws ω) (n : Nat) (i : Fin N) :
    ∃ c, HasSeeded F P ω s N xs ys t n i c := by
  obtain ⟨p, hp, s1, wd, hS⟩ := seeded_exists (N := N) (t := t) h hw hv hx hy hxy hω
  obtain ⟨c, hc⟩ := course_exists hS.reach ha hS.walk (fun i hi => ⟨t, (hS.last ⟨i, by rw [← hS.len]; exact hi⟩).2⟩) hω n (i := i) (by rw [hS.len]; exact i.2)
  exact ⟨(p i, c), s1, wd, hS.gen ω hp, hS.walk, (hS.last i).1, hc⟩

/-- Courses after seeding that agree with given ones if the seeds are `p`. -/
theorem seeded_courses (ha : ∀ k, k < 9 → k ≠ 4 → ∃ a, P.angles k = .fin a) {n : Nat} {X : Fin N → (Nat → ℝ) → (Int × Int) × Course n}
    (hX : ∀ ω, Draws ω → ∀ i : Fin N, HasSeeded F P ω s N xs ys t n i (X i ω)) {p : Fin N → Int × Int} {s1 : PState ℝ} {wd : WalkData ℝ}
    (hS : Seeded F R C P s N xs ys t p s1 wd) : ∃ Y : Fin N → (Nat → ℝ) → Course n, (∀ ω, Draws ω → ∀ i : Fin N, HasCourse F P ω s1 n i (Y i ω)) ∧
      ∀ ω, Draws ω → Seeds ω s.world.pos xs ys p → ∀ i, X i ω = (p i, Y i ω) := by
  have ex : ∀ ω, Draws ω → ∀ i : Fin N, ∃ c : Course n, HasCourse F P ω s1 n i c ∧ (Seeds ω s.world.pos xs ys p → X i ω = (p i, c)) := by
    intro ω hω i
    by_cases hp : Seeds ω s.world.pos xs ys p
    · obtain ⟨h1, h2⟩ := (hX ω hω i).course hp hS
      exact ⟨_, h2, fun _ => Prod.ext h1 rfl⟩
    · obtain ⟨c, hc⟩ := course_exists hS.reach ha hS.walk (fun i hi => ⟨t, (hS.last ⟨i, by rw [← hS.len]; exact hi⟩).2⟩) hω n (i := i)
        (by rw [hS.len]; exact i.2)
      exact ⟨c, hc, fun h => absurd h hp⟩
  classical
  refine ⟨fun i ω => if hω : Draws ω then (ex ω hω i).choose else fun _ => ((0, 0), 0), fun ω hω i => ?_, fun ω hω hp i => ?_⟩
  · simp only [dif_pos hω]
    exact (ex ω hω i).choose_spec.1
  · simp only [dif_pos hω]
    exact (ex ω hω i).choose_spec.2 hp

theorem course_measurable' (h : Reach Arith.exact F (Enclosed Arith.exact F R C) Draws (InsideSeeds R C) P s)
    (ha : ∀ k, k < 9 → k ≠ 4 → ∃ a, P.angles k = .fin a) {wd : WalkData ℝ} (hwd : s.walk = some wd) (hN : wd.xinds.length = N)
    (ht0 : ∀ i, i < N → ∃ t, wd.lastTime i = some (.fin t)) {n : Nat} {X : Fin N → (Nat → ℝ) → Course n}
    (hX : ∀ ω, Draws ω → ∀ i : Fin N, HasCourse F P ω s n i (X i ω))
    {p : Fin N → Int × Int} (hp : ∀ i : Fin N, wd.lastPos i = some (p i)) (i : Fin N) : AEMeasurable (X i) uniformDraws := by
  subst hN
  exact course_measurable h ha hwd ht0 hX hp i

theorem course_rect' {wd : WalkData ℝ} (hwd : s.walk = some wd) (hN : wd.xinds.length = N) {ω : Nat → ℝ} {n : Nat} {X : Fin N → Course n}
    (h : Reach Arith.exact F (Enclosed Arith.exact F R C) Draws (InsideSeeds R C) P s) (hω : Draws ω) (hX : ∀ i : Fin N, HasCourse F P ω s n i (X i))
    {p : Fin N → Int × Int} (hp : ∀ i : Fin N, wd.lastPos i = some (p i)) (q : Fin N → Fin n → Int × Int)
    {B : Nat → Nat → Set ℝ} : (∀ i, X i ∈ rect (q i) fun j => B j i) ↔
      Follows Arith.exact F P ω s n (jointPath p q) ∧ ∀ j, j < n → ∀ i, i < N → TakesIn Arith.exact F P ω s j i (B j i) := by
  subst hN
  exact course_rect hwd h hω hX hp q

theorem seeded_measurable (h : Reach Arith.exact F (Enclosed Arith.exact F R C) Draws (InsideSeeds R C) P s) (hw : s.walk = none)
    (ha : ∀ k, k < 9 → k ≠ 4 → ∃ a, P.angles k = .fin a) (hv : ∀ var, OptVar P var → Trackable P var) (hx : xs ≠ []) (hy : ys ≠ [])
    (hxy : ∀ x ∈ xs, ∀ y ∈ ys, Inside R C (x, y)) {n : Nat} {X : Fin N → (Nat → ℝ) → (Int × Int) × Course n}
    (hX : ∀ ω, Draws ω → ∀ i : Fin N, HasSeeded F P ω s N xs ys t n i (X i ω)) (i : Fin N) : AEMeasurable (X i) uniformDraws := by
  have hU : (⋃ p : Fin N → Int × Int, {ω | Seeds ω s.world.pos xs ys p}) =ᵐ[uniformDraws] Set.univ := by
    rw [Filter.eventuallyEq_set]
    filter_upwards [uniformDraws_nonzero] with ω hω
    simp only [Set.mem_iUnion, Set.mem_ofPred_eq, Set.mem_univ, iff_true]
    obtain ⟨p, hp, -⟩ := seeded_exists (N := N) (t := t) h hw hv hx hy hxy hω.1
    exact ⟨p, hp⟩
  rw [← Measure.restrict_univ (μ := uniformDraws), ← Measure.restrict_congr_set hU, aemeasurable_iUnion_iff]
  intro p
  have hnull := seeds_measurable s.world.pos hx hy p
  by_cases hex : ∃ ω, Draws ω ∧ Seeds ω s.world.pos xs ys p
  · obtain ⟨s1, wd, hS⟩ := seeded_at (t := t) h hw hv hx hy hxy hex
    obtain ⟨Y, hY, hXY⟩ := seeded_courses ha hX hS
    have hm := course_measurable' hS.reach ha hS.walk hS.len (fun i hi => ⟨t, (hS.last ⟨i, hi⟩).2⟩) hY (fun i => (hS.last i).1) i
    refine AEMeasurable.congr (f := fun ω => (p i, Y i ω)) ?_ ?_
    · exact ((by fun_prop : Measurable fun c : Course n => (p i, c)).comp_aemeasurable hm).restrict
    · rw [Filter.EventuallyEq, ae_restrict_iff'₀ hnull]
      filter_upwards [uniformDraws_nonzero] with ω hω hp
      exact (hXY ω hω.1 hp i).symm
  · have : uniformDraws {ω | Seeds ω s.world.pos xs ys p} = 0 := by
      refine measure_eq_zero_iff_ae_notMem.2 ?_
      filter_upwards [uniformDraws_nonzero] with ω hω hp
      exact hex ⟨ω, hω.1, hp⟩
    rw [Measure.restrict_eq_zero.2 this]
    exact aemeasurable_zero_measure

/-- Seeds of positive probability occur. -/
theorem seeds_occur (pos : Nat) (hx : xs ≠ []) (hy : ys ≠ []) {p : Fin N → Int × Int} (h : ∀ i, seedProb xs ys (p i) ≠ 0) :
    ∃ ω, Draws ω ∧ Seeds ω pos xs ys p := by
  have hex : ∀ i : Fin N, (∃ r : ℝ, 0 ≤ r ∧ r < 1 ∧ randomPickSeed Arith.exact xs r = .ok (p i).1) ∧
      ∃ r : ℝ, 0 ≤ r ∧ r < 1 ∧ randomPickSeed Arith.exact ys r = .ok (p i).2 := by
    intro i
    have hne := h i
    unfold seedProb at hne
    rw [← pickSeed_volume hx, ← pickSeed_volume hy] at hne
    exact ⟨nonempty_of_measure_ne_zero (left_ne_zero_of_mul hne), nonempty_of_measure_ne_zero (right_ne_zero_of_mul hne)⟩
  choose r1 r2 using hex
  choose a ha0 ha1 ha using r1
  choose b hb0 hb1 hb using r2
  refine ⟨fun m => if h1 : pos ≤ m ∧ m - pos < N then a ⟨m - pos, h1.2⟩ else if h2 : pos + N ≤ m ∧ m - (pos + N) < N then b ⟨m - (pos + N), h2.2⟩ else 1 / 2,
    fun m => ?_, fun i => ⟨?_, ?_⟩⟩
  · simp only
    split_ifs
    · exact ⟨ha0 _, ha1 _⟩
    · exact ⟨hb0 _, hb1 _⟩
    · norm_num
  · simp only
    rw [dif_pos ⟨by omega, by omega⟩]
    have : (⟨pos + i - pos, by omega⟩ : Fin N) = i := Fin.ext (by simp)
    rw [this]
    exact ha i
  · simp only
    rw [dif_neg (by omega), dif_pos ⟨by omega, by omega⟩]
    have : (⟨pos + N + i - (pos + N), by omega⟩ : Fin N) = i := Fin.ext (by simp)
    rw [this]
    exact hb i

/-- The conditions on the draws used for seeding. -/
def seedSets (pos : Nat) (xs ys : List Int) (p : Fin N → Int × Int) (m : Nat) : Set ℝ :=
  if h1 : pos ≤ m ∧ m - pos < N then {r | 0 ≤ r ∧ r < 1 ∧ randomPickSeed Arith.exact xs r = .ok (p ⟨m - pos, h1.2⟩).1}
  else if h2 : pos + N ≤ m ∧ m - (pos + N) < N then {r | 0 ≤ r ∧ r < 1 ∧ randomPickSeed Arith.exact ys r = .ok (p ⟨m - (pos + N), h2.2⟩).2}
  else Set.univ

theorem seedSets_row (pos : Nat) (xs ys : List Int) (p : Fin N → Int × Int) (i : Fin N) :
    seedSets pos xs ys p (pos + i) = {r | 0 ≤ r ∧ r < 1 ∧ randomPickSeed Arith.exact xs r = .ok (p i).1} := by
  unfold seedSets
  rw [dif_pos ⟨by omega, by omega⟩]
  have : (⟨pos + i - pos, by omega⟩ : Fin N) = i := Fin.ext (by simp)
  rw [this]

theorem seedSets_col (pos : Nat) (xs ys : List Int) (p : Fin N → Int × Int) (i : Fin N) :
    seedSets pos xs ys p (pos + N + i) = {r | 0 ≤ r ∧ r < 1 ∧ randomPickSeed Arith.exact ys r = .ok (p i).2} := by
  unfold seedSets
  rw [dif_neg (by omega), dif_pos ⟨by omega, by omega⟩]
  have : (⟨pos + N + i - (pos + N), by omega⟩ : Fin N) = i := Fin.ext (by simp)
  rw [this]

theorem seedSets_iff {ω : Nat → ℝ} (hω : Draws ω) (pos : Nat) (xs ys : List Int) (p : Fin N → Int × Int) :
    (∀ m, m < pos + N + N → ω m ∈ seedSets pos xs ys p m) ↔ Seeds ω pos xs ys p := by
  constructor
  · intro h i
    have h1 := h (pos + i) (by omega)
    have h2 := h (pos + N + i) (by omega)
    rw [seedSets_row] at h1
    rw [seedSets_col] at h2
    exact ⟨h1.2.2, h2.2.2⟩
  · intro h m hm
    unfold seedSets
    split_ifs with h1 h2
    · refine ⟨(hω m).1, (hω m).2, ?_⟩
      have := (h ⟨m - pos, h1.2⟩).1
      simp only at this
      rwa [show pos + (m - pos) = m by omega] at this
    · refine ⟨(hω m).1, (hω m).2, ?_⟩
      have := (h ⟨m - (pos + N), h2.2⟩).2
      simp only at this
      rwa [show pos + N + (m - (pos + N)) = m by omega] at this
    · trivial

theorem seedSets_prod (pos : Nat) (hx : xs ≠ []) (hy : ys ≠ []) (p : Fin N → Int × Int) :
    ∏ m ∈ range (pos + N + N), volume.restrict (Set.Ico (0 : ℝ) 1) (seedSets pos xs ys p m) = ∏ i, seedProb xs ys (p i) := by
  have hr : ∀ {l : List Int} (_ : l ≠ []) (a : Int), volume.restrict (Set.Ico (0 : ℝ) 1) {r : ℝ | 0 ≤ r ∧ r < 1 ∧ randomPickSeed Arith.exact l r = .ok a} =
      ENNReal.ofReal (l.count a / l.length) := by
    intro l hl a
    rw [Measure.restrict_apply (pickSeed_measurable hl a), ← pickSeed_volume hl]
    congr 1
    ext r
    simp only [Set.mem_inter_iff, Set.mem_ofPred_eq, Set.mem_Ico]
    tauto
  rw [prod_range_add, prod_range_add, prod_eq_one (s := range pos), one_mul]
  · rw [← Fin.prod_univ_eq_prod_range (fun i => volume.restrict (Set.Ico (0 : ℝ) 1) (seedSets pos xs ys p (pos + i))),
      ← Fin.prod_univ_eq_prod_range (fun i => volume.restrict (Set.Ico (0 : ℝ) 1) (seedSets pos xs ys p (pos + N + i))), ← prod_mul_distrib]
    refine prod_congr rfl fun i _ => ?_
    rw [seedSets_row, seedSets_col, hr hx, hr hy]
    rfl
  · intro m hm
    rw [mem_range] at hm
    unfold seedSets
    rw [dif_neg (by omega), dif_neg (by omega)]
    simp

theorem seedSets_measurable (pos : Nat) (hx : xs ≠ []) (hy : ys ≠ []) (p : Fin N → Int × Int) (m : Nat) : MeasurableSet (seedSets pos xs ys p m) := by
  unfold seedSets
  split_ifs
  · exact pickSeed_measurable hx _
  · exact pickSeed_measurable hy _
  · exact MeasurableSet.univ

/-- The law of the walks together with conditions on the draws made before. -/
theorem joint_after (h : Reach Arith.exact F (Enclosed Arith.exact F R C) Draws (InsideSeeds R C) P s)
    (ha : ∀ k, k < 9 → k ≠ 4 → ∃ a, P.angles k = .fin a) {wd : WalkData ℝ} (hwd : s.walk = some wd) (hN : wd.xinds.length = N)
    (ht0 : ∀ i, i < N → ∃ t, wd.lastTime i = some (.fin t)) (n : Nat) (path : Nat → Nat → Int × Int)
    (h0 : ∀ i, i < N → wd.lastPos i = some (path 0 i)) (B : Nat → Nat → Set ℝ) (hB : ∀ j i, MeasurableSet (B j i))
    {u : Nat → Set ℝ} (hu : ∀ m, MeasurableSet (u m)) :
    uniformDraws {ω | (∀ m, m < s.world.pos → ω m ∈ u m) ∧ Follows Arith.exact F P ω s n path ∧
        ∀ j, j < n → ∀ i, i < N → TakesIn Arith.exact F P ω s j i (B j i)} =
      (∏ m ∈ range s.world.pos, volume.restrict (Set.Ico (0 : ℝ) 1) (u m)) *
      ∏ j ∈ range n, ∏ i ∈ range N, moveProb (flowOf F P) P (path j i) (path (j + 1) i) *
        delayProb P.diffCoeff (freeDur F P (path j i) (path (j + 1) i)) (B j i) := by
  subst hN
  by_cases hz : uniformDraws {ω | Follows Arith.exact F P ω s n path} = 0
  · rw [measure_mono_null (fun ω hω => hω.2.1) hz]
    have := C75_law h hwd rfl n path h0
    rw [hz] at this
    simp only [prod_mul_distrib]
    rw [← this, zero_mul, mul_zero]
  · obtain ⟨ω0, hω0, hF0⟩ : ∃ ω, Draws ω ∧ Follows Arith.exact F P ω s n path := by
      by_contra hc
      push Not at hc
      refine hz (measure_eq_zero_iff_ae_notMem.2 ?_)
      filter_upwards [uniformDraws_nonzero] with ω h2
      exact hc ω h2.1
    exact law_after h ha hwd rfl ht0 n path h0 _ (fun j hj i hi => follows_free h ha hwd hω0 h0 hF0 hj hi) B hB hu

/-- Exact arithmetic, one stream of independent uniform draws for seeding and walking: the start cells and courses of any number of randomly seeded particles
are jointly distributed like independent samples of one law. -/
theorem C105_law (h : Reach Arith.exact F (Enclosed Arith.exact F R C) Draws (InsideSeeds R C) P s) (hw : s.walk = none)
    (ha : ∀ k, k < 9 → k ≠ 4 → ∃ a, P.angles k = .fin a) (hv : ∀ var, OptVar P var → Trackable P var) (hx : xs ≠ []) (hy : ys ≠ [])
    (hxy : ∀ x ∈ xs, ∀ y ∈ ys, Inside R C (x, y)) {n : Nat} {X : Fin N → (Nat → ℝ) → (Int × Int) × Course n}
    (hX : ∀ ω, Draws ω → ∀ i : Fin N, HasSeeded F P ω s N xs ys t n i (X i ω)) :
    uniformDraws.map (fun ω i => X i ω) = Measure.pi fun _ : Fin N => seededLaw F P xs ys n := by
  have hm := seeded_measurable h hw ha hv hx hy hxy hX
  have hpr := seededLaw_prob h.obj hx hy hxy n
  have hgen : MeasurableSpace.generateFrom (Set.image2 (· ×ˢ ·) singles (rects n)) = Prod.instMeasurableSpace :=
    generateFrom_eq_prod singles_generate (rects_generate n) singles_span (rects_countable n)
  have hspan : (seededLaw F P xs ys n).FiniteSpanningSetsIn (Set.image2 (· ×ˢ ·) singles (rects n)) := by
    have hc := singles_span.prod (rects_countable n)
    exact ⟨hc.choose, hc.choose_spec.1, fun _ => measure_lt_top _ _, hc.choose_spec.2⟩
  refine (Measure.pi_eq_generateFrom (fun _ => hgen) (fun _ => singles_pi.prod (rects_pi n)) (fun _ => hspan) ?_).symm
  intro S hS
  have hS' : ∀ i, ∃ (p : Int × Int) (q : Fin n → Int × Int) (B : Fin n → Set ℝ), (∀ j, MeasurableSet (B j)) ∧ S i = {p} ×ˢ rect q B := by
    intro i
    obtain ⟨_, ⟨p, rfl⟩, _, ⟨q, B, hB, rfl⟩, e⟩ := hS i
    exact ⟨p, q, B, hB, e.symm⟩
  choose p q B hB hSe using hS'
  have hSm : MeasurableSet (Set.pi Set.univ S) := MeasurableSet.univ_pi fun i => by
    rw [hSe i]
    exact (MeasurableSet.singleton _).prod (rect_measurable _ (hB i))
  rw [Measure.map_apply_of_aemeasurable (aemeasurable_pi_lambda _ hm) hSm]
  have hval : ∀ i, seededLaw F P xs ys n (S i) = seedProb xs ys (p i) * courseLaw F P n (p i) (rect (q i) (B i)) := by
    intro i
    rw [hSe i, seededLaw_rect F P xs ys (p i) (rect_measurable _ (hB i))]
  simp only [hval, prod_mul_distrib]
  by_cases hex : ∃ ω, Draws ω ∧ Seeds ω s.world.pos xs ys p
  · obtain ⟨s1, wd, hG⟩ := seeded_at (t := t) h hw hv hx hy hxy hex
    obtain ⟨Y, hY, hXY⟩ := seeded_courses ha hX hG
    set B' : Nat → Nat → Set ℝ := fun j i => if h : j < n ∧ i < N then B ⟨i, h.2⟩ ⟨j, h.1⟩ else Set.univ with hB'
    have eB : ∀ (i : Fin N) (j : Fin n), B' j i = B i j := fun i j => by simp only [hB']; rw [dif_pos ⟨j.2, i.2⟩]
    have hev : (fun ω i => X i ω) ⁻¹' Set.pi Set.univ S =ᵐ[uniformDraws] {ω | (∀ m, m < s1.world.pos → ω m ∈ seedSets s.world.pos xs ys p m) ∧
        Follows Arith.exact F P ω s1 n (jointPath p q) ∧ ∀ j, j < n → ∀ i, i < N → TakesIn Arith.exact F P ω s1 j i (B' j i)} := by
      rw [Filter.eventuallyEq_set]
      filter_upwards [uniformDraws_nonzero] with ω hω
      simp only [Set.mem_preimage, Set.mem_pi, Set.mem_univ, true_implies]
      rw [← course_rect' hG.walk hG.len hG.reach hω.1 (hY ω hω.1) (fun i => (hG.last i).1), hG.pos, seedSets_iff hω.1]
      simp only [hSe, eB, Set.mem_prod, Set.mem_singleton_iff]
      constructor
      · intro hh
        have hsd : Seeds ω s.world.pos xs ys p := by
          obtain ⟨p', hp', s2, wd2, hG2⟩ := seeded_exists (N := N) (t := t) h hw hv hx hy hxy hω.1
          have : p' = p := by
            funext i
            rw [← (hh i).1, ((hX ω hω.1 i).course hp' hG2).1]
          rwa [this] at hp'
        refine ⟨hsd, fun i => ?_⟩
        have := (hh i).2
        rwa [hXY ω hω.1 hsd i] at this
      · rintro ⟨hsd, hh⟩ i
        rw [hXY ω hω.1 hsd i]
        exact ⟨rfl, hh i⟩
    rw [measure_congr hev, joint_after hG.reach ha hG.walk hG.len (fun i hi => ⟨t, (hG.last ⟨i, hi⟩).2⟩) n (jointPath p q)
      (fun i hi => by rw [(hG.last ⟨i, hi⟩).1, jointPath_zero p q ⟨i, hi⟩]) B' (fun j i => by
        simp only [hB']
        split_ifs
        · exact hB _ _
        · exact MeasurableSet.univ) (seedSets_measurable s.world.pos hx hy p), hG.pos, seedSets_prod s.world.pos hx hy p]
    congr 1
    rw [prod_comm, ← Fin.prod_univ_eq_prod_range (fun i => ∏ j ∈ range n, moveProb (flowOf F P) P (jointPath p q j i) (jointPath p q (j + 1) i) *
          delayProb P.diffCoeff (freeDur F P (jointPath p q j i) (jointPath p q (j + 1) i)) (B' j i))]
    refine prod_congr rfl fun i _ => ?_
    rw [courseLaw_rect F P _ _ (hB i), ← Fin.prod_univ_eq_prod_range (fun j => moveProb (flowOf F P) P (jointPath p q j i) (jointPath p q (j + 1) i) *
          delayProb P.diffCoeff (freeDur F P (jointPath p q j i) (jointPath p q (j + 1) i)) (B' j i))]
    refine prod_congr rfl fun j _ => ?_
    rw [jointPath_prev, jointPath_succ, eB]
  · have hzero : ∏ i, seedProb xs ys (p i) = 0 := by
      by_contra hne
      exact hex (seeds_occur s.world.pos hx hy fun i => (Finset.prod_ne_zero_iff.1 hne) i (mem_univ i))
    rw [hzero, zero_mul]
    refine measure_eq_zero_iff_ae_notMem.2 ?_
    filter_upwards [uniformDraws_nonzero] with ω hω hh
    simp only [Set.mem_preimage, Set.mem_pi, Set.mem_univ, true_implies, hSe, Set.mem_prod, Set.mem_singleton_iff] at hh
    obtain ⟨p', hp', s2, wd2, hG2⟩ := seeded_exists (N := N) (t := t) h hw hv hx hy hxy hω.1
    have : p' = p := by
      funext i
      rw [← (hh i).1, ((hX ω hω.1 i).course hp' hG2).1]
    exact hex ⟨ω, hω.1, this ▸ hp'⟩

/-- Randomly seeded particles are independent and identically distributed. -/
theorem C105_independent (h : Reach Arith.exact F (Enclosed Arith.exact F R C) Draws (InsideSeeds R C) P s) (hw : s.walk = none)
    (ha : ∀ k, k < 9 → k ≠ 4 → ∃ a, P.angles k = .fin a) (hv : ∀ var, OptVar P var → Trackable P var) (hx : xs ≠ []) (hy : ys ≠ [])
    (hxy : ∀ x ∈ xs, ∀ y ∈ ys, Inside R C (x, y)) {n : Nat} {X : Fin N → (Nat → ℝ) → (Int × Int) × Course n}
    (hX : ∀ ω, Draws ω → ∀ i : Fin N, HasSeeded F P ω s N xs ys t n i (X i ω)) :
    ProbabilityTheory.iIndepFun X uniformDraws ∧ ∀ i, uniformDraws.map (X i) = seededLaw F P xs ys n := by
  have hm := seeded_measurable h hw ha hv hx hy hxy hX
  have hlaw := C105_law h hw ha hv hx hy hxy hX
  have hpr := seededLaw_prob h.obj hx hy hxy n
  have hmarg : ∀ i, uniformDraws.map (X i) = seededLaw F P xs ys n := by
    intro i
    have e := (measurePreserving_eval (fun _ : Fin N => seededLaw F P xs ys n) i).map_eq
    rw [← hlaw, AEMeasurable.map_map_of_aemeasurable (measurable_pi_apply i).aemeasurable (aemeasurable_pi_lambda _ hm)] at e
    exact e
  refine ⟨(ProbabilityTheory.iIndepFun_iff_map_fun_eq_pi_map hm).2 ?_, hmarg⟩
  rw [hlaw]
  simp only [hmarg]

/-- Monte-Carlo error with random seeding: the average over `N` particles of a quantity between 0 and 1 that depends on where a particle is seeded and what it
does in the first `n` iterations differs by `ε` or more from its expectation with probability at most `2 exp(-2 N ε²)`. -/
theorem C105_monte_carlo (h : Reach Arith.exact F (Enclosed Arith.exact F R C) Draws (InsideSeeds R C) P s) (hw : s.walk = none)
    (ha : ∀ k, k < 9 → k ≠ 4 → ∃ a, P.angles k = .fin a) (hv : ∀ var, OptVar P var → Trackable P var) (hx : xs ≠ []) (hy : ys ≠ [])
    (hxy : ∀ x ∈ xs, ∀ y ∈ ys, Inside R C (x, y)) {n : Nat} {X : Fin N → (Nat → ℝ) → (Int × Int) × Course n}
    (hX : ∀ ω, Draws ω → ∀ i : Fin N, HasSeeded F P ω s N xs ys t n i (X i ω)) (hN : 0 < N)
    {f : (Int × Int) × Course n → ℝ} (hf : Measurable f) (hf0 : ∀ c, 0 ≤ f c) (hf1 : ∀ c, f c ≤ 1) {ε : ℝ} (hε : 0 < ε) :
    uniformDraws.real {ω | ε ≤ |(∑ i, f (X i ω)) / N - ∫ c, f c ∂seededLaw F P xs ys n|} ≤ 2 * Real.exp (-2 * N * ε ^ 2) := by
  obtain ⟨hind, hmarg⟩ := C105_independent h hw ha hv hx hy hxy hX
  have := hoeffding_mean hN (seeded_measurable h hw ha hv hx hy hxy hX) hind hmarg hf hf0 hf1 hε
  have hN' : (N : ℝ) ≠ 0 := by positivity
  rwa [sum_const, card_univ, Fintype.card_fin, nsmul_eq_mul, mul_div_cancel_left₀ _ hN'] at this

end

/-- C105: a hundred particles, seeded at random in two cells of the channel. The share of them that starts at the centre and goes straight ahead in the
first iteration differs by a quarter or more from a quarter with probability at most `2 exp(-12.5)`. -/
example : ∃ X : Fin 100 → (Nat → ℝ) → (Int × Int) × Course 1,
    (∀ ω, Draws ω → ∀ i : Fin 100, HasSeeded Fun.real realObj ω (initState Arith.exact Fun.real realObj 0) 100 [1, 2] [2] 0 1 i (X i ω)) ∧
    ProbabilityTheory.iIndepFun X uniformDraws ∧ (∀ i, uniformDraws.map (X i) = seededLaw Fun.real realObj [1, 2] [2] 1) ∧
    uniformDraws.real {ω | 1 / 4 ≤ |(∑ i, Set.indicator {c : (Int × Int) × Course 1 | c.1 = (2, 2) ∧ (c.2 0).1 = (3, 2)} (fun _ => (1 : ℝ)) (X i ω)) / 100 - 1 / 4|} ≤
      2 * Real.exp (-(25 / 2)) := by
  have h : Reach Arith.exact Fun.real (Enclosed Arith.exact Fun.real 5 5) Draws (InsideSeeds 5 5) realObj (initState Arith.exact Fun.real realObj 0) :=
    .new 0 realObj_enclosed
  have hw : (initState Arith.exact Fun.real realObj 0).walk = none := rfl
  have hv : ∀ var, OptVar realObj var → Trackable realObj var := by
    rintro var ⟨hm, -⟩
    have e : realObj.particleVars = [] := rfl
    rw [e] at hm
    simp at hm
  have hxy : ∀ x ∈ ([1, 2] : List Int), ∀ y ∈ ([2] : List Int), Inside 5 5 (x, y) := by
    intro x hx y hy
    simp at hx hy
    obtain rfl | rfl := hx <;> subst hy <;> (unfold Inside; decide)
  have ex := fun (ω : Nat → ℝ) (hω : Draws ω) (i : Fin 100) => seeded_course (t := 0) h hw realObj_angles hv (xs := [1, 2]) (ys := [2]) (by simp) (by simp) hxy hω 1 i
  have ex' : ∃ X : Fin 100 → (Nat → ℝ) → (Int × Int) × Course 1,
      ∀ ω, Draws ω → ∀ i : Fin 100, HasSeeded Fun.real realObj ω (initState Arith.exact Fun.real realObj 0) 100 [1, 2] [2] 0 1 i (X i ω) := by
    classical
    exact ⟨fun i ω => if hω : Draws ω then (ex ω hω i).choose else ((0, 0), fun _ => ((0, 0), 0)), fun ω hω i => by
      simp only [dif_pos hω]
      exact (ex ω hω i).choose_spec⟩
  obtain ⟨X, hX⟩ := ex'
  obtain ⟨hi1, hi2⟩ := C105_independent h hw realObj_angles hv (by simp) (by simp) hxy hX
  refine ⟨X, hX, hi1, hi2, ?_⟩
  have hS1 : MeasurableSet {c : Course 1 | (c 0).1 = (3, 2)} :=
    (by fun_prop : Measurable fun c : Course 1 => (c 0).1) (MeasurableSet.singleton (3, 2))
  have eS : {c : (Int × Int) × Course 1 | c.1 = (2, 2) ∧ (c.2 0).1 = (3, 2)} = {(2, 2)} ×ˢ {c : Course 1 | (c 0).1 = (3, 2)} := by
    ext c
    simp
  have hS : MeasurableSet {c : (Int × Int) × Course 1 | c.1 = (2, 2) ∧ (c.2 0).1 = (3, 2)} := by
    rw [eS]
    exact (MeasurableSet.singleton _).prod hS1
  have hmc := C105_monte_carlo h hw realObj_angles hv (by simp) (by simp) hxy hX (by norm_num)
    (f := Set.indicator {c : (Int × Int) × Course 1 | c.1 = (2, 2) ∧ (c.2 0).1 = (3, 2)} fun _ => (1 : ℝ))
    (measurable_const.indicator hS) (fun c => Set.indicator_nonneg (fun _ _ => zero_le_one) c)
    (fun c => Set.indicator_le' (fun _ _ => le_rfl) (fun _ _ => zero_le_one) c) (ε := 1 / 4) (by norm_num)
  have hI : ∫ c, Set.indicator {c : (Int × Int) × Course 1 | c.1 = (2, 2) ∧ (c.2 0).1 = (3, 2)} (fun _ => (1 : ℝ)) c ∂seededLaw Fun.real realObj [1, 2] [2] 1 = 1 / 4 := by
    have e1 : seedProb [1, 2] [2] (2, 2) = ENNReal.ofReal (1 / 2) := by
      unfold seedProb
      rw [← ENNReal.ofReal_mul (by positivity)]
      norm_num
    rw [integral_indicator_const _ hS, Measure.real, eS, seededLaw_rect _ _ _ _ _ hS1, realObj_first, e1, ← ENNReal.ofReal_mul (by norm_num),
      ENNReal.toReal_ofReal (by norm_num)]
    norm_num
  rw [hI] at hmc
  norm_num at hmc ⊢
  exact hmc

end Dorado
