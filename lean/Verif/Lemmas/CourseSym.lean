import Verif.Lemmas.VelSym
import Verif.Props.SymmetryLaw
import Verif.Props.ExposureLaw
import Verif.Props.Time

/-! # Durations and courses in mirrored domains (C118) -/

set_option linter.unusedSectionVars false

namespace Dorado

open MeasureTheory Finset

variable {R C R' C' : Nat} {P P' : PObj ℝ}

/-! ### The duration of a step from the fields -/

theorem IsFreeTime.eq_freeDur {F : Fun ℝ Arith.exact} (hw : DefaultWalk P) {p q : Int × Int} {x : ℝ} (h : IsFreeTime F P p q x) : freeDur F P p q = x := by
  have hex : ∃ x, IsFreeTime F P p q x := ⟨x, h⟩
  unfold freeDur
  rw [dif_pos hex]
  exact hex.choose_spec.unique hw h

theorem fieldAt_nat {g : Grid (Fl ℝ)} {a b : Nat} (ha : a < g.rows) (hb : b < g.cols) {x : ℝ} : FieldAt g ((a : Int), (b : Int)) x ↔ g.at' a b = .fin x := by
  have h1 : pyIdx g.rows (a : Int) = .ok a := by
    unfold pyIdx
    simp [ha]
  have h2 : pyIdx g.cols (b : Int) = .ok b := by
    unfold pyIdx
    simp [hb]
  unfold FieldAt Grid.get
  simp only [h1, h2, ok_bind, pure_def, Except.ok.injEq]

/-- The projection factor of a step in direction `k`. -/
noncomputable def projFactor (k : Nat) (u v : ℝ) : ℝ := (u * defaultJwalk k + v * defaultIwalk k) /
  (Real.sqrt ((defaultJwalk k : ℝ) ^ 2 + (defaultIwalk k : ℝ) ^ 2) * Real.sqrt (u ^ 2 + v ^ 2))

theorem freeDur_formula (hE : Enclosed Arith.exact Fun.real R C P) (hang : P.angles = defaultAngles Arith.exact Fun.real) {p q : Int × Int}
    (hp : Inside R C p) {k : Nat} (hk : k < 9) (h4 : k ≠ 4) (hpq : q = (p.1 + defaultJwalk k, p.2 + defaultIwalk k)) {d vo vn u v : ℝ}
    (hd : P.distances k = .fin d) (hvo : FieldAt P.velocity p vo) (hvn : FieldAt P.velocity q vn) (hu : FieldAt P.u p u) (hv : FieldAt P.v p v) :
    freeDur Fun.real P p q = freeTime (d * P.dx) (projFactor k u v) vo vn := by
  have Fd := hE.built.fields
  obtain ⟨a, b, rfl, ha, ha', hb, hb'⟩ := hp.nat
  obtain ⟨va, hva⟩ := Fd.ang.1 a b (by rw [Fd.ang.2.1, hE.rows]; omega) (by rw [Fd.ang.2.2, hE.cols]; omega)
  have hva' : FieldAt P.velocityAngle ((a : Int), (b : Int)) va :=
    (fieldAt_nat (by rw [Fd.ang.2.1, hE.rows]; omega) (by rw [Fd.ang.2.2, hE.cols]; omega)).2 hva
  obtain ⟨u0, v0, hu0, hv0, hu1, -, rfl⟩ := angle_at hE.built hva'
  unfold FieldAt at hu hv hu0 hv0
  rw [hu] at hu0
  rw [hv] at hv0
  cases hu0
  cases hv0
  have hune : u ≠ 0 := fun h0 => by
    rw [h0, abs_zero] at hu1
    exact absurd hu1 (not_le.2 (eps8_pos _))
  obtain ⟨θ, hθ, hc⟩ := C20_projection hk h4 (v := v) hune
  refine IsFreeTime.eq_freeDur hE.walk (.inr ⟨?_, k, θ, d, vo, vn, _, hk, ?_, by rw [hang]; exact hθ, hd, hvo, hvn, hva', ?_⟩)
  · rw [hpq]
    intro h0
    rw [Prod.mk.injEq] at h0
    have e1 : defaultJwalk k = 0 := by linarith [h0.1]
    have e2 : defaultIwalk k = 0 := by linarith [h0.2]
    revert e1 e2 h4
    clear * - hk
    interval_cases k <;> decide
  · rw [hpq, hE.walk.1, hE.walk.2]
  · unfold projFactor
    rw [← hc]
    rfl

theorem freeDur_self {F : Fun ℝ Arith.exact} (hw : DefaultWalk P) (p : Int × Int) : freeDur F P p p = 0 :=
  IsFreeTime.eq_freeDur hw (.inl ⟨rfl, rfl⟩)

theorem freeDur_far {F : Fun ℝ Arith.exact} (hw : DefaultWalk P) {p q : Int × Int}
    (h : ∀ k, k < 9 → q ≠ (p.1 + defaultJwalk k, p.2 + defaultIwalk k)) : freeDur F P p q = 0 := by
  unfold freeDur
  rw [dif_neg]
  rintro ⟨x, ⟨rfl, -⟩ | ⟨-, k, a, d, vo, vn, va, hk, hq, -⟩⟩
  · exact h 4 (by norm_num) (by ext <;> simp [defaultJwalk, defaultIwalk])
  · rw [hw.1, hw.2] at hq
    exact h k hk hq

/-- `m` maps the cells of `P` to those of `P'`, the probabilities of the moves and, at the cells of `W`, their durations. -/
structure CourseSym (F : Fun ℝ Arith.exact) (R C R' C' : Nat) (P P' : PObj ℝ) (m : Int × Int → Int × Int) (W : Set (Int × Int)) : Prop
    extends MovesSym F R C R' C' P P' m where
  invol : ∀ p, m (m p) = p
  diff : P'.diffCoeff = P.diffCoeff
  dur : ∀ p q, p ∈ W → Inside R C p → Inside R C q → freeDur F P' (m p) (m q) = freeDur F P p q

theorem courseSym_of {m : Int × Int → Int × Int} {W : Set (Int × Int)} (S : MovesSym Fun.real R C R' C' P P' m) (hE : Enclosed Arith.exact Fun.real R C P)
    (hm : ∀ p, m (m p) = p) (hD : P'.diffCoeff = P.diffCoeff) (hdx : P'.dx = P.dx) (hang : P.angles = defaultAngles Arith.exact Fun.real)
    (hang' : P'.angles = defaultAngles Arith.exact Fun.real) {π : Nat → Nat} (hπ : ∀ k, k < 9 → π k < 9 ∧ π (π k) = k) (hπ4 : π 4 = 4)
    (hw : ∀ p k, k < 9 → m (p.1 + defaultJwalk k, p.2 + defaultIwalk k) = ((m p).1 + defaultJwalk (π k), (m p).2 + defaultIwalk (π k)))
    (hn : ∀ k, k < 9 → ((defaultJwalk (π k) : ℝ) ^ 2 + (defaultIwalk (π k) : ℝ) ^ 2) = (defaultJwalk k : ℝ) ^ 2 + (defaultIwalk k : ℝ) ^ 2)
    (hdist : ∀ k, k < 9 → P'.distances (π k) = P.distances k)
    (hvel : ∀ p x, Inside R C p → FieldAt P.velocity p x → FieldAt P'.velocity (m p) x)
    (hproj : ∀ p u v, p ∈ W → Inside R C p → FieldAt P.u p u → FieldAt P.v p v → ∃ u' v', FieldAt P'.u (m p) u' ∧ FieldAt P'.v (m p) v' ∧
      u' ^ 2 + v' ^ 2 = u ^ 2 + v ^ 2 ∧ ∀ k, k < 9 → u' * defaultJwalk (π k) + v' * defaultIwalk (π k) = u * defaultJwalk k + v * defaultIwalk k) :
    CourseSym Fun.real R C R' C' P P' m W := by
  refine ⟨S, hm, hD, fun p q hpW hp hq => ?_⟩
  by_cases hpq : q = p
  · rw [hpq, freeDur_self S.enclosed.walk, freeDur_self hE.walk]
  by_cases hnb : ∃ k, k < 9 ∧ q = (p.1 + defaultJwalk k, p.2 + defaultIwalk k)
  · obtain ⟨k, hk, hqk⟩ := hnb
    have h4 : k ≠ 4 := by
      rintro rfl
      exact hpq (by rw [hqk]; ext <;> simp [defaultJwalk, defaultIwalk])
    have Fd := hE.built.fields
    have fields : ∀ p, Inside R C p → (∃ x, FieldAt P.velocity p x) ∧ (∃ x, FieldAt P.u p x) ∧ ∃ x, FieldAt P.v p x := by
      intro p hp
      obtain ⟨a, b, rfl, ha, ha', hb, hb'⟩ := hp.nat
      have r : a < P.depth.rows := by rw [hE.rows]; omega
      have c : b < P.depth.cols := by rw [hE.cols]; omega
      obtain ⟨x, hx, -⟩ := Fd.vel a b r c
      obtain ⟨y, hy⟩ := Fd.u.1 a b (by rw [Fd.u.2.1]; exact r) (by rw [Fd.u.2.2]; exact c)
      obtain ⟨z, hz⟩ := Fd.v.1 a b (by rw [Fd.v.2.1]; exact r) (by rw [Fd.v.2.2]; exact c)
      exact ⟨⟨x, (fieldAt_nat (by rw [Fd.vel_rows]; exact r) (by rw [Fd.vel_cols]; exact c)).2 hx⟩,
        ⟨y, (fieldAt_nat (by rw [Fd.u.2.1]; exact r) (by rw [Fd.u.2.2]; exact c)).2 hy⟩,
        ⟨z, (fieldAt_nat (by rw [Fd.v.2.1]; exact r) (by rw [Fd.v.2.2]; exact c)).2 hz⟩⟩
    obtain ⟨⟨vo, hvo⟩, ⟨u, hu⟩, ⟨v, hv⟩⟩ := fields p hp
    obtain ⟨⟨vn, hvn⟩, -⟩ := fields q hq
    obtain ⟨d, hd, -⟩ := hE.built.good.dist_pos k hk
    obtain ⟨u', v', hu', hv', hsq, hpr⟩ := hproj p u v hpW hp hu hv
    have h4' : π k ≠ 4 := fun h0 => h4 (by rw [← (hπ k hk).2, h0, hπ4])
    rw [freeDur_formula hE hang hp hk h4 hqk hd hvo hvn hu hv,
      freeDur_formula S.enclosed hang' ((S.inside p).2 hp) (hπ k hk).1 h4' (by rw [hqk, hw p k hk]) ((hdist k hk).trans hd)
        (hvel p vo hp hvo) (hvel q vn hq hvn) hu' hv', hdx]
    unfold projFactor
    rw [hn k hk, hsq, hpr k hk]
  · push Not at hnb
    rw [freeDur_far hE.walk hnb, freeDur_far S.enclosed.walk]
    intro k hk h0
    refine hnb (π k) (hπ k hk).1 ?_
    rw [← hm q, h0, hw (m p) k hk, hm]

/-! ### The law of the courses -/

/-- A course seen in the mirror. -/
def mirrorCourse (m : Int × Int → Int × Int) {n : Nat} (c : Course n) : Course n := fun j => (m (c j).1, (c j).2)

theorem mirrorCourse_measurable (m : Int × Int → Int × Int) (n : Nat) : Measurable (mirrorCourse m (n := n)) := by
  refine measurable_pi_lambda _ fun j => ?_
  have h1 : Measurable fun c : Course n => (c j).1 := measurable_fst.comp (measurable_pi_apply j)
  exact ((measurable_of_countable m).comp h1).prodMk (measurable_snd.comp (measurable_pi_apply j))

theorem prevCell_map (m : Int × Int → Int × Int) {n : Nat} (p : Int × Int) (q : Fin n → Int × Int) (j : Fin n) :
    prevCell (m p) (fun j => m (q j)) j = m (prevCell p q j) := by
  obtain ⟨j, hj⟩ := j
  cases j <;> rfl

/-- The cells of a possible path stay in a set that no move leaves. -/
theorem path_within {F : Fun ℝ Arith.exact} {W : Set (Int × Int)} (hW : ∀ p q, p ∈ W → Inside R C p → moveProb (flowOf F P) P p q ≠ 0 → q ∈ W)
    (hP : Enclosed Arith.exact F R C P) {n : Nat} {p : Int × Int} (hp : Inside R C p) (hpW : p ∈ W) {q : Fin n → Int × Int}
    (hq : ∏ j, moveProb (flowOf F P) P (prevCell p q j) (q j) ≠ 0) (j : Fin n) : prevCell p q j ∈ W := by
  have hne := fun j => prod_ne_zero_iff.1 hq j (mem_univ j)
  obtain ⟨j, hj⟩ := j
  induction j with
  | zero => exact hpW
  | succ j ih => exact hW _ _ (ih (by omega)) (path_cells hP hp hq ⟨j, by omega⟩).1 (hne ⟨j, by omega⟩)

theorem courseLaw_sym {F : Fun ℝ Arith.exact} {m : Int × Int → Int × Int} {W : Set (Int × Int)} (S : CourseSym F R C R' C' P P' m W)
    (hE : Enclosed Arith.exact F R C P) (hst : P.steepest = false)
    (hW : ∀ p q, p ∈ W → Inside R C p → moveProb (flowOf F P) P p q ≠ 0 → q ∈ W) (n : Nat) {p : Int × Int} (hp : Inside R C p) (hpW : p ∈ W) :
    courseLaw F P' n (m p) = (courseLaw F P n p).map (mirrorCourse m) := by
  have hmm := mirrorCourse_measurable m n
  have hinj : ∀ q q', m q = m q' → q = q' := fun q q' h => by rw [← S.invol q, h, S.invol]
  unfold courseLaw
  rw [Measure.map_sum hmm.aemeasurable]
  let e : (Fin n → Int × Int) ≃ (Fin n → Int × Int) := ⟨fun q j => m (q j), fun q j => m (q j), fun q => funext fun j => S.invol _, fun q => funext fun j => S.invol _⟩
  ext B hB
  rw [Measure.sum_apply _ hB, Measure.sum_apply _ hB, ← e.tsum_eq]
  refine tsum_congr fun q => ?_
  have hprod : ∏ j, moveProb (flowOf F P') P' (prevCell (m p) (e q) j) (e q j) = ∏ j, moveProb (flowOf F P) P (prevCell p q j) (q j) := by
    by_cases h0 : ∀ j, Inside R C (prevCell p q j)
    · refine prod_congr rfl fun j _ => ?_
      rw [show prevCell (m p) (e q) j = m (prevCell p q j) from prevCell_map m p q j]
      exact S.moves hst _ _ (h0 j)
    · push Not at h0
      obtain ⟨j, hj⟩ := h0
      rw [not_ne_iff.1 fun hne => hj (path_cells hE hp hne j).1]
      refine not_ne_iff.1 fun hne => hj ?_
      have := (path_cells S.enclosed ((S.inside p).2 hp) hne j).1
      rw [show prevCell (m p) (e q) j = m (prevCell p q j) from prevCell_map m p q j] at this
      exact (S.inside _).1 this
  rw [hprod]
  by_cases hz : ∏ j, moveProb (flowOf F P) P (prevCell p q j) (q j) = 0
  · rw [hz]
    simp
  rw [Measure.map_smul]
  congr 2
  have hmap : (Measure.pi fun j => (Measure.dirac (q j)).prod (durLaw P.diffCoeff (freeDur F P (prevCell p q j) (q j)))).map (mirrorCourse m) =
      Measure.pi fun j => ((Measure.dirac (q j)).prod (durLaw P.diffCoeff (freeDur F P (prevCell p q j) (q j)))).map (Prod.map m id) := by
    have hmb : Measurable (Prod.map m (id : ℝ → ℝ)) := (measurable_of_countable m).prodMap measurable_id
    have hsf : ∀ j, SigmaFinite (((Measure.dirac (q j)).prod (durLaw P.diffCoeff (freeDur F P (prevCell p q j) (q j)))).map (Prod.map m id)) := by
      intro j
      have := Measure.isProbabilityMeasure_map (μ := (Measure.dirac (q j)).prod (durLaw P.diffCoeff (freeDur F P (prevCell p q j) (q j)))) hmb.aemeasurable
      infer_instance
    exact Measure.pi_map_pi fun j => hmb.aemeasurable
  rw [hmap]
  congr 1
  funext j
  rw [← Measure.map_prod_map _ _ (measurable_of_countable m) measurable_id, Measure.map_dirac' (measurable_of_countable m), Measure.map_id, S.diff,
    show prevCell (m p) (e q) j = m (prevCell p q j) from prevCell_map m p q j,
    show e q j = m (q j) from rfl, S.dur _ _ (path_within hW hE hp hpW hz j) (path_cells hE hp hz j).1 (path_cells hE hp hz j).2]

end Dorado
