import Verif.Props.Ensemble
import Verif.Props.SeededCourse

/-! Helper lemmas: random seeding as dealing draws to the machines of the particles. -/

set_option linter.unusedSectionVars false

namespace Dorado

open MeasureTheory

noncomputable section

variable {A : Arith ℝ} {F : Fun ℝ A} {P : PObj ℝ}

/-- The coordinate chosen from the list `l` with the draw `u`. -/
def seedOf (A : Arith ℝ) (l : List Int) (u : ℝ) : Int := (randomPickSeed A l u).toOption.getD 0

theorem seedOf_measurable (l : List Int) : Measurable (seedOf A l) := by
  unfold seedOf randomPickSeed
  cases hl : l.length with
  | zero => exact measurable_const
  | succ n =>
    simp only [uniform0, ok_bind]
    have hm : Measurable fun r => (Fl.fin (A.rnd (((n + 1 : Nat) : ℝ) * r)) : Fl ℝ) := measurable_fin.comp (measurable_rnd.comp (by fun_prop))
    have hb : Measurable fun r => searchSorted (fun k => Fl.npLt (.fin ((k + 1 : Nat) : ℝ)) (Fl.fin (A.rnd (((n + 1 : Nat) : ℝ) * r)))) (n + 1) := by
      unfold searchSorted
      refine bsearch_measurable (b := fun k r => Fl.npLt (.fin ((k + 1 : Nat) : ℝ)) (Fl.fin (A.rnd (((n + 1 : Nat) : ℝ) * r)))) (fun k => ?_) _ _ _
      have : {r : ℝ | Fl.npLt (.fin ((k + 1 : Nat) : ℝ)) (Fl.fin (A.rnd (((n + 1 : Nat) : ℝ) * r))) = true} =
          {r | Fl.lt (.fin ((k + 1 : Nat) : ℝ)) (Fl.fin (A.rnd (((n + 1 : Nat) : ℝ) * r))) = true} := by
        ext r
        simp [Fl.npLt, Fl.isNan]
      rw [this]
      exact measurableSet_flLt measurable_const hm
    exact (measurable_from_top (f := fun k : Nat => ((listGet l k).toOption.getD 0 : Int))).comp hb

/-- A particle that has not been placed; `t` is its seed time. -/
def unplaced (t : Fl ℝ) : Mach := (⟨[], 0, false, 0⟩, (fun _ => t, .nan))

/-- Choice of the row of the start (particle_track.py:531). -/
def rowOp (A : Arith ℝ) (xs : List Int) : Op Mach where
  need _ := True
  draw m u := ({ m.1 with cells := [(seedOf A xs u, 0)] }, m.2)
  skip m := m

/-- Choice of the column of the start (particle_track.py:533). -/
def colOp (A : Arith ℝ) (ys : List Int) : Op Mach where
  need _ := True
  draw m u := ({ m.1 with cells := m.1.cells.map fun p => (p.1, seedOf A ys u) }, m.2)
  skip m := m

/-- Random seeding of the particles in a list (particle_track.py:530-534): first all rows, then all columns. -/
def seedOps {ι : Type} (A : Arith ℝ) (xs ys : List Int) (l : List ι) : List (ι × Op Mach) :=
  (l.map fun i => (i, rowOp A xs)) ++ l.map fun i => (i, colOp A ys)

theorem rowOp_meas {xs : List Int} : (rowOp A xs).Meas := by
  refine ⟨MeasurableSet.univ, measurable_disc2 fun d => ?_, measurable_id⟩
  refine Measurable.prodMk ?_ measurable_fst
  exact (measurable_from_top (f := fun z : Int => ({ d with cells := [(z, 0)] } : Disc))).comp ((seedOf_measurable xs).comp measurable_snd)

theorem colOp_meas {ys : List Int} : (colOp A ys).Meas := by
  refine ⟨MeasurableSet.univ, measurable_disc2 fun d => ?_, measurable_id⟩
  refine Measurable.prodMk ?_ measurable_fst
  exact (measurable_from_top (f := fun z : Int => ({ d with cells := d.cells.map fun p => (p.1, z) } : Disc))).comp
    ((seedOf_measurable ys).comp measurable_snd)

theorem seedOps_meas {ι : Type} {xs ys : List Int} (l : List ι) : ∀ io ∈ seedOps A xs ys l, io.2.Meas := by
  intro io hio
  unfold seedOps at hio
  rw [List.mem_append] at hio
  rcases hio with hio | hio
  · obtain ⟨i, -, rfl⟩ := List.mem_map.1 hio
    exact rowOp_meas
  · obtain ⟨i, -, rfl⟩ := List.mem_map.1 hio
    exact colOp_meas

theorem opsOf_seed {N : Nat} {xs ys : List Int} (i : Fin N) : opsOf i (seedOps A xs ys (List.finRange N)) = seedOps A xs ys [()] := by
  have hi : i ∈ List.finRange N := List.mem_finRange i
  unfold seedOps
  rw [opsOf_append, opsOf_common (List.nodup_finRange N) _ hi, opsOf_common (List.nodup_finRange N) _ hi]
  rfl

/-- The particles after random seeding. -/
theorem seed_deal (ω : Nat → ℝ) {N : Nat} (xs ys : List Int) (t : Fl ℝ) (pos : Nat) :
    (deal ω (seedOps A xs ys (List.finRange N)) (fun _ => unplaced t, pos)).2 = pos + N + N ∧
    ∀ i : Fin N, (deal ω (seedOps A xs ys (List.finRange N)) (fun _ => unplaced t, pos)).1 i =
      (⟨[(seedOf A xs (ω (pos + i)), seedOf A ys (ω (pos + N + i)))], 0, false, 0⟩, (fun _ => t, .nan)) := by
  classical
  unfold seedOps
  rw [deal_append]
  obtain ⟨d1, d2⟩ := deal_common ω (rowOp A xs) (List.nodup_finRange N) (fun _ => unplaced t) pos
  have hall : ∀ (o : Op Mach) (st : Fin N → Mach) (_ : ∀ m, o.need m) (l : List (Fin N)), l.countP (fun j => decide (o.need (st j))) = l.length := by
    intro o st ho l
    rw [List.countP_eq_length]
    intro j _
    exact decide_eq_true (ho _)
  rw [hall _ _ (fun _ => trivial), List.length_finRange] at d1
  set st1 := (deal ω ((List.finRange N).map fun i => (i, rowOp A xs)) (fun _ => unplaced t, pos)).1 with hst1
  have e1 : deal ω ((List.finRange N).map fun i => (i, rowOp A xs)) (fun _ => unplaced t, pos) = (st1, pos + N) := by rw [← d1]
  rw [e1]
  obtain ⟨f1, f2⟩ := deal_common ω (colOp A ys) (List.nodup_finRange N) st1 (pos + N)
  rw [hall _ _ (fun _ => trivial), List.length_finRange] at f1
  refine ⟨f1, fun i => ?_⟩
  have g1 := d2 i.val i (by simp)
  have g2 := f2 i.val i (by simp)
  rw [hall _ _ (fun _ => trivial), List.length_take, List.length_finRange, min_eq_left i.isLt.le] at g1 g2
  rw [g2, ← hst1] at *
  rw [g1]
  simp [Op.act, rowOp, colOp, unplaced]

theorem pickSeed_mem {l : List Int} {r : ℝ} {a : Int} (h : randomPickSeed A l r = .ok a) : a ∈ l := by
  unfold randomPickSeed at h
  split at h
  · cases h
  · simp only [bind_ok] at h
    obtain ⟨_, _, h⟩ := h
    rw [listGet_ok] at h
    exact List.mem_of_getElem? h

/-- Random seeding in an object without particles. -/
theorem generate_feed {N : Nat} {ω : Nat → ℝ} {s s1 : PState ℝ} {xs ys : List Int} {t : Fl ℝ} (hw : s.walk = none)
    (hwt : PickEquiv A F P s.world.weight) (hin : ∀ x ∈ xs, ∀ y ∈ ys, Inside P.depth.rows P.depth.cols (x, y))
    (h : generateParticles A P ω s (.int N) (ints xs) (ints ys) (.flt t) (.str "random") none = .ok s1) :
    ∃ rows, Sound A F P s1 rows ∧ Matches rows (deal ω (seedOps A xs ys (List.finRange N)) (fun _ => unplaced t, s.world.pos)).1 ∧
      s1.world.pos = (deal ω (seedOps A xs ys (List.finRange N)) (fun _ => unplaced t, s.world.pos)).2 := by
  have hc := check_ints (K := ℝ) N xs ys t "random"
  rw [if_pos rfl] at hc
  obtain ⟨rows, hrows, hwt', hlen, sx, sy, pos', hst, hnew⟩ := generate_rows A hc (by positivity) (Or.inl ⟨hw, rfl⟩) (Or.inl ⟨rfl, rfl⟩) h
  obtain ⟨d1, d2⟩ := seed_deal (A := A) ω (N := N) xs ys t s.world.pos
  have hpos := generate_pos h
  have hlen : rows.length = N := by simpa using hlen
  simp only [List.nil_append] at hrows
  simp only [startIndices, Int.toNat_natCast, bind_ok, pure_ok, Prod.exists, Prod.mk.injEq] at hst
  obtain ⟨sx', p1, hx, sy', p2, hy, rfl, rfl, rfl⟩ := hst
  obtain ⟨rfl, hx1⟩ := randomSeeds_get hx
  obtain ⟨rfl, hy1⟩ := randomSeeds_get hy
  have hrow : ∀ (i : Nat) r, rows[i]? = some r → i < N ∧ ∃ a b, randomPickSeed A xs (ω (s.world.pos + i)) = .ok a ∧
      randomPickSeed A ys (ω (s.world.pos + N + i)) = .ok b ∧ SeedRow P (a, b) t r := by
    intro i r hr
    have hi : i < N := by rw [← hlen]; exact (List.getElem?_eq_some_iff.1 hr).1
    obtain ⟨a, b, ha, hb, hsr⟩ := hnew i r hr
    obtain ⟨a', ha', ea⟩ := hx1 i hi
    obtain ⟨b', hb', eb⟩ := hy1 i hi
    rw [ha] at ha'; cases ha'
    rw [hb] at hb'; cases hb'
    exact ⟨hi, a, b, ea, eb, hsr⟩
  refine ⟨rows, ⟨by rw [hwt']; exact hwt, hrows, fun r hr => ?_⟩, ⟨hlen, fun i r hr => ?_⟩, by rw [hpos, d1]⟩
  · obtain ⟨i, hi⟩ := List.getElem?_of_mem hr
    obtain ⟨-, a, b, ha, hb, hsr⟩ := hrow i r hi
    refine ⟨seedRow_vars (fun _ _ _ _ => trivial) hsr, fun p hp => ?_⟩
    have e : p = (a, b) := Row.lastPos_unique hp (by unfold Row.lastPos; rw [hsr.1, hsr.2.1]; exact ⟨rfl, rfl⟩)
    rw [e]
    exact hin a (pickSeed_mem ha) b (pickSeed_mem hb)
  · obtain ⟨-, a, b, ha, hb, hsr⟩ := hrow i r hr
    rw [d2 i]
    have ea : seedOf A xs (ω (s.world.pos + i)) = a := by unfold seedOf; rw [ha]; rfl
    have eb : seedOf A ys (ω (s.world.pos + N + i)) = b := by unfold seedOf; rw [hb]; rfl
    rw [ea, eb]
    exact ⟨hsr.1, hsr.2.1, hsr.2.2.1, by simp⟩

/-- The histories of machines that do the same are independent samples of one law. -/
theorem deal_law {N : Nat} {L : List (Fin N × Op Mach)} (hL : ∀ io ∈ L, io.2.Meas) {U : List (Unit × Op Mach)} (hU : ∀ i, opsOf i L = U) (m : Mach) :
    uniformDraws.map (fun ω (i : Fin N) => ((deal ω L (fun _ => m, 0)).1 i).history) =
      Measure.pi fun _ : Fin N => uniformDraws.map fun ω => ((deal ω U (fun _ => m, 0)).1 ()).history := by
  have hg : ∀ i : Fin N, Measurable fun (ω : Nat → ℝ) => ((deal ω L (fun _ => m, 0)).1 i).history := fun i =>
    Mach.history_measurable.comp ((measurable_pi_apply i).comp ((deal_measurable hL 0).comp (measurable_const.prodMk measurable_id)))
  rcases Nat.eq_zero_or_pos N with rfl | hN
  · rw [Measure.pi_of_empty]
    refine (Measure.ext fun B hB => ?_)
    rw [Measure.map_apply (measurable_pi_iff.2 hg) hB, Measure.dirac_apply' _ hB]
    by_cases h0 : (fun a => isEmptyElim a) ∈ B
    · have : (fun ω (i : Fin 0) => ((deal ω L (fun _ => m, 0)).1 i).history) ⁻¹' B = Set.univ := by
        ext ω
        simp only [Set.mem_preimage, Set.mem_univ, iff_true]
        convert h0
      rw [this]
      simp [h0]
    · have : (fun ω (i : Fin 0) => ((deal ω L (fun _ => m, 0)).1 i).history) ⁻¹' B = ∅ := by
        ext ω
        simp only [Set.mem_preimage, Set.mem_empty_iff_false, iff_false]
        intro h1
        apply h0
        convert h1
      rw [this]
      simp [h0]
  have hUm : ∀ io ∈ U, io.2.Meas := by
    intro io hio
    rw [← hU ⟨0, hN⟩] at hio
    obtain ⟨o, ho, rfl⟩ := List.mem_map.1 hio
    exact hL o (List.mem_filter.1 ho).1
  have hu : Measurable fun (ω : Nat → ℝ) => ((deal ω U (fun _ => m, 0)).1 ()).history :=
    Mach.history_measurable.comp ((measurable_pi_apply ()).comp ((deal_measurable hUm 0).comp (measurable_const.prodMk measurable_id)))
  have hpr : IsProbabilityMeasure (uniformDraws.map fun ω => ((deal ω U (fun _ => m, 0)).1 ()).history) :=
    Measure.isProbabilityMeasure_map hu.aemeasurable
  symm
  refine Measure.pi_eq fun S hS => ?_
  rw [Measure.map_apply (measurable_pi_iff.2 hg) (MeasurableSet.univ_pi hS)]
  have e1 : (fun ω (i : Fin N) => ((deal ω L (fun _ => m, 0)).1 i).history) ⁻¹' Set.univ.pi S =
      {ω | ∀ i : Fin N, (deal ω L (fun _ => m, 0)).1 i ∈ Mach.history ⁻¹' S i} := by
    ext ω
    simp only [Set.mem_preimage, Set.mem_pi, Set.mem_univ, true_imp_iff, Set.mem_ofPred_eq]
  rw [e1, deal_independent hL (fun _ => m) fun i => Mach.history_measurable (hS i)]
  refine Finset.prod_congr rfl fun i _ => ?_
  rw [Measure.map_apply hu (hS i), hU i]
  rfl

end

end Dorado
