import Verif.Lemmas.Deal
import Verif.Lemmas.FlMeasure
import Verif.Lemmas.Delay
import Verif.Lemmas.Alone
import Mathlib.Data.Countable.Basic
import Mathlib.Logic.Equiv.List

/-! Helper lemmas: a particle as a machine fed with draws. -/

set_option linter.unusedSectionVars false

namespace Dorado

open MeasureTheory

/-- The discrete part of the state of one particle. -/
structure Disc where
  cells : List (Int × Int)
  pick : Nat
  on : Bool
  count : Int

/-- The discrete part as a tuple. -/
def Disc.tuple (d : Disc) : List (Int × Int) × Nat × Bool × Int := (d.cells, d.pick, d.on, d.count)

instance discCountable : Countable Disc := Function.Injective.countable (f := Disc.tuple) (by
  rintro ⟨a, b, c, d⟩ ⟨a', b', c', d'⟩ h
  simp only [Disc.tuple, Prod.mk.injEq] at h
  obtain ⟨rfl, rfl, rfl, rfl⟩ := h
  rfl)

instance discMeasurable : MeasurableSpace Disc := ⊤

/-- The state of one particle: discrete part, recorded times by position, estimated duration of the next step. -/
abbrev Mach := Disc × ((Nat → Fl ℝ) × Fl ℝ)

/-- The cell the particle is in. -/
def Disc.cur (d : Disc) : Int × Int := d.cells.getLastD (0, 0)

/-- The last recorded time. -/
def Mach.time (m : Mach) : Fl ℝ := m.2.1 (m.1.cells.length - 1)

noncomputable section

variable (A : Arith ℝ) (F : Fun ℝ A) (P : PObj ℝ)

/-- The neighbour chosen at the cell `p` with the draw `u`. -/
def pickOf (p : Int × Int) (u : ℝ) : Nat :=
  match pyIdx P.stage.rows p.1, pyIdx P.stage.cols p.2 with
  | .ok i, .ok j => (pickFrom A (maskOf P (makeWeight A F P i j)) u).toOption.getD 0
  | _, _ => 0

/-- The cell reached from `p` through the neighbour `k`. -/
def destOf (p : Int × Int) (k : Nat) : Int × Int :=
  match newInd1 P p k, stepUpdate A k P.distances P.dx with
  | .ok q0, .ok d => checkForBoundary1 (zeroDist q0 d) p P.cellType
  | _, _ => p

/-- The duration of the step from `p` through the neighbour `k` with the draw `v`. -/
def durOf (p : Int × Int) (k : Nat) (v : ℝ) : Fl ℝ :=
  match stepUpdate A k P.distances P.dx with
  | .ok d => match calcTravelTime A F P (fun _ => v) 0 k p (destOf A P p k) d with
    | .ok x => x.1
    | .error _ => .nan
  | .error _ => .nan

/-- The particle takes the step it has chosen. -/
def Mach.step (m : Mach) (v : ℝ) : Mach :=
  ({ m.1 with cells := m.1.cells ++ [destOf A P m.1.cur m.1.pick] },
    (Function.update m.2.1 m.1.cells.length (A.add m.time (durOf A F P m.1.cur m.1.pick v)), m.2.2))

/-- Whether the step chosen leads elsewhere. -/
def Disc.goes (d : Disc) : Prop := destOf A P d.cur d.pick ≠ d.cur

/-- Choice of a neighbour. -/
def pickOp : Op Mach where
  need _ := True
  draw m u := ({ m.1 with pick := pickOf A F P m.1.cur u }, m.2)
  skip m := m

open Classical in
/-- The step of a plain iteration. -/
def Mach.move (m : Mach) (v : ℝ) : Mach := if m.1.goes A P then m.step A F P v else m

/-- The step of a plain iteration as an operation. -/
def timeOp : Op Mach where
  need m := m.1.goes A P ∧ 0 < P.diffCoeff
  draw m v := m.move A F P v
  skip m := m.move A F P 0

/-- The estimate made at the beginning of a call with a target time. -/
def Mach.est0 (m : Mach) : Fl ℝ :=
  if 2 ≤ m.1.cells.length then A.sub (m.2.1 (m.1.cells.length - 1)) (m.2.1 (m.1.cells.length - 2)) else .fin (A.rnd (1 / 10))

/-- The beginning of a call with a target time. -/
def startOp : Op Mach where
  need _ := False
  draw m _ := m
  skip m := ({ m.1 with on := !(edgeInWindow P.cellType m.1.cur.1 m.1.cur.2), count := 1 }, (m.2.1, m.est0 A))

/-- Whether the next step brings the particle closer to the target. -/
def Mach.closer (target : Fl ℝ) (m : Mach) : Prop :=
  Fl.le (Fl.abs (A.sub (A.add m.time m.2.2) target)) (Fl.abs (A.sub m.time target)) = true

/-- Test of the loop and choice of a neighbour. -/
def loopPick (target : Fl ℝ) : Op Mach where
  need m := m.1.on = true ∧ m.closer A target
  draw m u := ({ m.1 with pick := pickOf A F P m.1.cur u }, m.2)
  skip m := ({ m.1 with on := false }, m.2)

open Classical in
/-- The step of the loop. -/
def Mach.advance (maxIter : Int) (m : Mach) (v : ℝ) : Mach :=
  if m.1.on = true then
    if m.1.goes A P then
      let m' := m.step A F P v
      ({ m'.1 with on := !(decide (m.1.count + 1 > maxIter)), count := m.1.count + 1 },
        (m'.2.1, Fl.pyMax (.fin (A.rnd (1 / 10))) (A.sub m'.time m.time)))
    else ({ m.1 with on := false }, m.2)
  else m

/-- The step of the loop as an operation. -/
def loopTime (maxIter : Int) : Op Mach where
  need m := m.1.on = true ∧ m.1.goes A P ∧ 0 < P.diffCoeff
  draw m v := m.advance A F P maxIter v
  skip m := m.advance A F P maxIter 0

/-- The operations of one particle in a call with a target time. -/
def targetOps (target : Fl ℝ) (maxIter : Int) : List (Op Mach) :=
  startOp A P :: (List.replicate (maxIter.toNat + 1) [loopPick A F P target, loopTime A F P maxIter]).flatten

/-- The operations of one call, for particles listed in `l`. -/
def callOps {ι : Type} (l : List ι) : Option (Fl ℝ) × Int → List (ι × Op Mach)
  | (none, _) => l.map (fun i => (i, pickOp A F P)) ++ l.map (fun i => (i, timeOp A F P))
  | (some target, maxIter) => l.flatMap fun i => (targetOps A F P target maxIter).map fun o => (i, o)

/-! ## Measurability -/

variable {A F P}

theorem measurable_disc {β : Type} [MeasurableSpace β] {f : Mach → β} (h : ∀ d, Measurable fun c => f (d, c)) : Measurable f :=
  measurable_from_prod_countable_right h

theorem measurable_disc2 {β : Type} [MeasurableSpace β] {f : Mach × ℝ → β} (h : ∀ d, Measurable fun c : ((Nat → Fl ℝ) × Fl ℝ) × ℝ => f ((d, c.1), c.2)) :
    Measurable f := by
  have : Measurable fun q : Disc × (((Nat → Fl ℝ) × Fl ℝ) × ℝ) => f ((q.1, q.2.1), q.2.2) := measurable_from_prod_countable_right h
  exact this.comp ((measurable_fst.comp measurable_fst).prodMk ((measurable_snd.comp measurable_fst).prodMk measurable_snd))

theorem bsearch_measurable {b : Nat → ℝ → Bool} (h : ∀ k, MeasurableSet {r | b k r = true}) (fuel lo hi : Nat) :
    Measurable fun r => bsearch (fun k => b k r) fuel lo hi := by
  induction fuel generalizing lo hi with
  | zero => exact measurable_const
  | succ n ih =>
    simp only [bsearch]
    by_cases hl : lo < hi
    · simp only [if_pos hl]
      exact Measurable.ite (h _) (ih _ _) (ih _ _)
    · simp only [if_neg hl]
      exact measurable_const

theorem pickFrom_measurable (w : Nat → Fl ℝ) : Measurable fun u => (pickFrom A w u).toOption.getD 0 := by
  unfold pickFrom uniform0
  cases cumsum A w 8 with
  | fin x =>
    simp only [ok_bind, pure_def, Except.toOption, Option.getD_some]
    refine bsearch_measurable (fun k => ?_) _ _ _
    have hm : Measurable fun r => (Fl.fin (A.rnd (x * r)) : Fl ℝ) := measurable_fin.comp (measurable_rnd.comp (by fun_prop))
    have : {r : ℝ | Fl.npLt (cumsum A w k) (Fl.fin (A.rnd (x * r))) = true} = {r | Fl.lt (cumsum A w k) (Fl.fin (A.rnd (x * r))) = true} := by
      ext r
      simp [Fl.npLt, Fl.isNan]
    rw [this]
    exact measurableSet_flLt measurable_const hm
  | _ => exact measurable_const

theorem pickOf_measurable (p : Int × Int) : Measurable (pickOf A F P p) := by
  unfold pickOf
  split
  · exact pickFrom_measurable _
  · exact measurable_const

theorem durOf_measurable (p : Int × Int) (k : Nat) : Measurable (durOf A F P p k) := by
  unfold durOf
  cases stepUpdate A k P.distances P.dx with
  | error e => exact measurable_const
  | ok d =>
    simp only
    unfold calcTravelTime
    by_cases hne : p ≠ destOf A P p k
    · simp only [if_pos hne]
      cases P.velocity.get p.1 p.2 with
      | error e => exact measurable_const
      | ok v1 =>
      cases P.velocity.get (destOf A P p k).1 (destOf A P p k).2 with
      | error e => exact measurable_const
      | ok v2 =>
      cases flat9 P.angles k with
      | error e => exact measurable_const
      | ok ang =>
      cases P.velocityAngle.get p.1 p.2 with
      | error e => exact measurable_const
      | ok va =>
      simp only [ok_bind]
      cases mathCos A F (A.sub ang va) with
      | error e => exact measurable_const
      | ok c =>
      simp only [ok_bind, pure_def]
      refine Measurable.flMul measurable_const (Measurable.flAdd measurable_const ?_)
      by_cases hd : 0 < P.diffCoeff
      · simp only [if_pos hd]
        exact Measurable.flMul (Measurable.flSub measurable_const measurable_fin) measurable_const
      · simp only [if_neg hd]
        exact measurable_const
    · simp only [if_neg hne]
      exact measurable_const

theorem time_measurable (d : Disc) : Measurable fun c : (Nat → Fl ℝ) × Fl ℝ => Mach.time (d, c) :=
  (measurable_pi_apply (d.cells.length - 1)).comp measurable_fst

theorem pickDraw_measurable : Measurable fun p : Mach × ℝ => (({ p.1.1 with pick := pickOf A F P p.1.1.cur p.2 }, p.1.2) : Mach) := by
  refine measurable_disc2 fun d => ?_
  have h : Measurable fun k : Nat => ({ d with pick := k } : Disc) := measurable_from_top
  exact (h.comp ((pickOf_measurable d.cur).comp measurable_snd)).prodMk measurable_fst

theorem step_measurable (d : Disc) : Measurable fun c : ((Nat → Fl ℝ) × Fl ℝ) × ℝ => Mach.step A F P (d, c.1) c.2 := by
  unfold Mach.step
  refine Measurable.prodMk (f := fun _ => ({ d with cells := d.cells ++ [destOf A P d.cur d.pick] } : Disc)) measurable_const
    (Measurable.prodMk ?_ (measurable_snd.comp measurable_fst))
  rw [measurable_pi_iff]
  intro n
  by_cases hn : n = d.cells.length
  · subst hn
    simp only [Function.update_self]
    exact Measurable.flAdd ((time_measurable d).comp measurable_fst) ((durOf_measurable _ _).comp measurable_snd)
  · simp only [Function.update_of_ne hn]
    exact (measurable_pi_apply n).comp (measurable_fst.comp measurable_fst)

theorem move_measurable : Measurable fun p : Mach × ℝ => p.1.move A F P p.2 := by
  refine measurable_disc2 fun d => ?_
  unfold Mach.move
  by_cases h : d.goes A P
  · simp only [if_pos h]
    exact step_measurable d
  · simp only [if_neg h]
    exact measurable_const.prodMk measurable_fst

theorem measurableSet_disc (s : Disc → Prop) : MeasurableSet {m : Mach | s m.1} := measurable_fst (MeasurableSpace.measurableSet_top (s := {d | s d}))

theorem pickOp_meas : (pickOp A F P).Meas := ⟨MeasurableSet.univ, pickDraw_measurable, measurable_id⟩

theorem timeOp_meas : (timeOp A F P).Meas :=
  ⟨measurableSet_disc fun d => d.goes A P ∧ 0 < P.diffCoeff, move_measurable, move_measurable.comp (measurable_id.prodMk measurable_const)⟩

theorem est0_measurable (d : Disc) : Measurable fun c : (Nat → Fl ℝ) × Fl ℝ => Mach.est0 A (d, c) := by
  unfold Mach.est0
  by_cases h : 2 ≤ d.cells.length
  · simp only [if_pos h]
    exact Measurable.flSub ((measurable_pi_apply _).comp measurable_fst) ((measurable_pi_apply _).comp measurable_fst)
  · simp only [if_neg h]
    exact measurable_const

theorem startOp_meas : (startOp A P).Meas :=
  ⟨MeasurableSet.empty, measurable_fst, measurable_disc fun d =>
    Measurable.prodMk (f := fun _ => ({ d with on := !(edgeInWindow P.cellType d.cur.1 d.cur.2), count := 1 } : Disc)) measurable_const
      (measurable_fst.prodMk (est0_measurable d))⟩

theorem closer_measurable {target : Fl ℝ} (d : Disc) : MeasurableSet {c : (Nat → Fl ℝ) × Fl ℝ | Mach.closer A target (d, c)} :=
  measurableSet_flLe
    (Measurable.flAbs (Measurable.flSub (Measurable.flAdd (time_measurable d) measurable_snd) measurable_const))
    (Measurable.flAbs (Measurable.flSub (time_measurable d) measurable_const))

theorem loopPick_meas {target : Fl ℝ} : (loopPick A F P target).Meas := by
  refine ⟨?_, pickDraw_measurable, measurable_disc fun d =>
    Measurable.prodMk (f := fun _ => ({ d with on := false } : Disc)) measurable_const measurable_id⟩
  refine measurableSet_setOfPred.2 (measurable_disc fun d => measurableSet_setOfPred.1 ?_)
  exact (MeasurableSet.const (d.on = true)).inter (closer_measurable (A := A) (target := target) d)

theorem advance_measurable {maxIter : Int} : Measurable fun p : Mach × ℝ => p.1.advance A F P maxIter p.2 := by
  refine measurable_disc2 fun d => ?_
  unfold Mach.advance
  by_cases ho : d.on = true
  · simp only [if_pos ho]
    by_cases h : d.goes A P
    · simp only [if_pos h]
      have hs := step_measurable (A := A) (F := F) (P := P) d
      refine Measurable.prodMk ?_ (Measurable.prodMk (measurable_fst.comp (measurable_snd.comp hs)) ?_)
      · exact (measurable_const : Measurable fun _ : ((Nat → Fl ℝ) × Fl ℝ) × ℝ =>
          (⟨d.cells ++ [destOf A P d.cur d.pick], d.pick, !(decide (d.count + 1 > maxIter)), d.count + 1⟩ : Disc))
      · refine Measurable.flMax measurable_const (Measurable.flSub ?_ ((time_measurable d).comp measurable_fst))
        exact (measurable_disc fun d' => time_measurable d').comp hs
    · simp only [if_neg h]
      exact measurable_const.prodMk measurable_fst
  · simp only [if_neg ho]
    exact measurable_const.prodMk measurable_fst

theorem loopTime_meas {maxIter : Int} : (loopTime A F P maxIter).Meas :=
  ⟨measurableSet_disc fun d => d.on = true ∧ d.goes A P ∧ 0 < P.diffCoeff, advance_measurable, advance_measurable.comp (measurable_id.prodMk measurable_const)⟩

theorem callOps_meas {ι : Type} (l : List ι) (c : Option (Fl ℝ) × Int) : ∀ io ∈ callOps A F P l c, io.2.Meas := by
  intro io hio
  obtain ⟨_ | target, maxIter⟩ := c
  · simp only [callOps, List.mem_append, List.mem_map] at hio
    rcases hio with ⟨i, -, rfl⟩ | ⟨i, -, rfl⟩
    · exact pickOp_meas
    · exact timeOp_meas
  · simp only [callOps, List.mem_flatMap, List.mem_map, targetOps, List.mem_cons, List.mem_flatten, List.mem_replicate] at hio
    obtain ⟨i, -, o, rfl | ⟨l', ⟨-, rfl⟩, ho⟩, rfl⟩ := hio
    · exact startOp_meas
    · simp only [List.mem_cons, List.not_mem_nil, or_false] at ho
      rcases ho with rfl | rfl
      · exact loopPick_meas
      · exact loopTime_meas

end

end Dorado
