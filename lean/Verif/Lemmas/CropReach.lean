import Verif.Lemmas.CropRun
import Verif.Lemmas.Ensemble

/-! Helper lemmas for C112: how far particles get in a number of calls; measurable operations on histories. -/

set_option linter.unusedSectionVars false

namespace Dorado

noncomputable section

variable {A : Arith ℝ} {F : Fun ℝ A} {P : PObj ℝ}

theorem destOf_near (hw : DefaultWalk P) (hz : StepsNonzero A P) (q : Int × Int) (k : Nat) :
    |(destOf A P q k).1 - q.1| ≤ 1 ∧ |(destOf A P q k).2 - q.2| ≤ 1 := by
  unfold destOf newInd1 calculateNewInd
  rw [hw.1, hw.2]
  by_cases hk : k < 9
  · have hs : stepUpdate A k P.distances P.dx = .ok (A.mul (P.distances k) (.fin P.dx)) := by simp [stepUpdate, flat9, hk]
    have hzd : ∀ x, zeroDist x (A.mul (P.distances k) (.fin P.dx)) = x := by
      intro x
      unfold zeroDist
      rw [if_neg]
      intro he
      have := hz k hk
      revert he this
      cases A.mul (P.distances k) (.fin P.dx) <;> simp [Fl.eq]
    rw [hs]
    have hnew : ∀ x : Int × Int, (if k ≠ 4 then (do
        let dj ← flat9 defaultJwalk k
        let di ← flat9 defaultIwalk k
        return (x.1 + dj, x.2 + di)) else .ok x : Except PyErr (Int × Int)) = .ok (x.1 + defaultJwalk k, x.2 + defaultIwalk k) := by
      intro x
      by_cases h4 : k = 4
      · subst h4; simp [defaultJwalk, defaultIwalk]
      · simp [h4, flat9, hk]
    rw [hnew]
    simp only [hzd]
    have hb : defaultJwalk k = -1 ∨ defaultJwalk k = 0 ∨ defaultJwalk k = 1 := by unfold defaultJwalk; split_ifs <;> simp
    have hb' : defaultIwalk k = -1 ∨ defaultIwalk k = 0 ∨ defaultIwalk k = 1 := by unfold defaultIwalk; split_ifs <;> simp
    unfold checkForBoundary1
    split
    · simp
    · simp only [abs_le]
      omega
  · have hs : stepUpdate A k P.distances P.dx = .error .indexError := by simp [stepUpdate, flat9, hk]
    rw [hs]
    generalize (if k ≠ 4 then _ else _ : Except PyErr (Int × Int)) = e1
    cases e1 <;> simp

/-- An action that records nothing. -/
def Op.Quiet (o : Op Mach) : Prop := ∀ m x, o.out m x → x.1.cells = m.1.cells

/-- An action that records nothing or one cell next to the current one. -/
def Op.Near (o : Op Mach) : Prop := ∀ m x, o.out m x → x.1.cells = m.1.cells ∨
  ∃ q, x.1.cells = m.1.cells ++ [q] ∧ |q.1 - m.1.cur.1| ≤ 1 ∧ |q.2 - m.1.cur.2| ≤ 1

/-- Particle `i` records at most `n` cells. -/
inductive Costs {ι : Type} (i : ι) : List (ι × Op Mach) → Nat → Prop
  | nil : Costs i [] 0
  | other {a L n} (h : a.1 ≠ i ∨ a.2.Quiet) (hL : Costs i L n) : Costs i (a :: L) n
  | near {a L n} (h : a.2.Near) (hL : Costs i L n) : Costs i (a :: L) (n + 1)

theorem Costs.append {ι : Type} {i : ι} {L L' : List (ι × Op Mach)} {n n' : Nat} (h : Costs i L n) (h' : Costs i L' n') :
    Costs i (L ++ L') (n + n') := by
  induction h with
  | nil => simpa using h'
  | other h _ ih => exact .other h ih
  | near h _ ih =>
    rename_i n _
    have : n + 1 + n' = n + n' + 1 := by omega
    rw [this]
    exact .near h ih

theorem pickOp_quiet : (pickOp A F P).Quiet := by rintro m x (rfl | ⟨u, rfl⟩) <;> rfl

theorem startOp_quiet : (startOp A P).Quiet := by rintro m x (rfl | ⟨u, rfl⟩) <;> rfl

theorem loopPick_quiet (target : Fl ℝ) : (loopPick A F P target).Quiet := by rintro m x (rfl | ⟨u, rfl⟩) <;> rfl

theorem timeOp_near (hw : DefaultWalk P) (hz : StepsNonzero A P) : (timeOp A F P).Near := by
  have : ∀ (m : Mach) v, (m.move A F P v).1.cells = m.1.cells ∨
      ∃ q, (m.move A F P v).1.cells = m.1.cells ++ [q] ∧ |q.1 - m.1.cur.1| ≤ 1 ∧ |q.2 - m.1.cur.2| ≤ 1 := by
    intro m v
    unfold Mach.move
    split
    · exact Or.inr ⟨_, rfl, destOf_near hw hz _ _⟩
    · exact Or.inl rfl
  rintro m x (rfl | ⟨u, rfl⟩) <;> exact this m _

theorem loopTime_near (hw : DefaultWalk P) (hz : StepsNonzero A P) (maxIter : Int) : (loopTime A F P maxIter).Near := by
  have : ∀ (m : Mach) v, (m.advance A F P maxIter v).1.cells = m.1.cells ∨
      ∃ q, (m.advance A F P maxIter v).1.cells = m.1.cells ++ [q] ∧ |q.1 - m.1.cur.1| ≤ 1 ∧ |q.2 - m.1.cur.2| ≤ 1 := by
    intro m v
    unfold Mach.advance
    split
    · split
      · exact Or.inr ⟨_, rfl, destOf_near hw hz _ _⟩
      · exact Or.inl rfl
    · exact Or.inl rfl
  rintro m x (rfl | ⟨u, rfl⟩) <;> exact this m _

theorem costs_other {ι : Type} {i : ι} {L : List (ι × Op Mach)} (h : ∀ a ∈ L, a.1 ≠ i ∨ a.2.Quiet) : Costs i L 0 := by
  induction L with
  | nil => exact .nil
  | cons a L ih => exact .other (h a (by simp)) (ih fun b hb => h b (by simp [hb]))

/-- Actions dealt to each of different particles. -/
theorem costs_each {ι : Type} {l : List ι} (hl : l.Nodup) (i : ι) {ops : ι → List (ι × Op Mach)} {n : Nat} (hi : Costs i (ops i) n)
    (ho : ∀ j, j ≠ i → ∀ a ∈ ops j, a.1 ≠ i) : ∃ m ≤ n, Costs i (l.flatMap ops) m := by
  induction l with
  | nil => exact ⟨0, by omega, .nil⟩
  | cons j l ih =>
    rw [List.nodup_cons] at hl
    rw [List.flatMap_cons]
    by_cases hj : j = i
    · subst hj
      refine ⟨n + 0, by omega, hi.append (costs_other fun a ha => ?_)⟩
      obtain ⟨k, hk, ha⟩ := List.mem_flatMap.1 ha
      exact Or.inl (ho k (fun e => hl.1 (e ▸ hk)) a ha)
    · obtain ⟨m, hm, h⟩ := ih hl.2
      refine ⟨0 + m, by omega, (costs_other fun a ha => Or.inl (ho j hj a ha)).append h⟩

theorem callOps_costs (hw : DefaultWalk P) (hz : StepsNonzero A P) {N : Nat} (i : Fin N) (x : Option (Fl ℝ) × Int) :
    ∃ m ≤ maxMoves x, Costs i (callOps A F P (List.finRange N) x) m := by
  obtain ⟨_ | target, maxIter⟩ := x
  · have h1 : Costs i ((List.finRange N).map fun j => (j, pickOp A F P)) 0 := costs_other fun a ha => by
      obtain ⟨j, -, rfl⟩ := List.mem_map.1 ha
      exact Or.inr pickOp_quiet
    obtain ⟨m, hm, h2⟩ := costs_each (List.nodup_finRange N) i (ops := fun j => [(j, timeOp A F P)]) (n := 1) (.near (timeOp_near hw hz) .nil)
      (by simp)
    rw [← List.map_eq_flatMap] at h2
    exact ⟨0 + m, by simpa [maxMoves] using hm, h1.append h2⟩
  · refine costs_each (List.nodup_finRange N) i (ops := fun j => (targetOps A F P target maxIter).map fun o => (j, o)) ?_ ?_
    · show Costs i _ (maxIter.toNat + 1)
      unfold targetOps
      rw [List.map_cons]
      refine .other (Or.inr startOp_quiet) ?_
      generalize maxIter.toNat + 1 = n
      induction n with
      | zero => exact .nil
      | succ n ih => exact .other (Or.inr (loopPick_quiet target)) (.near (loopTime_near hw hz maxIter) ih)
    · intro j hj a ha
      obtain ⟨o, -, rfl⟩ := List.mem_map.1 ha
      exact hj

theorem callsOps_costs (hw : DefaultWalk P) (hz : StepsNonzero A P) {N : Nat} (i : Fin N) (calls : List (Option (Fl ℝ) × Int)) :
    ∃ m ≤ (calls.map maxMoves).sum, Costs i (callsOps A F P N calls) m := by
  induction calls with
  | nil => exact ⟨0, by simp, .nil⟩
  | cons x calls ih =>
    have : callsOps A F P N (x :: calls) = callOps A F P (List.finRange N) x ++ callsOps A F P N calls := by simp [callsOps]
    rw [this]
    obtain ⟨m, hm, h⟩ := ih
    obtain ⟨m', hm', h'⟩ := callOps_costs (F := F) hw hz i x
    exact ⟨m' + m, by simp only [List.map_cons, List.sum_cons]; omega, h'.append h⟩

/-- Where a particle may have been. -/
theorem deal_reach {ι : Type} {i : ι} {L : List (ι × Op Mach)} {n : Nat} (hL : Costs i L n) (ω : Nat → ℝ) (x : (ι → Mach) × Nat) :
    ∀ p ∈ ((deal ω L x).1 i).1.cells, p ∈ (x.1 i).1.cells ∨ |p.1 - (x.1 i).1.cur.1| ≤ n ∧ |p.2 - (x.1 i).1.cur.2| ≤ n := by
  induction hL generalizing x with
  | nil => intro p hp; exact Or.inl hp
  | @other a L n h hL ih =>
    rw [deal_cons]
    intro p hp
    obtain ⟨y, hy, h1, h2⟩ := dealStep_out ω x a
    have hc : ((dealStep ω x a).1 i).1.cells = (x.1 i).1.cells := by
      by_cases hi : i = a.1
      · subst hi
        rcases h with h | h
        · exact absurd rfl h
        · rw [h1]; exact h _ _ hy
      · rw [h2 i hi]
    have := ih _ p hp
    unfold Disc.cur at this ⊢
    rwa [hc] at this
  | @near a L n h hL ih =>
    rw [deal_cons]
    intro p hp
    obtain ⟨y, hy, h1, h2⟩ := dealStep_out ω x a
    have hthis := ih _ p hp
    by_cases hi : i = a.1
    · subst hi
      rw [h1] at hthis
      rcases h _ _ hy with hc | ⟨q, hc, hq⟩
      · unfold Disc.cur at hthis ⊢
        rw [hc] at hthis
        refine hthis.imp id fun ⟨h3, h4⟩ => ⟨?_, ?_⟩ <;> push_cast <;> omega
      · have hcur : y.1.cur = q := by unfold Disc.cur; rw [hc]; simp
        rw [hcur, hc, List.mem_append, List.mem_singleton] at hthis
        rcases hthis with (h3 | rfl) | ⟨h3, h4⟩
        · exact Or.inl h3
        · right
          push_cast
          exact ⟨by omega, by omega⟩
        · right
          push_cast
          rw [abs_le] at *
          rw [abs_le] at hq
          rw [abs_le] at *
          exact ⟨by omega, by omega⟩
    · rw [h2 i hi] at hthis
      refine hthis.imp id fun ⟨h3, h4⟩ => ⟨?_, ?_⟩ <;> push_cast <;> omega

/-! ### Measurability -/

open MeasureTheory

instance : DiscreteMeasurableSpace (Option Int) := ⟨fun s => MeasurableSet.of_discrete (s := some ⁻¹' s)⟩

theorem upTo_measurable (S : Int × Int → Prop) : Measurable fun h : History ℝ => h.upTo S := by
  classical
  rw [measurable_pi_iff]
  intro n
  unfold History.upTo
  refine Measurable.ite ?_ (measurable_pi_apply n) measurable_const
  have : {h : History ℝ | h.staysIn S n} = ⋂ m ∈ Set.Iio n, (fun h : History ℝ => ((h m).1, (h m).2.1)) ⁻¹'
      {q | ∀ x y, q.1 = some x → q.2 = some y → S (x, y)} := by
    ext h
    simp [History.staysIn]
  rw [this]
  refine MeasurableSet.biInter (Set.to_countable _) fun m _ => ?_
  refine Measurable.prodMk ?_ ?_ MeasurableSet.of_discrete
  · exact measurable_fst.comp (measurable_pi_apply m)
  · exact (measurable_fst.comp measurable_snd).comp (measurable_pi_apply m)

theorem offset_measurable (r c : Nat) : Measurable fun h : History ℝ => h.offset r c := by
  rw [measurable_pi_iff]
  intro n
  unfold History.offset
  have hn : Measurable fun h : History ℝ => h n := measurable_pi_apply n
  refine Measurable.prodMk ?_ (Measurable.prodMk ?_ ?_)
  · exact (Measurable.of_discrete (f := fun o : Option Int => o.map (· - (r : Int)))).comp (measurable_fst.comp hn)
  · exact (Measurable.of_discrete (f := fun o : Option Int => o.map (· - (c : Int)))).comp ((measurable_fst.comp measurable_snd).comp hn)
  · exact (measurable_snd.comp measurable_snd).comp hn

end

end Dorado
