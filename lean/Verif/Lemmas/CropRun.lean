import Verif.Lemmas.Crop

/-! Helper lemmas for C112: a particle in the domain and one in the part, side by side. -/

set_option linter.unusedSectionVars false

namespace Dorado

noncomputable section

variable {A : Arith ℝ} {F : Fun ℝ A} {P P' : PObj ℝ} {r c R C : Nat}

theorem offset_inj {p q : Int × Int} : offset r c p = offset r c q ↔ p = q := by
  obtain ⟨a, b⟩ := p
  obtain ⟨a', b'⟩ := q
  simp only [offset, Prod.mk.injEq]
  omega

theorem nanmax9_congr {p q : Nat → Fl ℝ} (h : ∀ k, k < 9 → p k = q k) : nanmax9 p = nanmax9 q := by
  unfold nanmax9
  simp only [List.range_succ, List.range_zero, List.nil_append, List.cons_append, List.foldl_cons, List.foldl_nil]
  rw [h 0 (by omega), h (0 + 1) (by omega), h (1 + 1) (by omega), h (2 + 1) (by omega), h (3 + 1) (by omega),
    h (4 + 1) (by omega), h (5 + 1) (by omega), h (6 + 1) (by omega), h (7 + 1) (by omega)]

theorem steepMask_congr {p q : Nat → Fl ℝ} (h : ∀ k, k < 9 → p k = q k) {k : Nat} (hk : k < 9) : steepMask p k = steepMask q k := by
  unfold steepMask
  simp only [nanmax9_congr h, h k hk]

/-- What of two objects decides how particles move: the choice of a neighbour, where it leads and how long it takes, and the edge test. -/
structure MovesAlike (A : Arith ℝ) (F : Fun ℝ A) (r c R C : Nat) (P P' : PObj ℝ) : Prop where
  pick : ∀ q, Deep R C (offset r c q) → ∀ u, pickOf A F P' (offset r c q) u = pickOf A F P q u
  dest : ∀ q, Deep R C (offset r c q) → ∀ k, destOf A P' (offset r c q) k = offset r c (destOf A P q k)
  inside : ∀ q, Deep R C (offset r c q) → ∀ k, Inside R C (offset r c (destOf A P q k))
  dur : ∀ q, Deep R C (offset r c q) → ∀ k v, durOf A F P' (offset r c q) k v = durOf A F P q k v
  edge : ∀ q, Deep R C (offset r c q) → edgeInWindow P'.cellType (offset r c q).1 (offset r c q).2 = edgeInWindow P.cellType q.1 q.2
  near : ∀ q, Inside R C q → ¬ Deep R C q → edgeInWindow P'.cellType q.1 q.2 = true
  diff : P'.diffCoeff = P.diffCoeff

theorem Deep.inside {q : Int × Int} (h : Deep R C q) : Inside R C q := by unfold Deep at h; unfold Inside; omega

theorem CutOf.alike (H : CutOf A F r c R C P P') (G : Good P) (hw : DefaultWalk P) (hz : StepsNonzero A P) (hvr : P.velocity.rows = P.depth.rows)
    (hvc : P.velocity.cols = P.depth.cols) (har : P.velocityAngle.rows = P.depth.rows) (hac : P.velocityAngle.cols = P.depth.cols) :
    MovesAlike A F r c R C P P' := by
  have hfr := H.fitR
  have hfc := H.fitC
  have hdest : ∀ q, Deep R C (offset r c q) → ∀ k, destOf A P' (offset r c q) k = offset r c (destOf A P q k) ∧ Inside R C (offset r c (destOf A P q k)) := by
    intro q hq k
    have hz' : stepUpdate A k P'.distances P'.dx = stepUpdate A k P.distances P.dx := by rw [H.distances, H.dx]
    unfold destOf
    rw [hz']
    unfold newInd1 calculateNewInd
    rw [H.iwalk, H.jwalk, hw.1, hw.2]
    by_cases hk : k < 9
    · have hs : stepUpdate A k P.distances P.dx = .ok (A.mul (P.distances k) (.fin P.dx)) := by simp [stepUpdate, flat9, hk]
      have hzd : ∀ x, zeroDist x (A.mul (P.distances k) (.fin P.dx)) = x := by
        intro x
        unfold zeroDist
        rw [if_neg]
        intro he
        have := hz k hk
        revert he this
        cases A.mul (P.distances k) (.fin P.dx) <;> simp [Fl.eq]
      rw [hs]
      have hnew : ∀ x : Int × Int, (if k ≠ 4 then (do
          let dj ← flat9 defaultJwalk k
          let di ← flat9 defaultIwalk k
          return (x.1 + dj, x.2 + di)) else .ok x : Except PyErr (Int × Int)) = .ok (x.1 + defaultJwalk k, x.2 + defaultIwalk k) := by
        intro x
        by_cases h4 : k = 4
        · subst h4; simp [defaultJwalk, defaultIwalk]
        · simp [h4, flat9, hk]
      rw [hnew, hnew]
      simp only [hzd]
      unfold checkForBoundary1
      rw [H.edge G hq]
      have hb : defaultJwalk k = -1 ∨ defaultJwalk k = 0 ∨ defaultJwalk k = 1 := by unfold defaultJwalk; split_ifs <;> simp
      have hb' : defaultIwalk k = -1 ∨ defaultIwalk k = 0 ∨ defaultIwalk k = 1 := by unfold defaultIwalk; split_ifs <;> simp
      split
      · exact ⟨rfl, hq.inside⟩
      · simp only [offset, Deep, Inside, Prod.mk.injEq] at hq ⊢
        omega
    · have hs : stepUpdate A k P.distances P.dx = .error .indexError := by simp [stepUpdate, flat9, hk]
      rw [hs]
      refine ⟨?_, ?_⟩
      · generalize (if k ≠ 4 then _ else _ : Except PyErr (Int × Int)) = e1
        generalize (if k ≠ 4 then _ else _ : Except PyErr (Int × Int)) = e2
        cases e1 <;> cases e2 <;> rfl
      · generalize (if k ≠ 4 then _ else _ : Except PyErr (Int × Int)) = e1
        cases e1 <;> exact hq.inside
  refine ⟨?_, fun q hq k => (hdest q hq k).1, fun q hq k => (hdest q hq k).2, ?_, fun q hq => H.edge G hq, fun q h1 h2 => H.edgeNear h1 h2, H.diff⟩
  · intro q hq u
    have hq' := hq
    simp only [Deep, offset] at hq'
    have a1 : pyIdx P'.stage.rows (offset r c q).1 = .ok (q.1 - r).toNat := by
      rw [H.stage]; exact if_pos (by simp only [offset, Grid.cut]; omega)
    have a2 : pyIdx P'.stage.cols (offset r c q).2 = .ok (q.2 - c).toNat := by
      rw [H.stage]; exact if_pos (by simp only [offset, Grid.cut]; omega)
    have a3 : pyIdx P.stage.rows q.1 = .ok ((q.1 - r).toNat + r) := by
      have : (q.1 - r).toNat + r = q.1.toNat := by omega
      rw [this, G.stage_rows]; exact if_pos (by omega)
    have a4 : pyIdx P.stage.cols q.2 = .ok ((q.2 - c).toNat + c) := by
      have : (q.2 - c).toNat + c = q.2.toNat := by omega
      rw [this, G.stage_cols]; exact if_pos (by omega)
    unfold pickOf
    rw [a1, a2, a3, a4]
    simp only
    have hwt : ∀ k, k < 9 → makeWeight A F P' (q.1 - r).toNat (q.2 - c).toNat k = makeWeight A F P ((q.1 - r).toNat + r) ((q.2 - c).toNat + c) k :=
      fun k hk => H.weight G (by omega) (by omega) (by omega) (by omega) hk
    have hm : ∀ k, k < 9 → maskOf P' (makeWeight A F P' (q.1 - r).toNat (q.2 - c).toNat) k =
        maskOf P (makeWeight A F P ((q.1 - r).toNat + r) ((q.2 - c).toNat + c)) k := by
      intro k hk
      unfold maskOf
      rw [H.steepest]
      split
      · exact steepMask_congr hwt hk
      · unfold zeroNan
        rw [hwt k hk]
    rw [pickFrom_congr A hm]
  · intro q hq k v
    have hq' := hq
    have hin := (hdest q hq k).2
    simp only [Deep, Inside, offset] at hq' hin
    unfold durOf
    rw [show stepUpdate A k P'.distances P'.dx = stepUpdate A k P.distances P.dx by rw [H.distances, H.dx], (hdest q hq k).1]
    have hcalc : ∀ d, calcTravelTime A F P' (fun _ => v) 0 k (offset r c q) (offset r c (destOf A P q k)) d =
        calcTravelTime A F P (fun _ => v) 0 k q (destOf A P q k) d := by
      intro d
      unfold calcTravelTime
      simp only [ne_eq, offset_inj]
      have g1 : P'.velocity.get (offset r c q).1 (offset r c q).2 = P.velocity.get q.1 q.2 := by
        rw [H.velocity]; exact get_cut _ (by omega) (by omega) (by omega) (by omega) (by omega) (by omega)
      have g2 : P'.velocity.get (offset r c (destOf A P q k)).1 (offset r c (destOf A P q k)).2 = P.velocity.get (destOf A P q k).1 (destOf A P q k).2 := by
        rw [H.velocity]; exact get_cut _ (by omega) (by omega) (by omega) (by omega) (by omega) (by omega)
      have g3 : P'.velocityAngle.get (offset r c q).1 (offset r c q).2 = P.velocityAngle.get q.1 q.2 := by
        rw [H.velocityAngle]; exact get_cut _ (by omega) (by omega) (by omega) (by omega) (by omega) (by omega)
      rw [g1, g2, g3, H.angles, H.diff]
    simp only [hcalc]

/-! ### Machines -/

/-- The same state in the coordinates of the part. -/
def InStep (r c : Nat) (m m' : Mach) : Prop := m' = ({ m.1 with cells := m.1.cells.map (offset r c) }, m.2)

/-- All recorded cells are away from the outer ring of the part. -/
structure Mach.Within (r c R C : Nat) (m : Mach) : Prop where
  ne : m.1.cells ≠ []
  deep : ∀ p ∈ m.1.cells, Deep R C (offset r c p)

theorem cur_map {d : Disc} (h : d.cells ≠ []) : ({ d with cells := d.cells.map (offset r c) } : Disc).cur = offset r c d.cur := by
  unfold Disc.cur
  simp only
  rw [List.getLastD_eq_getLast?, List.getLastD_eq_getLast?, List.getLast?_map, List.getLast?_eq_some_getLast h]
  rfl

theorem Mach.Within.cur {m : Mach} (h : m.Within r c R C) : Deep R C (offset r c m.1.cur) := by
  refine h.deep _ ?_
  unfold Disc.cur
  rw [List.getLastD_eq_getLast?, List.getLast?_eq_some_getLast h.ne]
  exact List.getLast_mem h.ne

/-- The records stay, and at most one is added. -/
def Adds (m x : Mach) : Prop := (∃ l, x.1.cells = m.1.cells ++ l ∧ l.length ≤ 1) ∧ ∀ n < m.1.cells.length, x.2.1 n = m.2.1 n

/-- The possible results of an action. -/
def Op.out (o : Op Mach) (m x : Mach) : Prop := x = o.skip m ∨ ∃ u, x = o.draw m u

/-- Two actions, in the domain and in the part, that belong together. -/
structure OpPair (r c R C : Nat) (P' : PObj ℝ) (o o' : Op Mach) : Prop where
  need : ∀ m m', m.Within r c R C → InStep r c m m' → (o.need m ↔ o'.need m')
  draw : ∀ m m', m.Within r c R C → InStep r c m m' → ∀ u, InStep r c (o.draw m u) (o'.draw m' u)
  skip : ∀ m m', m.Within r c R C → InStep r c m m' → InStep r c (o.skip m) (o'.skip m')
  grows : ∀ m x, o.out m x → Adds m x
  stays : ∀ m x, m.Within r c R C → o.out m x → ∀ p ∈ x.1.cells, Inside R C (offset r c p)
  still : ∀ m x, edgeInWindow P'.cellType m.1.cur.1 m.1.cur.2 = true → o'.out m x → x.1.cells = m.1.cells ∧ x.2.1 = m.2.1

theorem Adds.same {m x : Mach} (h1 : x.1.cells = m.1.cells) (h2 : x.2.1 = m.2.1) : Adds m x :=
  ⟨⟨[], by simp [h1], by simp⟩, fun n _ => by rw [h2]⟩

theorem Mach.Within.inside {m : Mach} (h : m.Within r c R C) : ∀ p ∈ m.1.cells, Inside R C (offset r c p) := fun p hp => (h.deep p hp).inside

theorem goes_still {d : Disc} (h : edgeInWindow P'.cellType d.cur.1 d.cur.2 = true) : ¬ d.goes A P' := by
  unfold Disc.goes destOf checkForBoundary1
  rw [h]
  intro hh
  revert hh
  split <;> simp

theorem step_grows (m : Mach) (v : ℝ) : Adds m (m.step A F P v) := by
  refine ⟨⟨[destOf A P m.1.cur m.1.pick], rfl, by simp⟩, fun n hn => ?_⟩
  unfold Mach.step
  simp only
  rw [Function.update_of_ne (by omega)]

theorem move_grows (m : Mach) (v : ℝ) : Adds m (m.move A F P v) := by
  unfold Mach.move
  split
  · exact step_grows m v
  · exact .same rfl rfl

theorem advance_grows (maxIter : Int) (m : Mach) (v : ℝ) : Adds m (m.advance A F P maxIter v) := by
  unfold Mach.advance
  split
  · split
    · exact step_grows m v
    · exact .same rfl rfl
  · exact .same rfl rfl

variable (H : MovesAlike A F r c R C P P')

include H in
theorem step_inStep {m m' : Mach} (hd : m.Within r c R C) (h : InStep r c m m') (v : ℝ) : InStep r c (m.step A F P v) (m'.step A F P' v) := by
  obtain ⟨d, t, e⟩ := m
  subst h
  have hc := hd.cur
  unfold InStep Mach.step
  simp only [Mach.time, cur_map hd.ne, H.dest _ hc, H.dur _ hc, List.length_map, List.map_append, List.map_cons, List.map_nil]

include H in
theorem goes_inStep {m m' : Mach} (hd : m.Within r c R C) (h : InStep r c m m') : m'.1.goes A P' ↔ m.1.goes A P := by
  subst h
  unfold Disc.goes
  rw [cur_map hd.ne, H.dest _ hd.cur, ne_eq, offset_inj]

include H in
theorem step_inside {m : Mach} (hd : m.Within r c R C) (v : ℝ) : ∀ p ∈ (m.step A F P v).1.cells, Inside R C (offset r c p) := by
  intro p hp
  unfold Mach.step at hp
  simp only [List.mem_append, List.mem_singleton] at hp
  rcases hp with hp | rfl
  · exact hd.inside p hp
  · exact H.inside _ hd.cur _

include H in
theorem pickOp_pair : OpPair r c R C P' (pickOp A F P) (pickOp A F P') where
  need _ _ _ _ := Iff.rfl
  draw m m' hd h u := by
    subst h
    show (_, _) = (_, _)
    simp only [cur_map hd.ne, H.pick _ hd.cur]
    rfl
  skip m m' _ h := h
  grows m x hx := by
    rcases hx with rfl | ⟨u, rfl⟩ <;> exact .same rfl rfl
  stays m x hd hx := by
    rcases hx with rfl | ⟨u, rfl⟩ <;> exact hd.inside
  still m x _ hx := by
    rcases hx with rfl | ⟨u, rfl⟩ <;> exact ⟨rfl, rfl⟩

include H in
theorem move_inStep {m m' : Mach} (hd : m.Within r c R C) (h : InStep r c m m') (v : ℝ) : InStep r c (m.move A F P v) (m'.move A F P' v) := by
  unfold Mach.move
  by_cases hg : m.1.goes A P
  · rw [if_pos hg, if_pos ((goes_inStep H hd h).2 hg)]
    exact step_inStep H hd h v
  · rw [if_neg hg, if_neg (fun h' => hg ((goes_inStep H hd h).1 h'))]
    exact h

include H in
theorem move_inside {m : Mach} (hd : m.Within r c R C) (v : ℝ) : ∀ p ∈ (m.move A F P v).1.cells, Inside R C (offset r c p) := by
  unfold Mach.move
  split
  · exact step_inside H hd v
  · exact hd.inside

theorem move_still {m : Mach} (h : edgeInWindow P'.cellType m.1.cur.1 m.1.cur.2 = true) (v : ℝ) : m.move A F P' v = m := by
  unfold Mach.move
  rw [if_neg (goes_still h)]

include H in
theorem timeOp_pair : OpPair r c R C P' (timeOp A F P) (timeOp A F P') where
  need m m' hd h := by
    show _ ∧ _ ↔ _ ∧ _
    rw [goes_inStep H hd h, H.diff]
  draw m m' hd h u := move_inStep H hd h u
  skip m m' hd h := move_inStep H hd h 0
  grows m x hx := by
    rcases hx with rfl | ⟨u, rfl⟩ <;> exact move_grows m _
  stays m x hd hx := by
    rcases hx with rfl | ⟨u, rfl⟩ <;> exact move_inside H hd _
  still m x he hx := by
    have : x = m := by rcases hx with rfl | ⟨u, rfl⟩ <;> exact move_still he _
    rw [this]
    exact ⟨rfl, rfl⟩

include H in
theorem startOp_pair : OpPair r c R C P' (startOp A P) (startOp A P') where
  need _ _ _ _ := Iff.rfl
  draw m m' _ h _ := h
  skip m m' hd h := by
    subst h
    show (_, _) = (_, _)
    simp only [cur_map hd.ne, H.edge _ hd.cur, Mach.est0, List.length_map]
    rfl
  grows m x hx := by
    rcases hx with rfl | ⟨u, rfl⟩ <;> exact .same rfl rfl
  stays m x hd hx := by
    rcases hx with rfl | ⟨u, rfl⟩ <;> exact hd.inside
  still m x _ hx := by
    rcases hx with rfl | ⟨u, rfl⟩ <;> exact ⟨rfl, rfl⟩

include H in
theorem loopPick_pair (target : Fl ℝ) : OpPair r c R C P' (loopPick A F P target) (loopPick A F P' target) where
  need m m' hd h := by
    subst h
    show _ ∧ _ ↔ _ ∧ _
    simp only [Mach.closer, Mach.time, List.length_map]
  draw m m' hd h u := by
    subst h
    show (_, _) = (_, _)
    simp only [cur_map hd.ne, H.pick _ hd.cur]
    rfl
  skip m m' hd h := by
    subst h
    rfl
  grows m x hx := by
    rcases hx with rfl | ⟨u, rfl⟩ <;> exact .same rfl rfl
  stays m x hd hx := by
    rcases hx with rfl | ⟨u, rfl⟩ <;> exact hd.inside
  still m x _ hx := by
    rcases hx with rfl | ⟨u, rfl⟩ <;> exact ⟨rfl, rfl⟩

include H in
theorem advance_inStep (maxIter : Int) {m m' : Mach} (hd : m.Within r c R C) (h : InStep r c m m') (v : ℝ) :
    InStep r c (m.advance A F P maxIter v) (m'.advance A F P' maxIter v) := by
  have hs := step_inStep H hd h v
  have hg' := goes_inStep H hd h
  have ho : m'.1.on = m.1.on := by rw [h]
  have hcnt : m'.1.count = m.1.count := by rw [h]
  have ht : m'.time = m.time := by rw [h]; simp [Mach.time]
  unfold Mach.advance
  rw [ho]
  by_cases h1 : m.1.on = true
  · rw [if_pos h1, if_pos h1]
    by_cases hg : m.1.goes A P
    · rw [if_pos hg, if_pos (hg'.2 hg)]
      simp only
      rw [hs, hcnt, ht]
      show (_, _) = (_, _)
      simp only [Mach.time, List.length_map]
    · rw [if_neg hg, if_neg (fun h' => hg (hg'.1 h'))]
      rw [h]
      rfl
  · rw [if_neg h1, if_neg h1]
    exact h

include H in
theorem advance_inside (maxIter : Int) {m : Mach} (hd : m.Within r c R C) (v : ℝ) : ∀ p ∈ (m.advance A F P maxIter v).1.cells, Inside R C (offset r c p) := by
  unfold Mach.advance
  split
  · split
    · exact step_inside H hd v
    · exact hd.inside
  · exact hd.inside

theorem advance_still {maxIter : Int} {m : Mach} (h : edgeInWindow P'.cellType m.1.cur.1 m.1.cur.2 = true) (v : ℝ) :
    (m.advance A F P' maxIter v).1.cells = m.1.cells ∧ (m.advance A F P' maxIter v).2.1 = m.2.1 := by
  unfold Mach.advance
  rw [if_neg (goes_still h)]
  split <;> exact ⟨rfl, rfl⟩

include H in
theorem loopTime_pair (maxIter : Int) : OpPair r c R C P' (loopTime A F P maxIter) (loopTime A F P' maxIter) where
  need m m' hd h := by
    show _ ∧ _ ∧ _ ↔ _ ∧ _ ∧ _
    rw [goes_inStep H hd h, H.diff, h]
  draw m m' hd h u := advance_inStep H maxIter hd h u
  skip m m' hd h := advance_inStep H maxIter hd h 0
  grows m x hx := by
    rcases hx with rfl | ⟨u, rfl⟩ <;> exact advance_grows maxIter m _
  stays m x hd hx := by
    rcases hx with rfl | ⟨u, rfl⟩ <;> exact advance_inside H maxIter hd _
  still m x he hx := by
    rcases hx with rfl | ⟨u, rfl⟩ <;> exact advance_still he _

/-! ### Sequences of actions -/

/-- Two lists of actions that belong together. -/
abbrev Pairs {ι : Type} (r c R C : Nat) (P' : PObj ℝ) (L L' : List (ι × Op Mach)) : Prop :=
  List.Forall₂ (fun a b : ι × Op Mach => a.1 = b.1 ∧ OpPair r c R C P' a.2 b.2) L L'

include H in
theorem callOps_pairs {ι : Type} (l : List ι) (x : Option (Fl ℝ) × Int) : Pairs r c R C P' (callOps A F P l x) (callOps A F P' l x) := by
  obtain ⟨_ | target, maxIter⟩ := x
  · refine List.rel_append ?_ ?_
    · induction l with
      | nil => exact .nil
      | cons i l ih => exact .cons ⟨rfl, pickOp_pair H⟩ ih
    · induction l with
      | nil => exact .nil
      | cons i l ih => exact .cons ⟨rfl, timeOp_pair H⟩ ih
  · have hops : List.Forall₂ (OpPair r c R C P') (targetOps A F P target maxIter) (targetOps A F P' target maxIter) := by
      refine .cons (startOp_pair H) ?_
      generalize maxIter.toNat + 1 = n
      induction n with
      | zero => exact .nil
      | succ n ih => exact .cons (loopPick_pair H target) (.cons (loopTime_pair H maxIter) ih)
    show Pairs r c R C P' (l.flatMap _) (l.flatMap _)
    induction l with
    | nil => exact .nil
    | cons i l ih =>
      refine List.rel_append ?_ ih
      rw [List.forall₂_map_left_iff, List.forall₂_map_right_iff]
      exact hops.imp fun _ _ h => ⟨rfl, h⟩

include H in
theorem callsOps_pairs {N : Nat} (calls : List (Option (Fl ℝ) × Int)) : Pairs r c R C P' (callsOps A F P N calls) (callsOps A F P' N calls) := by
  unfold callsOps
  induction calls with
  | nil => exact .nil
  | cons x calls ih => exact List.rel_append (callOps_pairs H _ x) ih

theorem Op.out_act (o : Op Mach) (m : Mach) (u : ℝ) : o.out m (o.act m u) := by
  unfold Op.act
  split
  · exact Or.inr ⟨u, rfl⟩
  · exact Or.inl rfl

theorem dealStep_out {ι : Type} (ω : Nat → ℝ) (x : (ι → Mach) × Nat) (io : ι × Op Mach) :
    ∃ y, io.2.out (x.1 io.1) y ∧ (dealStep ω x io).1 io.1 = y ∧ ∀ j, j ≠ io.1 → (dealStep ω x io).1 j = x.1 j := by
  classical
  unfold dealStep
  split
  · exact ⟨_, Or.inr ⟨ω x.2, rfl⟩, by simp, fun j hj => by simp [hj]⟩
  · exact ⟨_, Or.inl rfl, by simp, fun j hj => by simp [hj]⟩

theorem dealStep_need {ι : Type} (ω : Nat → ℝ) {st : ι → Mach} {pos : Nat} {i : ι} {o : Op Mach} (h : o.need (st i)) :
    (dealStep ω (st, pos) (i, o)).1 i = o.draw (st i) (ω pos) ∧ (dealStep ω (st, pos) (i, o)).2 = pos + 1 := by
  unfold dealStep
  simp only
  rw [if_pos h]
  simp

theorem dealStep_free {ι : Type} (ω : Nat → ℝ) {st : ι → Mach} {pos : Nat} {i : ι} {o : Op Mach} (h : ¬ o.need (st i)) :
    (dealStep ω (st, pos) (i, o)).1 i = o.skip (st i) ∧ (dealStep ω (st, pos) (i, o)).2 = pos := by
  unfold dealStep
  simp only
  rw [if_neg h]
  simp

/-- Records are only added. -/
theorem deal_cells {ι : Type} {L L' : List (ι × Op Mach)} (hL : Pairs r c R C P' L L') (ω : Nat → ℝ) (x : (ι → Mach) × Nat) (i : ι) :
    ∃ l, ((deal ω L x).1 i).1.cells = (x.1 i).1.cells ++ l := by
  classical
  induction hL generalizing x with
  | nil => exact ⟨[], by simp [deal_nil]⟩
  | @cons a b L L' hab _ ih =>
    rw [deal_cons]
    obtain ⟨l, hl⟩ := ih (dealStep ω x a)
    obtain ⟨y, hy, h1, h2⟩ := dealStep_out ω x a
    rw [hl]
    by_cases hi : i = a.1
    · subst hi
      obtain ⟨⟨l', hl', -⟩, -⟩ := hab.2.grows _ _ hy
      exact ⟨l' ++ l, by rw [h1, hl', List.append_assoc]⟩
    · exact ⟨l, by rw [h2 i hi]⟩

/-- All particles together, as long as none comes next to the outer ring of the part. -/
theorem deal_inStep {ι : Type} {L L' : List (ι × Op Mach)} (hL : Pairs r c R C P' L L') (ω : Nat → ℝ) {st st' : ι → Mach} {pos : Nat}
    (hs : ∀ i, InStep r c (st i) (st' i)) (hne : ∀ i, (st i).1.cells ≠ [])
    (hd : ∀ i, ∀ p ∈ ((deal ω L (st, pos)).1 i).1.cells, Deep R C (offset r c p)) :
    ∀ i, InStep r c ((deal ω L (st, pos)).1 i) ((deal ω L' (st', pos)).1 i) := by
  classical
  induction hL generalizing st st' pos with
  | nil => exact hs
  | @cons a b L L' hab hL ih =>
    have hin : ∀ i, (st i).Within r c R C := fun i => by
      refine ⟨hne i, fun p hp => hd i p ?_⟩
      obtain ⟨l, hl⟩ := deal_cells (List.Forall₂.cons hab hL) ω (st, pos) i
      rw [hl]
      exact List.mem_append_left _ hp
    rw [deal_cons] at hd
    rw [deal_cons, deal_cons]
    obtain ⟨i, o⟩ := a
    obtain ⟨i', o'⟩ := b
    obtain ⟨rfl, hp⟩ : i = i' ∧ OpPair r c R C P' o o' := hab
    have hneed := hp.need _ _ (hin i) (hs i)
    have hup : ∀ {x y : Mach}, InStep r c x y → ∀ j, InStep r c (Function.update st i x j) (Function.update st' i y j) := by
      intro x y hxy j
      by_cases hj : j = i
      · subst hj; simpa using hxy
      · simpa [hj] using hs j
    have hne' : ∀ x : Mach, o.out (st i) x → ∀ j, (Function.update st i x j).1.cells ≠ [] := by
      intro x hx j
      by_cases hj : j = i
      · subst hj
        obtain ⟨⟨l', hl', -⟩, -⟩ := hp.grows _ _ hx
        simp [hl', hne j]
      · simpa [hj] using hne j
    by_cases hn : o.need (st i)
    · have e : ∀ p : Nat, dealStep ω (st, p) (i, o) = (Function.update st i (o.draw (st i) (ω p)), p + 1) := fun p => by
        unfold dealStep; simp only; rw [if_pos hn]
      have e' : ∀ p : Nat, dealStep ω (st', p) (i, o') = (Function.update st' i (o'.draw (st' i) (ω p)), p + 1) := fun p => by
        unfold dealStep; simp only; rw [if_pos (hneed.1 hn)]
      rw [e] at hd
      rw [e, e']
      exact ih (hup (hp.draw _ _ (hin i) (hs i) _)) (hne' _ (Or.inr ⟨_, rfl⟩)) hd
    · have e : ∀ p : Nat, dealStep ω (st, p) (i, o) = (Function.update st i (o.skip (st i)), p) := fun p => by
        unfold dealStep; simp only; rw [if_neg hn]
      have e' : ∀ p : Nat, dealStep ω (st', p) (i, o') = (Function.update st' i (o'.skip (st' i)), p) := fun p => by
        unfold dealStep; simp only; rw [if_neg (fun h => hn (hneed.2 h))]
      rw [e] at hd
      rw [e, e']
      exact ih (hup (hp.skip _ _ (hin i) (hs i))) (hne' _ (Or.inl rfl)) hd

/-- The particle in the part has stopped next to its outer ring; the one in the domain may have gone on. -/
def Stopped (r c R C : Nat) (m m' : Mach) : Prop :=
  ∃ l p l', m.1.cells = l ++ p :: l' ∧ (∀ q ∈ l, Deep R C (offset r c q)) ∧ ¬ Deep R C (offset r c p) ∧ Inside R C (offset r c p) ∧
    m'.1.cells = (l ++ [p]).map (offset r c) ∧ ∀ n ≤ l.length, m'.2.1 n = m.2.1 n

/-- One particle: in step, or stopped. -/
def Shadows (r c R C : Nat) (x x' : Mach × Nat) : Prop :=
  (x.2 = x'.2 ∧ x.1.Within r c R C ∧ InStep r c x.1 x'.1) ∨ Stopped r c R C x.1 x'.1

theorem InStep.follows {m m' : Mach} {pos : Nat} (h : InStep r c m m') {m0 : Mach} (h0 : m0.Within r c R C) (hg : Adds m0 m)
    (hin : ∀ p ∈ m.1.cells, Inside R C (offset r c p)) : Shadows r c R C (m, pos) (m', pos) := by
  obtain ⟨⟨l, hl, hl1⟩, -⟩ := hg
  by_cases hd : ∀ p ∈ m.1.cells, Deep R C (offset r c p)
  · exact Or.inl ⟨rfl, ⟨by rw [hl]; simp [h0.ne], hd⟩, h⟩
  · right
    have hlast : ∃ p, l = [p] := by
      match l, hl1 with
      | [], _ =>
        refine absurd (fun p hp => ?_) hd
        rw [hl, List.append_nil] at hp
        exact h0.deep p hp
      | [p], _ => exact ⟨p, rfl⟩
    obtain ⟨p, rfl⟩ := hlast
    refine ⟨m0.1.cells, p, [], hl, h0.deep, ?_, hin p (by rw [hl]; simp), ?_, fun n _ => by rw [h]⟩
    · intro hp
      refine hd fun q hq => ?_
      rw [hl, List.mem_append, List.mem_singleton] at hq
      rcases hq with hq | rfl
      · exact h0.deep q hq
      · exact hp
    · rw [h, ← hl]

/-- A particle by itself. -/
theorem deal_follows (hnear : ∀ q, Inside R C q → ¬ Deep R C q → edgeInWindow P'.cellType q.1 q.2 = true) {L L' : List (Unit × Op Mach)}
    (hL : Pairs r c R C P' L L') (ω : Nat → ℝ) {x x' : (Unit → Mach) × Nat} (hs : Shadows r c R C (x.1 (), x.2) (x'.1 (), x'.2)) :
    Shadows r c R C ((deal ω L x).1 (), (deal ω L x).2) ((deal ω L' x').1 (), (deal ω L' x').2) := by
  classical
  induction hL generalizing x x' with
  | nil => exact hs
  | @cons a b L L' hab hL ih =>
    rw [deal_cons, deal_cons]
    refine ih ?_
    obtain ⟨i, o⟩ := a
    obtain ⟨i', o'⟩ := b
    obtain ⟨-, hp⟩ := hab
    obtain ⟨y, hy, h1, -⟩ := dealStep_out ω x ((), o)
    obtain ⟨y', hy', h1', -⟩ := dealStep_out ω x' ((), o')
    simp only at hy hy' h1 h1'
    rcases hs with ⟨hpos, hin, hst⟩ | ⟨l, p, l', e1, hl, hnd, hpi, e2, ht⟩
    · obtain ⟨st, pos⟩ := x
      obtain ⟨st', pos'⟩ := x'
      simp only at hpos hin hst
      subst hpos
      have hneed := hp.need _ _ hin hst
      by_cases hn : o.need (st ())
      · obtain ⟨a1, a2⟩ := dealStep_need ω (pos := pos) hn
        obtain ⟨b1, b2⟩ := dealStep_need ω (pos := pos) (hneed.1 hn)
        rw [a1, a2, b1, b2]
        exact InStep.follows (hp.draw _ _ hin hst _) hin (hp.grows _ _ (Or.inr ⟨_, rfl⟩)) (hp.stays _ _ hin (Or.inr ⟨_, rfl⟩))
      · obtain ⟨a1, a2⟩ := dealStep_free ω (pos := pos) hn
        obtain ⟨b1, b2⟩ := dealStep_free ω (pos := pos) (fun h => hn (hneed.2 h))
        rw [a1, a2, b1, b2]
        exact InStep.follows (hp.skip _ _ hin hst) hin (hp.grows _ _ (Or.inl rfl)) (hp.stays _ _ hin (Or.inl rfl))
    · right
      have hcur : (x'.1 ()).1.cur = offset r c p := by
        simp only at e2
        unfold Disc.cur
        rw [e2]
        simp
      obtain ⟨c1, c2⟩ := hp.still _ _ (by rw [hcur]; exact hnear _ hpi hnd) hy'
      obtain ⟨⟨l2, g1, -⟩, g2⟩ := hp.grows _ _ hy
      simp only at e1 e2 ht ⊢
      refine ⟨l, p, l' ++ l2, ?_, hl, hnd, hpi, ?_, fun n hn => ?_⟩
      · show ((dealStep ω x ((), o)).1 ()).1.cells = _
        rw [h1, g1, e1]; simp
      · show ((dealStep ω x' ((), o')).1 ()).1.cells = _
        rw [h1', c1, e2]
      · show ((dealStep ω x' ((), o')).1 ()).2.1 n = ((dealStep ω x ((), o)).1 ()).2.1 n
        rw [h1, h1', c2, g2 n (by rw [e1]; simp; omega), ht n hn]

/-! ### Histories -/

theorem InStep.history {m m' : Mach} (h : InStep r c m m') : m'.history = m.history.offset r c := by
  subst h
  funext n
  simp only [Mach.history, History.offset, List.getElem?_map, List.length_map]
  cases m.1.cells[n]? <;> rfl

theorem Mach.staysIn {S : Int × Int → Prop} {m : Mach} {n : Nat} : m.history.staysIn S n ↔ ∀ p ∈ m.1.cells.take n, S p := by
  unfold History.staysIn Mach.history
  constructor
  · intro h p hp
    obtain ⟨k, hk⟩ := List.getElem?_of_mem hp
    rw [List.getElem?_take] at hk
    split at hk
    · rename_i hkn
      exact h k hkn p.1 p.2 (by simp [hk]) (by simp [hk])
    · cases hk
  · intro h k hk x y hx hy
    simp only [Option.map_eq_some_iff] at hx hy
    obtain ⟨p, hp, rfl⟩ := hx
    obtain ⟨q, hq, rfl⟩ := hy
    rw [hp] at hq
    cases hq
    refine h p ?_
    exact List.mem_of_getElem? (i := k) (by rw [List.getElem?_take, if_pos hk, hp])

theorem Shadows.history {m m' : Mach} {pos pos' : Nat} (h : Shadows r c R C (m, pos) (m', pos')) :
    m'.history = (m.history.upTo fun q => Deep R C (offset r c q)).offset r c := by
  rcases h with ⟨-, hin, hst⟩ | ⟨l, p, l', e1, hl, hnd, -, e2, ht⟩
  · simp only at hin hst
    have : m.history.upTo (fun q => Deep R C (offset r c q)) = m.history := by
      funext n
      unfold History.upTo
      rw [if_pos (Mach.staysIn.2 fun q hq => hin.deep q (List.mem_of_mem_take hq))]
    rw [this, hst.history]
  · simp only at e1 e2 ht
    funext n
    unfold History.offset History.upTo
    by_cases hn : n ≤ l.length
    · have hs : m.history.staysIn (fun q => Deep R C (offset r c q)) n := by
        rw [Mach.staysIn, e1]
        intro q hq
        rw [List.take_append_of_le_length hn] at hq
        exact hl q (List.mem_of_mem_take hq)
      rw [if_pos hs]
      have hc : m.1.cells[n]? = (l ++ [p])[n]? := by
        rw [e1]
        rcases Nat.lt_or_eq_of_le hn with h | h
        · rw [List.getElem?_append_left h, List.getElem?_append_left h]
        · subst h; simp
      have hlt : n < m.1.cells.length := by rw [e1]; simp; omega
      have hlt' : n < m'.1.cells.length := by rw [e2]; simp; omega
      unfold Mach.history
      rw [if_pos hlt, if_pos hlt', e2, List.getElem?_map, ← hc, ht n hn]
      cases m.1.cells[n]? <;> rfl
    · have hs : ¬ m.history.staysIn (fun q => Deep R C (offset r c q)) n := by
        rw [Mach.staysIn, e1]
        intro h
        refine hnd (h p (List.mem_of_getElem? (i := l.length) ?_))
        rw [List.getElem?_take, if_pos (by omega)]
        simp
      rw [if_neg hs]
      unfold Mach.history
      have hge : m'.1.cells.length ≤ n := by rw [e2]; simp; omega
      rw [if_neg (by omega), List.getElem?_eq_none hge]
      rfl

end

end Dorado
