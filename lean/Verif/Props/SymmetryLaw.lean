import Verif.Props.Law
import Verif.Props.Symmetry

/-! # C09 for whole walks: a mirrored domain has the mirrored walks

In the non-deterministic mode the probability of any joint path of any number of particles over any number of iterations is the probability of the
mirrored path in the mirrored domain. -/

set_option linter.unusedSectionVars false

namespace Dorado

open MeasureTheory Finset

/-- The cell in the left-right mirror of a domain with `C` columns. -/
def cellLR (C : Nat) (p : Int × Int) : Int × Int := (p.1, C - 1 - p.2)
/-- The cell in the up-down mirror of a domain with `R` rows. -/
def cellUD (R : Nat) (p : Int × Int) : Int × Int := (R - 1 - p.1, p.2)
/-- The cell after transposition. -/
def cellT (p : Int × Int) : Int × Int := (p.2, p.1)

variable {F : Fun ℝ Arith.exact} {R C R' C' : Nat} {P P' : PObj ℝ}

/-- `m` maps the cells of `P` to those of `P'` and keeps the transition probabilities. -/
structure MovesSym (F : Fun ℝ Arith.exact) (R C R' C' : Nat) (P P' : PObj ℝ) (m : Int × Int → Int × Int) : Prop where
  enclosed : Enclosed Arith.exact F R' C' P'
  steepest : P'.steepest = P.steepest
  inside : ∀ p, Inside R' C' (m p) ↔ Inside R C p
  moves : P.steepest = false → ∀ p q, Inside R C p → moveProb (flowOf F P') P' (m p) (m q) = moveProb (flowOf F P) P p q

theorem lastPos_inside {s : PState ℝ} (h : Reach Arith.exact F (Enclosed Arith.exact F R C) Draws (InsideSeeds R C) P s) {wd : WalkData ℝ}
    (hwd : s.walk = some wd) {i : Nat} {p : Int × Int} (hp : wd.lastPos i = some p) : Inside R C p := by
  obtain ⟨-, hbad | ⟨rows, hr, hok⟩⟩ := Enclosed.rowsOk h
  · rw [hwd] at hbad; cases hbad
  have hwd' := hwd
  rw [hr.1] at hwd'
  cases hwd'
  obtain ⟨r', hr', hp⟩ := lastPos_ofRows.1 hp
  obtain ⟨hv, hin⟩ := hok r' (List.mem_of_getElem? hr')
  have hal := hv.aligned
  have hne : r'.ts ≠ [] := by
    intro h0
    have h1 := hal.2.1
    have h2 := hal.2.2
    rw [h0] at h1
    simp at h1
    omega
  exact hin _ _ _ (Row.last_rec hal hp (List.getLast?_eq_some_getLast hne))

/-- A path that leaves the interior has probability zero. -/
theorem path_leaves (hP : Enclosed Arith.exact F R C P) {n N : Nat} {path : Nat → Nat → Int × Int}
    (h0 : ∀ i, i < N → Inside R C (path 0 i)) (hb : ∃ j, j < n ∧ ∃ i, i < N ∧ ¬ Inside R C (path j i)) :
    ∏ j ∈ range n, ∏ i ∈ range N, moveProb (flowOf F P) P (path j i) (path (j + 1) i) = 0 := by
  classical
  obtain ⟨hjn, i, hi, hbad⟩ := Nat.find_spec hb
  have hmin := fun m (hm : m < Nat.find hb) => Nat.find_min hb hm
  obtain ⟨j, hj⟩ : ∃ j, Nat.find hb = j + 1 := by
    refine Nat.exists_eq_succ_of_ne_zero fun hz => ?_
    rw [hz] at hbad
    exact hbad (h0 i hi)
  rw [hj] at hbad hjn
  have hin : Inside R C (path j i) := by
    by_contra hc
    exact hmin j (by omega) ⟨by omega, i, hi, hc⟩
  exact prod_eq_zero (mem_range.2 (show j < n by omega)) (prod_eq_zero (mem_range.2 hi) (moveProb_outside hP hin hbad))

theorem law_sym {m : Int × Int → Int × Int} (S : MovesSym F R C R' C' P P' m) {s s' : PState ℝ}
    (h : Reach Arith.exact F (Enclosed Arith.exact F R C) Draws (InsideSeeds R C) P s)
    (h' : Reach Arith.exact F (Enclosed Arith.exact F R' C') Draws (InsideSeeds R' C') P' s') (hst : P.steepest = false) {wd wd' : WalkData ℝ}
    (hwd : s.walk = some wd) (hwd' : s'.walk = some wd') (hN : wd'.xinds.length = wd.xinds.length) (n : Nat) (path : Nat → Nat → Int × Int)
    (h0 : ∀ i, i < wd.xinds.length → wd.lastPos i = some (path 0 i) ∧ wd'.lastPos i = some (m (path 0 i))) :
    uniformDraws {ω | Follows Arith.exact F P' ω s' n fun j i => m (path j i)} = uniformDraws {ω | Follows Arith.exact F P ω s n path} := by
  rw [C75_law h hwd rfl n path fun i hi => (h0 i hi).1, C75_law h' hwd' hN n _ fun i hi => (h0 i hi).2]
  have hin : ∀ i, i < wd.xinds.length → Inside R C (path 0 i) := fun i hi => lastPos_inside h hwd (h0 i hi).1
  by_cases hall : ∃ j, j < n ∧ ∃ i, i < wd.xinds.length ∧ ¬ Inside R C (path j i)
  · rw [path_leaves h.obj hin hall, path_leaves S.enclosed (path := fun j i => m (path j i)) (fun i hi => (S.inside _).2 (hin i hi))]
    obtain ⟨j, hj, i, hi, hb⟩ := hall
    exact ⟨j, hj, i, hi, fun hc => hb ((S.inside _).1 hc)⟩
  · push Not at hall
    exact prod_congr rfl fun j hj => prod_congr rfl fun i hi => S.moves hst _ _ (hall j (mem_range.1 hj) i (mem_range.1 hi))

/-- Transition probabilities at one cell. -/
theorem moveProb_sym (hst : P.steepest = false) (hst' : P'.steepest = false) {m : Int × Int → Int × Int} (hm : ∀ p, m (m p) = p) {a b a' b' : Nat} (hab : m ((a : Int), (b : Int)) = ((a' : Int), (b' : Int)))
    {π : Nat → Nat} (hπ : ∀ k, k < 9 → π k < 9 ∧ π (π k) = k) (hE : NearEdge P' a' b' ↔ NearEdge P a b)
    (hw : ∀ k, k < 9 → (flowOf F P').weight a' b' k = (flowOf F P).weight a b (π k))
    (hn : ∀ k, k < 9 → m (((Flow.nr a' k : Nat) : Int), ((Flow.nc b' k : Nat) : Int)) = (((Flow.nr a (π k) : Nat) : Int), ((Flow.nc b (π k) : Nat) : Int)))
    (q : Int × Int) :
    moveProb (flowOf F P') P' (m ((a : Int), (b : Int))) (m q) = moveProb (flowOf F P) P ((a : Int), (b : Int)) q := by
  have hq : ∀ r, m q = r ↔ q = m r := fun r => ⟨fun h => by rw [← h, hm], fun h => by rw [h, hm]⟩
  unfold moveProb
  rw [hab, hst, hst']
  simp only [chooseProb_random]
  simp only [Int.toNat_natCast]
  have e1 : (m q = ((a' : Int), (b' : Int))) ↔ q = ((a : Int), (b : Int)) := by rw [hq, ← hab, hm]
  classical
  refine if_congr hE (if_congr e1 rfl rfl) ?_
  have hs := sum_perm hπ hw
  rw [hs]
  refine sum_nbij' π π ?_ ?_ ?_ ?_ ?_
  · intro k hk; rw [mem_range] at hk ⊢; exact (hπ k hk).1
  · intro k hk; rw [mem_range] at hk ⊢; exact (hπ k hk).1
  · intro k hk; rw [mem_range] at hk; exact (hπ k hk).2
  · intro k hk; rw [mem_range] at hk; exact (hπ k hk).2
  · intro k hk
    rw [mem_range] at hk
    have e2 : (m q = (((Flow.nr a' k : Nat) : Int), ((Flow.nc b' k : Nat) : Int))) ↔
        q = (((Flow.nr a (π k) : Nat) : Int), ((Flow.nc b (π k) : Nat) : Int)) := by rw [hq, hn k hk]
    exact if_congr e2 (by rw [hw k hk]) rfl

theorem weight_of_nanTo0 (hB : Built Arith.exact F P) (hB' : Built Arith.exact F P') {a b a' b' k k' : Nat} (hin : Interior P a b) (hin' : Interior P' a' b')
    (hk : k < 9) (hk' : k' < 9) (h : (P'.weight Arith.exact F a' b' k').nanTo0 = (P.weight Arith.exact F a b k).nanTo0) :
    (flowOf F P').weight a' b' k' = (flowOf F P).weight a b k := by
  rw [C04_closed_formula hB' hin' hk', C04_closed_formula hB hin hk] at h
  exact Fl.fin.inj h

/-- What the mirrored object has in common with the given one. -/
theorem enclosed_of {p p' : Params ℝ} (hv' : ValidParams p') (hP : initParticles Arith.exact F p = .ok P) (hP' : initParticles Arith.exact F p' = .ok P')
    (hE : Enclosed Arith.exact F R C P) (hr : P'.depth.rows = R') (hc : P'.depth.cols = C') (hring : EdgeRing P')
    (e1 : p'.dx = p.dx) (e2 : p'.distances = p.distances) (e3 : p'.iwalk = p.iwalk) (e4 : p'.jwalk = p.jwalk) (e5 : p'.angles = p.angles)
    (e6 : p'.steepest = p.steepest) : Enclosed Arith.exact F R' C' P' ∧ P'.steepest = P.steepest := by
  obtain ⟨u, v, X⟩ := init_parts _ _ hP
  obtain ⟨u', v', X'⟩ := init_parts _ _ hP'
  have hdx : P'.dx = P.dx := by
    have := X'.dx
    rw [e1, X.dx] at this
    exact (Option.some.inj this).symm
  have hd : P'.distances = P.distances := by rw [X'.distances, X.distances, e2]
  refine ⟨⟨⟨p', hv', hP'⟩, hr, hc, hring, ?_, ?_, ?_⟩, by rw [X'.steepest, X.steepest, e6]⟩
  · have := hE.walk
    unfold DefaultWalk at this ⊢
    rwa [X'.iwalk, X'.jwalk, e3, e4, ← X.iwalk, ← X.jwalk]
  · have := hE.steps
    unfold StepsNonzero at this ⊢
    rwa [hd, hdx]
  · have := hE.angles
    unfold AnglesOk at this ⊢
    rwa [X'.angles, e5, ← X.angles]

/-- The three symmetries as maps of the walks. -/
theorem movesSym_leftRight {p : Params ℝ} (hv : ValidParams p) (hT : DefaultTables p) (hP : initParticles Arith.exact F p = .ok P)
    (hE : Enclosed Arith.exact F R C P) : ∃ P', initParticles Arith.exact F p.mirrorLR = .ok P' ∧ MovesSym F R C R C P P' (cellLR C) := by
  obtain ⟨P', hP', hr, hc, hw⟩ := C09_mirror_leftRight hv hT hP
  obtain ⟨P2, hP2, -, -, -, -, hct, -⟩ := init_act (swap := false) (φ := phiLR)
    (fun L W i j hi hj => by
      simp only [cond] at hi hj
      rw [Bool.eq_iff_iff, interiorB_iff, interiorB_iff]; simp only [phiLR, cond]; omega) (actLR p) hP (fun u v h => flowLR h)
  rw [hP'] at hP2
  cases hP2
  have hB : Built Arith.exact F P := ⟨p, hv, hP⟩
  have hB' : Built Arith.exact F P' := ⟨_, validLR hv, hP'⟩
  have G := hB.good
  have G' := hB'.good
  rw [hE.rows] at hr
  rw [hE.cols] at hc
  simp only [cond, hE.rows, hE.cols, phiLR] at hct
  have g1 := G.ct_rows
  have g2 := G.ct_cols
  have g3 := G'.ct_rows
  have g4 := G'.ct_cols
  rw [hE.rows] at g1
  rw [hE.cols] at g2
  rw [hr] at g3
  rw [hc] at g4
  have hring : EdgeRing P' := by
    intro i j hi hj ho
    rw [g3] at hi ho
    rw [g4] at hj ho
    rw [hct i j hi hj]
    exact hE.ring i (C - 1 - j) (by omega) (by omega) (by rw [g1, g2]; omega)
  obtain ⟨hE', hs⟩ := enclosed_of (validLR hv) hP hP' hE hr hc hring rfl rfl rfl rfl rfl rfl
  refine ⟨P', hP', hE', hs, fun q => by unfold Inside cellLR; simp only; omega, fun hst q q' hq => ?_⟩
  obtain ⟨a, b, rfl, ha, ha', hb, hb'⟩ := hq.nat
  have hin : Interior P a b := ⟨ha, by rw [hE.rows]; exact ha', hb, by rw [hE.cols]; exact hb'⟩
  have hin' : Interior P' a (C - 1 - b) := by unfold Interior; rw [hr, hc]; omega
  refine moveProb_sym hst (by rw [hs, hst]) (a' := a) (b' := C - 1 - b) (π := mirrorK) (fun p => by unfold cellLR; ext <;> simp)
    (by unfold cellLR; ext <;> simp; omega) (fun k hk => by unfold mirrorK; omega) ?_ (fun k hk => ?_) (fun k hk => ?_) q'
  · unfold NearEdge
    rw [g1, g2, g3, g4]
    constructor
    · rintro ⟨i, j, hi, hj, h1, h2, h3⟩
      exact ⟨i, C - 1 - j, hi, by omega, h1, by omega, by rw [← hct i j hi hj]; exact h3⟩
    · rintro ⟨i, j, hi, hj, h1, h2, h3⟩
      refine ⟨i, C - 1 - j, hi, by omega, h1, by omega, ?_⟩
      rw [hct i _ hi (by omega), show C - 1 - (C - 1 - j) = j by omega]
      exact h3
  · refine weight_of_nanTo0 hB hB' hin hin' (by unfold mirrorK; omega) hk ?_
    rw [hw a (C - 1 - b) hin' k hk, hE.cols, show C - 1 - (C - 1 - b) = b by omega]
  · unfold cellLR Flow.nr Flow.nc mirrorK
    ext <;> simp only <;> omega

theorem movesSym_upDown {p : Params ℝ} (hv : ValidParams p) (hT : DefaultTables p) (hP : initParticles Arith.exact F p = .ok P)
    (hE : Enclosed Arith.exact F R C P) : ∃ P', initParticles Arith.exact F p.mirrorUD = .ok P' ∧ MovesSym F R C R C P P' (cellUD R) := by
  obtain ⟨P', hP', hr, hc, hw⟩ := C09_mirror_upDown hv hT hP
  obtain ⟨P2, hP2, -, -, -, -, hct, -⟩ := init_act (swap := false) (φ := phiUD)
    (fun L W i j hi hj => by
      simp only [cond] at hi hj
      rw [Bool.eq_iff_iff, interiorB_iff, interiorB_iff]; simp only [phiUD, cond]; omega) (actUD p) hP (fun u v h => flowUD h)
  rw [hP'] at hP2
  cases hP2
  have hB : Built Arith.exact F P := ⟨p, hv, hP⟩
  have hB' : Built Arith.exact F P' := ⟨_, validUD hv, hP'⟩
  have G := hB.good
  have G' := hB'.good
  rw [hE.rows] at hr
  rw [hE.cols] at hc
  simp only [cond, hE.rows, hE.cols, phiUD] at hct
  have g1 := G.ct_rows
  have g2 := G.ct_cols
  have g3 := G'.ct_rows
  have g4 := G'.ct_cols
  rw [hE.rows] at g1
  rw [hE.cols] at g2
  rw [hr] at g3
  rw [hc] at g4
  have hring : EdgeRing P' := by
    intro i j hi hj ho
    rw [g3] at hi ho
    rw [g4] at hj ho
    rw [hct i j hi hj]
    exact hE.ring (R - 1 - i) j (by omega) (by omega) (by rw [g1, g2]; omega)
  obtain ⟨hE', hs⟩ := enclosed_of (validUD hv) hP hP' hE hr hc hring rfl rfl rfl rfl rfl rfl
  refine ⟨P', hP', hE', hs, fun q => by unfold Inside cellUD; simp only; omega, fun hst q q' hq => ?_⟩
  obtain ⟨a, b, rfl, ha, ha', hb, hb'⟩ := hq.nat
  have hin : Interior P a b := ⟨ha, by rw [hE.rows]; exact ha', hb, by rw [hE.cols]; exact hb'⟩
  have hin' : Interior P' (R - 1 - a) b := by unfold Interior; rw [hr, hc]; omega
  refine moveProb_sym hst (by rw [hs, hst]) (a' := R - 1 - a) (b' := b) (π := flipK) (fun p => by unfold cellUD; ext <;> simp)
    (by unfold cellUD; ext <;> simp; omega) (fun k hk => by unfold flipK; omega) ?_ (fun k hk => ?_) (fun k hk => ?_) q'
  · unfold NearEdge
    rw [g1, g2, g3, g4]
    constructor
    · rintro ⟨i, j, hi, hj, h1, h2, h3⟩
      exact ⟨R - 1 - i, j, by omega, hj, by omega, h2, by rw [← hct i j hi hj]; exact h3⟩
    · rintro ⟨i, j, hi, hj, h1, h2, h3⟩
      refine ⟨R - 1 - i, j, by omega, hj, by omega, h2, ?_⟩
      rw [hct _ j (by omega) hj, show R - 1 - (R - 1 - i) = i by omega]
      exact h3
  · refine weight_of_nanTo0 hB hB' hin hin' (by unfold flipK; omega) hk ?_
    rw [hw (R - 1 - a) b hin' k hk, hE.rows, show R - 1 - (R - 1 - a) = a by omega]
  · unfold cellUD Flow.nr Flow.nc flipK
    ext <;> simp only <;> omega

theorem movesSym_transposition {p : Params ℝ} (hv : ValidParams p) (hT : DefaultTables p) (hP : initParticles Arith.exact F p = .ok P)
    (hE : Enclosed Arith.exact F R C P) : ∃ P', initParticles Arith.exact F p.transpose = .ok P' ∧ MovesSym F R C C R P P' cellT := by
  obtain ⟨P', hP', hr, hc, hw⟩ := C09_transposition hv hT hP
  obtain ⟨P2, hP2, -, -, -, -, hct, -⟩ := init_act (swap := true) (φ := phiT)
    (fun L W i j hi hj => by
      simp only [cond] at hi hj
      rw [Bool.eq_iff_iff, interiorB_iff, interiorB_iff]; simp only [phiT, cond]; omega) (actT p) hP (fun u v h => flowT h)
  rw [hP'] at hP2
  cases hP2
  have hB : Built Arith.exact F P := ⟨p, hv, hP⟩
  have hB' : Built Arith.exact F P' := ⟨_, validT hv, hP'⟩
  have G := hB.good
  have G' := hB'.good
  rw [hE.cols] at hr
  rw [hE.rows] at hc
  simp only [cond, hE.rows, hE.cols, phiT] at hct
  have g1 := G.ct_rows
  have g2 := G.ct_cols
  have g3 := G'.ct_rows
  have g4 := G'.ct_cols
  rw [hE.rows] at g1
  rw [hE.cols] at g2
  rw [hr] at g3
  rw [hc] at g4
  have hring : EdgeRing P' := by
    intro i j hi hj ho
    rw [g3] at hi ho
    rw [g4] at hj ho
    rw [hct i j hi hj]
    exact hE.ring j i (by omega) (by omega) (by rw [g1, g2]; omega)
  obtain ⟨hE', hs⟩ := enclosed_of (validT hv) hP hP' hE hr hc hring rfl rfl rfl rfl rfl rfl
  refine ⟨P', hP', hE', hs, fun q => by unfold Inside cellT; simp only; omega, fun hst q q' hq => ?_⟩
  obtain ⟨a, b, rfl, ha, ha', hb, hb'⟩ := hq.nat
  have hin : Interior P a b := ⟨ha, by rw [hE.rows]; exact ha', hb, by rw [hE.cols]; exact hb'⟩
  have hin' : Interior P' b a := by unfold Interior; rw [hr, hc]; omega
  refine moveProb_sym hst (by rw [hs, hst]) (a' := b) (b' := a) (π := transpK) (fun p => rfl) rfl
    (fun k hk => by unfold transpK; omega) ?_ (fun k hk => ?_) (fun k hk => ?_) q'
  · unfold NearEdge
    rw [g1, g2, g3, g4]
    constructor
    · rintro ⟨i, j, hi, hj, h1, h2, h3⟩
      exact ⟨j, i, hj, hi, h2, h1, by rw [← hct i j hi hj]; exact h3⟩
    · rintro ⟨i, j, hi, hj, h1, h2, h3⟩
      exact ⟨j, i, hj, hi, h2, h1, by rw [hct j i hj hi]; exact h3⟩
  · refine weight_of_nanTo0 hB hB' hin hin' (by unfold transpK; omega) hk ?_
    rw [hw b a hin' k hk]
  · unfold cellT Flow.nr Flow.nc transpK
    ext <;> simp only <;> omega

/-- `P'` has the walks of `P` mapped by `m`, in law: `N` particles anywhere inside the domain of `P` and `N` particles at the mapped positions in that of
`P'`, after any history; then for every `n` and every joint path the probability of the path over `n` iterations is the probability of the mapped path. -/
def MirroredWalks (F : Fun ℝ Arith.exact) (R C R' C' : Nat) (P P' : PObj ℝ) (m : Int × Int → Int × Int) : Prop :=
  ∀ (s s' : PState ℝ) (wd wd' : WalkData ℝ), Reach Arith.exact F (Enclosed Arith.exact F R C) Draws (InsideSeeds R C) P s →
    Reach Arith.exact F (Enclosed Arith.exact F R' C') Draws (InsideSeeds R' C') P' s' → s.walk = some wd → s'.walk = some wd' →
    wd'.xinds.length = wd.xinds.length → ∀ (n : Nat) (path : Nat → Nat → Int × Int),
    (∀ i, i < wd.xinds.length → wd.lastPos i = some (path 0 i) ∧ wd'.lastPos i = some (m (path 0 i))) →
    uniformDraws {ω | Follows Arith.exact F P' ω s' n fun j i => m (path j i)} = uniformDraws {ω | Follows Arith.exact F P ω s n path}

/-- The domain mirrored left-right has the mirrored walks. -/
theorem C09_walks_leftRight {p : Params ℝ} (hv : ValidParams p) (hT : DefaultTables p) (hP : initParticles Arith.exact F p = .ok P)
    (hE : Enclosed Arith.exact F R C P) (hst : P.steepest = false) :
    ∃ P', initParticles Arith.exact F p.mirrorLR = .ok P' ∧ Enclosed Arith.exact F R C P' ∧ MirroredWalks F R C R C P P' (cellLR C) := by
  obtain ⟨P', hP', S⟩ := movesSym_leftRight hv hT hP hE
  exact ⟨P', hP', S.enclosed, fun s s' wd wd' h h' hwd hwd' hN n path h0 => law_sym S h h' hst hwd hwd' hN n path h0⟩

/-- The domain mirrored up-down has the mirrored walks. -/
theorem C09_walks_upDown {p : Params ℝ} (hv : ValidParams p) (hT : DefaultTables p) (hP : initParticles Arith.exact F p = .ok P)
    (hE : Enclosed Arith.exact F R C P) (hst : P.steepest = false) :
    ∃ P', initParticles Arith.exact F p.mirrorUD = .ok P' ∧ Enclosed Arith.exact F R C P' ∧ MirroredWalks F R C R C P P' (cellUD R) := by
  obtain ⟨P', hP', S⟩ := movesSym_upDown hv hT hP hE
  exact ⟨P', hP', S.enclosed, fun s s' wd wd' h h' hwd hwd' hN n path h0 => law_sym S h h' hst hwd hwd' hN n path h0⟩

/-- The transposed domain has the transposed walks. -/
theorem C09_walks_transposition {p : Params ℝ} (hv : ValidParams p) (hT : DefaultTables p) (hP : initParticles Arith.exact F p = .ok P)
    (hE : Enclosed Arith.exact F R C P) (hst : P.steepest = false) :
    ∃ P', initParticles Arith.exact F p.transpose = .ok P' ∧ Enclosed Arith.exact F C R P' ∧ MirroredWalks F R C C R P P' cellT := by
  obtain ⟨P', hP', S⟩ := movesSym_transposition hv hT hP hE
  exact ⟨P', hP', S.enclosed, fun s s' wd wd' h h' hwd hwd' hN n path h0 => law_sym S h h' hst hwd hwd' hN n path h0⟩

/-! ## Concrete case -/

/-- The channel of C75 upside down. -/
noncomputable def realObjUD : PObj ℝ := (initParticles Arith.exact Fun.real realChan.mirrorUD).toOption.get rfl

theorem realObjUD_init : initParticles Arith.exact Fun.real realChan.mirrorUD = .ok realObjUD := rfl

/-- C09: one particle at the centre of the channel, which flows to increasing rows, moves one row down with probability one half; in the channel upside
down it moves one row up with the same probability. -/
example : ∃ s : PState ℝ, Reach Arith.exact Fun.real (Enclosed Arith.exact Fun.real 5 5) Draws (InsideSeeds 5 5) realObjUD s ∧
    uniformDraws {ω | Follows Arith.exact Fun.real realObjUD ω s 1 fun j _ => if j = 0 then (2, 2) else (1, 2)} = ENNReal.ofReal (1 / 2) := by
  obtain ⟨P', hP', hE', hM⟩ := C09_walks_upDown realChan_valid ⟨rfl, rfl, rfl⟩ realObj_init realObj_enclosed rfl
  rw [realObjUD_init] at hP'
  cases hP'
  have hc : genInputCheck (K := ℝ) (.int 1) (.list [.int 2]) (.list [.int 2]) (.int 0) (.str "exact") =
    .ok (1, [2], [2], .fin ((0 : Int) : ℝ), .exact) := rfl
  have hin : ∀ P : PObj ℝ, InsideSeeds 5 5 P [2] [2] (.fin ((0 : Int) : ℝ)) := by
    intro P x hx y hy
    simp at hx hy
    subst hx hy
    unfold Inside
    decide
  obtain ⟨s0, h0, wd, hwd, hlen, hl0⟩ : ∃ s0, generateParticles Arith.exact realObj (fun _ => 1 / 2) (initState Arith.exact Fun.real realObj 0) (.int 1)
    (.list [.int 2]) (.list [.int 2]) (.int 0) (.str "exact") none = .ok s0 ∧
      ∃ wd, s0.walk = some wd ∧ wd.xinds.length = 1 ∧ wd.lastPos 0 = some (2, 2) := ⟨_, rfl, _, rfl, rfl, rfl⟩
  obtain ⟨s1, h1, wd1, hwd1, hlen1, hl1⟩ : ∃ s1, generateParticles Arith.exact realObjUD (fun _ => 1 / 2) (initState Arith.exact Fun.real realObjUD 0) (.int 1)
    (.list [.int 2]) (.list [.int 2]) (.int 0) (.str "exact") none = .ok s1 ∧
      ∃ wd, s1.walk = some wd ∧ wd.xinds.length = 1 ∧ wd.lastPos 0 = some (2, 2) := ⟨_, rfl, _, rfl, rfl, rfl⟩
  have r0 : Reach Arith.exact Fun.real (Enclosed Arith.exact Fun.real 5 5) Draws (InsideSeeds 5 5) realObj s0 :=
    .generate (.new 0 realObj_enclosed) (fun _ => by norm_num) hc (by norm_num) (hin _) h0
  have r1 : Reach Arith.exact Fun.real (Enclosed Arith.exact Fun.real 5 5) Draws (InsideSeeds 5 5) realObjUD s1 :=
    .generate (.new 0 hE') (fun _ => by norm_num) hc (by norm_num) (hin _) h1
  refine ⟨s1, r1, ?_⟩
  have := hM s0 s1 wd wd1 r0 r1 hwd hwd1 (by rw [hlen, hlen1]) 1 (fun j _ => if j = 0 then (2, 2) else (3, 2)) (by
    intro i hi
    rw [hlen] at hi
    interval_cases i
    exact ⟨hl0, hl1⟩)
  have e : (fun (j _ : Nat) => cellUD 5 (if j = 0 then (2, 2) else (3, 2))) = fun (j _ : Nat) => if j = 0 then ((2, 2) : Int × Int) else (1, 2) := by
    funext j _
    split_ifs <;> rfl
  rw [e] at this
  rw [this, C75_law r0 hwd hlen 1 _ (by
    intro i hi
    interval_cases i
    exact hl0)]
  rw [prod_range_one, prod_range_one]
  simp only [if_true, one_ne_zero, if_false, Nat.zero_add]
  exact realObj_half

end Dorado
