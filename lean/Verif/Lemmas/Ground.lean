import Verif.Spec.Ground
import Verif.Lemmas.Elsewhere
import Verif.Lemmas.Twin

/-! # The dry depth and the cell types in the weights and at the edges (for C125) -/

set_option linter.unusedSectionVars false

namespace Dorado

section weights

variable {K : Type} [Field K] [LinearOrder K] [IsStrictOrderedRing K] [FloorRing K] {A : Arith K} {F : Fun K A} {p : Params K} {P P' : PObj K}

/-- Only the two attributes change. -/
theorem init_ground {dd : Option K} {ct : Option (Grid Int)} (hP : initParticles A F p = .ok P)
    (hP' : initParticles A F { p with dryDepth := dd, cellType := ct } = .ok P') : P' = { P with dryDepth := P'.dryDepth, cellType := P'.cellType } := by
  unfold initParticles at hP hP'
  simp only [bind_ok, pure_ok, Prod.exists] at hP hP'
  obtain ⟨dx, h1, d, h2, s, h3, qx, qy, u, v, h4, r, h5, c, h6, rfl⟩ := hP
  obtain ⟨dx', g1, d', g2, s', g3, qx', qy', u', v', g4, r', g5, c', g6, rfl⟩ := hP'
  have e1 : dx' = dx := Except.ok.inj (g1.symm.trans h1)
  have e2 : d' = d := Except.ok.inj (g2.symm.trans h2)
  subst e1 e2
  have e3 : s' = s := Except.ok.inj (g3.symm.trans h3)
  have e4 : (qx', qy', u', v') = (qx, qy, u, v) := Except.ok.inj (g4.symm.trans h4)
  cases e3
  cases e4
  rfl

/-- What the constructor makes of given and missing cell types. -/
theorem init_ct (hP : initParticles A F p = .ok P) : P.dryDepth = p.dryDepth.getD (A.rnd (1 / 10)) ∧
    ((∃ g, p.cellType = some g ∧ P.cellType = g) ∨ p.cellType = none ∧ P.cellType = defaultCellType P.depth P.dryDepth) := by
  unfold initParticles at hP
  simp only [bind_ok, pure_ok, Prod.exists] at hP
  obtain ⟨dx, h1, d, h2, s, h3, qx, qy, u, v, h4, r, h5, c, h6, rfl⟩ := hP
  refine ⟨rfl, ?_⟩
  obtain ⟨h, -⟩ | ⟨h, -, -, rfl⟩ := initCellType_ok.1 h6
  · exact Or.inl ⟨_, h, rfl⟩
  · exact Or.inr ⟨h, rfl⟩

theorem dryMask_ground (G : Good P) (G' : Good P') (hd : P'.depth = P.depth) (S : SameGround P P') {i j k : Nat} (hk : k < 9) :
    dryMask P' i j k = dryMask P i j k := by
  unfold dryMask bigSlidingWindow bigSlidingWindowInt
  rw [G'.ct_rows, G'.ct_cols, G.ct_rows, G.ct_cols, hd]
  by_cases hi : interiorB P.depth.rows P.depth.cols i j
  · simp only [hi, if_true]
    have hb := hi
    simp only [interiorB, decide_eq_true_eq] at hb
    have hr : winRow i k < P.depth.rows := by unfold winRow; omega
    have hc : winCol j k < P.depth.cols := by unfold winCol; omega
    have key : ∀ Q : PObj K, Q.depth = P.depth → ((Fl.le (P.depth.at' (winRow i k) (winCol j k)) (.fin Q.dryDepth) || Q.cellType.at' (winRow i k) (winCol j k) == 2) = true ↔
        Impassable Q (winRow i k) (winCol j k)) := by
      intro Q hQ
      obtain ⟨d, e⟩ := G.depth_fin _ _ hr hc
      unfold Impassable
      rw [hQ, e]
      simp [Fl.le]
    rw [Bool.eq_iff_iff, key P' hd, key P rfl, S.impassable _ _ hr hc]
  · simp only [hi]
    have h1 := G.dry_nonneg
    have h2 := G'.dry_nonneg
    simp [Fl.le, h1, h2]

theorem makeWeight_ground (G : Good P) (G' : Good P') (hP' : P' = { P with dryDepth := P'.dryDepth, cellType := P'.cellType }) (S : SameGround P P') {i j k : Nat}
    (hk : k < 9) : makeWeight A F P' i j k = makeWeight A F P i j k := by
  have hd : P'.depth = P.depth := by rw [hP']
  have hs : P'.stage = P.stage := by rw [hP']
  have hm := fun k (hk : k < 9) => dryMask_ground G G' hd S (i := i) (j := j) hk
  refine makeWeight_congr A F (by rw [hs]) (by rw [hs]) (fun k hk => ?_) (Or.inr fun k _ => by rw [hd]) hk
  refine weightFlow_congr A F (by rw [hP']) (by rw [hP']) hm (fun k _ => Or.inl (by rw [hd])) (fun k _ => Or.inl ?_) (fun k _ => Or.inl ?_) hk <;> rw [hP'] <;> rfl

theorem edges_ground (G : Good P) (G' : Good P') (hd : P'.depth = P.depth) (S : SameGround P P') : edgeInWindow P'.cellType = edgeInWindow P.cellType := by
  funext x y
  unfold edgeInWindow
  have r := G.ct_rows
  have c := G.ct_cols
  have r' := G'.ct_rows
  have c' := G'.ct_cols
  rw [hd] at r' c'
  rw [Bool.eq_iff_iff]
  simp only [List.any_eq_true, List.mem_range, Bool.and_eq_true, decide_eq_true_eq, beq_iff_eq, r, c, r', c']
  refine exists_congr fun i => and_congr_right fun h1 => exists_congr fun j => and_congr_right fun h2 => and_congr_right fun _ => S.edge i j h1 h2

theorem twin_ground (G : Good P) (G' : Good P') (e : P' = { P with dryDepth := P'.dryDepth, cellType := P'.cellType }) (S : SameGround P P') : Twin A F Eq P P' where
  good := G
  good' := G'
  rows := by rw [e]
  cols := by rw [e]
  steepest := by rw [e]
  iwalk := by rw [e]
  jwalk := by rw [e]
  distances := by rw [e]
  dx := by rw [e]
  edges := edges_ground G G' (by rw [e]) S
  vars := by rw [e]
  roi := by rw [e]
  verbose := by rw [e]
  avail w _ := by
    unfold availVar
    rw [e]
  weight i j _ _ k hk := congrArg Fl.nanTo0 (makeWeight_ground G G' e S hk)
  time _ ω cell a b d := Twin.sameTime (by rw [e]) (by rw [e]) (by rw [e]) (by rw [e]) (fun _ _ h => h.2.2) (fun _ _ _ h => ⟨h.1, h.2.1, rfl⟩) ω cell a b d

end weights

noncomputable section

variable {A : Arith ℝ} {F : Fun ℝ A} {P P' : PObj ℝ} {R C : Nat}

theorem moves_ground (hE : Enclosed A F R C P) (hB' : Built A F P') (hP' : P' = { P with dryDepth := P'.dryDepth, cellType := P'.cellType }) (S : SameGround P P') :
    MovesSame A F (Inside R C) P P' := by
  have G := hE.built.good
  have G' := hB'.good
  have hR := hE.rows
  have hC := hE.cols
  have hd : P'.depth = P.depth := by rw [hP']
  have hedge : ∀ q, Inside R C q → edgeInWindow P'.cellType q.1 q.2 = edgeInWindow P.cellType q.1 q.2 := by
    intro q _
    rw [edges_ground G G' hd S]
  have e1 : P'.distances = P.distances := by rw [hP']
  have e2 : P'.dx = P.dx := by rw [hP']
  have e3 : P'.iwalk = P.iwalk := by rw [hP']
  have e4 : P'.jwalk = P.jwalk := by rw [hP']
  have e5 : P'.stage = P.stage := by rw [hP']
  have e6 : P'.steepest = P.steepest := by rw [hP']
  have e7 : P'.velocity = P.velocity := by rw [hP']
  have e8 : P'.velocityAngle = P.velocityAngle := by rw [hP']
  have e9 : P'.angles = P.angles := by rw [hP']
  have e10 : P'.diffCoeff = P.diffCoeff := by rw [hP']
  have hdest : ∀ q, Inside R C q → ∀ k, destOf A P' q k = destOf A P q k := by
    intro q hq k
    unfold destOf newInd1 calculateNewInd checkForBoundary1
    rw [e1, e2, e3, e4, hedge q hq]
  refine ⟨?_, hdest, ?_, hedge, e10⟩
  · rintro ⟨x, y⟩ hi u
    simp only [Inside] at hi
    have sr := G.stage_rows
    have sc := G.stage_cols
    unfold pickOf
    rw [e5]
    have a1 : pyIdx P.stage.rows x = .ok x.toNat := if_pos (by omega)
    have a2 : pyIdx P.stage.cols y = .ok y.toNat := if_pos (by omega)
    simp only [a1, a2]
    have hwt : ∀ k, k < 9 → makeWeight A F P' x.toNat y.toNat k = makeWeight A F P x.toNat y.toNat k := fun k hk => makeWeight_ground G G' hP' S hk
    have hm : ∀ k, k < 9 → maskOf P' (makeWeight A F P' x.toNat y.toNat) k = maskOf P (makeWeight A F P x.toNat y.toNat) k := by
      intro k hk
      unfold maskOf
      rw [e6]
      split
      · exact steepMask_congr hwt hk
      · unfold zeroNan
        exact congrArg Fl.nanTo0 (hwt k hk)
    rw [pickFrom_congr A hm]
  · intro q hq k v
    unfold durOf
    rw [e1, e2, hdest q hq k]
    have hcalc : ∀ d, calcTravelTime A F P' (fun _ => v) 0 k q (destOf A P q k) d = calcTravelTime A F P (fun _ => v) 0 k q (destOf A P q k) d := by
      intro d
      unfold calcTravelTime
      rw [e7, e8, e9, e10]
    simp only [hcalc]

end

end Dorado
