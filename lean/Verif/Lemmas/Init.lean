import Verif.Lemmas.Weight

/-! Helper lemmas: what the constructor establishes. -/

set_option linter.unusedSectionVars false

namespace Dorado

variable {K : Type} [Field K] [LinearOrder K] [IsStrictOrderedRing K] (A : Arith K) (F : Fun K A)

theorem eps8_pos : (0 : K) < eps8 A := A.tiny.trans_le (A.mono _ _ (div_le_div_of_nonneg_left (by norm_num) (by norm_num) (by norm_num)))

/-- Every in-range entry is finite. -/
def Grid.AllFin (g : Grid (Fl K)) : Prop := ∀ i j, i < g.rows → j < g.cols → ∃ x, g.at' i j = .fin x

theorem nanZeroGrid_fin {g : Grid (Fl K)} (h : g.FinOrNan) : (nanZeroGrid g).AllFin := by
  intro i j hi hj
  rcases h i j hi hj with h | ⟨x, h⟩
  · exact ⟨0, by simp [nanZeroGrid, Grid.map, h, Fl.nanTo0, Fl.isNan]⟩
  · exact ⟨x, by simp [nanZeroGrid, Grid.map, h, Fl.nanTo0, Fl.isNan]⟩

theorem Grid.AllFin.finOrNan {g : Grid (Fl K)} (h : g.AllFin) : g.FinOrNan := fun i j hi hj => Or.inr (h i j hi hj)

theorem needShape_ok {α β : Type} {g : Grid α} {h : Grid β} {u : Unit} :
    needShape g h = .ok u ↔ g.rows = h.rows ∧ g.cols = h.cols := by
  unfold needShape Grid.sameShape
  simp only [Bool.and_eq_true, beq_iff_eq]
  split <;> simp_all

theorem negGrid_fin {g : Grid (Fl K)} (h : g.FinOrNan) : (negGrid g).FinOrNan := by
  intro i j hi hj
  rcases h i j hi hj with h | ⟨x, h⟩
  · exact Or.inl (by simp [negGrid, Grid.map, h, Fl.neg])
  · exact Or.inr ⟨-x, by simp [negGrid, Grid.map, h, Fl.neg]⟩

theorem initDepth_inv {p : Params K} (hv : ValidParams p) {d : Grid (Fl K)} (h : initDepth A p = .ok d) :
    d.AllFin ∧ (∀ g, p.depth = some g → d.rows = g.rows ∧ d.cols = g.cols) ∧
    (p.depth = none → ∀ i j x, d.at' i j = .fin x → 0 ≤ x) := by
  unfold initDepth at h
  split at h
  · rename_i g hg
    injection h with h
    subst h
    refine ⟨nanZeroGrid_fin (hv.depth _ hg), fun g' hg' => ?_, by simp [hg]⟩
    rw [hg] at hg'
    injection hg' with hg'
    subst hg'
    exact ⟨rfl, rfl⟩
  · rename_i s t hd hs ht
    simp only [bind_ok, pure_ok] at h
    obtain ⟨u, hu, rfl⟩ := h
    rw [needShape_ok] at hu
    refine ⟨nanZeroGrid_fin ?_, by simp [hd], fun _ => ?_⟩
    · intro i j hi hj
      simp only [Grid.map, Grid.zip] at hi hj ⊢
      have h1 := hv.stage _ hs i j hi hj
      have h2 := hv.topography _ ht i j (by omega) (by omega)
      have : ∀ a : Fl K, (a = .nan ∨ ∃ x, a = .fin x) → ((if Fl.lt a (.fin 0) then (.fin 0 : Fl K) else a) = .nan ∨ ∃ x, (if Fl.lt a (.fin 0) then (.fin 0 : Fl K) else a) = .fin x) := by
        intro a ha
        split
        · exact Or.inr ⟨0, rfl⟩
        · exact ha
      apply this
      unfold Arith.sub
      exact add_nanfin A h1 (neg_nanfin h2)
    · intro i j x hx
      revert hx
      simp only [nanZeroGrid, Grid.map, Grid.zip]
      have key : ∀ a : Fl K, (if Fl.lt a (.fin 0) then (.fin 0 : Fl K) else a).nanTo0 = .fin x → 0 ≤ x := ?_
      · exact key _
      intro a hx
      cases a with
      | nan => simp [Fl.lt, Fl.nanTo0, Fl.isNan] at hx; rw [← hx]
      | ninf => simp [Fl.lt, Fl.nanTo0, Fl.isNan] at hx; rw [← hx]
      | pinf => simp [Fl.lt, Fl.nanTo0, Fl.isNan] at hx
      | fin y =>
        by_cases hy : y < 0
        · simp [Fl.lt, Fl.nanTo0, Fl.isNan, hy] at hx; rw [← hx]
        · simp [Fl.lt, Fl.nanTo0, Fl.isNan, hy] at hx; rw [← hx]; exact not_lt.1 hy
  · cases h

theorem stageNan_fin {s d : Grid (Fl K)} (h : s.FinOrNan) : (stageNan s d).FinOrNan := by
  intro i j hi hj
  simp only [stageNan, Grid.zip] at hi hj ⊢
  split
  · exact Or.inl rfl
  · exact h i j hi hj

theorem initStage_inv {p : Params K} (hv : ValidParams p) {d s : Grid (Fl K)} (hd : d.AllFin) (h : initStage A p d = .ok s) :
    s.FinOrNan ∧ s.rows = d.rows ∧ s.cols = d.cols ∧ ∃ s0, s = stageNan s0 d := by
  unfold initStage at h
  split at h
  · rename_i g hg
    simp only [bind_ok, pure_ok] at h
    obtain ⟨u, hu, rfl⟩ := h
    rw [needShape_ok] at hu
    exact ⟨stageNan_fin (hv.stage _ hg), hu.1, hu.2, g, rfl⟩
  · rename_i t g _ ht _
    simp only [bind_ok, pure_ok] at h
    obtain ⟨u, hu, rfl⟩ := h
    rw [needShape_ok] at hu
    refine ⟨stageNan_fin ?_, hu.1, hu.2, _, rfl⟩
    intro i j hi hj
    simp only [Grid.zip] at hi hj ⊢
    exact add_nanfin A (hv.topography _ ht i j hi hj) (Or.inr (hd i j (by omega) (by omega)))
  · cases h

/-- Finite with the shape of `d`. -/
def FinLike (d g : Grid (Fl K)) : Prop := g.AllFin ∧ g.rows = d.rows ∧ g.cols = d.cols

theorem velFromQ_fin {q d : Grid (Fl K)} (hq : q.AllFin) (hd : d.AllFin) (hr : q.rows = d.rows) (hc : q.cols = d.cols) :
    FinLike d (velFromQ A q d) := by
  refine ⟨nanZeroGrid_fin ?_, hr, hc⟩
  intro i j hi hj
  simp only [Grid.zip] at hi hj ⊢
  obtain ⟨a, ha⟩ := hq i j hi hj
  obtain ⟨b, hb⟩ := hd i j (by omega) (by omega)
  rw [ha, hb]
  have hpos : 0 < A.rnd (A.rnd (b * b) + eps8 A) := by
    have h8 := eps8_pos A
    rw [show eps8 A = A.rnd (eps8 A) from (A.idem _).symm] at h8
    refine lt_of_lt_of_le h8 (A.mono _ _ ?_)
    have := rnd_nonneg (A := A) (mul_self_nonneg b)
    linarith
  right
  exact ⟨_, by simp [Arith.mul, Arith.add, Arith.div, ne_of_gt hpos]; rfl⟩

theorem flowFromQ_inv {a b d : Grid (Fl K)} (ha : a.FinOrNan) (hb : b.FinOrNan) (hd : d.AllFin)
    {qx qy u v : Grid (Fl K)} (h : flowFromQ A a b d = .ok (qx, qy, u, v)) :
    FinLike d qx ∧ FinLike d qy ∧ FinLike d u ∧ FinLike d v := by
  unfold flowFromQ at h
  simp only [bind_ok, pure_ok, Prod.mk.injEq, needShape_ok] at h
  obtain ⟨-, ⟨h1, h2⟩, -, ⟨h3, h4⟩, rfl, rfl, rfl, rfl⟩ := h
  refine ⟨⟨nanZeroGrid_fin ha, h1, h2⟩, ⟨nanZeroGrid_fin hb, h3, h4⟩, velFromQ_fin A (nanZeroGrid_fin ha) hd h1 h2,
    velFromQ_fin A (nanZeroGrid_fin hb) hd h3 h4⟩

theorem flowFromU_inv {a b d : Grid (Fl K)} (ha : a.FinOrNan) (hb : b.FinOrNan) (hd : d.AllFin)
    {qx qy u v : Grid (Fl K)} (h : flowFromU A a b d = .ok (qx, qy, u, v)) :
    FinLike d qx ∧ FinLike d qy ∧ FinLike d u ∧ FinLike d v := by
  unfold flowFromU at h
  simp only [bind_ok, pure_ok, Prod.mk.injEq, needShape_ok] at h
  obtain ⟨-, ⟨h1, h2⟩, -, ⟨h3, h4⟩, rfl, rfl, rfl, rfl⟩ := h
  have hmul : ∀ {g : Grid (Fl K)}, g.AllFin → g.rows = d.rows → g.cols = d.cols → FinLike d (Grid.zip A.mul g d) := by
    intro g hg hr hc
    refine ⟨fun i j hi hj => ?_, hr, hc⟩
    simp only [Grid.zip] at hi hj ⊢
    obtain ⟨x, hx⟩ := hg i j hi hj
    obtain ⟨y, hy⟩ := hd i j (by omega) (by omega)
    exact ⟨_, by rw [hx, hy]; rfl⟩
  exact ⟨hmul (nanZeroGrid_fin ha) h1 h2, hmul (nanZeroGrid_fin hb) h3 h4, ⟨nanZeroGrid_fin ha, h1, h2⟩, ⟨nanZeroGrid_fin hb, h3, h4⟩⟩

theorem initFlow_inv {p : Params K} (hv : ValidParams p) {d qx qy u v : Grid (Fl K)} (hd : d.AllFin)
    (h : initFlow A p d = .ok (qx, qy, u, v)) : FinLike d qx ∧ FinLike d qy ∧ FinLike d u ∧ FinLike d v := by
  unfold initFlow at h
  split at h
  · exact flowFromQ_inv A (hv.qx _ ‹_›) (hv.qy _ ‹_›) hd h
  · exact flowFromU_inv A (hv.u _ ‹_›) (hv.v _ ‹_›) hd h
  · exact flowFromQ_inv A (negGrid_fin (hv.qy _ ‹_›)) (hv.qx _ ‹_›) hd h
  · exact flowFromU_inv A (negGrid_fin (hv.v _ ‹_›)) (hv.u _ ‹_›) hd h
  · cases h

theorem clampSmall_fin {d g : Grid (Fl K)} (h : FinLike d g) : FinLike d (clampSmall A g) ∧
    ∀ i j x, i < d.rows → j < d.cols → (clampSmall A g).at' i j = .fin x → eps8 A ≤ |x| := by
  obtain ⟨h1, h2, h3⟩ := h
  have key : ∀ i j, i < d.rows → j < d.cols → ∃ x, (clampSmall A g).at' i j = .fin x ∧ eps8 A ≤ |x| := by
    intro i j hi hj
    obtain ⟨x, hx⟩ := h1 i j (by omega) (by omega)
    simp only [clampSmall, Grid.map, hx, Fl.abs, Fl.lt]
    by_cases hlt : max x (-x) < eps8 A
    · refine ⟨eps8 A, by simp [hlt], ?_⟩
      rw [abs_of_pos (eps8_pos A)]
    · exact ⟨x, by simp [hlt], not_lt.1 hlt⟩
  refine ⟨⟨fun i j hi hj => ?_, h2, h3⟩, fun i j x hi hj hx => ?_⟩
  · obtain ⟨x, hx, -⟩ := key i j (by simp only [clampSmall, Grid.map] at hi; omega) (by simp only [clampSmall, Grid.map] at hj; omega)
    exact ⟨x, hx⟩
  · obtain ⟨y, hy, hy'⟩ := key i j hi hj
    rw [hx] at hy
    injection hy with hy
    rw [hy]; exact hy'

theorem initVelocity_inv {d u v : Grid (Fl K)} (hu : FinLike d u) (hv : FinLike d v) :
    (initVelocity A F u v).rows = d.rows ∧ (initVelocity A F u v).cols = d.cols ∧
    ∀ i j, i < d.rows → j < d.cols → ∃ x, (initVelocity A F u v).at' i j = .fin x ∧ eps8 A ≤ x := by
  refine ⟨hu.2.1, hu.2.2, fun i j hi hj => ?_⟩
  obtain ⟨a, ha⟩ := hu.1 i j (by rw [hu.2.1]; exact hi) (by rw [hu.2.2]; exact hj)
  obtain ⟨b, hb⟩ := hv.1 i j (by rw [hv.2.1]; exact hi) (by rw [hv.2.2]; exact hj)
  simp only [initVelocity, Grid.map, Grid.zip, ha, hb, Arith.mul, Arith.add, npSqrt]
  have hnn : ¬ A.rnd (A.rnd (a * a) + A.rnd (b * b)) < 0 := by
    rw [not_lt]
    exact rnd_nonneg (add_nonneg (rnd_nonneg (mul_self_nonneg a)) (rnd_nonneg (mul_self_nonneg b)))
  simp only [hnn, if_false, Fl.lt]
  by_cases hlt : F.sqrt (A.rnd (A.rnd (a * a) + A.rnd (b * b))) < eps8 A
  · exact ⟨eps8 A, by simp [hlt], le_refl _⟩
  · exact ⟨_, by simp [hlt], not_lt.1 hlt⟩

/-- Everything the constructor establishes. -/
structure Fields (P : PObj K) : Prop where
  good : Good P
  qx : FinLike P.depth P.qx
  qy : FinLike P.depth P.qy
  u : FinLike P.depth P.u
  v : FinLike P.depth P.v
  u_abs : ∀ i j x, i < P.depth.rows → j < P.depth.cols → P.u.at' i j = .fin x → eps8 A ≤ |x|
  v_abs : ∀ i j x, i < P.depth.rows → j < P.depth.cols → P.v.at' i j = .fin x → eps8 A ≤ |x|
  vel_rows : P.velocity.rows = P.depth.rows
  vel_cols : P.velocity.cols = P.depth.cols
  vel : ∀ i j, i < P.depth.rows → j < P.depth.cols → ∃ x, P.velocity.at' i j = .fin x ∧ eps8 A ≤ x
  ang : FinLike P.depth P.velocityAngle
  roi : ∀ g, P.roi = some g → g.rows = P.depth.rows ∧ g.cols = P.depth.cols
  stage_nan : ∀ i j, P.depth.at' i j = .fin 0 → P.stage.at' i j = .nan
  diff : 0 ≤ P.diffCoeff

theorem initCellType_ok {p : Params K} {d : Grid (Fl K)} {dry : K} {c : Grid Int} : initCellType p d dry = .ok c ↔
    (p.cellType = some c ∧ c.rows = d.rows ∧ c.cols = d.cols ∧ d.rows ≠ 0 ∧ d.cols ≠ 0) ∨
    (p.cellType = none ∧ 2 ≤ d.rows ∧ 2 ≤ d.cols ∧ c = defaultCellType d dry) := by
  unfold initCellType
  cases h : p.cellType with
  | none =>
    by_cases hb : d.rows < 2 ∨ d.cols < 2
    · simp only [if_pos hb, reduceCtorEq, false_and, true_and, false_or, false_iff]
      omega
    · simp only [if_neg hb, Except.ok.injEq, reduceCtorEq, false_and, true_and, false_or]
      refine ⟨fun h => ⟨by omega, by omega, h.symm⟩, fun h => h.2.2.symm⟩
  | some c' =>
    by_cases hb : d.rows = 0 ∨ d.cols = 0
    · simp only [if_pos hb, bind_ok, reduceCtorEq, and_false, exists_false, false_and, or_false, false_iff]
      omega
    · simp only [if_neg hb, bind_ok, pure_ok, needShape_ok, reduceCtorEq, false_and, or_false, Option.some.injEq]
      constructor
      · rintro ⟨-, ⟨h1, h2⟩, rfl⟩; exact ⟨rfl, h1, h2, by omega, by omega⟩
      · rintro ⟨rfl, h1, h2, -, -⟩; exact ⟨(), ⟨h1, h2⟩, rfl⟩

theorem initParticles_inv {p : Params K} (hv : ValidParams p) {P : PObj K} (h : initParticles A F p = .ok P) :
    Fields A P := by
  unfold initParticles at h
  simp only [bind_ok, pure_ok, Prod.exists] at h
  obtain ⟨dx, hdx, d, hd, s, hs, qx, qy, u, v, hf, ru, hroi, ct, hct, rfl⟩ := h
  obtain ⟨hd1, hd2, hd3⟩ := initDepth_inv A hv hd
  obtain ⟨hs1, hs2, hs3, s0, hs4⟩ := initStage_inv A hv hd1 hs
  obtain ⟨hqx, hqy, hu, hvv⟩ := initFlow_inv A hv hd1 hf
  obtain ⟨hcu, hcu'⟩ := clampSmall_fin A hu
  obtain ⟨hcv, hcv'⟩ := clampSmall_fin A hvv
  obtain ⟨hv1, hv2, hv3⟩ := initVelocity_inv A F hu hvv
  have hctr : ct.rows = d.rows ∧ ct.cols = d.cols := by
    obtain ⟨-, h1, h2, -⟩ | ⟨-, -, -, rfl⟩ := initCellType_ok.1 hct
    · exact ⟨h1, h2⟩
    · exact ⟨rfl, rfl⟩
  have hgamma : 0 ≤ p.gamma.getD (A.rnd (1 / 20)) ∧ p.gamma.getD (A.rnd (1 / 20)) ≤ 1 := by
    cases hg : p.gamma with
    | none => 
      simp only [Option.getD_none]
      exact ⟨rnd_nonneg (A := A) (by norm_num), (A.mono _ 1 (by norm_num)).trans A.one.le⟩
    | some x => simpa using hv.gamma x hg
  have hdry : 0 ≤ p.dryDepth.getD (A.rnd (1 / 10)) := by
    cases hg : p.dryDepth with
    | none => exact rnd_nonneg (A := A) (by norm_num)
    | some x => simpa using hv.dryDepth x hg
  constructor
  · constructor
    case stage_rows => exact hs2
    case stage_cols => exact hs3
    case ct_rows => exact hctr.1
    case ct_cols => exact hctr.2
    case depth_fin => exact hd1
    case stage_fin => exact fun i j hi hj => hs1 i j (by simp only at hi; omega) (by simp only at hj; omega)
    case qx_fin => exact fun i j hi hj => hqx.1 i j (by rw [hqx.2.1]; exact hi) (by rw [hqx.2.2]; exact hj)
    case qy_fin => exact fun i j hi hj => hqy.1 i j (by rw [hqy.2.1]; exact hi) (by rw [hqy.2.2]; exact hj)
    case dist_pos =>
      intro k hk
      simp only
      cases hg : p.distances with
      | none =>
        simp only [Option.getD_none, defaultDistances]
        split
        · exact ⟨_, rfl, F.sqrt_pos _ (by norm_num)⟩
        · exact ⟨1, rfl, zero_lt_one⟩
      | some t => simpa using hv.distances t hg k hk
    case ivec_fin =>
      intro k hk
      simp only
      cases hg : p.ivec with
      | none =>
        simp only [Option.getD_none, defaultIvec]
        split_ifs <;> exact ⟨_, rfl⟩
      | some t => simpa using hv.ivec t hg k hk
    case jvec_fin =>
      intro k hk
      simp only
      cases hg : p.jvec with
      | none =>
        simp only [Option.getD_none, defaultJvec]
        split_ifs <;> exact ⟨_, rfl⟩
      | some t => simpa using hv.jvec t hg k hk
    case gamma_nonneg => exact hgamma.1
    case gamma_le => exact hgamma.2
    case dry_nonneg => exact hdry
  case qx => exact hqx
  case qy => exact hqy
  case u => exact hcu
  case v => exact hcv
  case u_abs => exact hcu'
  case v_abs => exact hcv'
  case vel_rows => exact hv1
  case vel_cols => exact hv2
  case vel => exact hv3
  case ang =>
    refine ⟨fun i j hi hj => ?_, hcu.2.1, hcu.2.2⟩
    simp only [Grid.zip, Grid.map] at hi hj ⊢
    obtain ⟨a, ha⟩ := hcu.1 i j hi hj
    obtain ⟨b, hb⟩ := hcv.1 i j (by rw [hcv.2.1, ← hcu.2.1]; exact hi) (by rw [hcv.2.2, ← hcu.2.2]; exact hj)
    exact ⟨_, by rw [ha, hb]; rfl⟩
  case roi =>
    intro g hg
    simp only at hg
    unfold checkRoi at hroi
    rw [hg] at hroi
    exact needShape_ok.1 hroi
  case stage_nan =>
    intro i j h0
    simp only at h0 ⊢
    rw [hs4]
    simp [stageNan, Grid.zip, h0, Fl.eq]
  case diff =>
    simp only [initDiff]
    split
    · split
      · exact le_refl _
      · rename_i h0; exact not_lt.1 h0
    · split
      · exact le_refl _
      · exact rnd_nonneg (A := A) (by norm_num)

theorem Built.fields {P : PObj K} (h : Built A F P) : Fields A P := by
  obtain ⟨p, hv, hp⟩ := h
  exact initParticles_inv A F hv hp

theorem Built.good {P : PObj K} (h : Built A F P) : Good P := (Built.fields A F h).good

end Dorado
