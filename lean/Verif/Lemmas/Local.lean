import Verif.Lemmas.Init
import Verif.Lemmas.Mask

/-! Helper lemmas: congruence of the weight pipeline, pieces of the constructor. -/

set_option linter.unusedSectionVars false

namespace Dorado

variable {K : Type} [Field K] [LinearOrder K] [IsStrictOrderedRing K] (A : Arith K) (F : Fun K A)

theorem nansum9_congr {p q : Nat → Fl K} (h : ∀ k, k < 9 → p k = q k) : nansum9 A p = nansum9 A q := by
  unfold nansum9
  simp only [h 0 (by omega), h 1 (by omega), h 2 (by omega), h 3 (by omega), h 4 (by omega), h 5 (by omega),
    h 6 (by omega), h 7 (by omega), h 8 (by omega)]

theorem max9_congr {p q : Nat → Fl K} (h : ∀ k, k < 9 → p k = q k) : max9 p = max9 q := by
  unfold max9
  simp only [List.range_succ, List.range_zero, List.nil_append, List.cons_append, List.foldl_cons, List.foldl_nil]
  rw [h 0 (by omega), h (0 + 1) (by omega), h (1 + 1) (by omega), h (2 + 1) (by omega), h (3 + 1) (by omega),
    h (4 + 1) (by omega), h (5 + 1) (by omega), h (6 + 1) (by omega), h (7 + 1) (by omega)]

theorem normalise_congr {w w' : Arr3 K} {i j : Nat} (h : ∀ k, k < 9 → w i j k = w' i j k) {k : Nat} (hk : k < 9) :
    normalise A w i j k = normalise A w' i j k := by
  unfold normalise
  rw [nansum9_congr A h, h k hk]

theorem weightFlow_congr {P P' : PObj K} {i j : Nat} (hth : P'.theta = P.theta) (hga : P'.gamma = P.gamma)
    (hm : ∀ k, k < 9 → dryMask P' i j k = dryMask P i j k)
    (hd : ∀ k, k < 9 → F.pow (bigSlidingWindow P'.depth i j k) P.theta = F.pow (bigSlidingWindow P.depth i j k) P.theta ∨
      dryMask P i j k = true)
    (hs : ∀ k, k < 9 → weightSfc0 A P' i j k = weightSfc0 A P i j k ∨ dryMask P i j k = true)
    (hi : ∀ k, k < 9 → weightInt0 A P' i j k = weightInt0 A P i j k ∨ dryMask P i j k = true) {k : Nat} (hk : k < 9) :
    weightFlow A F P' i j k = weightFlow A F P i j k := by
  have mz : ∀ w w' : Arr3 K, (∀ k, k < 9 → w' i j k = w i j k ∨ dryMask P i j k = true) → ∀ k, k < 9 →
      maskZero (dryMask P') w' i j k = maskZero (dryMask P) w i j k := by
    intro w w' h k hk
    unfold maskZero
    rw [hm k hk]
    rcases h k hk with h | h
    · rw [h]
    · rw [h]; rfl
  rw [weightFlow_eq, weightFlow_eq, hm k hk, hth, hga, normalise_congr A (mz _ _ hs) hk, normalise_congr A (mz _ _ hi) hk]
  rcases hd k hk with h | h
  · rw [h]
  · rw [h]; rfl

theorem makeWeight_congr {P P' : PObj K} {i j : Nat} (hr : P'.stage.rows = P.stage.rows) (hc : P'.stage.cols = P.stage.cols)
    (hw : ∀ k, k < 9 → weightFlow A F P' i j k = weightFlow A F P i j k)
    (hd : Fl.le (nansum9 A (weightFlow A F P i j)) (.fin 0) = false ∨
      ∀ k, k < 9 → bigSlidingWindow P'.depth i j k = bigSlidingWindow P.depth i j k) {k : Nat} (hk : k < 9) :
    makeWeight A F P' i j k = makeWeight A F P i j k := by
  unfold makeWeight clearBorders
  simp only [hr, hc, hw k hk, nansum9_congr A hw]
  rcases hd with h | h
  · simp [h]
  · rw [h k hk, max9_congr h]

/-- The pieces of a constructed object. -/
structure Parts (p : Params K) (P : PObj K) (u v : Grid (Fl K)) : Prop where
  dx : p.dx = some P.dx
  depth : initDepth A p = .ok P.depth
  stage : initStage A p P.depth = .ok P.stage
  flow : initFlow A p P.depth = .ok (P.qx, P.qy, u, v)
  uEq : P.u = clampSmall A u
  vEq : P.v = clampSmall A v
  vel : P.velocity = initVelocity A F u v
  ang : P.velocityAngle = Grid.zip (npArctan2 A F) (P.u.map Fl.neg) P.v
  ct : initCellType p P.depth P.dryDepth = .ok P.cellType
  roiShape : checkRoi p P.depth = .ok ()
  theta : P.theta = p.theta.getD 1
  gamma : P.gamma = p.gamma.getD (A.rnd (1 / 20))
  diff : P.diffCoeff = initDiff A p
  dry : P.dryDepth = p.dryDepth.getD (A.rnd (1 / 10))
  steepest : P.steepest = (p.steepest == some true)
  distances : P.distances = p.distances.getD (defaultDistances A F)
  ivec : P.ivec = p.ivec.getD (defaultIvec A F)
  jvec : P.jvec = p.jvec.getD (defaultJvec A F)
  iwalk : P.iwalk = p.iwalk.getD defaultIwalk
  jwalk : P.jwalk = p.jwalk.getD defaultJwalk
  angles : P.angles = p.angles.getD (defaultAngles A F)
  roi : P.roi = p.roi
  vars : P.particleVars = initVars p
  verbose : P.verbose = p.verbose.getD true

theorem init_parts {p : Params K} {P : PObj K} (h : initParticles A F p = .ok P) : ∃ u v, Parts A F p P u v := by
  unfold initParticles at h
  simp only [bind_ok, pure_ok, Prod.exists] at h
  obtain ⟨dx, hdx, d, hd, s, hs, qx, qy, u, v, hf, ru, hroi, ct, hct, rfl⟩ := h
  refine ⟨u, v, ?_⟩
  have hdx' : p.dx = some dx := by
    unfold initDx at hdx
    split at hdx
    · rename_i h; injection hdx with hdx; rw [h, hdx]
    · cases hdx
  constructor <;> first | rfl | assumption

end Dorado
