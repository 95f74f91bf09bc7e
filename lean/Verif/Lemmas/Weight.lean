import Verif.Lemmas.Pick
import Verif.Spec.Common

/-! Helper lemmas about `make_weight`, for any rounding. -/

set_option linter.unusedSectionVars false

namespace Dorado

variable {K : Type} [Field K] [LinearOrder K] [IsStrictOrderedRing K]

/-- NaN or a finite non-negative representable number. -/
def NN (A : Arith K) (a : Fl K) : Prop := a = .nan ∨ ∃ x, a = .fin x ∧ 0 ≤ x ∧ A.rnd x = x

theorem win_lt {P : PObj K} {i j : Nat} (h : Interior P i j) {k : Nat} (hk : k < 9) :
    winRow i k < P.depth.rows ∧ winCol j k < P.depth.cols := by
  obtain ⟨h1, h2, h3, h4⟩ := h
  unfold winRow winCol
  constructor <;> omega

section nn
variable {A : Arith K}

theorem rnd_nonneg {x : K} (h : 0 ≤ x) : 0 ≤ A.rnd x := by
  rw [← A.zero]; exact A.mono _ _ h

theorem NN.zero : NN A (.fin 0) := Or.inr ⟨0, rfl, le_refl _, A.zero⟩

theorem NN.one : NN A (.fin 1) := Or.inr ⟨1, rfl, zero_le_one, A.one⟩

theorem NN.add {a b : Fl K} (ha : NN A a) (hb : NN A b) : NN A (A.add a b) := by
  rcases ha with rfl | ⟨x, rfl, hx, hx'⟩
  · left; cases b <;> rfl
  · rcases hb with rfl | ⟨y, rfl, hy, hy'⟩
    · left; rfl
    · right
      exact ⟨_, rfl, rnd_nonneg (add_nonneg hx hy), A.idem _⟩

theorem NN.mul_fin {a : Fl K} {c : K} (hc : 0 ≤ c) (ha : NN A a) : NN A (A.mul (.fin c) a) := by
  rcases ha with rfl | ⟨x, rfl, hx, hx'⟩
  · left; rfl
  · right
    exact ⟨_, rfl, rnd_nonneg (mul_nonneg hc hx), A.idem _⟩

theorem NN.div_fin {a : Fl K} {c : K} (hc : 0 < c) (ha : NN A a) : NN A (A.div a (.fin c)) := by
  rcases ha with rfl | ⟨x, rfl, hx, hx'⟩
  · left; rfl
  · right
    refine ⟨A.rnd (x / c), ?_, rnd_nonneg (div_nonneg hx hc.le), A.idem _⟩
    simp [Arith.div, hc.ne']

theorem NN.ite {a b : Fl K} {c : Bool} (ha : NN A a) (hb : NN A b) : NN A (if c then a else b) := by
  cases c <;> simp [ha, hb]

/-- `nanTo0` of such a value. -/
theorem NN.nanTo0 {a : Fl K} (ha : NN A a) : ∃ x, a.nanTo0 = .fin x ∧ 0 ≤ x ∧ A.rnd x = x := by
  rcases ha with rfl | ⟨x, rfl, hx, hx'⟩
  · exact ⟨0, rfl, le_refl _, A.zero⟩
  · exact ⟨x, rfl, hx, hx'⟩

theorem rnd_add_ge_left {x y : K} (hx : A.rnd x = x) (hy : 0 ≤ y) : x ≤ A.rnd (x + y) := by
  calc x = A.rnd x := hx.symm
    _ ≤ _ := A.mono _ _ (by linarith)

theorem rnd_add_ge_right {x y : K} (hx : 0 ≤ x) (hy : A.rnd y = y) : y ≤ A.rnd (x + y) := by
  calc y = A.rnd y := hy.symm
    _ ≤ _ := A.mono _ _ (by linarith)

/-- nansum over nine such values. -/
theorem nansum9_NN {p : Nat → Fl K} {x : Nat → K} (hp : ∀ k, k < 9 → (p k).nanTo0 = .fin (x k))
    (hx : ∀ k, k < 9 → 0 ≤ x k) (hr : ∀ k, k < 9 → A.rnd (x k) = x k) :
    ∃ S, nansum9 A p = .fin S ∧ 0 ≤ S ∧ (∀ k, k < 9 → x k ≤ S) ∧ ((∀ k, k < 9 → x k = 0) → S = 0) := by
  have H : ∀ a b : K, 0 ≤ a → 0 ≤ b → A.rnd a = a → A.rnd b = b →
      0 ≤ A.rnd (a + b) ∧ a ≤ A.rnd (a + b) ∧ b ≤ A.rnd (a + b) ∧ A.rnd (A.rnd (a + b)) = A.rnd (a + b) :=
    fun a b ha hb hra hrb => ⟨rnd_nonneg (add_nonneg ha hb), rnd_add_ge_left hra hb, rnd_add_ge_right ha hrb, A.idem _⟩
  have h01 := H (x 0) (x 1) (hx 0 (by omega)) (hx 1 (by omega)) (hr 0 (by omega)) (hr 1 (by omega))
  have h23 := H (x 2) (x 3) (hx 2 (by omega)) (hx 3 (by omega)) (hr 2 (by omega)) (hr 3 (by omega))
  have h45 := H (x 4) (x 5) (hx 4 (by omega)) (hx 5 (by omega)) (hr 4 (by omega)) (hr 5 (by omega))
  have h67 := H (x 6) (x 7) (hx 6 (by omega)) (hx 7 (by omega)) (hr 6 (by omega)) (hr 7 (by omega))
  have hA := H _ _ h01.1 h23.1 h01.2.2.2 h23.2.2.2
  have hB := H _ _ h45.1 h67.1 h45.2.2.2 h67.2.2.2
  have hC := H _ _ hA.1 hB.1 hA.2.2.2 hB.2.2.2
  have hD := H _ _ hC.1 (hx 8 (by omega)) hC.2.2.2 (hr 8 (by omega))
  refine ⟨A.rnd (A.rnd (A.rnd (A.rnd (x 0 + x 1) + A.rnd (x 2 + x 3)) + A.rnd (A.rnd (x 4 + x 5) + A.rnd (x 6 + x 7))) + x 8),
    ?_, hD.1, ?_, ?_⟩
  · simp only [nansum9]
    rw [hp 0 (by omega), hp 1 (by omega), hp 2 (by omega), hp 3 (by omega), hp 4 (by omega), hp 5 (by omega),
      hp 6 (by omega), hp 7 (by omega), hp 8 (by omega)]
    rfl
  · intro k hk
    interval_cases k <;> linarith [h01.2.1, h01.2.2.1, h23.2.1, h23.2.2.1, h45.2.1, h45.2.2.1, h67.2.1, h67.2.2.1,
      hA.2.1, hA.2.2.1, hB.2.1, hB.2.2.1, hC.2.1, hC.2.2.1, hD.2.1, hD.2.2.1]
  · intro h
    simp [h 0, h 1, h 2, h 3, h 4, h 5, h 6, h 7, h 8, A.zero]

end nn

section pipeline
variable (A : Arith K) (F : Fun K A) {P : PObj K}

theorem interiorB_true {i j : Nat} (h : Interior P i j) : interiorB P.depth.rows P.depth.cols i j = true := by
  unfold interiorB
  unfold Interior at h
  simpa using h

theorem clearBorders_interior {i j : Nat} (h : Interior P i j) (w : Arr3 K) (k : Nat) :
    clearBorders P.depth.rows P.depth.cols w i j k = w i j k := by
  obtain ⟨h1, h2, h3, h4⟩ := h
  unfold clearBorders
  rw [if_neg]
  omega

theorem clipPos_NN {a d : Fl K} (ha : a = .nan ∨ ∃ x, a = .fin x) (hd : ∃ d', d = .fin d' ∧ 0 < d') :
    NN A (if Fl.le (A.div a d) (.fin 0) then .fin 0 else A.div a d) := by
  obtain ⟨d', rfl, hd'⟩ := hd
  rcases ha with rfl | ⟨x, rfl⟩
  · left; rfl
  · have : A.div (.fin x) (.fin d') = .fin (A.rnd (x / d')) := by simp [Arith.div, hd'.ne']
    rw [this]
    by_cases h : A.rnd (x / d') ≤ 0
    · simp [Fl.le, h]; exact NN.zero
    · simp [Fl.le, h]
      exact Or.inr ⟨_, rfl, (not_le.1 h).le, A.idem _⟩

theorem add_nanfin {a b : Fl K} (ha : a = .nan ∨ ∃ x, a = .fin x) (hb : b = .nan ∨ ∃ x, b = .fin x) :
    A.add a b = .nan ∨ ∃ x, A.add a b = .fin x := by
  rcases ha with rfl | ⟨x, rfl⟩
  · left; cases b <;> rfl
  · rcases hb with rfl | ⟨y, rfl⟩
    · left; rfl
    · right; exact ⟨_, rfl⟩

theorem neg_nanfin {a : Fl K} (ha : a = .nan ∨ ∃ x, a = .fin x) : a.neg = .nan ∨ ∃ x, a.neg = .fin x := by
  rcases ha with rfl | ⟨x, rfl⟩
  · left; rfl
  · right; exact ⟨_, rfl⟩

theorem weightSfc0_NN (G : Good P) {i j : Nat} (h : Interior P i j) {k : Nat} (hk : k < 9) :
    NN A (weightSfc0 A P i j k) := by
  unfold weightSfc0
  simp only [G.stage_rows, G.stage_cols]
  rw [clearBorders_interior h]
  unfold clipPos
  refine clipPos_NN A ?_ (G.dist_pos k hk)
  unfold Arith.sub
  refine add_nanfin A ?_ (neg_nanfin ?_)
  · exact G.stage_fin i j (by have := h.2.1; omega) (by have := h.2.2.2; omega)
  · unfold bigSlidingWindow
    rw [G.stage_rows, G.stage_cols, if_pos (interiorB_true h)]
    exact G.stage_fin _ _ (win_lt h hk).1 (win_lt h hk).2

theorem weightInt0_NN (G : Good P) {i j : Nat} (h : Interior P i j) {k : Nat} (hk : k < 9) :
    NN A (weightInt0 A P i j k) ∧ weightInt0 A P i j k ≠ .nan := by
  unfold weightInt0
  simp only [G.stage_rows, G.stage_cols]
  rw [clearBorders_interior h]
  unfold clipPos tileDomain tileLocal
  obtain ⟨a, ha⟩ := G.qx_fin i j (by have := h.2.1; omega) (by have := h.2.2.2; omega)
  obtain ⟨b, hb⟩ := G.qy_fin i j (by have := h.2.1; omega) (by have := h.2.2.2; omega)
  obtain ⟨c, hc⟩ := G.jvec_fin k hk
  obtain ⟨d, hd⟩ := G.ivec_fin k hk
  obtain ⟨e, he, he'⟩ := G.dist_pos k hk
  refine ⟨clipPos_NN A ?_ (G.dist_pos k hk), ?_⟩
  · simp only [ha, hb, hc, hd]; exact Or.inr ⟨_, rfl⟩
  · simp only [ha, hb, hc, hd, he, Arith.mul, Arith.add, Arith.div, he'.ne', if_false]
    split <;> simp

theorem maskZero_NN {m : Nat → Nat → Nat → Bool} {w : Arr3 K} {i j k : Nat} (h : NN A (w i j k)) :
    NN A (maskZero m w i j k) := by
  unfold maskZero; exact NN.ite NN.zero h

/-- The nine values of a `NN` vector as numbers. -/
theorem NN_vec {p : Nat → Fl K} (h : ∀ k, k < 9 → NN A (p k)) :
    ∃ x : Nat → K, (∀ k, k < 9 → (p k).nanTo0 = .fin (x k)) ∧ (∀ k, k < 9 → 0 ≤ x k) ∧ (∀ k, k < 9 → A.rnd (x k) = x k) := by
  refine ⟨fun k => match (p k).nanTo0 with | .fin x => x | _ => 0, ?_, ?_, ?_⟩ <;>
  · intro k hk
    obtain ⟨x, hx, h0, hr⟩ := (h k hk).nanTo0
    simp [hx, h0, hr]

theorem normalise_NN {w : Arr3 K} {i j : Nat} (h : ∀ k, k < 9 → NN A (w i j k)) {k : Nat} (hk : k < 9) :
    NN A (normalise A w i j k) := by
  obtain ⟨x, hx, hx0, hxr⟩ := NN_vec A h
  obtain ⟨S, hS, hS0, -, -⟩ := nansum9_NN hx hx0 hxr
  unfold normalise
  simp only [hS]
  by_cases hp : 0 < S
  · simp [Fl.lt, hp]; exact (h k hk).div_fin hp
  · simp [Fl.lt, hp]; exact h k hk

theorem dryMask_false (G : Good P) {i j : Nat} (h : Interior P i j) {k : Nat} (hk : k < 9)
    (hm : dryMask P i j k = false) : ∃ d, bigSlidingWindow P.depth i j k = .fin d ∧ P.dryDepth < d := by
  unfold dryMask at hm
  unfold bigSlidingWindow at hm ⊢
  rw [if_pos (interiorB_true h)] at hm ⊢
  obtain ⟨d, hd⟩ := G.depth_fin _ _ (win_lt h hk).1 (win_lt h hk).2
  refine ⟨d, hd, ?_⟩
  rw [hd] at hm
  simp [Fl.le] at hm
  exact hm.1

theorem weightFlow_eq (i j k : Nat) : weightFlow A F P i j k =
    if dryMask P i j k then .fin 0 else
      A.mul (F.pow (bigSlidingWindow P.depth i j k) P.theta)
        (A.add (A.mul (.fin P.gamma) (normalise A (maskZero (dryMask P) (weightSfc0 A P)) i j k))
          (A.mul (A.sub (.fin 1) (.fin P.gamma)) (normalise A (maskZero (dryMask P) (weightInt0 A P)) i j k))) := rfl

theorem weightFlow_NN (G : Good P) {i j : Nat} (h : Interior P i j) {k : Nat} (hk : k < 9) :
    NN A (weightFlow A F P i j k) := by
  rw [weightFlow_eq]
  by_cases hm : dryMask P i j k = true
  · rw [if_pos hm]; exact NN.zero
  · rw [if_neg hm]
    obtain ⟨d, hd, hd'⟩ := dryMask_false G h hk (by simpa using hm)
    rw [hd]
    obtain ⟨y, hy, hy0⟩ := F.pow_pos d P.theta (lt_of_le_of_lt G.dry_nonneg hd')
    rw [hy]
    have h1 : ∀ k, k < 9 → NN A (maskZero (dryMask P) (weightSfc0 A P) i j k) := fun k hk =>
      maskZero_NN A (weightSfc0_NN A G h hk)
    have h2 : ∀ k, k < 9 → NN A (maskZero (dryMask P) (weightInt0 A P) i j k) := fun k hk =>
      maskZero_NN A (weightInt0_NN A G h hk).1
    refine NN.mul_fin hy0 (NN.add (NN.mul_fin G.gamma_nonneg (normalise_NN A h1 hk)) ?_)
    refine NN.mul_fin (c := A.rnd (1 + -P.gamma)) (rnd_nonneg ?_) (normalise_NN A h2 hk)
    linarith [G.gamma_le]

/-- Weights of dry or land cells are zero before the dead-end rule. -/
theorem weightFlow_masked {i j k : Nat} (hm : dryMask P i j k = true) : weightFlow A F P i j k = .fin 0 := by
  rw [weightFlow_eq, if_pos hm]

theorem max9_spec {p : Nat → Fl K} {x : Nat → K} (hp : ∀ k, k < 9 → p k = .fin (x k)) :
    ∃ m, max9 p = .fin m ∧ (∀ k, k < 9 → x k ≤ m) ∧ ∃ k, k < 9 ∧ x k = m := by
  have step : ∀ n, n ≤ 8 → ∃ m, (List.range n).foldl (fun m k => Fl.npMax m (p (k + 1))) (p 0) = .fin m ∧
      (∀ k, k ≤ n → x k ≤ m) ∧ ∃ k, k ≤ n ∧ x k = m := by
    intro n
    induction n with
    | zero =>
      intro _
      exact ⟨x 0, by simp [hp 0], fun k hk => by have : k = 0 := by omega
                                                 subst this; exact le_refl _, 0, le_refl _, rfl⟩
    | succ n ih =>
      intro hn
      obtain ⟨m, hm, hm1, k0, hk0, hk0'⟩ := ih (by omega)
      rw [List.range_succ, List.foldl_append, hm]
      simp only [List.foldl_cons, List.foldl_nil, hp (n + 1) (by omega)]
      by_cases hlt : m < x (n + 1)
      · refine ⟨x (n + 1), by simp [Fl.npMax, Fl.isNan, Fl.lt, hlt], ?_, n + 1, le_refl _, rfl⟩
        intro k hk
        rcases Nat.lt_or_ge k (n + 1) with h | h
        · exact le_trans (hm1 k (by omega)) hlt.le
        · have : k = n + 1 := by omega
          subst this; exact le_refl _
      · refine ⟨m, by simp [Fl.npMax, Fl.isNan, Fl.lt, hlt], ?_, k0, by omega, hk0'⟩
        intro k hk
        rcases Nat.lt_or_ge k (n + 1) with h | h
        · exact hm1 k (by omega)
        · have : k = n + 1 := by omega
          subst this; exact not_lt.1 hlt
  obtain ⟨m, h1, h2, k, hk, hk'⟩ := step 8 (le_refl _)
  exact ⟨m, h1, fun k hk => h2 k (by omega), k, by omega, hk'⟩

/-- The depth window as numbers. -/
theorem depthWin (G : Good P) {i j : Nat} (h : Interior P i j) :
    ∃ d : Nat → K, ∀ k, k < 9 → bigSlidingWindow P.depth i j k = .fin (d k) ∧
      P.depth.at' (winRow i k) (winCol j k) = .fin (d k) := by
  refine ⟨fun k => match P.depth.at' (winRow i k) (winCol j k) with | .fin x => x | _ => 0, fun k hk => ?_⟩
  obtain ⟨d, hd⟩ := G.depth_fin _ _ (win_lt h hk).1 (win_lt h hk).2
  unfold bigSlidingWindow
  rw [if_pos (interiorB_true h)]
  simp [hd]

/-- Is the routing weight from flow zero on the whole window (the dead-end test, lagrangian_walker.py:211)? -/
def NoFlowWeight (P : PObj K) (i j : Nat) : Prop := ∀ k, k < 9 → (weightFlow A F P i j k).nanTo0 = .fin 0

theorem deadEnd_iff (G : Good P) {i j : Nat} (h : Interior P i j) :
    Fl.le (nansum9 A (weightFlow A F P i j)) (.fin 0) = true ↔ NoFlowWeight A F P i j := by
  obtain ⟨x, hx, hx0, hxr⟩ := NN_vec A (p := weightFlow A F P i j) (fun k hk => weightFlow_NN A F G h hk)
  obtain ⟨S, hS, hS0, hS1, hS2⟩ := nansum9_NN hx hx0 hxr
  rw [hS]
  simp only [Fl.le, decide_eq_true_eq]
  constructor
  · intro hle k hk
    rw [hx k hk]
    have := hS1 k hk
    have := hx0 k hk
    rw [show x k = 0 by linarith]
  · intro hall
    rw [hS2]
    intro k hk
    have := hx k hk
    rw [hall k hk] at this
    injection this with this
    exact this.symm

/-- Interior weights away from dead ends are the flow weights. -/
theorem makeWeight_flow (G : Good P) {i j : Nat} (h : Interior P i j) (hd : ¬ NoFlowWeight A F P i j) (k : Nat) :
    makeWeight A F P i j k = weightFlow A F P i j k := by
  unfold makeWeight
  simp only [G.stage_rows, G.stage_cols]
  rw [clearBorders_interior h]
  have := (deadEnd_iff A F G h).not.2 hd
  simp [this]

/-- Interior weights at dead ends. -/
theorem makeWeight_dead (G : Good P) {i j : Nat} (h : Interior P i j) (hd : NoFlowWeight A F P i j) (k : Nat) :
    makeWeight A F P i j k =
      if Fl.eq (bigSlidingWindow P.depth i j k) (max9 (bigSlidingWindow P.depth i j)) then .fin 1
      else weightFlow A F P i j k := by
  unfold makeWeight
  simp only [G.stage_rows, G.stage_cols]
  rw [clearBorders_interior h]
  have := (deadEnd_iff A F G h).2 hd
  simp [this]

theorem makeWeight_NN (G : Good P) {i j : Nat} (h : Interior P i j) {k : Nat} (hk : k < 9) :
    NN A (makeWeight A F P i j k) := by
  by_cases hd : NoFlowWeight A F P i j
  · rw [makeWeight_dead A F G h hd]
    exact NN.ite NN.one (weightFlow_NN A F G h hk)
  · rw [makeWeight_flow A F G h hd]
    exact weightFlow_NN A F G h hk

open Classical in
/-- At a dead end the effective weight is 1 at the deepest cells of the window and 0 elsewhere. -/
theorem makeWeight_dead_eff (G : Good P) {i j : Nat} (h : Interior P i j) (hd : NoFlowWeight A F P i j)
    {d : Nat → K} (hdw : ∀ k, k < 9 → bigSlidingWindow P.depth i j k = .fin (d k)) {k : Nat} (hk : k < 9) :
    (makeWeight A F P i j k).nanTo0 = .fin (if ∀ m, m < 9 → d m ≤ d k then 1 else 0) := by
  rw [makeWeight_dead A F G h hd]
  obtain ⟨m, hm, hm1, k0, hk0, hk0'⟩ := max9_spec hdw
  rw [hm, hdw k hk]
  by_cases heq : d k = m
  · have : ∀ m, m < 9 → d m ≤ d k := fun m' hm' => by rw [heq]; exact hm1 m' hm'
    rw [if_pos this, if_pos (by simp [Fl.eq, heq])]
    rfl
  · have : ¬ ∀ m, m < 9 → d m ≤ d k := fun hall => by
      have := hall k0 hk0
      rw [hk0'] at this
      exact heq (le_antisymm (hm1 k hk) this)
    rw [if_neg this, if_neg (by simp [Fl.eq, heq])]
    exact hd k hk

/-- Some weight is positive at every interior cell. -/
theorem makeWeight_some_pos (G : Good P) {i j : Nat} (h : Interior P i j) :
    ∃ k, k < 9 ∧ ∃ x, makeWeight A F P i j k = .fin x ∧ 0 < x := by
  by_cases hd : NoFlowWeight A F P i j
  · obtain ⟨d, hdw⟩ := depthWin G h
    obtain ⟨m, hm, hm1, k0, hk0, hk0'⟩ := max9_spec (fun k hk => (hdw k hk).1)
    refine ⟨k0, hk0, 1, ?_, zero_lt_one⟩
    rw [makeWeight_dead A F G h hd, hm, (hdw k0 hk0).1, if_pos]
    simp [Fl.eq, hk0']
  · unfold NoFlowWeight at hd
    push Not at hd
    obtain ⟨k, hk, hne⟩ := hd
    refine ⟨k, hk, ?_⟩
    rw [makeWeight_flow A F G h (fun hh => hne (hh k hk))]
    rcases weightFlow_NN A F G h hk with hn | ⟨x, hx, hx0, -⟩
    · rw [hn] at hne; exact absurd rfl hne
    · refine ⟨x, hx, lt_of_le_of_ne hx0 ?_⟩
      rintro rfl
      rw [hx] at hne
      exact hne rfl

/-- Border cells have zero weights. -/
theorem makeWeight_border {i j : Nat} (hb : i = 0 ∨ j = 0 ∨ i + 1 = P.stage.rows ∨ j + 1 = P.stage.cols) (k : Nat) :
    makeWeight A F P i j k = .fin 0 := by
  unfold makeWeight clearBorders
  simp only
  rw [if_pos hb]

end pipeline

end Dorado
