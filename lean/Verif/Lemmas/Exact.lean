import Verif.Lemmas.Mask
import Verif.Spec.Flow

/-! Helper lemmas: in exact arithmetic `make_weight` computes the closed form of `Spec/Flow.lean`. -/

set_option linter.unusedSectionVars false

namespace Dorado

open Finset

variable {K : Type} [Field K] [LinearOrder K] [IsStrictOrderedRing K] {F : Fun K Arith.exact} {P : PObj K} {f : Flow K}

theorem represents_flowOf {A : Arith K} {F : Fun K A} (G : Good P) : Represents F P (flowOf F P) where
  rows := rfl
  cols := rfl
  depth i j hi hj := by obtain ⟨x, hx⟩ := G.depth_fin i j hi hj; simp [flowOf, hx, Fl.num]
  stage i j hi hj := by
    rcases G.stage_fin i j hi hj with hx | ⟨x, hx⟩ <;> simp [flowOf, hx, Fl.num?]
  a i j hi hj := by obtain ⟨x, hx⟩ := G.qx_fin i j hi hj; simp [flowOf, hx, Fl.num]
  b i j hi hj := by obtain ⟨x, hx⟩ := G.qy_fin i j hi hj; simp [flowOf, hx, Fl.num]
  land _ _ _ _ := Iff.rfl
  gamma := rfl
  dry := rfl
  pw x hx := by obtain ⟨y, hy, -⟩ := F.pow_pos x P.theta hx; simp [flowOf, hy, Fl.num]
  dist k hk := by obtain ⟨x, hx, -⟩ := G.dist_pos k hk; simp [flowOf, hx, Fl.num]
  rowVec k hk := by obtain ⟨x, hx⟩ := G.jvec_fin k hk; simp [flowOf, hx, Fl.num]
  colVec k hk := by obtain ⟨x, hx⟩ := G.ivec_fin k hk; simp [flowOf, hx, Fl.num]

theorem nansum9_exact {p : Nat → Fl K} {x : Nat → K} (h : ∀ k, k < 9 → (p k).nanTo0 = .fin (x k)) :
    nansum9 Arith.exact p = .fin (∑ k ∈ range 9, x k) := by
  unfold nansum9
  simp only [h 0 (by omega), h 1 (by omega), h 2 (by omega), h 3 (by omega), h 4 (by omega), h 5 (by omega),
    h 6 (by omega), h 7 (by omega), h 8 (by omega), Arith.add, Arith.exact, id]
  congr 1
  simp only [sum_range_succ, sum_range_zero]
  ring

theorem dryMask_repr (G : Good P) (R : Represents F P f) {i j : Nat} (h : Interior P i j) {k : Nat} (hk : k < 9) :
    dryMask P i j k = false ↔ f.Passable i j k := by
  have hw := win_lt h hk
  unfold dryMask Flow.Passable bigSlidingWindow bigSlidingWindowInt
  rw [if_pos (interiorB_true h), G.ct_rows, G.ct_cols, if_pos (interiorB_true h)]
  have h1 := R.depth (winRow i k) (winCol j k) (by rw [← R.rows]; exact hw.1) (by rw [← R.cols]; exact hw.2)
  have h2 := R.land (winRow i k) (winCol j k) (by rw [← R.rows]; exact hw.1) (by rw [← R.cols]; exact hw.2)
  rw [h1, R.dry]
  simp only [Fl.le, Bool.or_eq_false_iff, decide_eq_false_iff_not, not_le, beq_eq_false_iff_ne, ne_eq, h2]
  rfl

/-- Both the cell and neighbour `k` have a stage. -/
def Staged (f : Flow K) (i j k : Nat) : Prop := (f.stage i j).isSome ∧ (f.stage (Flow.nr i k) (Flow.nc j k)).isSome

theorem sfc_repr (G : Good P) (R : Represents F P f) {i j : Nat} (h : Interior P i j) {k : Nat} (hk : k < 9) :
    (maskZero (dryMask P) (weightSfc0 Arith.exact P) i j k).nanTo0 = .fin (f.slope i j k) ∧
    (maskZero (dryMask P) (weightSfc0 Arith.exact P) i j k = .nan ∨
      maskZero (dryMask P) (weightSfc0 Arith.exact P) i j k = .fin (f.slope i j k)) ∧
    (f.Passable i j k → (Staged f i j k ↔ maskZero (dryMask P) (weightSfc0 Arith.exact P) i j k ≠ .nan)) := by
  have hw := win_lt h hk
  have hin : i < f.rows ∧ j < f.cols := by
    rw [← R.rows, ← R.cols]; have := h.2.1; have := h.2.2.2; omega
  unfold maskZero
  by_cases hp : f.Passable i j k
  · rw [if_neg (by rw [(dryMask_repr G R h hk).2 hp]; simp)]
    have hS : f.slope i j k = Flow.drop (f.stage i j) (f.stage (Flow.nr i k) (Flow.nc j k)) (f.dist k) := by
      unfold Flow.slope; rw [if_pos hp]
    have h2 := R.stage (winRow i k) (winCol j k) (by rw [← R.rows]; exact hw.1) (by rw [← R.cols]; exact hw.2)
    have h1 := R.stage i j hin.1 hin.2
    obtain ⟨d, hd, hd0⟩ := G.dist_pos k hk
    have hdist : d = f.dist k := by
      have := R.dist k hk
      rw [hd] at this
      injection this
    subst hdist
    have hval : weightSfc0 Arith.exact P i j k = (match f.stage i j, f.stage (Flow.nr i k) (Flow.nc j k) with
        | some e, some e' => .fin (max 0 ((e - e') / f.dist k))
        | _, _ => .nan) := by
      unfold weightSfc0
      simp only [G.stage_rows, G.stage_cols]
      rw [clearBorders_interior h]
      unfold clipPos tileDomain tileLocal bigSlidingWindow
      beta_reduce
      rw [G.stage_rows, G.stage_cols, if_pos (interiorB_true h), h1, h2, hd]
      cases hs0 : f.stage i j with
      | none => simp [Arith.sub, Arith.add, Arith.div, Fl.le]
      | some e =>
        have : f.stage (winRow i k) (winCol j k) = f.stage (Flow.nr i k) (Flow.nc j k) := rfl
        rw [this]
        cases hs1 : f.stage (Flow.nr i k) (Flow.nc j k) with
        | none => simp [Arith.sub, Arith.add, Arith.div, Fl.le, Fl.neg]
        | some e' =>
          simp only [Arith.sub, Arith.add, Arith.div, Fl.le, Fl.neg, Arith.exact, id, ne_of_gt hd0, if_false, decide_eq_true_eq]
          rw [← sub_eq_add_neg]
          split
          · rename_i hle; rw [max_eq_left hle]
          · rename_i hle; rw [max_eq_right (le_of_lt (not_le.1 hle))]
    rw [hval, hS]
    unfold Staged
    cases hs0 : f.stage i j with
    | none => simp [Fl.nanTo0, Fl.isNan, Flow.drop]
    | some e =>
      cases hs1 : f.stage (Flow.nr i k) (Flow.nc j k) with
      | none => simp [Fl.nanTo0, Fl.isNan, Flow.drop]
      | some e' => simp [Fl.nanTo0, Fl.isNan, Flow.drop]
  · rw [if_pos (by rw [← Bool.not_eq_false, dryMask_repr G R h hk]; exact hp)]
    have hS : f.slope i j k = 0 := by unfold Flow.slope; rw [if_neg hp]
    rw [hS]
    refine ⟨rfl, Or.inr rfl, fun h => absurd h hp⟩

theorem int_repr (G : Good P) (R : Represents F P f) {i j : Nat} (h : Interior P i j) {k : Nat} (hk : k < 9) :
    maskZero (dryMask P) (weightInt0 Arith.exact P) i j k = .fin (f.inertia i j k) := by
  have hin : i < f.rows ∧ j < f.cols := by
    rw [← R.rows, ← R.cols]; have := h.2.1; have := h.2.2.2; omega
  unfold maskZero
  by_cases hp : f.Passable i j k
  · rw [if_neg (by rw [(dryMask_repr G R h hk).2 hp]; simp)]
    have hI : f.inertia i j k = max 0 ((f.a i j * f.rowVec k + f.b i j * f.colVec k) / f.dist k) := by
      unfold Flow.inertia; rw [if_pos hp]
    rw [hI]
    obtain ⟨d, hd, hd0⟩ := G.dist_pos k hk
    have hdist : d = f.dist k := by
      have := R.dist k hk
      rw [hd] at this
      injection this
    subst hdist
    unfold weightInt0
    simp only [G.stage_rows, G.stage_cols]
    rw [clearBorders_interior h]
    unfold clipPos tileDomain tileLocal
    beta_reduce
    rw [R.a i j hin.1 hin.2, R.b i j hin.1 hin.2, hd, R.rowVec k hk, R.colVec k hk]
    simp only [Arith.mul, Arith.add, Arith.div, Fl.le, Arith.exact, id, ne_of_gt hd0, if_false, decide_eq_true_eq]
    split
    · rename_i hle; rw [max_eq_left hle]
    · rename_i hle; rw [max_eq_right (le_of_lt (not_le.1 hle))]
  · rw [if_pos (by rw [← Bool.not_eq_false, dryMask_repr G R h hk]; exact hp)]
    have hS : f.inertia i j k = 0 := by unfold Flow.inertia; rw [if_neg hp]
    rw [hS]

theorem slope_nonneg (f : Flow K) (i j k : Nat) : 0 ≤ f.slope i j k := by
  unfold Flow.slope Flow.drop
  split
  · split
    · exact le_max_left _ _
    · exact le_refl _
  · exact le_refl _

theorem inertia_nonneg (f : Flow K) (i j k : Nat) : 0 ≤ f.inertia i j k := by
  unfold Flow.inertia
  split
  · exact le_max_left _ _
  · exact le_refl _

theorem share_fin {x : Nat → K} (hx : ∀ k, 0 ≤ x k) {w : Arr3 K} {i j : Nat}
    (hs : nansum9 Arith.exact (w i j) = .fin (∑ m ∈ range 9, x m)) {k : Nat} (hk : k < 9) :
    (w i j k = .fin (x k) → normalise Arith.exact w i j k = .fin (Flow.share x k)) ∧
    (w i j k = .nan → normalise Arith.exact w i j k = .nan) := by
  unfold normalise Flow.share
  rw [hs]
  simp only [Fl.lt, decide_eq_true_eq]
  constructor
  · intro h
    rw [h]
    split
    · rename_i hpos; simp [Arith.div, Arith.exact, ne_of_gt hpos]
    · rename_i hpos
      have hle := not_lt.1 hpos
      have hx0 : x k = 0 := by
        have := single_le_sum (f := x) (s := range 9) (fun m _ => hx m) (mem_range.2 hk)
        exact le_antisymm (le_trans this hle) (hx k)
      rw [hx0]; simp
  · intro h
    rw [h]
    split <;> rfl

theorem weightFlow_repr (G : Good P) (R : Represents F P f) {i j : Nat} (h : Interior P i j) {k : Nat} (hk : k < 9) :
    (weightFlow Arith.exact F P i j k).nanTo0 = .fin (f.flow i j k) := by
  rw [weightFlow_eq]
  by_cases hp : f.Passable i j k
  · rw [if_neg (by rw [(dryMask_repr G R h hk).2 hp]; simp)]
    have hint := (share_fin (inertia_nonneg f i j) (w := maskZero (dryMask P) (weightInt0 Arith.exact P))
      (nansum9_exact fun k hk => by rw [int_repr G R h hk]; rfl) hk).1 (int_repr G R h hk)
    have hsum : nansum9 Arith.exact (maskZero (dryMask P) (weightSfc0 Arith.exact P) i j) =
        .fin (∑ m ∈ range 9, f.slope i j m) := nansum9_exact fun k hk => (sfc_repr G R h hk).1
    have hsfc := share_fin (slope_nonneg f i j) (w := maskZero (dryMask P) (weightSfc0 Arith.exact P)) hsum hk
    obtain ⟨-, hcase, hst⟩ := sfc_repr G R h hk
    obtain ⟨d, hd, hd'⟩ := dryMask_false G h hk ((dryMask_repr G R h hk).2 hp)
    have hw := win_lt h hk
    have hdd : d = f.depth (Flow.nr i k) (Flow.nc j k) := by
      have := R.depth (winRow i k) (winCol j k) (by rw [← R.rows]; exact hw.1) (by rw [← R.cols]; exact hw.2)
      unfold bigSlidingWindow at hd
      rw [if_pos (interiorB_true h), this] at hd
      injection hd with hd
      exact hd.symm
    rw [hd, R.pw d (lt_of_le_of_lt G.dry_nonneg hd'), hint, R.gamma]
    unfold Flow.flow
    by_cases hs : Staged f i j k
    · rw [if_pos ⟨hp, hs⟩]
      have hne := (hst hp).1 hs
      have heq := hcase.resolve_left hne
      rw [hsfc.1 heq, hdd]
      simp [Arith.mul, Arith.add, Arith.sub, Fl.neg, Arith.exact, Fl.nanTo0, Fl.isNan, sub_eq_add_neg]
    · rw [if_neg (fun hh => hs hh.2)]
      have heq : maskZero (dryMask P) (weightSfc0 Arith.exact P) i j k = .nan := by
        by_contra hne
        exact hs ((hst hp).2 hne)
      rw [hsfc.2 heq]
      simp [Arith.mul, Arith.add, Fl.nanTo0, Fl.isNan]
  · rw [if_pos (by rw [← Bool.not_eq_false, dryMask_repr G R h hk]; exact hp)]
    unfold Flow.flow
    rw [if_neg (fun hh => hp hh.1)]
    rfl

theorem deadEnd_repr (G : Good P) (R : Represents F P f) {i j : Nat} (h : Interior P i j) :
    NoFlowWeight Arith.exact F P i j ↔ f.DeadEnd i j := by
  unfold NoFlowWeight Flow.DeadEnd
  constructor <;> intro hh k hk
  · have := hh k hk
    rw [weightFlow_repr G R h hk] at this
    injection this
  · rw [weightFlow_repr G R h hk, hh k hk]

theorem makeWeight_repr (G : Good P) (R : Represents F P f) {i j : Nat} (h : Interior P i j) {k : Nat} (hk : k < 9) :
    (makeWeight Arith.exact F P i j k).nanTo0 = .fin (f.weight i j k) := by
  unfold Flow.weight
  by_cases hd : f.DeadEnd i j
  · rw [if_pos hd]
    have hwin : ∀ k, k < 9 → bigSlidingWindow P.depth i j k = .fin (f.depth (Flow.nr i k) (Flow.nc j k)) := by
      intro k hk
      have hw := win_lt h hk
      unfold bigSlidingWindow
      rw [if_pos (interiorB_true h)]
      exact R.depth (winRow i k) (winCol j k) (by rw [← R.rows]; exact hw.1) (by rw [← R.cols]; exact hw.2)
    rw [makeWeight_dead_eff Arith.exact F G h ((deadEnd_repr G R h).2 hd) hwin hk]
    rfl
  · rw [if_neg hd, makeWeight_flow Arith.exact F G h (fun hh => hd ((deadEnd_repr G R h).1 hh))]
    exact weightFlow_repr G R h hk

end Dorado
