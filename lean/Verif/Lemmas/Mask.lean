import Verif.Lemmas.Weight

/-! Helper lemmas about the in-place masks of `random_pick` and `steep_descent`. -/

set_option linter.unusedSectionVars false

namespace Dorado

theorem bsearch_congr {f g : Nat → Bool} {n : Nat} (h : ∀ k, k < n → f k = g k) (fuel lo hi : Nat) (hn : hi ≤ n) :
    bsearch f fuel lo hi = bsearch g fuel lo hi := by
  induction fuel generalizing lo hi with
  | zero => rfl
  | succ fuel ih =>
    simp only [bsearch]
    by_cases hlt : lo < hi
    · rw [if_pos hlt, if_pos hlt, h _ (by omega : lo + (hi - lo) / 2 < n), ih _ hi hn, ih lo _ (by omega)]
    · rw [if_neg hlt, if_neg hlt]

variable {K : Type} [Field K] [LinearOrder K] [IsStrictOrderedRing K] (A : Arith K)

theorem cumsum_congr {p q : Nat → Fl K} {n : Nat} (h : ∀ k, k ≤ n → p k = q k) : cumsum A p n = cumsum A q n := by
  induction n with
  | zero => exact h 0 (le_refl _)
  | succ n ih => simp only [cumsum]; rw [ih (fun k hk => h k (by omega)), h (n + 1) (le_refl _)]

theorem pickFrom_congr {p q : Nat → Fl K} (h : ∀ k, k < 9 → p k = q k) (r : K) : pickFrom A p r = pickFrom A q r := by
  have h8 : cumsum A p 8 = cumsum A q 8 := cumsum_congr A fun k hk => h k (by omega)
  unfold pickFrom
  rw [h8]
  congr 1
  funext u
  unfold searchSorted
  rw [bsearch_congr (n := 9) (g := fun k => Fl.npLt (cumsum A q k) u) (fun k hk => ?_) 9 0 9 (le_refl _)]
  rw [cumsum_congr A (n := k) fun m hm => h m (by omega)]

theorem nanmax9_spec {p : Nat → Fl K} (hp : ∀ k, k < 9 → NN A (p k)) :
    (nanmax9 p = .nan ∧ ∀ k, k < 9 → p k = .nan) ∨
    ∃ m, nanmax9 p = .fin m ∧ 0 ≤ m ∧ (∀ k x, k < 9 → p k = .fin x → x ≤ m) ∧ ∃ k, k < 9 ∧ p k = .fin m := by
  have step : ∀ n, n ≤ 8 →
      (((List.range n).foldl (fun m k => Fl.nanMax m (p (k + 1))) (p 0) = .nan ∧ ∀ k, k ≤ n → p k = .nan) ∨
      ∃ m, (List.range n).foldl (fun m k => Fl.nanMax m (p (k + 1))) (p 0) = .fin m ∧ 0 ≤ m ∧
        (∀ k x, k ≤ n → p k = .fin x → x ≤ m) ∧ ∃ k, k ≤ n ∧ p k = .fin m) := by
    intro n
    induction n with
    | zero =>
      intro _
      rcases hp 0 (by omega) with h | ⟨x, hx, hx0, -⟩
      · left
        refine ⟨by simpa using h, fun k hk => ?_⟩
        have : k = 0 := by omega
        subst this; exact h
      · right
        refine ⟨x, by simpa using hx, hx0, fun k y hk hy => ?_, 0, le_refl _, hx⟩
        have : k = 0 := by omega
        subst this
        rw [hx] at hy
        injection hy with hy
        exact hy.ge
    | succ n ih =>
      intro hn
      rw [List.range_succ, List.foldl_append]
      simp only [List.foldl_cons, List.foldl_nil]
      rcases ih (by omega) with ⟨h1, h2⟩ | ⟨m, hm, hm0, hm1, k0, hk0, hk0'⟩
      · rw [h1]
        rcases hp (n + 1) (by omega) with h | ⟨x, hx, hx0, -⟩
        · left
          refine ⟨by simp [Fl.nanMax, Fl.isNan, h], fun k hk => ?_⟩
          rcases Nat.lt_or_ge k (n + 1) with h' | h'
          · exact h2 k (by omega)
          · have : k = n + 1 := by omega
            subst this; exact h
        · right
          refine ⟨x, by simp [Fl.nanMax, Fl.isNan, hx], hx0, fun k y hk hy => ?_, n + 1, le_refl _, hx⟩
          rcases Nat.lt_or_ge k (n + 1) with h' | h'
          · rw [h2 k (by omega)] at hy; cases hy
          · have : k = n + 1 := by omega
            subst this
            rw [hx] at hy
            injection hy with hy
            exact hy.ge
      · right
        rw [hm]
        rcases hp (n + 1) (by omega) with h | ⟨x, hx, hx0, -⟩
        · refine ⟨m, by simp [Fl.nanMax, Fl.isNan, h], hm0, fun k y hk hy => ?_, k0, by omega, hk0'⟩
          rcases Nat.lt_or_ge k (n + 1) with h' | h'
          · exact hm1 k y (by omega) hy
          · have : k = n + 1 := by omega
            subst this; rw [h] at hy; cases hy
        · by_cases hlt : m < x
          · refine ⟨x, by simp [Fl.nanMax, Fl.isNan, Fl.lt, hx, hlt], hx0, fun k y hk hy => ?_, n + 1, le_refl _, hx⟩
            rcases Nat.lt_or_ge k (n + 1) with h' | h'
            · exact le_trans (hm1 k y (by omega) hy) hlt.le
            · have : k = n + 1 := by omega
              subst this
              rw [hx] at hy
              injection hy with hy
              exact hy.ge
          · refine ⟨m, by simp [Fl.nanMax, Fl.isNan, Fl.lt, hx, hlt], hm0, fun k y hk hy => ?_, k0, by omega, hk0'⟩
            rcases Nat.lt_or_ge k (n + 1) with h' | h'
            · exact hm1 k y (by omega) hy
            · have : k = n + 1 := by omega
              subst this
              rw [hx] at hy
              injection hy with hy
              rw [← hy]; exact not_lt.1 hlt
  rcases step 8 (le_refl _) with ⟨h1, h2⟩ | ⟨m, h1, h2, h3, k, hk, hk'⟩
  · exact Or.inl ⟨h1, fun k hk => h2 k (by omega)⟩
  · exact Or.inr ⟨m, h1, h2, fun k x hk => h3 k x (by omega), k, by omega, hk'⟩

/-- Closed form of the steepest-descent mask on a vector whose maximum is `m`. -/
theorem steepMask_eq {p : Nat → Fl K} (hp : ∀ k, k < 9 → NN A (p k)) {m : K} (hm : nanmax9 p = .fin m)
    (hmax : ∀ k x, k < 9 → p k = .fin x → x ≤ m) {k : Nat} (hk : k < 9) :
    steepMask p k = if k ≠ 4 ∧ p k = .fin m then .fin m else .fin 0 := by
  unfold steepMask
  simp only [hm]
  by_cases h4 : k = 4
  · subst h4
    by_cases h0 : (0 : K) < m <;> simp [Fl.lt, h0, Fl.nanTo0, Fl.isNan]
  · simp only [h4, if_false, ne_eq, not_false_eq_true, true_and]
    rcases hp k hk with h | ⟨x, hx, hx0, -⟩
    · simp [h, Fl.lt, Fl.nanTo0, Fl.isNan]
    · rw [hx]
      have hle := hmax k x hk hx
      rcases lt_or_eq_of_le hle with hlt | heq
      · simp [Fl.lt, hlt, Fl.nanTo0, Fl.isNan, hlt.ne]
      · simp [Fl.lt, heq, Fl.nanTo0, Fl.isNan]

theorem steepMask_allNan {p : Nat → Fl K} (hp : ∀ k, k < 9 → p k = .nan) (hm : nanmax9 p = .nan) {k : Nat} (hk : k < 9) :
    steepMask p k = .fin 0 := by
  unfold steepMask
  simp only [hm]
  by_cases h4 : k = 4 <;> simp [h4, Fl.lt, Fl.nanTo0, Fl.isNan, hp k hk]

theorem steepMask_NN {p : Nat → Fl K} (hp : ∀ k, k < 9 → NN A (p k)) {k : Nat} (hk : k < 9) :
    ∃ x, steepMask p k = .fin x ∧ 0 ≤ x ∧ A.rnd x = x := by
  rcases nanmax9_spec A hp with ⟨h1, h2⟩ | ⟨m, h1, h2, h3, k0, hk0, hk0'⟩
  · exact ⟨0, steepMask_allNan h2 h1 hk, le_refl _, A.zero⟩
  · rw [steepMask_eq A hp h1 h3 hk]
    split
    · rename_i h
      refine ⟨m, rfl, h2, ?_⟩
      rcases hp k hk with h' | ⟨x, hx, -, hr⟩
      · rw [h'] at h; simp at h
      · rw [hx] at h; have := h.2; injection this with this; rw [← this]; exact hr
    · exact ⟨0, rfl, le_refl _, A.zero⟩

/-- The steepest-descent mask is idempotent. -/
theorem steepMask_idem {p : Nat → Fl K} (hp : ∀ k, k < 9 → NN A (p k)) {k : Nat} (hk : k < 9) :
    steepMask (steepMask p) k = steepMask p k := by
  have hq : ∀ k, k < 9 → NN A (steepMask p k) := fun k hk => Or.inr (steepMask_NN A hp hk)
  have key : ∀ m : K, 0 ≤ m → (∀ k, k < 9 → steepMask p k = if k ≠ 4 ∧ p k = .fin m then .fin m else .fin 0) →
      steepMask (steepMask p) k = steepMask p k := by
    intro m hm0 hform
    rcases nanmax9_spec A hq with ⟨h1, h2⟩ | ⟨m', h1, h2, h3, k0, hk0, hk0'⟩
    · have := h2 0 (by omega)
      obtain ⟨x, hx, -⟩ := steepMask_NN A hp (by omega : 0 < 9)
      rw [hx] at this; cases this
    · rw [steepMask_eq A hq h1 h3 hk]
      rw [hform k hk]
      by_cases hc : k ≠ 4 ∧ p k = .fin m
      · have hk1 : steepMask p k = .fin m := by rw [hform k hk, if_pos hc]
        have hle := h3 k m hk hk1
        have hge : m' ≤ m := by
          rw [hform k0 hk0] at hk0'
          split at hk0'
          · injection hk0' with h; exact h.ge
          · injection hk0' with h; rw [← h]; exact hm0
        have : m' = m := le_antisymm hge hle
        subst this
        rw [if_pos hc, if_pos ⟨hc.1, rfl⟩]
      · rw [if_neg hc]
        by_cases hz : k ≠ 4 ∧ (Fl.fin 0 : Fl K) = .fin m'
        · rw [if_pos hz]; exact hz.2.symm
        · rw [if_neg hz]
  rcases nanmax9_spec A hp with ⟨h1, h2⟩ | ⟨m, h1, h2, h3, -⟩
  · apply key 0 (le_refl _)
    intro k hk
    rw [steepMask_allNan h2 h1 hk, h2 k hk]
    simp
  · exact key m h2 (fun k hk => steepMask_eq A hp h1 h3 hk)

theorem zeroNan_idem (p : Nat → Fl K) : zeroNan (zeroNan p) = zeroNan p := by
  funext k
  unfold zeroNan Fl.nanTo0
  cases h : (p k) <;> simp [Fl.isNan]

/-- The mask applied in place by a routing decision. -/
def maskOf (P : PObj K) (p : Nat → Fl K) : Nat → Fl K := if P.steepest then steepMask p else zeroNan p

theorem getWeight_eq (P : PObj K) (ω : Nat → K) (s : World K) (ind : Int × Int) :
    getWeight A P ω s ind = (do
      let i ← pyIdx P.stage.rows ind.1
      let j ← pyIdx P.stage.cols ind.2
      let k ← pickFrom A (maskOf P (s.weight i j)) (ω s.pos)
      return (k, { weight := setCell s.weight i j (maskOf P (s.weight i j)), pos := s.pos + 1 })) := by
  unfold getWeight maskOf
  cases h : pyIdx P.stage.rows ind.1 with
  | error e => rfl
  | ok i =>
    cases h' : pyIdx P.stage.cols ind.2 with
    | error e => rfl
    | ok j =>
      simp only [ok_bind]
      cases P.steepest
      · simp only [Bool.false_eq_true, if_false, randomPick]
        cases pickFrom A (zeroNan (s.weight i j)) (ω s.pos) <;> rfl
      · simp only [if_true, steepDescent]
        cases pickFrom A (steepMask (s.weight i j)) (ω s.pos) <;> rfl

theorem pyIdx_lt {n : Nat} {i : Int} {k : Nat} (h : pyIdx n i = .ok k) : k < n := by
  unfold pyIdx at h
  split at h
  · injection h with h; omega
  · split at h
    · injection h with h; omega
    · cases h

theorem pyIdx_nonneg {n : Nat} {i : Int} (h0 : 0 ≤ i) (h1 : i < n) : pyIdx n i = .ok i.toNat := by
  unfold pyIdx
  rw [if_pos ⟨h0, h1⟩]

variable (F : Fun K A)

theorem fresh_NN {P : PObj K} (G : Good P) {i j : Nat} (hi : i < P.stage.rows) (hj : j < P.stage.cols) {k : Nat} (hk : k < 9) :
    NN A (makeWeight A F P i j k) := by
  by_cases hb : i = 0 ∨ j = 0 ∨ i + 1 = P.stage.rows ∨ j + 1 = P.stage.cols
  · rw [makeWeight_border A F hb]; exact NN.zero
  · push Not at hb
    have := G.stage_rows
    have := G.stage_cols
    exact makeWeight_NN A F G ⟨by omega, by omega, by omega, by omega⟩ hk

theorem maskOf_congr {P : PObj K} {p q : Nat → Fl K} (h : ∀ k, k < 9 → p k = q k) {k : Nat} (hk : k < 9) :
    maskOf P p k = maskOf P q k := by
  unfold maskOf
  split
  · unfold steepMask
    have : nanmax9 p = nanmax9 q := by
      unfold nanmax9
      simp only [List.range_succ, List.range_zero, List.nil_append, List.cons_append, List.foldl_cons, List.foldl_nil]
      rw [h 0 (by omega), h (0 + 1) (by omega), h (1 + 1) (by omega), h (2 + 1) (by omega), h (3 + 1) (by omega),
        h (4 + 1) (by omega), h (5 + 1) (by omega), h (6 + 1) (by omega), h (7 + 1) (by omega)]
    simp only [this, h k hk]
  · unfold zeroNan
    rw [h k hk]

theorem maskOf_idem {P : PObj K} {p : Nat → Fl K} (hp : ∀ k, k < 9 → NN A (p k)) {k : Nat} (hk : k < 9) :
    maskOf P (maskOf P p) k = maskOf P p k := by
  unfold maskOf
  split
  · exact steepMask_idem A hp hk
  · rw [zeroNan_idem]

/-- A weight array from which every routing decision is the one made from the fresh array. -/
def PickEquiv (P : PObj K) (w : Arr3 K) : Prop :=
  ∀ i j, i < P.stage.rows → j < P.stage.cols → ∀ k, k < 9 →
    maskOf P (w i j) k = maskOf P (makeWeight A F P i j) k

theorem PickEquiv.fresh (P : PObj K) : PickEquiv A F P (makeWeight A F P) := fun _ _ _ _ _ _ => rfl

theorem PickEquiv.touch {P : PObj K} (G : Good P) {w : Arr3 K} (h : PickEquiv A F P w) {i j : Nat}
    (hi : i < P.stage.rows) (hj : j < P.stage.cols) : PickEquiv A F P (setCell w i j (maskOf P (w i j))) := by
  intro i' j' hi' hj' k hk
  unfold setCell
  by_cases hc : i' = i ∧ j' = j
  · obtain ⟨rfl, rfl⟩ := hc
    simp only [and_self, if_true]
    rw [maskOf_congr (fun k hk => h i' j' hi' hj' k hk) hk]
    exact maskOf_idem A (fun k hk => fresh_NN A F G hi' hj' hk) hk
  · rw [if_neg hc]
    exact h i' j' hi' hj' k hk

/-- Inversion of a routing decision made from any `PickEquiv` array. -/
theorem getWeight_inv {P : PObj K} (G : Good P) {ω : Nat → K} {s s' : World K} {ind : Int × Int} {k : Nat}
    (hw : PickEquiv A F P s.weight) (h : getWeight A P ω s ind = .ok (k, s')) :
    PickEquiv A F P s'.weight ∧ s'.pos = s.pos + 1 ∧ ∃ i j, pyIdx P.stage.rows ind.1 = .ok i ∧
      pyIdx P.stage.cols ind.2 = .ok j ∧ pickFrom A (maskOf P (makeWeight A F P i j)) (ω s.pos) = .ok k := by
  rw [getWeight_eq] at h
  simp only [bind_ok, pure_ok, Prod.mk.injEq] at h
  obtain ⟨i, hi, j, hj, k', hk, rfl, rfl⟩ := h
  have hi' := pyIdx_lt hi
  have hj' := pyIdx_lt hj
  refine ⟨hw.touch A F G hi' hj', rfl, i, j, hi, hj, ?_⟩
  rw [← pickFrom_congr A (fun k hk => hw i j hi' hj' k hk)]
  exact hk

end Dorado
