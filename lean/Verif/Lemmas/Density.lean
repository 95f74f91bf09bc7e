import Verif.Lemmas.Curve

/-! Helper lemmas: the differential exposure curve. -/

set_option linter.unusedSectionVars false

namespace Dorado

variable {K : Type} [Field K] [LinearOrder K] [IsStrictOrderedRing K] [FloorRing K]

theorem getD_at {α : Type} {l : List α} {k : Nat} {d : α} (h : k < l.length) : l.getD k d = l[k] := by
  rw [List.getD_eq_getElem?_getD, List.getElem?_eq_getElem h]
  rfl

theorem exact_sub (a b : K) : (Arith.exact (K := K)).sub (.fin a) (.fin b) = .fin (a - b) := by
  rw [sub_eq_add_neg]
  rfl

theorem exact_div (a : K) {b : K} (h : b ≠ 0) : (Arith.exact (K := K)).div (.fin a) (.fin b) = .fin (a / b) := by
  unfold Arith.div
  simp only
  rw [if_neg h]
  rfl

theorem exact_add (a b : K) : (Arith.exact (K := K)).add (.fin a) (.fin b) = .fin (a + b) := rfl
theorem exact_mul (a b : K) : (Arith.exact (K := K)).mul (.fin a) (.fin b) = .fin (a * b) := rfl

/-- The number of elements up to `x`. -/
def cntLe (l : List K) (x : K) : Nat := l.countP fun y => decide (y ≤ x)

/-- The line through `(0,0)` and `(l[k], (k+1)/n)`, constant after the last element. -/
def lineAt (l : List K) (n : Nat) (x : K) : K :=
  (cntLe l x + (if cntLe l x < l.length then (x - (0 :: l).getD (cntLe l x) 0) / (l.getD (cntLe l x) 0 - (0 :: l).getD (cntLe l x) 0) else 0)) / n

theorem cntLe_le (l : List K) (x : K) : cntLe l x ≤ l.length := List.countP_le_length

/-- In a sorted list exactly the first `cntLe` elements are at most `x`. -/
theorem cntLe_iff {l : List K} (hs : l.Pairwise (· ≤ ·)) (x : K) {k : Nat} (hk : k < l.length) : l[k] ≤ x ↔ k < cntLe l x := by
  induction l generalizing k with
  | nil => simp at hk
  | cons a l ih =>
    rw [List.pairwise_cons] at hs
    unfold cntLe at ih ⊢
    by_cases ha : a ≤ x
    · rw [List.countP_cons_of_pos (by simpa using ha)]
      cases k with
      | zero => simp [ha]
      | succ k =>
        simp only [List.getElem_cons_succ]
        rw [ih hs.2 (by simpa using hk)]
        omega
    · have h0 : l.countP (fun y => decide (y ≤ x)) = 0 := by
        rw [List.countP_eq_zero]
        intro b hb hc
        exact ha ((hs.1 b hb).trans (by simpa using hc))
      rw [List.countP_cons_of_neg (by simpa using ha), h0]
      constructor
      · intro h
        cases k with
        | zero => exact absurd h ha
        | succ k => exact absurd ((hs.1 _ (List.getElem_mem _)).trans h) ha
      · intro h
        omega

theorem cntLe_mono (l : List K) {x y : K} (h : x ≤ y) : cntLe l x ≤ cntLe l y := by
  unfold cntLe
  apply List.countP_mono_left
  intro z _ hz
  simp only [decide_eq_true_eq] at hz ⊢
  exact hz.trans h

/-- Neighbours of `x` in a sorted list of positive numbers. -/
theorem line_nbrs {l : List K} (hs : l.Pairwise (· ≤ ·)) {x : K} (h0 : 0 ≤ x) (hc : cntLe l x < l.length) :
    (0 :: l).getD (cntLe l x) 0 ≤ x ∧ x < l.getD (cntLe l x) 0 := by
  constructor
  · cases hk : cntLe l x with
    | zero => simpa using h0
    | succ k =>
      rw [getD_at (by simp; omega)]
      simp only [List.getElem_cons_succ]
      exact (cntLe_iff hs x (by omega)).2 (by omega)
  · rw [getD_at hc]
    by_contra hle
    exact absurd ((cntLe_iff hs x hc).1 (not_lt.1 hle)) (lt_irrefl _)

theorem lineAt_mono {l : List K} (hs : l.Pairwise (· ≤ ·)) (n : Nat) {x y : K} (h0 : 0 ≤ x) (h : x ≤ y) : lineAt l n x ≤ lineAt l n y := by
  unfold lineAt
  apply div_le_div_of_nonneg_right _ (by positivity : (0 : K) ≤ n)
  have hm := cntLe_mono l h
  rcases hm.eq_or_lt with he | hlt
  · rw [← he]
    by_cases hc : cntLe l x < l.length
    · rw [if_pos hc, if_pos hc]
      obtain ⟨h1, h2⟩ := line_nbrs hs h0 hc
      have hd : 0 < l.getD (cntLe l x) 0 - (0 :: l).getD (cntLe l x) 0 := by linarith
      gcongr
    · rw [if_neg hc, if_neg hc]
  · have hcx : cntLe l x < l.length := hlt.trans_le (cntLe_le l y)
    rw [if_pos hcx]
    obtain ⟨h1, h2⟩ := line_nbrs hs h0 hcx
    have hd : 0 < l.getD (cntLe l x) 0 - (0 :: l).getD (cntLe l x) 0 := by linarith
    have hle1 : (x - (0 :: l).getD (cntLe l x) 0) / (l.getD (cntLe l x) 0 - (0 :: l).getD (cntLe l x) 0) ≤ 1 := by
      rw [div_le_one hd]
      linarith
    have hc1 : (cntLe l x : K) + 1 ≤ cntLe l y := by exact_mod_cast hlt
    have hy0 : 0 ≤ (if cntLe l y < l.length then (y - (0 :: l).getD (cntLe l y) 0) / (l.getD (cntLe l y) 0 - (0 :: l).getD (cntLe l y) 0) else 0) := by
      split_ifs with hcy
      · obtain ⟨h3, h4⟩ := line_nbrs hs (h0.trans h) hcy
        exact div_nonneg (by linarith) (by linarith)
      · exact le_rfl
    linarith

/-- Filtering a sorted list by a final segment keeps a suffix. -/
theorem filter_suffix {α : Type} {q : α → Bool} {l : List α} (h : l.Pairwise fun a b => q b = true → q a = true) :
    l.filter (fun a => !q a) = l.drop (l.countP q) := by
  induction l with
  | nil => rfl
  | cons a l ih =>
    rw [List.pairwise_cons] at h
    by_cases ha : q a = true
    · rw [List.filter_cons_of_neg (by simp [ha]), List.countP_cons_of_pos ha, List.drop_succ_cons, ih h.2]
    · have : ∀ b ∈ l, ¬ q b = true := fun b hb hq => ha (h.1 b hb hq)
      rw [List.countP_cons_of_neg ha, List.countP_eq_zero.2 this, List.drop_zero, List.filter_eq_self]
      intro b hb
      rcases List.mem_cons.1 hb with rfl | hb
      · simpa using ha
      · simpa using this b hb

/-- Linear interpolation on the vectors of the curve, exact arithmetic. -/
theorem linInterp_curve {n : Nat} {l : List K} {e : K} (hs : (0 :: l ++ [e]).Pairwise (· ≤ ·)) (hlt : ∀ y ∈ l, y < e)
    {x : K} (h0 : 0 ≤ x) (hx : x ≤ e) :
    linInterp Arith.exact (((0 :: l ++ [e]).map Fl.fin).zip
      ((List.range (l.length + 1)).map (fun k => fraction Arith.exact k n) ++ [fraction Arith.exact l.length n])) (.fin x) = .ok (.fin (lineAt l n x)) := by
  have hsl : l.Pairwise (· ≤ ·) := by
    rw [List.cons_append, List.pairwise_cons, List.pairwise_append] at hs
    exact hs.2.1
  set T := (0 :: l ++ [e]).map (Fl.fin (K := K)) with hT
  set G := (List.range (l.length + 1)).map (fun k => fraction Arith.exact (K := K) k n) ++ [fraction Arith.exact l.length n] with hG
  have hTs : T.Pairwise fun a b => Fl.le a b = true := by
    rw [hT, List.pairwise_map]
    simpa [Fl.le] using hs
  have hlen : T.length = l.length + 2 := by simp [hT]
  have hlenG : G.length = l.length + 2 := by simp [hG]
  have hlz : (T.zip G).length = l.length + 2 := by rw [List.length_zip]; omega
  have hz : (T.zip G).insertionSort (fun a b => Fl.le a.1 b.1 = true) = T.zip G := List.Pairwise.insertionSort_eq (zip_pairwise hTs)
  have hgetT : ∀ k, k ≤ l.length → T[k]? = some (.fin ((0 :: l).getD k 0)) := by
    intro k hk
    rw [hT, List.getElem?_map, List.getElem?_append_left (by simp; omega), List.getElem?_eq_getElem (by simp; omega),
      getD_at (by simp; omega)]
    rfl
  have hgetT' : T[l.length + 1]? = some (.fin e) := by
    rw [hT, List.getElem?_map, List.getElem?_append_right (by simp)]
    simp
  have hgetG : ∀ k, k ≤ l.length → G[k]? = some (.fin ((k : K) / n)) := by
    intro k hk
    rw [hG, List.getElem?_append_left (by simp; omega), List.getElem?_map, List.getElem?_range (by omega)]
    rfl
  have hgetG' : G[l.length + 1]? = some (.fin ((l.length : K) / n)) := by
    rw [hG, List.getElem?_append_right (by simp)]
    simp [fraction, Arith.exact]
  have hcons : ∃ G', T.zip G = (.fin 0, fraction Arith.exact 0 n) :: G' := by
    refine ⟨(List.map Fl.fin (l ++ [e])).zip ((List.range l.length).map (fun k => fraction Arith.exact (k + 1) n) ++ [fraction Arith.exact l.length n]), ?_⟩
    rw [hT, hG, List.range_succ_eq_map]
    simp [Function.comp_def]
  have hlast : (T.zip G).getLast? = some (.fin e, fraction Arith.exact l.length n) := by
    rw [hT, hG, List.map_append, List.zip_append (by simp)]
    simp
  unfold linInterp
  rw [hz]
  obtain ⟨G', hG'⟩ := hcons
  simp only [hlast]
  rw [hG']
  simp only
  rw [← hG', if_neg (by simp [Fl.lt, h0, hx])]
  have hpre : (T.zip G).Pairwise fun a b => Fl.le b.1 (.fin x) = true → Fl.le a.1 (.fin x) = true :=
    (zip_pairwise hTs).imp fun hab hb => Fl.le_trans' hab hb
  have hsuf := filter_suffix hpre
  rw [filter_prefix hpre, hsuf]
  have hcnt : (T.zip G).countP (fun p => Fl.le p.1 (.fin x)) = T.countP fun t => Fl.le t (.fin x) := by
    conv_rhs => rw [← List.map_fst_zip (l₁ := T) (l₂ := G) (by omega), List.countP_map]
    rfl
  have hcT : T.countP (fun t => Fl.le t (.fin x)) = 1 + cntLe l x + if e ≤ x then 1 else 0 := by
    rw [hT, List.countP_map, List.countP_append, List.countP_cons]
    have : [e].countP ((fun t => Fl.le t (.fin x)) ∘ Fl.fin) = if e ≤ x then 1 else 0 := by
      simp [List.countP_cons, Fl.le]
    rw [this]
    simp only [Function.comp_def, Fl.le, h0, decide_true, if_true, cntLe]
    omega
  rw [hcnt, hcT]
  have hcle := cntLe_le l x
  have hzip : ∀ (k : Nat) (a b : Fl K), T[k]? = some a → G[k]? = some b → (T.zip G)[k]? = some (a, b) := by
    intro k a b ha hb
    rw [List.getElem?_zip_eq_some]
    exact ⟨ha, hb⟩
  rw [List.head?_drop, List.getLast?_eq_getElem?, List.length_take, hlz]
  by_cases hex : e ≤ x
  · rw [if_pos hex]
    have hall : cntLe l x = l.length := by
      unfold cntLe
      rw [List.countP_eq_length]
      intro y hy
      simpa using (hlt y hy).le.trans hex
    rw [hall, List.getElem?_take_of_lt (by omega), show min (1 + l.length + 1) (l.length + 2) - 1 = l.length + 1 by omega,
      hzip _ _ _ hgetT' hgetG', List.getElem?_eq_none (by omega)]
    simp only [lineAt, hall, lt_irrefl, if_false, add_zero]
  · rw [if_neg hex, add_zero, List.getElem?_take_of_lt (by omega), show min (1 + cntLe l x) (l.length + 2) - 1 = cntLe l x by omega,
      hzip _ _ _ (hgetT _ hcle) (hgetG _ hcle)]
    by_cases hc : cntLe l x < l.length
    · rw [add_comm 1, hzip _ _ _ (hgetT _ hc) (hgetG _ hc)]
      obtain ⟨h1, h2⟩ := line_nbrs hsl h0 hc
      have hb : (0 :: l).getD (cntLe l x + 1) 0 = l.getD (cntLe l x) 0 := by simp
      rw [hb]
      simp only [Fl.eq, decide_eq_true_eq]
      by_cases hxa : (0 :: l).getD (cntLe l x) 0 = x
      · rw [if_pos hxa]
        unfold lineAt
        rw [if_pos hc, hxa]
        simp
      · rw [if_neg hxa]
        have hd : l.getD (cntLe l x) 0 - (0 :: l).getD (cntLe l x) 0 ≠ 0 := by
          have : 0 < l.getD (cntLe l x) 0 - (0 :: l).getD (cntLe l x) 0 := by linarith
          exact this.ne'
        rw [exact_sub, exact_sub, exact_sub, exact_div _ hd, exact_mul, exact_add]
        simp only [Except.ok.injEq, Fl.fin.injEq]
        unfold lineAt
        rw [if_pos hc]
        push_cast
        ring
    · have hall : cntLe l x = l.length := by omega
      rw [hall, add_comm 1, hzip _ _ _ hgetT' hgetG']
      simp only [Fl.eq, decide_eq_true_eq]
      have hv : lineAt l n x = (l.length : K) / n := by
        unfold lineAt
        rw [if_neg hc, hall, add_zero]
      rw [hv]
      split_ifs
      · rfl
      · have ha : (0 :: l).getD l.length 0 ≤ x := by
          cases hk : l.length with
          | zero => simpa using h0
          | succ k =>
            rw [getD_at (by simp; omega)]
            simp only [List.getElem_cons_succ]
            exact (cntLe_iff hsl x (by omega)).2 (by omega)
        have hd : e - (0 :: l).getD l.length 0 ≠ 0 := by
          have : 0 < e - (0 :: l).getD l.length 0 := by linarith [not_le.1 hex]
          exact this.ne'
        rw [exact_sub, exact_sub, exact_sub, exact_div _ hd, exact_mul, exact_add]
        simp only [Except.ok.injEq, Fl.fin.injEq]
        simp

/-- Gradient of the values of a function, exact arithmetic, at least two points. -/
theorem gradient_get {f : Nat → K} {n : Nat} (hn : 2 ≤ n) {h : K} (hh : h ≠ 0) :
    gradient Arith.exact ((List.range n).map fun k => Fl.fin (f k)) (.fin h) = (List.range n).map fun k => Fl.fin
      (if k = 0 then (f 1 - f 0) / h else if k + 1 = n then (f k - f (k - 1)) / h else (f (k + 1) - f (k - 1)) / (2 * h)) := by
  have hget : ∀ k, k < n → ((List.range n).map fun k => Fl.fin (f k)).getD k .nan = .fin (f k) := by
    intro k hk
    rw [getD_at (by simpa using hk)]
    simp
  unfold gradient
  rw [List.length_map, List.length_range]
  apply List.map_congr_left
  intro k hk
  rw [List.mem_range] at hk
  split_ifs with h1 h2
  · rw [hget 1 (by omega), hget 0 (by omega), exact_sub, exact_div _ hh]
  · rw [hget k hk, hget (k - 1) (by omega), exact_sub, exact_div _ hh]
  · rw [hget (k + 1) (by omega), hget (k - 1) (by omega), exact_sub, exact_mul, exact_div _ (mul_ne_zero two_ne_zero hh)]

theorem trapezoid_range (X Y : Nat → K) (n : Nat) :
    trapezoid ((List.range (n + 1)).map X) ((List.range (n + 1)).map Y) = ∑ k ∈ Finset.range n, (X (k + 1) - X k) * (Y k + Y (k + 1)) / 2 := by
  induction n generalizing X Y with
  | zero => simp [trapezoid]
  | succ n ih =>
    have hr : List.range (n + 1 + 1) = 0 :: (List.range (n + 1)).map Nat.succ := List.range_succ_eq_map
    have hr' : List.range (n + 1) = 0 :: (List.range n).map Nat.succ := List.range_succ_eq_map
    have h2 := ih (fun k => X (k + 1)) fun k => Y (k + 1)
    rw [Finset.sum_range_succ', ← h2, hr]
    simp only [List.map_cons, List.map_map]
    rw [hr']
    simp only [List.map_cons, List.map_map, trapezoid, Function.comp_def, Nat.succ_eq_add_one, zero_add]
    ring

/-- The area under the gradient is the total increase. -/
theorem gradient_area (f : Nat → K) {N : Nat} (hN : 1 ≤ N) {h : K} (hh : h ≠ 0) :
    ∑ k ∈ Finset.range N, h * ((if k = 0 then (f 1 - f 0) / h else if k + 1 = N + 1 then (f k - f (k - 1)) / h else (f (k + 1) - f (k - 1)) / (2 * h)) +
      (if k + 1 = 0 then (f 1 - f 0) / h else if k + 1 + 1 = N + 1 then (f (k + 1) - f k) / h else (f (k + 1 + 1) - f k) / (2 * h))) / 2 = f N - f 0 := by
  have part : ∀ m, m + 1 ≤ N → ∑ k ∈ Finset.range m, h * ((if k = 0 then (f 1 - f 0) / h else if k + 1 = N + 1 then (f k - f (k - 1)) / h else
      (f (k + 1) - f (k - 1)) / (2 * h)) + (if k + 1 = 0 then (f 1 - f 0) / h else if k + 1 + 1 = N + 1 then (f (k + 1) - f k) / h else
      (f (k + 1 + 1) - f k) / (2 * h))) / 2 = if m = 0 then 0 else f m / 2 + f (m - 1) / 4 + f (m + 1) / 4 - f 0 := by
    intro m
    induction m with
    | zero => simp
    | succ m ih =>
      intro hm
      rw [Finset.sum_range_succ, ih (by omega)]
      cases m with
      | zero =>
        rw [if_pos rfl, if_pos rfl, if_neg (by omega), if_neg (by omega), if_neg (by omega)]
        simp only [zero_add, Nat.sub_self]
        field_simp
        ring
      | succ m =>
        rw [if_neg (by omega), if_neg (by omega), if_neg (by omega), if_neg (by omega), if_neg (by omega), if_neg (by omega)]
        simp only [Nat.add_sub_cancel]
        field_simp
        ring
  obtain ⟨m, rfl⟩ : ∃ m, N = m + 1 := ⟨N - 1, by omega⟩
  rw [Finset.sum_range_succ, part m le_rfl]
  cases m with
  | zero =>
    simp only [zero_add, if_true, one_ne_zero, if_false]
    field_simp
    ring
  | succ m =>
    rw [if_neg (by omega), if_neg (by omega), if_neg (by omega), if_neg (by omega), if_pos rfl]
    simp only [Nat.add_sub_cancel]
    field_simp
    ring

end Dorado
