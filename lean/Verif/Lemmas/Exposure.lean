import Verif.Spec.Post
import Verif.Lemmas.Basic

/-! `exposure_time` as a recursion over records. -/

set_option linter.unusedSectionVars false

namespace Dorado

variable {K : Type} [Field K] [LinearOrder K] [IsStrictOrderedRing K]

theorem foldE_append {α σ : Type} {f : σ → α → Except PyErr σ} {l1 l2 : List α} {s : σ} :
    foldE f s (l1 ++ l2) = (foldE f s l1 >>= fun s' => foldE f s' l2) := by
  induction l1 generalizing s with
  | nil => rfl
  | cons a l ih =>
    simp only [List.cons_append, foldE]
    cases h : f s a with
    | error e => rfl
    | ok s' => simp only [ok_bind]; exact ih

/-- Grid access at a position of the raster. -/
theorem grid_get_on {α : Type} {g : Grid α} {x y : Int} (h : 0 ≤ x ∧ x < g.rows ∧ 0 ≤ y ∧ y < g.cols) :
    g.get x y = .ok (g.at' x.toNat y.toNat) := by
  unfold Grid.get pyIdx
  rw [if_pos ⟨h.1, h.2.1⟩, if_pos ⟨h.2.2.1, h.2.2.2⟩]
  rfl

/-- Accumulated exposure after `k` steps, for region values `r` and times `τ` at the records. -/
def expoRec (A : Arith K) (r : Nat → Int) (τ : Nat → K) : Nat → K
  | 0 => 0
  | k + 1 =>
    if r (k + 1) + r k = 2 then A.rnd (expoRec A r τ k + A.rnd (τ (k + 1) - τ k))
    else if r (k + 1) + r k = 1 then A.rnd (expoRec A r τ k + A.rnd (1 / 2 * A.rnd (τ (k + 1) - τ k)))
    else expoRec A r τ k

/-- The loop over the records of one particle. -/
theorem exposure_loop {A : Arith K} {g : Grid Int} {xs ys : List Int} {ts : List (Fl K)} {r : Nat → Int} {τ : Nat → K}
    (hr : ∀ n, n < ts.length → regionAt g xs ys n = .ok (r n)) (ht : ∀ n, n < ts.length → ts[n]? = some (.fin (τ n))) {k : Nat}
    (hk : k < ts.length) :
    foldE (exposureStep A g xs ys ts) { acc := .fin 0, prev := r 0, short := false } (List.range' 1 k) =
      .ok { acc := .fin (expoRec A r τ k), prev := r k, short := decide (1 ≤ k ∧ k + 1 = ts.length ∧ r k = 1) } := by
  induction k with
  | zero => simp [foldE, expoRec]
  | succ k ih =>
    rw [List.range'_1_concat, foldE_append, ih (by omega)]
    simp only [ok_bind, foldE, exposureStep]
    rw [show 1 + k = k + 1 by omega, hr (k + 1) hk]
    simp only [ok_bind, listGet, ht (k + 1) hk, Nat.add_sub_cancel, ht k (by omega)]
    simp only [Arith.sub, Fl.neg, Arith.add, Arith.mul, ← sub_eq_add_neg]
    simp only [pure, Except.pure, expoRec, ok_bind]
    congr 2
    · split_ifs <;> rfl
    · have h1 : ¬ (k + 1 = ts.length) := by omega
      simp only [h1, false_and, and_false, decide_false, Bool.false_or]
      rw [Bool.eq_iff_iff]
      simp
      omega

variable {A : Arith K}

/-- Region value at record `n` of particle `i`. -/
def WalkData.regVal (wd : WalkData K) (g : Grid Int) (i n : Nat) : Int :=
  match wd.posAt i n with
  | some p => g.at' p.1.toNat p.2.toNat
  | none => 0

theorem Proper.get {wd : WalkData K} (hp : Proper wd) {i : Nat} (hi : i < wd.count) :
    ∃ xs ys ts, wd.xinds[i]? = some xs ∧ wd.yinds[i]? = some ys ∧ wd.times[i]? = some ts ∧ xs.length = ts.length ∧
      ys.length = ts.length ∧ 1 ≤ ts.length ∧ wd.records i = ts.length := by
  unfold WalkData.count at hi
  have h1 := hp.cols
  have h2 := hp.times
  obtain ⟨xs, hx⟩ : ∃ xs, wd.xinds[i]? = some xs := ⟨_, List.getElem?_eq_getElem hi⟩
  obtain ⟨ys, hy⟩ : ∃ ys, wd.yinds[i]? = some ys := ⟨_, List.getElem?_eq_getElem (by omega)⟩
  obtain ⟨ts, ht⟩ : ∃ ts, wd.times[i]? = some ts := ⟨_, List.getElem?_eq_getElem (by omega)⟩
  obtain ⟨a, b, c⟩ := hp.same i xs ys ts hx hy ht
  exact ⟨xs, ys, ts, hx, hy, ht, a, b, c, by simp [WalkData.records, ht]⟩

theorem Proper.records_pos {wd : WalkData K} (hp : Proper wd) {i : Nat} (hi : i < wd.count) : 1 ≤ wd.records i := by
  obtain ⟨xs, ys, ts, -, -, -, -, -, h, e⟩ := hp.get hi
  omega

/-- Every record has a position on the raster. -/
theorem Proper.pos {wd : WalkData K} (hp : Proper wd) {i n : Nat} (hi : i < wd.count) (hn : n < wd.records i) :
    ∃ p, wd.posAt i n = some p := by
  obtain ⟨xs, ys, ts, hx, hy, ht, a, b, c, e⟩ := hp.get hi
  exact ⟨(xs[n]'(by omega), ys[n]'(by omega)), by simp [WalkData.posAt, hx, hy, show n < xs.length by omega, show n < ys.length by omega]⟩

theorem exposureOne_eq {wd : WalkData K} {g : Grid Int} (hp : Proper wd) (hr : OnRaster g.rows g.cols wd) {i : Nat} (hi : i < wd.count) :
    exposureOne A wd g i = .ok (.fin (expoRec A (wd.regVal g i) (wd.tau i) (wd.records i - 1)),
      decide (2 ≤ wd.records i ∧ wd.regVal g i (wd.records i - 1) = 1)) := by
  obtain ⟨xs, ys, ts, hx, hy, ht, a, b, c, e⟩ := hp.get hi
  have h1 : ∀ n, n < ts.length → regionAt g xs ys n = .ok (wd.regVal g i n) := by
    intro n hn
    have hpos : wd.posAt i n = some (xs[n]'(by omega), ys[n]'(by omega)) := by
      simp [WalkData.posAt, hx, hy, show n < xs.length by omega, show n < ys.length by omega]
    unfold regionAt
    simp only [listGet, List.getElem?_eq_getElem (show n < xs.length by omega), List.getElem?_eq_getElem (show n < ys.length by omega),
      ok_bind]
    rw [grid_get_on (hr i n _ hpos)]
    simp [WalkData.regVal, hpos]
  have h2 : ∀ n, n < ts.length → ts[n]? = some (.fin (wd.tau i n)) := by
    intro n hn
    have hta : wd.timeAt i n = some ts[n] := by simp [WalkData.timeAt, ht, hn]
    obtain ⟨x, hx'⟩ := hp.fin i n _ hta
    rw [List.getElem?_eq_getElem hn, hx']
    simp [WalkData.tau, hta, hx']
  unfold exposureOne
  simp only [listGet, hx, hy, ht, ok_bind, h1 0 (by omega)]
  rw [exposure_loop h1 h2 (by omega)]
  simp only [ok_bind, e]
  rw [pure_def]
  congr 3
  rw [eq_iff_iff]
  constructor
  · rintro ⟨q1, q2, q3⟩
    exact ⟨by omega, q3⟩
  · rintro ⟨q1, q3⟩
    exact ⟨by omega, by omega, q3⟩

/-- `exposure_time` succeeds on proper walk data on the raster of the region. -/
theorem exposureTime_eq {wd : WalkData K} {g : Grid Int} (hp : Proper wd) (hr : OnRaster g.rows g.cols wd) :
    ∃ res, exposureTime A wd g = .ok res ∧ res.times.length = wd.count ∧
      (∀ i, i < wd.count → res.times[i]? = some (.fin (expoRec A (wd.regVal g i) (wd.tau i) (wd.records i - 1)))) ∧
      res.message = (if (∃ i, i < wd.count ∧ 2 ≤ wd.records i ∧ wd.regVal g i (wd.records i - 1) = 1) then
        some ((List.range wd.count).filter fun i => decide (2 ≤ wd.records i ∧ wd.regVal g i (wd.records i - 1) = 1)) else none) := by
  have hm : mapE (exposureOne A wd g) (List.range wd.xinds.length) = .ok ((List.range wd.xinds.length).map fun i =>
      (.fin (expoRec A (wd.regVal g i) (wd.tau i) (wd.records i - 1)), decide (2 ≤ wd.records i ∧ wd.regVal g i (wd.records i - 1) = 1))) := by
    rw [mapE_ok_iff]
    refine List.forall₂_iff_get.2 ⟨by simp, fun i h1 h2 => ?_⟩
    simp only [List.get_eq_getElem, List.getElem_range, List.getElem_map]
    exact exposureOne_eq hp hr (by simpa [WalkData.count] using h1)
  unfold exposureTime
  rw [hm]
  simp only [ok_bind]
  refine ⟨_, rfl, by simp [WalkData.count], ?_, ?_⟩
  · intro i hi
    simp only [List.map_map, List.getElem?_map]
    rw [List.getElem?_range (by exact hi)]
    rfl
  · have hf : (List.range wd.xinds.length).filter (fun i => (((((List.range wd.xinds.length).map fun i =>
        ((.fin (expoRec A (wd.regVal g i) (wd.tau i) (wd.records i - 1)) : Fl K),
          decide (2 ≤ wd.records i ∧ wd.regVal g i (wd.records i - 1) = 1))))[i]?).map (·.2)).getD false) =
        (List.range wd.count).filter fun i => decide (2 ≤ wd.records i ∧ wd.regVal g i (wd.records i - 1) = 1) := by
      apply List.filter_congr
      intro i hi
      rw [List.getElem?_map, List.getElem?_range (by simpa using hi)]
      rfl
    rw [hf]
    by_cases h : ∃ i, i < wd.count ∧ 2 ≤ wd.records i ∧ wd.regVal g i (wd.records i - 1) = 1
    · rw [if_pos h, if_pos]
      obtain ⟨i, hi, h1⟩ := h
      apply List.length_pos_of_mem (a := i)
      simp [hi, h1]
    · rw [if_neg h, if_neg]
      simp only [not_lt, Nat.le_zero, List.length_eq_zero_iff, List.filter_eq_nil_iff]
      intro i hi
      simp only [decide_eq_true_eq]
      exact fun hh => h ⟨i, by simpa using hi, hh⟩

theorem inRegion_iff {wd : WalkData K} {g : Grid Int} {i n : Nat} : wd.inRegion g i n ↔ wd.regVal g i n = 1 := by
  unfold WalkData.inRegion WalkData.regVal
  cases wd.posAt i n with
  | none => simp
  | some p => simp

theorem regVal_binary {wd : WalkData K} {g : Grid Int} (hb : Binary g) (hr : OnRaster g.rows g.cols wd) (i n : Nat) :
    wd.regVal g i n = 0 ∨ wd.regVal g i n = 1 := by
  unfold WalkData.regVal
  cases h : wd.posAt i n with
  | none => exact Or.inl rfl
  | some p =>
    obtain ⟨a, b, c, d⟩ := hr i n p h
    exact hb _ _ (by omega) (by omega)

/-- In exact arithmetic the recursion is the defining sum. -/
theorem expoRec_exact {wd : WalkData K} {g : Grid Int} (hb : Binary g) (hr : OnRaster g.rows g.cols wd) (i k : Nat) :
    expoRec Arith.exact (wd.regVal g i) (wd.tau i) k =
      ∑ n ∈ Finset.range k, (wd.tau i (n + 1) - wd.tau i n) * ((wd.mark g i n + wd.mark g i (n + 1)) / 2) := by
  classical
  induction k with
  | zero => simp [expoRec]
  | succ k ih =>
    rw [Finset.sum_range_succ, ← ih]
    have hm : ∀ n, wd.mark g i n = ((wd.regVal g i n : Int) : K) := by
      intro n
      unfold WalkData.mark
      rcases regVal_binary hb hr i n with h | h
      · rw [if_neg (fun hh => by rw [inRegion_iff] at hh; omega), h]; simp
      · rw [if_pos (inRegion_iff.2 h), h]; simp
    rw [hm, hm]
    simp only [expoRec, Arith.exact, id_eq]
    rcases regVal_binary hb hr i k with h1 | h1 <;> rcases regVal_binary hb hr i (k + 1) with h2 | h2 <;>
      (rw [h1, h2]; push_cast; norm_num)
    · ring
    · ring

end Dorado
