import Verif.Model.Spatial
import Verif.Lemmas.Curve
import Verif.Lemmas.Nourish
import Verif.Lemmas.PairSum
import Verif.Base.Inst
import Verif.Lemmas.Float

/-!
# The outlier filter (C60)
-/

set_option linter.unusedSectionVars false

namespace Dorado

variable {K : Type} [Field K] [LinearOrder K] [IsStrictOrderedRing K] [FloorRing K] {A : Arith K}

/-- Cell `(a, b)` lies in the window of size `w` around `(i, j)`. -/
def InFilterWindow (w : Int) (i j a b : Nat) : Prop := |(a : Int) - i| ≤ w / 2 ∧ |(b : Int) - j| ≤ w / 2

/-- Rounding as in binary floating point: symmetric, and doubling is exact. -/
structure BinaryRounding (A : Arith K) : Prop where
  neg : ∀ x, A.rnd (-x) = -A.rnd x
  dbl : ∀ x, A.rnd x = x → A.rnd (2 * x) = 2 * x

/-- A map of finite floating-point numbers and NaN. -/
def FloatMap (A : Arith K) (g : Grid (Fl K)) : Prop :=
  ∀ i j, i < g.rows → j < g.cols → g.at' i j = .nan ∨ ∃ x, g.at' i j = .fin x ∧ A.rnd x = x

theorem sliceBound_clip {n : Nat} {k : Int} (h : 0 ≤ k) : (sliceBound n k : Int) = min k n := by
  unfold sliceBound
  rw [if_neg (by omega)]
  omega

theorem windowOf_mem {g : Grid (Fl K)} {w : Int} (hw : 0 ≤ w) {i j : Nat} (hi : i < g.rows) (hj : j < g.cols) {x : Fl K} :
    x ∈ windowOf g w i j ↔ x.isNan = false ∧ ∃ a b, a < g.rows ∧ b < g.cols ∧ InFilterWindow w i j a b ∧ g.at' a b = x := by
  unfold windowOf InFilterWindow
  have hh : w.fdiv 2 = w / 2 := Int.fdiv_eq_ediv_of_nonneg _ (by omega)
  rw [hh]
  simp only [List.mem_filter, List.mem_flatMap, List.mem_map, List.mem_range'_1, Bool.not_eq_true']
  have hr : ∀ (n i a : Nat), i < n → ((sliceBound n (max ((i : Int) - w / 2) 0) ≤ a ∧
      a < sliceBound n (max ((i : Int) - w / 2) 0) + (sliceBound n (min ((i : Int) + w / 2 + 1) n) - sliceBound n (max ((i : Int) - w / 2) 0))) ↔
      a < n ∧ |(a : Int) - i| ≤ w / 2) := by
    intro n i a hi
    have h1 := sliceBound_clip (n := n) (k := max ((i : Int) - w / 2) 0) (by omega)
    have h2 := sliceBound_clip (n := n) (k := min ((i : Int) + w / 2 + 1) n) (by omega)
    rw [abs_le]
    omega
  constructor
  · rintro ⟨⟨a, ha, b, hb, hx⟩, hn⟩
    rw [hr _ _ _ hi] at ha
    rw [hr _ _ _ hj] at hb
    exact ⟨hn, a, b, ha.1, hb.1, ⟨ha.2, hb.2⟩, hx⟩
  · rintro ⟨hn, a, b, ha, hb, ⟨h1, h2⟩, hx⟩
    exact ⟨⟨a, (hr _ _ _ hi).2 ⟨ha, h1⟩, b, (hr _ _ _ hj).2 ⟨hb, h2⟩, hx⟩, hn⟩

theorem windowOf_length {g : Grid (Fl K)} {w : Int} (hw : 0 ≤ w) {i j : Nat} : ((windowOf g w i j).length : Int) ≤ (w + 1) ^ 2 := by
  have hh : w.fdiv 2 = w / 2 := Int.fdiv_eq_ediv_of_nonneg _ (by omega)
  have hr : ∀ (n i : Nat), ((sliceBound n (min ((i : Int) + w / 2 + 1) n) - sliceBound n (max ((i : Int) - w / 2) 0) : Nat) : Int) ≤ w + 1 := by
    intro n i
    by_cases h0 : 0 ≤ min ((i : Int) + w / 2 + 1) n
    · have h1 := sliceBound_clip (n := n) (k := max ((i : Int) - w / 2) 0) (by omega)
      have h2 := sliceBound_clip (n := n) (k := min ((i : Int) + w / 2 + 1) n) h0
      omega
    · omega
  unfold windowOf
  rw [hh]
  refine (Int.ofNat_le.2 (List.length_filter_le _ _)).trans ?_
  simp only [List.length_flatMap, List.length_map, List.length_range', List.map_const', List.sum_replicate, smul_eq_mul]
  push_cast
  rw [pow_two]
  exact mul_le_mul (hr _ _) (hr _ _) (by positivity) (by omega)

/-- The median of representable numbers lies between two of them. -/
theorem median_fin (hA : BinaryRounding A) {xs : List K} (hne : xs ≠ []) (hrep : ∀ x ∈ xs, A.rnd x = x) :
    ∃ m a b, median A (xs.map Fl.fin) = .fin m ∧ a ∈ xs ∧ b ∈ xs ∧ a ≤ m ∧ m ≤ b ∧ A.rnd m = m := by
  have hl : 0 < xs.length := List.length_pos_iff.2 hne
  unfold median
  dsimp only
  rw [sortFl_fin]
  simp only [List.length_map, List.length_insertionSort]
  have hget : ∀ k, k < xs.length → ((xs.insertionSort (· ≤ ·)).map Fl.fin).getD k .nan = .fin ((xs.insertionSort (· ≤ ·)).getD k 0) := by
    intro k hk
    rw [getD_lt (by simpa using hk), getD_lt (by simpa using hk), List.getElem_map]
  by_cases hodd : xs.length % 2 = 1
  · rw [if_pos hodd, hget _ (by omega)]
    have hm := getD_sorted_mem (l := xs) (i := xs.length / 2) (by omega)
    exact ⟨_, _, _, rfl, hm, hm, le_rfl, le_rfl, hrep _ hm⟩
  · rw [if_neg hodd, hget _ (by omega), hget _ (by omega)]
    have m1 := getD_sorted_mem (l := xs) (i := xs.length / 2 - 1) (by omega)
    have m2 := getD_sorted_mem (l := xs) (i := xs.length / 2) (by omega)
    have hle := getD_sorted (l := xs) (i := xs.length / 2 - 1) (j := xs.length / 2) (by omega) (by omega)
    generalize (xs.insertionSort (· ≤ ·)).getD (xs.length / 2 - 1) 0 = a at m1 hle
    generalize (xs.insertionSort (· ≤ ·)).getD (xs.length / 2) 0 = b at m2 hle
    refine ⟨A.rnd (A.rnd (a + b) / 2), a, b, by simp [Arith.add, Arith.div], m1, m2, ?_, ?_, A.idem _⟩
    · have h1 := A.mono _ _ (show 2 * a ≤ a + b by linarith)
      rw [hA.dbl a (hrep a m1)] at h1
      have h2 := A.mono a (A.rnd (a + b) / 2) (by linarith)
      rwa [hrep a m1] at h2
    · have h1 := A.mono _ _ (show a + b ≤ 2 * b by linarith)
      rw [hA.dbl b (hrep b m2)] at h1
      have h2 := A.mono (A.rnd (a + b) / 2) b (by linarith)
      rwa [hrep b m2] at h2

/-- What the filter computes at a cell that is not NaN: the median of the window, or the mean of some of its values. -/
theorem madCell_cases (hA : BinaryRounding A) {g : Grid (Fl K)} (hg : FloatMap A g) {w : Int} (hw : 0 ≤ w) {t : K} (ht : 1 ≤ t) {i j : Nat} (hi : i < g.rows)
    (hj : j < g.cols) (hn : (g.at' i j).isNan = false) :
    ∃ xs : List K, (∀ x ∈ xs, ∃ a b, a < g.rows ∧ b < g.cols ∧ InFilterWindow w i j a b ∧ g.at' a b = .fin x) ∧
      ((∃ m a b, madCell A g w (.fin t) i j = .fin m ∧ a ∈ xs ∧ b ∈ xs ∧ a ≤ m ∧ m ≤ b) ∨
      (∃ ks : List K, ks ≠ [] ∧ ks ⊆ xs ∧ madCell A g w (.fin t) i j = mean A (ks.map Fl.fin) ∧ (∃ x ∈ xs, ∃ y ∈ xs, x ≠ y) ∧
        (ks.length : Int) ≤ (w + 1) ^ 2)) := by
  have hfl : ∀ y ∈ windowOf g w i j, ∃ x, y = .fin x ∧ A.rnd x = x := by
    intro y hy
    obtain ⟨h1, a, b, ha, hb, -, rfl⟩ := (windowOf_mem hw hi hj).1 hy
    rcases hg a b ha hb with h | h
    · rw [h] at h1; simp [Fl.isNan] at h1
    · exact h
  obtain ⟨xs, hxs⟩ := fin_list fun y hy => (hfl y hy).imp fun _ h => h.1
  have hmem : ∀ x ∈ xs, ∃ a b, a < g.rows ∧ b < g.cols ∧ InFilterWindow w i j a b ∧ g.at' a b = .fin x := by
    intro x hx
    exact ((windowOf_mem hw hi hj).1 (by rw [hxs]; exact List.mem_map.2 ⟨x, hx, rfl⟩)).2
  have hrep : ∀ x ∈ xs, A.rnd x = x := by
    intro x hx
    obtain ⟨y, h1, h2⟩ := hfl (.fin x) (by rw [hxs]; exact List.mem_map.2 ⟨x, hx, rfl⟩)
    cases h1
    exact h2
  have hne : xs ≠ [] := by
    have : g.at' i j ∈ windowOf g w i j := (windowOf_mem hw hi hj).2 ⟨hn, i, j, hi, hj, ⟨by simp; omega, by simp; omega⟩, rfl⟩
    rw [hxs] at this
    intro h
    rw [h] at this
    simp at this
  refine ⟨xs, hmem, ?_⟩
  obtain ⟨m, a, b, hm, ha, hb, h1, h2, hmr⟩ := median_fin hA hne hrep
  unfold madCell
  rw [if_neg (by simp [hn])]
  dsimp only
  rw [hxs, if_neg (by simpa using hne), hm]
  have hdev : ((xs.map Fl.fin).map fun x => (A.sub x (.fin m)).abs) = (xs.map fun x => max (A.rnd (x - m)) (-A.rnd (x - m))).map Fl.fin := by
    rw [List.map_map, List.map_map]
    refine List.map_congr_left fun x _ => ?_
    simp only [Function.comp, Arith.sub, Fl.neg, Arith.add, Fl.abs, sub_eq_add_neg]
  obtain ⟨d, a', b', hd, ha', hb', h3, h4, hdr⟩ := median_fin hA (xs := xs.map fun x => max (A.rnd (x - m)) (-A.rnd (x - m))) (by simpa using hne) (by
    intro y hy
    obtain ⟨x, -, rfl⟩ := List.mem_map.1 hy
    rcases max_choice (A.rnd (x - m)) (-A.rnd (x - m)) with h | h
    · rw [h, A.idem]
    · rw [h, hA.neg, A.idem])
  rw [hdev, hd]
  by_cases hd0 : d = 0
  · left
    refine ⟨m, a, b, ?_, ha, hb, h1, h2⟩
    rw [if_pos (by simp [Fl.eq, hd0])]
  · right
    rw [if_neg (by simp [Fl.eq, hd0])]
    have hfil : ((xs.map Fl.fin).filter fun x => Fl.le (A.sub x (.fin m)).abs (A.mul (.fin t) (.fin d))) =
        (xs.filter fun x => decide (max (A.rnd (x - m)) (-A.rnd (x - m)) ≤ A.rnd (t * d))).map Fl.fin := by
      rw [List.filter_map]
      congr 1
      refine List.filter_congr fun x _ => ?_
      simp only [Function.comp, Arith.sub, Fl.neg, Arith.add, Fl.abs, Arith.mul, Fl.le, sub_eq_add_neg]
    rw [hfil]
    obtain ⟨x, hx, rfl⟩ := List.mem_map.1 ha'
    have hd1 : 0 ≤ d := (abs_nonneg (A.rnd (x - m))).trans h3
    have hle : max (A.rnd (x - m)) (-A.rnd (x - m)) ≤ A.rnd (t * d) := by
      refine h3.trans ?_
      have := A.mono d (t * d) (by nlinarith)
      rwa [hdr] at this
    have hk : (xs.filter fun x => decide (max (A.rnd (x - m)) (-A.rnd (x - m)) ≤ A.rnd (t * d))) ≠ [] := by
      apply List.ne_nil_of_mem (a := x)
      rw [List.mem_filter]
      exact ⟨hx, by simpa using hle⟩
    refine ⟨_, hk, List.filter_sublist.subset, ?_, ?_, ?_⟩
    · rw [if_neg (by simpa using hk)]
    · by_contra hall
      push Not at hall
      have hma : m = a := le_antisymm (h2.trans (hall b hb a ha).le) h1
      apply hd0
      have hz : ∀ y ∈ xs, max (A.rnd (y - m)) (-A.rnd (y - m)) = 0 := by
        intro y hy
        rw [hall y hy a ha, hma, sub_self, A.zero]
        simp
      obtain ⟨z, hz', rfl⟩ := List.mem_map.1 hb'
      rw [hz z hz'] at h4
      exact le_antisymm h4 hd1
    · have h5 : (xs.filter fun x => decide (max (A.rnd (x - m)) (-A.rnd (x - m)) ≤ A.rnd (t * d))).length ≤ xs.length := List.length_filter_le _ _
      have h6 := windowOf_length (g := g) hw (i := i) (j := j)
      rw [hxs, List.length_map] at h6
      exact (Int.ofNat_le.2 h5).trans h6

/-- C60, for every symmetric rounding with exact doubling: with a threshold of at least 1 the filter returns NaN exactly at NaN cells, and keeps the shape. -/
theorem C60_nan (hA : BinaryRounding A) {g : Grid (Fl K)} (hg : FloatMap A g) {w : Int} (hw : 0 ≤ w) {t : K} (ht : 1 ≤ t) :
    (madFilter A g w (.fin t)).rows = g.rows ∧ (madFilter A g w (.fin t)).cols = g.cols ∧
      ∀ i j, i < g.rows → j < g.cols → ((madFilter A g w (.fin t)).at' i j = .nan ↔ g.at' i j = .nan) := by
  refine ⟨rfl, rfl, fun i j hi hj => ?_⟩
  constructor
  · intro h
    by_contra hc
    have hn : (g.at' i j).isNan = false := by
      cases hh : g.at' i j <;> simp_all [Fl.isNan]
    change madCell A g w (.fin t) i j = .nan at h
    obtain ⟨xs, -, ⟨m, a, b, h1, -⟩ | ⟨ks, h0, -, h1, -⟩⟩ := madCell_cases hA hg hw ht hi hj hn
    · rw [h1] at h; exact absurd h (by simp)
    · rw [h1] at h
      obtain ⟨s, hs, -⟩ := numpySum_fin (A := A) ks
      unfold mean at h
      rw [hs, List.length_map] at h
      have := A.mono 1 (ks.length : K) (by exact_mod_cast List.length_pos_iff.2 h0)
      rw [A.one] at this
      simp only [Arith.div] at h
      rw [if_neg (by linarith)] at h
      exact absurd h (by simp)
  · intro h
    change madCell A g w (.fin t) i j = .nan
    unfold madCell
    rw [h]
    rfl

/-- C60, for the same roundings: where all values in the window equal `x`, the filter returns `x`. -/
theorem C60_constant (hA : BinaryRounding A) {g : Grid (Fl K)} (hg : FloatMap A g) {w : Int} (hw : 0 ≤ w) {t : K} (ht : 1 ≤ t) {i j : Nat} (hi : i < g.rows)
    (hj : j < g.cols) {x : K} (hx : g.at' i j = .fin x)
    (hc : ∀ a b y, a < g.rows → b < g.cols → InFilterWindow w i j a b → g.at' a b = .fin y → y = x) : (madFilter A g w (.fin t)).at' i j = .fin x := by
  change madCell A g w (.fin t) i j = .fin x
  obtain ⟨xs, hxs, ⟨m, a, b, h1, ha, hb, h2, h3⟩ | ⟨ks, -, -, -, ⟨y, hy, z, hz, hyz⟩, -⟩⟩ := madCell_cases hA hg hw ht hi hj (by rw [hx]; rfl)
  · obtain ⟨_, _, q1, q2, q3, q4⟩ := hxs a ha
    obtain ⟨_, _, r1, r2, r3, r4⟩ := hxs b hb
    rw [hc _ _ _ q1 q2 q3 q4] at h2
    rw [hc _ _ _ r1 r2 r3 r4] at h3
    rw [h1, le_antisymm h3 h2]
  · obtain ⟨_, _, q1, q2, q3, q4⟩ := hxs y hy
    obtain ⟨_, _, r1, r2, r3, r4⟩ := hxs z hz
    exact absurd ((hc _ _ _ q1 q2 q3 q4).trans (hc _ _ _ r1 r2 r3 r4).symm) hyz

theorem exact_binary : BinaryRounding (Arith.exact (K := K)) := ⟨fun _ => rfl, fun _ _ => rfl⟩

/-- C60, exact arithmetic: elsewhere the value lies between any two bounds of the non-NaN values in the window. -/
theorem C60_range {g : Grid (Fl K)} (hg : FloatMap Arith.exact g) {w : Int} (hw : 0 ≤ w) {t : K} (ht : 1 ≤ t) {i j : Nat} (hi : i < g.rows) (hj : j < g.cols)
    (hn : g.at' i j ≠ .nan) :
    ∃ v, (madFilter Arith.exact g w (.fin t)).at' i j = .fin v ∧
      ∀ lo hi', (∀ a b y, a < g.rows → b < g.cols → InFilterWindow w i j a b → g.at' a b = .fin y → lo ≤ y ∧ y ≤ hi') → lo ≤ v ∧ v ≤ hi' := by
  have hn' : (g.at' i j).isNan = false := by
    cases hh : g.at' i j <;> simp_all [Fl.isNan]
  obtain ⟨xs, hxs, ⟨m, a, b, h1, ha, hb, h2, h3⟩ | ⟨ks, h0, hsub, h1, -⟩⟩ := madCell_cases exact_binary hg hw ht hi hj hn'
  · refine ⟨m, h1, fun lo hi' hb' => ?_⟩
    obtain ⟨_, _, q1, q2, q3, q4⟩ := hxs a ha
    obtain ⟨_, _, r1, r2, r3, r4⟩ := hxs b hb
    exact ⟨(hb' _ _ _ q1 q2 q3 q4).1.trans h2, h3.trans (hb' _ _ _ r1 r2 r3 r4).2⟩
  · have hlen : (0 : K) < ks.length := by exact_mod_cast List.length_pos_iff.2 h0
    refine ⟨ks.sum / ks.length, ?_, fun lo hi' hb' => ?_⟩
    · show madCell _ _ _ _ _ _ = _
      rw [h1]
      unfold mean
      obtain ⟨x, hx, hr⟩ := numpySum_fin (A := Arith.exact) ks
      rw [hx, List.length_map, hr.eq_sum]
      exact if_neg hlen.ne'
    · have hks : ∀ y ∈ ks, lo ≤ y ∧ y ≤ hi' := by
        intro y hy
        obtain ⟨_, _, q1, q2, q3, q4⟩ := hxs y (hsub hy)
        exact hb' _ _ _ q1 q2 q3 q4
      rw [le_div_iff₀ hlen, div_le_iff₀ hlen, mul_comm lo, mul_comm hi', ← nsmul_eq_mul, ← nsmul_eq_mul]
      exact ⟨List.card_nsmul_le_sum ks lo fun y hy => (hks y hy).1, List.sum_le_card_nsmul ks hi' fun y hy => (hks y hy).2⟩

theorem mean_bounds {u : K} (hR : RelError A u) (hu : 0 ≤ u) (hu1 : u < 1) {ks : List K} (h0 : ks ≠ []) {lo hi : K} (hlo : 0 ≤ lo)
    (hks : ∀ y ∈ ks, lo ≤ y ∧ y ≤ hi) :
    ∃ v, mean A (ks.map Fl.fin) = .fin v ∧ 0 ≤ v ∧ lo * (1 - u) ^ (ks.length + 2) ≤ v ∧ v * (1 - u) ^ (ks.length + 2) ≤ hi := by
  have hk : (0 : K) < ks.length := by exact_mod_cast List.length_pos_iff.2 h0
  have h1u : 0 < 1 - u := by linarith
  obtain ⟨x, hx, hr⟩ := numpySum_fin (A := A) ks
  obtain ⟨b0, b1, b2⟩ := hr.bounds hR hu hu1.le fun y hy => hlo.trans (hks y hy).1
  obtain ⟨c1, c2⟩ := hR.bounds hk.le
  have hn : 0 < A.rnd (ks.length : K) := lt_of_lt_of_le (mul_pos hk h1u) c1
  obtain ⟨d1, d2⟩ := hR.bounds (div_nonneg b0 hn.le)
  have s1 : lo * ks.length ≤ ks.sum := by
    rw [mul_comm, ← nsmul_eq_mul]
    exact List.card_nsmul_le_sum ks lo fun y hy => (hks y hy).1
  have s2 : ks.sum ≤ hi * ks.length := by
    rw [mul_comm, ← nsmul_eq_mul]
    exact List.sum_le_card_nsmul ks hi fun y hy => (hks y hy).2
  have hp : 0 ≤ (1 - u) ^ ks.length := by positivity
  refine ⟨A.rnd (x / A.rnd (ks.length : K)), ?_, le_trans (mul_nonneg (div_nonneg b0 hn.le) h1u.le) d1, ?_, ?_⟩
  · unfold mean
    rw [hx, List.length_map]
    exact if_neg hn.ne'
  · refine le_trans ?_ d1
    rw [pow_succ, ← mul_assoc]
    refine mul_le_mul_of_nonneg_right ?_ h1u.le
    rw [le_div_iff₀ hn]
    calc lo * (1 - u) ^ (ks.length + 1) * A.rnd (ks.length : K) ≤ lo * (1 - u) ^ (ks.length + 1) * (ks.length * (1 + u)) :=
          mul_le_mul_of_nonneg_left c2 (by positivity)
      _ = lo * ks.length * (1 - u) ^ ks.length * ((1 - u) * (1 + u)) := by ring
      _ ≤ lo * ks.length * (1 - u) ^ ks.length * 1 := by
          refine mul_le_mul_of_nonneg_left ?_ (by positivity)
          nlinarith
      _ ≤ ks.sum * (1 - u) ^ ks.length := by
          rw [mul_one]
          exact mul_le_mul_of_nonneg_right s1 hp
      _ ≤ x := b1
  · have e1 : A.rnd (x / A.rnd (ks.length : K)) * (1 - u) ≤ x / A.rnd (ks.length : K) := by
      refine (mul_le_mul_of_nonneg_right d2 h1u.le).trans ?_
      have : x / A.rnd (ks.length : K) * (1 + u) * (1 - u) = x / A.rnd (ks.length : K) - x / A.rnd (ks.length : K) * (u * u) := by ring
      rw [this]
      have := mul_nonneg (div_nonneg b0 hn.le) (mul_nonneg hu hu)
      linarith
    have e2 : x / A.rnd (ks.length : K) * (1 - u) ≤ x / ks.length := by
      rw [div_mul_eq_mul_div, div_le_div_iff₀ hn hk, mul_assoc, mul_comm (1 - u)]
      exact mul_le_mul_of_nonneg_left c1 b0
    calc A.rnd (x / A.rnd (ks.length : K)) * (1 - u) ^ (ks.length + 2)
        = A.rnd (x / A.rnd (ks.length : K)) * (1 - u) * (1 - u) * (1 - u) ^ ks.length := by ring
      _ ≤ x / A.rnd (ks.length : K) * (1 - u) * (1 - u) ^ ks.length :=
          mul_le_mul_of_nonneg_right (mul_le_mul_of_nonneg_right e1 h1u.le) hp
      _ ≤ x / ks.length * (1 - u) ^ ks.length := mul_le_mul_of_nonneg_right e2 hp
      _ = x * (1 - u) ^ ks.length / ks.length := by ring
      _ ≤ ks.sum / ks.length := div_le_div_of_nonneg_right b2 hk.le
      _ ≤ hi := by
          rw [div_le_iff₀ hk]
          exact s2

/-- C60, for every rounding with a relative error below `u`: where the values in the window are not negative, the value of the filter lies between any two
bounds of them up to `(w + 1)² + 2` rounding errors. -/
theorem C60_range_rounded (hA : BinaryRounding A) {u : K} (hR : RelError A u) (hu : 0 ≤ u) (hu1 : u < 1) {g : Grid (Fl K)} (hg : FloatMap A g) {w : Nat}
    {t : K} (ht : 1 ≤ t) {i j : Nat} (hi : i < g.rows) (hj : j < g.cols) (hn : g.at' i j ≠ .nan) :
    ∃ v, (madFilter A g w (.fin t)).at' i j = .fin v ∧
      ∀ lo hi', 0 ≤ lo → (∀ a b y, a < g.rows → b < g.cols → InFilterWindow w i j a b → g.at' a b = .fin y → lo ≤ y ∧ y ≤ hi') →
        lo * (1 - u) ^ ((w + 1) ^ 2 + 2) ≤ v ∧ v * (1 - u) ^ ((w + 1) ^ 2 + 2) ≤ hi' := by
  have hn' : (g.at' i j).isNan = false := by
    cases hh : g.at' i j <;> simp_all [Fl.isNan]
  have h1u : 0 ≤ 1 - u := by linarith
  have hp1 : (1 - u) ^ ((w + 1) ^ 2 + 2) ≤ 1 := pow_le_one₀ h1u (by linarith)
  have hp0 : 0 ≤ (1 - u) ^ ((w + 1) ^ 2 + 2) := pow_nonneg h1u _
  obtain ⟨xs, hxs, ⟨m, a, b, h1, ha, hb, h2, h3⟩ | ⟨ks, h0, hsub, h1, -, hlen⟩⟩ := madCell_cases hA hg (Int.natCast_nonneg w) ht hi hj hn'
  · refine ⟨m, h1, fun lo hi' hlo hb' => ?_⟩
    obtain ⟨_, _, q1, q2, q3, q4⟩ := hxs a ha
    obtain ⟨_, _, r1, r2, r3, r4⟩ := hxs b hb
    have e1 := (hb' _ _ _ q1 q2 q3 q4).1.trans h2
    have e2 := h3.trans (hb' _ _ _ r1 r2 r3 r4).2
    exact ⟨(mul_le_of_le_one_right hlo hp1).trans e1, (mul_le_of_le_one_right (hlo.trans e1) hp1).trans e2⟩
  · have hl : ks.length + 2 ≤ (w + 1) ^ 2 + 2 := by
      have : ((ks.length : Nat) : Int) ≤ (((w + 1) ^ 2 : Nat) : Int) := by push_cast; exact hlen
      omega
    have hpow : (1 - u) ^ ((w + 1) ^ 2 + 2) ≤ (1 - u) ^ (ks.length + 2) := pow_le_pow_of_le_one h1u (by linarith) hl
    obtain ⟨s, hs, -⟩ := numpySum_fin (A := A) ks
    have hfin : ∃ v, mean A (ks.map Fl.fin) = .fin v := by
      unfold mean
      rw [hs, List.length_map]
      have := A.mono 1 (ks.length : K) (by exact_mod_cast List.length_pos_iff.2 h0)
      rw [A.one] at this
      exact ⟨_, if_neg (by linarith)⟩
    obtain ⟨v, hv⟩ := hfin
    refine ⟨v, h1.trans hv, fun lo hi' hlo hb' => ?_⟩
    have hks : ∀ y ∈ ks, lo ≤ y ∧ y ≤ hi' := by
      intro y hy
      obtain ⟨_, _, q1, q2, q3, q4⟩ := hxs y (hsub hy)
      exact hb' _ _ _ q1 q2 q3 q4
    obtain ⟨v', e1, e2, e3, e4⟩ := mean_bounds hR hu hu1 h0 hlo hks
    rw [hv] at e1
    cases e1
    exact ⟨(mul_le_mul_of_nonneg_left hpow hlo).trans e3, (mul_le_mul_of_nonneg_left hpow e2).trans e4⟩

theorem double_binary : BinaryRounding (Arith.double (K := K)) := by
  refine ⟨fun x => rndFloat_neg x, fun x hx => ?_⟩
  change rndFloat 53 x = x at hx
  show rndFloat 53 (2 * x) = 2 * x
  have key : ∀ y : K, 0 < y → rndFloat 53 y = y → rndFloat 53 (2 * y) = 2 * y := by
    intro y hy h
    obtain ⟨h1, h2⟩ := round_bounds (p := 53) (by norm_num) hy
    rw [rndFloat_pos hy] at h
    rw [rndFloat_pos (by linarith)]
    have e : 2 * y = (roundHalfEven (y / ulp 53 (Int.log 2 y)) : K) * (2 : K) ^ (Int.log 2 y - 53 + 1 + 1) := by
      rw [zpow_add_one₀ two_ne_zero]
      conv_lhs => rw [← h]
      unfold rndPos
      simp only [ulp]
      push_cast
      ring
    rw [e]
    exact rndPos_fix (by norm_num) (lt_of_lt_of_le (by positivity) h1) h2
  rcases lt_trichotomy x 0 with h | h | h
  · have h' := key (-x) (by linarith) (by rw [rndFloat_neg, hx])
    rw [mul_neg, rndFloat_neg] at h'
    linarith
  · simp [h, rndFloat_zero]
  · exact key x h hx

/-! A map with a NaN cell and an outlier. -/

def spotMap : Grid (Fl ℚ) := ⟨2, 3, fun i j => if i = 0 ∧ j = 2 then .nan else if i = 1 ∧ j = 1 then .fin 50 else .fin (i + j)⟩

theorem spotMap_float : FloatMap Arith.exact spotMap := by
  intro i j _ _
  simp only [spotMap]
  split_ifs
  · exact Or.inl rfl
  · exact Or.inr ⟨_, rfl, rfl⟩
  · exact Or.inr ⟨_, rfl, rfl⟩

example : (madFilter Arith.exact spotMap 3 (.fin 3)).at' 0 2 = .nan ∧ (madFilter Arith.exact spotMap 3 (.fin 3)).at' 1 1 ≠ .nan := by
  obtain ⟨-, -, h⟩ := C60_nan exact_binary spotMap_float (w := 3) (t := 3) (by norm_num) (by norm_num)
  exact ⟨(h 0 2 (by decide) (by decide)).2 (by decide +kernel), fun hc => absurd ((h 1 1 (by decide) (by decide)).1 hc) (by decide +kernel)⟩

example : (madFilter Arith.exact spotMap 3 (.fin 3)).at' 1 1 = .fin (5 / 4) := by decide +kernel

example : (madFilter Arith.exact spotMap 1 (.fin 3)).at' 1 1 = .fin 50 :=
  C60_constant exact_binary spotMap_float (by norm_num) (by norm_num) (by decide) (by decide) (by decide +kernel) (by
    intro a b y _ _ hw hy
    obtain ⟨h1, h2⟩ := hw
    rw [abs_le] at h1 h2
    have ha : a = 1 := by omega
    have hb : b = 1 := by omega
    subst ha hb
    have : spotMap.at' 1 1 = .fin 50 := by decide +kernel
    rw [this] at hy
    exact (Fl.fin.inj hy).symm)

example : ∃ v, (madFilter Arith.exact spotMap 3 (.fin 3)).at' 1 1 = .fin v ∧ 0 ≤ v ∧ v ≤ 50 := by
  obtain ⟨v, h1, h2⟩ := C60_range spotMap_float (w := 3) (t := 3) (i := 1) (j := 1) (by norm_num) (by norm_num) (by decide) (by decide) (by decide +kernel)
  refine ⟨v, h1, h2 0 50 fun a b y ha hb _ hy => ?_⟩
  have : ∀ a < 2, ∀ b < 3, ∀ y, spotMap.at' a b = .fin y → 0 ≤ y ∧ y ≤ 50 := by
    intro a ha b hb y hy
    interval_cases a <;> interval_cases b <;> simp [spotMap] at hy <;> subst hy <;> norm_num
  exact this a ha b hb y hy

/-- A map of doubles: thirds, and an outlier. -/
def thirdMap : Grid (Fl ℚ) := ⟨3, 3, fun i j => if i = 1 ∧ j = 1 then .fin 50 else .fin ((Arith.double (K := ℚ)).rnd ((i + 2 * j + 1 : Nat) / 3))⟩

/-- In double precision, the mean of eight of the nine values. -/
example : ∃ v, (madFilter Arith.double thirdMap 3 (.fin 3)).at' 1 1 = .fin v ∧ 0 ≤ v ∧ v * (1 - 2 ^ (-((53 : Nat) : Int))) ^ 18 ≤ 50 := by
  have hg : FloatMap Arith.double thirdMap := by
    intro i j _ _
    simp only [thirdMap]
    split_ifs
    · exact Or.inr ⟨_, rfl, by decide +kernel⟩
    · exact Or.inr ⟨_, rfl, rndFloat_idem (by norm_num) _⟩
  have hval : ∀ a < 3, ∀ b < 3, ∃ x : ℚ, thirdMap.at' a b = .fin x ∧ 0 ≤ x ∧ x ≤ 50 := by
    have : ∀ a < 3, ∀ b < 3, (Fl.le (.fin 0) (thirdMap.at' a b) && Fl.le (thirdMap.at' a b) (.fin 50)) = true := by decide +kernel
    intro a ha b hb
    have := this a ha b hb
    rcases hg a b ha hb with h | ⟨x, h, -⟩
    · rw [h] at this; simp [Fl.le] at this
    · rw [h] at this
      exact ⟨x, h, by simpa [Fl.le] using this⟩
  obtain ⟨v, h1, h2⟩ := C60_range_rounded double_binary (u := 2 ^ (-((53 : Nat) : Int))) (fun x => rndFloat_err x) (by positivity) (by norm_num) hg (w := 3)
    (t := 3) (i := 1) (j := 1) (by norm_num) (by decide) (by decide) (by decide +kernel)
  obtain ⟨h3, h4⟩ := h2 0 50 le_rfl fun a b y ha hb _ hy => by
    obtain ⟨x, hx, hx'⟩ := hval a ha b hb
    rw [hx] at hy
    cases hy
    exact hx'
  exact ⟨v, h1, by simpa using h3, h4⟩

/-- With a threshold below 1 the filter can turn a number into NaN. -/
example : (madFilter Arith.exact (⟨1, 2, fun _ j => .fin (j : ℚ)⟩ : Grid (Fl ℚ)) 3 (.fin (1 / 2))).at' 0 0 = .nan := by decide +kernel

end Dorado
