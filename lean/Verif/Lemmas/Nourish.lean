import Verif.Model.Nourish
import Verif.Lemmas.Exposure
import Mathlib.Algebra.Order.Floor.Ring
import Mathlib.Algebra.BigOperators.Ring.Finset
import Mathlib.Tactic.Positivity

/-! Lemmas on arrays of finite numbers, percentiles and the counting loops. -/

set_option linter.unusedSectionVars false

namespace Dorado

variable {K : Type} [Field K] [LinearOrder K] [IsStrictOrderedRing K]

/-! ## Loops -/

theorem foldE_range {σ : Type} {f : σ → Nat → Except PyErr σ} (I : Nat → σ → Prop) {m : Nat} {s : σ} (h0 : I 0 s)
    (hs : ∀ k s, k < m → I k s → ∃ s', f s k = .ok s' ∧ I (k + 1) s') : ∃ s', foldE f s (List.range m) = .ok s' ∧ I m s' := by
  induction m with
  | zero => exact ⟨s, rfl, h0⟩
  | succ m ih =>
    obtain ⟨s1, h1, i1⟩ := ih fun k s hk => hs k s (by omega)
    obtain ⟨s2, h2, i2⟩ := hs m s1 (by omega) i1
    refine ⟨s2, ?_, i2⟩
    rw [List.range_succ, foldE_append, h1]
    simp [foldE, h2]

theorem foldE_range1 {σ : Type} {f : σ → Nat → Except PyErr σ} (I : Nat → σ → Prop) {m : Nat} {s : σ} (h0 : I 0 s)
    (hs : ∀ k s, k < m → I k s → ∃ s', f s (k + 1) = .ok s' ∧ I (k + 1) s') : ∃ s', foldE f s (List.range' 1 m) = .ok s' ∧ I m s' := by
  induction m with
  | zero => exact ⟨s, rfl, h0⟩
  | succ m ih =>
    obtain ⟨s1, h1, i1⟩ := ih fun k s hk => hs k s (by omega)
    obtain ⟨s2, h2, i2⟩ := hs m s1 (by omega) i1
    refine ⟨s2, ?_, i2⟩
    rw [List.range'_1_concat, foldE_append, h1]
    simp [foldE, show 1 + m = m + 1 by omega, h2]

/-! ## Arrays -/

/-- An array of finite numbers. -/
def finGrid (R C : Nat) (h : Nat → Nat → K) : Grid (Fl K) := ⟨R, C, fun i j => .fin (h i j)⟩

theorem mem_flat {α : Type} {g : Grid α} {x : α} : x ∈ g.flat ↔ ∃ i j, i < g.rows ∧ j < g.cols ∧ g.at' i j = x := by
  unfold Grid.flat
  simp only [List.mem_flatMap, List.mem_range, List.mem_map]
  constructor
  · rintro ⟨i, hi, j, hj, h⟩
    exact ⟨i, j, hi, hj, h⟩
  · rintro ⟨i, j, hi, hj, h⟩
    exact ⟨i, hi, j, hj, h⟩

theorem flat_length {α : Type} (g : Grid α) : g.flat.length = g.rows * g.cols := by
  unfold Grid.flat
  simp [List.length_flatMap]

theorem flat_map {α β : Type} (f : α → β) (g : Grid α) : (g.map f).flat = g.flat.map f := by
  unfold Grid.flat Grid.map
  simp [List.map_flatMap, Function.comp_def]

theorem flat_finGrid (R C : Nat) (h : Nat → Nat → K) : (finGrid R C h).flat = (Grid.flat ⟨R, C, h⟩).map Fl.fin :=
  flat_map Fl.fin ⟨R, C, h⟩

/-! ## Sorting and percentiles -/

theorem sortFl_fin (l : List K) : sortFl (l.map Fl.fin) = (l.insertionSort (· ≤ ·)).map Fl.fin := by
  unfold sortFl
  refine (List.map_insertionSort (r := (· ≤ ·)) (s := fun a b => Fl.le a b = true) Fl.fin l ?_).symm
  intro a _ b _
  simp [Fl.le]

theorem getD_lt {α : Type} {l : List α} {i : Nat} {d : α} (h : i < l.length) : l.getD i d = l[i] := by
  simp [List.getD_eq_getElem?_getD, h]

/-- Percentile of finite numbers, as a recursion-free formula. -/
def percK [FloorRing K] (A : Arith K) (l : List K) (q : K) : Fl K :=
  let s := l.insertionSort (· ≤ ·)
  let h := A.rnd (((s.length - 1 : Nat) : K) * A.rnd (q / 100))
  let lo := min ⌊h⌋.toNat (s.length - 1)
  npLerp A (.fin (s.getD lo 0)) (.fin (s.getD (min (lo + 1) (s.length - 1)) 0)) (.fin (A.rnd (h - ((lo : Nat) : K))))

theorem nanpercentile_fin [FloorRing K] {A : Arith K} {R C : Nat} {h : Nat → Nat → K} {q : K} (hq0 : 0 ≤ q) (hq1 : q ≤ 100)
    (hne : 0 < R * C) : nanpercentile A (finGrid R C h) q = .ok (percK A (Grid.flat ⟨R, C, h⟩) q) := by
  unfold nanpercentile
  rw [if_neg (by push Not; exact ⟨hq0, hq1⟩), flat_finGrid]
  have hf : ((Grid.flat ⟨R, C, h⟩).map Fl.fin).filter (fun x => !x.isNan) = (Grid.flat ⟨R, C, h⟩).map (Fl.fin : K → Fl K) := by
    rw [List.filter_eq_self]
    intro a ha
    obtain ⟨x, -, rfl⟩ := List.mem_map.1 ha
    rfl
  rw [hf, sortFl_fin]
  have hl : ((Grid.flat ⟨R, C, h⟩).insertionSort (· ≤ ·)).length = R * C := by
    rw [List.length_insertionSort, flat_length]
  simp only [List.length_map]
  rw [if_neg (by omega)]
  unfold percK
  simp only
  obtain ⟨s, hs⟩ : ∃ s, s = (Grid.flat ⟨R, C, h⟩).insertionSort (· ≤ ·) := ⟨_, rfl⟩
  rw [← hs] at hl ⊢
  have hget : ∀ m, m < s.length → listGet (s.map (Fl.fin : K → Fl K)) m = .ok (.fin (s.getD m 0)) := by
    intro m hm
    rw [listGet_ok]
    simp [hm]
  rw [hget _ (by omega), hget _ (by omega)]
  rfl

theorem percK_eq [FloorRing K] (A : Arith K) (l : List K) (q : K) :
    ∃ a b t d, d = A.rnd (b - a) ∧ percK A l q = .fin (if 1 / 2 ≤ t then A.rnd (b - A.rnd (d * A.rnd (1 - t))) else A.rnd (a + A.rnd (d * t))) ∧
      ∃ h lo, h = A.rnd (((l.length - 1 : Nat) : K) * A.rnd (q / 100)) ∧ lo = min ⌊h⌋.toNat (l.length - 1) ∧
      t = A.rnd (h - ((lo : Nat) : K)) ∧ a = (l.insertionSort (· ≤ ·)).getD lo 0 ∧
      b = (l.insertionSort (· ≤ ·)).getD (min (lo + 1) (l.length - 1)) 0 := by
  refine ⟨_, _, _, _, rfl, ?_, _, _, rfl, rfl, rfl, rfl, rfl⟩
  unfold percK npLerp
  simp only [Arith.sub, Fl.neg, Arith.add, Arith.mul, Fl.le, List.length_insertionSort, decide_eq_true_eq]
  split_ifs <;> simp [sub_eq_add_neg]

theorem getD_sorted {l : List K} {i j : Nat} (h : i ≤ j) (hj : j < l.length) :
    (l.insertionSort (· ≤ ·)).getD i 0 ≤ (l.insertionSort (· ≤ ·)).getD j 0 := by
  have hs : (l.insertionSort (· ≤ ·)).Pairwise (· ≤ ·) := List.pairwise_insertionSort _ l
  have hl := List.length_insertionSort (· ≤ ·) l
  rw [getD_lt (by omega), getD_lt (by omega)]
  rcases Nat.lt_or_ge i j with h' | h'
  · exact List.pairwise_iff_getElem.1 hs i j (by omega) (by omega) h'
  · have : i = j := by omega
    subst this
    exact le_rfl

theorem getD_sorted_mem {l : List K} {i : Nat} (h : i < l.length) : (l.insertionSort (· ≤ ·)).getD i 0 ∈ l := by
  have hl := List.length_insertionSort (· ≤ ·) l
  rw [getD_lt (by omega), ← List.mem_insertionSort (r := (· ≤ ·))]
  exact List.getElem_mem _

theorem rnd_nonneg (A : Arith K) {x : K} (h : 0 ≤ x) : 0 ≤ A.rnd x := by
  have := A.mono 0 x h
  rwa [A.zero] at this

/-- The percentile of non-negative representable numbers is a non-negative number. -/
theorem percK_nonneg [FloorRing K] (A : Arith K) {l : List K} {q : K} (hq0 : 0 ≤ q) (hne : l ≠ []) (hpos : ∀ x ∈ l, 0 ≤ x)
    (hrep : ∀ x ∈ l, A.rnd x = x) : ∃ v, percK A l q = .fin v ∧ 0 ≤ v := by
  obtain ⟨a, b, t, d, hd, he, h, lo, hh, hlo, ht, ha, hb⟩ := percK_eq A l q
  refine ⟨_, he, ?_⟩
  have hl : 0 < l.length := List.length_pos_iff.2 hne
  have ma : a ∈ l := by rw [ha]; exact getD_sorted_mem (by omega)
  have mb : b ∈ l := by rw [hb]; exact getD_sorted_mem (by omega)
  have hab : a ≤ b := by rw [ha, hb]; exact getD_sorted (by omega) (by omega)
  have a0 := hpos a ma
  have d0 : 0 ≤ d := by rw [hd]; exact rnd_nonneg A (by linarith)
  have db : d ≤ b := by
    rw [hd, ← hrep b mb]
    conv_lhs => rw [hrep b mb]
    exact A.mono _ _ (by linarith)
  have h0 : 0 ≤ h := by
    rw [hh]
    exact rnd_nonneg A (mul_nonneg (Nat.cast_nonneg _) (rnd_nonneg A (by linarith)))
  have hfl : ((lo : Nat) : K) ≤ h := by
    have h1 : ((⌊h⌋.toNat : Nat) : K) ≤ h := by
      have h3 : 0 ≤ ⌊h⌋ := Int.floor_nonneg.2 h0
      have h2 : ((⌊h⌋.toNat : Nat) : K) = (⌊h⌋ : K) := by
        have : ((⌊h⌋.toNat : Nat) : Int) = ⌊h⌋ := Int.toNat_of_nonneg h3
        exact_mod_cast congrArg (Int.cast : Int → K) this
      rw [h2]
      exact Int.floor_le h
    have h2 : ((lo : Nat) : K) ≤ ((⌊h⌋.toNat : Nat) : K) := by
      rw [hlo]
      exact_mod_cast min_le_left _ _
    linarith
  have t0 : 0 ≤ t := by rw [ht]; exact rnd_nonneg A (by linarith)
  split_ifs with hc
  · apply rnd_nonneg
    by_cases hlast : lo + 1 ≤ l.length - 1
    · have hlo' : lo = ⌊h⌋.toNat := by omega
      have t1 : t ≤ 1 := by
        rw [ht, ← A.one]
        apply A.mono
        have := Int.lt_floor_add_one h
        have h3 : 0 ≤ ⌊h⌋ := Int.floor_nonneg.2 h0
        have h2 : ((⌊h⌋.toNat : Nat) : K) = (⌊h⌋ : K) := by
          have : ((⌊h⌋.toNat : Nat) : Int) = ⌊h⌋ := Int.toNat_of_nonneg h3
          exact_mod_cast congrArg (Int.cast : Int → K) this
        rw [hlo', h2]
        linarith
      have s1 : A.rnd (1 - t) ≤ 1 := by
        rw [← A.one]
        conv_lhs => rw [A.one]
        exact A.mono _ _ (by linarith)
      have : A.rnd (d * A.rnd (1 - t)) ≤ d := by
        have e : A.rnd d = d := by rw [hd, A.idem]
        calc A.rnd (d * A.rnd (1 - t)) ≤ A.rnd d := A.mono _ _ (by
              calc d * A.rnd (1 - t) ≤ d * 1 := mul_le_mul_of_nonneg_left s1 d0
                _ = d := mul_one d)
          _ = d := e
      linarith
    · have : a = b := by
        rw [ha, hb]
        congr 1
        omega
      have hd0 : d = 0 := by rw [hd, this, sub_self, A.zero]
      rw [hd0, zero_mul, A.zero, sub_zero]
      linarith
  · apply rnd_nonneg
    have := rnd_nonneg A (mul_nonneg d0 t0)
    linarith

/-- The 100th percentile is the maximum (exact arithmetic). -/
theorem percK_hundred [FloorRing K] {l : List K} (hne : l ≠ []) :
    ∃ v ∈ l, percK Arith.exact l 100 = .fin v ∧ ∀ x ∈ l, x ≤ v := by
  obtain ⟨a, b, t, d, hd, he, h, lo, hh, hlo, ht, ha, hb⟩ := percK_eq Arith.exact l 100
  have hl : 0 < l.length := List.length_pos_iff.2 hne
  simp only [Arith.exact, id_eq] at hd hh ht he
  have hh' : h = ((l.length - 1 : Nat) : K) := by rw [hh, div_self (by norm_num), mul_one]
  have hlo' : lo = l.length - 1 := by
    rw [hlo, hh', Int.floor_natCast]
    simp
  have hab : a = b := by
    rw [ha, hb]
    congr 1
    omega
  have hd0 : d = 0 := by rw [hd, hab, sub_self]
  refine ⟨b, ?_, ?_, ?_⟩
  · rw [hb]
    exact getD_sorted_mem (by omega)
  · have : percK Arith.exact l 100 = _ := he
    rw [show (Arith.exact : Arith K) = ⟨id, fun _ _ h => h, fun _ => rfl, rfl, rfl, Arith.exact.tiny⟩ from rfl] at this ⊢
    rw [this, hd0, hab]
    simp
  · intro x hx
    rw [← List.mem_insertionSort (r := (· ≤ ·))] at hx
    obtain ⟨i, hi, rfl⟩ := List.mem_iff_getElem.1 hx
    rw [List.length_insertionSort] at hi
    have := getD_sorted (l := l) (i := i) (j := min (lo + 1) (l.length - 1)) (by omega) (by omega)
    rw [← hb] at this
    rwa [getD_lt (by rw [List.length_insertionSort]; exact hi)] at this

/-- In a sorted list of non-negative numbers the zeros come first. -/
theorem sorted_zeros {s : List K} (hs : s.Pairwise (· ≤ ·)) (h0 : ∀ x ∈ s, 0 ≤ x) {i : Nat} (hi : i < s.length) :
    s[i] = 0 ↔ i < s.countP (fun x => decide (x = 0)) := by
  induction s generalizing i with
  | nil => simp at hi
  | cons a s ih =>
    rw [List.pairwise_cons] at hs
    have h0' : ∀ x ∈ s, 0 ≤ x := fun x hx => h0 x (List.mem_cons_of_mem _ hx)
    rw [List.countP_cons]
    by_cases ha : a = 0
    · simp only [ha, decide_true, if_true]
      cases i with
      | zero => simp
      | succ i =>
        simp only [List.getElem_cons_succ]
        rw [ih hs.2 h0' (by simpa using hi)]
        omega
    · have ha' : 0 < a := lt_of_le_of_ne (h0 a (by simp)) (Ne.symm ha)
      have hz : s.countP (fun x => decide (x = 0)) = 0 := by
        rw [List.countP_eq_zero]
        intro x hx
        have := hs.1 x hx
        simp only [decide_eq_true_eq]
        intro h
        linarith
      rw [hz]
      simp only [ha, decide_false]
      constructor
      · intro h
        exfalso
        cases i with
        | zero => exact ha (by simpa using h)
        | succ i =>
          have h1 : s[i]'(by simpa using hi) = 0 := by simpa using h
          have := hs.1 _ (List.getElem_mem (by simpa using hi : i < s.length))
          linarith
      · intro h
        simp at h

/-- When the percentile of a list of non-negative numbers is positive (exact arithmetic). -/
theorem percK_pos [FloorRing K] {l : List K} {q : K} (hne : l ≠ []) (h0 : ∀ x ∈ l, 0 ≤ x) (hq0 : 0 ≤ q) (hq1 : q ≤ 100) :
    ∃ v, percK Arith.exact l q = .fin v ∧ 0 ≤ v ∧
      (0 < v ↔ ((l.countP fun x => decide (x = 0) : Nat) : K) - 1 < q / 100 * ((l.length - 1 : Nat) : K)) := by
  obtain ⟨v, hv, hv0⟩ := percK_nonneg Arith.exact hq0 hne h0 (fun _ _ => rfl)
  refine ⟨v, hv, hv0, ?_⟩
  obtain ⟨a, b, t, d, hd, he, h, lo, hh, hlo, ht, ha, hb⟩ := percK_eq Arith.exact l q
  rw [hv] at he
  have hl : 0 < l.length := List.length_pos_iff.2 hne
  simp only [Arith.exact, id_eq] at hd hh ht he
  obtain ⟨z, hz⟩ : ∃ z, z = l.countP fun x => decide (x = 0) := ⟨_, rfl⟩
  rw [← hz]
  have hsp : (l.insertionSort (· ≤ ·)).Perm l := List.perm_insertionSort _ l
  have hsl := List.length_insertionSort (· ≤ ·) l
  have hzero : ∀ i, i < l.length → ((l.insertionSort (· ≤ ·)).getD i 0 = 0 ↔ i < z) := by
    intro i hi
    rw [getD_lt (by omega), sorted_zeros (List.pairwise_insertionSort _ l) (fun x hx => h0 x (hsp.mem_iff.1 hx)) (by omega), hz,
      hsp.countP_eq]
  have hnn : ∀ i, i < l.length → 0 ≤ (l.insertionSort (· ≤ ·)).getD i 0 := fun i hi => h0 _ (getD_sorted_mem hi)
  have hpos : ∀ i, i < l.length → z ≤ i → 0 < (l.insertionSort (· ≤ ·)).getD i 0 := by
    intro i hi hzi
    exact lt_of_le_of_ne (hnn i hi) (fun h => absurd ((hzero i hi).1 h.symm) (by omega))
  have h0h : 0 ≤ h := by
    rw [hh]
    exact mul_nonneg (Nat.cast_nonneg _) (by linarith)
  have hcomm : q / 100 * ((l.length - 1 : Nat) : K) = h := by rw [hh, mul_comm]
  have hmax : h ≤ ((l.length - 1 : Nat) : K) := by
    rw [hh]
    have : q / 100 ≤ 1 := by linarith
    calc ((l.length - 1 : Nat) : K) * (q / 100) ≤ ((l.length - 1 : Nat) : K) * 1 := mul_le_mul_of_nonneg_left this (Nat.cast_nonneg _)
      _ = _ := mul_one _
  have hfn : 0 ≤ ⌊h⌋ := Int.floor_nonneg.2 h0h
  have hfl : (⌊h⌋ : K) = ((⌊h⌋.toNat : Nat) : K) := by
    have : ((⌊h⌋.toNat : Nat) : Int) = ⌊h⌋ := Int.toNat_of_nonneg hfn
    exact_mod_cast (congrArg (Int.cast : Int → K) this).symm
  have hlo' : lo = ⌊h⌋.toNat := by
    have h1 : ((⌊h⌋.toNat : Nat) : K) ≤ ((l.length - 1 : Nat) : K) := by
      rw [← hfl]
      exact le_trans (Int.floor_le h) hmax
    have h2 : ⌊h⌋.toNat ≤ l.length - 1 := by exact_mod_cast h1
    omega
  have hloh : ((lo : Nat) : K) ≤ h := by rw [hlo', ← hfl]; exact Int.floor_le h
  have hloh' : h < ((lo : Nat) : K) + 1 := by rw [hlo', ← hfl]; exact Int.lt_floor_add_one h
  have hval : v = a + (b - a) * t := by
    simp only [Fl.fin.injEq] at he
    rw [he, hd]
    split_ifs <;> ring
  have ht0 : 0 ≤ t := by rw [ht]; linarith
  have ht1 : t < 1 := by rw [ht]; linarith
  have hab : a ≤ b := by rw [ha, hb]; exact getD_sorted (by omega) (by omega)
  rw [hcomm]
  have hlol : lo < l.length := by omega
  constructor
  · intro hv1
    by_contra hc
    push Not at hc
    have hlt : ((lo : Nat) : K) ≤ (z : K) - 1 := le_trans hloh hc
    have hlt' : lo + 1 ≤ z := by
      have : ((lo + 1 : Nat) : K) ≤ (z : K) := by push_cast; linarith
      exact_mod_cast this
    have a0 : a = 0 := by rw [ha]; exact (hzero lo hlol).2 (by omega)
    by_cases h2 : lo + 1 = z
    · have : t = 0 := by
        have e : ((lo : Nat) : K) + 1 = (z : K) := by exact_mod_cast h2
        rw [ht]
        linarith
      rw [hval, a0, this] at hv1
      simp at hv1
    · have b0 : b = 0 := by rw [hb]; exact (hzero _ (by omega)).2 (by omega)
      rw [hval, a0, b0] at hv1
      simp at hv1
  · intro hc
    have hlt' : z ≤ lo + 1 := by
      have : (z : K) < ((lo + 2 : Nat) : K) := by push_cast; linarith
      have h3 : z < lo + 2 := by exact_mod_cast this
      omega
    rw [hval]
    by_cases h2 : z ≤ lo
    · have a0 : 0 < a := by rw [ha]; exact hpos lo hlol h2
      have := mul_nonneg (sub_nonneg.2 hab) ht0
      linarith
    · have h3 : z = lo + 1 := by omega
      have tp : 0 < t := by
        have e : (z : K) = ((lo : Nat) : K) + 1 := by exact_mod_cast h3
        rw [ht]
        linarith
      have hll : lo + 1 ≤ l.length - 1 := by
        have : ((lo : Nat) : K) < ((l.length - 1 : Nat) : K) := by
          have e : (z : K) = ((lo : Nat) : K) + 1 := by exact_mod_cast h3
          linarith
        have : lo < l.length - 1 := by exact_mod_cast this
        omega
      have a0 : a = 0 := by rw [ha]; exact (hzero lo hlol).2 (by omega)
      have b0 : 0 < b := by
        rw [hb, min_eq_left hll]
        exact hpos _ (by omega) (by omega)
      rw [a0]
      have := mul_pos b0 tp
      linarith

/-! ## Counting loops -/

/-- Adding a value at one cell. -/
def bump (A : Arith K) (h : Nat → Nat → K) (p : Int × Int) (v : K) : Nat → Nat → K :=
  fun i j => if some p = some ((i : Int), (j : Int)) then A.rnd (h i j + v) else h i j

theorem addAt_fin {A : Arith K} {R C : Nat} {h : Nat → Nat → K} {x y : Int} {v : K} (hr : 0 ≤ x ∧ x < R ∧ 0 ≤ y ∧ y < C) :
    addAt A (finGrid R C h) x y (.fin v) = .ok (finGrid R C (bump A h (x, y) v)) := by
  unfold addAt pyIdx finGrid
  rw [if_pos ⟨hr.1, hr.2.1⟩, if_pos ⟨hr.2.2.1, hr.2.2.2⟩]
  simp only [ok_bind, pure_def]
  congr 2
  funext i j
  simp only [bump, Arith.add, Option.some.injEq, Prod.mk.injEq]
  by_cases hc : i = x.toNat ∧ j = y.toNat
  · rw [if_pos hc, if_pos (by omega)]
  · rw [if_neg hc, if_neg (by omega)]

theorem proper_lists {wd : WalkData K} (hp : Proper wd) {p : Nat} (hi : p < wd.count) :
    ∃ xs ys ts, listGet wd.xinds p = .ok xs ∧ listGet wd.yinds p = .ok ys ∧ listGet wd.times p = .ok ts ∧
      xs.length = wd.records p ∧ ys.length = wd.records p ∧ ts.length = wd.records p ∧
      (∀ n, n < wd.records p → ∃ x y, listGet xs n = .ok x ∧ listGet ys n = .ok y ∧ wd.posAt p n = some (x, y)) ∧
      (∀ n, n < wd.records p → listGet ts n = .ok (.fin (wd.tau p n))) := by
  obtain ⟨xs, ys, ts, hx, hy, ht, a, b, c, e⟩ := hp.get hi
  refine ⟨xs, ys, ts, by simp [listGet, hx], by simp [listGet, hy], by simp [listGet, ht], by omega, by omega, by omega, ?_, ?_⟩
  · intro n hn
    refine ⟨xs[n]'(by omega), ys[n]'(by omega), ?_, ?_, ?_⟩
    · simp [listGet, show n < xs.length by omega]
    · simp [listGet, show n < ys.length by omega]
    · simp [WalkData.posAt, hx, hy, show n < xs.length by omega, show n < ys.length by omega]
  · intro n hn
    have hn' : n < ts.length := by omega
    have hta : wd.timeAt p n = some ts[n] := by simp [WalkData.timeAt, ht, hn']
    obtain ⟨x, hx'⟩ := hp.fin p n _ hta
    simp [listGet, WalkData.tau, hta, hx', hn']

/-- Visits counted after `p` particles and `k` records of particle `p`. -/
def WalkData.partVisits (wd : WalkData K) (p k : Nat) (c : Int × Int) : Nat :=
  (∑ q ∈ Finset.range p, ∑ n ∈ Finset.range (wd.records q), if wd.posAt q n = some c then 1 else 0) +
    ∑ n ∈ Finset.range k, if wd.posAt p n = some c then 1 else 0

/-- What is known of the visit counts under any rounding; they are exact if the arithmetic is. -/
def CountInv (A : Arith K) (cnt : Int × Int → Nat) (h : Nat → Nat → K) : Prop :=
  ∀ i j : Nat, 0 ≤ h i j ∧ A.rnd (h i j) = h i j ∧ (h i j = 0 ↔ cnt ((i : Int), (j : Int)) = 0) ∧
    ((∀ x, A.rnd x = x) → h i j = cnt ((i : Int), (j : Int)))

theorem CountInv.bump {A : Arith K} {cnt cnt' : Int × Int → Nat} {h : Nat → Nat → K} {p : Int × Int} (hi : CountInv A cnt h)
    (hc : ∀ c, cnt' c = cnt c + if some p = some c then 1 else 0) : CountInv A cnt' (bump A h p 1) := by
  intro i j
  obtain ⟨h0, hr, hz, he⟩ := hi i j
  rw [hc]
  unfold Dorado.bump
  by_cases hp : some p = some ((i : Int), (j : Int))
  · rw [if_pos hp, if_pos hp]
    have h1 : 1 ≤ A.rnd (h i j + 1) := by
      rw [← A.one]
      conv_rhs => rw [A.one]
      exact A.mono _ _ (by linarith)
    refine ⟨by linarith, A.idem _, ⟨fun e => ?_, fun e => by omega⟩, fun hA => ?_⟩
    · rw [e] at h1
      linarith
    · rw [hA, he hA]
      push_cast
      ring
  · rw [if_neg hp, if_neg hp]
    exact ⟨h0, hr, hz, he⟩

theorem visitFreq_eq {A : Arith K} {wd : WalkData K} {R C : Nat} (hp : Proper wd) (hr : OnRaster R C wd) :
    ∃ h, visitFreq A wd (R, C) = .ok (finGrid R C h) ∧ CountInv A wd.visits h := by
  unfold visitFreq
  obtain ⟨g, hg, h, rfl, hh⟩ := foldE_range (f := countParticle A wd) (m := wd.xinds.length) (s := zerosGrid (R, C))
    (fun p g => ∃ h, g = finGrid R C h ∧ CountInv A (wd.partVisits p 0) h)
    ⟨fun _ _ => 0, rfl, fun i j => ⟨le_rfl, A.zero, by simp [WalkData.partVisits], fun _ => by simp [WalkData.partVisits]⟩⟩
    (by
      rintro p g hpc ⟨h, rfl, hh⟩
      obtain ⟨xs, ys, ts, hx, hy, ht, lx, ly, lt, hpos, -⟩ := proper_lists hp hpc
      unfold countParticle
      simp only [hx, hy, ok_bind]
      obtain ⟨g', hg', h', rfl, hh'⟩ := foldE_range (f := countStep A xs ys) (m := xs.length) (s := finGrid R C h)
        (fun k g => ∃ h, g = finGrid R C h ∧ CountInv A (wd.partVisits p k) h) ⟨h, rfl, hh⟩ (by
          rintro n g hn ⟨h1, rfl, hh1⟩
          obtain ⟨x, y, ex, ey, ep⟩ := hpos n (by omega)
          unfold countStep
          simp only [ex, ey, ok_bind]
          rw [addAt_fin (hr p n _ ep)]
          refine ⟨_, rfl, _, rfl, hh1.bump fun c => ?_⟩
          unfold WalkData.partVisits
          rw [Finset.sum_range_succ, ep, add_assoc])
      refine ⟨_, hg', h', rfl, ?_⟩
      have : wd.partVisits (p + 1) 0 = wd.partVisits p xs.length := by
        funext c
        unfold WalkData.partVisits
        rw [Finset.sum_range_succ, lx]
        simp
      rwa [this])
  refine ⟨h, hg, ?_⟩
  have : wd.partVisits wd.xinds.length 0 = wd.visits := by
    funext c
    unfold WalkData.partVisits WalkData.visits WalkData.count
    simp
  rwa [this] at hh

/-- Inner visits counted after `p` particles and `k` inner records of particle `p`. -/
def WalkData.partInner (wd : WalkData K) (p k : Nat) (c : Int × Int) : Nat :=
  (∑ q ∈ Finset.range p, ∑ n ∈ Finset.range (wd.records q - 2), if wd.posAt q (n + 1) = some c then 1 else 0) +
    ∑ n ∈ Finset.range k, if wd.posAt p (n + 1) = some c then 1 else 0

/-- Residence accumulated after `p` particles and `k` inner records of particle `p`. -/
def WalkData.partRes (wd : WalkData K) (p k : Nat) (c : Int × Int) : K :=
  (∑ q ∈ Finset.range p, ∑ n ∈ Finset.range (wd.records q - 2), if wd.posAt q (n + 1) = some c then wd.residence q n else 0) +
    ∑ n ∈ Finset.range k, if wd.posAt p (n + 1) = some c then wd.residence p n else 0

/-- What is known of the accumulated residence times. -/
def SumInv (A : Arith K) (wd : WalkData K) (cnt : Int × Int → K) (h : Nat → Nat → K) : Prop :=
  ∀ i j : Nat, (TimesMono wd → 0 ≤ h i j) ∧ ((∀ x, A.rnd x = x) → h i j = cnt ((i : Int), (j : Int)))

theorem timeSums_eq {A : Arith K} {wd : WalkData K} {R C : Nat} (hp : Proper wd) (hr : OnRaster R C wd) :
    ∃ f h, foldE (timeParticle A wd) (zerosGrid (R, C), zerosGrid (R, C)) (List.range wd.xinds.length) =
      .ok (finGrid R C f, finGrid R C h) ∧ CountInv A wd.innerVisits f ∧ SumInv A wd wd.residenceAt h := by
  obtain ⟨g, hg, f, h, rfl, hf, hh⟩ := foldE_range (f := timeParticle A wd) (m := wd.xinds.length) (s := (zerosGrid (R, C), zerosGrid (R, C)))
    (fun p g => ∃ f h, g = (finGrid R C f, finGrid R C h) ∧ CountInv A (wd.partInner p 0) f ∧ SumInv A wd (wd.partRes p 0) h)
    ⟨fun _ _ => 0, fun _ _ => 0, rfl,
      fun i j => ⟨le_rfl, A.zero, by simp [WalkData.partInner], fun _ => by simp [WalkData.partInner]⟩,
      fun i j => ⟨fun _ => le_rfl, fun _ => by simp [WalkData.partRes]⟩⟩
    (by
      rintro p g hpc ⟨f, h, rfl, hf, hh⟩
      obtain ⟨xs, ys, ts, hx, hy, ht, lx, ly, lt, hpos, htau⟩ := proper_lists hp hpc
      unfold timeParticle
      simp only [hx, hy, ht, ok_bind]
      obtain ⟨g', hg', f', h', rfl, hf', hh'⟩ := foldE_range1 (f := timeStep A xs ys ts) (m := xs.length - 2) (s := (finGrid R C f, finGrid R C h))
        (fun k g => ∃ f h, g = (finGrid R C f, finGrid R C h) ∧ CountInv A (wd.partInner p k) f ∧ SumInv A wd (wd.partRes p k) h)
        ⟨f, h, rfl, hf, hh⟩ (by
          rintro n g hn ⟨f1, h1, rfl, hf1, hh1⟩
          obtain ⟨x, y, ex, ey, ep⟩ := hpos (n + 1) (by omega)
          unfold timeStep
          simp only [ex, ey, ok_bind]
          rw [addAt_fin (hr p (n + 1) _ ep)]
          simp only [ok_bind, Nat.add_sub_cancel, htau (n + 1) (by omega), htau n (by omega), htau (n + 1 + 1) (by omega)]
          simp only [Arith.sub, Fl.neg, Arith.add, Arith.mul, ← sub_eq_add_neg]
          rw [addAt_fin (hr p (n + 1) _ ep)]
          refine ⟨_, rfl, _, _, rfl, hf1.bump fun c => ?_, fun i j => ?_⟩
          · unfold WalkData.partInner
            rw [Finset.sum_range_succ, ep, add_assoc]
          · obtain ⟨k1, k2⟩ := hh1 i j
            unfold bump
            constructor
            · intro hm
              split_ifs
              · apply rnd_nonneg
                refine add_nonneg (k1 hm) (rnd_nonneg A (mul_nonneg (by norm_num) (rnd_nonneg A (add_nonneg ?_ ?_))))
                · exact rnd_nonneg A (sub_nonneg.2 (hm p n (by omega)))
                · exact rnd_nonneg A (sub_nonneg.2 (hm p (n + 1) (by omega)))
              · exact k1 hm
            · intro hA
              unfold WalkData.partRes
              rw [Finset.sum_range_succ, ep, ← add_assoc]
              have := k2 hA
              unfold WalkData.partRes at this
              rw [← this]
              split_ifs
              · simp only [hA, WalkData.residence]
                ring
              · simp)
      refine ⟨_, hg', f', h', rfl, ?_, ?_⟩
      · have : wd.partInner (p + 1) 0 = wd.partInner p (xs.length - 2) := by
          funext c
          unfold WalkData.partInner
          rw [Finset.sum_range_succ, lx]
          simp
        rwa [this]
      · have : wd.partRes (p + 1) 0 = wd.partRes p (xs.length - 2) := by
          funext c
          unfold WalkData.partRes
          rw [Finset.sum_range_succ, lx]
          simp
        rwa [this])
  refine ⟨f, h, hg, ?_, ?_⟩
  · have : wd.partInner wd.xinds.length 0 = wd.innerVisits := by
      funext c
      unfold WalkData.partInner WalkData.innerVisits WalkData.count
      simp
    rwa [this] at hf
  · have : wd.partRes wd.xinds.length 0 = wd.residenceAt := by
      funext c
      unfold WalkData.partRes WalkData.residenceAt WalkData.count
      simp
    rwa [this] at hh

theorem countP_flat (R C : Nat) (h : Nat → Nat → K) (P : K → Bool) :
    (Grid.flat ⟨R, C, h⟩).countP P = ∑ i ∈ Finset.range R, ∑ j ∈ Finset.range C, if P (h i j) then 1 else 0 := by
  have inner : ∀ i, ((List.range C).map fun j => h i j).countP P = ∑ j ∈ Finset.range C, if P (h i j) then 1 else 0 := by
    intro i
    induction C with
    | zero => simp
    | succ C ih => rw [List.range_succ, List.map_append, List.countP_append, ih, Finset.sum_range_succ]; simp [List.countP_cons]
  unfold Grid.flat
  simp only
  induction R with
  | zero => simp
  | succ R ih =>
    rw [List.range_succ, List.flatMap_append, List.countP_append, ih, Finset.sum_range_succ]
    simp [inner]

/-! ## Minimum and maximum of an array -/

theorem nanMax_fin (x y : K) : Fl.nanMax (.fin x) (.fin y) = .fin (max x y) := by
  by_cases h : x < y
  · simp [Fl.nanMax, Fl.isNan, Fl.lt, h, h.le]
  · simp [Fl.nanMax, Fl.isNan, Fl.lt, h, not_lt.1 h]

theorem npMax_fin (x y : K) : Fl.npMax (.fin x) (.fin y) = .fin (max x y) := by
  by_cases h : x < y
  · simp [Fl.npMax, Fl.isNan, Fl.lt, h, h.le]
  · simp [Fl.npMax, Fl.isNan, Fl.lt, h, not_lt.1 h]

theorem npMin_fin (x y : K) : Fl.npMin (.fin x) (.fin y) = .fin (min x y) := by
  by_cases h : y < x
  · simp [Fl.npMin, Fl.isNan, Fl.lt, h, h.le]
  · simp [Fl.npMin, Fl.isNan, Fl.lt, h, not_lt.1 h]

/-- `np.nanmax` of NaN or finite values. -/
theorem nanMax_list {x : Fl K} {l : List (Fl K)} (h : ∀ y ∈ x :: l, y = .nan ∨ ∃ z, y = .fin z) :
    (l.foldl Fl.nanMax x = .nan ∧ ∀ y ∈ x :: l, y = .nan) ∨
      ∃ m, l.foldl Fl.nanMax x = .fin m ∧ .fin m ∈ x :: l ∧ ∀ z, Fl.fin z ∈ x :: l → z ≤ m := by
  induction l generalizing x with
  | nil =>
    rcases h x (by simp) with rfl | ⟨z, rfl⟩
    · left; simp
    · right; exact ⟨z, rfl, by simp, by simp⟩
  | cons y l ih =>
    simp only [List.foldl_cons]
    have hl : ∀ w ∈ l, w = .nan ∨ ∃ z, w = .fin z := fun w hw => h w (by simp [hw])
    rcases h x (by simp) with rfl | ⟨z, rfl⟩
    · have e : Fl.nanMax .nan y = y := by simp [Fl.nanMax, Fl.isNan]
      rw [e]
      rcases ih (x := y) (fun w hw => h w (by simp only [List.mem_cons] at hw ⊢; tauto)) with ⟨h1, h2⟩ | ⟨m, h1, h2, h3⟩
      · left
        refine ⟨h1, fun w hw => ?_⟩
        rcases List.mem_cons.1 hw with rfl | hw
        · rfl
        · exact h2 w hw
      · right
        refine ⟨m, h1, List.mem_cons_of_mem _ h2, fun w hw => ?_⟩
        rcases List.mem_cons.1 hw with hw | hw
        · cases hw
        · exact h3 w hw
    · rcases h y (by simp) with rfl | ⟨w, rfl⟩
      · have e : Fl.nanMax (.fin z) .nan = .fin z := by simp [Fl.nanMax, Fl.isNan]
        rw [e]
        rcases ih (x := .fin z) (fun v hv => h v (by simp only [List.mem_cons] at hv ⊢; tauto)) with ⟨h1, h2⟩ | ⟨m, h1, h2, h3⟩
        · have := h2 (.fin z) (by simp)
          cases this
        · right
          refine ⟨m, h1, by simp only [List.mem_cons] at h2 ⊢; tauto, fun v hv => h3 v ?_⟩
          simp only [List.mem_cons] at hv ⊢
          rcases hv with hv | hv | hv
          · left; exact hv
          · cases hv
          · right; exact hv
      · have e := nanMax_fin z w
        rw [e]
        rcases ih (x := .fin (max z w)) (fun v hv => by
            rcases List.mem_cons.1 hv with rfl | hv
            · exact Or.inr ⟨_, rfl⟩
            · exact hl v hv) with ⟨h1, h2⟩ | ⟨m, h1, h2, h3⟩
        · have := h2 (.fin (max z w)) (by simp)
          cases this
        · right
          refine ⟨m, h1, ?_, fun v hv => ?_⟩
          · rcases List.mem_cons.1 h2 with h2 | h2
            · rcases max_choice z w with hm | hm <;> rw [hm] at h2 <;> simp [h2]
            · simp [h2]
          · have hmax := h3 (max z w) (by simp)
            simp only [List.mem_cons, Fl.fin.injEq] at hv
            rcases hv with rfl | rfl | hv
            · exact le_trans (le_max_left _ _) hmax
            · exact le_trans (le_max_right _ _) hmax
            · exact h3 v (by simp [hv])

/-- `np.min` of finite values. -/
theorem npMin_list {x : K} {l : List (Fl K)} (h : ∀ y ∈ l, ∃ z, y = .fin z) :
    ∃ m, l.foldl Fl.npMin (.fin x) = .fin m ∧ .fin m ∈ Fl.fin x :: l ∧ ∀ z, Fl.fin z ∈ Fl.fin x :: l → m ≤ z := by
  induction l generalizing x with
  | nil => exact ⟨x, rfl, by simp, by simp⟩
  | cons y l ih =>
    obtain ⟨w, rfl⟩ := h y (by simp)
    have e := npMin_fin x w
    simp only [List.foldl_cons, e]
    obtain ⟨m, h1, h2, h3⟩ := ih (x := min x w) (fun v hv => h v (by simp [hv]))
    refine ⟨m, h1, ?_, fun v hv => ?_⟩
    · rcases List.mem_cons.1 h2 with h2 | h2
      · rcases min_choice x w with hm | hm <;> rw [hm] at h2 <;> simp [h2]
      · simp [h2]
    · have hmin := h3 (min x w) (by simp)
      simp only [List.mem_cons, Fl.fin.injEq] at hv
      rcases hv with rfl | rfl | hv
      · exact le_trans hmin (min_le_left _ _)
      · exact le_trans hmin (min_le_right _ _)
      · exact h3 v (by simp [hv])


/-! ## The rest of the pipeline -/

theorem flat_ne_nil {α : Type} {g : Grid α} (hR : 0 < g.rows) (hC : 0 < g.cols) : ∃ x l, g.flat = x :: l := by
  cases h : g.flat with
  | nil =>
    have := flat_length g
    rw [h] at this
    have := Nat.mul_pos hR hC
    simp at *
    omega
  | cons x l => exact ⟨x, l, rfl⟩

theorem npClip_fin {R C : Nat} {h : Nat → Nat → K} {v : K} (h0 : ∀ i j, 0 ≤ h i j) :
    npClip (.fin v) (finGrid R C h) = finGrid R C fun i j => min (h i j) v := by
  unfold npClip finGrid Grid.map
  congr 1
  funext i j
  show Fl.npMin (Fl.npMax (.fin (h i j)) (.fin 0)) (.fin v) = _
  rw [npMax_fin, npMin_fin, max_eq_left (h0 i j)]

theorem nanWhere_fin {R C : Nat} {h : Nat → Nat → K} {v : K} :
    nanWhere (.fin v) (finGrid R C h) = ⟨R, C, fun i j => if h i j = v then .nan else .fin (h i j)⟩ := by
  unfold nanWhere finGrid Grid.map
  simp [Fl.eq]

/-- After smoothing and removal of the background the values are NaN or positive. -/
theorem smoothOrNan_pos {smooth : Option (Grid (Fl K) → Grid (Fl K))} (hs : SmoothOK smooth) {g : Grid (Fl K)} (hg : NonnegGrid g)
    (hR : 0 < g.rows) (hC : 0 < g.cols) :
    ∃ m, smoothOrNan smooth g = .ok m ∧ m.rows = g.rows ∧ m.cols = g.cols ∧
      ∀ i j, i < g.rows → j < g.cols → m.at' i j = .nan ∨ ∃ x, m.at' i j = .fin x ∧ 0 < x := by
  cases smooth with
  | none =>
    refine ⟨_, rfl, rfl, rfl, fun i j hi hj => ?_⟩
    obtain ⟨x, hx, h0⟩ := hg i j hi hj
    simp only [nanWhere, Grid.map, hx, Fl.eq, decide_eq_true_eq]
    split_ifs with h
    · exact Or.inl rfl
    · exact Or.inr ⟨x, rfl, lt_of_le_of_ne h0 (Ne.symm h)⟩
  | some f =>
    obtain ⟨e1, e2, hn⟩ := hs f rfl g hg
    obtain ⟨x, l, hl⟩ := flat_ne_nil (g := f g) (by omega) (by omega)
    have hall : ∀ y ∈ (f g).flat, ∃ z, y = .fin z ∧ 0 ≤ z := by
      intro y hy
      obtain ⟨i, j, hi, hj, rfl⟩ := mem_flat.1 hy
      exact hn i j hi hj
    rw [hl] at hall
    obtain ⟨x', rfl, hx'⟩ := hall x (by simp)
    obtain ⟨m, h1, h2, h3⟩ := npMin_list (x := x') (l := l) (fun y hy => by
      obtain ⟨z, hz, -⟩ := hall y (by simp [hy])
      exact ⟨z, hz⟩)
    have hm0 : 0 ≤ m := by
      obtain ⟨z, hz, hz0⟩ := hall _ h2
      cases hz
      exact hz0
    refine ⟨nanWhere (.fin m) (f g), ?_, e1, e2, fun i j hi hj => ?_⟩
    · simp only [smoothOrNan, gridMin, hl, h1, ok_bind, pure_def]
    · obtain ⟨y, hy, hy0⟩ := hn i j (by omega) (by omega)
      have hmem : Fl.fin y ∈ (f g).flat := mem_flat.2 ⟨i, j, by omega, by omega, hy⟩
      have hle := h3 y (by rw [← hl]; exact hmem)
      simp only [nanWhere, Grid.map, hy, Fl.eq, decide_eq_true_eq]
      split_ifs with h
      · exact Or.inl rfl
      · refine Or.inr ⟨y, rfl, lt_of_le_of_lt hm0 (lt_of_le_of_ne hle (Ne.symm h))⟩

/-- Normalisation by the maximum. -/
theorem normalise_pos {m : Grid (Fl K)} (hR : 0 < m.rows) (hC : 0 < m.cols)
    (hm : ∀ i j, i < m.rows → j < m.cols → m.at' i j = .nan ∨ ∃ x, m.at' i j = .fin x ∧ 0 < x) :
    ∃ top, gridNanmax m = .ok top ∧
      ((top = .nan ∧ ∀ i j, i < m.rows → j < m.cols → m.at' i j = .nan) ∨
        ∃ t, top = .fin t ∧ 0 < t ∧ (∃ i j, i < m.rows ∧ j < m.cols ∧ m.at' i j = .fin t) ∧
          ∀ i j x, i < m.rows → j < m.cols → m.at' i j = .fin x → 0 < x ∧ x ≤ t) := by
  obtain ⟨x, l, hl⟩ := flat_ne_nil hR hC
  have hmem : ∀ y, y ∈ x :: l ↔ ∃ i j, i < m.rows ∧ j < m.cols ∧ m.at' i j = y := by
    intro y
    rw [← hl]
    exact mem_flat
  refine ⟨l.foldl Fl.nanMax x, by unfold gridNanmax; rw [hl], ?_⟩
  have hall : ∀ y ∈ x :: l, y = .nan ∨ ∃ z, y = .fin z := by
    intro y hy
    obtain ⟨i, j, hi, hj, rfl⟩ := (hmem y).1 hy
    rcases hm i j hi hj with h | ⟨z, h, -⟩
    · exact Or.inl h
    · exact Or.inr ⟨z, h⟩
  rcases nanMax_list hall with ⟨h1, h2⟩ | ⟨t, h1, h2, h3⟩
  · left
    exact ⟨h1, fun i j hi hj => h2 _ ((hmem _).2 ⟨i, j, hi, hj, rfl⟩)⟩
  · right
    obtain ⟨i, j, hi, hj, e⟩ := (hmem _).1 h2
    refine ⟨t, h1, ?_, ⟨i, j, hi, hj, e⟩, fun i' j' y hi' hj' e' => ⟨?_, h3 y ((hmem _).2 ⟨i', j', hi', hj', e'⟩)⟩⟩
    · rcases hm i j hi hj with h | ⟨z, h, hz⟩
      · rw [e] at h; cases h
      · rw [e] at h; cases h; exact hz
    · rcases hm i' j' hi' hj' with h | ⟨z, h, hz⟩
      · rw [e'] at h; cases h
      · rw [e'] at h; cases h; exact hz

/-- `nourishment_area` up to the clipping. -/
theorem nourishArea_steps [FloorRing K] {A : Arith K} {wd : WalkData K} {R C : Nat} {clip : K} (hp : Proper wd) (hr : OnRaster R C wd)
    (hR : 0 < R) (hC : 0 < C) (h0 : 0 ≤ clip) (h1 : clip ≤ 100) (smooth : Option (Grid (Fl K) → Grid (Fl K))) :
    ∃ h v, CountInv A wd.visits h ∧ 0 ≤ v ∧ percK A (Grid.flat ⟨R, C, h⟩) clip = .fin v ∧
      nourishmentArea A wd (R, C) smooth clip = (do
        let masked ← smoothOrNan smooth (finGrid R C fun i j => min (h i j) v)
        let top ← gridNanmax masked
        return masked.map fun x => A.div x top) := by
  obtain ⟨h, hv, hc⟩ := visitFreq_eq (A := A) hp hr
  have hpos := Nat.mul_pos hR hC
  have hlen : (Grid.flat (⟨R, C, h⟩ : Grid K)).length = R * C := flat_length _
  have hne : Grid.flat (⟨R, C, h⟩ : Grid K) ≠ [] := by
    intro e
    rw [e] at hlen
    simp at hlen
    omega
  obtain ⟨v, e, v0⟩ := percK_nonneg A h0 hne (fun x hx => by
      obtain ⟨i, j, -, -, rfl⟩ := mem_flat.1 hx
      exact (hc i j).1) (fun x hx => by
      obtain ⟨i, j, -, -, rfl⟩ := mem_flat.1 hx
      exact (hc i j).2.1)
  refine ⟨h, v, hc, v0, e, ?_⟩
  unfold nourishmentArea
  rw [hv]
  simp only [ok_bind]
  rw [nanpercentile_fin h0 h1 hpos, e]
  simp only [ok_bind]
  rw [npClip_fin fun i j => (hc i j).1]

theorem nonneg_finGrid {R C : Nat} {h : Nat → Nat → K} (h0 : ∀ i j, 0 ≤ h i j) : NonnegGrid (finGrid R C h) :=
  fun i j _ _ => ⟨h i j, rfl, h0 i j⟩

/-- The mean residence times before clipping. -/
theorem meanTime_eq {A : Arith K} {wd : WalkData K} {R C : Nat} (hp : Proper wd) (hr : OnRaster R C wd) :
    ∃ h, meanTime A wd (R, C) = .ok (finGrid R C h) ∧ ∀ i j : Nat, (TimesMono wd → 0 ≤ h i j) ∧ A.rnd (h i j) = h i j ∧
      ((∀ x, A.rnd x = x) → h i j = if wd.innerVisits ((i : Int), (j : Int)) = 0 then 0
        else wd.residenceAt ((i : Int), (j : Int)) / wd.innerVisits ((i : Int), (j : Int))) := by
  obtain ⟨f, g, hfg, hf, hg⟩ := timeSums_eq (A := A) hp hr
  refine ⟨fun i j => if f i j = 0 then 0 else A.rnd (g i j / f i j), ?_, fun i j => ?_⟩
  · unfold meanTime
    rw [hfg]
    simp only [ok_bind, pure_def]
    congr 1
    unfold Grid.zip finGrid
    simp only
    congr 1
    funext i j
    simp only [Fl.eq, Arith.div, decide_eq_true_eq]
    split_ifs <;> rfl
  · obtain ⟨f0, -, fz, fe⟩ := hf i j
    obtain ⟨g0, ge⟩ := hg i j
    refine ⟨fun hm => ?_, ?_, fun hA => ?_⟩
    · simp only
      split_ifs
      · exact le_rfl
      · exact rnd_nonneg A (div_nonneg (g0 hm) f0)
    · simp only
      split_ifs
      · exact A.zero
      · exact A.idem _
    · simp only
      by_cases hz : f i j = 0
      · rw [if_pos hz, if_pos (fz.1 hz)]
      · rw [if_neg hz, if_neg (fun h => hz (fz.2 h)), hA, fe hA, ge hA]

end Dorado
