import Verif.Lemmas.Nourish
import Verif.Spec.Maps

/-! Lemmas for the nourishment maps. -/

set_option linter.unusedSectionVars false

namespace Dorado

variable {K : Type} [Field K] [LinearOrder K] [IsStrictOrderedRing K]

/-- `np.nanmin` of NaN or finite values. -/
theorem nanMin_list {x : Fl K} {l : List (Fl K)} (h : ∀ y ∈ x :: l, y = .nan ∨ ∃ z, y = .fin z) :
    (l.foldl Fl.nanMin x = .nan ∧ ∀ y ∈ x :: l, y = .nan) ∨
      ∃ m, l.foldl Fl.nanMin x = .fin m ∧ .fin m ∈ x :: l ∧ ∀ z, Fl.fin z ∈ x :: l → m ≤ z := by
  induction l generalizing x with
  | nil =>
    rcases h x (by simp) with rfl | ⟨z, rfl⟩
    · left; simp
    · right; exact ⟨z, rfl, by simp, by simp⟩
  | cons y l ih =>
    simp only [List.foldl_cons]
    have hstep : ∀ w, (w = Fl.nanMin x y ∨ w ∈ l) → w = .nan ∨ ∃ z, w = .fin z := by
      rintro w (rfl | hw)
      · unfold Fl.nanMin
        split_ifs
        · exact h y (by simp)
        · exact h x (by simp)
        · exact h y (by simp)
        · exact h x (by simp)
      · exact h w (by simp [hw])
    rcases ih (x := Fl.nanMin x y) (fun w hw => hstep w (List.mem_cons.1 hw)) with ⟨h1, h2⟩ | ⟨m, h1, h2, h3⟩
    · left
      refine ⟨h1, ?_⟩
      have hn := h2 _ List.mem_cons_self
      have hx : x = .nan ∧ y = .nan := by
        rcases h x (by simp) with rfl | ⟨a, rfl⟩
        · exact ⟨rfl, by simpa [Fl.nanMin, Fl.isNan] using hn⟩
        · rcases h y (by simp) with rfl | ⟨b, rfl⟩
          · simp [Fl.nanMin, Fl.isNan] at hn
          · simp only [Fl.nanMin, Fl.isNan, Bool.false_eq_true, if_false] at hn
            split_ifs at hn
      intro w hw
      rcases List.mem_cons.1 hw with rfl | hw
      · exact hx.1
      · rcases List.mem_cons.1 hw with rfl | hw
        · exact hx.2
        · exact h2 w (by simp [hw])
    · right
      refine ⟨m, h1, ?_, fun z hz => ?_⟩
      · rcases List.mem_cons.1 h2 with h2 | h2
        · rw [h2]
          unfold Fl.nanMin
          split_ifs <;> simp
        · simp [h2]
      · by_cases hzl : Fl.fin z ∈ l
        · exact h3 z (by simp [hzl])
        · have hz' : Fl.fin z = x ∨ Fl.fin z = y := by
            simp only [List.mem_cons] at hz
            tauto
          obtain ⟨w, hw, hwz⟩ : ∃ w, Fl.nanMin x y = .fin w ∧ w ≤ z := by
            rcases h x (by simp) with rfl | ⟨a, rfl⟩
            · rcases hz' with hz' | hz'
              · cases hz'
              · exact ⟨z, by rw [← hz']; rfl, le_rfl⟩
            · rcases h y (by simp) with rfl | ⟨b, rfl⟩
              · rcases hz' with hz' | hz'
                · cases hz'
                  exact ⟨z, rfl, le_rfl⟩
                · cases hz'
              · by_cases hab : b < a
                · refine ⟨b, by simp [Fl.nanMin, Fl.isNan, Fl.lt, hab], ?_⟩
                  rcases hz' with hz' | hz' <;> cases hz'
                  · exact hab.le
                  · exact le_rfl
                · refine ⟨a, by simp [Fl.nanMin, Fl.isNan, Fl.lt, hab], ?_⟩
                  rcases hz' with hz' | hz' <;> cases hz'
                  · exact le_rfl
                  · exact not_lt.1 hab
          exact le_trans (h3 w (by rw [← hw]; simp)) hwz

variable {R C : Nat} {g : Grid (Fl K)}

theorem PositiveMap.flat (h : PositiveMap R C g) : ∀ y ∈ g.flat, y = .nan ∨ ∃ z, y = .fin z ∧ 0 < z := by
  intro y hy
  obtain ⟨i, j, hi, hj, rfl⟩ := mem_flat.1 hy
  exact h.2.2 i j (by rw [← h.1]; exact hi) (by rw [← h.2.1]; exact hj)

theorem PositiveMap.mem_flat_iff (h : PositiveMap R C g) (x : K) : Fl.fin x ∈ g.flat ↔ HasValue R C g x := by
  rw [mem_flat, h.1, h.2.1]
  rfl

theorem filter_values (h : PositiveMap R C g) : g.flat.filter (fun x => !x.isNan) = g.values.map Fl.fin := by
  have hrow : ∀ l : List (Fl K), (∀ y ∈ l, y = .nan ∨ ∃ z, y = .fin z ∧ 0 < z) →
      l.filter (fun x => !x.isNan) = (l.filterMap Fl.number?).map Fl.fin := by
    intro l hl
    induction l with
    | nil => rfl
    | cons y l ih =>
      have := ih fun z hz => hl z (by simp [hz])
      rcases hl y (by simp) with rfl | ⟨z, rfl, -⟩
      · rw [List.filterMap_cons_none rfl, List.filter_cons_of_neg (by simp [Fl.isNan]), this]
      · rw [List.filterMap_cons_some (f := Fl.number?) (a := .fin z) (b := z) rfl, List.filter_cons_of_pos (by simp [Fl.isNan]), this, List.map_cons]
  rw [hrow _ h.flat]
  congr 1
  unfold Grid.flat Grid.values
  rw [List.filterMap_flatMap]
  congr 1
  funext i
  rw [List.filterMap_map]
  rfl

theorem mem_values (h : PositiveMap R C g) (x : K) : x ∈ g.values ↔ HasValue R C g x := by
  rw [← h.mem_flat_iff]
  have : Fl.fin x ∈ g.flat ↔ Fl.fin x ∈ g.flat.filter fun x => !x.isNan := by simp [Fl.isNan]
  rw [this, filter_values h]
  simp

theorem gridNanmin_ok (h : PositiveMap R C g) {lo hi : K} (hr : Range R C g lo hi) : gridNanmin g = .ok (.fin lo) ∧ gridNanmax g = .ok (.fin hi) := by
  have hlo := (h.mem_flat_iff lo).2 hr.1
  have hhi := (h.mem_flat_iff hi).2 hr.2.1
  unfold gridNanmin gridNanmax
  cases hf : g.flat with
  | nil => rw [hf] at hlo; cases hlo
  | cons x l =>
    have hall : ∀ y ∈ x :: l, y = .nan ∨ ∃ z, y = .fin z := by
      intro y hy
      rw [← hf] at hy
      rcases h.flat y hy with h' | ⟨z, h', -⟩
      · exact Or.inl h'
      · exact Or.inr ⟨z, h'⟩
    rw [hf] at hlo hhi
    constructor
    · rcases nanMin_list hall with ⟨-, h2⟩ | ⟨m, h1, h2, h3⟩
      · exact absurd (h2 _ hlo) (by simp)
      · rw [← hf] at h2
        have := (hr.2.2 m ((h.mem_flat_iff m).1 h2)).1
        simp only [h1, le_antisymm (h3 lo hlo) this]
    · rcases nanMax_list hall with ⟨-, h2⟩ | ⟨m, h1, h2, h3⟩
      · exact absurd (h2 _ hlo) (by simp)
      · rw [← hf] at h2
        have := (hr.2.2 m ((h.mem_flat_iff m).1 h2)).2
        simp only [h1, le_antisymm this (h3 hi hhi)]

theorem exists_range (h : PositiveMap R C g) {x : K} (hx : HasValue R C g x) : ∃ lo hi, Range R C g lo hi := by
  have hne : g.values ≠ [] := List.ne_nil_of_mem ((mem_values h x).2 hx)
  have hne' : g.values.toFinset.Nonempty := ⟨x, by simpa using (mem_values h x).2 hx⟩
  refine ⟨g.values.toFinset.min' hne', g.values.toFinset.max' hne', ?_, ?_, ?_⟩
  · rw [← mem_values h]
    simpa using g.values.toFinset.min'_mem hne'
  · rw [← mem_values h]
    simpa using g.values.toFinset.max'_mem hne'
  · intro y hy
    rw [← mem_values h] at hy
    exact ⟨Finset.min'_le _ _ (by simpa using hy), Finset.le_max' _ _ (by simpa using hy)⟩

variable [FloorRing K]

theorem nanpercentile_values {A : Arith K} (h : PositiveMap R C g) {q : K} (hq0 : 0 ≤ q) (hq1 : q ≤ 100) (hne : g.values ≠ []) :
    nanpercentile A g q = .ok (percK A g.values q) := by
  unfold nanpercentile
  rw [if_neg (by push Not; exact ⟨hq0, hq1⟩), filter_values h, sortFl_fin]
  have hl : 0 < (g.values.insertionSort (· ≤ ·)).length := by
    rw [List.length_insertionSort]
    exact List.length_pos_iff.2 hne
  simp only [List.length_map]
  rw [if_neg (by omega)]
  unfold percK
  simp only
  obtain ⟨s, hs⟩ : ∃ s, s = g.values.insertionSort (· ≤ ·) := ⟨_, rfl⟩
  rw [← hs] at hl ⊢
  have hget : ∀ m, m < s.length → listGet (s.map (Fl.fin : K → Fl K)) m = .ok (.fin (s.getD m 0)) := by
    intro m hm
    rw [listGet_ok]
    simp [hm]
  rw [hget _ (by omega), hget _ (by omega)]
  rfl

/-- The percentile as computed is a fixed point of the rounding. -/
theorem percK_fin (A : Arith K) (l : List K) (q : K) : ∃ v, percK A l q = .fin v ∧ A.rnd v = v := by
  obtain ⟨a, b, t, d, -, he, -⟩ := percK_eq A l q
  refine ⟨_, he, ?_⟩
  split_ifs <;> exact A.idem _

theorem percK_spec {l : List K} {q : K} (hq0 : 0 ≤ q) (hq1 : q ≤ 100) (hne : l ≠ []) :
    ∃ v, percK Arith.exact l q = .fin v ∧ Percentile l q v := by
  obtain ⟨a, b, t, d, hd, he, h, lo, hh, hlo, ht, ha, hb⟩ := percK_eq Arith.exact l q
  have hl : 0 < l.length := List.length_pos_iff.2 hne
  have hsl := List.length_insertionSort (· ≤ ·) l
  change d = b - a at hd
  change h = ((l.length - 1 : Nat) : K) * (q / 100) at hh
  change t = h - lo at ht
  have h0 : 0 ≤ h := by
    rw [hh]
    exact mul_nonneg (Nat.cast_nonneg _) (by linarith)
  have hmax : h ≤ ((l.length - 1 : Nat) : K) := by
    rw [hh]
    exact mul_le_of_le_one_right (Nat.cast_nonneg _) (by linarith)
  have hfl : ⌊h⌋.toNat ≤ l.length - 1 := by
    have : ⌊h⌋ ≤ ((l.length - 1 : Nat) : Int) := by
      rw [← Int.floor_natCast (R := K) (l.length - 1)]
      exact Int.floor_mono hmax
    omega
  rw [min_eq_left hfl] at hlo
  have hcast : ((lo : Nat) : K) = ((⌊h⌋ : Int) : K) := by
    rw [hlo]
    have : ((⌊h⌋.toNat : Nat) : Int) = ⌊h⌋ := Int.toNat_of_nonneg (Int.floor_nonneg.2 h0)
    exact_mod_cast congrArg (fun z : Int => (z : K)) this
  have ht0 : 0 ≤ t := by
    rw [ht, hcast]
    exact sub_nonneg.2 (Int.floor_le h)
  have ht1 : t < 1 := by
    rw [ht, hcast]
    have := Int.lt_floor_add_one h
    linarith
  refine ⟨a + t * (b - a), ?_, l.insertionSort (· ≤ ·), List.perm_insertionSort _ l, List.pairwise_insertionSort _ l, lo, t, a, b, ht0, ht1, ?_, ?_, ?_,
    rfl⟩
  · rw [he, hd]
    congr 1
    show (if 1 / 2 ≤ t then b - (b - a) * (1 - t) else a + (b - a) * t) = _
    split_ifs <;> ring
  · rw [hsl, ht, hh]
    ring
  · rw [ha, getD_lt (by omega), List.getElem?_eq_getElem (by omega)]
  · rcases Nat.lt_or_ge (lo + 1) l.length with h1 | h1
    · right
      rw [hb, min_eq_left (by omega), getD_lt (by omega), List.getElem?_eq_getElem (by omega)]
    · left
      have : lo = l.length - 1 := by omega
      apply le_antisymm _ ht0
      rw [ht, this]
      linarith

theorem Percentile.pos {l : List K} {q v : K} (h : Percentile l q v) (hp : ∀ x ∈ l, 0 < x) : 0 < v := by
  obtain ⟨s, hs, -, k, t, a, b, h0, h1, -, ha, hb, rfl⟩ := h
  have hap : 0 < a := hp a (hs.mem_iff.1 (List.mem_of_getElem? ha))
  rcases hb with rfl | hb
  · simpa using hap
  · have hbp : 0 < b := hp b (hs.mem_iff.1 (List.mem_of_getElem? hb))
    have : a + t * (b - a) = (1 - t) * a + t * b := by ring
    rw [this]
    have h2 : 0 < 1 - t := by linarith
    have := mul_pos h2 hap
    have := mul_nonneg h0 hbp.le
    linarith

end Dorado
