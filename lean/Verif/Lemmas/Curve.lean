import Verif.Lemmas.Routines

/-! Helper lemmas: cumulative exposure curves. -/

set_option linter.unusedSectionVars false

namespace Dorado

variable {K : Type} [Field K] [LinearOrder K] [IsStrictOrderedRing K] [FloorRing K] {A : Arith K}

theorem Fl.le_trans' {x y z : Fl K} (h : Fl.le x y = true) (h' : Fl.le y z = true) : Fl.le x z = true := by
  cases x <;> cases y <;> cases z <;> simp [Fl.le] at *
  exact _root_.le_trans h h'

theorem fl_foldl_max (l : List K) (x : K) : ∃ m, (l.map Fl.fin).foldl (fun m a => if Fl.lt m a then a else m) (.fin x) = .fin m ∧ m ∈ x :: l ∧
    ∀ y ∈ x :: l, y ≤ m := by
  induction l generalizing x with
  | nil => exact ⟨x, rfl, by simp, by simp⟩
  | cons a l ih =>
    simp only [List.map_cons, List.foldl_cons, Fl.lt, decide_eq_true_eq]
    by_cases h : x < a
    · rw [if_pos h]
      obtain ⟨m, h1, h2, h3⟩ := ih a
      refine ⟨m, h1, List.mem_cons_of_mem _ h2, fun y hy => ?_⟩
      rcases List.mem_cons.1 hy with rfl | hy
      · exact h.le.trans (h3 a (by simp))
      · exact h3 y hy
    · rw [if_neg h]
      obtain ⟨m, h1, h2, h3⟩ := ih x
      refine ⟨m, h1, ?_, fun y hy => ?_⟩
      · rcases List.mem_cons.1 h2 with rfl | h2
        · simp
        · simp [h2]
      · rcases List.mem_cons.1 hy with rfl | hy
        · exact h3 _ (by simp)
        · rcases List.mem_cons.1 hy with rfl | hy
          · exact (not_lt.1 h).trans (h3 x (by simp))
          · exact h3 y (by simp [hy])

theorem fl_foldl_min (l : List K) (x : K) : ∃ m, (l.map Fl.fin).foldl (fun m a => if Fl.lt a m then a else m) (.fin x) = .fin m ∧ m ∈ x :: l ∧
    ∀ y ∈ x :: l, m ≤ y := by
  induction l generalizing x with
  | nil => exact ⟨x, rfl, by simp, by simp⟩
  | cons a l ih =>
    simp only [List.map_cons, List.foldl_cons, Fl.lt, decide_eq_true_eq]
    by_cases h : a < x
    · rw [if_pos h]
      obtain ⟨m, h1, h2, h3⟩ := ih a
      refine ⟨m, h1, List.mem_cons_of_mem _ h2, fun y hy => ?_⟩
      rcases List.mem_cons.1 hy with rfl | hy
      · exact (h3 a (by simp)).trans h.le
      · exact h3 y hy
    · rw [if_neg h]
      obtain ⟨m, h1, h2, h3⟩ := ih x
      refine ⟨m, h1, ?_, fun y hy => ?_⟩
      · rcases List.mem_cons.1 h2 with rfl | h2
        · simp
        · simp [h2]
      · rcases List.mem_cons.1 hy with rfl | hy
        · exact h3 _ (by simp)
        · rcases List.mem_cons.1 hy with rfl | hy
          · exact (h3 x (by simp)).trans (not_lt.1 h)
          · exact h3 y (by simp [hy])

/-- Finite values as a list of numbers. -/
theorem fin_list {l : List (Fl K)} (h : ∀ t ∈ l, ∃ x, t = .fin x) : ∃ xs : List K, l = xs.map Fl.fin := by
  induction l with
  | nil => exact ⟨[], rfl⟩
  | cons a l ih =>
    obtain ⟨x, rfl⟩ := h a (by simp)
    obtain ⟨xs, rfl⟩ := ih fun t ht => h t (by simp [ht])
    exact ⟨x :: xs, rfl⟩

theorem endTime_ok {ends : List (Fl K)} (hne : ends ≠ []) (h : ∀ t ∈ ends, ∃ x, t = .fin x) (u : Bool) :
    ∃ e, (if u then maxTime ends else minTime ends) = .ok (.fin e) ∧ .fin e ∈ ends ∧ ∀ x, .fin x ∈ ends → if u then x ≤ e else e ≤ x := by
  obtain ⟨xs, rfl⟩ := fin_list h
  cases xs with
  | nil => exact absurd rfl hne
  | cons x xs =>
    cases u with
    | true =>
      obtain ⟨m, h1, h2, h3⟩ := fl_foldl_max xs x
      refine ⟨m, by simp only [if_true, List.map_cons, maxTime, h1], List.mem_map.2 ⟨m, h2, rfl⟩, fun y hy => ?_⟩
      obtain ⟨z, hz, he⟩ := List.mem_map.1 hy
      cases he
      exact h3 y hz
    | false =>
      obtain ⟨m, h1, h2, h3⟩ := fl_foldl_min xs x
      refine ⟨m, by simp only [Bool.false_eq_true, if_false, List.map_cons, minTime, h1], List.mem_map.2 ⟨m, h2, rfl⟩, fun y hy => ?_⟩
      obtain ⟨z, hz, he⟩ := List.mem_map.1 hy
      cases he
      exact h3 y hz

/-! ## The shown exposure times -/

theorem shown_eq (expo : List (Fl K)) (e : K) : shownTimes A expo (.fin e) = expo.filter fun x => decide (Counted A e x) := by
  unfold shownTimes
  rw [List.filter_filter]
  apply List.filter_congr
  intro x _
  cases x <;> simp [Counted, Fl.lt, Arith.mul]
  exact Bool.and_comm _ _

/-- The counted exposure times in increasing order. -/
theorem shown_sorted (expo : List (Fl K)) (e : K) : ∃ l : List K, sortFl (shownTimes A expo (.fin e)) = l.map Fl.fin ∧ l.Pairwise (· ≤ ·) ∧
    l.length = countAll A e expo ∧ (shownTimes A expo (.fin e)).length = l.length ∧
    (∀ y ∈ l, A.rnd (1 / 1000000) < y ∧ y < A.rnd (A.rnd (99 / 100) * e)) ∧
    (∀ t, (l.countP fun y => Fl.le (.fin y) t) = countUpTo A e expo t) ∧
    (∀ x, x ∈ l.map Fl.fin ↔ x ∈ expo ∧ Counted A e x) ∧ (l.map Fl.fin).Perm (expo.filter fun x => decide (Counted A e x)) := by
  rw [shown_eq]
  obtain ⟨xs, hxs⟩ := fin_list (l := expo.filter fun x => decide (Counted A e x)) (by
    intro t ht
    obtain ⟨y, rfl, -⟩ := of_decide_eq_true (List.mem_filter.1 ht).2
    exact ⟨y, rfl⟩)
  have hp : (xs.insertionSort (· ≤ ·)).Perm xs := List.perm_insertionSort _ _
  have hmem : ∀ x, x ∈ (xs.insertionSort (· ≤ ·)).map Fl.fin ↔ x ∈ expo ∧ Counted A e x := by
    intro x
    rw [(hp.map Fl.fin).mem_iff, ← hxs, List.mem_filter, decide_eq_true_eq]
  refine ⟨xs.insertionSort (· ≤ ·), by rw [hxs, sortFl_fin], List.pairwise_insertionSort _ _, ?_, ?_, ?_, ?_, hmem, by rw [hxs]; exact hp.map _⟩
  · rw [hp.length_eq, ← List.length_map (f := Fl.fin), ← hxs, countAll, List.countP_eq_length_filter]
  · rw [hxs, List.length_map, hp.length_eq]
  · intro y hy
    obtain ⟨z, hz, h1, h2⟩ := ((hmem (.fin y)).1 (List.mem_map.2 ⟨y, hy, rfl⟩)).2
    cases hz
    exact ⟨h1, h2⟩
  · intro t
    rw [hp.countP_eq, countUpTo]
    have : xs.countP (fun y => Fl.le (.fin y) t) = (xs.map Fl.fin).countP fun y => Fl.le y t := by
      rw [List.countP_map]; rfl
    rw [this, ← hxs, List.countP_filter]
    congr 1
    funext x
    exact Bool.and_comm _ _

/-! ## The curve -/

theorem fraction_le (A : Arith K) {a b n : Nat} (h : a ≤ b) (hn : 0 < n) : Fl.le (fraction A a n) (fraction A b n) = true := by
  have h1 : (1 : K) ≤ A.rnd (n : K) := by
    conv_lhs => rw [← A.one]
    exact A.mono _ _ (by exact_mod_cast hn)
  simp only [fraction, Fl.le, decide_eq_true_eq]
  apply A.mono
  have h2 : A.rnd (a : K) ≤ A.rnd (b : K) := A.mono _ _ (by exact_mod_cast h)
  gcongr

theorem fraction_zero (A : Arith K) (n : Nat) : fraction A 0 n = .fin 0 := by
  simp [fraction, A.zero]

theorem fraction_le_one (A : Arith K) {a n : Nat} (h : a ≤ n) (hn : 0 < n) : Fl.le (fraction A a n) (.fin 1) = true := by
  have h1 : (1 : K) ≤ A.rnd (n : K) := by
    conv_lhs => rw [← A.one]
    exact A.mono _ _ (by exact_mod_cast hn)
  have := fraction_le A h hn
  refine Fl.le_trans' this ?_
  simp only [fraction, Fl.le, decide_eq_true_eq]
  rw [div_self (by linarith), A.one]

theorem div_fraction (A : Arith K) {k n : Nat} (hn : 0 < n) : A.div (.fin (A.rnd (k : K))) (.fin (A.rnd (n : K))) = fraction A k n := by
  have h1 : (1 : K) ≤ A.rnd (n : K) := by
    conv_lhs => rw [← A.one]
    exact A.mono _ _ (by exact_mod_cast hn)
  unfold Arith.div
  simp only
  rw [if_neg (by linarith)]
  rfl

/-- The two vectors. -/
theorem curve_eq {n : Nat} (hn : 0 < n) {ends expo : List (Fl K)} {u : Bool} {e : K} (he : (if u then maxTime ends else minTime ends) = .ok (.fin e)) :
    ∃ l : List K, l.Pairwise (· ≤ ·) ∧ l.length = countAll A e expo ∧
      (∀ y ∈ l, A.rnd (1 / 1000000) < y ∧ y < A.rnd (A.rnd (99 / 100) * e)) ∧
      (∀ t, (l.countP fun y => Fl.le (.fin y) t) = countUpTo A e expo t) ∧
      (∀ x, x ∈ l.map Fl.fin ↔ x ∈ expo ∧ Counted A e x) ∧ (l.map Fl.fin).Perm (expo.filter fun x => decide (Counted A e x)) ∧
      exposureCurve A n ends expo u = .ok { times := (0 :: l ++ [e]).map Fl.fin
                                            fracs := (List.range (l.length + 1)).map (fun k => fraction A k n) ++ [fraction A l.length n]
                                            endTime := .fin e } := by
  obtain ⟨l, h1, h2, h3, h4, h5, h6, h7, h8⟩ := shown_sorted (A := A) expo e
  refine ⟨l, h2, h3, h5, h6, h7, h8, ?_⟩
  have hu : exposureCurve A n ends expo u = (if u then maxTime ends else minTime ends) >>= fun endTime =>
      .ok { times := .fin 0 :: sortFl (shownTimes A expo endTime) ++ [endTime]
            fracs := (List.range ((shownTimes A expo endTime).length + 1)).map (fun k : Nat => A.div (.fin (A.rnd (k : K))) (.fin (A.rnd (n : K)))) ++
              [A.div (.fin (A.rnd ((shownTimes A expo endTime).length : K))) (.fin (A.rnd (n : K)))]
            endTime := endTime } := by
    unfold exposureCurve
    cases u <;> rfl
  rw [hu, he, ok_bind, h1, h4]
  congr 2
  · simp
  · rw [div_fraction A hn]
    congr 1
    apply List.map_congr_left
    intro k _
    exact div_fraction A hn

theorem curve_ok {n : Nat} (hn : 0 < n) {ends expo : List (Fl K)} {u : Bool} {e : K} (he : (if u then maxTime ends else minTime ends) = .ok (.fin e))
    (h0 : 0 ≤ e) (hr : A.rnd e = e) (hlen : expo.length ≤ n) {c : Curve K} (hc : exposureCurve A n ends expo u = .ok c) :
    SubDistribution A expo n e c := by
  obtain ⟨l, h1, h2, h3, h4, h5, hp, h6⟩ := curve_eq (A := A) (expo := expo) hn he
  rw [h6] at hc
  cases hc
  have hle : ∀ y ∈ l, y ≤ e := by
    intro y hy
    refine (h3 y hy).2.le.trans ?_
    conv_rhs => rw [← hr]
    apply A.mono
    have : A.rnd (99 / 100 : K) ≤ 1 := by
      conv_rhs => rw [← A.one]
      exact A.mono _ _ (by norm_num)
    nlinarith
  have hge : ∀ y ∈ l, 0 ≤ y := by
    intro y hy
    refine le_trans ?_ (h3 y hy).1.le
    conv_lhs => rw [← A.zero]
    exact A.mono _ _ (by positivity)
  have hcn : l.length ≤ n := by
    rw [h2]
    exact (List.countP_le_length).trans hlen
  have hmono : ((List.range (l.length + 1)).map (fun k => fraction A k n) ++ [fraction A l.length n]).Pairwise fun a b => Fl.le a b = true := by
    rw [List.pairwise_append]
    refine ⟨?_, by simp, ?_⟩
    · rw [List.pairwise_map]
      exact (List.pairwise_lt_range).imp fun hab => fraction_le A (le_of_lt hab) hn
    · intro a ha b hb
      obtain ⟨k, hk, rfl⟩ := List.mem_map.1 ha
      rw [List.mem_singleton] at hb
      subst hb
      rw [List.mem_range] at hk
      exact fraction_le A (by omega) hn
  refine ⟨by simp, by simp, ?_, by rw [List.map_append, List.getLast?_append]; simp, ?_, hmono, ?_, ?_, ?_, ?_⟩
  · rw [List.pairwise_map]
    simp only [Fl.le, decide_eq_true_eq]
    rw [List.cons_append, List.pairwise_cons, List.pairwise_append]
    refine ⟨fun y hy => ?_, h1, by simp, fun a ha b hb => ?_⟩
    · rcases List.mem_append.1 hy with hy | hy
      · exact hge y hy
      · rw [List.mem_singleton] at hy; subst hy; exact h0
    · rw [List.mem_singleton] at hb
      subst hb
      exact hle a ha
  · simp [List.range_succ_eq_map, fraction_zero]
  · have hb : ∀ k, k ≤ n → Fl.le (.fin 0) (fraction A k n) = true ∧ Fl.le (fraction A k n) (.fin 1) = true := fun k hk =>
      ⟨by rw [← fraction_zero A n]; exact fraction_le A (by omega) hn, fraction_le_one A hk hn⟩
    intro f hf
    rcases List.mem_append.1 hf with hf | hf
    · obtain ⟨k, hk, rfl⟩ := List.mem_map.1 hf
      rw [List.mem_range] at hk
      exact hb k (by omega)
    · rw [List.mem_singleton] at hf
      subst hf
      exact hb _ hcn
  · simp [h2]
  · simpa using hp
  · intro k hk
    rw [← h2] at hk
    show (_ ++ _)[k]? = _
    rw [List.getElem?_append_left (by simp; omega), List.getElem?_map, List.getElem?_range (by omega)]
    rfl

/-! ## Levels -/

theorem countP_sorted_ge {l : List K} (h : l.Pairwise (· ≤ ·)) {k : Nat} (hk : k < l.length) : k + 1 ≤ l.countP fun y => Fl.le (.fin y) (.fin l[k]) := by
  have hsplit : (l.take (k + 1)).countP (fun y => Fl.le (.fin y) (.fin l[k])) ≤ l.countP fun y => Fl.le (.fin y) (.fin l[k]) :=
    (List.take_sublist _ _).countP_le
  have : (l.take (k + 1)).countP (fun y => Fl.le (.fin y) (.fin l[k])) = (l.take (k + 1)).length := by
    rw [List.countP_eq_length]
    intro y hy
    obtain ⟨i, hi, rfl⟩ := List.getElem_of_mem hy
    rw [List.length_take] at hi
    rw [List.getElem_take]
    simp only [Fl.le, decide_eq_true_eq]
    rcases Nat.lt_or_ge i k with hik | hik
    · exact List.pairwise_iff_getElem.1 h i k (by omega) hk hik
    · have : i = k := by omega
      subst this
      exact le_refl _
  rw [this, List.length_take] at hsplit
  omega

theorem countP_sorted_lt {l : List K} (h : l.Pairwise (· ≤ ·)) {k : Nat} (hk : k < l.length) {t : K} (ht : t < l[k]) :
    (l.countP fun y => Fl.le (.fin y) (.fin t)) ≤ k := by
  rw [← List.take_append_drop k l, List.countP_append]
  have : (l.drop k).countP (fun y => Fl.le (.fin y) (.fin t)) = 0 := by
    rw [List.countP_eq_zero]
    intro y hy
    obtain ⟨i, hi, rfl⟩ := List.getElem_of_mem hy
    rw [List.length_drop] at hi
    rw [List.getElem_drop]
    simp only [Fl.le, decide_eq_true_eq, not_le]
    refine ht.trans_le ?_
    rcases Nat.eq_zero_or_pos i with rfl | hi0
    · exact le_refl _
    · exact List.pairwise_iff_getElem.1 h k (k + i) hk (by omega) (by omega)
  rw [this, Nat.add_zero]
  exact List.countP_le_length.trans (by rw [List.length_take]; omega)

/-- The three cases of a level. -/
theorem levelTime_spec {n : Nat} (hn : 0 < n) {ends expo : List (Fl K)} {u : Bool} {e : K} (he : (if u then maxTime ends else minTime ends) = .ok (.fin e))
    {c : Curve K} (hc : exposureCurve A n ends expo u = .ok c) {lv : K} (hlv : 0 < lv) (td : K) :
    (Fl.le (.fin lv) (fraction A (countAll A e expo) n) = true →
      ∃ t, FirstReach A expo n e lv t ∧ levelTime A c td lv = .ok (some (A.div t (.fin td)))) ∧
    (Fl.le (.fin lv) (fraction A (countAll A e expo) n) = false →
      levelTime A c td lv = .ok (if Fl.le (.fin lv) (A.add (fraction A (countAll A e expo) n) (.fin (A.rnd (1 / 1000000000000)))) = true
        then some (A.div (.fin e) (.fin td)) else none)) := by
  obtain ⟨l, h1, h2, h3, h4, h5, hp, h6⟩ := curve_eq (A := A) (expo := expo) hn he
  rw [h6] at hc
  cases hc
  set G := (List.range (l.length + 1)).map (fun k => fraction A k n) ++ [fraction A l.length n] with hG
  set T := (0 :: l ++ [e]).map (Fl.fin (K := K)) with hT
  have hlenT : T.length = l.length + 2 := by simp [hT]
  have hlenG : G.length = l.length + 2 := by simp [hG]
  have hget : ∀ m, m < l.length + 2 → G.getD m .nan = fraction A (min m l.length) n := by
    intro m hm
    rw [List.getD_eq_getElem?_getD]
    rcases Nat.lt_or_ge m (l.length + 1) with h | h
    · rw [hG, List.getElem?_append_left (by simp; omega), List.getElem?_map, List.getElem?_range h, min_eq_left (by omega)]
      rfl
    · rw [hG, List.getElem?_append_right (by simp; omega), min_eq_right (by omega)]
      have : m - ((List.range (l.length + 1)).map (fun k => fraction A k n)).length = 0 := by simp; omega
      rw [this]
      rfl
  have hlast : lastOf G = .ok (fraction A l.length n) := by
    unfold lastOf
    rw [hG]
    simp
  have hss := searchSorted_spec (fun m => Fl.lt (G.getD m .nan) (.fin lv)) (l.length + 2) (by
    intro a b hab hb hl
    simp only [hget a (by omega), hget b hb] at *
    have := fraction_le A (a := min a l.length) (b := min b l.length) (by omega) hn
    simp only [fraction, Fl.le, Fl.lt, decide_eq_true_eq] at *
    exact lt_of_le_of_lt this hl)
  simp only at hss
  unfold levelTime
  simp only [hlenT, hlenG] at *
  generalize searchSorted (fun m => Fl.lt (G.getD m .nan) (.fin lv)) (l.length + 2) = k at *
  obtain ⟨hk1, hk2, hk3⟩ := hss
  have hlt : ∀ (a : Nat), Fl.lt (fraction A a n) (.fin lv) = true ↔ ¬ Fl.le (.fin lv) (fraction A a n) = true := by
    intro a
    simp [fraction, Fl.lt, Fl.le]
  rw [← h2, hlast]
  simp only [ok_bind]
  constructor
  · intro hle
    have hkn : k ≤ l.length := by
      by_contra hc
      have := hk2 l.length (by omega)
      rw [hget _ (by omega), min_self, hlt] at this
      exact this hle
    have hk0 : 0 < k := by
      by_contra hc
      have : k = 0 := by omega
      subst this
      have := hk3 0 le_rfl (by omega)
      rw [hget _ (by omega), Nat.min_eq_left (by omega), fraction_zero] at this
      simp [Fl.lt, hlv] at this
    have hreach : Fl.le (.fin lv) (fraction A k n) = true := by
      have := hk3 k le_rfl (by omega)
      rw [hget _ (by omega), Nat.min_eq_left hkn] at this
      by_contra hc
      rw [(hlt k).2 hc] at this
      cases this
    have hkl : k - 1 < l.length := by omega
    refine ⟨.fin l[k - 1], ⟨(h5 _).1 (List.mem_map.2 ⟨_, List.getElem_mem hkl, rfl⟩), ?_, ?_⟩, ?_⟩
    · rw [← h4]
      have := countP_sorted_ge h1 hkl
      exact Fl.le_trans' hreach (fraction_le A (by omega) hn)
    · intro x hx hC hr
      obtain ⟨y, hy, -⟩ := id hC
      subst hy
      by_contra hc
      simp only [Fl.le, decide_eq_true_eq, not_le] at hc
      have h7 := countP_sorted_lt h1 hkl hc
      rw [← h4] at hr
      have h8 := hk2 _ (show (l.countP fun z => Fl.le (.fin z) (.fin y)) < k by omega)
      rw [hget _ (by omega), Nat.min_eq_left List.countP_le_length, hlt] at h8
      exact h8 hr
    · rw [if_pos]
      · have : listGet T (min k (l.length + 2 - 1)) = .ok (.fin l[k - 1]) := by
          rw [listGet_ok, Nat.min_eq_left (by omega), hT, List.getElem?_map, List.cons_append]
          obtain ⟨k', rfl⟩ : ∃ k', k = k' + 1 := ⟨k - 1, by omega⟩
          simp only [List.getElem?_cons_succ, Nat.add_sub_cancel] at *
          rw [List.getElem?_append_left (by omega), List.getElem?_eq_getElem (by omega)]
          rfl
        rw [this]
        rfl
      · refine Fl.le_trans' hle ?_
        simp only [fraction, Arith.add, Fl.le, decide_eq_true_eq]
        conv_lhs => rw [← A.idem]
        apply A.mono
        have : 0 ≤ A.rnd (1 / 1000000000000 : K) := by
          conv_lhs => rw [← A.zero]
          exact A.mono _ _ (by positivity)
        linarith
  · intro hle
    by_cases hadd : Fl.le (.fin lv) (A.add (fraction A l.length n) (.fin (A.rnd (1 / 1000000000000)))) = true
    · rw [if_pos hadd, if_pos hadd]
      have hk : k = l.length + 2 := by
        by_contra hc
        have := hk3 (l.length + 1) (by
          by_contra hc'
          omega) (by omega)
        rw [hget _ (by omega), Nat.min_eq_right (by omega)] at this
        rw [(hlt l.length).2 (by rw [hle]; simp)] at this
        cases this
      have : listGet T (min k (l.length + 2 - 1)) = .ok (.fin e) := by
        rw [listGet_ok, hk, Nat.min_eq_right (by omega), hT, List.getElem?_map, List.getElem?_append_right (by simp)]
        simp
      rw [this]
      rfl
    · rw [if_neg hadd, if_neg hadd]
      rfl

/-! ## Interpolation -/

theorem zip_pairwise {α β : Type} {R : α → α → Prop} {l : List α} {m : List β} (h : l.Pairwise R) :
    (l.zip m).Pairwise fun a b => R a.1 b.1 := by
  induction l generalizing m with
  | nil => simp
  | cons a l ih =>
    cases m with
    | nil => simp
    | cons b m =>
      rw [List.pairwise_cons] at h
      rw [List.zip_cons_cons, List.pairwise_cons]
      exact ⟨fun p hp => h.1 _ (List.of_mem_zip hp).1, ih h.2⟩

/-- Filtering a sorted list by an initial segment keeps a prefix. -/
theorem filter_prefix {α : Type} {q : α → Bool} {l : List α} (h : l.Pairwise fun a b => q b = true → q a = true) :
    l.filter q = l.take (l.countP q) := by
  induction l with
  | nil => rfl
  | cons a l ih =>
    rw [List.pairwise_cons] at h
    by_cases ha : q a = true
    · rw [List.filter_cons_of_pos ha, List.countP_cons_of_pos ha, List.take_succ_cons, ih h.2]
    · have : ∀ b ∈ l, ¬ q b = true := fun b hb hq => ha (h.1 b hb hq)
      rw [List.filter_cons_of_neg ha, List.countP_cons_of_neg ha, List.countP_eq_zero.2 this, List.filter_eq_nil_iff.2 this]
      rfl

/-- 'previous' interpolation on sorted times starting at 0 and ending at `e`. -/
theorem prevInterp_curve {A : Arith K} {n : Nat} {l : List K} {e : K} (hs : (0 :: l ++ [e]).Pairwise (· ≤ ·)) {x y : Fl K}
    (h : prevInterp (((0 :: l ++ [e]).map Fl.fin).zip ((List.range (l.length + 1)).map (fun k => fraction A k n) ++ [fraction A l.length n])) x = .ok y)
    (hx : x ≠ .nan) : y = fraction A (l.countP fun y => Fl.le (.fin y) x) n := by
  set T := (0 :: l ++ [e]).map (Fl.fin (K := K)) with hT
  set G := (List.range (l.length + 1)).map (fun k => fraction A k n) ++ [fraction A l.length n] with hG
  have hTs : T.Pairwise fun a b => Fl.le a b = true := by
    rw [hT, List.pairwise_map]
    simpa [Fl.le] using hs
  have hlen : T.length = G.length := by simp [hT, hG]
  have hz : (T.zip G).insertionSort (fun a b => Fl.le a.1 b.1 = true) = T.zip G := List.Pairwise.insertionSort_eq (zip_pairwise hTs)
  have hcons : ∃ G', T.zip G = (.fin 0, fraction A 0 n) :: G' := by
    refine ⟨(List.map Fl.fin (l ++ [e])).zip ((List.range l.length).map (fun k => fraction A (k + 1) n) ++ [fraction A l.length n]), ?_⟩
    rw [hT, hG, List.range_succ_eq_map]
    simp [Function.comp_def]
  have hlast : (T.zip G).getLast? = some (.fin e, fraction A l.length n) := by
    rw [hT, hG, List.map_append, List.zip_append (by simp)]
    simp
  unfold prevInterp at h
  rw [hz] at h
  obtain ⟨G', hG'⟩ := hcons
  simp only [hlast] at h
  rw [hG'] at h
  simp only at h
  rw [← hG'] at h
  split at h
  · cases h
  rename_i hb
  simp only [Bool.or_eq_true, not_or] at hb
  have h0 : Fl.le (.fin 0) x = true := by
    by_contra hc
    exact hb.1 (Fl.lt_of_not_le (by simp) hx hc)
  have he : Fl.le x (.fin e) = true := by
    by_contra hc
    exact hb.2 (Fl.lt_of_not_le hx (by simp) hc)
  have hpre : (T.zip G).Pairwise fun a b => Fl.le b.1 x = true → Fl.le a.1 x = true :=
    (zip_pairwise hTs).imp fun hab hb => Fl.le_trans' hab hb
  rw [filter_prefix hpre] at h
  have hcnt : (T.zip G).countP (fun p => Fl.le p.1 x) = T.countP fun t => Fl.le t x := by
    conv_rhs => rw [← List.map_fst_zip (l₁ := T) (l₂ := G) (by omega), List.countP_map]
    rfl
  have hcT : T.countP (fun t => Fl.le t x) = 1 + (l.countP fun y => Fl.le (.fin y) x) + if Fl.le (.fin e) x = true then 1 else 0 := by
    rw [hT, List.countP_map, List.countP_append, List.countP_cons]
    simp only [Function.comp_def, h0, if_true]
    have : [e].countP (fun x_1 => Fl.le (.fin x_1) x) = if Fl.le (.fin e) x = true then 1 else 0 := by
      simp [List.countP_cons]
    rw [this]
    omega
  rw [hcnt] at h
  have hc1 : 0 < T.countP fun t => Fl.le t x := by omega
  have hcl : T.countP (fun t => Fl.le t x) ≤ T.length := List.countP_le_length
  have hlz : (T.zip G).length = T.length := by rw [List.length_zip]; omega
  have hget : ((T.zip G).take (T.countP fun t => Fl.le t x)).getLast? = (T.zip G)[(T.countP fun t => Fl.le t x) - 1]? := by
    rw [List.getLast?_eq_getElem?, List.length_take, List.getElem?_take_of_lt (by omega)]
    congr 1
    omega
  rw [hget] at h
  have hidx : (T.countP fun t => Fl.le t x) - 1 < (T.zip G).length := by omega
  rw [List.getElem?_eq_getElem hidx] at h
  simp only [Except.ok.injEq] at h
  rw [← h, List.getElem_zip]
  simp only
  have hle : (l.countP fun y => Fl.le (.fin y) x) ≤ l.length := List.countP_le_length
  by_cases hex : Fl.le (.fin e) x = true
  · have hall : (l.countP fun y => Fl.le (.fin y) x) = l.length := by
      rw [List.countP_eq_length]
      intro y hy
      have : y ≤ e := by
        rw [List.cons_append, List.pairwise_cons, List.pairwise_append] at hs
        exact hs.2.2.2 y hy e (by simp)
      exact Fl.le_trans' (by simpa [Fl.le] using this) hex
    rw [hall] at hcT ⊢
    rw [if_pos hex] at hcT
    have : (T.countP fun t => Fl.le t x) - 1 = l.length + 1 := by omega
    simp only [hG, this]
    rw [List.getElem_append_right (by simp)]
    simp
  · rw [if_neg hex] at hcT
    have : (T.countP fun t => Fl.le t x) - 1 = l.countP fun y => Fl.le (.fin y) x := by omega
    simp only [hG, this]
    rw [List.getElem_append_left (by simp; omega)]
    simp

/-- Linear interpolation accepts the same arguments as 'previous' interpolation. -/
theorem linInterp_ok {A : Arith K} {ps : List (Fl K × Fl K)} {x y : Fl K} (h : prevInterp ps x = .ok y) : ∃ z, linInterp A ps x = .ok z := by
  unfold prevInterp at h
  unfold linInterp
  simp only at h ⊢
  split at h
  · rename_i first _ last h1 h2
    rw [h1] at h2 ⊢
    split at h
    · cases h
    rename_i hb
    rw [if_neg hb]
    split
    · split_ifs <;> exact ⟨_, rfl⟩
    · exact ⟨_, rfl⟩
    · exact ⟨_, rfl⟩
  · cases h

end Dorado
