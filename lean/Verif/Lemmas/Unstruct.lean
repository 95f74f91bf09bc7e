import Verif.Spec.Unstruct
import Verif.Lemmas.Basic
import Mathlib.Tactic.FieldSimp
import Mathlib.Tactic.Ring
import Mathlib.Algebra.Order.BigOperators.Group.List

/-! Lemmas on gridding. -/

set_option linter.unusedSectionVars false

namespace Dorado

variable {K : Type} [Field K] [LinearOrder K] [IsStrictOrderedRing K] {A : Arith K}

theorem foldl_min {l : List K} {x : K} : LeastOf (x :: l) (l.foldl (fun m y => if y < m then y else m) x) := by
  induction l generalizing x with
  | nil => exact ⟨by simp, by simp⟩
  | cons y l ih =>
    simp only [List.foldl_cons]
    obtain ⟨h1, h2⟩ := ih (x := if y < x then y else x)
    refine ⟨?_, fun z hz => ?_⟩
    · rcases List.mem_cons.1 h1 with h | h
      · rw [h]; split_ifs <;> simp
      · simp [h]
    · have h3 := h2 (if y < x then y else x) (by simp)
      simp only [List.mem_cons] at hz
      rcases hz with rfl | rfl | hz
      · refine le_trans h3 ?_; split_ifs with h
        · exact h.le
        · exact le_rfl
      · refine le_trans h3 ?_; split_ifs with h
        · exact le_rfl
        · exact not_lt.1 h
      · exact h2 z (by simp [hz])

theorem foldl_max {l : List K} {x : K} : l.foldl (fun m y => if m < y then y else m) x ∈ x :: l ∧
    ∀ z ∈ x :: l, z ≤ l.foldl (fun m y => if m < y then y else m) x := by
  induction l generalizing x with
  | nil => exact ⟨by simp, by simp⟩
  | cons y l ih =>
    simp only [List.foldl_cons]
    obtain ⟨h1, h2⟩ := ih (x := if x < y then y else x)
    refine ⟨?_, fun z hz => ?_⟩
    · rcases List.mem_cons.1 h1 with h | h
      · rw [h]; split_ifs <;> simp
      · simp [h]
    · have h3 := h2 (if x < y then y else x) (by simp)
      simp only [List.mem_cons] at hz
      rcases hz with rfl | rfl | hz
      · refine le_trans ?_ h3; split_ifs with h
        · exact h.le
        · exact le_rfl
      · refine le_trans ?_ h3; split_ifs with h
        · exact le_rfl
        · exact not_lt.1 h
      · exact h2 z (by simp [hz])

theorem pyMinList_ok {l : List K} (h : l ≠ []) : ∃ m, pyMinList l = .ok m ∧ LeastOf l m := by
  cases l with
  | nil => exact absurd rfl h
  | cons x l => exact ⟨_, rfl, foldl_min⟩

theorem pyMaxList_ok {l : List K} (h : l ≠ []) : ∃ m, pyMaxList l = .ok m ∧ m ∈ l ∧ ∀ x ∈ l, x ≤ m := by
  cases l with
  | nil => exact absurd rfl h
  | cons x l => exact ⟨_, rfl, foldl_max⟩

/-- One axis of the grid in exact arithmetic. -/
theorem gridAxis_exact [FloorRing K] {l : List K} {cs : K} (hne : l ≠ []) (hcs : 0 < cs) :
    ∃ n x0, Covers l cs x0 n ∧ ∃ v, gridAxis Arith.exact l cs = .ok (n, v) ∧ ∀ i, i < n → v i = x0 + (i : K) * cs := by
  obtain ⟨hi, e1, m1, h1⟩ := pyMaxList_ok hne
  obtain ⟨lo, e2, m2, h2⟩ := pyMinList_ok hne
  have hle : lo ≤ hi := h2 hi m1
  have hq : 0 ≤ (hi - lo) / cs := div_nonneg (by linarith) hcs.le
  have hceil : 0 ≤ ⌈(hi - lo) / cs⌉ := Int.ceil_nonneg hq
  obtain ⟨n, hn⟩ : ∃ n : Nat, ((n : Int)) = ⌈(hi - lo) / cs⌉ := ⟨_, Int.toNat_of_nonneg hceil⟩
  have hnK : ((n : Nat) : K) = (⌈(hi - lo) / cs⌉ : K) := by exact_mod_cast congrArg (Int.cast : Int → K) hn
  have c1 : (hi - lo) / cs ≤ (n : K) := by rw [hnK]; exact Int.le_ceil _
  have c2 : (n : K) < (hi - lo) / cs + 1 := by rw [hnK]; exact Int.ceil_lt_add_one _
  rw [div_le_iff₀ hcs] at c1
  have c2' : ((n : K) - 1) * cs < hi - lo := by
    rw [← lt_div_iff₀ hcs]
    linarith
  refine ⟨n + 1, lo, ⟨⟨m2, h2⟩, by omega, fun x hx => ⟨h2 x hx, ?_⟩, hi, m1, ?_⟩, ?_⟩
  · have := h1 x hx
    push_cast
    linarith
  · push_cast
    have : ((n : K) + 1 - 2) * cs = ((n : K) - 1) * cs := by ring
    linarith
  · unfold gridAxis
    rw [e1, e2]
    simp only [ok_bind]
    unfold gridCount
    rw [if_neg hcs.ne']
    simp only [ok_bind, Arith.exact, id_eq]
    rw [← hn]
    have hnn : ((n : Int) + 1).toNat = n + 1 := by omega
    rw [if_neg (by omega), hnn]
    refine ⟨_, rfl, fun i hi => ?_⟩
    simp only [linspaceAt, Nat.add_sub_cancel, id_eq]
    have hd : lo + cs * (n : K) - lo = cs * (n : K) := by ring
    rw [hd]
    split_ifs with g1 g2 g3
    · have hn0 : n = 0 := by omega
      have hi0 : i = 0 := by omega
      subst hn0; subst hi0
      simp
    · have : i = n := by omega
      subst this
      ring
    · exfalso
      have : (n : K) ≠ 0 := by
        have : n ≠ 0 := by omega
        exact_mod_cast this
      rw [mul_div_cancel_right₀ _ this] at g3
      exact hcs.ne' g3
    · have : (n : K) ≠ 0 := by
        have : n ≠ 0 := by omega
        exact_mod_cast this
      rw [mul_div_cancel_right₀ _ this]
      ring

/-! ## Arrays -/

theorem gridE_ok {R C : Nat} {f : Nat → Nat → Except PyErr (Fl K)} {v : Nat → Nat → Fl K}
    (h : ∀ i j, i < R → j < C → f i j = .ok (v i j)) :
    ∃ g, gridE R C f = .ok g ∧ g.rows = R ∧ g.cols = C ∧ ∀ i j, i < R → j < C → g.at' i j = v i j := by
  have h1 : ∀ i, i < R → mapE (f i) (List.range C) = .ok ((List.range C).map fun j => v i j) := by
    intro i hi
    rw [mapE_ok_iff]
    refine List.forall₂_iff_get.2 ⟨by simp, fun j g1 g2 => ?_⟩
    simp only [List.get_eq_getElem, List.getElem_range, List.getElem_map]
    exact h i j hi (by simpa using g1)
  have h2 : mapE (fun i => mapE (f i) (List.range C)) (List.range R) = .ok ((List.range R).map fun i => (List.range C).map fun j => v i j) := by
    rw [mapE_ok_iff]
    refine List.forall₂_iff_get.2 ⟨by simp, fun j g1 g2 => ?_⟩
    simp only [List.get_eq_getElem, List.getElem_range, List.getElem_map]
    exact h1 j (by simpa using g1)
  unfold gridE
  rw [h2]
  simp only [ok_bind, pure_def]
  refine ⟨_, rfl, rfl, rfl, fun i j hi hj => ?_⟩
  simp [List.getD_eq_getElem?_getD, hi, hj]

theorem gridE_inv {R C : Nat} {f : Nat → Nat → Except PyErr (Fl K)} {g : Grid (Fl K)} (h : gridE R C f = .ok g) :
    g.rows = R ∧ g.cols = C ∧ ∀ i j, i < R → j < C → f i j = .ok (g.at' i j) := by
  unfold gridE at h
  rw [bind_ok] at h
  obtain ⟨rows, h1, h2⟩ := h
  rw [pure_def] at h2
  injection h2 with h2
  subst h2
  refine ⟨rfl, rfl, fun i j hi hj => ?_⟩
  obtain ⟨row, hr, hrow⟩ := mapE_get h1 (i := i) (a := i) (by simp [hi])
  obtain ⟨x, hx, hfx⟩ := mapE_get hrow (i := j) (a := j) (by simp [hj])
  rw [hfx]
  simp [List.getD_eq_getElem?_getD, hr, hx]

/-! ## Interpolation -/

theorem idwAt_exact {data : List K} {nn : List (K × Nat)} (h0 : ∀ e ∈ nn, 0 ≤ e.1) (hi : ∀ e ∈ nn, e.2 < data.length) :
    idwAt Arith.exact (data.map .fin) (nn.map fun e => (.fin e.1, e.2)) =
      .ok (Arith.exact.div (.fin (nn.map fun e => data.getD e.2 0 * (1 / (e.1 + 1 / 10 ^ 100))).sum)
        (.fin (nn.map fun e => 1 / (e.1 + 1 / 10 ^ 100)).sum)) := by
  unfold idwAt
  have main : ∀ (l : List (K × Nat)) (a b : K), (∀ e ∈ l, 0 ≤ e.1) → (∀ e ∈ l, e.2 < data.length) →
      foldE (idwStep Arith.exact (data.map Fl.fin)) (.fin a, .fin b) (l.map fun e => ((.fin e.1 : Fl K), e.2)) =
      .ok (.fin (a + (l.map fun e => data.getD e.2 0 * (1 / (e.1 + 1 / 10 ^ 100))).sum),
        .fin (b + (l.map fun e => 1 / (e.1 + 1 / 10 ^ 100)).sum)) := by
    intro l
    induction l with
    | nil => intro a b _ _; simp [foldE]
    | cons e l ih =>
      intro a b h0 hi
      have hw : idwWeight Arith.exact (.fin e.1) = .fin (1 / (e.1 + 1 / 10 ^ 100)) := by
        have : e.1 + 1 / 10 ^ 100 ≠ 0 := by
          have := h0 e (by simp)
          positivity
        simp only [idwWeight, Arith.add, Arith.div, Arith.exact, id_eq]
        rw [if_neg this]
      have hg : listGet (data.map Fl.fin) e.2 = .ok (.fin (data.getD e.2 0)) := by
        simp [listGet, List.getD_eq_getElem?_getD, hi e (by simp)]
      have hstep : idwStep Arith.exact (data.map Fl.fin) (.fin a, .fin b) (.fin e.1, e.2) =
          .ok (.fin (a + data.getD e.2 0 * (1 / (e.1 + 1 / 10 ^ 100))), .fin (b + 1 / (e.1 + 1 / 10 ^ 100))) := by
        simp only [idwStep, hg, ok_bind, hw, pure_def]
        rfl
      simp only [List.map_cons, foldE, hstep, ok_bind]
      rw [ih _ _ (fun e' h => h0 e' (by simp [h])) (fun e' h => hi e' (by simp [h]))]
      simp only [List.sum_cons]
      congr 2
      · rw [add_assoc]
      · rw [add_assoc]
  rw [main nn 0 0 h0 hi]
  simp only [ok_bind, zero_add, pure_def]

theorem sum_map_mul_right' {α : Type} (l : List α) (f : α → K) (c : K) : (l.map fun e => f e * c).sum = (l.map f).sum * c := by
  induction l with
  | nil => simp
  | cons a l ih => simp [ih, add_mul]

/-- The interpolated value is a weighted mean. -/
theorem idwAt_idw {data : List K} {nn : List (K × Nat)} (h0 : ∀ e ∈ nn, 0 ≤ e.1) (hi : ∀ e ∈ nn, e.2 < data.length) (hne : nn ≠ []) :
    ∃ v, idwAt Arith.exact (data.map .fin) (nn.map fun e => (.fin e.1, e.2)) = .ok (.fin v) ∧ IsIdw (fun i => data.getD i 0) nn v := by
  have hpos : ∀ e ∈ nn, 0 < e.1 + 1 / 10 ^ 100 := fun e he => by
    have := h0 e he
    positivity
  have hS : 0 < (nn.map fun e => 1 / (e.1 + 1 / 10 ^ 100)).sum := by
    apply List.sum_pos
    · intro x hx
      obtain ⟨e, he, rfl⟩ := List.mem_map.1 hx
      exact div_pos one_pos (hpos e he)
    · simpa using hne
  obtain ⟨S, hSe⟩ : ∃ S, S = (nn.map fun e => 1 / (e.1 + 1 / 10 ^ 100)).sum := ⟨_, rfl⟩
  rw [idwAt_exact h0 hi]
  rw [← hSe] at hS ⊢
  refine ⟨(nn.map fun e => data.getD e.2 0 * (1 / (e.1 + 1 / 10 ^ 100))).sum / S, ?_, fun e => 1 / (e.1 + 1 / 10 ^ 100) / S, 1 / S,
    by positivity, fun e he => ⟨div_pos (div_pos one_pos (hpos e he)) hS, ?_⟩, ?_, ?_⟩
  · simp only [Arith.div]
    rw [if_neg hS.ne']
    rfl
  · show 1 / (e.1 + 1 / 10 ^ 100) / S * _ = _
    rw [div_right_comm, div_mul_cancel₀ _ (hpos e he).ne']
  · have : (nn.map fun e => 1 / (e.1 + 1 / 10 ^ 100) / S) = (nn.map fun e => (1 / (e.1 + 1 / 10 ^ 100)) * S⁻¹) := by
      simp [div_eq_mul_inv]
    rw [this, sum_map_mul_right', ← hSe]
    exact mul_inv_cancel₀ hS.ne'
  · rw [div_eq_mul_inv, ← sum_map_mul_right']
    congr 1
    apply List.map_congr_left
    intro e _
    ring

/-- A weighted mean lies between two of the data. -/
theorem IsIdw.between {data : Nat → K} {nn : List (K × Nat)} {v : K} (h : IsIdw data nn v) :
    (∃ e ∈ nn, data e.2 ≤ v) ∧ ∃ e ∈ nn, v ≤ data e.2 := by
  obtain ⟨w, c, -, hw, h1, rfl⟩ := h
  have key : ∀ (l : List (K × Nat)) (b : K), (∀ e ∈ l, 0 < w e) → (∀ e ∈ l, b < data e.2) → l ≠ [] →
      b * (l.map w).sum < (l.map fun e => w e * data e.2).sum := by
    intro l b
    induction l with
    | nil => intro _ _ h; exact absurd rfl h
    | cons e l ih =>
      intro g1 g2 _
      simp only [List.map_cons, List.sum_cons, mul_add]
      have a1 : b * w e < w e * data e.2 := by
        rw [mul_comm]
        exact mul_lt_mul_of_pos_left (g2 e (by simp)) (g1 e (by simp))
      by_cases hl : l = []
      · subst hl
        simpa using a1
      · have := ih (fun e' h => g1 e' (by simp [h])) (fun e' h => g2 e' (by simp [h])) hl
        linarith
  have key' : ∀ (l : List (K × Nat)) (b : K), (∀ e ∈ l, 0 < w e) → (∀ e ∈ l, data e.2 < b) → l ≠ [] →
      (l.map fun e => w e * data e.2).sum < b * (l.map w).sum := by
    intro l b
    induction l with
    | nil => intro _ _ h; exact absurd rfl h
    | cons e l ih =>
      intro g1 g2 _
      simp only [List.map_cons, List.sum_cons, mul_add]
      have a1 : w e * data e.2 < b * w e := by
        rw [mul_comm b]
        exact mul_lt_mul_of_pos_left (g2 e (by simp)) (g1 e (by simp))
      by_cases hl : l = []
      · subst hl
        simpa using a1
      · have := ih (fun e' h => g1 e' (by simp [h])) (fun e' h => g2 e' (by simp [h])) hl
        linarith
  have hne : nn ≠ [] := by
    rintro rfl
    simp at h1
  constructor
  · by_contra hc
    push Not at hc
    have := key nn _ (fun e he => (hw e he).1) hc hne
    rw [h1, mul_one] at this
    exact lt_irrefl _ this
  · by_contra hc
    push Not at hc
    have := key' nn _ (fun e he => (hw e he).1) hc hne
    rw [h1, mul_one] at this
    exact lt_irrefl _ this

/-! ## The whole function -/

/-- Grid of the call and the raw (unflipped, unmasked) values, exact arithmetic. -/
theorem unstruct2grid_eq [FloorRing K] {nb : Neighbours K} {pts : List (K × K)} {q : List (Fl K)} {cs : K} {k : Nat}
    {inside : Option (K × K → Bool)} {crop : Bool} (hne : pts ≠ []) (hcs : 0 < cs) (hl : q.length = pts.length) (hk : k ≠ 0) :
    ∃ nx x0 ny y0 xv yv, Covers (pts.map (·.1)) cs x0 nx ∧ Covers (pts.map (·.2)) cs y0 ny ∧
      (∀ i, i < nx → xv i = x0 + (i : K) * cs) ∧ (∀ i, i < ny → yv i = y0 + (i : K) * cs) ∧
      unstruct2grid Arith.exact nb pts q cs k inside crop =
        (interpFunc Arith.exact nb k inside crop nx ny xv yv q >>= fun g =>
          .ok { interp := interpFunc Arith.exact nb k inside crop nx ny xv yv, gridded := g }) := by
  obtain ⟨nx, x0, cx, xv, ex, hx⟩ := gridAxis_exact (l := pts.map (·.1)) (by simpa using hne) hcs
  obtain ⟨ny, y0, cy, yv, ey, hy⟩ := gridAxis_exact (l := pts.map (·.2)) (by simpa using hne) hcs
  refine ⟨nx, x0, ny, y0, xv, yv, cx, cy, hx, hy, ?_⟩
  unfold unstruct2grid
  rw [if_neg (by simpa using hl), ex, ey]
  simp only [ok_bind]
  rw [if_neg hk]
  rfl

theorem node_flip {x0 y0 cs : K} {nx ny r c : Nat} {xv yv : Nat → K} (hx : ∀ i, i < nx → xv i = x0 + (i : K) * cs)
    (hy : ∀ i, i < ny → yv i = y0 + (i : K) * cs) (hr : r < ny) (hc : c < nx) : (xv c, yv (ny - 1 - r)) = nodeAt x0 y0 cs ny r c := by
  rw [hx c hc, hy (ny - 1 - r) (by omega)]
  unfold nodeAt
  congr 2
  rw [Nat.cast_sub (by omega), Nat.cast_sub (by omega)]
  push_cast
  ring

theorem mem_keptRows {g : Grid (Fl K)} {i : Nat} :
    i ∈ (List.range g.rows).filter (fun i => (List.range g.cols).any fun j => !(g.at' i j).isNan) ↔ RowHasValue g i := by
  simp only [List.mem_filter, List.mem_range, List.any_eq_true, RowHasValue, Bool.not_eq_true']
  refine and_congr_right fun _ => exists_congr fun j => and_congr_right fun _ => ?_
  cases g.at' i j <;> simp [Fl.isNan]

theorem mem_keptCols {g : Grid (Fl K)} {j : Nat} :
    j ∈ (List.range g.cols).filter (fun j => (List.range g.rows).any fun i => !(g.at' i j).isNan) ↔ ColHasValue g j := by
  simp only [List.mem_filter, List.mem_range, List.any_eq_true, ColHasValue, Bool.not_eq_true']
  refine and_congr_right fun _ => exists_congr fun i => and_congr_right fun _ => ?_
  cases g.at' i j <;> simp [Fl.isNan]

theorem cropNan_subgrid (g : Grid (Fl K)) :
    ∃ kr kc, IsSubgrid g (cropNan g) kr kc ∧ (∀ i, i ∈ kr ↔ RowHasValue g i) ∧ ∀ j, j ∈ kc ↔ ColHasValue g j := by
  refine ⟨_, _, ⟨?_, ?_, rfl, rfl, fun i j r c hr hc => ?_⟩, fun i => mem_keptRows, fun j => mem_keptCols⟩
  · exact List.Pairwise.sublist List.filter_sublist (List.pairwise_lt_range)
  · exact List.Pairwise.sublist List.filter_sublist (List.pairwise_lt_range)
  · simp only [cropNan, List.getD_eq_getElem?_getD, hr, hc, Option.getD_some]

/-- A strictly increasing list whose members form an interval is an interval. -/
theorem sorted_interval {l : List Nat} (h : l.Pairwise (· < ·)) (hc : ∀ a b c, a ∈ l → c ∈ l → a < b → b < c → b ∈ l) {i : Nat}
    (hi : i < l.length) : l[i] = l[0]'(by omega) + i := by
  induction i with
  | zero => rfl
  | succ i ih =>
    have hi' := ih (by omega)
    have hlt := List.pairwise_iff_getElem.1 h i (i + 1) (by omega) hi (by omega)
    by_contra hne
    have hb := hc l[i] (l[i] + 1) l[i + 1] (List.getElem_mem _) (List.getElem_mem _) (by omega) (by omega)
    obtain ⟨j, hj, ej⟩ := List.mem_iff_getElem.1 hb
    rcases Nat.lt_trichotomy j i with hji | rfl | hji
    · have := List.pairwise_iff_getElem.1 h j i (by omega) (by omega) hji
      omega
    · omega
    · rcases Nat.lt_or_ge (i + 1) j with hji' | hji'
      · have := List.pairwise_iff_getElem.1 h (i + 1) j hi hj hji'
        omega
      · have : j = i + 1 := by omega
        subst this
        omega

end Dorado
