import Verif.Model.Spatial
import Verif.Lemmas.Curve
import Verif.Lemmas.Pick
import Verif.Lemmas.Nourish

/-!
# Percentiles of a density
-/

set_option linter.unusedSectionVars false

namespace Dorado

variable {K : Type} [Field K] [LinearOrder K] [IsStrictOrderedRing K] (A : Arith K)

theorem rnd_nat_pos {n : Nat} (h : 1 ≤ n) : 0 < A.rnd (n : K) := by
  have := A.mono 1 (n : K) (by exact_mod_cast h)
  rw [A.one] at this
  linarith

/-- The points of `linspace(lo, hi, n + 1)`. -/
def gridK (lo hi : K) (n k : Nat) : K :=
  if k = n then hi else A.rnd (A.rnd (A.rnd (k : K) * A.rnd (A.rnd (hi - lo) / A.rnd (n : K))) + lo)

theorem linspace_eq (lo hi : K) {n : Nat} (hn : 1 ≤ n) :
    linspace A (.fin lo) (.fin hi) (n + 1) = (List.range (n + 1)).map fun k => .fin (gridK A lo hi n k) := by
  unfold linspace gridK
  refine List.map_congr_left fun k hk => ?_
  have h0 : A.rnd (n : K) ≠ 0 := (rnd_nat_pos A hn).ne'
  by_cases h : k = n
  · rw [if_pos ⟨by omega, by omega⟩, if_pos h]
  · rw [if_neg (fun hc => h (by omega)), if_neg h]
    simp only [Nat.add_sub_cancel, Arith.sub, Fl.neg, Arith.add, Arith.div, if_neg h0, Arith.mul, ← sub_eq_add_neg]

theorem gridK_step {lo hi : K} {n : Nat} (hlh : lo ≤ hi) : 0 ≤ A.rnd (A.rnd (hi - lo) / A.rnd (n : K)) :=
  rnd_nonneg A (div_nonneg (rnd_nonneg A (by linarith)) (rnd_nonneg A (Nat.cast_nonneg n)))

theorem gridK_mono {lo hi : K} {n : Nat} (hlh : lo ≤ hi) (hlast : gridK A lo hi n (n - 1) ≤ hi) {a b : Nat} (hab : a ≤ b) (hb : b ≤ n) :
    gridK A lo hi n a ≤ gridK A lo hi n b := by
  have hstep := gridK_step A (n := n) hlh
  have inner : ∀ {a b : Nat}, a ≤ b → b < n → gridK A lo hi n a ≤ gridK A lo hi n b := by
    intro a b h1 h2
    unfold gridK
    rw [if_neg (by omega), if_neg (by omega)]
    refine A.mono _ _ (by
      have := A.mono _ _ (mul_le_mul_of_nonneg_right (A.mono (a : K) b (by exact_mod_cast h1)) hstep)
      linarith)
  rcases Nat.lt_or_ge b n with h | h
  · exact inner hab h
  · have hbn : b = n := by omega
    subst hbn
    rcases Nat.lt_or_ge a b with h' | h'
    · refine (inner (show a ≤ b - 1 by omega) (by omega)).trans ?_
      refine hlast.trans ?_
      unfold gridK
      rw [if_pos rfl]
    · have : a = b := by omega
      rw [this]

theorem gridK_zero {lo hi : K} {n : Nat} (hn : 1 ≤ n) (hlo : A.rnd lo = lo) : gridK A lo hi n 0 = lo := by
  unfold gridK
  rw [if_neg (by omega)]
  simp [A.zero, hlo]

theorem gridK_last (lo hi : K) (n : Nat) : gridK A lo hi n n = hi := if_pos rfl

/-- With a relative rounding error of at most 1/8000 the last but one of 1000 points does not pass the last one. -/
theorem gridK_rel {lo hi : K} (hlh : lo ≤ hi) (hhi : A.rnd hi = hi) {ε : K} (hε : ε ≤ 1 / 8000) (hrel : ∀ x, |A.rnd x - x| ≤ ε * |x|) :
    gridK A lo hi 999 (999 - 1) ≤ hi := by
  have he0 : 0 ≤ ε := by
    have := hrel 1
    rw [abs_one, mul_one] at this
    exact (abs_nonneg _).trans this
  have up : ∀ x, 0 ≤ x → A.rnd x ≤ (1 + ε) * x := fun x hx => by
    have := (abs_le.1 (hrel x)).2
    rw [abs_of_nonneg hx] at this
    linarith
  have down : ∀ x, 0 ≤ x → (1 - ε) * x ≤ A.rnd x := fun x hx => by
    have := (abs_le.1 (hrel x)).1
    rw [abs_of_nonneg hx] at this
    linarith
  unfold gridK
  rw [if_neg (by norm_num)]
  have h999 : (1 - ε) * 999 ≤ A.rnd ((999 : Nat) : K) := by
    have := down ((999 : Nat) : K) (by positivity)
    push_cast at this ⊢
    exact this
  have h998 : A.rnd ((999 - 1 : Nat) : K) ≤ (1 + ε) * 998 := by
    have := up ((999 - 1 : Nat) : K) (by positivity)
    norm_num at this ⊢
    exact this
  have hd0 : 0 ≤ hi - lo := by linarith
  have hd := up (hi - lo) hd0
  have hd1 := rnd_nonneg A hd0
  have hden : 0 < (1 - ε) * 999 := by nlinarith
  have hq : A.rnd (hi - lo) / A.rnd ((999 : Nat) : K) ≤ (1 + ε) * (hi - lo) / ((1 - ε) * 999) :=
    div_le_div₀ (by positivity) hd hden h999
  have hq0 : 0 ≤ A.rnd (hi - lo) / A.rnd ((999 : Nat) : K) := div_nonneg hd1 (hden.le.trans h999)
  have hs := (up _ hq0).trans (mul_le_mul_of_nonneg_left hq (by linarith))
  have hs0 := rnd_nonneg A hq0
  have hm : A.rnd ((999 - 1 : Nat) : K) * A.rnd (A.rnd (hi - lo) / A.rnd ((999 : Nat) : K)) ≤
      ((1 + ε) * 998) * ((1 + ε) * ((1 + ε) * (hi - lo) / ((1 - ε) * 999))) :=
    mul_le_mul h998 hs hs0 (by nlinarith)
  have hm0 : 0 ≤ A.rnd ((999 - 1 : Nat) : K) * A.rnd (A.rnd (hi - lo) / A.rnd ((999 : Nat) : K)) :=
    mul_nonneg (rnd_nonneg A (by positivity)) hs0
  have ht := (up _ hm0).trans (mul_le_mul_of_nonneg_left hm (by linarith))
  have hfin : (1 + ε) * (((1 + ε) * 998) * ((1 + ε) * ((1 + ε) * (hi - lo) / ((1 - ε) * 999)))) ≤ hi - lo := by
    have e1 : (1 + ε) * (((1 + ε) * 998) * ((1 + ε) * ((1 + ε) * (hi - lo) / ((1 - ε) * 999)))) =
        ((1 + ε) ^ 4 * 998) * (hi - lo) / ((1 - ε) * 999) := by ring
    rw [e1, div_le_iff₀ hden, mul_comm (hi - lo)]
    refine mul_le_mul_of_nonneg_right ?_ hd0
    have p1 : (1 + ε) ^ 2 ≤ 1 + 3 * ε := by nlinarith
    have p2 : (1 + ε) ^ 4 ≤ (1 + 3 * ε) ^ 2 := by
      have : (1 + ε) ^ 4 = ((1 + ε) ^ 2) ^ 2 := by ring
      rw [this]
      exact pow_le_pow_left₀ (by positivity) p1 2
    have p3 : (1 + 3 * ε) ^ 2 ≤ 1 + 67 / 10 * ε := by nlinarith
    nlinarith
  calc A.rnd (A.rnd (A.rnd ((999 - 1 : Nat) : K) * A.rnd (A.rnd (hi - lo) / A.rnd ((999 : Nat) : K))) + lo) ≤ A.rnd hi :=
        A.mono _ _ (by linarith)
    _ = hi := hhi

/-- `cdfOf` of finite densities. -/
theorem cdfOf_eq {n : Nat} {d : Nat → K} (hpos : 0 < csum A d n) :
    cdfOf A ((List.range (n + 1)).map fun k => Fl.fin (d k)) = (List.range (n + 1)).map fun k => .fin (A.rnd (csum A d k / csum A d n)) := by
  have hget : ∀ k, k ≤ n → ((List.range (n + 1)).map fun k => Fl.fin (d k)).getD k .nan = .fin (d k) := by
    intro k hk
    rw [List.getD_eq_getElem?_getD, List.getElem?_map, List.getElem?_range (by omega)]
    rfl
  have hc := cumsum_fin A (p := fun i => ((List.range (n + 1)).map fun k => Fl.fin (d k)).getD i .nan) (x := d) (n := n) hget
  unfold cdfOf
  simp only [List.length_map, List.length_range, List.map_map]
  have hlast : (((List.range (n + 1)).map fun k => cumsum A (fun i => ((List.range (n + 1)).map fun k => Fl.fin (d k)).getD i .nan) k).getLast?.getD .nan) =
      .fin (csum A d n) := by
    rw [List.range_succ, List.map_append, List.map_cons, List.map_nil, List.getLast?_append]
    simp only [List.getLast?_singleton, Option.some_or, Option.getD_some]
    rw [← List.range_succ]
    exact hc n le_rfl
  refine List.map_congr_left fun k hk => ?_
  rw [List.mem_range] at hk
  simp only [Function.comp]
  rw [hlast, hc k (by omega)]
  simp only [Arith.div, if_neg hpos.ne']

/-- The percentiles of a finite non-negative density with positive total are grid points, in the order of the fractions. -/
theorem percentile_index {n : Nat} {d : Nat → K} (h0 : A.rnd (d 0) = d 0) (hd : ∀ k, k ≤ n → 0 ≤ d k) (hpos : 0 < csum A d n) :
    ∃ ix : K → Nat, (∀ p, p ≤ 1 → ix p ≤ n) ∧ (∀ p q, p ≤ q → ix p ≤ ix q) ∧
      ∀ (grid : List (Fl K)) (p : K), percentileFromCdf (cdfOf A ((List.range (n + 1)).map fun k => Fl.fin (d k))) grid p = grid[ix p]? := by
  rw [cdfOf_eq A hpos]
  have hkey : ∀ p m, m ≤ n → (Fl.npLt (((List.range (n + 1)).map fun k => Fl.fin (A.rnd (csum A d k / csum A d n))).getD m .nan) (.fin p) = true ↔
      A.rnd (csum A d m / csum A d n) < p) := by
    intro p m hm
    rw [List.getD_eq_getElem?_getD, List.getElem?_map, List.getElem?_range (by omega)]
    simp [Fl.npLt, Fl.lt, Fl.isNan]
  have hmono : ∀ a b, a ≤ b → b ≤ n → A.rnd (csum A d a / csum A d n) ≤ A.rnd (csum A d b / csum A d n) := fun a b hab hb =>
    A.mono _ _ (div_le_div_of_nonneg_right (csum_mono A h0 hd hab hb) hpos.le)
  have hspec := fun p => searchSorted_spec (fun m => Fl.npLt (((List.range (n + 1)).map fun k => Fl.fin (A.rnd (csum A d k / csum A d n))).getD m .nan) (.fin p))
    (n + 1) (fun a b hab hb hh => (hkey p a (by omega)).2 (lt_of_le_of_lt (hmono a b hab (by omega)) ((hkey p b (by omega)).1 hh)))
  refine ⟨fun p => searchSorted (fun m => Fl.npLt (((List.range (n + 1)).map fun k => Fl.fin (A.rnd (csum A d k / csum A d n))).getD m .nan) (.fin p)) (n + 1),
    ?_, ?_, fun grid p => by unfold percentileFromCdf; simp only [List.length_map, List.length_range]⟩
  · intro p hp
    by_contra hc
    have h1 := (hkey p n le_rfl).1 ((hspec p).2.1 n (not_le.1 hc))
    rw [div_self hpos.ne', A.one] at h1
    exact absurd hp (not_le.2 h1)
  · intro p q hpq
    by_contra hc
    simp only [not_le] at hc
    have b1 := (hspec p).1
    have h1 := (hkey p _ (by omega)).1 ((hspec p).2.1 _ hc)
    have h2 := (hspec q).2.2 _ le_rfl (by omega)
    have h3 := (hkey q _ (by omega)).2 (lt_of_lt_of_le h1 hpq)
    rw [h3] at h2
    exact absurd h2 (by simp)

theorem usedTimes_mem {l : List (Fl K)} {x : K} : Fl.fin x ∈ usedTimes l ↔ Fl.fin x ∈ l ∧ x ≠ 0 := by
  unfold usedTimes
  rw [List.mem_filter]
  simp [Fl.eq, Fl.isNan]

end Dorado
