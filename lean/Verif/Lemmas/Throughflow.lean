import Verif.Lemmas.Outlet

/-! Forward equations of an absorbed Markov chain. -/

set_option linter.unusedSectionVars false

namespace Dorado

open Finset

variable {α : Type} {w : α → α → ENNReal} {S I : α → Prop} {J : Finset α}

/-- Probability of being at `c` after `n` steps from `p`. -/
noncomputable def atProb (w : α → α → ENNReal) (n : Nat) (p c : α) : ℝ := (stay w (fun q => q ≠ c) n p).toReal

theorem atProb_nonneg (n : Nat) (p c : α) : 0 ≤ atProb w n p c := ENNReal.toReal_nonneg

open Classical in
theorem atProb_zero (p c : α) : atProb w 0 p c = if p = c then 1 else 0 := by
  unfold atProb stay
  by_cases h : p = c <;> simp [h]

open Classical in
theorem Chain.atProb_gains (h : Chain w S I) (hJ : ∀ p, p ∈ J ↔ I p) (n : Nat) {p : α} (hp : I p) (c : α) :
    atProb w n p c = gains w J (fun _ _ => 0) (fun q => if q ≠ c then 0 else 1) n p := by
  refine (h.stay_gains hJ (fun q => q ≠ c) n hp).2.trans ?_
  congr 1
  funext q
  congr
theorem Chain.atProb_succ (h : Chain w S I) (hJ : ∀ p, p ∈ J ↔ I p) (n : Nat) {p : α} (hp : I p) (c : α) :
    atProb w (n + 1) p c = ∑ q ∈ J, (w p q).toReal * atProb w n q c := by
  rw [h.atProb_gains hJ (n + 1) hp c, gains]
  refine sum_congr rfl fun q hq => ?_
  rw [h.atProb_gains hJ n ((hJ q).1 hq) c, zero_add]

/-- The last step instead of the first. -/
theorem Chain.atProb_last (h : Chain w S I) (hJ : ∀ p, p ∈ J ↔ I p) (n : Nat) : ∀ {p : α}, I p → ∀ c,
    atProb w (n + 1) p c = ∑ q ∈ J, atProb w n p q * (w q c).toReal := by
  classical
  induction n with
  | zero =>
    intro p hp c
    rw [h.atProb_succ hJ 0 hp c]
    simp only [atProb_zero, mul_ite, mul_one, mul_zero, ite_mul, one_mul, zero_mul]
    rw [sum_ite_eq', sum_ite_eq, if_pos ((hJ p).2 hp)]
    split_ifs with hc
    · rfl
    · rw [h.inside p c hp fun hi => hc ((hJ c).2 hi), ENNReal.toReal_zero]
  | succ n ih =>
    intro p hp c
    rw [h.atProb_succ hJ (n + 1) hp c]
    have e1 : ∀ q ∈ J, (w p q).toReal * atProb w (n + 1) q c = ∑ q' ∈ J, (w p q).toReal * (atProb w n q q' * (w q' c).toReal) := fun q hq => by
      rw [ih ((hJ q).1 hq) c, mul_sum]
    rw [sum_congr rfl e1, sum_comm]
    refine sum_congr rfl fun q' _ => ?_
    rw [h.atProb_succ hJ n hp q', sum_mul]
    exact sum_congr rfl fun q _ => by ring

theorem Chain.atProb_out (h : Chain w S I) (hJ : ∀ p, p ∈ J ↔ I p) (n : Nat) {p : α} (hp : I p) {c : α} (hc : ¬ I c) : atProb w n p c = 0 := by
  classical
  cases n with
  | zero => rw [atProb_zero, if_neg]; rintro rfl; exact hc hp
  | succ n =>
    rw [h.atProb_last hJ n hp c]
    refine sum_eq_zero fun q hq => ?_
    rw [h.inside q c ((hJ q).1 hq) hc, ENNReal.toReal_zero, mul_zero]

theorem Chain.atProb_sum (h : Chain w S I) (hJ : ∀ p, p ∈ J ↔ I p) (n : Nat) : ∀ {p : α}, I p → ∑ c ∈ J, atProb w n p c = 1 := by
  classical
  induction n with
  | zero =>
    intro p hp
    simp only [atProb_zero]
    rw [sum_ite_eq, if_pos ((hJ p).2 hp)]
  | succ n ih =>
    intro p hp
    rw [sum_congr rfl fun c _ => h.atProb_succ hJ n hp c, sum_comm, ← h.sum_real hJ hp]
    refine sum_congr rfl fun q hq => ?_
    rw [← mul_sum, ih ((hJ q).1 hq), mul_one]

/-- Only what is not in `S` moves on. -/
theorem Chain.forward (h : Chain w S I) (hJ : ∀ p, p ∈ J ↔ I p) {c : α} (hc : I c) (f : α → ℝ) [DecidablePred S] :
    ∑ q ∈ J, f q * (w q c).toReal = (if S c then f c else 0) + ∑ q ∈ J, if S q then 0 else f q * (w q c).toReal := by
  classical
  have hs : ∀ q ∈ J, f q * (w q c).toReal = (if q = c then (if S c then f c else 0) else 0) + if S q then 0 else f q * (w q c).toReal := by
    intro q hq
    by_cases hq' : S q
    · rw [if_pos hq', add_zero]
      by_cases e : q = c
      · subst e
        rw [if_pos rfl, if_pos hq']
        have h1 := h.stop_real hJ hc hq' fun x => if x = q then (1 : ℝ) else 0
        simp only [mul_ite, mul_one, mul_zero, if_true] at h1
        rw [sum_ite_eq', if_pos hq] at h1
        rw [h1, mul_one]
      · rw [if_neg e, h.stops q c ((hJ q).1 hq) hq' (Ne.symm e), ENNReal.toReal_zero, mul_zero]
    · rw [if_neg hq']
      by_cases e : q = c
      · subst e
        rw [if_pos rfl, if_neg hq', zero_add]
      · rw [if_neg e, zero_add]
  rw [sum_congr rfl hs, sum_add_distrib, sum_ite_eq', if_pos ((hJ c).2 hc)]

/-- Expected number of steps that start at `c`. -/
theorem Chain.visits (h : Chain w S I) (hJ : ∀ p, p ∈ J ↔ I p) (hg : ∀ p, I p → ∃ n, Gets w S n p) {c : α} (hc : ¬ S c) {p : α} (hp : I p) :
    Summable fun n => atProb w n p c := by
  classical
  have hgain : ∀ n, ∀ {p : α}, I p → gains w J (fun p _ => if p = c then 1 else 0) (fun _ => 0) n p = ∑ m ∈ range n, atProb w m p c := by
    intro n
    induction n with
    | zero => intro p _; rfl
    | succ n ih =>
      intro p hp
      rw [gains, sum_range_succ', atProb_zero]
      have e : ∀ q ∈ J, (w p q).toReal * ((if p = c then 1 else 0) + gains w J (fun p _ => if p = c then (1 : ℝ) else 0) (fun _ => 0) n q) =
          (w p q).toReal * (if p = c then 1 else 0) + ∑ m ∈ range n, (w p q).toReal * atProb w m q c := fun q hq => by
        rw [ih ((hJ q).1 hq), mul_add, mul_sum]
      rw [sum_congr rfl e, sum_add_distrib, ← sum_mul, h.sum_real hJ hp, one_mul, add_comm, sum_comm]
      congr 1
      exact sum_congr rfl fun m _ => (h.atProb_succ hJ m hp c).symm
  obtain ⟨V, hV⟩ := h.solution hJ hg (fun p _ => if p = c then 1 else 0) fun _ => 0
  have hl := h.gains_tendsto hJ hg (fun p _ hs => if_neg fun e : p = c => hc (e ▸ hs)) hV hp
  simp only [hgain _ hp] at hl
  exact ((hasSum_iff_tendsto_nat_of_nonneg (fun n => atProb_nonneg n p c) _).2 hl).summable

/-- The forward equations have no other solution. -/
theorem Chain.forward_unique (h : Chain w S I) (hJ : ∀ p, p ∈ J ↔ I p) (hg : ∀ p, I p → ∃ n, Gets w S n p) [DecidablePred S] {W : α → ℝ}
    (hW : ∀ c, I c → ¬ S c → W c = ∑ q ∈ J, if S q then 0 else W q * (w q c).toReal) {c : α} (hc : I c) (hs : ¬ S c) : W c = 0 := by
  classical
  have key : ∀ n, ∀ c, I c → ¬ S c → W c = ∑ q ∈ J, if S q then 0 else W q * atProb w n q c := by
    intro n
    induction n with
    | zero =>
      intro c hc hs
      have e : ∀ q ∈ J, (if S q then 0 else W q * atProb w 0 q c) = if q = c then W c else 0 := by
        intro q _
        rw [atProb_zero]
        by_cases e : q = c
        · subst e
          simp [hs]
        · simp [e]
      rw [sum_congr rfl e, sum_ite_eq', if_pos ((hJ c).2 hc)]
    | succ n ih =>
      intro c hc hs
      have e1 : ∀ q ∈ J, (if S q then 0 else W q * atProb w (n + 1) q c) = ∑ q' ∈ J, if S q' then 0 else (if S q then 0 else W q * atProb w n q q') * (w q' c).toReal := by
        intro q hq
        by_cases hq' : S q
        · simp [hq']
        · rw [if_neg hq', h.atProb_last hJ n ((hJ q).1 hq) c, h.forward hJ hc, if_neg hs, zero_add, mul_sum]
          refine sum_congr rfl fun q' _ => ?_
          split_ifs
          · rw [mul_zero]
          · ring
      rw [sum_congr rfl e1, sum_comm, hW c hc hs]
      refine sum_congr rfl fun q' hq' => ?_
      by_cases hs' : S q'
      · simp [hs']
      · rw [if_neg hs', ih q' ((hJ q').1 hq') hs', sum_mul]
        refine sum_congr rfl fun q _ => ?_
        rw [if_neg hs']
  have hlim : Filter.Tendsto (fun n => ∑ q ∈ J, if S q then 0 else W q * atProb w n q c) Filter.atTop (nhds (∑ q ∈ J, 0)) := by
    refine tendsto_finsetSum _ fun q hq => ?_
    split_ifs
    · exact tendsto_const_nhds
    · simpa using (h.visits hJ hg hs ((hJ q).1 hq)).tendsto_atTop_zero.const_mul (W q)
  simp only [← key _ c hc hs] at hlim
  simpa using tendsto_nhds_unique tendsto_const_nhds hlim

end Dorado
