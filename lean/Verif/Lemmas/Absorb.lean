import Mathlib.Topology.Algebra.InfiniteSum.ENNReal
import Mathlib.Topology.Instances.ENNReal.Lemmas
import Mathlib.Analysis.SpecificLimits.Basic
import Mathlib.Algebra.BigOperators.Fin
import Mathlib.Logic.Equiv.Fin.Basic
import Mathlib.Logic.Relation

/-! Absorption of a Markov chain on countably many states. -/

set_option linter.unusedSectionVars false

namespace Dorado

variable {α : Type}

open Classical in
/-- Probability that a chain with transition probabilities `w` that starts at `p` is outside `S` after `n` steps. -/
noncomputable def stay (w : α → α → ENNReal) (S : α → Prop) : Nat → α → ENNReal
  | 0, p => if S p then 0 else 1
  | n + 1, p => ∑' q, w p q * stay w S n q

/-- From `p` the set `S` can be reached in at most `n` steps. -/
inductive Gets (w : α → α → ENNReal) (S : α → Prop) : Nat → α → Prop
  | here {n : Nat} {p : α} (h : S p) : Gets w S n p
  | move {n : Nat} {p q : α} (h : 0 < w p q) (hq : Gets w S n q) : Gets w S (n + 1) p

variable {w : α → α → ENNReal} {S I : α → Prop}

/-- `w` are transition probabilities of a chain in `I`, absorbed in `S`. -/
structure Chain (w : α → α → ENNReal) (S I : α → Prop) : Prop where
  sum : ∀ p, I p → ∑' q, w p q = 1
  inside : ∀ p q, I p → ¬ I q → w p q = 0
  stops : ∀ p q, I p → S p → q ≠ p → w p q = 0

theorem Chain.le_one (h : Chain w S I) (n : Nat) : ∀ {p : α}, I p → stay w S n p ≤ 1 := by
  induction n with
  | zero =>
    intro p _
    unfold stay
    split_ifs <;> simp
  | succ n ih =>
    intro p hp
    unfold stay
    rw [← h.sum p hp]
    refine ENNReal.tsum_le_tsum fun q => ?_
    by_cases hq : I q
    · exact mul_le_of_le_one_right zero_le (ih hq)
    · rw [h.inside p q hp hq, zero_mul]

theorem Chain.zero (h : Chain w S I) (n : Nat) {p : α} (hp : I p) (hs : S p) : stay w S n p = 0 := by
  induction n with
  | zero => unfold stay; rw [if_pos hs]
  | succ n ih =>
    unfold stay
    rw [ENNReal.tsum_eq_zero]
    intro q
    by_cases hq : q = p
    · rw [hq, ih, mul_zero]
    · rw [h.stops p q hp hs hq, zero_mul]

theorem Chain.succ_le (h : Chain w S I) (n : Nat) : ∀ {p : α}, I p → stay w S (n + 1) p ≤ stay w S n p := by
  induction n with
  | zero =>
    intro p hp
    by_cases hs : S p
    · rw [h.zero 1 hp hs]; exact zero_le
    · refine (h.le_one 1 hp).trans ?_
      unfold stay
      rw [if_neg hs]
  | succ n ih =>
    intro p hp
    rw [stay, stay]
    refine ENNReal.tsum_le_tsum fun q => ?_
    by_cases hq : I q
    · exact mul_le_mul_right (ih hq) _
    · rw [h.inside p q hp hq, zero_mul, zero_mul]

theorem Chain.antitone (h : Chain w S I) {p : α} (hp : I p) : Antitone fun n => stay w S n p :=
  antitone_nat_of_succ_le fun n => h.succ_le n hp

theorem Gets.mono {n m : Nat} (hnm : n ≤ m) {p : α} (h : Gets w S n p) : Gets w S m p := by
  induction h generalizing m with
  | here h => exact .here h
  | move h _ ih =>
    obtain ⟨m, rfl⟩ : ∃ k, m = k + 1 := ⟨m - 1, by omega⟩
    exact .move h (ih (by omega))

theorem Chain.lt_one (h : Chain w S I) {n : Nat} {p : α} (hp : I p) (hg : Gets w S n p) : stay w S n p < 1 := by
  induction hg with
  | here hs => rw [h.zero _ hp hs]; exact zero_lt_one
  | @move n p q hw hq ih =>
    have hIq : I q := by
      by_contra hc
      rw [h.inside p q hp hc] at hw
      exact lt_irrefl _ hw
    have hle : ∀ q, w p q * stay w S n q ≤ w p q := by
      intro q
      by_cases hq : I q
      · exact mul_le_of_le_one_right zero_le (h.le_one n hq)
      · rw [h.inside p q hp hq, zero_mul]
    have hfin : w p q ≠ ⊤ := by
      have : w p q ≤ 1 := by rw [← h.sum p hp]; exact ENNReal.le_tsum q
      exact (this.trans_lt ENNReal.one_lt_top).ne
    rw [stay, ← h.sum p hp]
    refine ENNReal.tsum_lt_tsum ?_ hle ?_ (i := q)
    · exact ((ENNReal.tsum_le_tsum hle).trans_lt (by rw [h.sum p hp]; exact ENNReal.one_lt_top)).ne
    · calc w p q * stay w S n q < w p q * 1 := ENNReal.mul_lt_mul_right hw.ne' hfin (ih hIq)
        _ = w p q := mul_one _

theorem Chain.trapped (h : Chain w S I) (n : Nat) : ∀ {p : α}, I p → (∀ k, ¬ Gets w S k p) → stay w S n p = 1 := by
  induction n with
  | zero =>
    intro p _ hn
    unfold stay
    rw [if_neg fun hs => hn 0 (.here hs)]
  | succ n ih =>
    intro p hp hn
    rw [stay, ← h.sum p hp]
    refine tsum_congr fun q => ?_
    by_cases hq : I q
    · rcases eq_or_ne (w p q) 0 with h0 | h0
      · rw [h0, zero_mul]
      · rw [ih hq fun k hk => hn (k + 1) (.move (pos_iff_ne_zero.2 h0) hk), mul_one]
    · rw [h.inside p q hp hq, zero_mul]

theorem Chain.decay (h : Chain w S I) {L : Nat} {ρ : ENNReal} (hρ : ∀ p, I p → stay w S L p ≤ ρ) (m : Nat) :
    ∀ {p : α}, I p → stay w S (m + L) p ≤ ρ * stay w S m p := by
  induction m with
  | zero =>
    intro p hp
    rw [Nat.zero_add]
    by_cases hs : S p
    · rw [h.zero L hp hs]; exact zero_le
    · have : stay w S 0 p = 1 := by unfold stay; rw [if_neg hs]
      rw [this, mul_one]
      exact hρ p hp
  | succ m ih =>
    intro p hp
    rw [show m + 1 + L = m + L + 1 by omega, stay, stay, ← ENNReal.tsum_mul_left]
    refine ENNReal.tsum_le_tsum fun q => ?_
    by_cases hq : I q
    · calc w p q * stay w S (m + L) q ≤ w p q * (ρ * stay w S m q) := mul_le_mul_right (ih hq) _
        _ = ρ * (w p q * stay w S m q) := by ring
    · rw [h.inside p q hp hq, zero_mul, zero_mul, mul_zero]

theorem Chain.pow (h : Chain w S I) {L : Nat} {ρ : ENNReal} (hρ : ∀ p, I p → stay w S L p ≤ ρ) (n : Nat) {p : α} (hp : I p) :
    stay w S (n * L) p ≤ ρ ^ n := by
  induction n with
  | zero => simpa using h.le_one _ hp
  | succ n ih =>
    rw [Nat.succ_mul, pow_succ']
    exact (h.decay hρ _ hp).trans (mul_le_mul_right ih _)

/-- In a finite chain from whose every state `S` can be reached, the probability of being outside `S` decays geometrically, at the same rate everywhere. -/
theorem Chain.rate (h : Chain w S I) (hfin : {p | I p}.Finite) (hg : ∀ p, I p → ∃ n, Gets w S n p) :
    ∃ (L : Nat) (ρ : NNReal), 0 < L ∧ ρ < 1 ∧ ∀ n p, I p → stay w S n p ≤ ENNReal.ofNNReal ρ ^ (n / L) := by
  classical
  choose! k hk using hg
  let L := hfin.toFinset.sup k + 1
  have hL : ∀ p, I p → Gets w S L p := fun p hp =>
    (hk p hp).mono ((Finset.le_sup (f := k) (hfin.mem_toFinset.2 hp)).trans (Nat.le_succ _))
  let ρ : ENNReal := hfin.toFinset.sup fun p => stay w S L p
  have h1 : ρ < 1 := by
    rw [Finset.sup_lt_iff (by simp)]
    exact fun p hp => h.lt_one (hfin.mem_toFinset.1 hp) (hL p (hfin.mem_toFinset.1 hp))
  have h2 : ∀ p, I p → stay w S L p ≤ ρ := fun p hp => Finset.le_sup (f := fun p => stay w S L p) (hfin.mem_toFinset.2 hp)
  have h3 : ((ρ.toNNReal : NNReal) : ENNReal) = ρ := ENNReal.coe_toNNReal (h1.trans ENNReal.one_lt_top).ne
  refine ⟨L, ρ.toNNReal, Nat.succ_pos _, ?_, fun n p hp => ?_⟩
  · rw [← ENNReal.coe_lt_coe, h3]
    exact h1
  · rw [h3]
    refine (h.antitone hp (Nat.div_mul_le_self n L)).trans ?_
    exact h.pow h2 _ hp

/-- If a state from which `S` cannot be reached is on the way, the chain stays outside `S` with a probability bounded from below. -/
theorem Chain.lower (h : Chain w S I) {p q : α} (hp : I p) (hr : Relation.ReflTransGen (fun a b => 0 < w a b) p q) (hn : ∀ k, ¬ Gets w S k q) :
    ∃ c : ENNReal, 0 < c ∧ ∀ n, c ≤ stay w S n p := by
  induction hr using Relation.ReflTransGen.head_induction_on with
  | refl => exact ⟨1, zero_lt_one, fun n => (h.trapped n hp hn).ge⟩
  | @head a b hab _ ih =>
    have hb : I b := by
      by_contra hc
      rw [h.inside a b hp hc] at hab
      exact lt_irrefl _ hab
    obtain ⟨c, hc, hle⟩ := ih hb
    have key : ∀ n, w a b * c ≤ stay w S (n + 1) a := fun n => by
      rw [stay]
      exact (mul_le_mul_right (hle n) _).trans (ENNReal.le_tsum (f := fun q => w a q * stay w S n q) b)
    refine ⟨w a b * c, ENNReal.mul_pos hab.ne' hc.ne', fun n => ?_⟩
    cases n with
    | zero => exact (key 0).trans (h.succ_le 0 hp)
    | succ n => exact key n

theorem Gets.of_path {p q : α} (hr : Relation.ReflTransGen (fun a b => 0 < w a b) p q) (hq : S q) : ∃ n, Gets w S n p := by
  induction hr using Relation.ReflTransGen.head_induction_on with
  | refl => exact ⟨0, .here hq⟩
  | head h _ ih =>
    obtain ⟨n, hn⟩ := ih
    exact ⟨n + 1, .move h hn⟩

theorem Gets.path {n : Nat} {p : α} (h : Gets w S n p) : ∃ q, Relation.ReflTransGen (fun a b => 0 < w a b) p q ∧ S q := by
  induction h with
  | here h => exact ⟨_, .refl, h⟩
  | move h _ ih =>
    obtain ⟨q, h1, h2⟩ := ih
    exact ⟨q, .head h h1, h2⟩

/-- The bound summed over all `n`. -/
theorem geometric_blocks {L : Nat} (hL : 0 < L) (ρ : ENNReal) : ∑' n : Nat, ρ ^ (n / L) = L * (1 - ρ)⁻¹ := by
  have : NeZero L := ⟨hL.ne'⟩
  rw [← (Nat.divModEquiv L).symm.tsum_eq, ENNReal.tsum_prod']
  have e : ∀ (a : Nat) (b : Fin L), ρ ^ ((Nat.divModEquiv L).symm (a, b) / L) = ρ ^ a := by
    intro a b
    congr 1
    simp only [Nat.divModEquiv_symm_apply]
    rw [Nat.add_comm, Nat.add_mul_div_right _ _ hL, Nat.div_eq_of_lt b.2, Nat.zero_add]
  simp only [e, tsum_fintype, Finset.sum_const, Finset.card_univ, Fintype.card_fin, nsmul_eq_mul]
  rw [ENNReal.tsum_mul_left, ENNReal.tsum_geometric]

/-- Sum over the paths of `n` steps. -/
theorem stay_paths (n : Nat) : ∀ p : α, ∑' q : Fin n → α, (∏ j, w (Fin.cons (α := fun _ => α) p q j.castSucc) (q j)) *
    stay w S 0 (Fin.cons (α := fun _ => α) p q (Fin.last n)) = stay w S n p := by
  induction n with
  | zero => intro p; simp
  | succ n ih =>
    intro p
    rw [← (Fin.consEquiv fun _ => α).tsum_eq, ENNReal.tsum_prod']
    rw [stay]
    refine tsum_congr fun q0 => ?_
    rw [← ih q0, ← ENNReal.tsum_mul_left]
    refine tsum_congr fun q => ?_
    rw [Fin.prod_univ_succ, mul_assoc]
    rfl

end Dorado
