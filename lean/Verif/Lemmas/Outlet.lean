import Verif.Lemmas.Absorb
import Mathlib.LinearAlgebra.FiniteDimensional.Basic
import Mathlib.LinearAlgebra.FiniteDimensional.Lemmas
import Mathlib.Topology.Algebra.InfiniteSum.Real
import Mathlib.Analysis.Normed.Group.InfiniteSum
import Mathlib.Analysis.Normed.Module.FiniteDimension

/-! Expected gains of an absorbed Markov chain solve linear equations. -/

set_option linter.unusedSectionVars false

namespace Dorado

open Finset

variable {α : Type}

/-- Expected gain in `n` steps, with gain `r p q` for a step from `p` to `q` and a reward `v` for the last state; the chain stays in `J`. -/
noncomputable def gains (w : α → α → ENNReal) (J : Finset α) (r : α → α → ℝ) (v : α → ℝ) : Nat → α → ℝ
  | 0, p => v p
  | n + 1, p => ∑ q ∈ J, (w p q).toReal * (r p q + gains w J r v n q)

variable {w : α → α → ENNReal} {S I : α → Prop} {J : Finset α} {r : α → α → ℝ} {v V : α → ℝ}

theorem Chain.w_le (h : Chain w S I) {p : α} (hp : I p) (q : α) : w p q ≤ 1 := by
  rw [← h.sum p hp]
  exact ENNReal.le_tsum q

theorem Chain.w_ne_top (h : Chain w S I) {p : α} (hp : I p) (q : α) : w p q ≠ ⊤ := ((h.w_le hp q).trans_lt ENNReal.one_lt_top).ne

theorem Chain.sum_real (h : Chain w S I) (hJ : ∀ p, p ∈ J ↔ I p) {p : α} (hp : I p) : ∑ q ∈ J, (w p q).toReal = 1 := by
  have h1 : ∑ q ∈ J, w p q = 1 := by
    rw [← h.sum p hp, tsum_eq_sum fun q hq => h.inside p q hp fun hc => hq ((hJ q).2 hc)]
  rw [← ENNReal.toReal_sum fun q _ => h.w_ne_top hp q, h1, ENNReal.toReal_one]

/-- Steps from absorbing states. -/
theorem Chain.stop_real (h : Chain w S I) (hJ : ∀ p, p ∈ J ↔ I p) {p : α} (hp : I p) (hs : S p) (f : α → ℝ) : ∑ q ∈ J, (w p q).toReal * f q = f p := by
  have h1 := h.sum_real hJ hp
  have h0 : ∀ q ∈ J, q ≠ p → (w p q).toReal = 0 := fun q _ hq => by rw [h.stops p q hp hs hq, ENNReal.toReal_zero]
  rw [sum_eq_single_of_mem p ((hJ p).2 hp) h0] at h1
  rw [sum_eq_single_of_mem p ((hJ p).2 hp) fun q hq hne => by rw [h0 q hq hne, zero_mul], h1, one_mul]

open Classical in
/-- Probability of being outside a set `T`, as an expected reward. -/
theorem Chain.stay_gains (h : Chain w S I) (hJ : ∀ p, p ∈ J ↔ I p) (T : α → Prop) (n : Nat) : ∀ {p : α}, I p →
    stay w T n p ≠ ⊤ ∧ (stay w T n p).toReal = gains w J (fun _ _ => 0) (fun p => if T p then 0 else 1) n p := by
  induction n with
  | zero =>
    intro p _
    unfold stay gains
    split_ifs <;> simp
  | succ n ih =>
    intro p hp
    have e : stay w T (n + 1) p = ∑ q ∈ J, w p q * stay w T n q := by
      rw [stay, tsum_eq_sum fun q hq => by rw [h.inside p q hp fun hc => hq ((hJ q).2 hc), zero_mul]]
    have hne : ∀ q ∈ J, w p q * stay w T n q ≠ ⊤ := fun q hq => ENNReal.mul_ne_top (h.w_ne_top hp q) (ih ((hJ q).1 hq)).1
    rw [e]
    refine ⟨ENNReal.sum_ne_top.2 hne, ?_⟩
    rw [ENNReal.toReal_sum hne, gains]
    refine sum_congr rfl fun q hq => ?_
    rw [ENNReal.toReal_mul, (ih ((hJ q).1 hq)).2, zero_add]

/-- `V` solves the equations of the expected gains. -/
structure Solves (w : α → α → ENNReal) (S I : α → Prop) (J : Finset α) (r : α → α → ℝ) (v V : α → ℝ) : Prop where
  stop : ∀ p, I p → S p → V p = v p
  step : ∀ p, I p → ¬ S p → V p = ∑ q ∈ J, (w p q).toReal * (r p q + V q)

theorem Chain.solves_step (h : Chain w S I) (hJ : ∀ p, p ∈ J ↔ I p) (hr : ∀ p, I p → S p → r p p = 0) (hV : Solves w S I J r v V) {p : α} (hp : I p) :
    V p = ∑ q ∈ J, (w p q).toReal * (r p q + V q) := by
  by_cases hs : S p
  · rw [h.stop_real hJ hp hs fun q => r p q + V q, hr p hp hs, zero_add]
  · exact hV.step p hp hs

/-- How close a solution is to the expected gain in `n` steps. -/
theorem Chain.close (h : Chain w S I) (hJ : ∀ p, p ∈ J ↔ I p) (hr : ∀ p, I p → S p → r p p = 0) (hV : Solves w S I J r v V) {M : ℝ}
    (hM : ∀ p, I p → |V p - v p| ≤ M) (n : Nat) : ∀ {p : α}, I p → |V p - gains w J r v n p| ≤ M * (stay w S n p).toReal := by
  classical
  induction n with
  | zero =>
    intro p hp
    unfold gains stay
    by_cases hs : S p
    · rw [hV.stop p hp hs, if_pos hs]
      simp
    · rw [if_neg hs]
      simpa using hM p hp
  | succ n ih =>
    intro p hp
    rw [(h.stay_gains hJ S (n + 1) hp).2, h.solves_step hJ hr hV hp, gains, gains, ← sum_sub_distrib, mul_sum]
    refine (abs_sum_le_sum_abs _ _).trans (sum_le_sum fun q hq => ?_)
    rw [← mul_sub, abs_mul, abs_of_nonneg ENNReal.toReal_nonneg, add_sub_add_left_eq_sub, zero_add, ← mul_assoc, mul_comm M, mul_assoc]
    refine mul_le_mul_of_nonneg_left ?_ ENNReal.toReal_nonneg
    rw [← (h.stay_gains hJ S n ((hJ q).1 hq)).2]
    exact ih ((hJ q).1 hq)

/-- In a finite chain from whose every state `S` can be reached, the expected gains converge to any solution of the equations. -/
theorem Chain.gains_tendsto (h : Chain w S I) (hJ : ∀ p, p ∈ J ↔ I p) (hg : ∀ p, I p → ∃ n, Gets w S n p) (hr : ∀ p, I p → S p → r p p = 0)
    (hV : Solves w S I J r v V) {p : α} (hp : I p) : Filter.Tendsto (fun n => gains w J r v n p) Filter.atTop (nhds (V p)) := by
  have hfin : {p | I p}.Finite := J.finite_toSet.subset fun p hp => mem_coe.2 ((hJ p).2 hp)
  obtain ⟨L, ρ, hL, hρ, hb⟩ := h.rate hfin hg
  have hM : ∀ p, I p → |V p - v p| ≤ ∑ q ∈ J, |V q - v q| := fun p hp =>
    single_le_sum (f := fun q => |V q - v q|) (fun q _ => abs_nonneg _) ((hJ p).2 hp)
  rw [tendsto_iff_dist_tendsto_zero]
  have hlim : Filter.Tendsto (fun n : Nat => (∑ q ∈ J, |V q - v q|) * (ρ : ℝ) ^ (n / L)) Filter.atTop (nhds 0) := by
    have h1 : Filter.Tendsto (fun n : Nat => (ρ : ℝ) ^ (n / L)) Filter.atTop (nhds 0) :=
      (tendsto_pow_atTop_nhds_zero_of_lt_one ρ.2 (by exact_mod_cast hρ)).comp (Nat.tendsto_div_const_atTop hL.ne')
    simpa using h1.const_mul (∑ q ∈ J, |V q - v q|)
  refine squeeze_zero (fun n => dist_nonneg) (fun n => ?_) hlim
  rw [Real.dist_eq, abs_sub_comm]
  refine (h.close hJ hr hV hM n hp).trans (mul_le_mul_of_nonneg_left ?_ (sum_nonneg fun q _ => abs_nonneg _))
  have := ENNReal.toReal_mono (by simp) (hb n p hp)
  simpa using this

/-- The equations have a solution. -/
theorem Chain.solution (h : Chain w S I) (hJ : ∀ p, p ∈ J ↔ I p) (hg : ∀ p, I p → ∃ n, Gets w S n p) (r : α → α → ℝ) (v : α → ℝ) :
    ∃ V, Solves w S I J r v V := by
  classical
  let ext : (J → ℝ) →ₗ[ℝ] (α → ℝ) :=
    { toFun := fun U p => if hp : p ∈ J then U ⟨p, hp⟩ else 0
      map_add' := fun a b => by funext p; by_cases hp : p ∈ J <;> simp [hp]
      map_smul' := fun c a => by funext p; by_cases hp : p ∈ J <;> simp [hp] }
  have hext : ∀ (U : J → ℝ) (p : J), ext U p = U p := fun U p => dif_pos p.2
  let T : (J → ℝ) →ₗ[ℝ] (J → ℝ) :=
    { toFun := fun U p => if S p then U p else U p - ∑ q ∈ J, (w p q).toReal * ext U q
      map_add' := fun a b => by
        funext p
        by_cases hs : S p
        · simp [hs]
        · simp only [hs, if_false, Pi.add_apply, map_add, mul_add, sum_add_distrib]
          ring
      map_smul' := fun c a => by
        funext p
        by_cases hs : S p
        · simp [hs]
        · simp only [hs, if_false, Pi.smul_apply, map_smul, smul_eq_mul, RingHom.id_apply, mul_sub, mul_sum]
          congr 1
          exact sum_congr rfl fun q _ => by ring }
  have hT : ∀ (U : J → ℝ) (p : J), T U p = if S p then U p else U p - ∑ q ∈ J, (w p q).toReal * ext U q := fun _ _ => rfl
  have hinj : Function.Injective T := by
    rw [← LinearMap.ker_eq_bot, LinearMap.ker_eq_bot']
    intro U hU
    have hsol : Solves w S I J (fun _ _ => 0) (fun _ => 0) (ext U) := by
      constructor
      · intro p hp hs
        have := congrFun hU ⟨p, (hJ p).2 hp⟩
        rw [hT, if_pos hs] at this
        exact (hext U ⟨p, _⟩).trans this
      · intro p hp hs
        have := congrFun hU ⟨p, (hJ p).2 hp⟩
        rw [hT, if_neg hs] at this
        simp only [zero_add]
        exact (hext U ⟨p, _⟩).trans (sub_eq_zero.1 this)
    have hz : ∀ n p, gains w J (fun _ _ => (0 : ℝ)) (fun _ => 0) n p = 0 := by
      intro n
      induction n with
      | zero => intro p; rfl
      | succ n ih => intro p; simp [gains, ih]
    funext p
    have := h.gains_tendsto hJ hg (fun _ _ _ => rfl) hsol ((hJ p).1 p.2)
    simp only [hz] at this
    exact (hext U p).symm.trans (tendsto_nhds_unique this tendsto_const_nhds)
  obtain ⟨U, hU⟩ := LinearMap.injective_iff_surjective.1 hinj fun p => if S p then v p else ∑ q ∈ J, (w p q).toReal * r p q
  refine ⟨ext U, ?_, ?_⟩
  · intro p hp hs
    have := congrFun hU ⟨p, (hJ p).2 hp⟩
    rw [hT] at this
    simp only [if_pos hs] at this
    exact (hext U ⟨p, _⟩).trans this
  · intro p hp hs
    have := congrFun hU ⟨p, (hJ p).2 hp⟩
    rw [hT] at this
    simp only [if_neg hs] at this
    have h1 := hext U ⟨p, (hJ p).2 hp⟩
    simp only [mul_add, sum_add_distrib]
    linarith

/-- The probabilities of all paths of `n` steps. -/
theorem Chain.paths_one (h : Chain w S I) (n : Nat) {p : α} (hp : I p) :
    ∑' q : Fin n → α, ∏ j, w (Fin.cons (α := fun _ => α) p q j.castSucc) (q j) = 1 := by
  have hc : Chain w (fun _ => False) I := ⟨h.sum, h.inside, fun _ _ _ hs => hs.elim⟩
  have h1 := hc.trapped n hp fun k hk => by
    obtain ⟨_, _, hs⟩ := hk.path
    exact hs
  rw [← stay_paths n p] at h1
  rw [← h1]
  refine tsum_congr fun q => ?_
  simp [stay]

/-- The expected gain is a sum over paths. -/
theorem Chain.gains_paths (h : Chain w S I) (hJ : ∀ p, p ∈ J ↔ I p) {b : ℝ} (hb : ∀ p q, I p → I q → |r p q| ≤ b) (n : Nat) : ∀ {p : α}, I p →
    HasSum (fun q : Fin n → α => (∏ j, w (Fin.cons (α := fun _ => α) p q j.castSucc) (q j)).toReal *
      ∑ j, r (Fin.cons (α := fun _ => α) p q j.castSucc) (q j)) (gains w J r (fun _ => 0) n p) := by
  induction n with
  | zero =>
    intro p _
    have : (fun q : Fin 0 → α => (∏ j, w (Fin.cons (α := fun _ => α) p q j.castSucc) (q j)).toReal *
      ∑ j, r (Fin.cons (α := fun _ => α) p q j.castSucc) (q j)) = fun _ => 0 := by
      funext q
      simp
    rw [this]
    exact hasSum_zero
  | succ n ih =>
    intro p hp
    have hprob : ∀ (m : Nat) {p : α}, I p → HasSum (fun q : Fin m → α => (∏ j, w (Fin.cons (α := fun _ => α) p q j.castSucc) (q j)).toReal) 1 := by
      intro m p hp
      have h1 := h.paths_one m hp
      have h2 := ENNReal.hasSum_toReal (f := fun q : Fin m → α => ∏ j, w (Fin.cons (α := fun _ => α) p q j.castSucc) (q j)) (by rw [h1]; simp)
      have h3 := ENNReal.tsum_toReal_eq (f := fun q : Fin m → α => ∏ j, w (Fin.cons (α := fun _ => α) p q j.castSucc) (q j))
        (ENNReal.ne_top_of_tsum_ne_top (by rw [h1]; simp))
      rw [h1, ENNReal.toReal_one] at h3
      rwa [← h3] at h2
    set f : (Fin (n + 1) → α) → ℝ := fun q => (∏ j, w (Fin.cons (α := fun _ => α) p q j.castSucc) (q j)).toReal *
      ∑ j, r (Fin.cons (α := fun _ => α) p q j.castSucc) (q j) with hf
    have hcells : ∀ (m : Nat) {p : α}, I p → ∀ q : Fin m → α, ∏ j, w (Fin.cons (α := fun _ => α) p q j.castSucc) (q j) ≠ 0 →
        |∑ j, r (Fin.cons (α := fun _ => α) p q j.castSucc) (q j)| ≤ m * b := by
      intro m
      induction m with
      | zero => intro p _ q _; simp
      | succ m ihm =>
        intro p hp q hq
        rw [Fin.prod_univ_succ] at hq
        have hq0 : I (q 0) := by
          by_contra hc
          exact hq (by rw [show w (Fin.cons (α := fun _ => α) p q (Fin.castSucc 0)) (q 0) = 0 from h.inside p (q 0) hp hc, zero_mul])
        have hq' : ∏ j : Fin m, w (Fin.cons (α := fun _ => α) (q 0) (fun j : Fin m => q j.succ) j.castSucc) (q j.succ) ≠ 0 := by
          intro hc
          apply hq
          rw [mul_eq_zero]
          right
          rw [← hc]
          refine prod_congr rfl fun j _ => ?_
          congr 1
          obtain ⟨j, hj⟩ := j
          cases j <;> rfl
        have h1 := ihm hq0 (fun j => q j.succ) hq'
        rw [Fin.sum_univ_succ]
        have h2 : ∑ j : Fin m, r (Fin.cons (α := fun _ => α) p q j.succ.castSucc) (q j.succ) =
            ∑ j : Fin m, r (Fin.cons (α := fun _ => α) (q 0) (fun j : Fin m => q j.succ) j.castSucc) (q j.succ) := by
          refine sum_congr rfl fun j _ => ?_
          congr 1
          obtain ⟨j, hj⟩ := j
          cases j <;> rfl
        rw [h2]
        refine (abs_add_le _ _).trans ?_
        have h3 : |r (Fin.cons (α := fun _ => α) p q (Fin.castSucc 0)) (q 0)| ≤ b := hb _ _ hp hq0
        push_cast
        linarith
    have hs : Summable f := by
      refine Summable.of_norm_bounded (g := fun q => (∏ j, w (Fin.cons (α := fun _ => α) p q j.castSucc) (q j)).toReal * ((n + 1 : Nat) * b))
        ((hprob (n + 1) hp).summable.mul_right _) fun q => ?_
      rw [Real.norm_eq_abs, hf, abs_mul, abs_of_nonneg ENNReal.toReal_nonneg]
      rcases eq_or_ne (∏ j, w (Fin.cons (α := fun _ => α) p q j.castSucc) (q j)) 0 with h0 | h0
      · rw [h0]; simp
      · exact mul_le_mul_of_nonneg_left (hcells (n + 1) hp q h0) ENNReal.toReal_nonneg
    have hs2 : HasSum (fun x : α × (Fin n → α) => f (Fin.cons (α := fun _ => α) x.1 x.2)) (∑' q, f q) := by
      clear_value f
      let e : α × (Fin n → α) ≃ (Fin (n + 1) → α) := Fin.consEquiv fun _ => α
      exact (e.hasSum_iff (f := f)).2 hs.hasSum
    have hinner : ∀ q0, HasSum (fun q : Fin n → α => f (Fin.cons (α := fun _ => α) q0 q)) ((w p q0).toReal * (r p q0 + gains w J r (fun _ => 0) n q0)) := by
      intro q0
      have e : ∀ q : Fin n → α, f (Fin.cons (α := fun _ => α) q0 q) = (w p q0).toReal * (r p q0 *
          (∏ j, w (Fin.cons (α := fun _ => α) q0 q j.castSucc) (q j)).toReal + (∏ j, w (Fin.cons (α := fun _ => α) q0 q j.castSucc) (q j)).toReal *
            ∑ j, r (Fin.cons (α := fun _ => α) q0 q j.castSucc) (q j)) := by
        intro q
        rw [hf]
        simp only []
        rw [Fin.prod_univ_succ, Fin.sum_univ_succ, ENNReal.toReal_mul]
        have h1 : ∀ j : Fin n, (Fin.cons (α := fun _ => α) p (Fin.cons (α := fun _ => α) q0 q) j.succ.castSucc : α) =
            Fin.cons (α := fun _ => α) q0 q j.castSucc := fun j => rfl
        simp only [h1, Fin.cons_succ]
        have h2 : (Fin.cons (α := fun _ => α) p (Fin.cons (α := fun _ => α) q0 q) (Fin.castSucc 0) : α) = p := rfl
        rw [h2, Fin.cons_zero]
        ring
      by_cases hq : I q0
      · simp only [e]
        have := ((hprob n hq).mul_left (r p q0)).add (ih hq)
        rw [mul_one] at this
        exact this.mul_left _
      · simp only [e, h.inside p q0 hp hq, ENNReal.toReal_zero, zero_mul]
        exact hasSum_zero
    have hfib := hs2.prod_fiberwise hinner
    have hfin : HasSum (fun q0 => (w p q0).toReal * (r p q0 + gains w J r (fun _ => 0) n q0)) (gains w J r (fun _ => 0) (n + 1) p) := by
      rw [gains]
      exact hasSum_sum_of_ne_finset_zero fun q hq => by rw [h.inside p q hp fun hc => hq ((hJ q).2 hc), ENNReal.toReal_zero, zero_mul]
    rw [← hfib.unique hfin]
    exact hs.hasSum

end Dorado
