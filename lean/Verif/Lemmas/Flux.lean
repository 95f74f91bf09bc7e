import Verif.Spec.Flux
import Verif.Lemmas.Basic
import Mathlib.Algebra.Order.BigOperators.Group.List
import Mathlib.Algebra.Order.Ring.Pow
import Mathlib.Tactic.Linarith
import Mathlib.Tactic.Ring
import Mathlib.Tactic.FieldSimp

/-! Lemmas about flux-proportional seeding. -/

set_option linter.unusedSectionVars false

namespace Dorado

variable {K : Type} [Field K] [LinearOrder K] [IsStrictOrderedRing K] [FloorRing K] {A : Arith K}

theorem sum_mapIdx_add {idx : List Nat} (a : List Int) (hnd : idx.Nodup) (hlt : ∀ i ∈ idx, i < a.length) :
    (a.mapIdx fun i x => if i ∈ idx then x + 1 else x).sum = a.sum + idx.length := by
  have key : ∀ (a : List Int) (s : Nat), (a.mapIdx fun i x => if i + s ∈ idx then x + 1 else x).sum =
      a.sum + ((List.range' s a.length).countP (· ∈ idx) : Nat) := by
    intro a
    induction a with
    | nil => intro s; simp
    | cons x a ih =>
      intro s
      rw [List.mapIdx_cons, List.sum_cons, List.sum_cons, List.length_cons, List.range'_succ, List.countP_cons]
      have := ih (s + 1)
      rw [show (fun (i : Nat) (x : Int) => if i + 1 + s ∈ idx then x + 1 else x) = fun i x => if i + (s + 1) ∈ idx then x + 1 else x by
        funext i x; rw [show i + 1 + s = i + (s + 1) by omega], this, Nat.zero_add]
      by_cases h : s ∈ idx <;> simp [h] <;> ring
  have h0 := key a 0
  simp only [Nat.add_zero] at h0
  rw [h0]
  congr 2
  rw [← List.range_eq_range', List.countP_eq_length_filter]
  apply List.Perm.length_eq
  rw [List.perm_ext_iff_of_nodup (List.nodup_range.filter _) hnd]
  intro i
  simp only [List.mem_filter, List.mem_range, decide_eq_true_eq]
  exact ⟨fun h => h.2, fun h => ⟨hlt i h, h⟩⟩

theorem addOneAt_ok {a : List Int} {idx : List Nat} (hnd : idx.Nodup) (hlt : ∀ i ∈ idx, i < a.length) :
    ∃ b, addOneAt a idx = .ok b ∧ b.sum = a.sum + idx.length ∧ b.length = a.length ∧
      ∀ (i : Nat) x, a[i]? = some x → b[i]? = some (if i ∈ idx then x + 1 else x) := by
  refine ⟨_, by unfold addOneAt; rw [if_pos (by simpa using hlt)], sum_mapIdx_add a hnd hlt, by simp, fun i x h => ?_⟩
  simp [h]

theorem sum_floor_le (l : List K) : (((l.map fun x => ⌊x⌋).sum : Int) : K) ≤ l.sum := by
  induction l with
  | nil => simp
  | cons x l ih =>
    simp only [List.map_cons, List.sum_cons, Int.cast_add]
    exact add_le_add (Int.floor_le x) ih

theorem lt_sum_floor (l : List K) : l.sum - l.length ≤ (((l.map fun x => ⌊x⌋).sum : Int) : K) := by
  induction l with
  | nil => simp
  | cons x l ih =>
    simp only [List.map_cons, List.sum_cons, Int.cast_add, List.length_cons, Nat.cast_add, Nat.cast_one]
    have := Int.lt_floor_add_one x
    linarith

theorem Sorts.suffix {argsort : List K → List Nat} (h : Sorts argsort) (l : List K) (m : Nat) (hm : m ≤ l.length) :
    (pySuffix (argsort l) m).length = m ∧ (pySuffix (argsort l) m).Nodup ∧ (∀ i ∈ pySuffix (argsort l) m, i < l.length) ∧
      ∀ i j, i ∈ pySuffix (argsort l) m → j < l.length → j ∉ pySuffix (argsort l) m → l.getD j 0 ≤ l.getD i 0 := by
  obtain ⟨hp, hs⟩ := h l
  have hlen : (argsort l).length = l.length := by simpa using hp.length_eq
  refine ⟨by simp [pySuffix, hlen]; omega, ?_, ?_, ?_⟩
  · exact (List.drop_sublist _ _).nodup (hp.nodup_iff.2 List.nodup_range)
  · intro i hi
    have := hp.subset (List.mem_of_mem_drop hi)
    simpa using this
  · intro i j hi hj hj'
    have hjm : j ∈ argsort l := hp.symm.subset (by simpa using hj)
    unfold pySuffix at hi hj'
    rw [← List.take_append_drop ((argsort l).length - m) (argsort l)] at hjm hs
    rcases List.mem_append.1 hjm with h | h
    · exact (List.pairwise_append.1 hs).2.2 j h i hi
    · exact absurd h hj'

/-- The ideal numbers computed by the code. -/
def nFloatOf (A : Arith K) (npSum : List K → K) (Q : List K) (N : Int) : List K :=
  Q.map fun q => A.rnd (A.rnd (|q| / npSum (Q.map fun q => |q|)) * A.rnd (N : K))

/-- Result of the code if the ideal numbers sum to nearly `N`. -/
theorem fluxSeed_ok {npSum : List K → K} {argsort : List K → List Nat} (hsort : Sorts argsort) {Q : List K} {N numSteps : Int}
    (hl : numSteps ≤ Q.length) (hS : npSum (Q.map fun q => |q|) ≠ 0) (h1 : (nFloatOf A npSum Q N).sum < N + 1)
    (h2 : (N : K) - 1 < (nFloatOf A npSum Q N).sum) :
    ∃ (r : List Int) (idx : List Nat), fluxSeed A npSum argsort Q N numSteps = .ok r ∧ r.sum = N ∧ r.length = Q.length ∧
      (∀ (i : Nat), i < Q.length → r[i]? = some (⌊(nFloatOf A npSum Q N).getD i 0⌋ + if i ∈ idx then 1 else 0)) ∧
      ∀ i j, i < Q.length → j < Q.length → i ∈ idx → j ∉ idx →
        A.rnd ((nFloatOf A npSum Q N).getD j 0 - (⌊(nFloatOf A npSum Q N).getD j 0⌋ : Int)) ≤
        A.rnd ((nFloatOf A npSum Q N).getD i 0 - (⌊(nFloatOf A npSum Q N).getD i 0⌋ : Int)) := by
  have hlen : (nFloatOf A npSum Q N).length = Q.length := by simp [nFloatOf]
  have e : fluxSeed A npSum argsort Q N numSteps =
      if 0 < N - ((nFloatOf A npSum Q N).map fun x => ⌊x⌋).sum then
        addOneAt ((nFloatOf A npSum Q N).map fun x => ⌊x⌋) (pySuffix (argsort (List.zipWith (fun x (n : Int) => A.rnd (x - (n : K)))
          (nFloatOf A npSum Q N) ((nFloatOf A npSum Q N).map fun x => ⌊x⌋))) (N - ((nFloatOf A npSum Q N).map fun x => ⌊x⌋).sum).toNat) >>= checkTotal N
      else checkTotal N ((nFloatOf A npSum Q N).map fun x => ⌊x⌋) := by
    unfold fluxSeed
    simp only
    rw [if_neg (by simpa using hl), if_neg hS]
    have : (Q.map fun q => |q|).map (fun q => A.rnd (A.rnd (q / npSum (Q.map fun q => |q|)) * A.rnd (N : K))) = nFloatOf A npSum Q N := by
      rw [List.map_map]
      rfl
    rw [this]
  rw [e]
  obtain ⟨nf, hnf⟩ : ∃ nf, nf = nFloatOf A npSum Q N := ⟨_, rfl⟩
  rw [← hnf] at h1 h2 hlen ⊢
  clear e hnf
  have b1 := sum_floor_le nf
  have b2 := lt_sum_floor nf
  obtain ⟨F, hF⟩ : ∃ F : Int, F = (nf.map fun x => ⌊x⌋).sum := ⟨_, rfl⟩
  rw [← hF] at b1 b2 ⊢
  have c1 : F < N + 1 := by exact_mod_cast lt_of_le_of_lt b1 h1
  have c2 : N < F + nf.length + 1 := by
    have : (N : K) < F + nf.length + 1 := by linarith
    exact_mod_cast this
  have hget : ∀ (i : Nat), i < Q.length → (nf.map fun x => ⌊x⌋)[i]? = some ⌊nf.getD i 0⌋ := by
    intro i hi
    have : i < nf.length := by omega
    simp [List.getD_eq_getElem?_getD, this]
  by_cases hp : 0 < N - F
  · rw [if_pos hp]
    have hz : (List.zipWith (fun x (n : Int) => A.rnd (x - (n : K))) nf (nf.map fun x => ⌊x⌋)).length = nf.length := by simp
    obtain ⟨s1, s2, s3, s4⟩ := hsort.suffix (List.zipWith (fun x (n : Int) => A.rnd (x - (n : K))) nf (nf.map fun x => ⌊x⌋)) (N - F).toNat
      (by rw [hz]; omega)
    obtain ⟨idx, hidx⟩ : ∃ idx, idx = pySuffix (argsort (List.zipWith (fun x (n : Int) => A.rnd (x - (n : K))) nf (nf.map fun x => ⌊x⌋)))
      (N - F).toNat := ⟨_, rfl⟩
    rw [← hidx] at s1 s2 s3 s4 ⊢
    obtain ⟨b, hb, hsum, hbl, hbg⟩ := addOneAt_ok (a := nf.map fun x => ⌊x⌋) s2 (by simpa [hz] using s3)
    rw [hb, ok_bind]
    have htot : b.sum = N := by
      rw [hsum, ← hF, s1]
      omega
    refine ⟨b, idx, by unfold checkTotal; rw [if_pos htot], htot, by simpa [hlen] using hbl, fun i hi => ?_, fun i j hi hj hin hjn => ?_⟩
    · rw [hbg i _ (hget i hi)]
      split_ifs <;> simp
    · have hz' : ∀ (i : Nat), i < Q.length → (List.zipWith (fun x (n : Int) => A.rnd (x - (n : K))) nf (nf.map fun x => ⌊x⌋)).getD i 0 =
          A.rnd (nf.getD i 0 - (⌊nf.getD i 0⌋ : Int)) := by
        intro i hi
        have : i < nf.length := by omega
        simp [List.getD_eq_getElem?_getD, this]
      have := s4 i j hin (by rw [hz]; omega) hjn
      rwa [hz' i hi, hz' j hj] at this
  · rw [if_neg hp]
    have htot : (nf.map fun x => ⌊x⌋).sum = N := by rw [← hF]; omega
    refine ⟨_, [], by unfold checkTotal; rw [if_pos htot], htot, by simp [hlen], fun i hi => ?_, by simp⟩
    rw [hget i hi]
    simp

theorem RelError.bounds {u x : K} (h : RelError A u) (hx : 0 ≤ x) : x * (1 - u) ≤ A.rnd x ∧ A.rnd x ≤ x * (1 + u) := by
  have := h x
  rw [abs_of_nonneg hx, abs_le] at this
  constructor <;> linarith [this.1, this.2]

theorem RSum.bounds {u : K} (h : RelError A u) (hu : 0 ≤ u) (hu1 : u ≤ 1) {l : List K} {x : K} (hs : RSum A l x) (hl : ∀ y ∈ l, 0 ≤ y) :
    0 ≤ x ∧ l.sum * (1 - u) ^ l.length ≤ x ∧ x * (1 - u) ^ l.length ≤ l.sum := by
  have h0 : 0 ≤ 1 - u := by linarith
  have h1 : 1 - u ≤ 1 := by linarith
  have hpow : ∀ n, (0 : K) ≤ (1 - u) ^ n ∧ (1 - u) ^ n ≤ 1 := fun n => ⟨pow_nonneg h0 n, pow_le_one₀ h0 h1⟩
  induction hs with
  | nil => simp
  | one y =>
    have hy := hl y (by simp)
    have : y * (1 - u) ≤ y := by nlinarith
    simpa using ⟨hy, this⟩
  | @add l l' x y hl0 hl1 hx hy ihx ihy =>
    obtain ⟨a0, a1, a2⟩ := ihx fun z hz => hl z (by simp [hz])
    obtain ⟨b0, b1, b2⟩ := ihy fun z hz => hl z (by simp [hz])
    have n1 : 1 ≤ l.length := by
      rcases l with _ | _
      · exact absurd rfl hl0
      · simp
    have n2 : 1 ≤ l'.length := by
      rcases l' with _ | _
      · exact absurd rfl hl1
      · simp
    obtain ⟨c1, c2⟩ := h.bounds (add_nonneg a0 b0)
    have s0 : 0 ≤ l.sum := List.sum_nonneg fun z hz => hl z (by simp [hz])
    have s0' : 0 ≤ l'.sum := List.sum_nonneg fun z hz => hl z (by simp [hz])
    obtain ⟨m, hm⟩ : ∃ m, l.length + l'.length = m + 1 := ⟨l.length + l'.length - 1, by omega⟩
    have p1 : (1 - u) ^ m ≤ (1 - u) ^ l.length := pow_le_pow_of_le_one h0 h1 (by omega)
    have p2 : (1 - u) ^ m ≤ (1 - u) ^ l'.length := pow_le_pow_of_le_one h0 h1 (by omega)
    have pm := hpow m
    have q1 : l.sum * (1 - u) ^ m ≤ x := le_trans (mul_le_mul_of_nonneg_left p1 s0) a1
    have q2 : l'.sum * (1 - u) ^ m ≤ y := le_trans (mul_le_mul_of_nonneg_left p2 s0') b1
    have q3 : x * (1 - u) ^ m ≤ l.sum := le_trans (mul_le_mul_of_nonneg_left p1 a0) a2
    have q4 : y * (1 - u) ^ m ≤ l'.sum := le_trans (mul_le_mul_of_nonneg_left p2 b0) b2
    refine ⟨le_trans (mul_nonneg (add_nonneg a0 b0) h0) c1, ?_, ?_⟩
    · rw [List.length_append, hm, List.sum_append, pow_succ, ← mul_assoc]
      refine le_trans (mul_le_mul_of_nonneg_right ?_ h0) c1
      rw [add_mul]
      exact add_le_add q1 q2
    · rw [List.length_append, hm, List.sum_append, pow_succ]
      have : A.rnd (x + y) * (1 - u) ≤ x + y := by
        refine le_trans (mul_le_mul_of_nonneg_right c2 h0) ?_
        have : (x + y) * (1 + u) * (1 - u) = (x + y) - (x + y) * (u * u) := by ring
        rw [this]
        have := mul_nonneg (add_nonneg a0 b0) (mul_nonneg hu hu)
        linarith
      calc A.rnd (x + y) * ((1 - u) ^ m * (1 - u)) = A.rnd (x + y) * (1 - u) * (1 - u) ^ m := by ring
        _ ≤ (x + y) * (1 - u) ^ m := mul_le_mul_of_nonneg_right this pm.1
        _ = x * (1 - u) ^ m + y * (1 - u) ^ m := add_mul _ _ _
        _ ≤ l.sum + l'.sum := add_le_add q3 q4
  | perm hx hp ih =>
    have := ih fun y hy => hl y (hp.subset hy)
    rwa [hp.sum_eq, hp.length_eq] at this

theorem sum_map_mul_const (l : List K) (f : K → K) (c : K) : (l.map fun x => f x * c).sum = (l.map f).sum * c := by
  induction l with
  | nil => simp
  | cons a l ih => simp [ih, add_mul]

theorem list_sum_le {l : List K} {f g : K → K} (h : ∀ x ∈ l, f x ≤ g x) : (l.map f).sum ≤ (l.map g).sum := by
  induction l with
  | nil => simp
  | cons a l ih =>
    simp only [List.map_cons, List.sum_cons]
    exact add_le_add (h a (by simp)) (ih fun x hx => h x (by simp [hx]))

/-- The computed ideal numbers are non-negative and sum to nearly `N`. -/
theorem nFloat_sum {u : K} (h : RelError A u) (hu : 0 ≤ u) (hu1 : u < 1) {npSum : List K → K} {Q : List K} {N : Int} (hN : 0 ≤ N)
    (hs : RSum A (Q.map fun q => |q|) (npSum (Q.map fun q => |q|))) (hQ : ∃ q ∈ Q, q ≠ 0)
    (hsmall : ((N : K) + 1) * ((Q.length : K) + 3) * u < 1) :
    0 < npSum (Q.map fun q => |q|) ∧ (∀ x ∈ nFloatOf A npSum Q N, 0 ≤ x) ∧ (nFloatOf A npSum Q N).sum < N + 1 ∧
      (N : K) - 1 < (nFloatOf A npSum Q N).sum := by
  have hN' : (0 : K) ≤ N := by exact_mod_cast hN
  have h0 : 0 < 1 - u := by linarith
  obtain ⟨S', hS'⟩ : ∃ S', S' = npSum (Q.map fun q => |q|) := ⟨_, rfl⟩
  rw [← hS'] at hs ⊢
  obtain ⟨e0, e1, e2⟩ := hs.bounds h hu hu1.le (fun y hy => by
    obtain ⟨q, -, rfl⟩ := List.mem_map.1 hy
    exact abs_nonneg q)
  rw [List.length_map] at e1 e2
  have hSpos : 0 < (Q.map fun q => |q|).sum := by
    obtain ⟨q, hq, hq0⟩ := hQ
    have h1 : |q| ≤ (Q.map fun q => |q|).sum :=
      List.single_le_sum (fun y hy => by
        obtain ⟨q, -, rfl⟩ := List.mem_map.1 hy
        exact abs_nonneg q) _ (List.mem_map_of_mem hq)
    exact lt_of_lt_of_le (abs_pos.2 hq0) h1
  obtain ⟨S, hS⟩ : ∃ S, S = (Q.map fun q => |q|).sum := ⟨_, rfl⟩
  rw [← hS] at e1 e2 hSpos
  have hpn : 0 < (1 - u) ^ Q.length := pow_pos h0 _
  have hS'pos : 0 < S' := lt_of_lt_of_le (mul_pos hSpos hpn) e1
  have hrN := h.bounds hN'
  have hrN0 : 0 ≤ A.rnd (N : K) := le_trans (mul_nonneg hN' h0.le) hrN.1
  have hpt : ∀ q, 0 ≤ A.rnd (A.rnd (|q| / S') * A.rnd (N : K)) ∧
      |q| * (N / S' * (1 - u) ^ 3) ≤ A.rnd (A.rnd (|q| / S') * A.rnd (N : K)) ∧
      A.rnd (A.rnd (|q| / S') * A.rnd (N : K)) * (1 - u) ^ 3 ≤ |q| * (N / S') := by
    intro q
    have hq : 0 ≤ |q| / S' := div_nonneg (abs_nonneg q) hS'pos.le
    have a := h.bounds hq
    have a0 : 0 ≤ A.rnd (|q| / S') := le_trans (mul_nonneg hq h0.le) a.1
    have b0 : 0 ≤ A.rnd (|q| / S') * A.rnd (N : K) := mul_nonneg a0 hrN0
    have b := h.bounds b0
    have up : ∀ x y : K, 0 ≤ x → y ≤ x * (1 + u) → y * (1 - u) ≤ x := by
      intro x y hx hy
      refine le_trans (mul_le_mul_of_nonneg_right hy h0.le) ?_
      have : x * (1 + u) * (1 - u) = x - x * (u * u) := by ring
      have := mul_nonneg hx (mul_nonneg hu hu)
      linarith
    have u1 := up _ _ hq a.2
    have u2 := up _ _ hN' hrN.2
    have u3 := up _ _ b0 b.2
    refine ⟨le_trans (mul_nonneg b0 h0.le) b.1, ?_, ?_⟩
    · refine le_trans ?_ b.1
      have : |q| / S' * (1 - u) * (N * (1 - u)) ≤ A.rnd (|q| / S') * A.rnd (N : K) :=
        mul_le_mul a.1 hrN.1 (mul_nonneg hN' h0.le) a0
      calc |q| * (N / S' * (1 - u) ^ 3) = |q| / S' * (1 - u) * (N * (1 - u)) * (1 - u) := by ring
        _ ≤ _ := mul_le_mul_of_nonneg_right this h0.le
    · calc A.rnd (A.rnd (|q| / S') * A.rnd (N : K)) * (1 - u) ^ 3
          = A.rnd (A.rnd (|q| / S') * A.rnd (N : K)) * (1 - u) * (1 - u) ^ 2 := by ring
        _ ≤ A.rnd (|q| / S') * A.rnd (N : K) * (1 - u) ^ 2 := mul_le_mul_of_nonneg_right u3 (by positivity)
        _ = (A.rnd (|q| / S') * (1 - u)) * (A.rnd (N : K) * (1 - u)) := by ring
        _ ≤ |q| / S' * N := mul_le_mul u1 u2 (mul_nonneg hrN0 h0.le) hq
        _ = |q| * (N / S') := by ring
  have elow : S * (N / S' * (1 - u) ^ 3) ≤ (nFloatOf A npSum Q N).sum := by
    rw [hS, ← sum_map_mul_const]
    unfold nFloatOf
    rw [← hS']
    exact list_sum_le fun q _ => (hpt q).2.1
  have ehigh : (nFloatOf A npSum Q N).sum * (1 - u) ^ 3 ≤ S * (N / S') := by
    rw [hS, ← sum_map_mul_const (f := fun q => |q|)]
    unfold nFloatOf
    rw [← hS', ← sum_map_mul_const]
    exact list_sum_le fun q _ => (hpt q).2.2
  have bern : 1 - ((Q.length : K) + 3) * u ≤ (1 - u) ^ (Q.length + 3) := by
    have := one_add_mul_le_pow (show (-2 : K) ≤ -u by linarith) (Q.length + 3)
    push_cast at this
    rw [← sub_eq_add_neg] at this
    linarith
  have hm : 0 ≤ ((Q.length : K) + 3) * u := by positivity
  obtain ⟨m, hme⟩ : ∃ m, m = ((Q.length : K) + 3) * u := ⟨_, rfl⟩
  rw [mul_assoc, ← hme] at hsmall
  rw [← hme] at bern hm
  have h31 : (1 - u) ^ (Q.length + 3) ≤ 1 := pow_le_one₀ h0.le (by linarith)
  have hpos3 : 0 < (1 - u) ^ (Q.length + 3) := pow_pos h0 _
  refine ⟨hS'pos, ?_, ?_, ?_⟩
  · intro x hx
    unfold nFloatOf at hx
    obtain ⟨q, -, rfl⟩ := List.mem_map.1 hx
    rw [← hS']
    exact (hpt q).1
  · -- upper bound
    have hh : (nFloatOf A npSum Q N).sum * (1 - u) ^ (Q.length + 3) ≤ N := by
      calc (nFloatOf A npSum Q N).sum * (1 - u) ^ (Q.length + 3)
          = (nFloatOf A npSum Q N).sum * (1 - u) ^ 3 * (1 - u) ^ Q.length := by ring
        _ ≤ S * (N / S') * (1 - u) ^ Q.length := mul_le_mul_of_nonneg_right ehigh hpn.le
        _ = S * (1 - u) ^ Q.length / S' * N := by ring
        _ ≤ 1 * N := mul_le_mul_of_nonneg_right ((div_le_one hS'pos).2 e1) hN'
        _ = N := one_mul _
    by_contra hcon
    push Not at hcon
    have : ((N : K) + 1) * (1 - m) ≤ N := by
      calc ((N : K) + 1) * (1 - m) ≤ (N + 1) * (1 - u) ^ (Q.length + 3) := mul_le_mul_of_nonneg_left bern (by linarith)
        _ ≤ (nFloatOf A npSum Q N).sum * (1 - u) ^ (Q.length + 3) := mul_le_mul_of_nonneg_right hcon hpos3.le
        _ ≤ N := hh
    linarith
  · have hh : (N : K) * (1 - u) ^ (Q.length + 3) ≤ (nFloatOf A npSum Q N).sum := by
      calc (N : K) * (1 - u) ^ (Q.length + 3) = (1 - u) ^ Q.length * (N * (1 - u) ^ 3) := by ring
        _ ≤ S / S' * (N * (1 - u) ^ 3) := by
            refine mul_le_mul_of_nonneg_right ?_ (mul_nonneg hN' (pow_nonneg h0.le 3))
            rw [le_div_iff₀ hS'pos, mul_comm]
            exact e2
        _ = S * (N / S' * (1 - u) ^ 3) := by ring
        _ ≤ _ := elow
    have : (N : K) * (1 - m) ≤ N * (1 - u) ^ (Q.length + 3) := mul_le_mul_of_nonneg_left bern hN'
    nlinarith

theorem RSum.zero {l : List K} {x : K} (h : RSum A l x) (hl : ∀ y ∈ l, y = 0) : x = 0 := by
  induction h with
  | nil => rfl
  | one y => exact hl y (by simp)
  | add _ _ _ _ ih1 ih2 =>
    rw [ih1 fun y hy => hl y (by simp [hy]), ih2 fun y hy => hl y (by simp [hy]), add_zero, A.zero]
  | perm _ hp ih => exact ih fun y hy => hl y (hp.subset hy)

theorem RSum.exact : ∀ l : List K, RSum Arith.exact l l.sum
  | [] => .nil
  | [x] => by simpa using RSum.one x
  | x :: y :: l => .add (by simp) (by simp) (.one x) (RSum.exact (y :: l))

end Dorado
