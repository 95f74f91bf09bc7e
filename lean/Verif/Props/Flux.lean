import Verif.Lemmas.PairSum
import Verif.Lemmas.Float
import Mathlib.Data.Rat.Floor

/-! # Flux-proportional seeding: C49, C50 -/

set_option linter.unusedSectionVars false

namespace Dorado

variable {K : Type} [Field K] [LinearOrder K] [IsStrictOrderedRing K] [FloorRing K] {A : Arith K}

/-! ## C49 -/

/-- C49 for one-dimensional series, with rounding errors: relative error `u` per operation, sum computed in any order, and
`(N_total + 1)(n + 3)u < 1` (for doubles: N_total·n up to about 10^15). Missing from the full claim: series given as a column, for which it is false
(`C49_column_assertion`). -/
theorem C49_rounded_partial {u : K} (h : RelError A u) (hu : 0 ≤ u) (hu1 : u < 1) {npSum : List K → K} {argsort : List K → List Nat}
    (hsort : Sorts argsort) {Q : List K} {N numSteps : Int} (hN : 0 ≤ N) (hl : numSteps ≤ Q.length)
    (hs : RSum A (Q.map fun q => |q|) (npSum (Q.map fun q => |q|))) (hQ : ∃ q ∈ Q, q ≠ 0)
    (hsmall : ((N : K) + 1) * ((Q.length : K) + 3) * u < 1) :
    ∃ r, fluxSeed A npSum argsort Q N numSteps = .ok r ∧ r.sum = N ∧ r.length = Q.length ∧ ∀ x ∈ r, 0 ≤ x := by
  obtain ⟨h0, h1, h2, h3⟩ := nFloat_sum h hu hu1 hN hs hQ hsmall
  obtain ⟨r, idx, e, hr, hrl, hv, -⟩ := fluxSeed_ok hsort hl h0.ne' h2 h3
  refine ⟨r, e, hr, hrl, fun x hx => ?_⟩
  obtain ⟨i, hi, rfl⟩ := List.mem_iff_getElem.1 hx
  have hv' := hv i (by omega)
  rw [List.getElem?_eq_getElem hi] at hv'
  injection hv' with hv'
  rw [hv']
  have : 0 ≤ ⌊(nFloatOf A npSum Q N).getD i 0⌋ := by
    apply Int.floor_nonneg.2
    have hlt : i < (nFloatOf A npSum Q N).length := by simp [nFloatOf]; omega
    rw [List.getD_eq_getElem?_getD, List.getElem?_eq_getElem hlt]
    exact h1 _ (List.getElem_mem _)
  split_ifs <;> omega

/-- C49 for one-dimensional series in exact arithmetic, any size. Missing: series given as a column. -/
theorem C49_exact_partial {argsort : List K → List Nat} (hsort : Sorts argsort) {Q : List K} {N numSteps : Int} (hN : 0 ≤ N)
    (hl : numSteps ≤ Q.length) (hQ : ∃ q ∈ Q, q ≠ 0) :
    ∃ r, fluxSeed Arith.exact List.sum argsort Q N numSteps = .ok r ∧ r.sum = N ∧ r.length = Q.length ∧ ∀ x ∈ r, 0 ≤ x :=
  C49_rounded_partial (u := 0) (fun x => by simp [Arith.exact]) le_rfl one_pos hsort hN hl (RSum.exact _) hQ (by simp)

/-- Too short series and all-zero series raise ValueError, in either shape. -/
theorem C49_errors {npSum : List K → K} {argsort : List K → List Nat} {Q : List K} {N numSteps : Int}
    (hs : RSum A (Q.map fun q => |q|) (npSum (Q.map fun q => |q|))) (h : (Q.length : Int) < numSteps ∨ ∀ q ∈ Q, q = 0) :
    fluxSeed A npSum argsort Q N numSteps = .error .valueError := by
  unfold fluxSeed
  by_cases h1 : (Q.length : Int) < numSteps
  · simp [h1]
  · have h2 := h.resolve_left h1
    have : npSum (Q.map fun q => |q|) = 0 := hs.zero fun y hy => by
      obtain ⟨q, hq, rfl⟩ := List.mem_map.1 hy
      rw [h2 q hq, abs_zero]
    simp [h1, this]

/-- The ideal numbers of the code are the quotas, in exact arithmetic. -/
theorem nFloatOf_exact {Q : List K} {N : Int} {i : Nat} (hi : i < Q.length) : (nFloatOf Arith.exact List.sum Q N).getD i 0 = quota Q N i := by
  unfold nFloatOf quota
  rw [List.getD_eq_getElem?_getD, List.getElem?_map, List.getD_eq_getElem?_getD, List.getElem?_eq_getElem hi]
  simp only [Option.map_some, Option.getD_some, Arith.exact, id_eq]
  ring

/-- The defect behind the missing part: if the series is given as a column and at least two particles are left after rounding down, the
call ends in an AssertionError. -/
theorem C49_column_assertion {Q : List K} {N numSteps : Int} (hl : numSteps ≤ Q.length) (hQ : ∃ q ∈ Q, q ≠ 0)
    (hleft : ((List.range Q.length).map fun i => ⌊quota Q N i⌋).sum + 2 ≤ N) :
    fluxSeed Arith.exact List.sum columnArgsort Q N numSteps = .error .assertionError := by
  have hS : (Q.map fun q => |q|).sum ≠ 0 := by
    obtain ⟨q, hq, hq0⟩ := hQ
    have h1 : |q| ≤ (Q.map fun q => |q|).sum :=
      List.single_le_sum (fun y hy => by
        obtain ⟨q, -, rfl⟩ := List.mem_map.1 hy
        exact abs_nonneg q) _ (List.mem_map_of_mem hq)
    exact (lt_of_lt_of_le (abs_pos.2 hq0) h1).ne'
  unfold fluxSeed
  simp only
  rw [if_neg (by simpa using hl), if_neg hS]
  have : (Q.map fun q => |q|).map (fun q => Arith.exact.rnd (Arith.exact.rnd (q / (Q.map fun q => |q|).sum) * Arith.exact.rnd (N : K))) =
      nFloatOf Arith.exact List.sum Q N := by
    rw [List.map_map]
    rfl
  rw [this]
  have hlen : (nFloatOf Arith.exact List.sum Q N).length = Q.length := by simp [nFloatOf]
  have hfl : ((nFloatOf Arith.exact List.sum Q N).map fun x => ⌊x⌋) = (List.range Q.length).map fun i => ⌊quota Q N i⌋ := by
    apply List.ext_getElem
    · simp [hlen]
    · intro i h1 h2
      have hi : i < Q.length := by simpa using h2
      have := nFloatOf_exact (N := N) hi
      rw [List.getD_eq_getElem?_getD, List.getElem?_eq_getElem (by omega : i < (nFloatOf Arith.exact List.sum Q N).length)] at this
      simp only [Option.getD_some] at this
      simp [this]
  rw [hfl]
  rw [if_pos (by omega)]
  have hne : 0 < Q.length := by
    obtain ⟨q, hq, -⟩ := hQ
    exact List.length_pos_of_mem hq
  have hidx : ∀ (l : List K) (m : Nat) i, i ∈ pySuffix (columnArgsort l) m → i = 0 := by
    intro l m i hi
    have := List.mem_of_mem_drop hi
    unfold columnArgsort at this
    simp only [List.mem_map] at this
    obtain ⟨_, -, h⟩ := this
    exact h.symm
  generalize hd : pySuffix (columnArgsort (List.zipWith (fun x (n : Int) => Arith.exact.rnd (x - (n : K))) (nFloatOf Arith.exact List.sum Q N)
    (List.map (fun i => ⌊quota Q N i⌋) (List.range Q.length)))) (N - (List.map (fun i => ⌊quota Q N i⌋) (List.range Q.length)).sum).toNat = idx
  have hall : ∀ i ∈ idx, i = 0 := fun i hi => hidx _ _ i (by rw [hd]; exact hi)
  generalize hf : (List.range Q.length).map (fun i => ⌊quota Q N i⌋) = fl at *
  have hfl0 : fl.length = Q.length := by rw [← hf]; simp
  unfold addOneAt
  rw [if_pos (by
    rw [List.all_eq_true]
    intro i hi
    rw [hall i hi]
    simpa using by omega), ok_bind]
  unfold checkTotal
  rw [if_neg]
  rcases fl with _ | ⟨x, fl⟩
  · simp at hfl0; omega
  · have : ((x :: fl).mapIdx fun i y => if i ∈ idx then y + 1 else y).sum ≤ (x :: fl).sum + 1 := by
      rw [List.mapIdx_cons, List.sum_cons, List.sum_cons]
      have : (fl.mapIdx fun i y => if i + 1 ∈ idx then y + 1 else y) = fl := by
        apply List.ext_getElem
        · simp
        · intro i h1 h2
          have : i + 1 ∉ idx := fun h => by simpa using hall _ h
          simp [this]
      rw [this]
      split_ifs <;> omega
    omega

/-! ## C50 -/

/-- C50 for one-dimensional series in exact arithmetic: each count is the quota rounded down or one more, and the additional particles go to
timesteps with the largest fractional parts. Missing: series given as a column (`C50_column_counterexample`). -/
theorem C50_quota_partial {argsort : List K → List Nat} (hsort : Sorts argsort) {Q : List K} {N numSteps : Int} (hN : 0 ≤ N)
    (hl : numSteps ≤ Q.length) (hQ : ∃ q ∈ Q, q ≠ 0) :
    ∃ r, fluxSeed Arith.exact List.sum argsort Q N numSteps = .ok r ∧
      (∀ (i : Nat), i < Q.length → r[i]? = some ⌊quota Q N i⌋ ∨ r[i]? = some (⌊quota Q N i⌋ + 1)) ∧
      ∀ (i j : Nat), i < Q.length → j < Q.length → r[i]? = some (⌊quota Q N i⌋ + 1) → r[j]? = some ⌊quota Q N j⌋ →
        quota Q N j - ⌊quota Q N j⌋ ≤ quota Q N i - ⌊quota Q N i⌋ := by
  obtain ⟨h0, h1, h2, h3⟩ := nFloat_sum (A := Arith.exact) (u := 0) (npSum := List.sum) (fun x => by simp [Arith.exact]) le_rfl one_pos hN (RSum.exact _) hQ
    (by simp)
  obtain ⟨r, idx, e, -, -, hv, ho⟩ := fluxSeed_ok hsort hl h0.ne' h2 h3
  refine ⟨r, e, fun i hi => ?_, fun i j hi hj hri hrj => ?_⟩
  · have := hv i hi
    rw [nFloatOf_exact hi] at this
    split_ifs at this
    · exact Or.inr this
    · exact Or.inl (by simpa using this)
  · have ei := hv i hi
    have ej := hv j hj
    rw [nFloatOf_exact hi] at ei
    rw [nFloatOf_exact hj] at ej
    rw [hri] at ei
    rw [hrj] at ej
    have mi : i ∈ idx := by
      by_contra hcon
      rw [if_neg hcon] at ei
      simp at ei
    have mj : j ∉ idx := by
      intro hcon
      rw [if_pos hcon] at ej
      simp at ej
    have := ho i j hi hj mi mj
    rw [nFloatOf_exact hi, nFloatOf_exact hj] at this
    exact this

/-- Only the magnitudes matter, and only up to a common factor: units and flow direction do not change the counts. -/
theorem C50_scale {argsort : List K → List Nat} {Q Q' : List K} {N numSteps : Int} {c : K} (hc : 0 < c)
    (h : Q'.map (fun q => |q|) = Q.map fun q => c * |q|) :
    fluxSeed Arith.exact List.sum argsort Q' N numSteps = fluxSeed Arith.exact List.sum argsort Q N numSteps := by
  have hlen : Q'.length = Q.length := by simpa using congrArg List.length h
  have hsum : (Q'.map fun q => |q|).sum = c * (Q.map fun q => |q|).sum := by
    rw [h, mul_comm, ← sum_map_mul_const]
    congr 2
    funext q
    exact mul_comm _ _
  have hnf : (Q'.map fun q => |q|).map (fun q => Arith.exact.rnd (Arith.exact.rnd (q / (Q'.map fun q => |q|).sum) * Arith.exact.rnd (N : K))) =
      (Q.map fun q => |q|).map (fun q => Arith.exact.rnd (Arith.exact.rnd (q / (Q.map fun q => |q|).sum) * Arith.exact.rnd (N : K))) := by
    rw [hsum, h, List.map_map, List.map_map]
    congr 1
    funext q
    simp only [Function.comp, Arith.exact, id_eq]
    rw [mul_div_mul_left _ _ hc.ne']
  unfold fluxSeed
  simp only
  rw [hnf, hsum]
  simp only [List.length_map, hlen, mul_eq_zero, hc.ne', false_or]

/-! ## Concrete cases -/

/-- Insertion of an index by value. -/
def insIdx (l : List ℚ) (i : Nat) : List Nat → List Nat
  | [] => [i]
  | j :: js => if l.getD i 0 ≤ l.getD j 0 then i :: j :: js else j :: insIdx l i js

/-- A sorting function. -/
def sortIdx (l : List ℚ) : List Nat := (List.range l.length).foldr (insIdx l) []

theorem insIdx_perm (l : List ℚ) (i : Nat) : ∀ js, (insIdx l i js).Perm (i :: js)
  | [] => .refl _
  | j :: js => by
    unfold insIdx
    split_ifs
    · exact .refl _
    · exact ((insIdx_perm l i js).cons j).trans (.swap i j js)

theorem insIdx_sorted (l : List ℚ) (i : Nat) : ∀ js : List Nat, js.Pairwise (fun a b => l.getD a 0 ≤ l.getD b 0) →
    (insIdx l i js).Pairwise (fun a b => l.getD a 0 ≤ l.getD b 0)
  | [], _ => by simp [insIdx]
  | j :: js, h => by
    obtain ⟨h1, h2⟩ := List.pairwise_cons.1 h
    unfold insIdx
    split_ifs with he
    · refine List.pairwise_cons.2 ⟨fun y hy => ?_, h⟩
      rcases List.mem_cons.1 hy with rfl | hy
      · exact he
      · exact he.trans (h1 y hy)
    · refine List.pairwise_cons.2 ⟨fun y hy => ?_, insIdx_sorted l i js h2⟩
      rcases List.mem_cons.1 ((insIdx_perm l i js).subset hy) with rfl | hy
      · exact (not_le.1 he).le
      · exact h1 y hy

/-- Sorting functions exist: the hypothesis of C49 and C50 can be met for all series. -/
theorem sortIdx_sorts : Sorts sortIdx := by
  intro l
  unfold sortIdx
  constructor
  · induction List.range l.length with
    | nil => exact .refl _
    | cons a js ih => exact (insIdx_perm l a _).trans (ih.cons a)
  · induction List.range l.length with
    | nil => exact .nil
    | cons a js ih => exact insIdx_sorted l a _ ih

/-- A tidal discharge series with a flow reversal. -/
def tide : List ℚ := [1, 3 / 2, -2, 0, 5 / 4]

example : fluxSeed Arith.exact List.sum sortIdx tide 10 5 = .ok [2, 3, 3, 0, 2] := by decide +kernel

example : ∃ r, fluxSeed Arith.exact List.sum sortIdx tide 10 5 = .ok r ∧ r.sum = 10 ∧ r.length = 5 ∧ ∀ x ∈ r, 0 ≤ x :=
  C49_exact_partial sortIdx_sorts (by decide) (by decide) ⟨1, by decide, by decide⟩

/-- In double precision, summing as numpy does. -/
example (n : Nat) (h1 : 1 ≤ n) (h2 : n ≤ 1000) : ∃ r, fluxSeed Arith.double (numpySum (rAdd Arith.double) 0) sortIdx (List.replicate n (1 / 3)) 1000000 n = .ok r ∧
    r.sum = 1000000 ∧ r.length = n ∧ ∀ x ∈ r, 0 ≤ x := by
  have hn : (n : ℚ) ≤ 1000 := by exact_mod_cast h2
  have := C49_rounded_partial (A := Arith.double) (u := (2 : ℚ) ^ (-((53 : Nat) : Int))) (npSum := numpySum (rAdd Arith.double) 0) (argsort := sortIdx)
    (Q := List.replicate n (1 / 3)) (N := 1000000) (numSteps := n) (fun x => rndFloat_err x) (by positivity) (by norm_num)
    sortIdx_sorts (by decide) (by simp) (numpySum_rsum _) ⟨1 / 3, by simp; omega, by norm_num⟩ (by
      rw [List.length_replicate]
      have : ((((1000000 : Int) : ℚ)) + 1) * ((n : ℚ) + 3) * (2 : ℚ) ^ (-((53 : Nat) : Int)) ≤ ((1000000 : ℚ) + 1) * (1000 + 3) * (2 : ℚ) ^ (-((53 : Nat) : Int)) := by
        push_cast
        gcongr
      exact lt_of_le_of_lt this (by norm_num))
  simpa using this

example : fluxSeed Arith.exact List.sum sortIdx [0, 0] 10 2 = .error .valueError ∧
    fluxSeed Arith.exact List.sum sortIdx tide 10 6 = .error .valueError := by decide +kernel

/-- The same series as a column. -/
theorem C49_column_counterexample : (∃ q ∈ tide, q ≠ 0) ∧ (5 : Int) ≤ tide.length ∧
    fluxSeed Arith.exact List.sum columnArgsort tide 10 5 = .error .assertionError := by decide +kernel

/-- As a column, a single left-over particle always goes to the first timestep, here instead of the second with the larger fraction 2/3. -/
theorem C50_column_counterexample : fluxSeed Arith.exact List.sum columnArgsort [(1 : ℚ), 2] 1 2 = .ok [1, 0] ∧
    quota [(1 : ℚ), 2] 1 0 = 1 / 3 ∧ quota [(1 : ℚ), 2] 1 1 = 2 / 3 ∧
    fluxSeed Arith.exact List.sum sortIdx [1, 2] 1 2 = .ok [0, 1] := by decide +kernel

example : fluxSeed Arith.exact List.sum sortIdx [-2, 3, 4] 10 3 = fluxSeed Arith.exact List.sum sortIdx [1, 3 / 2, -2] 10 3 :=
  C50_scale (c := 2) (by decide) (by decide +kernel)

end Dorado
