import Verif.Spec.RegionKind
import Verif.Lemmas.Exposure

/-! `exposure_time` over the element types of the region. -/

set_option linter.unusedSectionVars false

namespace Dorado

variable {K : Type} [Field K] [LinearOrder K] [IsStrictOrderedRing K] {A : Arith K} {α β : Type}

theorem regionAtOf_map (f : α → β) (g : Grid α) (xs ys : List Int) (n : Nat) :
    regionAtOf (g.map f) xs ys n = (regionAtOf g xs ys n).map f := by
  unfold regionAtOf
  cases listGet xs n with
  | error e => rfl
  | ok x =>
    cases listGet ys n with
    | error e => rfl
    | ok y =>
      simp only [ok_bind]
      unfold Grid.get Grid.map
      simp only
      cases pyIdx g.rows x with
      | error e => rfl
      | ok a =>
        cases pyIdx g.cols y with
        | error e => rfl
        | ok b => rfl

def ExpoStateOf.mapPrev (f : α → β) (s : ExpoStateOf K α) : ExpoStateOf K β := ⟨s.acc, f s.prev, s.short⟩

/-- A conversion of the region values under which the comparisons come out the same. -/
structure KindMap (D : RegionKind α) (E : RegionKind β) (f : α → β) : Prop where
  one : ∀ a, E.is (f a) 1 = D.is a 1
  sum1 : ∀ a b, E.sumIs (f a) (f b) 1 = D.sumIs a b 1
  sum2 : ∀ a b, E.sumIs (f a) (f b) 2 = D.sumIs a b 2

variable {D : RegionKind α} {E : RegionKind β} {f : α → β}

theorem exposureStepOf_map (hk : KindMap D E f) (g : Grid α) (xs ys : List Int) (ts : List (Fl K)) (s : ExpoStateOf K α) (n : Nat) :
    exposureStepOf A E (g.map f) xs ys ts (s.mapPrev f) n = (exposureStepOf A D g xs ys ts s n).map (ExpoStateOf.mapPrev f) := by
  unfold exposureStepOf
  rw [regionAtOf_map]
  cases regionAtOf g xs ys n with
  | error e => rfl
  | ok c =>
    simp only [Except.map, ok_bind]
    cases listGet ts n with
    | error e => rfl
    | ok t1 =>
      cases listGet ts (n - 1) with
      | error e => rfl
      | ok t0 => simp only [ok_bind, pure, Except.pure, ExpoStateOf.mapPrev, hk.one, hk.sum1, hk.sum2]

theorem foldE_map {σ τ : Type} {p : σ → Nat → Except PyErr σ} {q : τ → Nat → Except PyErr τ} {f : σ → τ}
    (h : ∀ s n, q (f s) n = (p s n).map f) (l : List Nat) (s : σ) : foldE q (f s) l = (foldE p s l).map f := by
  induction l generalizing s with
  | nil => rfl
  | cons n l ih =>
    simp only [foldE]
    rw [h]
    cases p s n with
    | error e => rfl
    | ok s' => simp only [Except.map, ok_bind]; rw [ih s']; rfl

theorem exposureOneOf_map (hk : KindMap D E f) (wd : WalkData K) (g : Grid α) (i : Nat) :
    exposureOneOf A E wd (g.map f) i = exposureOneOf A D wd g i := by
  unfold exposureOneOf
  cases listGet wd.xinds i with
  | error e => rfl
  | ok xs =>
    cases listGet wd.yinds i with
    | error e => rfl
    | ok ys =>
      simp only [ok_bind]
      rw [regionAtOf_map]
      cases regionAtOf g xs ys 0 with
      | error e => rfl
      | ok c =>
        simp only [Except.map, ok_bind]
        cases listGet wd.times i with
        | error e => rfl
        | ok ts =>
          simp only [ok_bind]
          have := foldE_map (exposureStepOf_map (A := A) hk g xs ys ts) (List.range' 1 (ts.length - 1)) ⟨.fin 0, c, false⟩
          simp only [ExpoStateOf.mapPrev] at this
          rw [this]
          cases foldE (exposureStepOf A D g xs ys ts) ⟨.fin 0, c, false⟩ (List.range' 1 (ts.length - 1)) with
          | error e => rfl
          | ok s => rfl

theorem exposureTimeOf_map (hk : KindMap D E f) (wd : WalkData K) (g : Grid α) :
    exposureTimeOf A E wd (g.map f) = exposureTimeOf A D wd g := by
  unfold exposureTimeOf
  rw [show exposureOneOf A E wd (g.map f) = exposureOneOf A D wd g from funext (exposureOneOf_map hk wd g)]

/-- The integer case is the model of Model/Exposure. -/
theorem exposureTimeOf_int (wd : WalkData K) (g : Grid Int) : exposureTimeOf A intKind wd g = exposureTime A wd g := by
  have step : ∀ xs ys (ts : List (Fl K)) (s : ExpoStateOf K Int) n, exposureStep A g xs ys ts ⟨s.acc, s.prev, s.short⟩ n =
      (exposureStepOf A intKind g xs ys ts s n).map fun s => ⟨s.acc, s.prev, s.short⟩ := by
    intro xs ys ts s n
    unfold exposureStep exposureStepOf regionAt regionAtOf
    cases listGet xs n with
    | error e => rfl
    | ok x =>
      cases listGet ys n with
      | error e => rfl
      | ok y =>
        simp only [ok_bind]
        cases g.get x y with
        | error e => rfl
        | ok c =>
          cases listGet ts n with
          | error e => rfl
          | ok t1 =>
            cases listGet ts (n - 1) with
            | error e => rfl
            | ok t0 =>
              simp only [ok_bind, pure, Except.pure, Except.map, intKind, decide_eq_true_eq]
              rfl
  have one : exposureOneOf A intKind wd g = exposureOne A wd g := by
    funext i
    unfold exposureOneOf exposureOne
    cases listGet wd.xinds i with
    | error e => rfl
    | ok xs =>
      cases listGet wd.yinds i with
      | error e => rfl
      | ok ys =>
        simp only [ok_bind]
        rw [show regionAtOf g xs ys 0 = regionAt g xs ys 0 from rfl]
        cases regionAt g xs ys 0 with
        | error e => rfl
        | ok c =>
          simp only [ok_bind]
          cases listGet wd.times i with
          | error e => rfl
          | ok ts =>
            simp only [ok_bind]
            have := foldE_map (step xs ys ts) (List.range' 1 (ts.length - 1)) ⟨.fin 0, c, false⟩
            simp only at this
            rw [this]
            cases foldE (exposureStepOf A intKind g xs ys ts) ⟨.fin 0, c, false⟩ (List.range' 1 (ts.length - 1)) with
            | error e => rfl
            | ok s => rfl
  unfold exposureTimeOf exposureTime
  rw [one]

/-- 0 and 1 as floating point numbers compare as 0 and 1, as long as 2 is representable. -/
theorem exposureTimeOf_float (h2 : A.rnd 2 = 2) (wd : WalkData K) (m : Grid Bool) :
    exposureTimeOf A (floatKind A) wd (maskFloat m) = exposureTimeOf A intKind wd (maskInt m) := by
  have h0 : A.rnd 0 = 0 := A.zero
  have h1 : A.rnd 1 = 1 := A.one
  let B : RegionKind Bool := ⟨fun a b n => decide ((if a then 1 else 0 : Int) + (if b then 1 else 0) = n), fun a n => decide ((if a then 1 else 0 : Int) = n)⟩
  have kf : KindMap B (floatKind A) (fun b : Bool => (.fin (if b then 1 else 0) : Fl K)) := by
    constructor
    · intro a; cases a <;> simp [B, floatKind, Fl.eq]
    · intro a b; cases a <;> cases b <;> simp [B, floatKind, Fl.eq, Arith.add, h0, h1, h2, one_add_one_eq_two]
    · intro a b; cases a <;> cases b <;> simp [B, floatKind, Fl.eq, Arith.add, h0, h1, h2, one_add_one_eq_two]
  have ki : KindMap B intKind (fun b : Bool => if b then (1 : Int) else 0) := ⟨fun _ => rfl, fun _ _ => rfl, fun _ _ => rfl⟩
  rw [maskFloat, exposureTimeOf_map kf, maskInt, exposureTimeOf_map ki]

/-- Accumulated exposure after `k` steps for a Boolean region. -/
def expoBool (A : Arith K) (r : Nat → Bool) (τ : Nat → K) : Nat → K
  | 0 => 0
  | k + 1 => if r (k + 1) || r k then A.rnd (expoBool A r τ k + A.rnd (1 / 2 * A.rnd (τ (k + 1) - τ k))) else expoBool A r τ k

theorem exposureBool_loop {g : Grid Bool} {xs ys : List Int} {ts : List (Fl K)} {r : Nat → Bool} {τ : Nat → K}
    (hr : ∀ n, n < ts.length → regionAtOf g xs ys n = .ok (r n)) (ht : ∀ n, n < ts.length → ts[n]? = some (.fin (τ n))) {k : Nat}
    (hk : k < ts.length) :
    foldE (exposureStepOf A boolKind g xs ys ts) { acc := .fin 0, prev := r 0, short := false } (List.range' 1 k) =
      .ok { acc := .fin (expoBool A r τ k), prev := r k, short := decide (1 ≤ k ∧ k + 1 = ts.length ∧ r k = true) } := by
  induction k with
  | zero => simp [foldE, expoBool]
  | succ k ih =>
    rw [List.range'_1_concat, foldE_append, ih (by omega)]
    simp only [ok_bind, foldE, exposureStepOf]
    rw [show 1 + k = k + 1 by omega, hr (k + 1) hk]
    simp only [ok_bind, listGet, ht (k + 1) hk, Nat.add_sub_cancel, ht k (by omega)]
    simp only [Arith.sub, Fl.neg, Arith.add, Arith.mul, ← sub_eq_add_neg]
    simp only [pure, Except.pure, expoBool, ok_bind]
    congr 2
    · cases r (k + 1) <;> cases r k <;> rfl
    · have h1 : ¬ (k + 1 = ts.length) := by omega
      simp only [h1, false_and, and_false, decide_false, Bool.false_or]
      rw [Bool.eq_iff_iff]
      cases r (k + 1) <;> simp [boolKind]
      omega

theorem exposureBool_one {wd : WalkData K} {g : Grid Bool} (hp : Proper wd) (hr : OnRaster g.rows g.cols wd) {i : Nat} (hi : i < wd.count) :
    exposureOneOf A boolKind wd g i = .ok (.fin (expoBool A (wd.inMask g i) (wd.tau i) (wd.records i - 1)),
      decide (2 ≤ wd.records i ∧ wd.inMask g i (wd.records i - 1) = true)) := by
  obtain ⟨xs, ys, ts, hx, hy, ht, a, b, c, e⟩ := hp.get hi
  have h1 : ∀ n, n < ts.length → regionAtOf g xs ys n = .ok (wd.inMask g i n) := by
    intro n hn
    have hpos : wd.posAt i n = some (xs[n]'(by omega), ys[n]'(by omega)) := by
      simp [WalkData.posAt, hx, hy, show n < xs.length by omega, show n < ys.length by omega]
    unfold regionAtOf
    simp only [listGet, List.getElem?_eq_getElem (show n < xs.length by omega), List.getElem?_eq_getElem (show n < ys.length by omega),
      ok_bind]
    rw [grid_get_on (hr i n _ hpos)]
    simp [WalkData.inMask, hpos]
  have h2 : ∀ n, n < ts.length → ts[n]? = some (.fin (wd.tau i n)) := by
    intro n hn
    have hta : wd.timeAt i n = some ts[n] := by simp [WalkData.timeAt, ht, hn]
    obtain ⟨x, hx'⟩ := hp.fin i n _ hta
    rw [List.getElem?_eq_getElem hn, hx']
    simp [WalkData.tau, hta, hx']
  unfold exposureOneOf
  simp only [listGet, hx, hy, ht, ok_bind, h1 0 (by omega)]
  rw [exposureBool_loop h1 h2 (by omega)]
  simp only [ok_bind, e]
  rw [pure_def]
  congr 3
  rw [eq_iff_iff]
  constructor
  · rintro ⟨q1, q2, q3⟩
    exact ⟨by omega, q3⟩
  · rintro ⟨q1, q3⟩
    exact ⟨by omega, by omega, q3⟩

theorem exposureBool_eq {wd : WalkData K} {g : Grid Bool} (hp : Proper wd) (hr : OnRaster g.rows g.cols wd) :
    ∃ res, exposureTimeOf A boolKind wd g = .ok res ∧
      res.times = (List.range wd.count).map (fun i => .fin (expoBool A (wd.inMask g i) (wd.tau i) (wd.records i - 1))) ∧
      res.message = (if (∃ i, i < wd.count ∧ 2 ≤ wd.records i ∧ wd.inMask g i (wd.records i - 1) = true) then
        some ((List.range wd.count).filter fun i => decide (2 ≤ wd.records i ∧ wd.inMask g i (wd.records i - 1) = true)) else none) := by
  have hm : mapE (exposureOneOf A boolKind wd g) (List.range wd.xinds.length) = .ok ((List.range wd.xinds.length).map fun i =>
      (.fin (expoBool A (wd.inMask g i) (wd.tau i) (wd.records i - 1)), decide (2 ≤ wd.records i ∧ wd.inMask g i (wd.records i - 1) = true))) := by
    rw [mapE_ok_iff]
    refine List.forall₂_iff_get.2 ⟨by simp, fun i h1 h2 => ?_⟩
    simp only [List.get_eq_getElem, List.getElem_range, List.getElem_map]
    exact exposureBool_one hp hr (by simpa [WalkData.count] using h1)
  unfold exposureTimeOf
  rw [hm]
  simp only [ok_bind]
  refine ⟨_, rfl, by simp [WalkData.count, Function.comp_def], ?_⟩
  have hf : (List.range wd.xinds.length).filter (fun i => (((((List.range wd.xinds.length).map fun i =>
      ((.fin (expoBool A (wd.inMask g i) (wd.tau i) (wd.records i - 1)) : Fl K),
        decide (2 ≤ wd.records i ∧ wd.inMask g i (wd.records i - 1) = true))))[i]?).map (·.2)).getD false) =
      (List.range wd.count).filter fun i => decide (2 ≤ wd.records i ∧ wd.inMask g i (wd.records i - 1) = true) := by
    apply List.filter_congr
    intro i hi
    rw [List.getElem?_map, List.getElem?_range (by simpa using hi)]
    rfl
  rw [hf]
  by_cases h : ∃ i, i < wd.count ∧ 2 ≤ wd.records i ∧ wd.inMask g i (wd.records i - 1) = true
  · rw [if_pos h, if_pos]
    obtain ⟨i, hi, h1⟩ := h
    apply List.length_pos_of_mem (a := i)
    simp [hi, h1]
  · rw [if_neg h, if_neg]
    simp only [not_lt, Nat.le_zero, List.length_eq_zero_iff, List.filter_eq_nil_iff]
    intro i hi
    simp only [decide_eq_true_eq]
    exact fun hh => h ⟨i, by simpa using hi, hh⟩

theorem expoBool_exact (r : Nat → Bool) (τ : Nat → K) (k : Nat) : expoBool Arith.exact r τ k =
    1 / 2 * (∑ n ∈ Finset.range k, if r n ∧ r (n + 1) then τ (n + 1) - τ n else 0) +
    1 / 2 * ∑ n ∈ Finset.range k, if r n ≠ r (n + 1) then τ (n + 1) - τ n else 0 := by
  induction k with
  | zero => simp [expoBool]
  | succ k ih =>
    rw [Finset.sum_range_succ, Finset.sum_range_succ, expoBool, ih]
    simp only [Arith.exact]
    cases r k <;> cases r (k + 1) <;> simp <;> ring

theorem expoRec_mask (r : Nat → Bool) (τ : Nat → K) (k : Nat) : expoRec Arith.exact (fun n => if r n then 1 else 0) τ k =
    (∑ n ∈ Finset.range k, if r n ∧ r (n + 1) then τ (n + 1) - τ n else 0) +
    1 / 2 * ∑ n ∈ Finset.range k, if r n ≠ r (n + 1) then τ (n + 1) - τ n else 0 := by
  induction k with
  | zero => simp [expoRec]
  | succ k ih =>
    rw [Finset.sum_range_succ, Finset.sum_range_succ, expoRec, ih]
    simp only [Arith.exact]
    cases r k <;> cases r (k + 1) <;> simp <;> ring

theorem regVal_mask (wd : WalkData K) (m : Grid Bool) (i : Nat) : wd.regVal (maskInt m) i = fun n => if wd.inMask m i n then 1 else 0 := by
  funext n
  unfold WalkData.regVal WalkData.inMask maskInt Grid.map
  cases wd.posAt i n <;> simp

end Dorado
