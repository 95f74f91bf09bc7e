import Verif.Lemmas.Hist
import Verif.Lemmas.Init
import Verif.Model.StepperTuples

/-! Helper lemmas: travel time of one step. -/

set_option linter.unusedSectionVars false

namespace Dorado

variable {K : Type} [Field K] [LinearOrder K] [IsStrictOrderedRing K] {A : Arith K} {F : Fun K A}

/-- The ingredients of the time of one step over the distance `D`. -/
structure TimeParts (A : Arith K) (F : Fun K A) (P : PObj K) (ω : Nat → K) (k : Nat) (p q : Int × Int) (D : K) (dt : Fl K)
    (i j i' j' : Nat) (vo vn va c diff : K) : Prop where
  oldRow : pyIdx P.depth.rows p.1 = .ok i
  oldCol : pyIdx P.depth.cols p.2 = .ok j
  newRow : pyIdx P.depth.rows q.1 = .ok i'
  newCol : pyIdx P.depth.cols q.2 = .ok j'
  oldVel : P.velocity.at' i j = .fin vo
  newVel : P.velocity.at' i' j' = .fin vn
  angle : P.velocityAngle.at' i j = .fin va
  vo_pos : eps8 A ≤ vo
  vn_pos : eps8 A ≤ vn
  lt : k < 9
  c_nonneg : 0 ≤ c
  c_eq : ∀ a, P.angles k = .fin a → c = max 0 (F.cos (A.rnd (a - va)))
  diff_pos : 0 < P.diffCoeff → ∃ n, diff = A.rnd (A.rnd (1 / 2 - ω n) * P.diffCoeff)
  diff_zero : ¬ 0 < P.diffCoeff → diff = 0
  eq : dt = .fin (A.rnd (A.rnd (A.rnd (1 / 2 * A.rnd (D * c)) * A.rnd (A.rnd (1 / vo) + A.rnd (1 / vn))) * A.rnd (1 + diff)))

theorem travelTimeTuple_inv {P : PObj K} (Fd : Fields A P) {ω : Nat → K} {m m' k : Nat} {p q : Int × Int} {D : K} {dt : Fl K}
    (h : travelTimeTuple A F P ω m k p q (.fin D) = .ok (dt, m')) :
    ∃ i j i' j' vo vn va c diff, TimeParts A F P ω k p q D dt i j i' j' vo vn va c diff := by
  unfold travelTimeTuple at h
  simp only [bind_ok] at h
  obtain ⟨ov, hov, nv, hnv, h⟩ := h
  unfold Grid.get at hov hnv
  simp only [bind_ok, pure_ok] at hov hnv
  obtain ⟨i, hi, j, hj, rfl⟩ := hov
  obtain ⟨i', hi', j', hj', rfl⟩ := hnv
  rw [Fd.vel_rows] at hi hi'
  rw [Fd.vel_cols] at hj hj'
  obtain ⟨vo, hvo, hvo'⟩ := Fd.vel i j (pyIdx_lt hi) (pyIdx_lt hj)
  obtain ⟨vn, hvn, hvn'⟩ := Fd.vel i' j' (pyIdx_lt hi') (pyIdx_lt hj')
  obtain ⟨va, hva⟩ := Fd.ang.1 i j (by rw [Fd.ang.2.1]; exact pyIdx_lt hi) (by rw [Fd.ang.2.2]; exact pyIdx_lt hj)
  have hvo0 : vo ≠ 0 := (lt_of_lt_of_le (eps8_pos A) hvo').ne'
  have hvn0 : vn ≠ 0 := (lt_of_lt_of_le (eps8_pos A) hvn').ne'
  have hang : P.velocityAngle.get p.1 p.2 = .ok (.fin va) := by
    unfold Grid.get
    rw [Fd.ang.2.1, Fd.ang.2.2, hi, hj, ← hva]
    rfl
  -- the diffusion term
  obtain ⟨diff, pos', hd, hdp, hdz⟩ : ∃ (diff : K) (pos' : Nat),
      (if 0 < P.diffCoeff then (A.mul (A.sub (.fin (1 / 2)) (.fin (ω m))) (.fin P.diffCoeff), m + 1) else (Fl.fin 0, m)) = (Fl.fin diff, pos') ∧
      (0 < P.diffCoeff → ∃ n, diff = A.rnd (A.rnd (1 / 2 - ω n) * P.diffCoeff)) ∧ (¬ 0 < P.diffCoeff → diff = 0) := by
    by_cases hD : 0 < P.diffCoeff
    · rw [if_pos hD]
      exact ⟨_, _, rfl, fun _ => ⟨m, by rw [sub_eq_add_neg]⟩, fun h => absurd hD h⟩
    · rw [if_neg hD]
      exact ⟨_, _, rfl, fun h => absurd h hD, fun _ => rfl⟩
  rw [hd] at h
  simp only [hang] at h
  obtain ⟨a, ha, va', hva', cc, hcc, h⟩ := h
  injection hva' with hva'
  subst hva'
  simp only [pure_ok, Prod.mk.injEq] at h
  obtain ⟨h, -⟩ := h
  have hk : k < 9 ∧ P.angles k = a := by
    unfold flat9 at ha
    split at ha
    · injection ha with ha; exact ⟨‹_›, ha⟩
    · cases ha
  obtain ⟨c, hc, hc0, hceq⟩ : ∃ c, Fl.pyMax (.fin 0) cc = .fin c ∧ 0 ≤ c ∧ ∀ a', a = .fin a' → c = max 0 (F.cos (A.rnd (a' - va))) := by
    unfold mathCos at hcc
    cases a with
    | nan =>
      simp only [Arith.sub, Arith.add] at hcc
      injection hcc with hcc
      subst hcc
      exact ⟨0, rfl, le_refl _, by simp⟩
    | ninf => simp [Arith.sub, Arith.add, Fl.neg] at hcc
    | pinf => simp [Arith.sub, Arith.add, Fl.neg] at hcc
    | fin x =>
      simp only [Arith.sub, Arith.add, Fl.neg] at hcc
      injection hcc with hcc
      subst hcc
      refine ⟨max 0 (F.cos (A.rnd (x - va))), ?_, le_max_left _ _, ?_⟩
      · unfold Fl.pyMax
        simp only [Fl.lt, ← sub_eq_add_neg, decide_eq_true_eq]
        split
        · rw [max_eq_right (le_of_lt ‹_›)]
        · rw [max_eq_left (not_lt.1 ‹_›)]
      · intro a' ha'
        injection ha' with ha'
        rw [ha']
  refine ⟨i, j, i', j', vo, vn, va, c, diff, ⟨hi, hj, hi', hj', hvo, hvn, hva, hvo', hvn', hk.1, hc0, ?_, hdp, hdz, ?_⟩⟩
  · intro a' ha'
    exact hceq a' (by rw [← hk.2, ha'])
  · rw [← h, hc, hvo, hvn]
    simp only [Arith.mul, Arith.div, Arith.add, if_neg hvo0, if_neg hvn0]

/-- For a particle that moves the tuple and the list call compute the same time. -/
theorem calcTravelTime_moved {P : PObj K} {ω : Nat → K} {m k : Nat} {p q : Int × Int} {d : Fl K} (hne : p ≠ q) :
    calcTravelTime A F P ω m k p q d = travelTimeTuple A F P ω m k p q d := by
  unfold calcTravelTime
  rw [if_pos hne]
  rfl

theorem calcTravelTime_inv {P : PObj K} (Fd : Fields A P) {ω : Nat → K} {m m' k : Nat} {p q : Int × Int} {D : K} {dt : Fl K} (hne : p ≠ q)
    (h : calcTravelTime A F P ω m k p q (.fin D) = .ok (dt, m')) :
    ∃ i j i' j' vo vn va c diff, TimeParts A F P ω k p q D dt i j i' j' vo vn va c diff := by
  rw [calcTravelTime_moved hne] at h
  exact travelTimeTuple_inv Fd h

/-- Travel times of moves are finite; non-negative if `diff_coeff <= 2` and the distance is non-negative. -/
theorem TimeParts.nonneg {P : PObj K} {ω : Nat → K} (hω : Draws ω) (hD : P.diffCoeff ≤ 2) (hh : A.rnd (-(1 / 2)) = -(1 / 2))
    (h1 : A.rnd (-1) = -1) {k : Nat} {p q : Int × Int} {D : K} (hD0 : 0 ≤ D) {dt : Fl K} {i j i' j' : Nat} {vo vn va c diff : K}
    (h : TimeParts A F P ω k p q D dt i j i' j' vo vn va c diff) : ∃ x, dt = .fin x ∧ 0 ≤ x := by
  refine ⟨_, h.eq, ?_⟩
  have hvo := lt_of_lt_of_le (eps8_pos A) h.vo_pos
  have hvn := lt_of_lt_of_le (eps8_pos A) h.vn_pos
  have hdiff : -1 ≤ diff := by
    by_cases hp : 0 < P.diffCoeff
    · obtain ⟨n, rfl⟩ := h.diff_pos hp
      have h2 : -(1 / 2) ≤ A.rnd (1 / 2 - ω n) := by
        rw [← hh]
        exact A.mono _ _ (by have := (hω n).2; linarith)
      have h3 : -1 ≤ A.rnd (1 / 2 - ω n) * P.diffCoeff := by nlinarith
      have := A.mono _ _ h3
      rwa [h1] at this
    · rw [h.diff_zero hp]; norm_num
  refine rnd_nonneg (A := A) (mul_nonneg (rnd_nonneg (A := A) (mul_nonneg (rnd_nonneg (A := A) (mul_nonneg (by norm_num) (rnd_nonneg (A := A)
    (mul_nonneg hD0 h.c_nonneg)))) (rnd_nonneg (A := A) (add_nonneg (rnd_nonneg (A := A) (by positivity)) (rnd_nonneg (A := A) (by positivity))))))
    (rnd_nonneg (A := A) (by linarith)))

end Dorado
