import Verif.Lemmas.TimeMap
import Verif.Lemmas.Float
import Verif.Model.Exposure
import Verif.Props.Api

/-! # C86, C87: the time origin and the cell size

Two runs are compared call by call: one as given, the other with all times transformed. -/

set_option linter.unusedSectionVars false

namespace Dorado

variable {K : Type} [Field K] [LinearOrder K] [IsStrictOrderedRing K] [FloorRing K]

/-! ## The transformations -/

theorem plus_timeMap (c : K) : TimeMap Arith.exact (Fl.plus c) id where
  add t d := by cases t <;> cases d <;> simp [Arith.add, Fl.plus, Arith.exact, add_right_comm]
  mulr _ _ := rfl
  mull _ _ := rfl
  zero := rfl
  eq0 _ := rfl

theorem plus_timeShift (c : K) : TimeShift Arith.exact (Fl.plus c) id :=
  ⟨rfl, fun a b => by cases a <;> cases b <;> simp [Arith.add, Arith.sub, Fl.neg, Fl.plus, Arith.exact]⟩

variable {A : Arith K} {F : Fun K A}

/-- Rounding commutes with multiplication by `c`: any `c` in exact arithmetic, powers of two in binary floating point arithmetic. -/
def ScaleExact (A : Arith K) (c : K) : Prop := ∀ x, A.rnd (c * x) = c * A.rnd x

theorem infMul_scale {c : K} (hc : 0 < c) (x : K) : Arith.infMul (c * x) = Arith.infMul x := by
  unfold Arith.infMul
  have : 0 < c * x ↔ 0 < x := by rw [mul_pos_iff_of_pos_left hc]
  simp [this, hc.ne']

theorem times_infMul (c x : K) : Fl.times c (Arith.infMul x) = Arith.infMul x := by
  unfold Arith.infMul
  split_ifs <;> rfl

theorem times_fin (c x : K) : Fl.times c (.fin x) = .fin (c * x) := rfl
theorem times_nan (c : K) : Fl.times c .nan = .nan := rfl
theorem times_pinf (c : K) : Fl.times c .pinf = .pinf := rfl
theorem times_ninf (c : K) : Fl.times c .ninf = .ninf := rfl

theorem times_neg (c : K) (x : Fl K) : Fl.times c (Fl.neg x) = Fl.neg (Fl.times c x) := by
  cases x <;> simp [Fl.times, Fl.neg]

theorem mul_times {c : K} (hc : 0 < c) (hA : ScaleExact A c) (x d : Fl K) : A.mul x (Fl.times c d) = Fl.times c (A.mul x d) := by
  cases x <;> cases d <;> simp [Arith.mul, times_fin, times_nan, times_pinf, times_ninf, infMul_scale hc, times_infMul, times_neg, mul_left_comm, hA _]

theorem times_mul {c : K} (hc : 0 < c) (hA : ScaleExact A c) (x d : Fl K) : A.mul (Fl.times c d) x = Fl.times c (A.mul d x) := by
  cases x <;> cases d <;> simp [Arith.mul, times_fin, times_nan, times_pinf, times_ninf, infMul_scale hc, times_infMul, times_neg, mul_assoc, hA _]

theorem add_times {c : K} (hA : ScaleExact A c) (x d : Fl K) : A.add (Fl.times c x) (Fl.times c d) = Fl.times c (A.add x d) := by
  cases x <;> cases d <;> simp [Arith.add, Fl.times, ← mul_add, hA _]

theorem times_timeMap {c : K} (hc : 0 < c) (hA : ScaleExact A c) : TimeMap A (Fl.times c) (Fl.times c) where
  add := add_times hA
  mulr d x := times_mul hc hA x d
  mull d x := mul_times hc hA x d
  zero := by simp [Fl.times]
  eq0 d := by cases d <;> simp [Fl.times, Fl.eq, hc.ne']

/-- Any factor in exact arithmetic. -/
theorem scaleExact_exact (c : K) : ScaleExact (K := K) Arith.exact c := fun _ => rfl

/-- Powers of two in binary floating point arithmetic. -/
theorem scaleExact_float (p : Nat) (k : Int) : ScaleExact (K := K) (Arith.float p) ((2 : K) ^ k) := by
  have h2 : (0 : K) < 2 ^ k := zpow_pos two_pos _
  have key : ∀ x : K, 0 < x → rndPos (p + 1) (2 ^ k * x) = 2 ^ k * rndPos (p + 1) x := by
    intro x hx
    have hl : Int.log 2 ((2 : K) ^ k * x) = k + Int.log 2 x := by
      obtain ⟨h3, h4⟩ := log_bounds hx
      have hkx : 0 < (2 : K) ^ k * x := mul_pos h2 hx
      obtain ⟨h5, h6⟩ := log_bounds hkx
      have e1 : (2 : K) ^ (k + Int.log 2 x) ≤ 2 ^ k * x := by
        rw [zpow_add₀ two_ne_zero]
        exact mul_le_mul_of_nonneg_left h3 h2.le
      have e2 : (2 : K) ^ k * x < 2 ^ (k + Int.log 2 x + 1) := by
        rw [add_assoc, zpow_add₀ two_ne_zero]
        exact mul_lt_mul_of_pos_left h4 h2
      have a := (zpow_lt_zpow_iff_right₀ (one_lt_two (α := K))).1 (lt_of_le_of_lt h5 e2)
      have b := (zpow_lt_zpow_iff_right₀ (one_lt_two (α := K))).1 (lt_of_le_of_lt e1 h6)
      omega
    have hu : (ulp (p + 1) (k + Int.log 2 x) : K) = 2 ^ k * ulp (p + 1) (Int.log 2 x) := by
      unfold ulp
      rw [← zpow_add₀ two_ne_zero]
      congr 1
      omega
    unfold rndPos
    rw [hl, hu, mul_div_mul_left _ _ h2.ne']
    ring
  intro x
  show rndFloat (p + 1) (2 ^ k * x) = 2 ^ k * rndFloat (p + 1) x
  rcases lt_trichotomy x 0 with h | h | h
  · have h1 : ¬ 0 < x := not_lt.2 h.le
    have h3 : (2 : K) ^ k * x < 0 := mul_neg_of_pos_of_neg h2 h
    unfold rndFloat
    rw [if_neg h3.ne, if_neg (not_lt.2 h3.le), if_neg h.ne, if_neg h1, ← mul_neg, key _ (by linarith), mul_neg]
  · simp [h, rndFloat]
  · unfold rndFloat
    rw [if_neg (mul_pos h2 h).ne', if_pos (mul_pos h2 h), if_neg h.ne', if_pos h, key x h]

/-! ## Exposure times -/

theorem foldE_mapRel {α σ : Type} {h : σ → σ} {f g : σ → α → Except PyErr σ} (hfg : ∀ s a, RelE (fun x y => y = h x) (f s a) (g (h s) a)) (s : σ)
    (l : List α) : RelE (fun x y => y = h x) (foldE f s l) (foldE g (h s) l) := by
  induction l generalizing s with
  | nil => exact .ok rfl
  | cons a l ih =>
    simp only [foldE]
    refine (hfg s a).bind ?_
    rintro s1 _ rfl
    exact ih s1

theorem exposure_map {φ ψ : Fl K → Fl K} (hsub : ∀ a b, A.sub (φ a) (φ b) = ψ (A.sub a b)) (hadd : ∀ a b, A.add (ψ a) (ψ b) = ψ (A.add a b))
    (hmul : ∀ x d, A.mul x (ψ d) = ψ (A.mul x d)) (h0 : ψ (.fin 0) = .fin 0) (wd : WalkData K) (region : Grid Int) :
    exposureTime A (wd.mapTimes φ) region = (exposureTime A wd region).map fun r => { r with times := r.times.map ψ } := by
  have h1 : RelE (fun x y => y = x.map fun q => (ψ q.1, q.2)) (mapE (exposureOne A wd region) (List.range wd.xinds.length))
      (mapE (exposureOne A (wd.mapTimes φ) region) (List.range wd.xinds.length)) := by
    refine mapE_mapRel (fun i => ?_) _
    unfold exposureOne
    refine (RelE.eq _).bind ?_
    rintro xs _ rfl
    refine (RelE.eq _).bind ?_
    rintro ys _ rfl
    refine (RelE.eq _).bind ?_
    rintro prev _ rfl
    refine (listGet_mapRel (List.map φ) wd.times i).bind ?_
    rintro ts _ rfl
    rw [List.length_map]
    have := foldE_mapRel (h := fun st : ExpoState K => { st with acc := ψ st.acc }) (f := exposureStep A region xs ys ts)
      (g := exposureStep A region xs ys (ts.map φ)) (fun st j => by
        unfold exposureStep
        refine (RelE.eq _).bind ?_
        rintro cur _ rfl
        refine (listGet_mapRel φ ts j).bind ?_
        rintro t1 _ rfl
        refine (listGet_mapRel φ ts (j - 1)).bind ?_
        rintro t0 _ rfl
        refine .ok ?_
        simp only [List.length_map, hsub, hmul, hadd]
        split_ifs <;> rfl) { acc := .fin 0, prev := prev, short := false } (List.range' 1 (ts.length - 1))
    simp only [h0] at this
    refine this.bind ?_
    rintro st _ rfl
    exact .ok rfl
  have e : (wd.mapTimes φ).xinds = wd.xinds := rfl
  unfold exposureTime
  rw [e]
  generalize mapE (exposureOne A wd region) (List.range wd.xinds.length) = a at h1
  generalize mapE (exposureOne A (wd.mapTimes φ) region) (List.range wd.xinds.length) = b at h1
  cases h1 with
  | error e => rfl
  | ok h =>
    subst h
    simp only [ok_bind]
    show Except.ok _ = Except.ok _
    have hs : ∀ (l : List (Fl K × Bool)) (i : Nat), (((l.map fun q => (ψ q.1, q.2))[i]?).map (·.2)).getD false = ((l[i]?).map (·.2)).getD false := by
      intro l i
      rw [List.getElem?_map]
      cases l[i]? <;> rfl
    simp only [hs, List.map_map]
    rfl

/-! ## C86 -/

variable {P : PObj K}

/-- Exact arithmetic: if all seed times, target times and times in previous walk data are later by `c`, then everything seen of any sequence of
calls on a new object is the same, with all recorded times later by `c`: positions, sampled variables, warnings, exceptions, consumption of
random numbers. Both modes. -/
theorem C86_shift {F : Fun K Arith.exact} (c : K) (ω : Nat → K) (pos : Nat) (cs : List (ApiCall K)) :
    transcript Arith.exact F P ω (cs.map (ApiCall.mapTimes (Fl.plus c))) (initState Arith.exact F P pos) =
      (transcript Arith.exact F P ω cs (initState Arith.exact F P pos)).map (Seen.mapTimes (Fl.plus c)) :=
  transcript_map (dx' := P.dx) (plus_timeMap c) (fun _ => rfl) ω cs (.inr (plus_timeShift c)) pos

/-- Exposure times do not depend on the time origin. -/
theorem C86_exposure (c : K) (wd : WalkData K) (region : Grid Int) :
    exposureTime Arith.exact (wd.mapTimes (Fl.plus c)) region = exposureTime Arith.exact wd region := by
  rw [exposure_map (ψ := id) (plus_timeShift c).2 (fun _ _ => rfl) (fun _ _ => rfl) rfl]
  cases exposureTime Arith.exact wd region with
  | error e => rfl
  | ok r => simp [Except.map]

/-! ## C87 -/

/-- Multiplying `dx` by `c` only changes the attribute `dx` of the object built. -/
theorem C87_object {p : Params K} {d c : K} (hd : p.dx = some d) :
    initParticles A F { p with dx := some (c * d) } = (initParticles A F p).map fun P => { P with dx := c * d } := by
  have e1 : initParticles A F p = (initParticles A F { p with dx := some d }) := by rw [← hd]
  rw [e1]
  unfold initParticles initDx
  simp only [ok_bind]
  show (initDepth A p >>= _) = Except.map _ (initDepth A p >>= _)
  cases initDepth A p with
  | error e => rfl
  | ok depth =>
    show (initStage A p depth >>= _) = Except.map _ (initStage A p depth >>= _)
    cases initStage A p depth with
    | error e => rfl
    | ok stage =>
      show (initFlow A p depth >>= _) = Except.map _ (initFlow A p depth >>= _)
      cases initFlow A p depth with
      | error e => rfl
      | ok fl =>
        obtain ⟨qx, qy, u, v⟩ := fl
        show (checkRoi p depth >>= _) = Except.map _ (checkRoi p depth >>= _)
        cases checkRoi p depth with
        | error e => rfl
        | ok _ =>
          show (initCellType p depth _ >>= _) = Except.map _ (initCellType p depth _ >>= _)
          cases initCellType p depth (p.dryDepth.getD (A.rnd (1 / 10))) <;> rfl

/-- `dx`, the seed times and the times in previous walk data multiplied by `c > 0`: everything seen of any sequence of calls without target time on
the new object is the same, with all recorded times multiplied by `c`. Any rounding that commutes with multiplication by `c`. -/
theorem C87_scale {c d : K} (hc : 0 < c) (hA : ScaleExact A c) {p : Params K} (hd : p.dx = some d) (hP : initParticles A F p = .ok P) (ω : Nat → K)
    (pos : Nat) (cs : List (ApiCall K)) (hcs : ∀ x ∈ cs, x.NoTarget) :
    ∃ P', initParticles A F { p with dx := some (c * d) } = .ok P' ∧
      transcript A F P' ω (cs.map (ApiCall.mapTimes (Fl.times c))) (initState A F P' pos) =
        (transcript A F P ω cs (initState A F P pos)).map (Seen.mapTimes (Fl.times c)) := by
  refine ⟨{ P with dx := c * d }, by rw [C87_object hd, hP]; rfl, ?_⟩
  have hdx : P.dx = d := by
    have h := C87_object (A := A) (F := F) (c := 1) hd
    rw [one_mul] at h
    have e1 : initParticles A F p = (initParticles A F { p with dx := some d }) := by rw [← hd]
    rw [← e1, hP] at h
    simp only [Except.map, Except.ok.injEq] at h
    rw [h]
  refine transcript_map (φ := Fl.times c) (dx' := c * d) (times_timeMap hc hA) (fun e => ?_) ω cs (.inl hcs) pos
  rw [hdx]
  exact mul_times hc hA e (.fin d)

/-- Exposure times are multiplied by `c` with the times. -/
theorem C87_exposure {c : K} (hc : 0 < c) (hA : ScaleExact A c) (wd : WalkData K) (region : Grid Int) :
    exposureTime A (wd.mapTimes (Fl.times c)) region = (exposureTime A wd region).map fun r => { r with times := r.times.map (Fl.times c) } :=
  exposure_map (fun a b => by
    unfold Arith.sub
    rw [← times_neg, add_times hA]) (add_times hA) (mul_times hc hA) (by simp [Fl.times]) wd region

/-! ## Concrete cases -/

/-- Positions and times seen in the attribute `walk_data` after each call. -/
def seenWalks (l : List (Seen ℚ)) : List (Option (List (List Int) × List (List (Fl ℚ)))) :=
  l.map fun x => x.1.toOption.map fun _ => (x.2.1.map fun w => (w.xinds, w.times)).getD ([], [])

/-- C86: two particles started at time 0 and moved to target time 3; then started at 10 and moved to 13. -/
def timedCalls (t : ℚ) : List (ApiCall ℚ) :=
  [.generate (.int 2) (.list [.int 2]) (.list [.int 2]) (.flt (.fin t)) (.str "exact") none, .run (some (.fin (t + 3))) 10]

example : timedCalls 10 = (timedCalls 0).map (ApiCall.mapTimes (Fl.plus 10)) := by
  norm_num [timedCalls, ApiCall.mapTimes, PyVal.mapTime, Fl.plus]

example : seenWalks (transcript Arith.exact Fun.toy (objOf chan) (fun _ => 1 / 2) (timedCalls 10) (initState Arith.exact Fun.toy (objOf chan) 0)) =
    [some ([[2], [2]], [[.fin 10], [.fin 10]]),
     some ([[2, 3], [2, 3]], [[.fin 10, .fin (10 + 5670000012600000007 / 360000000000000000)], [.fin 10, .fin (10 + 5670000012600000007 / 360000000000000000)]])] := by
  decide +kernel

example : (exposureTime Arith.exact ({ xinds := [[2, 3]], yinds := [[2, 2]], times := [[.fin 10, .fin 14]], opt := [] } : WalkData ℚ)
    ⟨5, 5, fun i _ => if i = 3 then 1 else 0⟩).toOption.map (fun r => (r.times, r.message)) = some ([.fin 2], some [0]) := by decide +kernel

/-- C87: two particles started at time `t` and moved once. -/
def stepCalls (t : ℚ) : List (ApiCall ℚ) :=
  [.generate (.int 2) (.list [.int 2]) (.list [.int 2]) (.flt (.fin t)) (.str "exact") none, .run none 10]

example : chan.dx = some 10 ∧ (∀ x ∈ stepCalls 1, x.NoTarget) ∧ stepCalls 3 = (stepCalls 1).map (ApiCall.mapTimes (Fl.times 3)) := by
  refine ⟨rfl, by simp [stepCalls, ApiCall.NoTarget], ?_⟩
  norm_num [stepCalls, ApiCall.mapTimes, PyVal.mapTime, Fl.times]

set_option synthInstance.maxSize 1024 in
/-- Cells of 10 m and of 30 m. -/
example : (initParticles Arith.exact Fun.toy { chan with dx := some (3 * 10) }).toOption.map (fun P' =>
      seenWalks (transcript Arith.exact Fun.toy P' (fun _ => 1 / 2) (stepCalls 3) (initState Arith.exact Fun.toy P' 0))) =
    some [some ([[2], [2]], [[.fin 3], [.fin 3]]),
      some ([[2, 3], [2, 3]], [[.fin 3, .fin (3 * (1 + 5670000012600000007 / 360000000000000000))], [.fin 3, .fin (3 * (1 + 5670000012600000007 / 360000000000000000))]])] := by
  decide +kernel

/-- With a target time the first estimate of the step, 0.1, does not scale: cells of 10 m and target 0.06, the particles move; cells of 5 m and
target 0.03, they stay. -/
theorem C87_target_counterexample :
    (initParticles Arith.exact Fun.toy chan).toOption.map (fun P' => (seenWalks (transcript Arith.exact Fun.toy P' (fun _ => 1 / 2)
        [.generate (.int 1) (.list [.int 2]) (.list [.int 2]) (.flt (.fin 0)) (.str "exact") none, .run (some (.fin (6 / 100))) 10]
        (initState Arith.exact Fun.toy P' 0))).map fun x => x.map (·.1)) = some [some [[2]], some [[2, 3]]] ∧
    (initParticles Arith.exact Fun.toy { chan with dx := some (1 / 2 * 10) }).toOption.map (fun P' => (seenWalks (transcript Arith.exact Fun.toy P' (fun _ => 1 / 2)
        [.generate (.int 1) (.list [.int 2]) (.list [.int 2]) (.flt (.fin 0)) (.str "exact") none, .run (some (.fin (1 / 2 * (6 / 100)))) 10]
        (initState Arith.exact Fun.toy P' 0))).map fun x => x.map (·.1)) = some [some [[2]], some [[2]]] := by
  decide +kernel

end Dorado
