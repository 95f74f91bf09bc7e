import Verif.Lemmas.Twin
import Verif.Props.Symmetry
import Verif.Props.TimeScale
import Verif.Props.TimeReal

/-! # C08 for whole runs: datum shift and discharge scaling

Everything seen of any sequence of calls is compared between the given and the transformed input, draw by draw. -/

set_option linter.unusedSectionVars false

namespace Dorado

variable {K : Type} [Field K] [LinearOrder K] [IsStrictOrderedRing K] [FloorRing K] {F : Fun K Arith.exact}

/-- Exact arithmetic: adding a constant to stage and topography changes nothing that is seen of any sequence of calls (positions, times, sampled
variables, warnings, exceptions, consumption of random numbers; with and without target times), if the stage itself is not tracked. -/
theorem C08_walks_datum (c : K) {p : Params K} (hv : ValidParams p) {P : PObj K} (hP : initParticles Arith.exact F p = .ok P)
    (hs : "stage" ∉ P.particleVars) (ω : Nat → K) (pos : Nat) (cs : List (ApiCall K)) :
    ∃ P', initParticles Arith.exact F (p.shiftDatum c) = .ok P' ∧
      transcript Arith.exact F P' ω cs (initState Arith.exact F P' pos) = transcript Arith.exact F P ω cs (initState Arith.exact F P pos) := by
  obtain ⟨P', hP', hw⟩ := C08_datum_shift c hv hP
  refine ⟨P', hP', ?_⟩
  obtain ⟨u, v, X⟩ := init_parts _ _ hP
  obtain ⟨u', v', X'⟩ := init_parts _ _ hP'
  have hB : Built Arith.exact F P := ⟨p, hv, hP⟩
  have hB' : Built Arith.exact F P' := ⟨_, valid_shift hv, hP'⟩
  have G := hB.good
  have G' := hB'.good
  have ed : P'.depth = P.depth := by
    have := X'.depth
    rw [initDepth_shift, X.depth] at this
    exact (Except.ok.inj this).symm
  have ef : (P'.qx, P'.qy, u', v') = (P.qx, P.qy, u, v) := by
    have h := X'.flow
    rw [ed] at h
    have h2 : initFlow Arith.exact (p.shiftDatum c) P.depth = initFlow Arith.exact p P.depth := rfl
    rw [h2, X.flow] at h
    exact (Except.ok.inj h).symm
  simp only [Prod.mk.injEq] at ef
  obtain ⟨e1, e2, e3, e4⟩ := ef
  have eu : P'.u = P.u := by rw [X'.uEq, X.uEq, e3]
  have ev : P'.v = P.v := by rw [X'.vEq, X.vEq, e4]
  have evel : P'.velocity = P.velocity := by rw [X'.vel, X.vel, e3, e4]
  have eang : P'.velocityAngle = P.velocityAngle := by rw [X'.ang, X.ang, eu, ev]
  have ect : P'.cellType = P.cellType := by
    have h := X'.ct
    have h2 := X.ct
    rw [ed, X'.dry] at h
    rw [X.dry] at h2
    exact Except.ok.inj (h.symm.trans h2)
  have H : Twin Arith.exact F Eq P P' :=
    { good := G, good' := G'
      rows := by rw [G'.stage_rows, G.stage_rows, ed]
      cols := by rw [G'.stage_cols, G.stage_cols, ed]
      steepest := by rw [X'.steepest, X.steepest]; rfl
      iwalk := by rw [X'.iwalk, X.iwalk]; rfl
      jwalk := by rw [X'.jwalk, X.jwalk]; rfl
      distances := by rw [X'.distances, X.distances]; rfl
      dx := Option.some.inj (X'.dx.symm.trans X.dx)
      edges := by rw [ect]
      vars := by rw [X'.vars, X.vars]; rfl
      roi := by rw [X'.roi, X.roi]; rfl
      verbose := by rw [X'.verbose, X.verbose]; rfl
      avail := by
        intro w hw
        unfold availVar
        have : w ≠ "stage" := fun h => hs (h ▸ hw)
        rw [ed, e1, e2, eu, ev, if_neg this, if_neg this]
      weight := by
        intro i j hi hj
        rw [G.stage_rows] at hi
        rw [G.stage_cols] at hj
        exact hw i j hi hj
      time := fun _ ω cell a b d => Twin.sameTime evel eang (by rw [X'.diff, X.diff]; rfl) (by rw [X'.angles, X.angles]; rfl) (fun _ _ h => h.2.2)
        (fun _ _ _ h => ⟨h.1, h.2.1, rfl⟩) ω cell a b d }
  exact (seenRel_eq ((H.routes (T := Eq) ω fun _ _ _ _ h1 h2 => by rw [h1, h2]).alike.transcript (forall₂_refl (callRel_refl _ ω) cs)
    (Twin.init _ _ _ P P' pos))).symm

/-! ## Discharge scaling -/

/-- The variables that change when the flow is scaled. -/
def flowVars : List String := ["qx", "qy", "u", "v"]

theorem scaled_object {c : K} (hc : 0 < c) {p : Params K} {P P' : PObj K} {u v u' v' : Grid (Fl K)} (X : Parts Arith.exact F p P u v)
    (X' : Parts Arith.exact F (p.scaleFlow c) P' u' v') :
    P'.depth = P.depth ∧ P'.cellType = P.cellType ∧ u' = u.map (Arith.exact.mul (.fin c)) ∧ v' = v.map (Arith.exact.mul (.fin c)) ∧
      P'.stage = P.stage := by
  have ed : P'.depth = P.depth := by
    have h := X'.depth
    have h2 : initDepth Arith.exact (p.scaleFlow c) = initDepth Arith.exact p := rfl
    rw [h2, X.depth] at h
    exact (Except.ok.inj h).symm
  have ef := X'.flow
  rw [ed, initFlow_scale hc X.flow] at ef
  have ef := (Except.ok.inj ef).symm
  simp only [Prod.mk.injEq] at ef
  refine ⟨ed, ?_, ef.2.2.1, ef.2.2.2, ?_⟩
  · have h := X'.ct
    have h2 := X.ct
    rw [ed, X'.dry] at h
    rw [X.dry] at h2
    exact Except.ok.inj (h.symm.trans h2)
  · have h := X'.stage
    rw [ed] at h
    exact Except.ok.inj (h.symm.trans X.stage)

/-- The twin of an object under a scaling of the flow, given how the times of single steps are related. -/
theorem scaled_twin {c : K} (hc : 0 < c) {p : Params K} (hv : ValidParams p) {P P' : PObj K} (hP : initParticles Arith.exact F p = .ok P)
    (hP' : initParticles Arith.exact F (p.scaleFlow c) = .ok P') (hs : ∀ w ∈ flowVars, w ∉ P.particleVars) {D : Fl K → Fl K → Prop}
    (htime : ∀ T ω cell a b d, RelM (StRel (TwinW Arith.exact F P P') T) D (travelTimeStmt Arith.exact F P ω cell a b d)
      (travelTimeStmt Arith.exact F P' ω cell a b d)) : Twin Arith.exact F D P P' := by
  obtain ⟨P2, hP2, hw⟩ := C08_discharge_scaling hc hv hP
  obtain rfl : P2 = P' := Except.ok.inj (hP2.symm.trans hP')
  obtain ⟨u, v, X⟩ := init_parts _ _ hP
  obtain ⟨u', v', X'⟩ := init_parts _ _ hP'
  obtain ⟨ed, ect, -, -, es⟩ := scaled_object hc X X'
  have hB : Built Arith.exact F P := ⟨p, hv, hP⟩
  have hB' : Built Arith.exact F P2 := ⟨_, valid_scale hv, hP'⟩
  have G := hB.good
  have G' := hB'.good
  exact
    { good := G, good' := G'
      rows := by rw [G'.stage_rows, G.stage_rows, ed]
      cols := by rw [G'.stage_cols, G.stage_cols, ed]
      steepest := by rw [X'.steepest, X.steepest]; rfl
      iwalk := by rw [X'.iwalk, X.iwalk]; rfl
      jwalk := by rw [X'.jwalk, X.jwalk]; rfl
      distances := by rw [X'.distances, X.distances]; rfl
      dx := Option.some.inj (X'.dx.symm.trans X.dx)
      edges := by rw [ect]
      vars := by rw [X'.vars, X.vars]; rfl
      roi := by rw [X'.roi, X.roi]; rfl
      verbose := by rw [X'.verbose, X.verbose]; rfl
      avail := by
        intro w hw
        have h : ∀ x ∈ flowVars, w ≠ x := fun x hx h => hs x hx (h ▸ hw)
        unfold availVar
        rw [ed, es]
        simp [h "qx" (by simp [flowVars]), h "qy" (by simp [flowVars]), h "u" (by simp [flowVars]), h "v" (by simp [flowVars])]
      weight := by
        intro i j hi hj
        rw [G.stage_rows] at hi
        rw [G.stage_cols] at hj
        exact hw i j hi hj
      time := htime }

/-- Exact arithmetic: multiplying all discharges and velocities by a positive constant changes nothing that is seen of any sequence of calls
without target times except the travel times: same positions, sampled variables, exceptions and consumption of random numbers, draw by draw; if
discharges and velocities themselves are not tracked. -/
theorem C08_walks_discharge {c : K} (hc : 0 < c) {p : Params K} (hv : ValidParams p) {P : PObj K} (hP : initParticles Arith.exact F p = .ok P)
    (hs : ∀ w ∈ flowVars, w ∉ P.particleVars) (ω : Nat → K) (pos : Nat) (cs : List (ApiCall K)) (hcs : ∀ x ∈ cs, x.NoTarget) :
    ∃ P', initParticles Arith.exact F (p.scaleFlow c) = .ok P' ∧
      (transcript Arith.exact F P' ω cs (initState Arith.exact F P' pos)).map Seen.untimed =
        (transcript Arith.exact F P ω cs (initState Arith.exact F P pos)).map Seen.untimed := by
  obtain ⟨P', hP', -⟩ := C08_discharge_scaling hc hv hP
  refine ⟨P', hP', ?_⟩
  obtain ⟨u, v, X⟩ := init_parts _ _ hP
  obtain ⟨u', v', X'⟩ := init_parts _ _ hP'
  obtain ⟨ed, ect, rfl, rfl, es⟩ := scaled_object hc X X'
  have ea : P'.angles = P.angles := by rw [X'.angles, X.angles]; rfl
  have edf : P'.diffCoeff = P.diffCoeff := by rw [X'.diff, X.diff]; rfl
  have Fd := initParticles_inv _ _ hv hP
  have Fd' := initParticles_inv _ _ (valid_scale hv) hP'
  have H : Twin Arith.exact F (fun _ _ => True) P P' := by
    refine scaled_twin hc hv hP hP' hs fun T ω cell a b d => ?_
    refine travelTimeStmt_rel (E := Eq) (V := fun _ _ => True) (G := fun x y => ∃ a b, x = Fl.fin a ∧ y = Fl.fin b) (C := fun _ _ => True)
      (fun _ _ h => h.2.2) (fun _ _ _ h => ⟨h.1, h.2.1, rfl⟩)
      (fun x y => gridGet_rel (by rw [X'.vel, X.vel]; rfl) (by rw [X'.vel, X.vel]; rfl) (fun _ _ _ _ => trivial) x y) edf ea (fun x y => ?_)
      (fun ang va va' h => ?_) trivial (fun _ _ _ _ _ _ _ _ _ _ _ _ _ _ _ => trivial) cell a b rfl
    · refine gridGet_rel (by rw [Fd.ang.2.1, Fd'.ang.2.1, ed]) (by rw [Fd.ang.2.2, Fd'.ang.2.2, ed]) (fun i j hi hj => ?_) x y
      obtain ⟨x, hx⟩ := Fd.ang.1 i j hi hj
      obtain ⟨y, hy⟩ := Fd'.ang.1 i j (by rw [Fd'.ang.2.1, ed, ← Fd.ang.2.1]; exact hi) (by rw [Fd'.ang.2.2, ed, ← Fd.ang.2.2]; exact hj)
      exact ⟨x, y, hx, hy⟩
    · obtain ⟨x, y, rfl, rfl⟩ := h
      cases ang <;> first | exact .ok trivial | exact .error _
  have hc2 : List.Forall₂ (CallRel (K := K) Arith.exact ω ω fun _ _ => True) cs cs := callRel_untimed hcs fun _ _ => .inl rfl
  exact untimed_eq ((H.routes (T := fun _ _ => True) ω fun _ _ _ _ _ _ => trivial).alike.transcript hc2 (Twin.init _ _ _ P P' pos))

/-! ## Travel times under discharge scaling -/

/-- The laws of the square root and of the angle of a vector: true of the real functions. -/
structure TrueFun (F : Fun K Arith.exact) : Prop where
  sqrt : ∀ x, 0 ≤ x → F.sqrt x * F.sqrt x = x
  arctan2 : ∀ c y x, 0 < c → F.arctan2 (c * y) (c * x) = F.arctan2 y x

/-- No velocity component is raised to 1e-8, neither before nor after multiplication by `c`. -/
def Unclamped (c : K) (P : PObj K) : Prop :=
  ∀ i j, i < P.depth.rows → j < P.depth.cols → ∃ x y, P.u.at' i j = .fin x ∧ P.v.at' i j = .fin y ∧
    eps8 Arith.exact < |x| ∧ eps8 Arith.exact < |y| ∧ eps8 Arith.exact ≤ c * |x| ∧ eps8 Arith.exact ≤ c * |y|

theorem TrueFun.scale (hF : TrueFun F) {c x : K} (hc : 0 < c) (hx : 0 ≤ x) : F.sqrt (c * c * x) = c * F.sqrt x := by
  have h1 := hF.sqrt (c * c * x) (mul_nonneg (mul_nonneg hc.le hc.le) hx)
  have h2 := hF.sqrt x hx
  have h3 := F.sqrt_nonneg (c * c * x)
  have h4 := mul_nonneg hc.le (F.sqrt_nonneg x)
  have : F.sqrt (c * c * x) * F.sqrt (c * c * x) = c * F.sqrt x * (c * F.sqrt x) := by
    rw [h1]
    calc c * c * x = c * c * (F.sqrt x * F.sqrt x) := by rw [h2]
      _ = _ := by ring
  exact (mul_self_inj h3 h4).1 this

theorem clamp_raw {x : K} {a : Fl K} (h : (if Fl.lt (Fl.abs a) (.fin (eps8 Arith.exact)) then Fl.fin (eps8 Arith.exact) else a) = .fin x) (hx : eps8 Arith.exact < |x|) : a = .fin x := by
  split at h
  · injection h with h
    rw [← h, abs_of_pos (eps8_pos _)] at hx
    exact absurd hx (lt_irrefl _)
  · exact h

theorem clamp_keep {x : K} (hx : eps8 Arith.exact ≤ |x|) : (if Fl.lt (Fl.abs (.fin x)) (.fin (eps8 Arith.exact)) then Fl.fin (eps8 Arith.exact) else Fl.fin x) = .fin x := by
  have : Fl.lt (Fl.abs (.fin x)) (.fin (eps8 Arith.exact)) = false := by
    simp only [Fl.abs, Fl.lt, decide_eq_false_iff_not, not_lt]
    exact hx
  rw [this]
  rfl

theorem speed_ok (hF : TrueFun F) {x y : K} (hx : eps8 Arith.exact ≤ |x|) :
    (fun z : Fl K => if Fl.lt z (.fin (eps8 Arith.exact)) then Fl.fin (eps8 Arith.exact) else z)
      (npSqrt Arith.exact F (Arith.exact.add (Arith.exact.mul (.fin x) (.fin x)) (Arith.exact.mul (.fin y) (.fin y)))) =
      .fin (F.sqrt (x * x + y * y)) ∧ 0 < F.sqrt (x * x + y * y) := by
  have h0 : 0 ≤ x * x + y * y := add_nonneg (mul_self_nonneg x) (mul_self_nonneg y)
  have he : (0 : K) < eps8 Arith.exact := eps8_pos _
  have hge : eps8 Arith.exact ≤ F.sqrt (x * x + y * y) := by
    by_contra hlt
    push Not at hlt
    have h1 : F.sqrt (x * x + y * y) * F.sqrt (x * x + y * y) < eps8 Arith.exact * eps8 Arith.exact :=
      mul_self_lt_mul_self (F.sqrt_nonneg _) hlt
    rw [hF.sqrt _ h0] at h1
    have h2 : eps8 Arith.exact * eps8 Arith.exact ≤ |x| * |x| := mul_self_le_mul_self he.le hx
    rw [abs_mul_abs_self] at h2
    have := mul_self_nonneg y
    linarith
  refine ⟨?_, lt_of_lt_of_le he hge⟩
  have e : npSqrt Arith.exact F (Arith.exact.add (Arith.exact.mul (.fin x) (.fin x)) (Arith.exact.mul (.fin y) (.fin y))) =
      .fin (F.sqrt (x * x + y * y)) := by
    show (if x * x + y * y < 0 then Fl.nan else .fin (F.sqrt (x * x + y * y))) = _
    rw [if_neg (not_lt.2 h0)]
  simp only [e]
  have : Fl.lt (.fin (F.sqrt (x * x + y * y))) (.fin (eps8 Arith.exact)) = false := by
    simp only [Fl.lt, decide_eq_false_iff_not, not_lt]
    exact hge
  rw [this]
  rfl

/-- Exact arithmetic with the true square root and angle: while no velocity component is raised to 1e-8, multiplying all discharges and velocities
by `c > 0` (and the seed times by `1 / c`) multiplies all travel times by `1 / c` and changes nothing else that is seen of any sequence of calls
without target times. -/
theorem C08_walks_times (hF : TrueFun F) {c : K} (hc : 0 < c) {p : Params K} (hv : ValidParams p) {P : PObj K}
    (hP : initParticles Arith.exact F p = .ok P) (hu : Unclamped c P) (hs : ∀ w ∈ flowVars, w ∉ P.particleVars) (ω : Nat → K) (pos : Nat)
    (cs : List (ApiCall K)) (hcs : ∀ x ∈ cs, x.NoTarget) :
    ∃ P', initParticles Arith.exact F (p.scaleFlow c) = .ok P' ∧
      transcript Arith.exact F P' ω (cs.map (ApiCall.mapTimes (Fl.times c⁻¹))) (initState Arith.exact F P' pos) =
        (transcript Arith.exact F P ω cs (initState Arith.exact F P pos)).map (Seen.mapTimes (Fl.times c⁻¹)) := by
  obtain ⟨P', hP', -⟩ := C08_discharge_scaling hc hv hP
  refine ⟨P', hP', ?_⟩
  obtain ⟨u, v, X⟩ := init_parts _ _ hP
  obtain ⟨u', v', X'⟩ := init_parts _ _ hP'
  obtain ⟨ed, ect, rfl, rfl, es⟩ := scaled_object hc X X'
  have ea : P'.angles = P.angles := by rw [X'.angles, X.angles]; rfl
  have edf : P'.diffCoeff = P.diffCoeff := by rw [X'.diff, X.diff]; rfl
  have hci : 0 < c⁻¹ := inv_pos.2 hc
  have hA := scaleExact_exact (K := K) c⁻¹
  have hfields := initParticles_inv _ _ hv hP
  have hshape := And.intro hfields.vel_rows hfields.vel_cols
  have hcell : ∀ i j, i < P.depth.rows → j < P.depth.cols → P'.velocityAngle.at' i j = P.velocityAngle.at' i j ∧
      ∃ s, 0 < s ∧ P.velocity.at' i j = .fin s ∧ P'.velocity.at' i j = .fin (c * s) := by
    intro i j hi hj
    obtain ⟨x, y, hx, hy, h1, h2, h3, h4⟩ := hu i j hi hj
    have hxu : u.at' i j = .fin x := by
      rw [X.uEq] at hx
      exact clamp_raw hx h1
    have hyv : v.at' i j = .fin y := by
      rw [X.vEq] at hy
      exact clamp_raw hy h2
    have hcx : eps8 Arith.exact ≤ |c * x| := by rw [abs_mul, abs_of_pos hc]; exact h3
    have hcy : eps8 Arith.exact ≤ |c * y| := by rw [abs_mul, abs_of_pos hc]; exact h4
    have hx' : P'.u.at' i j = .fin (c * x) := by
      rw [X'.uEq]
      show (if Fl.lt (Fl.abs (Arith.exact.mul (.fin c) (u.at' i j))) (.fin (eps8 Arith.exact)) then Fl.fin (eps8 Arith.exact) else Arith.exact.mul (.fin c) (u.at' i j)) = _
      rw [hxu]
      exact clamp_keep hcx
    have hy' : P'.v.at' i j = .fin (c * y) := by
      rw [X'.vEq]
      show (if Fl.lt (Fl.abs (Arith.exact.mul (.fin c) (v.at' i j))) (.fin (eps8 Arith.exact)) then Fl.fin (eps8 Arith.exact) else Arith.exact.mul (.fin c) (v.at' i j)) = _
      rw [hyv]
      exact clamp_keep hcy
    constructor
    · rw [X'.ang, X.ang]
      show npArctan2 Arith.exact F (Fl.neg (P'.u.at' i j)) (P'.v.at' i j) = npArctan2 Arith.exact F (Fl.neg (P.u.at' i j)) (P.v.at' i j)
      rw [hx', hy', hx, hy]
      show Fl.fin (F.arctan2 (-(c * x)) (c * y)) = Fl.fin (F.arctan2 (-x) y)
      rw [← mul_neg, hF.arctan2 c _ _ hc]
    · obtain ⟨a1, a2⟩ := speed_ok hF (y := y) h1.le
      obtain ⟨b1, b2⟩ := speed_ok hF (y := c * y) hcx
      refine ⟨_, a2, ?_, ?_⟩
      · rw [X.vel]
        show (fun z : Fl K => if Fl.lt z (.fin (eps8 Arith.exact)) then Fl.fin (eps8 Arith.exact) else z) (npSqrt Arith.exact F (Arith.exact.add (Arith.exact.mul (u.at' i j) (u.at' i j)) (Arith.exact.mul (v.at' i j) (v.at' i j)))) = _
        rw [hxu, hyv]
        exact a1
      · rw [X'.vel]
        show (fun z : Fl K => if Fl.lt z (.fin (eps8 Arith.exact)) then Fl.fin (eps8 Arith.exact) else z) (npSqrt Arith.exact F (Arith.exact.add
          (Arith.exact.mul (Arith.exact.mul (.fin c) (u.at' i j)) (Arith.exact.mul (.fin c) (u.at' i j)))
          (Arith.exact.mul (Arith.exact.mul (.fin c) (v.at' i j)) (Arith.exact.mul (.fin c) (v.at' i j))))) = _
        rw [hxu, hyv]
        refine b1.trans ?_
        rw [← hF.scale hc (add_nonneg (mul_self_nonneg x) (mul_self_nonneg y))]
        congr 2
        ring
  have H : Twin Arith.exact F (Via (Fl.times c⁻¹)) P P' := by
    refine scaled_twin hc hv hP hP' hs fun T ω cell a b d => ?_
    have hvel : ∀ x y, RelE (fun a b => ∃ s, 0 < s ∧ a = .fin s ∧ b = .fin (c * s)) (P.velocity.get x y) (P'.velocity.get x y) := by
      intro x y
      refine gridGet_rel (by rw [X'.vel, X.vel]; rfl) (by rw [X'.vel, X.vel]; rfl) (fun i j hi hj => ?_) x y
      rw [hshape.1] at hi
      rw [hshape.2] at hj
      exact (hcell i j hi hj).2
    have hang : ∀ x y, RelE (fun a b => a = b) (P.velocityAngle.get x y) (P'.velocityAngle.get x y) := by
      intro x y
      refine gridGet_rel (by rw [X'.ang, X.ang, X'.uEq, X.uEq]; rfl) (by rw [X'.ang, X.ang, X'.uEq, X.uEq]; rfl) (fun i j hi hj => ?_) x y
      have e1 : P.velocityAngle.rows = P.velocity.rows := by rw [X.ang, X.vel, X.uEq]; rfl
      have e2 : P.velocityAngle.cols = P.velocity.cols := by rw [X.ang, X.vel, X.uEq]; rfl
      rw [e1, hshape.1] at hi
      rw [e2, hshape.2] at hj
      exact (hcell i j hi hj).1.symm
    have hdiv : ∀ s : K, 0 < s → Arith.exact.div (.fin 1) (.fin (c * s)) = Fl.times c⁻¹ (Arith.exact.div (.fin 1) (.fin s)) := by
      intro s hs
      simp only [Arith.div, mul_eq_zero, hc.ne', hs.ne', or_self, if_false, Fl.times]
      congr 1
      show 1 / (c * s) = c⁻¹ * (1 / s)
      field_simp
    refine travelTimeStmt_rel (E := Eq) (C := Eq) (fun _ _ h => h.2.2) (fun _ _ _ h => ⟨h.1, h.2.1, rfl⟩) hvel edf ea hang
      (fun _ _ _ h => by rw [h]; exact RelE.eq _) (by simp [Via, Fl.times]) ?_ cell a b rfl
    rintro d _ v0 v0' v1 v1' co _ diff diff' rfl ⟨s0, hs0, rfl, rfl⟩ ⟨s1, hs1, rfl, rfl⟩ rfl h5
    obtain rfl := h5 (.inl rfl)
    unfold Via
    rw [hdiv s0 hs0, hdiv s1 hs1, add_times hA, mul_times hci hA, times_mul hci hA]
  refine via_seen ((H.routes (T := Via (Fl.times c⁻¹)) ω fun t t' d d' h1 h2 => ?_).alike.transcript ?_ (Twin.init _ _ _ P P' pos))
  · rw [h1, h2]
    exact add_times hA t d
  · clear H
    induction cs with
    | nil => exact .nil
    | cons x cs ih => exact .cons (via_call ω x (.inl (hcs x (by simp)))) (ih fun y hy => hcs y (by simp [hy]))

/-- The real square root and arc tangent satisfy the laws. -/
theorem trueFun_real : TrueFun Fun.real where
  sqrt x hx := Real.mul_self_sqrt hx
  arctan2 c y x hc := by
    show Complex.arg ⟨c * x, c * y⟩ = Complex.arg ⟨x, y⟩
    rw [← Complex.arg_real_mul ⟨x, y⟩ hc]
    congr 1
    apply Complex.ext <;> simp

/-! ## Concrete cases -/

example : "stage" ∉ (objOf chan).particleVars ∧ (∀ w ∈ flowVars, w ∉ (objOf chan).particleVars) ∧ (∀ x ∈ stepCalls 1, x.NoTarget) :=
  ⟨by decide, by decide, by simp [stepCalls, ApiCall.NoTarget]⟩

/-- A datum moved by 100: two particles routed to target time 3 are seen at the same places and times. -/
example : seenWalks (transcript Arith.exact Fun.toy (objOf (chan.shiftDatum 100)) (fun _ => 1 / 2) (timedCalls 0)
      (initState Arith.exact Fun.toy (objOf (chan.shiftDatum 100)) 0)) =
    [some ([[2], [2]], [[.fin 0], [.fin 0]]),
     some ([[2, 3], [2, 3]], [[.fin 0, .fin (5670000012600000007 / 360000000000000000)], [.fin 0, .fin (5670000012600000007 / 360000000000000000)]])] := by
  decide +kernel

set_option synthInstance.maxSize 1024 in
/-- Three times the discharge: same places, other times. -/
example : seenWalks (transcript Arith.exact Fun.toy (objOf (chan.scaleFlow 3)) (fun _ => 1 / 2) (stepCalls 1)
      (initState Arith.exact Fun.toy (objOf (chan.scaleFlow 3)) 0)) ≠
    seenWalks (transcript Arith.exact Fun.toy (objOf chan) (fun _ => 1 / 2) (stepCalls 1) (initState Arith.exact Fun.toy (objOf chan) 0)) ∧
    seenWalks ((transcript Arith.exact Fun.toy (objOf (chan.scaleFlow 3)) (fun _ => 1 / 2) (stepCalls 1)
      (initState Arith.exact Fun.toy (objOf (chan.scaleFlow 3)) 0)).map Seen.untimed) =
    [some ([[2], [2]], [[.fin 0], [.fin 0]]), some ([[2, 3], [2, 3]], [[.fin 0, .fin 0], [.fin 0, .fin 0]])] := by
  decide +kernel

/-- Uniform oblique flow given as velocities. -/
noncomputable def realOblique : Params ℝ where
  dx := some 10
  depth := some (realConst 1)
  stage := some (realConst 1)
  deltaRCM := true
  u := some (realConst 1)
  v := some (realConst 1)

theorem realOblique_valid : ValidParams realOblique where
  depth g hg := by cases hg; exact realConst_ok _
  stage g hg := by cases hg; exact realConst_ok _
  topography g hg := by cases hg
  qx g hg := by cases hg
  qy g hg := by cases hg
  u g hg := by cases hg; exact realConst_ok _
  v g hg := by cases hg; exact realConst_ok _
  gamma x hx := by cases hx
  dryDepth x hx := by cases hx
  distances t ht := by cases ht
  ivec t ht := by cases ht
  jvec t ht := by cases ht

/-- The hypotheses of `C08_walks_times` are met by the real functions, uniform oblique flow and half the discharge. -/
example : ∃ P, initParticles Arith.exact Fun.real realOblique = .ok P ∧ Unclamped (1 / 2) P ∧ ∀ w ∈ flowVars, w ∉ P.particleVars := by
  refine ⟨(initParticles Arith.exact Fun.real realOblique).toOption.get rfl, rfl, ?_, ?_⟩
  · intro i j _ _
    have h : ((if Fl.lt (Fl.abs (.fin (1 : ℝ))) (.fin (eps8 Arith.exact)) then Fl.fin (eps8 Arith.exact) else .fin 1) : Fl ℝ) = .fin 1 := clamp_keep (by norm_num [eps8, Arith.exact])
    refine ⟨1, 1, h, h, ?_⟩
    norm_num [eps8, Arith.exact]
  · intro w _
    change w ∉ initVars realOblique
    simp [initVars, realOblique]

end Dorado
