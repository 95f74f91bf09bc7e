import Verif.Lemmas.Units
import Verif.Props.SymmetryWalks

/-! # C111: units do not matter

The walks are the same in any system of units; vertical lengths have no influence on the travel times. -/

set_option linter.unusedSectionVars false

namespace Dorado

variable {K : Type} [Field K] [LinearOrder K] [IsStrictOrderedRing K] [FloorRing K] {F : Fun K Arith.exact} {h a b : K} {p : Params K}

/-- At every cell the weights are multiplied by one positive factor. -/
theorem rescale_weight (hF : PowLaw F) (ha : 0 < a) (hb : 0 < b) (hv : ValidParams p) (hdry : p.dryDepth.isSome) {P P' : PObj K}
    (hP : initParticles Arith.exact F p = .ok P) (hP' : initParticles Arith.exact F (p.rescale h a b) = .ok P') {i j : Nat}
    (hi : i < P.depth.rows) (hj : j < P.depth.cols) :
    ∃ c, 0 < c ∧ ∀ k, k < 9 → (P'.weight Arith.exact F i j k).nanTo0 = Fl.times c (P.weight Arith.exact F i j k).nanTo0 := by
  obtain ⟨P2, u, v, u', v', hP2, X, X', -, h1, h2, h3, h4, h5, h6, -⟩ := init_rescale (h := h) ha hb hP hdry
  obtain rfl : P2 = P' := Except.ok.inj (hP2.symm.trans hP')
  have hB : Built Arith.exact F P := ⟨p, hv, hP⟩
  have hB' : Built Arith.exact F P2 := ⟨_, valid_rescale ha hv, hP'⟩
  have hd0 : 0 ≤ P.dryDepth := by
    obtain ⟨x, hx⟩ := Option.isSome_iff_exists.1 hdry
    rw [X.dry, hx]
    exact hv.dryDepth x hx
  by_cases hin : Interior P i j
  · have hin' : Interior P2 i j := interior_of_shape (by rw [h1]; rfl) (by rw [h1]; rfl) hin
    have R := represents_flowOf (F := F) hB.good
    have R' : Represents F P2 ((flowOf F P).deepened a (a * b)) := by
      constructor
      · rw [h1]; exact R.rows
      · rw [h1]; exact R.cols
      · intro x y hx hy
        rw [h1]
        show Fl.times a (P.depth.at' x y) = _
        rw [R.depth x y hx hy]; rfl
      · intro x y hx hy
        rw [h2]
        show Fl.times a (P.stage.at' x y) = _
        rw [R.stage x y hx hy]
        simp only [Flow.deepened]
        cases (flowOf F P).stage x y <;> rfl
      · intro x y hx hy
        rw [h3]
        show Fl.times (a * b) (P.qx.at' x y) = _
        rw [R.a x y hx hy]; rfl
      · intro x y hx hy
        rw [h4]
        show Fl.times (a * b) (P.qy.at' x y) = _
        rw [R.b x y hx hy]; rfl
      · intro x y hx hy; rw [h5]; exact R.land x y hx hy
      · rw [X'.gamma]; exact X.gamma.symm
      · rw [h6]; rfl
      · intro x hx; rw [X'.theta]; have := R.pw x hx; rw [X.theta] at this; exact this
      · intro k hk; rw [X'.distances]; have := R.dist k hk; rw [X.distances] at this; exact this
      · intro k hk; rw [X'.jvec]; have := R.rowVec k hk; rw [X.jvec] at this; exact this
      · intro k hk; rw [X'.ivec]; have := R.colVec k hk; rw [X.ivec] at this; exact this
    obtain ⟨s, hs, hpw⟩ := hF P.theta a ha
    obtain ⟨c, hc, hw⟩ := (flowOf F P).deepened_weight ha (mul_pos ha hb) hs hd0 (fun x hx => by
      have e1 := R.pw x hx
      have e2 := R.pw (a * x) (mul_pos ha hx)
      rw [hpw x _ hx e1] at e2
      exact (Fl.fin.inj e2).symm) i j
    refine ⟨c, hc, fun k hk => ?_⟩
    rw [C04_closed_formula_represented hB' R' hin' hk, C04_closed_formula_represented hB R hin hk, hw k hk]
    rfl
  · have hin' : ¬ Interior P2 i j := fun h => hin (interior_of_shape (by rw [h1]; rfl) (by rw [h1]; rfl) h)
    refine ⟨1, one_pos, fun k hk => ?_⟩
    rw [(C03_usable_distribution _ _ hB).2 i j hi hj hin k hk,
      (C03_usable_distribution _ _ hB').2 i j (by rw [h1]; exact hi) (by rw [h1]; exact hj) hin' k hk, times_one]

/-- The two objects route alike, given how step lengths and travel times are related. -/
theorem rescale_routes (hF : PowLaw F) (ha : 0 < a) (hb : 0 < b) (hv : ValidParams p) (hdry : p.dryDepth.isSome) {P P' : PObj K}
    (hP : initParticles Arith.exact F p = .ok P) (hP' : initParticles Arith.exact F (p.rescale h a b) = .ok P')
    (hs : ∀ w ∈ unitVars, w ∉ P.particleVars) (ω : Nat → K) {T E D : Fl K → Fl K → Prop}
    (hE : ∀ d, E (Arith.exact.mul d (.fin P.dx)) (Arith.exact.mul d (.fin P'.dx))) (hz : ∀ d d', E d d' → Fl.eq d (.fin 0) = Fl.eq d' (.fin 0))
    (htime : ∀ cell x y d d', E d d' → RelM (StRel (TwinW Arith.exact F P P') T) D (travelTimeStmt Arith.exact F P ω cell x y d)
      (travelTimeStmt Arith.exact F P' ω cell x y d'))
    (hT : ∀ t t' d d', T t t' → D d d' → T (Arith.exact.add t d) (Arith.exact.add t' d')) :
    Routes Arith.exact F ω ω (TwinW Arith.exact F P P') T E D P P' := by
  obtain ⟨P2, u, v, u', v', hP2, X, X', -, h1, h2, h3, h4, h5, h6, -⟩ := init_rescale (h := h) ha hb hP hdry
  obtain rfl : P2 = P' := Except.ok.inj (hP2.symm.trans hP')
  have hB : Built Arith.exact F P := ⟨p, hv, hP⟩
  have hB' : Built Arith.exact F P2 := ⟨_, valid_rescale ha hv, hP'⟩
  have G := hB.good
  have G' := hB'.good
  have hr : P2.stage.rows = P.stage.rows := by rw [h2]; rfl
  have hc : P2.stage.cols = P.stage.cols := by rw [h2]; rfl
  exact
    { pos := fun _ _ h => h.2.2
      move := fun _ _ _ h => ⟨h.1, h.2.1, rfl⟩
      pick := pick_alike G G' hr hc fun i j n hi hj => by
        obtain ⟨c, hc0, hw⟩ := rescale_weight hF ha hb hv hdry hP hP' (by rw [← G.stage_rows]; exact hi) (by rw [← G.stage_cols]; exact hj)
        exact pick_scaled (by rw [X'.steepest, X.steepest]; rfl) hc0 (fun k hk => fresh_NN _ _ G hi hj hk)
          (fun k hk => fresh_NN _ _ G' (by rw [hr]; exact hi) (by rw [hc]; exact hj) hk) hw _
      iwalk := by rw [X'.iwalk, X.iwalk]; rfl
      jwalk := by rw [X'.jwalk, X.jwalk]; rfl
      edges := by rw [h5]
      vars := by rw [X'.vars, X.vars]; rfl
      roi := by rw [X'.roi, X.roi]; rfl
      verbose := by rw [X'.verbose, X.verbose]; rfl
      avail := by
        intro w hw
        have h : ∀ x ∈ unitVars, w ≠ x := fun x hx h => hs x hx (h ▸ hw)
        unfold availVar
        simp [h "depth" (by simp [unitVars]), h "stage" (by simp [unitVars]), h "qx" (by simp [unitVars]), h "qy" (by simp [unitVars]),
          h "u" (by simp [unitVars]), h "v" (by simp [unitVars])]
      dist := by
        intro c
        have e : P2.distances = P.distances := by rw [X'.distances, X.distances]; rfl
        unfold stepUpdate
        rw [e]
        refine (RelE.eq (flat9 P.distances c)).bind ?_
        rintro d _ rfl
        exact .ok (hE d)
      zero := hz
      time := htime
      add := hT }

/-- Exact arithmetic: with the cell size, everything vertical, and the velocities multiplied by any positive factors (discharges by the product of
the latter two), nothing changes that is seen of any sequence of calls without target times except the travel times: same positions, tracked
variables, exceptions and consumption of random numbers, draw by draw. Flow given by discharges or by velocities; `dry_depth` is given (its default
is 0.1 in any unit); variables with units are not tracked. -/
theorem C111_paths (hF : PowLaw F) (hh : 0 < h) (ha : 0 < a) (hb : 0 < b) (hv : ValidParams p) (hdry : p.dryDepth.isSome) {P : PObj K}
    (hP : initParticles Arith.exact F p = .ok P) (hs : ∀ w ∈ unitVars, w ∉ P.particleVars) (ω : Nat → K) (pos : Nat) (cs : List (ApiCall K))
    (hcs : ∀ x ∈ cs, x.NoTarget) :
    ∃ P', initParticles Arith.exact F (p.rescale h a b) = .ok P' ∧
      (transcript Arith.exact F P' ω cs (initState Arith.exact F P' pos)).map Seen.untimed =
        (transcript Arith.exact F P ω cs (initState Arith.exact F P pos)).map Seen.untimed := by
  obtain ⟨P', u, v, u', v', hP', X, X', hdx, h1, -⟩ := init_rescale (h := h) ha hb hP hdry
  refine ⟨P', hP', ?_⟩
  have Fd := initParticles_inv _ _ hv hP
  have Fd' := initParticles_inv _ _ (valid_rescale ha hv) hP'
  have er : P'.depth.rows = P.depth.rows := by rw [h1]; rfl
  have ec : P'.depth.cols = P.depth.cols := by rw [h1]; rfl
  have R := rescale_routes (T := fun _ _ => True) (D := fun _ _ => True) (E := fun d d' => Fl.eq d (.fin 0) = Fl.eq d' (.fin 0)) hF ha hb hv hdry hP hP'
    hs ω (fun d => by
      rw [hdx]
      have e := mul_times hh (scaleExact_exact h) d (.fin P.dx)
      rw [times_fin] at e
      rw [e, times_eq0 hh]) (fun _ _ h => h) (fun cell x y d d' hd => by
      refine travelTimeStmt_rel (E := fun d d' => Fl.eq d (.fin 0) = Fl.eq d' (.fin 0)) (V := fun _ _ => True) (G := fun x y => ∃ a b, x = Fl.fin a ∧ y = Fl.fin b) (C := fun _ _ => True)
        (fun _ _ h => h.2.2) (fun _ _ _ h => ⟨h.1, h.2.1, rfl⟩)
        (fun x y => gridGet_rel (by rw [Fd.vel_rows, Fd'.vel_rows, er]) (by rw [Fd.vel_cols, Fd'.vel_cols, ec]) (fun _ _ _ _ => trivial) x y)
        (by rw [X'.diff, X.diff]; rfl) (by rw [X'.angles, X.angles]; rfl) (fun x y => ?_)
        (fun ang va va' h => ?_) trivial (fun _ _ _ _ _ _ _ _ _ _ _ _ _ _ _ => trivial) cell x y hd
      · refine gridGet_rel (by rw [Fd.ang.2.1, Fd'.ang.2.1, er]) (by rw [Fd.ang.2.2, Fd'.ang.2.2, ec]) (fun i j hi hj => ?_) x y
        obtain ⟨x, hx⟩ := Fd.ang.1 i j hi hj
        obtain ⟨y, hy⟩ := Fd'.ang.1 i j (by rw [Fd'.ang.2.1, er, ← Fd.ang.2.1]; exact hi) (by rw [Fd'.ang.2.2, ec, ← Fd.ang.2.2]; exact hj)
        exact ⟨x, y, hx, hy⟩
      · obtain ⟨x, y, rfl, rfl⟩ := h
        cases ang <;> first | exact .ok trivial | exact .error _) fun _ _ _ _ _ _ => trivial
  exact untimed_eq (R.alike.transcript (callRel_untimed hcs fun _ _ => .inl rfl) (Twin.init _ _ _ P P' pos))

/-- Exact arithmetic, flow given by velocities: with everything vertical multiplied by `a > 0`, everything seen of any sequence of calls is the same,
travel times and target times included. -/
theorem C111_vertical (hF : PowLaw F) (ha : 0 < a) (hv : ValidParams p) (hvel : p.ByVelocity) (hdry : p.dryDepth.isSome) {P : PObj K}
    (hP : initParticles Arith.exact F p = .ok P) (hs : ∀ w ∈ unitVars, w ∉ P.particleVars) (ω : Nat → K) (pos : Nat) (cs : List (ApiCall K)) :
    ∃ P', initParticles Arith.exact F (p.rescale 1 a 1) = .ok P' ∧
      transcript Arith.exact F P' ω cs (initState Arith.exact F P' pos) = transcript Arith.exact F P ω cs (initState Arith.exact F P pos) := by
  obtain ⟨P', u, v, u', v', hP', X, X', hdx, -, -, -, -, -, -, huv⟩ := init_rescale (h := 1) (b := 1) ha one_pos hP hdry
  refine ⟨P', hP', ?_⟩
  obtain ⟨hu, hv2⟩ := huv hvel
  have e1 : ∀ g : Grid (Fl K), g.times 1 = g := fun g => Grid.ext' rfl rfl fun _ _ => times_one _
  rw [e1] at hu hv2
  have eu : P'.u = P.u := by rw [X'.uEq, X.uEq, hu]
  have ev : P'.v = P.v := by rw [X'.vEq, X.vEq, hv2]
  have evel : P'.velocity = P.velocity := by rw [X'.vel, X.vel, hu, hv2]
  have eang : P'.velocityAngle = P.velocityAngle := by rw [X'.ang, X.ang, eu, ev]
  have R := rescale_routes (T := Eq) (D := Eq) (E := Eq) hF ha one_pos hv hdry hP hP' hs ω (fun d => by rw [hdx, one_mul]) (fun _ _ h => by rw [h])
    (fun cell x y d d' hd => by
      subst hd
      exact Twin.sameTime evel eang (by rw [X'.diff, X.diff]; rfl) (by rw [X'.angles, X.angles]; rfl) (fun _ _ h => h.2.2)
        (fun _ _ _ h => ⟨h.1, h.2.1, rfl⟩) ω cell x y d) fun _ _ _ _ h1 h2 => by rw [h1, h2]
  exact (seenRel_eq (R.alike.transcript (forall₂_refl (callRel_refl _ ω) cs) (Twin.init _ _ _ P P' pos))).symm

theorem walk_mapTimes (f g : Fl K → Fl K) (w : WalkData K) : (w.mapTimes g).mapTimes f = w.mapTimes fun x => f (g x) := by
  simp [WalkData.mapTimes, Function.comp_def]

theorem mapTimes_mapTimes (f g : Fl K → Fl K) (x : ApiCall K) : (x.mapTimes g).mapTimes f = x.mapTimes fun x => f (g x) := by
  cases x with
  | generate np xs ys time method prev =>
    simp only [ApiCall.mapTimes, Option.map_map]
    congr 1
    · cases time <;> rfl
    · congr 1
      exact funext fun w => walk_mapTimes f g w
  | run t m => simp [ApiCall.mapTimes, Function.comp_def]
  | clear => rfl

theorem seen_mapTimes (f g : Fl K → Fl K) (x : Seen K) : (x.mapTimes g).mapTimes f = x.mapTimes fun x => f (g x) := by
  obtain ⟨r, w, n⟩ := x
  have e : ∀ o : Option (WalkData K), (o.map (WalkData.mapTimes g)).map (WalkData.mapTimes f) = o.map (WalkData.mapTimes fun x => f (g x)) := by
    intro o
    rw [Option.map_map]
    congr 1
    exact funext fun w => walk_mapTimes f g w
  simp only [Seen.mapTimes, e]
  cases r <;> simp [Except.map, e]

/-- The three factors one after the other. -/
theorem rescale_split {d : K} (hb : 0 < b) (hd : p.dx = some d) :
    p.rescale h a b = { (p.rescale 1 a 1).scaleFlow b with dx := some (h * d) } := by
  have e : ∀ (c : K) (o : Option (Grid (Fl K))), (o.map (Grid.map (Fl.times (c * 1)))).map (Grid.map (Arith.exact.mul (.fin b))) =
      o.map (Grid.map (Fl.times (c * b))) := by
    intro c o
    cases o with
    | none => rfl
    | some g =>
      simp only [Option.map_some, Option.some.injEq]
      refine Grid.ext' rfl rfl fun i j => ?_
      show Arith.exact.mul (.fin b) (Fl.times (c * 1) (g.at' i j)) = Fl.times (c * b) (g.at' i j)
      rw [mul_eq_times hb, times_times, mul_one, mul_comm b c]
  have e1 : ∀ o : Option (Grid (Fl K)), (o.map (Grid.map (Fl.times 1))).map (Grid.map (Arith.exact.mul (.fin b))) =
      o.map (Grid.map (Fl.times b)) := by
    intro o
    have := e 1 o
    rwa [one_mul, one_mul] at this
  unfold Params.rescale Params.scaleFlow
  simp only [e, e1, hd, Option.map_some]

/-- Exact arithmetic with the true square root, angle and power, flow given by velocities, no velocity component raised to 1e-8: with the cell size
multiplied by `h`, everything vertical by `a`, velocities by `b` and seed times by `h / b`, everything seen of any sequence of calls without target
times is the same, with travel times multiplied by `h / b`. -/
theorem C111_times (hF : PowLaw F) (hF' : TrueFun F) (hh : 0 < h) (ha : 0 < a) (hb : 0 < b) (hv : ValidParams p) (hvel : p.ByVelocity)
    (hdry : p.dryDepth.isSome) {P : PObj K} (hP : initParticles Arith.exact F p = .ok P) (hu : Unclamped b P) (hs : ∀ w ∈ unitVars, w ∉ P.particleVars)
    (ω : Nat → K) (pos : Nat) (cs : List (ApiCall K)) (hcs : ∀ x ∈ cs, x.NoTarget) :
    ∃ P', initParticles Arith.exact F (p.rescale h a b) = .ok P' ∧
      transcript Arith.exact F P' ω (cs.map (ApiCall.mapTimes (Fl.times (h / b)))) (initState Arith.exact F P' pos) =
        (transcript Arith.exact F P ω cs (initState Arith.exact F P pos)).map (Seen.mapTimes (Fl.times (h / b))) := by
  obtain ⟨P1, hP1, t1⟩ := C111_vertical hF ha hv hvel hdry hP hs ω pos cs
  obtain ⟨P1', u, v, u', v', hP1', X, X', -, g1, -, -, -, -, -, huv⟩ := init_rescale (h := 1) (b := 1) ha one_pos hP hdry
  obtain rfl : P1' = P1 := Except.ok.inj (hP1'.symm.trans hP1)
  obtain ⟨hu1, hv1⟩ := huv hvel
  have e1 : ∀ g : Grid (Fl K), g.times 1 = g := fun g => Grid.ext' rfl rfl fun _ _ => times_one _
  rw [e1] at hu1 hv1
  have hun : Unclamped b P1' := by
    intro i j hi hj
    rw [g1] at hi hj
    rw [X'.uEq, X'.vEq, hu1, hv1, ← X.uEq, ← X.vEq]
    exact hu i j hi hj
  have hvars : P1'.particleVars = P.particleVars := by rw [X'.vars, X.vars]; rfl
  obtain ⟨P2, hP2, t2⟩ := C08_walks_times hF' hb (valid_rescale ha hv) hP1' hun
    (fun w hw => by rw [hvars]; exact hs w (by simp only [flowVars, unitVars, List.mem_cons, List.not_mem_nil, or_false] at hw ⊢; tauto)) ω pos cs hcs
  have hdx : ((p.rescale 1 a 1).scaleFlow b).dx = some P.dx := by simp [Params.scaleFlow, Params.rescale, X.dx]
  have hcs2 : ∀ x ∈ cs.map (ApiCall.mapTimes (Fl.times b⁻¹)), x.NoTarget := by
    intro x hx
    obtain ⟨y, hy, rfl⟩ := List.mem_map.1 hx
    have := hcs y hy
    cases y with
    | generate => trivial
    | clear => trivial
    | run t m =>
      cases t with
      | none => rfl
      | some t => cases this
  obtain ⟨P3, hP3, t3⟩ := C87_scale hh (scaleExact_exact h) hdx hP2 ω pos _ hcs2
  refine ⟨P3, by rw [rescale_split hb X.dx]; exact hP3, ?_⟩
  have ef : Fl.times (h / b) = fun x : Fl K => Fl.times h (Fl.times b⁻¹ x) := by
    funext x
    rw [times_times, div_eq_mul_inv]
  rw [t2, t1, List.map_map, List.map_map] at t3
  rw [ef]
  have c1 : (ApiCall.mapTimes (Fl.times h) ∘ ApiCall.mapTimes (Fl.times b⁻¹) : ApiCall K → ApiCall K) =
      ApiCall.mapTimes fun x => Fl.times h (Fl.times b⁻¹ x) := funext fun x => mapTimes_mapTimes _ _ x
  have c2 : (Seen.mapTimes (Fl.times h) ∘ Seen.mapTimes (Fl.times b⁻¹) : Seen K → Seen K) = Seen.mapTimes fun x => Fl.times h (Fl.times b⁻¹ x) :=
    funext fun x => seen_mapTimes _ _ x
  rw [← c1, ← c2]
  exact t3

/-- The same inputs in another system of units (a length that was 1 is now `l`, a time that was 1 is now `t`) give the same walks with all times in
the new units. Conditions as in `C111_times`. -/
theorem C111_units (hF : PowLaw F) (hF' : TrueFun F) {l t : K} (hl : 0 < l) (ht : 0 < t) (hv : ValidParams p) (hvel : p.ByVelocity)
    (hdry : p.dryDepth.isSome) {P : PObj K} (hP : initParticles Arith.exact F p = .ok P) (hu : Unclamped (l / t) P)
    (hs : ∀ w ∈ unitVars, w ∉ P.particleVars) (ω : Nat → K) (pos : Nat) (cs : List (ApiCall K)) (hcs : ∀ x ∈ cs, x.NoTarget) :
    ∃ P', initParticles Arith.exact F (p.inUnits l t) = .ok P' ∧
      transcript Arith.exact F P' ω (cs.map (ApiCall.mapTimes (Fl.times t))) (initState Arith.exact F P' pos) =
        (transcript Arith.exact F P ω cs (initState Arith.exact F P pos)).map (Seen.mapTimes (Fl.times t)) := by
  have := C111_times hF hF' hl hl (div_pos hl ht) hv hvel hdry hP hu hs ω pos cs hcs
  rwa [div_div_cancel₀ hl.ne'] at this

/-! ## The laws -/

theorem powLaw_toy : PowLaw Fun.toy := by
  intro t c hc
  by_cases h0 : t = 0
  · exact ⟨1, one_pos, fun x y _ h => by simp [Fun.toy, h0] at h ⊢; exact h⟩
  · by_cases h2 : t = 2
    · refine ⟨c * c, mul_pos hc hc, fun x y _ h => ?_⟩
      simp only [Fun.toy, h2, if_true, OfNat.ofNat_ne_zero, if_false, Fl.fin.injEq] at h ⊢
      rw [← h]
      ring
    · refine ⟨c, hc, fun x y _ h => ?_⟩
      simp only [Fun.toy, h0, h2, if_false, Fl.fin.injEq] at h ⊢
      rw [h]

theorem powLaw_real : PowLaw Fun.real := by
  intro t c hc
  by_cases h0 : t = 0
  · exact ⟨1, one_pos, fun x y _ h => by simp [Fun.real, h0] at h ⊢; exact h⟩
  · refine ⟨c ^ t, Real.rpow_pos_of_pos hc t, fun x y hx h => ?_⟩
    simp only [Fun.real, h0, hx, mul_pos hc hx, if_true, if_false, Fl.fin.injEq] at h ⊢
    rw [← h, Real.mul_rpow hc.le hx.le]

/-! ## Concrete cases and counterexamples -/

/-- The sample channel with flow given by velocities and a given `dry_depth`. -/
def chanU : Params ℚ := { chan with qx := none, qy := none, u := some ⟨5, 5, fun _ _ => .fin 2⟩, v := some ⟨5, 5, fun _ _ => .fin 0⟩,
                                    dryDepth := some (1 / 10) }

theorem chanU_valid : ValidParams chanU where
  depth g hg := by cases hg; exact gridOf_finOrNan _
  stage g hg := by cases hg; exact gridOf_finOrNan _
  topography g hg := by cases hg
  qx g hg := by cases hg
  qy g hg := by cases hg
  u g hg := by cases hg; exact fun _ _ _ _ => .inr ⟨_, rfl⟩
  v g hg := by cases hg; exact fun _ _ _ _ => .inr ⟨_, rfl⟩
  gamma x hx := by cases hx; norm_num
  dryDepth x hx := by cases hx; norm_num
  distances t ht := by cases ht
  ivec t ht := by cases ht
  jvec t ht := by cases ht

/-- The hypotheses of `C111_paths` and `C111_vertical` are met by the channel. -/
example : PowLaw Fun.toy ∧ ValidParams chanU ∧ chanU.ByVelocity ∧ chanU.dryDepth.isSome ∧
    initParticles Arith.exact Fun.toy chanU = .ok (objOf chanU) ∧ (∀ w ∈ unitVars, w ∉ (objOf chanU).particleVars) ∧
    (∀ x ∈ stepCalls 1, x.NoTarget) :=
  ⟨powLaw_toy, chanU_valid, .inl rfl, rfl, rfl, by decide, by simp [stepCalls, ApiCall.NoTarget]⟩

/-- Heights in another unit: two particles routed to target time 3 are seen at the same places and times. -/
example : seenWalks (transcript Arith.exact Fun.toy (objOf (chanU.rescale 1 3 1)) (fun _ => 1 / 2) (timedCalls 0)
      (initState Arith.exact Fun.toy (objOf (chanU.rescale 1 3 1)) 0)) =
    [some ([[2], [2]], [[.fin 0], [.fin 0]]), some ([[2, 3], [2, 3]], [[.fin 0, .fin (7 / 4)], [.fin 0, .fin (7 / 4)]])] := by decide +kernel

/-- The weights of the two objects are proportional, not equal. -/
example : (objOf chanU).weight Arith.exact Fun.toy 2 2 7 ≠ (objOf (chanU.rescale 1 3 1)).weight Arith.exact Fun.toy 2 2 7 ∧
    Fl.times 3 ((objOf chanU).weight Arith.exact Fun.toy 2 2 7) = (objOf (chanU.rescale 1 3 1)).weight Arith.exact Fun.toy 2 2 7 := by decide +kernel

/-- The hypotheses of `C111_times` and `C111_units` are met by the real functions, uniform oblique flow, and feet and hours instead of metres and
seconds. -/
example : PowLaw Fun.real ∧ TrueFun Fun.real ∧ ∃ p P, ValidParams p ∧ p.ByVelocity ∧ p.dryDepth.isSome ∧ initParticles Arith.exact Fun.real p = .ok P ∧
    Unclamped ((3281 / 1000 : ℝ) / (1 / 3600)) P ∧ ∀ w ∈ unitVars, w ∉ P.particleVars := by
  refine ⟨powLaw_real, trueFun_real, { realOblique with dryDepth := some (1 / 10) },
    (initParticles Arith.exact Fun.real { realOblique with dryDepth := some (1 / 10) }).toOption.get rfl, ?_, .inl rfl, rfl, rfl, ?_, ?_⟩
  · exact { realOblique_valid with dryDepth := fun x hx => by cases hx; norm_num }
  · intro i j _ _
    have h : ((if Fl.lt (Fl.abs (.fin (1 : ℝ))) (.fin (eps8 Arith.exact)) then Fl.fin (eps8 Arith.exact) else .fin 1) : Fl ℝ) = .fin 1 := clamp_keep (by norm_num [eps8, Arith.exact])
    refine ⟨1, 1, h, h, ?_⟩
    norm_num [eps8, Arith.exact]
  · intro w _
    change w ∉ initVars { realOblique with dryDepth := some (1 / 10) }
    simp [initVars, realOblique]

/-- With flow given by discharges the velocities are not the same in other units: the constructor divides by `depth ** 2 + 1e-8`. -/
theorem C111_discharge_counterexample :
    (initParticles Arith.exact Fun.toy chan).toOption.map (fun P => P.u.at' 2 2) = some (.fin (6 / (9 + 1 / 100000000))) ∧
    (initParticles Arith.exact Fun.toy (chan.inUnits 3 1)).toOption.map (fun P => P.u.at' 2 2) = some (.fin (3 * (54 / (81 + 1 / 100000000)))) ∧
    (3 * (54 / (81 + 1 / 100000000)) : ℚ) ≠ 3 * (6 / (9 + 1 / 100000000)) := by
  decide +kernel

set_option synthInstance.maxSize 1024 in
/-- Without a given `dry_depth` the walks depend on the unit of length: the default is 0.1 in any unit. -/
theorem C111_default_counterexample :
    seenWalks ((transcript Arith.exact Fun.toy (objOf chan) (fun _ => 1 / 10) (stepCalls 0) (initState Arith.exact Fun.toy (objOf chan) 0)).map
      Seen.untimed) = [some ([[2], [2]], [[.fin 0], [.fin 0]]), some ([[2, 3], [2, 3]], [[.fin 0, .fin 0], [.fin 0, .fin 0]])] ∧
    seenWalks ((transcript Arith.exact Fun.toy (objOf (chan.inUnits (1 / 100) 1)) (fun _ => 1 / 10) (stepCalls 0)
      (initState Arith.exact Fun.toy (objOf (chan.inUnits (1 / 100) 1)) 0)).map Seen.untimed) =
      [some ([[2], [2]], [[.fin 0], [.fin 0]]), some ([[2, 1], [2, 1]], [[.fin 0, .fin 0], [.fin 0, .fin 0]])] := by
  decide +kernel

end Dorado
