import Verif.Lemmas.Spread
import Verif.Props.Arrival
import Verif.Props.Crop
import Verif.Props.Estimate
import Verif.Props.SymmetryWalks
import Verif.Props.Time

/-! # C126: the diffusion coefficient changes travel times only, and linearly -/

set_option linter.unusedSectionVars false

namespace Dorado

section paths

variable {K : Type} [Field K] [LinearOrder K] [IsStrictOrderedRing K] [FloorRing K] {A : Arith K} {F : Fun K A} {p : Params K} {P : PObj K}

/-- Any number is accepted as diffusion coefficient in place of the given one. No other attribute changes; numbers below zero count as zero. -/
theorem C126_accepted (hP : initParticles A F p = .ok P) (D : K) :
    initParticles A F { p with diffCoeff := some D } = .ok { P with diffCoeff := max D 0 } := by
  rw [init_spread hP]
  split_ifs with h
  · rw [max_eq_right h.le]
  · rw [max_eq_left (not_lt.1 h)]

/-- Any rounding, the same draws: with another positive diffusion coefficient everything that is seen of any sequence of calls without target time is the same but for the
travel times (positions, tracked variables, warnings, exceptions, consumption of random numbers). -/
theorem C126_paths (hv : ValidParams p) (hP : initParticles A F p = .ok P) (hd : 0 < P.diffCoeff) {D : K} (hD : 0 < D) (ω : Nat → K) (pos : Nat) (cs : List (ApiCall K))
    (hcs : ∀ x ∈ cs, x.NoTarget) : ∃ P', initParticles A F { p with diffCoeff := some D } = .ok P' ∧
      (transcript A F P' ω cs (initState A F P' pos)).map Seen.untimed = (transcript A F P ω cs (initState A F P pos)).map Seen.untimed := by
  have hB : Built A F P := ⟨p, hv, hP⟩
  refine ⟨_, C126_accepted hP D, ?_⟩
  rw [max_eq_left hD.le]
  have hc2 : List.Forall₂ (CallRel (K := K) A ω ω fun _ _ => True) cs cs := callRel_untimed hcs fun _ _ => .inl rfl
  exact untimed_eq (((twin_spread hB.good hd hD).routes (T := fun _ _ => True) ω fun _ _ _ _ _ _ => trivial).alike.transcript hc2 (Twin.init _ _ _ P _ pos))

end paths

noncomputable section

variable {F : Fun ℝ Arith.exact} {p : Params ℝ} {P P' P'' : PObj ℝ} {R C : Nat} {s s' s'' : PState ℝ} {D E : ℝ}

/-- The same machines for the same records. -/
theorem matches_same {wd wd' : WalkData ℝ} {keys keys' : List String} {rows rows' : List (Row ℝ)} (hrows : wd = ofRows keys rows) (hrows' : wd' = ofRows keys' rows')
    (hx : wd'.xinds = wd.xinds) (hy : wd'.yinds = wd.yinds) (ht : wd'.times = wd.times) {N : Nat} {st : Fin N → Mach} (hm : Matches rows st) : Matches rows' st := by
  subst hrows hrows'
  obtain ⟨h1, h2⟩ := hm
  have hl := congrArg List.length hx
  simp only [ofRows, List.length_map] at hl
  refine ⟨by omega, fun j r hr => ?_⟩
  have a0 := List.getElem?_eq_getElem (show j.val < rows.length by omega)
  have hj := h2 j _ a0
  have a1 := congrArg (fun l => l[j.val]?) hx
  have a2 := congrArg (fun l => l[j.val]?) hy
  have a3 := congrArg (fun l => l[j.val]?) ht
  simp only [ofRows, List.getElem?_map, hr, a0, Option.map_some, Option.some.injEq] at a1 a2 a3
  exact ⟨a1.trans hj.xs, a2.trans hj.ys, a3.trans hj.ts, hj.ne⟩

/-- Exact arithmetic, the same draws, any three histories that have led to the same records, any calls without target time: with the coefficients `P.diffCoeff`, `D` and
`E` all particles take the same way, and each travel time with the third coefficient is found from those with the first two by linear interpolation. -/
theorem C126_linear (hP : initParticles Arith.exact F p = .ok P) (hP' : initParticles Arith.exact F { p with diffCoeff := some D } = .ok P')
    (hP'' : initParticles Arith.exact F { p with diffCoeff := some E } = .ok P'') (hd : 0 < P.diffCoeff) (hD : 0 < D) (hE : 0 < E) (hne : D ≠ P.diffCoeff)
    (h : Reach Arith.exact F (Enclosed Arith.exact F R C) Draws (InsideSeeds R C) P s) {wd : WalkData ℝ} (hwd : s.walk = some wd)
    (h' : Reach Arith.exact F (Enclosed Arith.exact F R C) Draws (InsideSeeds R C) P' s') {wd' : WalkData ℝ} (hwd' : s'.walk = some wd')
    (h'' : Reach Arith.exact F (Enclosed Arith.exact F R C) Draws (InsideSeeds R C) P'' s'') {wd'' : WalkData ℝ} (hwd'' : s''.walk = some wd'')
    (hx : wd'.xinds = wd.xinds) (hy : wd'.yinds = wd.yinds) (ht : wd'.times = wd.times) (hpos : s'.world.pos = s.world.pos)
    (hx' : wd''.xinds = wd.xinds) (hy' : wd''.yinds = wd.yinds) (ht' : wd''.times = wd.times) (hpos' : s''.world.pos = s.world.pos)
    {ω : Nat → ℝ} (hω : Draws ω) {calls : List (Option (Fl ℝ) × Int)} (hcalls : ∀ c ∈ calls, c.1 = none) {i : Nat} (hi : i < wd.xinds.length) (n : Nat)
    {a b c : Option Int × Option Int × Option (Fl ℝ)} (ha : historyIn i (runCalls Arith.exact F P ω calls s) n = a)
    (hb : historyIn i (runCalls Arith.exact F P' ω calls s') n = b) (hc : historyIn i (runCalls Arith.exact F P'' ω calls s'') n = c) :
    b.1 = a.1 ∧ b.2.1 = a.2.1 ∧ c.1 = a.1 ∧ c.2.1 = a.2.1 ∧ b.2.2.isSome = a.2.2.isSome ∧ c.2.2.isSome = a.2.2.isSome ∧
      ∀ x y, a.2.2 = some (.fin x) → b.2.2 = some (.fin y) → c.2.2 = some (.fin (x + (E - P.diffCoeff) / (D - P.diffCoeff) * (y - x))) := by
  have e1 := C126_accepted hP D
  rw [hP', Except.ok.injEq, max_eq_left hD.le] at e1
  have e2 := C126_accepted hP E
  rw [hP'', Except.ok.injEq, max_eq_left hE.le] at e2
  obtain ⟨hRt, rows, hrows, hs⟩ := Enclosed.sound h hwd
  obtain ⟨hRt', rows', hrows', hs'⟩ := Enclosed.sound h' hwd'
  obtain ⟨hRt'', rows'', hrows'', hs''⟩ := Enclosed.sound h'' hwd''
  obtain ⟨st, -, hm, -, -, hcells, -⟩ := crop_machs (r := 0) (c := 0) (⟨by simp, by simp, rfl⟩ : wd.SameRecords 0 0 wd) hrows hrows
    (fun r hr => (hs.ok r hr).vars.aligned) rfl
  have hm' := matches_same hrows hrows' hx hy ht hm
  have hm'' := matches_same hrows hrows'' hx' hy' ht' hm
  have f := historyIn_feed hRt hω calls hs hm ⟨i, hi⟩
  have f' := historyIn_feed hRt' hω calls hs' hm' ⟨i, hi⟩
  have f'' := historyIn_feed hRt'' hω calls hs'' hm'' ⟨i, hi⟩
  rw [hpos] at f'
  rw [hpos'] at f''
  rw [callsOps_plain hcalls] at f f' f''
  have hsub : D - P.diffCoeff ≠ 0 := sub_ne_zero.2 hne
  have B := deal_blend (F := F) (P := P) (D := D) (E := E) (a := (D - E) / (D - P.diffCoeff)) (b := (E - P.diffCoeff) / (D - P.diffCoeff))
    (by field_simp; ring) hd hD (by field_simp; ring) hE (fun n => ω (n + s.world.pos)) (plainPlan wd.xinds.length calls) (st := st) (st' := st) (st'' := st)
    (fun j => ⟨rfl, rfl, hcells j, fun n _ x y e e' => by
      rw [e] at e'
      cases e'
      rw [e]
      congr 1
      field_simp
      ring⟩) 0 ⟨i, hi⟩
  rw [← e1] at B
  rw [← e2] at B
  rw [f] at ha
  rw [f'] at hb
  rw [f''] at hc
  subst ha hb hc
  generalize (deal _ _ _).1 _ = m at B ⊢
  generalize (deal _ _ _).1 _ = m' at B ⊢
  generalize (deal _ _ _).1 _ = m'' at B ⊢
  unfold Mach.history
  simp only [B.disc, B.disc', true_and]
  refine ⟨by split_ifs <;> rfl, by split_ifs <;> rfl, ?_⟩
  intro x y h1 h2
  split_ifs at h1 h2 ⊢ with hn
  simp only [Option.some.injEq] at h1 h2 ⊢
  rw [B.times n hn x y h1 h2]
  congr 1
  field_simp
  ring

/-! ## Concrete cases -/

theorem wideObj_spread : wideObj.diffCoeff = 1 / 5 := rfl

/-- C126: the wide channel with diffusion coefficient 1 in place of 0.2. -/
example (ω : Nat → ℝ) : ∃ P', initParticles Arith.exact Fun.real { wideChan with diffCoeff := some 1 } = .ok P' ∧ P'.diffCoeff ≠ wideObj.diffCoeff ∧
    (transcript Arith.exact Fun.real P' ω [.generate (.int 3) (.list [.int 5]) (.list [.int 5]) (.int 0) (.str "random") none, .run none 10, .run none 10]
      (initState Arith.exact Fun.real P' 0)).map Seen.untimed =
    (transcript Arith.exact Fun.real wideObj ω [.generate (.int 3) (.list [.int 5]) (.list [.int 5]) (.int 0) (.str "random") none, .run none 10, .run none 10]
      (initState Arith.exact Fun.real wideObj 0)).map Seen.untimed := by
  obtain ⟨P', h1, h2⟩ := C126_paths (D := 1) wideChan_valid wideObj_init (by rw [wideObj_spread]; norm_num) one_pos ω 0
    [.generate (.int 3) (.list [.int 5]) (.list [.int 5]) (.int 0) (.str "random") none, .run none 10, .run none 10]
    (by intro x hx; simp at hx; rcases hx with rfl | rfl <;> simp [ApiCall.NoTarget])
  refine ⟨P', h1, ?_, h2⟩
  have e := C126_accepted wideObj_init 1
  rw [h1, Except.ok.injEq] at e
  rw [e, wideObj_spread, max_eq_left zero_le_one]
  norm_num

/-- C126: a particle at the centre of the wide channel, with diffusion coefficients 0.2, 1 and 0.5. Every time recorded with 0.5 lies between those recorded with the
others, three eighths of the way. -/
example : ∃ (P'' : PObj ℝ) (s s' s'' : PState ℝ), initParticles Arith.exact Fun.real { wideChan with diffCoeff := some (1 / 2) } = .ok P'' ∧
    ∀ ω, Draws ω → ∀ calls : List (Option (Fl ℝ) × Int), (∀ c ∈ calls, c.1 = none) → ∀ n t, (historyIn 0 (runCalls Arith.exact Fun.real wideObj ω calls s) n).2.2 = some t →
      ∃ x y, t = .fin x ∧ (historyIn 0 (runCalls Arith.exact Fun.real wideSpread ω calls s') n).2.2 = some (.fin y) ∧
        (historyIn 0 (runCalls Arith.exact Fun.real P'' ω calls s'') n).2.2 = some (.fin (x + 3 / 8 * (y - x))) := by
  have hc : genInputCheck (K := ℝ) (.int 1) (.list [.int 5]) (.list [.int 5]) (.int 0) (.str "exact") = .ok (1, [5], [5], .fin ((0 : Int) : ℝ), .exact) := rfl
  have hseed : ∀ x ∈ ([5] : List Int), ∀ y ∈ ([5] : List Int), Inside 11 11 (x, y) := by
    intro x hx y hy
    simp at hx hy
    subst hx hy
    unfold Inside
    decide
  have gen : ∀ Q D, Q = { wideObj with diffCoeff := D } → D ≤ 2 → Enclosed Arith.exact Fun.real 11 11 Q →
      ∃ s0, Reach Arith.exact Fun.real (Enclosed Arith.exact Fun.real 11 11) Draws (InsideSeeds 11 11) Q s0 ∧
        Reach Arith.exact Fun.real (fun P => Built Arith.exact Fun.real P ∧ P.diffCoeff ≤ 2 ∧ 0 ≤ P.dx) Draws (FinSeed Arith.exact) Q s0 ∧
      ∃ wd, s0.walk = some wd ∧ wd.xinds = [[5]] ∧ wd.yinds = [[5]] ∧ wd.times = [[.fin ((0 : Int) : ℝ)]] ∧ s0.world.pos = 0 := by
    intro Q D e hD hQ
    obtain ⟨s0, h0, hr⟩ : ∃ s0, generateParticles Arith.exact Q (fun _ => 1 / 2) (initState Arith.exact Fun.real Q 0) (.int 1) (.list [.int 5]) (.list [.int 5]) (.int 0)
        (.str "exact") none = .ok s0 ∧ ∃ wd, s0.walk = some wd ∧ wd.xinds = [[5]] ∧ wd.yinds = [[5]] ∧ wd.times = [[.fin ((0 : Int) : ℝ)]] ∧ s0.world.pos = 0 := by
      rw [e]
      exact ⟨_, rfl, _, rfl, rfl, rfl, rfl, rfl⟩
    have hQ2 : Built Arith.exact Fun.real Q ∧ Q.diffCoeff ≤ 2 ∧ 0 ≤ Q.dx := by
      refine ⟨hQ.built, by rw [e]; exact hD, ?_⟩
      rw [e]
      change (0 : ℝ) ≤ 10
      norm_num
    exact ⟨s0, .generate (.new 0 hQ) (fun _ => by norm_num) hc (by norm_num) hseed h0,
      .generate (.new 0 hQ2) (fun _ => by norm_num) hc (by norm_num) ⟨_, rfl, rfl⟩ h0, hr⟩
  have hP'' := C126_accepted wideObj_init (1 / 2)
  rw [max_eq_left (by norm_num)] at hP''
  have hv : ValidParams { wideChan with diffCoeff := some (1 / 2) } := by
    have h := wideChan_valid
    exact ⟨h.depth, h.stage, h.topography, h.qx, h.qy, h.u, h.v, h.gamma, h.dryDepth, h.distances, h.ivec, h.jvec⟩
  have hE'' : Enclosed Arith.exact Fun.real 11 11 { wideObj with diffCoeff := 1 / 2 } := by
    obtain ⟨h1, h2, h3⟩ := C17_default_ring (p := { wideChan with diffCoeff := some (1 / 2) }) rfl rfl rfl rfl hP''
    exact ⟨⟨_, hv, hP''⟩, rfl, rfl, h1, h2, wideObj_enclosed.steps, h3⟩
  obtain ⟨s, r, f, wd, hwd, hx, hy, ht, hp⟩ := gen wideObj (1 / 5) rfl (by norm_num) wideObj_enclosed
  obtain ⟨s', r', f', wd', hwd', hx', hy', ht', hp'⟩ := gen wideSpread 1 wideSpread_eq (by norm_num) wideSpread_enclosed
  obtain ⟨s'', r'', f'', wd'', hwd'', hx'', hy'', ht'', hp''⟩ := gen _ (1 / 2) rfl (by norm_num) hE''
  refine ⟨_, s, s', s'', hP'', fun ω hω calls hcalls n t htn => ?_⟩
  have fin : ∀ {Q : PObj ℝ} {s0 : PState ℝ}, Reach Arith.exact Fun.real (fun P => Built Arith.exact Fun.real P ∧ P.diffCoeff ≤ 2 ∧ 0 ≤ P.dx) Draws (FinSeed Arith.exact) Q s0 →
      ∀ {u}, (historyIn 0 (runCalls Arith.exact Fun.real Q ω calls s0) n).2.2 = some u → ∃ x, u = .fin x := by
    intro Q s0 hr u hu
    cases hrun : runCalls Arith.exact Fun.real Q ω calls s0 with
    | error e => rw [hrun] at hu; cases hu
    | ok s1 =>
      rw [hrun] at hu
      cases hw : s1.walk with
      | none => simp [historyIn, hw] at hu
      | some w =>
        simp only [historyIn, hw] at hu
        exact (C18_monotone rfl rfl (reach_calls hω calls hr hrun) hw).1 0 n u hu
  have L := C126_linear wideObj_init (show initParticles Arith.exact Fun.real { wideChan with diffCoeff := some 1 } = .ok wideSpread from rfl) hP''
    (by rw [wideObj_spread]; norm_num) one_pos (by norm_num) (by rw [wideObj_spread]; norm_num) r hwd r' hwd' r'' hwd'' (hx'.trans hx.symm) (hy'.trans hy.symm)
    (ht'.trans ht.symm) (hp'.trans hp.symm) (hx''.trans hx.symm) (hy''.trans hy.symm) (ht''.trans ht.symm) (hp''.trans hp.symm) hω hcalls (i := 0)
    (by rw [hx]; simp) n rfl rfl rfl
  obtain ⟨x, rfl⟩ := fin f htn
  obtain ⟨-, -, -, -, l1, -, l2⟩ := L
  rw [htn, Option.isSome_some, Option.isSome_iff_exists] at l1
  obtain ⟨u, hu⟩ := l1
  obtain ⟨y, rfl⟩ := fin f' hu
  refine ⟨x, y, rfl, hu, ?_⟩
  rw [l2 x y htn hu, wideObj_spread]
  norm_num

/-- The coefficients must be positive: without diffusion no number is drawn for the travel time, so from the second step on the same draws lead elsewhere. -/
theorem C126_zero_counterexample : ∃ (s s' : PState ℚ) (wd wd' : WalkData ℚ),
    Reach Arith.exact Fun.toy (Built Arith.exact Fun.toy) (fun ω => ω = swing) (FinSeed Arith.exact) (objOf (chanDiff 1)) s ∧
    Reach Arith.exact Fun.toy (Built Arith.exact Fun.toy) (fun ω => ω = swing) (FinSeed Arith.exact) (objOf (chanDiff 0)) s' ∧
    demo (chanDiff 1) swing 1 [1] [2] [(none, 1), (none, 1)] = .ok s ∧ demo (chanDiff 0) swing 1 [1] [2] [(none, 1), (none, 1)] = .ok s' ∧
    s.walk = some wd ∧ s'.walk = some wd' ∧ wd.posAt 0 2 = some (3, 2) ∧ wd'.posAt 0 2 = some (3, 3) := by
  obtain ⟨s, wd, h1, h2, h3, h4⟩ := demo_walk (p := chanDiff 1) (Ω := fun ω => ω = swing) (n := 1) (xs := [1]) (ys := [2]) (runs := [(none, 1), (none, 1)])
    (f := fun wd => wd.posAt 0 2) (b := some (3, 2)) (Sd := FinSeed Arith.exact) (chanDiff_built 1) rfl ⟨0, rfl, rfl⟩ (by decide +kernel)
  obtain ⟨s', wd', k1, k2, k3, k4⟩ := demo_walk (p := chanDiff 0) (Ω := fun ω => ω = swing) (n := 1) (xs := [1]) (ys := [2]) (runs := [(none, 1), (none, 1)])
    (f := fun wd => wd.posAt 0 2) (b := some (3, 3)) (Sd := FinSeed Arith.exact) (chanDiff_built 0) rfl ⟨0, rfl, rfl⟩ (by decide +kernel)
  exact ⟨s, s', wd, wd', h1, k1, h4, k4, h2, k2, h3, k3⟩

end

end Dorado
