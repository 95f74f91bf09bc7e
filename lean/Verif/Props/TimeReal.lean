import Verif.Props.Time
import Verif.Props.Target
import Verif.Props.Safety
import Mathlib.Algebra.Order.Archimedean.Real.Basic

/-! # C20: a concrete history over the real numbers with the true cosine, square root and arc tangent -/

set_option linter.unusedSectionVars false

namespace Dorado

/-- A constant 5×5 field. -/
noncomputable def realConst (x : ℝ) : Grid (Fl ℝ) := ⟨5, 5, fun _ _ => .fin x⟩

/-- Uniform flow to the south over a flat water surface, all other parameters at their defaults. -/
noncomputable def realChan : Params ℝ where
  dx := some 10
  depth := some (realConst 1)
  stage := some (realConst 1)
  deltaRCM := true
  qx := some (realConst 2)
  qy := some (realConst 0)

theorem realConst_ok (x : ℝ) : (realConst x).FinOrNan := fun _ _ _ _ => Or.inr ⟨_, rfl⟩

theorem realChan_valid : ValidParams realChan where
  depth g hg := by cases hg; exact realConst_ok _
  stage g hg := by cases hg; exact realConst_ok _
  topography g hg := by cases hg
  qx g hg := by cases hg; exact realConst_ok _
  qy g hg := by cases hg; exact realConst_ok _
  u g hg := by cases hg
  v g hg := by cases hg
  gamma x hx := by cases hx
  dryDepth x hx := by cases hx
  distances t ht := by cases ht
  ivec t ht := by cases ht
  jvec t ht := by cases ht

/-- The object built from it. -/
noncomputable def realObj : PObj ℝ := (initParticles Arith.exact Fun.real realChan).toOption.get rfl

theorem realObj_init : initParticles Arith.exact Fun.real realChan = .ok realObj := rfl

theorem realObj_built : Built Arith.exact Fun.real realObj := ⟨realChan, realChan_valid, realObj_init⟩

theorem realObj_steps : StepsNonzero Arith.exact realObj := by
  intro k hk h0
  obtain ⟨d, hd, hd0⟩ := realObj_built.good.dist_pos k hk
  rw [hd] at h0
  injection h0 with h0
  exact (mul_pos hd0 (show (0 : ℝ) < realObj.dx by change (0 : ℝ) < 10; norm_num)).ne' h0

theorem realObj_std : Standard Fun.real realObj := ⟨realObj_built, ⟨rfl, rfl⟩, ⟨rfl, rfl⟩, realObj_steps⟩

theorem realObj_enclosed : Enclosed Arith.exact Fun.real 5 5 realObj := by
  obtain ⟨h1, h2, h3⟩ := C17_default_ring (p := realChan) rfl rfl rfl rfl realObj_init
  exact ⟨realObj_built, rfl, rfl, h1, h2, realObj_steps, h3⟩

theorem realObj_cell (i j : Nat) :
    (flowOf Fun.real realObj).depth i j = 1 ∧ (flowOf Fun.real realObj).stage i j = some 1 ∧ (flowOf Fun.real realObj).a i j = 2 ∧
    (flowOf Fun.real realObj).b i j = 0 ∧ ¬ (flowOf Fun.real realObj).land i j := by
  refine ⟨rfl, ?_, rfl, rfl, ?_⟩
  · change ((if Fl.eq (.fin (1 : ℝ)) (.fin 0) then Fl.nan else .fin 1) : Fl ℝ).num? = some 1
    rw [if_neg (by simp [Fl.eq])]
    rfl
  · change ¬ ((if interiorB 5 5 i j then (if Fl.lt (.fin (1 : ℝ)) (.fin (1 / 10)) then 2 else 0) else -1) : Int) = 2
    have : Fl.lt (.fin (1 : ℝ)) (.fin (1 / 10)) = false := by simp [Fl.lt]; norm_num
    rw [this]
    split_ifs <;> simp_all

theorem realObj_moves : ¬ (flowOf Fun.real realObj).DeadEnd 2 2 := by
  intro h
  have h7 := h 7 (by norm_num)
  obtain ⟨c1, c2, c3, c4, -⟩ := realObj_cell 2 2
  obtain ⟨d1, d2, -, -, d5⟩ := realObj_cell 3 2
  have hnr : Flow.nr 2 7 = 3 := rfl
  have hnc : Flow.nc 2 7 = 2 := rfl
  have hp : (flowOf Fun.real realObj).Passable 2 2 7 := by
    unfold Flow.Passable
    rw [hnr, hnc, d1]
    refine ⟨?_, d5⟩
    change (1 / 10 : ℝ) < 1
    norm_num
  unfold Flow.flow at h7
  rw [if_pos ⟨hp, by rw [c2]; rfl, by rw [hnr, hnc, d2]; rfl⟩, hnr, hnc, d1] at h7
  have hpw : (flowOf Fun.real realObj).pw 1 = 1 := by
    change ((if (1 : ℝ) = 0 then Fl.fin 1 else if (0 : ℝ) < 1 then .fin (1 ^ (1 : ℝ)) else _) : Fl ℝ).num = 1
    rw [if_neg one_ne_zero, if_pos one_pos]
    exact Real.one_rpow 1
  have hga : (flowOf Fun.real realObj).gamma = 1 / 20 := rfl
  have hsl : ∀ k, 0 ≤ (flowOf Fun.real realObj).slope 2 2 k := by
    intro k
    unfold Flow.slope Flow.drop
    split_ifs
    · split
      · exact le_max_left _ _
      · exact le_rfl
    · exact le_rfl
  have hin : ∀ k, 0 ≤ (flowOf Fun.real realObj).inertia 2 2 k := by
    intro k
    unfold Flow.inertia
    split_ifs
    · exact le_max_left _ _
    · exact le_rfl
  have h2 : (flowOf Fun.real realObj).inertia 2 2 7 = 2 := by
    unfold Flow.inertia
    rw [if_pos hp, c3, c4]
    change max 0 (((2 : ℝ) * 1 + 0 * 0) / 1) = 2
    norm_num
  have hS : 0 ≤ Flow.share ((flowOf Fun.real realObj).slope 2 2) 7 := div_nonneg (hsl 7) (Finset.sum_nonneg fun k _ => hsl k)
  have hI : 0 < Flow.share ((flowOf Fun.real realObj).inertia 2 2) 7 := by
    refine div_pos (by rw [h2]; norm_num) ?_
    refine lt_of_lt_of_le (by rw [h2]; norm_num) (Finset.single_le_sum (fun k _ => hin k) (Finset.mem_range.2 (by norm_num : 7 < 9)))
  rw [hpw, hga] at h7
  nlinarith

/-- One particle at (2,2), draws 1/2, one call of `run_iteration`: the hypotheses of `C20_along_flow` hold, with a recorded step. -/
example : ∃ (s : PState ℝ) (wd : WalkData ℝ) (q : Int × Int) (t : Fl ℝ),
    Reach Arith.exact Fun.real (fun P => Built Arith.exact Fun.real P ∧ DefaultWalk P ∧
      P.angles = defaultAngles Arith.exact Fun.real ∧ 0 < P.dx ∧ P.diffCoeff ≤ 2) Draws (FinSeed Arith.exact) realObj s ∧
    s.walk = some wd ∧ wd.posAt 0 0 = some (2, 2) ∧ wd.posAt 0 1 = some q ∧ wd.timeAt 0 0 = some (.fin 0) ∧ wd.timeAt 0 1 = some t ∧
    q ≠ (2, 2) := by
  obtain ⟨s0, h0, hw, hnp⟩ : ∃ s0, generateParticles Arith.exact realObj (fun _ => 1 / 2) (initState Arith.exact Fun.real realObj 0) (.int 1)
    (.list [.int 2]) (.list [.int 2]) (.int 0) (.str "exact") none = .ok s0 ∧
      (∃ wd, s0.walk = some wd ∧ wd.lists 0 = some ([2], [2], [.fin ((0 : Int) : ℝ)]) ∧ wd.lastPos 0 = some (2, 2)) ∧ s0.np = 1 :=
    ⟨_, rfl, ⟨_, rfl, rfl, rfl⟩, rfl⟩
  obtain ⟨wd, hwd, hl, hlp⟩ := hw
  have hc : genInputCheck (K := ℝ) (.int 1) (.list [.int 2]) (.list [.int 2]) (.int 0) (.str "exact") =
    .ok (1, [2], [2], .fin ((0 : Int) : ℝ), .exact) := rfl
  rw [Int.cast_zero] at hl hc
  have hdraws : Draws (K := ℝ) (fun _ => 1 / 2) := fun _ => by norm_num
  have hnz : NonzeroDraws (K := ℝ) Arith.exact (fun _ => 1 / 2) :=
    ⟨hdraws, fun _ x hx _ => (mul_pos hx (by norm_num : (0 : ℝ) < 1 / 2)).ne'⟩
  have reach : ∀ {Ob : PObj ℝ → Prop} {Sd : PObj ℝ → List Int → List Int → Fl ℝ → Prop}, Ob realObj → Sd realObj [2] [2] (.fin 0) →
      Reach Arith.exact Fun.real Ob Draws Sd realObj s0 := fun hO hS => .generate (.new 0 hO) hdraws hc (by norm_num) hS h0
  obtain ⟨res, hres⟩ := C17_no_crash (reach (Ob := Enclosed Arith.exact Fun.real 5 5) (Sd := InsideSeeds 5 5) realObj_enclosed
    (by intro x hx y hy; simp at hx hy; subst hx hy; unfold Inside; decide)) (by rw [hwd]; simp) hdraws none 1 (Or.inl rfl)
  have hin : Interior realObj 2 2 := ⟨by norm_num, by change 2 + 1 < 5; norm_num, by norm_num, by change 2 + 1 < 5; norm_num⟩
  have hedge : ¬ NearEdge realObj 2 2 := by
    intro he
    obtain ⟨i, j, hi, hj, h1, h2, h3⟩ := he
    have : realObj.cellType.at' i j = if interiorB 5 5 i j then (if Fl.lt (.fin (1 : ℝ)) (.fin (1 / 10)) then 2 else 0) else -1 := rfl
    rw [this, if_pos (by unfold interiorB; simp; omega)] at h3
    split_ifs at h3
  have hres' : res.state.walk = some res.returned := by
    obtain ⟨hpe, h1 | ⟨rows, hr⟩⟩ := (reach (Ob := Standard Fun.real) (Sd := AnySeed) realObj_std trivial).state (fun P h => h.built.good)
    · rw [hwd] at h1; cases h1
    obtain ⟨-, rows', -, hret, hwalk, -⟩ := runIteration_inv Arith.exact Fun.real realObj_built.good hpe hr.1 (Or.inl hr.2) hres
    rw [hret]; exact hwalk
  obtain ⟨q, t, hq, hne⟩ := C66_progress (fun P h => h) (reach (Ob := Standard Fun.real) (Sd := AnySeed) realObj_std trivial) hnz hres hwd hl hlp
    hin hedge (fun hd => realObj_moves ((deadEnd_repr realObj_built.good (represents_flowOf realObj_built.good) hin).1 hd))
  refine ⟨res.state, res.returned, q, t, .run (reach ?_ ⟨0, rfl, rfl⟩) hdraws hres, ?_⟩
  · refine ⟨realObj_built, ⟨rfl, rfl⟩, rfl, ?_, ?_⟩
    · change (0 : ℝ) < 10; norm_num
    · change (1 / 5 : ℝ) ≤ 2; norm_num
  · obtain ⟨X, Y, T, hX, hY, hT, rfl, rfl, rfl⟩ : ∃ X Y T, res.returned.xinds[0]? = some X ∧ res.returned.yinds[0]? = some Y ∧ res.returned.times[0]? = some T ∧
        X = [2, q.1] ∧ Y = [2, q.2] ∧ T = [.fin 0, t] := by
      unfold WalkData.lists at hq
      simp only [Option.bind_eq_bind, Option.bind_eq_some_iff, Option.pure_def, Option.some.injEq, Prod.mk.injEq] at hq
      obtain ⟨X, hX, Y, hY, T, hT, e1, e2, e3⟩ := hq
      exact ⟨X, Y, T, hX, hY, hT, e1, e2, e3⟩
    refine ⟨hres', ?_, ?_, ?_, ?_, hne⟩
    · simp [WalkData.posAt, hX, hY]
    · simp [WalkData.posAt, hX, hY]
    · simp [WalkData.timeAt, hT]
    · simp [WalkData.timeAt, hT]

end Dorado
