import Verif.Spec.Units
import Verif.Lemmas.Twin
import Verif.Props.Symmetry
import Verif.Props.TimeScale

/-! Helper lemmas for C111: the object built from rescaled inputs, its weights and its choices. -/

set_option linter.unusedSectionVars false

namespace Dorado

open Finset Flow

variable {K : Type} [Field K] [LinearOrder K] [IsStrictOrderedRing K] [FloorRing K]

/-! ### Scaled numbers -/

theorem times_nanTo0 (c : K) (x : Fl K) : (Fl.times c x).nanTo0 = Fl.times c x.nanTo0 := by
  cases x <;> simp [Fl.times, Fl.nanTo0, Fl.isNan]

theorem times_lt {c : K} (hc : 0 < c) (x y : Fl K) : Fl.lt (Fl.times c x) (Fl.times c y) = Fl.lt x y := by
  cases x <;> cases y <;> simp [Fl.times, Fl.lt, hc]

theorem times_eq {c : K} (hc : 0 < c) (x y : Fl K) : Fl.eq (Fl.times c x) (Fl.times c y) = Fl.eq x y := by
  cases x <;> cases y <;> simp [Fl.times, Fl.eq, hc.ne']

theorem times_zero (c : K) : Fl.times c (.fin 0) = .fin 0 := by simp [Fl.times]

theorem times_lt0 {c : K} (hc : 0 < c) (x : Fl K) : Fl.lt (Fl.times c x) (.fin 0) = Fl.lt x (.fin 0) := by
  have := times_lt hc x (.fin 0)
  rwa [times_zero] at this

theorem times_eq0 {c : K} (hc : 0 < c) (x : Fl K) : Fl.eq (Fl.times c x) (.fin 0) = Fl.eq x (.fin 0) := by
  have := times_eq hc x (.fin 0)
  rwa [times_zero] at this

theorem times_isNan (c : K) (x : Fl K) : (Fl.times c x).isNan = x.isNan := by cases x <;> rfl

theorem times_one (x : Fl K) : Fl.times 1 x = x := by cases x <;> simp [Fl.times]

theorem times_times (c d : K) (x : Fl K) : Fl.times c (Fl.times d x) = Fl.times (c * d) x := by cases x <;> simp [Fl.times, mul_assoc]

theorem mul_eq_times {c : K} (hc : 0 < c) (x : Fl K) : Arith.exact.mul (.fin c) x = Fl.times c x := by
  cases x <;> simp [Arith.mul, Fl.times, Arith.exact, Arith.infMul, hc, hc.ne', Fl.neg]

theorem times_add (c : K) (x y : Fl K) : Arith.exact.add (Fl.times c x) (Fl.times c y) = Fl.times c (Arith.exact.add x y) :=
  add_times (scaleExact_exact c) x y

theorem times_sub (c : K) (x y : Fl K) : Arith.exact.sub (Fl.times c x) (Fl.times c y) = Fl.times c (Arith.exact.sub x y) := by
  unfold Arith.sub
  rw [← times_neg, times_add]

theorem times_mul_times {a b : K} (ha : 0 < a) (hb : 0 < b) (x y : Fl K) :
    Arith.exact.mul (Fl.times b x) (Fl.times a y) = Fl.times (a * b) (Arith.exact.mul x y) := by
  rw [mul_times ha (scaleExact_exact a), times_mul hb (scaleExact_exact b), times_times]

/-- A grid with every number multiplied by `c`. -/
abbrev Grid.times (c : K) (g : Grid (Fl K)) : Grid (Fl K) := g.map (Fl.times c)

theorem gtimes_nanZero (c : K) (g : Grid (Fl K)) : nanZeroGrid (g.times c) = (nanZeroGrid g).times c :=
  Grid.ext' rfl rfl fun _ _ => times_nanTo0 _ _

theorem gtimes_neg (c : K) (g : Grid (Fl K)) : negGrid (g.times c) = (negGrid g).times c :=
  Grid.ext' rfl rfl fun _ _ => (times_neg _ _).symm

theorem needShape_map {α β γ δ : Type} {g : Grid α} {h : Grid β} (f : α → γ) (f' : β → δ) : needShape (g.map f) (h.map f') = needShape g h := rfl

/-! ### The constructor on rescaled inputs -/

variable {h a b : K} {p : Params K}

theorem initDepth_rescale (ha : 0 < a) {d : Grid (Fl K)} (hd : initDepth Arith.exact p = .ok d) :
    initDepth Arith.exact (p.rescale h a b) = .ok (d.times a) := by
  unfold initDepth at hd ⊢
  simp only [Params.rescale]
  cases e1 : p.depth with
  | some g =>
    simp only [e1, Option.map_some] at hd ⊢
    rw [← Except.ok.inj hd]
    exact congrArg _ (gtimes_nanZero a g)
  | none =>
    cases e2 : p.stage with
    | none => simp [e1, e2] at hd
    | some s =>
      cases e3 : p.topography with
      | none => simp [e1, e2, e3] at hd
      | some t =>
        simp only [e1, e2, e3, Option.map_some, Option.map_none, bind_ok, pure_ok] at hd ⊢
        obtain ⟨u, hu, rfl⟩ := hd
        refine ⟨u, hu, ?_⟩
        rw [← gtimes_nanZero]
        congr 1
        refine Grid.ext' rfl rfl fun i j => ?_
        show (if Fl.lt (Arith.exact.sub (Fl.times a (s.at' i j)) (Fl.times a (t.at' i j))) (.fin 0) then Fl.fin 0
            else Arith.exact.sub (Fl.times a (s.at' i j)) (Fl.times a (t.at' i j))) =
          Fl.times a (if Fl.lt (Arith.exact.sub (s.at' i j) (t.at' i j)) (.fin 0) then Fl.fin 0 else Arith.exact.sub (s.at' i j) (t.at' i j))
        rw [times_sub, times_lt0 ha]
        split
        · rw [times_zero]
        · rfl

theorem stageNan_times (ha : 0 < a) (s d : Grid (Fl K)) : stageNan (s.times a) (d.times a) = (stageNan s d).times a := by
  refine Grid.ext' rfl rfl fun i j => ?_
  show (if Fl.eq (Fl.times a (d.at' i j)) (.fin 0) then Fl.nan else Fl.times a (s.at' i j)) =
    Fl.times a (if Fl.eq (d.at' i j) (.fin 0) then Fl.nan else s.at' i j)
  rw [times_eq0 ha]
  split <;> rfl

theorem initStage_rescale (ha : 0 < a) {d s : Grid (Fl K)} (hs : initStage Arith.exact p d = .ok s) :
    initStage Arith.exact (p.rescale h a b) (d.times a) = .ok (s.times a) := by
  unfold initStage at hs ⊢
  simp only [Params.rescale]
  cases e1 : p.stage with
  | some g =>
    simp only [e1, Option.map_some, bind_ok, pure_ok] at hs ⊢
    obtain ⟨u, hu, rfl⟩ := hs
    exact ⟨u, hu, stageNan_times ha g d⟩
  | none =>
    cases e2 : p.topography with
    | none => simp [e1, e2] at hs
    | some t =>
      cases e3 : p.depth with
      | none => simp [e1, e2, e3] at hs
      | some g =>
        simp only [e1, e2, e3, Option.map_some, Option.map_none, bind_ok, pure_ok] at hs ⊢
        obtain ⟨u, hu, rfl⟩ := hs
        refine ⟨u, hu, ?_⟩
        rw [← stageNan_times ha]
        congr 1
        exact Grid.ext' rfl rfl fun i j => times_add a _ _

theorem flowFromQ_times {x y d qx qy u v : Grid (Fl K)} (c : K) (hf : flowFromQ Arith.exact x y d = .ok (qx, qy, u, v)) :
    ∃ u' v', flowFromQ Arith.exact (x.times c) (y.times c) (d.times a) = .ok (qx.times c, qy.times c, u', v') := by
  unfold flowFromQ at hf ⊢
  simp only [bind_ok, pure_ok, Prod.mk.injEq] at hf ⊢
  obtain ⟨s, hs, s', hs', rfl, rfl, -, -⟩ := hf
  exact ⟨_, _, s, hs, s', hs', gtimes_nanZero c x, gtimes_nanZero c y, rfl, rfl⟩

theorem flowFromU_times (ha : 0 < a) (hb : 0 < b) {x y d qx qy u v : Grid (Fl K)} (hf : flowFromU Arith.exact x y d = .ok (qx, qy, u, v)) :
    flowFromU Arith.exact (x.times b) (y.times b) (d.times a) = .ok (qx.times (a * b), qy.times (a * b), u.times b, v.times b) := by
  unfold flowFromU at hf ⊢
  simp only [bind_ok, pure_ok, Prod.mk.injEq] at hf ⊢
  obtain ⟨s, hs, s', hs', rfl, rfl, rfl, rfl⟩ := hf
  refine ⟨s, hs, s', hs', ?_, ?_, gtimes_nanZero b x, gtimes_nanZero b y⟩
  · rw [gtimes_nanZero]
    exact Grid.ext' rfl rfl fun i j => times_mul_times ha hb _ _
  · rw [gtimes_nanZero]
    exact Grid.ext' rfl rfl fun i j => times_mul_times ha hb _ _

theorem initFlow_rescale (ha : 0 < a) (hb : 0 < b) {d qx qy u v : Grid (Fl K)} (hf : initFlow Arith.exact p d = .ok (qx, qy, u, v)) :
    ∃ u' v', initFlow Arith.exact (p.rescale h a b) (d.times a) = .ok (qx.times (a * b), qy.times (a * b), u', v') ∧
      (p.ByVelocity → u' = u.times b ∧ v' = v.times b) := by
  unfold initFlow at hf ⊢
  unfold Params.ByVelocity
  simp only [Params.rescale]
  cases e0 : p.deltaRCM <;> cases e1 : p.qx <;> cases e2 : p.qy <;> cases e3 : p.u <;> cases e4 : p.v <;>
    simp only [e0, e1, e2, e3, e4, Option.map_some, Option.map_none] at hf ⊢ <;>
    first
    | cases hf
    | (first | rw [gtimes_neg] | skip
       obtain ⟨u', v', h1⟩ := flowFromQ_times (a := a) (a * b) hf
       exact ⟨u', v', h1, fun h => by simp at h⟩)
    | (first | rw [gtimes_neg] | skip
       exact ⟨_, _, flowFromU_times ha hb hf, fun _ => ⟨rfl, rfl⟩⟩)

theorem cellType_rescale (ha : 0 < a) {d : Grid (Fl K)} {dry : K} : initCellType (p.rescale h a b) (d.times a) (a * dry) = initCellType p d dry := by
  have e : defaultCellType (d.times a) (a * dry) = defaultCellType d dry := by
    refine Grid.ext' rfl rfl fun i j => ?_
    show (if interiorB d.rows d.cols i j then (if Fl.lt (Fl.times a (d.at' i j)) (Fl.times a (.fin dry)) then 2 else 0) else -1) = _
    rw [times_lt ha]
    rfl
  unfold initCellType
  rw [e]
  rfl

/-- The object built from rescaled inputs. -/
theorem init_rescale {F : Fun K Arith.exact} (ha : 0 < a) (hb : 0 < b) {P : PObj K} (hP : initParticles Arith.exact F p = .ok P)
    (hdry : p.dryDepth.isSome) :
    ∃ P' u v u' v', initParticles Arith.exact F (p.rescale h a b) = .ok P' ∧ Parts Arith.exact F p P u v ∧
      Parts Arith.exact F (p.rescale h a b) P' u' v' ∧ P'.dx = h * P.dx ∧ P'.depth = P.depth.times a ∧ P'.stage = P.stage.times a ∧
      P'.qx = P.qx.times (a * b) ∧ P'.qy = P.qy.times (a * b) ∧ P'.cellType = P.cellType ∧ P'.dryDepth = a * P.dryDepth ∧
      (p.ByVelocity → u' = u.times b ∧ v' = v.times b) := by
  obtain ⟨u, v, X⟩ := init_parts _ _ hP
  obtain ⟨u', v', hf, huv⟩ := initFlow_rescale (h := h) ha hb X.flow
  obtain ⟨dry, hdry⟩ := Option.isSome_iff_exists.1 hdry
  have hct : initCellType (p.rescale h a b) (P.depth.times a) ((p.rescale h a b).dryDepth.getD (Arith.exact.rnd (1 / 10))) = .ok P.cellType := by
    have := X.ct
    rw [X.dry, hdry] at this
    simp only [Params.rescale, hdry, Option.map_some, Option.getD_some] at this ⊢
    rw [← this]
    exact cellType_rescale (h := h) (b := b) ha
  obtain ⟨P', hP', h1, h2, h3, h4, h5⟩ := init_mk (F := F) (p := p.rescale h a b) (dx := h * P.dx) (by simp [Params.rescale, X.dx])
    (initDepth_rescale ha X.depth) (initStage_rescale ha X.stage) hf hct X.roiShape
  obtain ⟨u2, v2, X'⟩ := init_parts _ _ hP'
  have hx := X'.flow
  rw [h1, hf] at hx
  have hx := (Except.ok.inj hx)
  simp only [Prod.mk.injEq] at hx
  refine ⟨P', u, v, u2, v2, hP', X, X', ?_, h1, h2, h3, h4, h5, ?_, ?_⟩
  · have := X'.dx
    simp only [Params.rescale, X.dx, Option.map_some, Option.some.injEq] at this
    exact this.symm
  · rw [X'.dry, X.dry, hdry]
    simp [Params.rescale, hdry]
  · rw [← hx.2.2.1, ← hx.2.2.2]
    exact huv

theorem valid_rescale (ha : 0 < a) (hv : ValidParams p) : ValidParams (p.rescale h a b) := by
  have hm : ∀ (c : K) (g : Grid (Fl K)), g.FinOrNan → (g.times c).FinOrNan := by
    intro c g hg i j hi hj
    rcases hg i j hi hj with h | ⟨x, h⟩
    · left; simp [Grid.times, Grid.map, h, Fl.times]
    · right; exact ⟨c * x, by simp [Grid.times, Grid.map, h, Fl.times]⟩
  exact { hv with
    depth := valid_map hv.depth (hm _)
    stage := valid_map hv.stage (hm _)
    topography := valid_map hv.topography (hm _)
    qx := valid_map hv.qx (hm _)
    qy := valid_map hv.qy (hm _)
    u := valid_map hv.u (hm _)
    v := valid_map hv.v (hm _)
    dryDepth := by
      intro x hx
      simp only [Params.rescale] at hx
      cases hd : p.dryDepth with
      | none => simp [hd] at hx
      | some y =>
        simp only [hd, Option.map_some, Option.some.injEq] at hx
        rw [← hx]
        exact mul_nonneg ha.le (hv.dryDepth y hd) }

/-! ### Weights -/

/-- Flow field with vertical lengths multiplied by `a` and discharges by `q`. -/
def Flow.deepened (f : Flow K) (a q : K) : Flow K :=
  { f with depth := fun i j => a * f.depth i j, stage := fun i j => (f.stage i j).map (a * ·), a := fun i j => q * f.a i j,
           b := fun i j => q * f.b i j, dry := a * f.dry }

theorem Flow.deepened_flow (f : Flow K) {a q s : K} (ha : 0 < a) (hq : 0 < q) (hdry : 0 ≤ f.dry) (hs : ∀ x, 0 < x → f.pw (a * x) = s * f.pw x)
    {i j k : Nat} (hk : k < 9) : (f.deepened a q).flow i j k = s * f.flow i j k := by
  have hp : ∀ k, (f.deepened a q).Passable i j k ↔ f.Passable i j k := by
    intro k
    unfold Flow.Passable Flow.deepened
    simp only [mul_lt_mul_iff_right₀ ha]
  have hi : ∀ k, k < 9 → (f.deepened a q).inertia i j k = q * f.inertia i j k := by
    intro k _
    unfold Flow.inertia
    rw [propext (hp k)]
    split
    · rw [mul_max_of_nonneg _ _ hq.le, mul_zero]
      congr 1
      simp only [Flow.deepened]
      ring
    · rw [mul_zero]
  have hsl : ∀ k, k < 9 → (f.deepened a q).slope i j k = a * f.slope i j k := by
    intro k _
    unfold Flow.slope
    rw [propext (hp k)]
    split
    · simp only [Flow.deepened]
      cases f.stage i j with
      | none => simp [Flow.drop]
      | some e =>
        cases f.stage (nr i k) (nc j k) with
        | none => simp [Flow.drop]
        | some e' =>
          simp only [Option.map_some, Flow.drop]
          rw [mul_max_of_nonneg _ _ ha.le, mul_zero]
          congr 1
          ring
    · rw [mul_zero]
  have h1 : ∀ x y, ((f.deepened a q).stage x y).isSome = (f.stage x y).isSome := fun _ _ => Option.isSome_map ..
  unfold Flow.flow
  rw [propext (hp k), h1, h1, share_scale ha.ne' hsl hk, share_scale hq.ne' hi hk]
  split
  · rename_i hc
    have hpos : 0 < f.depth (nr i k) (nc j k) := lt_of_le_of_lt hdry hc.1.1
    show f.pw (a * f.depth (nr i k) (nc j k)) * _ = _
    rw [hs _ hpos, mul_assoc]
    rfl
  · rw [mul_zero]

/-- All nine weights of a cell are multiplied by the same positive factor. -/
theorem Flow.deepened_weight (f : Flow K) {a q s : K} (ha : 0 < a) (hq : 0 < q) (hs0 : 0 < s) (hdry : 0 ≤ f.dry)
    (hs : ∀ x, 0 < x → f.pw (a * x) = s * f.pw x) (i j : Nat) :
    ∃ c, 0 < c ∧ ∀ k, k < 9 → (f.deepened a q).weight i j k = c * f.weight i j k := by
  have hf : ∀ k, k < 9 → (f.deepened a q).flow i j k = s * f.flow i j k := fun k hk => f.deepened_flow ha hq hdry hs hk
  have hdead : (f.deepened a q).DeadEnd i j ↔ f.DeadEnd i j := by
    constructor <;> intro h m hm
    · have := h m hm
      rw [hf m hm] at this
      exact (mul_eq_zero.1 this).resolve_left hs0.ne'
    · rw [hf m hm, h m hm, mul_zero]
  have hdeep : ∀ k, (f.deepened a q).Deepest i j k ↔ f.Deepest i j k := by
    intro k
    unfold Flow.Deepest Flow.deepened
    simp only [mul_le_mul_iff_right₀ ha]
  by_cases hd : f.DeadEnd i j
  · refine ⟨1, one_pos, fun k _ => ?_⟩
    unfold Flow.weight
    rw [if_pos (hdead.2 hd), if_pos hd, propext (hdeep k), one_mul]
  · refine ⟨s, hs0, fun k hk => ?_⟩
    unfold Flow.weight
    rw [if_neg (fun h => hd (hdead.1 h)), if_neg hd, hf k hk]

/-! ### Choices -/

theorem times_nanMax {c : K} (hc : 0 < c) (x y : Fl K) : Fl.nanMax (Fl.times c x) (Fl.times c y) = Fl.times c (Fl.nanMax x y) := by
  unfold Fl.nanMax
  simp only [times_isNan, times_lt hc]
  split_ifs <;> rfl

theorem nanmax9_times {c : K} (hc : 0 < c) (p : Nat → Fl K) : nanmax9 (fun k => Fl.times c (p k)) = Fl.times c (nanmax9 p) := by
  have key : ∀ (l : List Nat) (m : Fl K), l.foldl (fun m k => Fl.nanMax m (Fl.times c (p (k + 1)))) (Fl.times c m) =
      Fl.times c (l.foldl (fun m k => Fl.nanMax m (p (k + 1))) m) := by
    intro l
    induction l with
    | nil => exact fun _ => rfl
    | cons x l ih =>
      intro m
      rw [List.foldl_cons, List.foldl_cons, times_nanMax hc, ih]
  exact key _ _

theorem steepMask_times {c : K} (hc : 0 < c) (p : Nat → Fl K) (k : Nat) : steepMask (fun k => Fl.times c (p k)) k = Fl.times c (steepMask p k) := by
  unfold steepMask
  simp only
  rw [nanmax9_times hc, ← times_nanTo0]
  congr 1
  have e : ∀ k, (if k = 4 then Fl.fin 0 else Fl.times c (p k)) = Fl.times c (if k = 4 then Fl.fin 0 else p k) := by
    intro k
    split
    · rw [times_zero]
    · rfl
  rw [e, times_lt hc]
  generalize (if k = 4 then Fl.fin 0 else p k) = y
  split
  · rw [times_zero]
  · rfl

theorem maskOf_times {c : K} (hc : 0 < c) (P : PObj K) (p : Nat → Fl K) (k : Nat) : maskOf P (fun k => Fl.times c (p k)) k = Fl.times c (maskOf P p k) := by
  unfold maskOf
  split
  · exact steepMask_times hc p k
  · exact times_nanTo0 c _

theorem cumsum_times (c : K) (p : Nat → Fl K) (k : Nat) : cumsum Arith.exact (fun k => Fl.times c (p k)) k = Fl.times c (cumsum Arith.exact p k) := by
  induction k with
  | zero => rfl
  | succ k ih =>
    show Arith.exact.add (cumsum Arith.exact (fun k => Fl.times c (p k)) k) (Fl.times c (p (k + 1))) = _
    rw [ih, times_add]
    rfl

/-- A choice does not change when all weights are multiplied by the same positive factor. -/
theorem pickFrom_times {c : K} (hc : 0 < c) (p : Nat → Fl K) (r : K) :
    pickFrom Arith.exact (fun k => Fl.times c (p k)) r = pickFrom Arith.exact p r := by
  unfold pickFrom
  simp only [cumsum_times]
  cases h : cumsum Arith.exact p 8 with
  | fin x =>
    have e : (fun k => Fl.npLt (Fl.times c (cumsum Arith.exact p k)) (Fl.fin (c * x * r))) = fun k => Fl.npLt (cumsum Arith.exact p k) (Fl.fin (x * r)) := by
      funext k
      have : (Fl.fin (c * x * r) : Fl K) = Fl.times c (.fin (x * r)) := by simp [Fl.times, mul_assoc]
      rw [this]
      unfold Fl.npLt
      rw [times_lt hc, times_isNan, times_isNan]
    show (Except.ok (searchSorted (fun k => Fl.npLt (Fl.times c (cumsum Arith.exact p k)) (Fl.fin (c * x * r))) 9) : Except PyErr Nat) = _
    rw [e]
    rfl
  | nan => rfl
  | pinf => rfl
  | ninf => rfl

theorem pick_scaled {P P' : PObj K} (hst : P'.steepest = P.steepest) {c : K} (hc : 0 < c) {p q : Nat → Fl K} (hp : ∀ k, k < 9 → NN Arith.exact (p k))
    (hq : ∀ k, k < 9 → NN Arith.exact (q k)) (h : ∀ k, k < 9 → (q k).nanTo0 = Fl.times c (p k).nanTo0) (r : K) :
    pickFrom Arith.exact (maskOf P p) r = pickFrom Arith.exact (maskOf P' q) r := by
  have e : maskOf P' q = maskOf P q := by
    unfold maskOf
    rw [hst]
  have hp2 : ∀ k, k < 9 → NN Arith.exact (Fl.times c (p k)) := by
    intro k hk
    rcases hp k hk with h | ⟨x, h, h0, -⟩
    · exact .inl (by rw [h]; rfl)
    · exact .inr ⟨c * x, by rw [h]; rfl, mul_nonneg hc.le h0, rfl⟩
  rw [e, ← pickFrom_times hc]
  refine pickFrom_congr _ (fun k hk => ?_) _
  rw [← maskOf_times hc]
  exact maskOf_nanTo0 hp2 hq (fun k hk => by rw [h k hk, times_nanTo0]) hk

end Dorado
