import Verif.Lemmas.Plan
import Verif.Spec.Plan
import Verif.Props.Unsteady

/-! # A simulation with `N` randomly seeded particles is `N` independent simulations with one: C109 -/

set_option linter.unusedSectionVars false

namespace Dorado

open MeasureTheory

noncomputable section

theorem Matches.transfer {N : Nat} {keys keys' : List String} {rows rows' : List (Row ℝ)} {st : Fin N → Mach} (h : ofRows keys rows = ofRows keys' rows')
    (hm : Matches rows st) : Matches rows' st := by
  have hl : rows.length = rows'.length := by
    have := congrArg (fun w => w.xinds.length) h
    simpa [ofRows] using this
  refine ⟨by rw [← hl]; exact hm.1, fun j r hr => ?_⟩
  have hlt : j.val < rows.length := by have := hm.1; omega
  have a1 := congrArg (fun w => w.xinds[j.val]?) h
  have a2 := congrArg (fun w => w.yinds[j.val]?) h
  have a3 := congrArg (fun w => w.times[j.val]?) h
  simp only [ofRows, List.getElem?_map, hr, List.getElem?_eq_getElem hlt, Option.map_some, Option.some.injEq] at a1 a2 a3
  exact (hm.2 j _ (List.getElem?_eq_getElem hlt)).sameLists a1.symm a2.symm a3.symm

/-! ## Unsteady flow -/

variable {F : Fun ℝ Arith.exact}

/-- What the particles of a list do in the flow field number `k` (routines.py:223-262). -/
def flowOps {ι : Type} (F : Fun ℝ Arith.exact) (dx t : ℝ) (dir : List (String × FileData ℝ)) (ot : String) (l : List ι) (k : Nat) : List (ι × Op Mach) :=
  match loadStep dir ot k with
  | .ok f => match initParticles Arith.exact F (stepParams dx f) with
    | .ok P => callOps Arith.exact F P l (some (Arith.exact.add (.fin t) (Arith.exact.mul (.fin (Arith.exact.rnd (k : ℝ))) (.fin t))), 10000)
    | .error _ => []
  | .error _ => []

/-- What the particles of a list do in `unsteady_plots` (routines.py:223-262): seeding in the first field, then one call of `run_iteration` per field. -/
def unsteadyOps {ι : Type} (F : Fun ℝ Arith.exact) (dx t : ℝ) (dir : List (String × FileData ℝ)) (ot : String) (xs ys : List Int) (l : List ι) (n : Nat) :
    List (ι × Op Mach) :=
  seedOps Arith.exact xs ys l ++ (List.range n).flatMap (flowOps F dx t dir ot l)

theorem flowOps_meas {ι : Type} {dx t : ℝ} {dir : List (String × FileData ℝ)} {ot : String} (l : List ι) (k : Nat) :
    ∀ io ∈ flowOps F dx t dir ot l k, io.2.Meas := by
  intro io hio
  unfold flowOps at hio
  split at hio
  · split at hio
    · exact callOps_meas _ _ io hio
    · cases hio
  · cases hio

theorem unsteadyOps_meas {ι : Type} {dx t : ℝ} {dir : List (String × FileData ℝ)} {ot : String} {xs ys : List Int} (l : List ι) (n : Nat) :
    ∀ io ∈ unsteadyOps F dx t dir ot xs ys l n, io.2.Meas := by
  intro io hio
  unfold unsteadyOps at hio
  rw [List.mem_append] at hio
  rcases hio with hio | hio
  · exact seedOps_meas _ io hio
  · obtain ⟨k, -, hk⟩ := List.mem_flatMap.1 hio
    exact flowOps_meas _ _ io hk

theorem opsOf_flow {N : Nat} {dx t : ℝ} {dir : List (String × FileData ℝ)} {ot : String} (i : Fin N) (k : Nat) :
    opsOf i (flowOps F dx t dir ot (List.finRange N) k) = flowOps F dx t dir ot [()] k := by
  unfold flowOps
  cases loadStep dir ot k with
  | error e => rfl
  | ok f =>
    simp only
    cases initParticles Arith.exact F (stepParams dx f) with
    | error e => rfl
    | ok P => exact opsOf_call i _

theorem opsOf_unsteady {N : Nat} {dx t : ℝ} {dir : List (String × FileData ℝ)} {ot : String} {xs ys : List Int} (i : Fin N) (n : Nat) :
    opsOf i (unsteadyOps F dx t dir ot xs ys (List.finRange N) n) = unsteadyOps F dx t dir ot xs ys [()] n := by
  unfold unsteadyOps
  rw [opsOf_append, opsOf_seed]
  congr 1
  induction List.range n with
  | nil => rfl
  | cons k l ih => rw [List.flatMap_cons, List.flatMap_cons, opsOf_append, opsOf_flow, ih]

/-- The walk data after `m` flow fields, and the position in the random stream. -/
theorem unsteady_feed {ω : Nat → ℝ} (hω : Draws ω) {dx t : ℝ} (hdx : dx ≠ 0) {dir : List (String × FileData ℝ)}
    {ot : String} {R C n : Nat} (hgood : GoodOutputs dir ot R C n) {N : Nat} (hN : 0 < N) {xs ys : List Int}
    (hxn : xs ≠ []) (hyn : ys ≠ []) (hin : ∀ x ∈ xs, ∀ y ∈ ys, Inside R C (x, y)) (pos m : Nat) (hm : m ≤ n) :
    ∃ st, foldE (unsteadyStep Arith.exact F ω dx t n dir ot (.int N) (.list (xs.map .int)) (.list (ys.map .int))) ⟨none, pos, [], []⟩
        (List.range m) = .ok st ∧
      (0 < m → ∃ rows keys, st.walk = some (ofRows keys rows) ∧
        Matches rows (deal ω (unsteadyOps F dx t dir ot xs ys (List.finRange N) m) (fun _ => unplaced (.fin 0), pos)).1 ∧
        st.pos = (deal ω (unsteadyOps F dx t dir ot xs ys (List.finRange N) m) (fun _ => unplaced (.fin 0), pos)).2) := by
  have hO : ∀ i f P, FieldNo dir ot i f → initParticles Arith.exact F (stepParams dx f) = .ok P → Enclosed Arith.exact F R C P :=
    fun i f P hf hP => step_enclosed hdx (hgood.field hf) hP
  induction m with
  | zero => exact ⟨_, rfl, fun h => absurd h (lt_irrefl 0)⟩
  | succ m ih =>
    obtain ⟨st, hst, hprev⟩ := ih (by omega)
    obtain ⟨ws, hl, hrun, hheld, hlast, -⟩ := flowRun (Sd := InsideSeeds R C) hω hO (fun P h => h.built) (fun _ _ => hin) (fun _ _ x hx => by cases hx) pos m hst
    have hheld' : ∀ w, st.walk = some w → Held Arith.exact F (Enclosed Arith.exact F R C) Draws (InsideSeeds R C) w ∧ w.xinds.length = N := fun w hw => by
      have hmem : w ∈ ws := List.mem_of_getLast? (by rw [← hlast]; exact hw)
      exact ⟨hheld w hmem, hrun.number w hmem⟩
    obtain ⟨st', hst'⟩ := stepOk (t := t) (len := n) hω hdx hgood hN hxn hyn hin (st := st) hheld' (i := m) (by omega) (by omega)
    refine ⟨st', by rw [List.range_succ, foldE_append, hst]; simp only [ok_bind, foldE, hst'], fun _ => ?_⟩
    unfold unsteadyStep at hst'
    simp only [bind_ok, pure_ok] at hst'
    obtain ⟨f, hf, P, hP, s1, hs1, tgt, htgt, r, hr, g, hg, p, hp, start, hstart, rfl⟩ := hst'
    have hE := hO m f P (loadStep_inv hf) hP
    have hvars := step_vars hP
    obtain ⟨hR, hne, hsame, hnp⟩ := stepSeed_reach (Sd := InsideSeeds R C) (st := st) hω (fun P (h : Enclosed Arith.exact F R C P) => h.built) hE hvars
      (fun _ _ => hin) (fun _ _ x hx => by cases hx) (fun w hw => (hheld' w hw).1) hs1
    obtain ⟨w1, hw1⟩ := Option.ne_none_iff_exists'.1 hne
    obtain ⟨hRo, rows1, hrows1, hsound⟩ := Enclosed.sound hR hw1
    have htgt' : tgt = Arith.exact.add (.fin t) (Arith.exact.mul (.fin (Arith.exact.rnd (m : ℝ))) (.fin t)) := by
      unfold targetTime at htgt
      rw [if_pos (by omega)] at htgt
      cases htgt
      rfl
    have hops : flowOps F dx t dir ot (List.finRange N) m = callOps Arith.exact F P (List.finRange N) (some tgt, 10000) := by
      unfold flowOps
      rw [hf]
      simp only
      rw [hP, htgt']
    -- before the run
    have hbefore : Matches rows1 (deal ω (unsteadyOps F dx t dir ot xs ys (List.finRange N) m) (fun _ => unplaced (.fin 0), pos)).1 ∧
        s1.world.pos = (deal ω (unsteadyOps F dx t dir ot xs ys (List.finRange N) m) (fun _ => unplaced (.fin 0), pos)).2 := by
      have conv : ∀ (s : PState ℝ) (M : Nat) (xs ys : List Int) prev, generateParticles Arith.exact P ω s (.int M) (ints xs) (ints ys) (.int 0) (.str "random") prev =
          generateParticles Arith.exact P ω s (.int M) (ints xs) (ints ys) (.flt (.fin 0)) (.str "random") prev := by
        intro s M xs ys prev
        unfold generateParticles
        rw [check_zero, check_ints, if_pos rfl]
      rcases Nat.eq_zero_or_pos m with rfl | hm0
      · cases hst
        have hs1' : generateParticles Arith.exact P ω (initState Arith.exact F P pos) (.int N) (ints xs) (ints ys) (.flt (.fin 0)) (.str "random") none = .ok s1 := by
          rw [← conv]; exact hs1
        have hwt : PickEquiv Arith.exact F P (initState Arith.exact F P pos).world.weight :=
          (Reach.new (A := Arith.exact) (F := F) (Ob := Enclosed Arith.exact F R C) (Ω := Draws) (Sd := InsideSeeds R C) pos hE).state (fun P h => h.built.good) |>.1
        obtain ⟨rows, h1, h2, h3⟩ := generate_feed (F := F) rfl hwt (by rw [hE.rows, hE.cols]; exact hin) hs1'
        have e : unsteadyOps F dx t dir ot xs ys (List.finRange N) 0 = seedOps Arith.exact xs ys (List.finRange N) := by simp [unsteadyOps]
        rw [e]
        refine ⟨h2.transfer (keys := keysOf P) (keys' := keysOf P) ?_, h3⟩
        rw [← hrows1]
        have := h1.has.1
        rw [hw1] at this
        injection this with this
        exact this.symm
      · obtain ⟨rows, keys, h1, h2, h3⟩ := hprev hm0
        refine ⟨h2.transfer (keys := keys) (keys' := keysOf P) ?_, ?_⟩
        · rw [← hrows1]
          have := hsame _ h1
          rw [hw1] at this
          injection this with this
          exact this.symm
        · rw [← h3]
          unfold stepSeed at hs1
          rw [h1] at hs1
          have hs1' : generateParticles Arith.exact P ω (initState Arith.exact F P st.pos) (.int (0 : Nat)) (ints []) (ints []) (.flt (.fin 0)) (.str "random")
              (some (ofRows keys rows)) = .ok s1 := by
            rw [← conv]; exact hs1
          exact generate_pos hs1'
    obtain ⟨rows', hsound', hm', hpos'⟩ := call_feed hRo hsound hbefore.1 (c := (some tgt, 10000)) hr
    have hwr : r.state.walk = some r.returned := by
      obtain ⟨hpe, h0 | ⟨rows, hrows⟩⟩ := hR.state (fun P hP => hP.built.good)
      · exact absurd h0 hne
      obtain ⟨-, rows', -, hret, hwalk, -⟩ := runIteration_inv Arith.exact F hE.built.good hpe hrows.1 (Or.inl hrows.2) hr
      rw [hret, hwalk]
    have e : unsteadyOps F dx t dir ot xs ys (List.finRange N) (m + 1) =
        unsteadyOps F dx t dir ot xs ys (List.finRange N) m ++ callOps Arith.exact F P (List.finRange N) (some tgt, 10000) := by
      unfold unsteadyOps
      rw [List.range_succ, List.flatMap_append, List.append_assoc, ← hops]
      simp
    rw [e, deal_append]
    rw [hbefore.2] at hm' hpos'
    exact ⟨rows', keysOf P, by rw [← hwr]; exact hsound'.has.1, hm', hpos'⟩

theorem arange_exact {t : ℝ} (ht : t ≠ 0) (n : Nat) : arangeLen Arith.exact t (n : Int) = .ok n := by
  unfold arangeLen
  rw [if_neg ht]
  have h1 : (Arith.exact : Arith ℝ).sub (Arith.exact.mul (.fin t) (.fin (Arith.exact.rnd (((n : Int) + 1 : Int) : ℝ)))) (.fin t) =
      .fin (t * (((n : Int) + 1 : Int) : ℝ) - t) := by
    simp [Arith.sub, Arith.mul, Arith.add, Arith.exact, Fl.neg, sub_eq_add_neg]
  have : (Arith.exact : Arith ℝ).div (Arith.exact.sub (Arith.exact.mul (.fin t) (.fin (Arith.exact.rnd (((n : Int) + 1 : Int) : ℝ)))) (.fin t)) (.fin t) =
      .fin (n : ℝ) := by
    rw [h1]
    unfold Arith.div
    simp only [if_neg ht]
    show Fl.fin ((t * (((n : Int) + 1 : Int) : ℝ) - t) / t) = _
    congr 1
    push_cast
    field_simp
    ring
  rw [this]
  simp

/-- The histories returned by `unsteady_plots`. -/
theorem unsteady_history {ω : Nat → ℝ} (hω : Draws ω) {dx t : ℝ} (hdx : dx ≠ 0) (ht : t ≠ 0) {dir : List (String × FileData ℝ)}
    {ot : String} {R C : Nat} {numSteps : Int} (hn : 0 < numSteps) (hout : 0 < max (filesWith dir "depth") (filesWith dir "data"))
    (hgood : GoodOutputs dir ot R C (min numSteps.toNat (max (filesWith dir "depth") (filesWith dir "data")))) {N : Nat} {xs ys : List Int}
    (hxn : xs ≠ []) (hyn : ys ≠ []) (hin : ∀ x ∈ xs, ∀ y ∈ ys, Inside R C (x, y)) (pos : Nat) (i : Fin N) :
    historyOf i (unsteadyWalks Arith.exact F pos dx xs ys numSteps t dir ot N ω) =
      ((deal (fun k => ω (k + pos)) (unsteadyOps F dx t dir ot xs ys (List.finRange N) (min numSteps.toNat (max (filesWith dir "depth") (filesWith dir "data"))))
        (fun _ => unplaced (.fin 0), 0)).1 i).history := by
  unfold unsteadyWalks unsteadyPlots
  rw [numOutputs_eq]
  set M := max (filesWith dir "depth") (filesWith dir "data") with hM
  have hnn : (if numSteps > (M : Int) then (M : Int) else numSteps) = ((min numSteps.toNat M : Nat) : Int) := by
    split_ifs <;> omega
  simp only [hnn]
  set n := min numSteps.toNat M with hnd
  have hn0 : 0 < n := by omega
  rw [arange_exact ht]
  simp only [ok_bind, Int.toNat_natCast]
  obtain ⟨st, hst, hrest⟩ := unsteady_feed (t := t) (F := F) hω hdx hgood i.pos hxn hyn hin pos n le_rfl
  obtain ⟨rows, keys, h1, h2, h3⟩ := hrest hn0
  rw [hst]
  simp only [ok_bind, h1]
  have hlt : i.val < rows.length := by have := h2.1; omega
  show (ofRows keys rows).history i = _
  rw [history_ofRows (List.getElem?_eq_getElem hlt), (h2.2 i _ (List.getElem?_eq_getElem hlt)).history]
  have := deal_shift ω (unsteadyOps F dx t dir ot xs ys (List.finRange N) n) (fun _ => unplaced (.fin 0)) 0 pos
  rw [Nat.zero_add] at this
  rw [this]

/-- The machine of a single particle. -/
theorem deal_unit (ω : Nat → ℝ) {L : List (Fin 1 × Op Mach)} {U : List (Unit × Op Mach)} (h : opsOf 0 L = U) (m : Mach) :
    (deal ω L (fun _ => m, 0)).1 0 = (deal ω U (fun _ => m, 0)).1 () := by
  have e : L = U.map fun io => ((fun _ : Unit => (0 : Fin 1)) io.1, io.2) := by
    rw [← h]
    unfold opsOf
    rw [List.filter_eq_self.2 (fun io _ => by simp [Subsingleton.elim io.1 0]), List.map_map]
    conv_lhs => rw [← List.map_id L]
    refine List.map_congr_left fun io _ => ?_
    simp only [id, Function.comp]
    rw [Prod.ext_iff]
    exact ⟨Subsingleton.elim _ _, rfl⟩
  have := deal_rename (e := fun _ : Unit => (0 : Fin 1)) (fun a b _ => rfl) ω U (fun _ => m) 0
  rw [← e] at this
  exact congrFun (congrArg Prod.fst this) ()

/-- Histories of `N` machines that do the same, against those of a single one, for outcomes that agree with the machines. -/
theorem single_law {N : Nat} {L : List (Fin N × Op Mach)} {L1 : List (Fin 1 × Op Mach)} {U : List (Unit × Op Mach)} (hL : ∀ io ∈ L, io.2.Meas)
    (hL1 : ∀ io ∈ L1, io.2.Meas) (hU : ∀ i, opsOf i L = U) (hU1 : opsOf 0 L1 = U) {m : Mach} {X : (Nat → ℝ) → Fin N → History ℝ} {Y : (Nat → ℝ) → History ℝ} {p p1 : Nat}
    (hX : ∀ ω, Draws ω → ∀ i, X ω i = ((deal (fun k => ω (k + p)) L (fun _ => m, 0)).1 i).history)
    (hY : ∀ ω, Draws ω → Y ω = ((deal (fun k => ω (k + p1)) L1 (fun _ => m, 0)).1 0).history) :
    (∀ i, AEMeasurable (fun ω => X ω i) uniformDraws) ∧ AEMeasurable Y uniformDraws ∧ uniformDraws.map X = Measure.pi fun _ : Fin N => uniformDraws.map Y := by
  have hg : ∀ i : Fin N, Measurable fun (ω : Nat → ℝ) => ((deal ω L (fun _ => m, 0)).1 i).history := fun i =>
    Mach.history_measurable.comp ((measurable_pi_apply i).comp ((deal_measurable hL 0).comp (measurable_const.prodMk measurable_id)))
  have hg1 : Measurable fun (ω : Nat → ℝ) => ((deal ω L1 (fun _ => m, 0)).1 0).history :=
    Mach.history_measurable.comp ((measurable_pi_apply 0).comp ((deal_measurable hL1 0).comp (measurable_const.prodMk measurable_id)))
  have hs := uniformDraws_shift p
  have hs1 := uniformDraws_shift p1
  have eX : X =ᵐ[uniformDraws] fun ω i => ((deal (fun k => ω (k + p)) L (fun _ => m, 0)).1 i).history := by
    filter_upwards [uniformDraws_nonzero] with ω hω
    funext i
    exact hX ω hω.1 i
  have eY : Y =ᵐ[uniformDraws] fun ω => ((deal (fun k => ω (k + p1)) L1 (fun _ => m, 0)).1 0).history := by
    filter_upwards [uniformDraws_nonzero] with ω hω
    exact hY ω hω.1
  refine ⟨fun i => ⟨fun ω => ((deal (fun k => ω (k + p)) L (fun _ => m, 0)).1 i).history, (hg i).comp hs.measurable, ?_⟩,
    ⟨_, hg1.comp hs1.measurable, eY⟩, ?_⟩
  · filter_upwards [eX] with ω hω
    rw [hω]
  have l1 : uniformDraws.map X = uniformDraws.map fun ω (i : Fin N) => ((deal ω L (fun _ => m, 0)).1 i).history := by
    conv_rhs => rw [← hs.map_eq]
    rw [Measure.map_map (measurable_pi_iff.2 hg) hs.measurable]
    exact Measure.map_congr eX
  have l2 : uniformDraws.map Y = uniformDraws.map fun ω => ((deal ω U (fun _ => m, 0)).1 ()).history := by
    have : (fun ω => ((deal ω U (fun _ => m, 0)).1 ()).history) = fun ω => ((deal ω L1 (fun _ => m, 0)).1 0).history := by
      funext ω
      rw [deal_unit ω hU1]
    rw [this]
    conv_rhs => rw [← hs1.map_eq]
    rw [Measure.map_map hg1 hs1.measurable]
    exact Measure.map_congr eY
  rw [l1, l2]
  exact deal_law hL hU m

/-- Samples of one law are independent, with a Monte-Carlo error. -/
theorem samples {N : Nat} {X : (Nat → ℝ) → Fin N → History ℝ} {Y : (Nat → ℝ) → History ℝ} (hX : ∀ i, AEMeasurable (fun ω => X ω i) uniformDraws)
    (hY : AEMeasurable Y uniformDraws) (h : uniformDraws.map X = Measure.pi fun _ : Fin N => uniformDraws.map Y) :
    ProbabilityTheory.iIndepFun (fun i ω => X ω i) uniformDraws ∧ (∀ i, uniformDraws.map (fun ω => X ω i) = uniformDraws.map Y) ∧
    (0 < N → ∀ {f : History ℝ → ℝ}, Measurable f → (∀ c, 0 ≤ f c) → (∀ c, f c ≤ 1) → ∀ {ε : ℝ}, 0 < ε →
      uniformDraws.real {ω | ε ≤ |(∑ i, f (X ω i)) / N - ∫ ω', f (Y ω') ∂uniformDraws|} ≤ 2 * Real.exp (-2 * N * ε ^ 2)) := by
  have hpr : IsProbabilityMeasure (uniformDraws.map Y) := Measure.isProbabilityMeasure_map hY
  have hmarg : ∀ i, uniformDraws.map (fun ω => X ω i) = uniformDraws.map Y := by
    intro i
    have e := (measurePreserving_eval (fun _ : Fin N => uniformDraws.map Y) i).map_eq
    rw [← h, AEMeasurable.map_map_of_aemeasurable (measurable_pi_apply i).aemeasurable (aemeasurable_pi_lambda _ hX)] at e
    exact e
  have hind : ProbabilityTheory.iIndepFun (fun i ω => X ω i) uniformDraws := by
    refine (ProbabilityTheory.iIndepFun_iff_map_fun_eq_pi_map hX).2 ?_
    simp only [hmarg]
    exact h
  refine ⟨hind, hmarg, fun hN f hf hf0 hf1 ε hε => ?_⟩
  have := hoeffding_mean hN hX hind hmarg hf hf0 hf1 hε
  have hN' : (N : ℝ) ≠ 0 := by positivity
  rwa [Finset.sum_const, Finset.card_univ, Fintype.card_fin, nsmul_eq_mul, mul_div_cancel_left₀ _ hN', integral_map hY hf.aestronglyMeasurable] at this

/-! ## The property -/

section unsteady

variable {dx t : ℝ} (hdx : dx ≠ 0) (ht : t ≠ 0) {dir : List (String × FileData ℝ)} {ot : String} {R C : Nat} {numSteps : Int} (hn : 0 < numSteps)
  (hout : 0 < max (filesWith dir "depth") (filesWith dir "data"))
  (hgood : GoodOutputs dir ot R C (min numSteps.toNat (max (filesWith dir "depth") (filesWith dir "data")))) {xs ys : List Int}
  (hxn : xs ≠ []) (hyn : ys ≠ []) (hin : ∀ x ∈ xs, ∀ y ∈ ys, Inside R C (x, y)) (pos pos1 : Nat) (N : Nat)

include hdx ht hn hout hgood hxn hyn hin

theorem unsteady_single :
    (∀ i : Fin N, AEMeasurable (fun ω => historyOf i (unsteadyWalks Arith.exact F pos dx xs ys numSteps t dir ot N ω)) uniformDraws) ∧
    AEMeasurable (fun ω => historyOf 0 (unsteadyWalks Arith.exact F pos1 dx xs ys numSteps t dir ot 1 ω)) uniformDraws ∧
    uniformDraws.map (fun ω (i : Fin N) => historyOf i (unsteadyWalks Arith.exact F pos dx xs ys numSteps t dir ot N ω)) =
      Measure.pi fun _ : Fin N => uniformDraws.map fun ω => historyOf 0 (unsteadyWalks Arith.exact F pos1 dx xs ys numSteps t dir ot 1 ω) :=
  single_law (p := pos) (p1 := pos1) (unsteadyOps_meas _ _) (unsteadyOps_meas _ _) (fun i => opsOf_unsteady i _) (opsOf_unsteady 0 _)
    (fun _ hω i => unsteady_history hω hdx ht hn hout hgood hxn hyn hin pos i)
    (fun _ hω => unsteady_history hω hdx ht hn hout hgood hxn hyn hin pos1 0)

/-- Exact arithmetic, readable outputs on a common grid, seeds at interior cells: `unsteady_plots` with `N` particles returns walks that are jointly distributed
like the walks of `N` independent calls with one particle. -/
theorem C109_unsteady :
    uniformDraws.map (fun ω (i : Fin N) => historyOf i (unsteadyWalks Arith.exact F pos dx xs ys numSteps t dir ot N ω)) =
      Measure.pi fun _ : Fin N => uniformDraws.map fun ω => historyOf 0 (unsteadyWalks Arith.exact F pos1 dx xs ys numSteps t dir ot 1 ω) :=
  (unsteady_single hdx ht hn hout hgood hxn hyn hin pos pos1 N).2.2

/-- The walks are independent, and each is distributed as in a call with one particle. -/
theorem C109_unsteady_independent :
    ProbabilityTheory.iIndepFun (fun (i : Fin N) ω => historyOf i (unsteadyWalks Arith.exact F pos dx xs ys numSteps t dir ot N ω)) uniformDraws ∧
    ∀ i : Fin N, uniformDraws.map (fun ω => historyOf i (unsteadyWalks Arith.exact F pos dx xs ys numSteps t dir ot N ω)) =
      uniformDraws.map fun ω => historyOf 0 (unsteadyWalks Arith.exact F pos1 dx xs ys numSteps t dir ot 1 ω) := by
  obtain ⟨h1, h2, h3⟩ := unsteady_single (F := F) hdx ht hn hout hgood hxn hyn hin pos pos1 N
  obtain ⟨a, b, -⟩ := samples h1 h2 h3
  exact ⟨a, b⟩

/-- Monte-Carlo error of `unsteady_plots`: the mean over the particles of a quantity between 0 and 1 read off the walks. -/
theorem C109_unsteady_monte_carlo (hN : 0 < N) {f : History ℝ → ℝ} (hf : Measurable f) (hf0 : ∀ c, 0 ≤ f c) (hf1 : ∀ c, f c ≤ 1) {ε : ℝ} (hε : 0 < ε) :
    uniformDraws.real {ω | ε ≤ |(∑ i : Fin N, f (historyOf i (unsteadyWalks Arith.exact F pos dx xs ys numSteps t dir ot N ω))) / N -
      ∫ ω', f (historyOf 0 (unsteadyWalks Arith.exact F pos1 dx xs ys numSteps t dir ot 1 ω')) ∂uniformDraws|} ≤ 2 * Real.exp (-2 * N * ε ^ 2) := by
  obtain ⟨h1, h2, h3⟩ := unsteady_single (F := F) hdx ht hn hout hgood hxn hyn hin pos pos1 N
  exact (samples h1 h2 h3).2.2 hN hf hf0 hf1 hε

end unsteady

section seeded

variable {A : Arith ℝ} {F : Fun ℝ A} {R C : Nat} {P : PObj ℝ} {s s2 : PState ℝ} (h : Reach A F (Enclosed A F R C) Draws (InsideSeeds R C) P s) (hw : s.walk = none)
  (h2 : Reach A F (Enclosed A F R C) Draws (InsideSeeds R C) P s2) (hw2 : s2.walk = none)
  (hv : ∀ var, OptVar P var → Trackable P var) {xs ys : List Int} (hxn : xs ≠ []) (hyn : ys ≠ []) (hrx : A.rnd (xs.length : ℝ) = xs.length)
  (hry : A.rnd (ys.length : ℝ) = ys.length) (hin : ∀ x ∈ xs, ∀ y ∈ ys, Inside R C (x, y)) (t : Fl ℝ) (calls : List (Option (Fl ℝ) × Int)) (N : Nat)

include h hw hv hxn hyn hrx hry hin in
theorem seeded_history {ω : Nat → ℝ} (hω : Draws ω) (i : Fin N) :
    historyIn i (seededCalls A F P s xs ys t calls N ω) =
      ((deal (fun k => ω (k + s.world.pos)) (seedOps A xs ys (List.finRange N) ++ callsOps A F P N calls) (fun _ => unplaced t, 0)).1 i).history := by
  have hon : ∀ x ∈ xs, ∀ y ∈ ys, OnGrid P x y := fun x hx y hy => by
    have := hin x hx y hy
    unfold Inside at this
    unfold OnGrid
    rw [h.obj.rows, h.obj.cols]
    omega
  obtain ⟨s1, hs1⟩ := C31_succeeds (t := t) (prev := none) h.obj.built hv hω s N hxn hyn hrx hry hon
  have hwt := (h.state (fun P h => h.built.good)).1
  obtain ⟨rows, h1, h2, h3⟩ := generate_feed (F := F) hw hwt (by rw [h.obj.rows, h.obj.cols]; exact hin) hs1
  have hc := check_ints (K := ℝ) N xs ys t "random"
  rw [if_pos rfl] at hc
  have hreach : Reach A F (Enclosed A F R C) Draws (InsideSeeds R C) P s1 := .generate h hω hc (by positivity) hin hs1
  obtain ⟨hRo, -⟩ := Enclosed.sound hreach h1.has.1
  obtain ⟨s', rows', e1, e2, e3⟩ := calls_feed hRo hω i.pos calls h1 h2
  have e0 : seededCalls A F P s xs ys t calls N ω = .ok s' := by
    unfold seededCalls
    have : generateParticles A P ω s (.int N) (.list (xs.map .int)) (.list (ys.map .int)) (.flt t) (.str "random") none = .ok s1 := hs1
    rw [this]
    simp only [ok_bind, e1]
  rw [e0]
  unfold historyIn
  simp only [e2.has.1]
  have hlt : i.val < rows'.length := by have := e3.1; omega
  rw [history_ofRows (List.getElem?_eq_getElem hlt), (e3.2 i _ (List.getElem?_eq_getElem hlt)).history]
  have := deal_shift ω (seedOps A xs ys (List.finRange N) ++ callsOps A F P N calls) (fun _ => unplaced t) 0 s.world.pos
  rw [Nat.zero_add] at this
  rw [h3, ← Prod.mk.eta (p := deal ω (seedOps A xs ys (List.finRange N)) _)] at *
  rw [← deal_append, this]

include h hw h2 hw2 hv hxn hyn hrx hry hin

theorem seeded_single :
    (∀ i : Fin N, AEMeasurable (fun ω => historyIn i (seededCalls A F P s xs ys t calls N ω)) uniformDraws) ∧
    AEMeasurable (fun ω => historyIn 0 (seededCalls A F P s2 xs ys t calls 1 ω)) uniformDraws ∧
    uniformDraws.map (fun ω (i : Fin N) => historyIn i (seededCalls A F P s xs ys t calls N ω)) =
      Measure.pi fun _ : Fin N => uniformDraws.map fun ω => historyIn 0 (seededCalls A F P s2 xs ys t calls 1 ω) := by
  have hmeas : ∀ n, ∀ io ∈ seedOps A xs ys (List.finRange n) ++ callsOps A F P n calls, io.2.Meas := by
    intro n io hio
    rcases List.mem_append.1 hio with hio | hio
    · exact seedOps_meas _ io hio
    · exact callsOps_meas io hio
  have hU : ∀ n (i : Fin n), opsOf i (seedOps A xs ys (List.finRange n) ++ callsOps A F P n calls) =
      seedOps A xs ys [()] ++ calls.flatMap (callOps A F P [()]) := fun n i => by rw [opsOf_append, opsOf_seed, opsOf_calls]
  exact single_law (p := s.world.pos) (p1 := s2.world.pos) (hmeas N) (hmeas 1) (hU N) (hU 1 0)
    (fun _ hω i => seeded_history h hw hv hxn hyn hrx hry hin t calls N hω i)
    (fun _ hω => seeded_history h2 hw2 hv hxn hyn hrx hry hin t calls 1 hω 0)

/-- Any rounding, both routing modes: `N` particles seeded at random in an object without particles and then driven by any calls of `run_iteration` are jointly
distributed like `N` independent simulations of one particle. -/
theorem C109_seeded :
    uniformDraws.map (fun ω (i : Fin N) => historyIn i (seededCalls A F P s xs ys t calls N ω)) =
      Measure.pi fun _ : Fin N => uniformDraws.map fun ω => historyIn 0 (seededCalls A F P s2 xs ys t calls 1 ω) :=
  (seeded_single h hw h2 hw2 hv hxn hyn hrx hry hin t calls N).2.2

/-- The walks are independent, and each is distributed as in a simulation of one particle. -/
theorem C109_seeded_independent :
    ProbabilityTheory.iIndepFun (fun (i : Fin N) ω => historyIn i (seededCalls A F P s xs ys t calls N ω)) uniformDraws ∧
    ∀ i : Fin N, uniformDraws.map (fun ω => historyIn i (seededCalls A F P s xs ys t calls N ω)) =
      uniformDraws.map fun ω => historyIn 0 (seededCalls A F P s2 xs ys t calls 1 ω) := by
  obtain ⟨a1, a2, a3⟩ := seeded_single h hw h2 hw2 hv hxn hyn hrx hry hin t calls N
  obtain ⟨a, b, -⟩ := samples a1 a2 a3
  exact ⟨a, b⟩

/-- Monte-Carlo error of a simulation with random seeding. -/
theorem C109_seeded_monte_carlo (hN : 0 < N) {f : History ℝ → ℝ} (hf : Measurable f) (hf0 : ∀ c, 0 ≤ f c) (hf1 : ∀ c, f c ≤ 1) {ε : ℝ} (hε : 0 < ε) :
    uniformDraws.real {ω | ε ≤ |(∑ i : Fin N, f (historyIn i (seededCalls A F P s xs ys t calls N ω))) / N -
      ∫ ω', f (historyIn 0 (seededCalls A F P s2 xs ys t calls 1 ω')) ∂uniformDraws|} ≤ 2 * Real.exp (-2 * N * ε ^ 2) := by
  obtain ⟨a1, a2, a3⟩ := seeded_single h hw h2 hw2 hv hxn hyn hrx hry hin t calls N
  exact (samples a1 a2 a3).2.2 hN hf hf0 hf1 hε

end seeded

end

/-! ## Examples -/

/-- Two outputs on a 5 × 5 grid in an output directory: uniform flow, in the second output to the other side. -/
noncomputable def realDir : List (String × FileData ℝ) :=
  let g (x : ℝ) : FileData ℝ := .array ⟨5, 5, fun _ _ => .fin x⟩
  [("depth_1.csv", g 2), ("depth_0.csv", g 1), ("qx_0.csv", g 0), ("qx_1.csv", g 1), ("qy_0.csv", g 1), ("qy_1.csv", g 0), ("stage_0.csv", g 1), ("stage_1.csv", g 2),
    ("notes.txt", .dir)]

theorem realDir_count : filesWith realDir "depth" = 2 ∧ filesWith realDir "data" = 0 := ⟨rfl, rfl⟩

theorem realDir_good : GoodOutputs realDir "csv" 5 5 2 := by
  refine Or.inl ⟨Or.inl rfl, fun pre hpre => ⟨?_, fun e he hp => ?_⟩⟩
  · simp only [List.mem_cons, List.not_mem_nil, or_false] at hpre
    rcases hpre with rfl | rfl | rfl | rfl <;> exact le_of_eq rfl
  · unfold realDir at he
    simp only [List.mem_cons, List.not_mem_nil, or_false] at he hpre
    have key : ∀ x : ℝ, ∃ g, (FileData.array ⟨5, 5, fun _ _ => .fin x⟩ : FileData ℝ) = .array g ∧ g.FinOrNan ∧ g.rows = 5 ∧ g.cols = 5 :=
      fun x => ⟨_, rfl, fun i j _ _ => Or.inr ⟨x, rfl⟩, rfl, rfl⟩
    rcases he with rfl | rfl | rfl | rfl | rfl | rfl | rfl | rfl | rfl
    all_goals first
      | exact key _
      | (exfalso; revert hp; rcases hpre with rfl | rfl | rfl | rfl <;> decide +kernel)

theorem three_records : MeasurableSet {c : History ℝ | (c 2).1 ≠ none} :=
  (measurable_fst.comp (measurable_pi_apply 2) : Measurable fun c : History ℝ => (c 2).1) (MeasurableSet.of_discrete (s := some ⁻¹' {x : Option Int | x ≠ none}))

/-- The hypotheses are met for `unsteady_plots`: 200 particles, seeded among four cells, through two outputs. -/
example :
    ProbabilityTheory.iIndepFun (fun (i : Fin 200) ω => historyOf i (unsteadyWalks Arith.exact Fun.real 0 10 [2, 3] [1, 2] 2 5 realDir "csv" 200 ω)) uniformDraws ∧
    (∀ i : Fin 200, uniformDraws.map (fun ω => historyOf i (unsteadyWalks Arith.exact Fun.real 0 10 [2, 3] [1, 2] 2 5 realDir "csv" 200 ω)) =
      uniformDraws.map fun ω => historyOf 0 (unsteadyWalks Arith.exact Fun.real 0 10 [2, 3] [1, 2] 2 5 realDir "csv" 1 ω)) ∧
    uniformDraws.real {ω | 1 / 5 ≤ |(∑ i : Fin 200, Set.indicator {c : History ℝ | (c 2).1 ≠ none} (fun _ => (1 : ℝ))
        (historyOf i (unsteadyWalks Arith.exact Fun.real 0 10 [2, 3] [1, 2] 2 5 realDir "csv" 200 ω))) / (200 : Nat) -
      ∫ ω', Set.indicator {c : History ℝ | (c 2).1 ≠ none} (fun _ => (1 : ℝ))
        (historyOf 0 (unsteadyWalks Arith.exact Fun.real 0 10 [2, 3] [1, 2] 2 5 realDir "csv" 1 ω')) ∂uniformDraws|} ≤ 2 * Real.exp (-16) ∧
    ∀ ω, Draws ω → ∃ wd, unsteadyWalks Arith.exact Fun.real 0 10 [2, 3] [1, 2] 2 5 realDir "csv" 200 ω = .ok wd := by
  have hm : min (2 : Int).toNat (max (filesWith realDir "depth") (filesWith realDir "data")) = 2 := by rw [realDir_count.1, realDir_count.2]; rfl
  have hout : 0 < max (filesWith realDir "depth") (filesWith realDir "data") := by rw [realDir_count.1, realDir_count.2]; decide
  have hin : ∀ x ∈ ([2, 3] : List Int), ∀ y ∈ ([1, 2] : List Int), Inside 5 5 (x, y) := by
    intro x hx y hy
    simp at hx hy
    rcases hx with rfl | rfl <;> rcases hy with rfl | rfl <;> (unfold Inside; decide)
  have hg : GoodOutputs realDir "csv" 5 5 (min (2 : Int).toNat (max (filesWith realDir "depth") (filesWith realDir "data"))) := by rw [hm]; exact realDir_good
  have hi := C109_unsteady_independent (F := Fun.real) (dx := 10) (t := 5) (by norm_num) (by norm_num) (by norm_num) hout hg (by simp) (by simp) hin 0 0 200
  refine ⟨hi.1, hi.2, ?_, fun ω hω => ?_⟩
  · refine (C109_unsteady_monte_carlo (by norm_num) (by norm_num) (by norm_num) hout hg (by simp) (by simp) hin 0 0 200 (by norm_num)
      (measurable_const.indicator three_records) (fun c => Set.indicator_nonneg (fun _ _ => zero_le_one) c)
      (fun c => Set.indicator_le' (fun _ _ => le_rfl) (fun _ _ => zero_le_one) c) (by norm_num)).trans (le_of_eq ?_)
    norm_num
  · obtain ⟨w, pos', figs, hr⟩ := C62_succeeds (F := Fun.real) hω (dx := 10) (t := 5) (by norm_num) (by norm_num) (by norm_num) hout hg (N := 200) (by norm_num) (by simp) (by simp) hin 0
    exact ⟨w, by unfold unsteadyWalks; rw [hr]; rfl⟩

/-- The hypotheses are met for random seeding followed by calls of `run_iteration`. -/
example :
    ProbabilityTheory.iIndepFun (fun (i : Fin 200) ω => historyIn i (seededCalls Arith.exact Fun.real realObj (initState Arith.exact Fun.real realObj 0)
      [1, 2] [2] (.fin 0) [(none, 10000), (some (.fin 5), 100)] 200 ω)) uniformDraws ∧
    (∀ i : Fin 200, uniformDraws.map (fun ω => historyIn i (seededCalls Arith.exact Fun.real realObj (initState Arith.exact Fun.real realObj 0)
        [1, 2] [2] (.fin 0) [(none, 10000), (some (.fin 5), 100)] 200 ω)) =
      uniformDraws.map fun ω => historyIn 0 (seededCalls Arith.exact Fun.real realObj (initState Arith.exact Fun.real realObj 0)
        [1, 2] [2] (.fin 0) [(none, 10000), (some (.fin 5), 100)] 1 ω)) ∧
    uniformDraws.real {ω | 1 / 5 ≤ |(∑ i : Fin 200, Set.indicator {c : History ℝ | (c 2).1 ≠ none} (fun _ => (1 : ℝ))
        (historyIn i (seededCalls Arith.exact Fun.real realObj (initState Arith.exact Fun.real realObj 0)
          [1, 2] [2] (.fin 0) [(none, 10000), (some (.fin 5), 100)] 200 ω))) / (200 : Nat) -
      ∫ ω', Set.indicator {c : History ℝ | (c 2).1 ≠ none} (fun _ => (1 : ℝ))
        (historyIn 0 (seededCalls Arith.exact Fun.real realObj (initState Arith.exact Fun.real realObj 0)
          [1, 2] [2] (.fin 0) [(none, 10000), (some (.fin 5), 100)] 1 ω')) ∂uniformDraws|} ≤ 2 * Real.exp (-16) := by
  have h : Reach Arith.exact Fun.real (Enclosed Arith.exact Fun.real 5 5) Draws (InsideSeeds 5 5) realObj (initState Arith.exact Fun.real realObj 0) :=
    .new 0 realObj_enclosed
  have hv : ∀ var, OptVar realObj var → Trackable realObj var := by
    rintro var ⟨hm, -⟩
    have e : realObj.particleVars = [] := rfl
    rw [e] at hm
    simp at hm
  have hxy : ∀ x ∈ ([1, 2] : List Int), ∀ y ∈ ([2] : List Int), Inside 5 5 (x, y) := by
    intro x hx y hy
    simp at hx hy
    obtain rfl | rfl := hx <;> subst hy <;> (unfold Inside; decide)
  have hi := C109_seeded_independent h rfl h rfl hv (by simp) (by simp) rfl rfl hxy (.fin 0) [(none, 10000), (some (.fin 5), 100)] 200
  refine ⟨hi.1, hi.2, ?_⟩
  refine (C109_seeded_monte_carlo h rfl h rfl hv (by simp) (by simp) rfl rfl hxy (.fin 0) [(none, 10000), (some (.fin 5), 100)] 200 (by norm_num)
    (measurable_const.indicator three_records) (fun c => Set.indicator_nonneg (fun _ _ => zero_le_one) c)
    (fun c => Set.indicator_le' (fun _ _ => le_rfl) (fun _ _ => zero_le_one) c) (by norm_num)).trans (le_of_eq ?_)
  norm_num

end Dorado
