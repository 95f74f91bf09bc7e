import Verif.Spec.Steady
import Verif.Lemmas.Bisim
import Verif.Props.Unsteady

/-! # C96: unsteady routing in an unchanging flow field -/

set_option linter.unusedSectionVars false

namespace Dorado

variable {K : Type} [Field K] [LinearOrder K] [IsStrictOrderedRing K] [FloorRing K] {A : Arith K} {F : Fun K A}

theorem runTo_append {P : PObj K} {ω : Nat → K} (l l' : List (Fl K)) (s : PState K) :
    runTo A F P ω (l ++ l') s = (runTo A F P ω l s >>= runTo A F P ω l') := by
  induction l generalizing s with
  | nil => rfl
  | cons T l ih =>
    simp only [List.cons_append, runTo]
    cases runIteration A F P ω s (some T) 10000 with
    | error e => rfl
    | ok r => exact ih r.state

theorem runTo_reach {Ob : PObj K → Prop} {Ω : (Nat → K) → Prop} {Sd : PObj K → List Int → List Int → Fl K → Prop} {P : PObj K} {ω : Nat → K} (hω : Ω ω)
    {l : List (Fl K)} {s s' : PState K} (h : Reach A F Ob Ω Sd P s) (hr : runTo A F P ω l s = .ok s') : Reach A F Ob Ω Sd P s' := by
  induction l generalizing s with
  | nil => cases hr; exact h
  | cons T l ih =>
    simp only [runTo, bind_ok] at hr
    obtain ⟨r, hr, h2⟩ := hr
    exact ih (.run h hω hr) h2

/-- Handing over walk data without new particles takes no random number. -/
theorem generate_none_pos {P : PObj K} {ω : Nat → K} {s s' : PState K} {prev : Option (WalkData K)}
    (h : generateParticles A P ω s (.int 0) (.list []) (.list []) (.int 0) (.str "random") prev = .ok s') : s'.world = s.world := by
  unfold generateParticles at h
  rw [show genInputCheck (K := K) (.int 0) (.list []) (.list []) (.int 0) (.str "random") = _ from check_zero (K := K) 0 [] []] at h
  simp only [ok_bind, generateCore, newWalk, startIndices, bind_ok, pure_ok] at h
  obtain ⟨⟨w0, pos'⟩, ⟨⟨sx, sy, p⟩, ⟨⟨x, p1⟩, hx, ⟨y, p2⟩, hy, he⟩, h1⟩, rfl⟩ := h
  cases hx
  cases hy
  cases he
  simp only [Prod.mk.injEq] at h1
  obtain ⟨-, -, -, -, -, -, -, rfl⟩ := h1
  rfl

variable {Ω : (Nat → K) → Prop} {Sd : PObj K → List Int → List Int → Fl K → Prop}

theorem steadyFold {ω : Nat → K} {dx t : K} {len : Nat} {dir : List (String × FileData K)} {ot : String}
    (hclean : CleanFields dir ot) {f : FlowFields K} (hsame : ∀ i f', FieldNo dir ot i f' → f' = f) {N : Nat} {xs ys : List Int} (pos n : Nat) {st : FlowLoop K}
    (h : foldE (unsteadyStep A F ω dx t len dir ot (.int N) (.list (xs.map .int)) (.list (ys.map .int))) ⟨none, pos, [], []⟩ (List.range (n + 1)) = .ok st) :
    ∃ P s0 s, initParticles A F (stepParams dx f) = .ok P ∧
      generateParticles A P ω (initState A F P pos) (.int N) (.list (xs.map .int)) (.list (ys.map .int)) (.int 0) (.str "random") none = .ok s0 ∧
      runTo A F P ω (stepTimes A t (n + 1)) s0 = .ok s ∧ Reach A F (Built A F) (fun _ => True) (fun _ _ _ _ => True) P s ∧ P.particleVars = [] ∧
      s.walk ≠ none ∧ st.walk = s.walk ∧ st.pos = s.world.pos := by
  have hstep : ∀ (st st' : FlowLoop K) (i : Nat),
      unsteadyStep A F ω dx t len dir ot (.int N) (.list (xs.map .int)) (.list (ys.map .int)) st i = .ok st' → ∃ P s1 r,
        initParticles A F (stepParams dx f) = .ok P ∧ Built A F P ∧ P.particleVars = [] ∧
        stepSeed A F P ω st.pos (.int N) (.list (xs.map .int)) (.list (ys.map .int)) st.walk = .ok s1 ∧
        runIteration A F P ω s1 (some (A.add (.fin t) (A.mul (.fin (A.rnd (i : K))) (.fin t)))) 10000 = .ok r ∧
        st'.walk = some r.returned ∧ st'.pos = r.state.world.pos := by
    intro st st' i h
    unfold unsteadyStep at h
    simp only [bind_ok] at h
    obtain ⟨f', hf, P, hP, s1, hs1, tgt, htgt, r, hr, g, hg, p, hp, m, hm, h⟩ := h
    have hf' := loadStep_inv hf
    have hb : Built A F P := ⟨_, stepParams_valid (hclean i f' hf'), hP⟩
    rw [hsame i f' hf'] at hP
    have htgt' : tgt = A.add (.fin t) (A.mul (.fin (A.rnd (i : K))) (.fin t)) := by
      unfold targetTime at htgt
      split at htgt
      · cases htgt; rfl
      · cases htgt
    simp only [pure, Except.pure, Except.ok.injEq] at h
    exact ⟨P, s1, r, hP, hb, step_vars hP, hs1, by rw [← htgt']; exact hr, by rw [← h], by rw [← h]⟩
  have hrun : ∀ {P : PObj K} {s1 : PState K} {T : Fl K} {r : RunResult K}, Reach A F (Built A F) (fun _ => True) (fun _ _ _ _ => True) P s1 →
      runIteration A F P ω s1 (some T) 10000 = .ok r → r.state.walk = some r.returned := by
    intro P s1 T r hR hr
    obtain ⟨hpe, h0 | ⟨rows, hrows⟩⟩ := hR.state fun P hP => hP.good
    · unfold runIteration at hr
      rw [h0] at hr
      cases hr
    · obtain ⟨-, rows', -, hretr, hwalk, -⟩ := runIteration_inv A F hR.obj.good hpe hrows.1 (Or.inl hrows.2) hr
      rw [hretr, hwalk]
  induction n generalizing st with
  | zero =>
    simp only [List.range_succ, List.range_zero, List.nil_append, foldE, bind_ok] at h
    obtain ⟨st1, h, h2⟩ := h
    cases h2
    obtain ⟨P, s1, r, hP, hb, hv, hs1, hr, hw, hp⟩ := hstep _ _ _ h
    have hR : Reach A F (Built A F) (fun _ => True) (fun _ _ _ _ => True) P s1 :=
      .generate (.new pos hb) trivial (check_zero (K := K) N xs ys) (by positivity) trivial hs1
    have hwr := hrun hR hr
    refine ⟨P, s1, r.state, hP, hs1, ?_, .run hR trivial hr, hv, by rw [hwr]; simp, by rw [hw, hwr], hp⟩
    simp only [stepTimes, List.range_succ, List.range_zero, List.nil_append, List.map_cons, List.map_nil, runTo, hr, ok_bind]
  | succ n ih =>
    rw [List.range_succ, foldE_append, bind_ok] at h
    obtain ⟨st1, h1, h2⟩ := h
    obtain ⟨P, s0, s, hP, hg, hto, hR, hv, hne, hw, hp⟩ := ih h1
    simp only [foldE, bind_ok] at h2
    obtain ⟨st2, h2, h3⟩ := h2
    cases h3
    obtain ⟨P', s1, r, hP', hb, -, hs1, hr, hw', hp'⟩ := hstep _ _ _ h2
    rw [hP] at hP'
    cases hP'
    cases hsw : s.walk with
    | none => exact absurd hsw hne
    | some w0 =>
      rw [hw, hsw] at hs1
      obtain ⟨hR1, hne1, hk, -⟩ := stepSeed_reach (Ob := Built A F) (Ω := fun _ => True) (Sd := fun _ _ _ _ => True) (xs := xs) (ys := ys) (N := N) trivial
        (fun P hP => hP) hb hv (fun _ _ => trivial) (fun _ _ => trivial) (st := ⟨some w0, st1.pos, [], []⟩)
        (fun w hw => by cases hw; exact ⟨P, s, hR, hv, hsw⟩) hs1
      have hsw1 := hk w0 rfl
      have hworld : s1.world = (initState A F P st1.pos).world := generate_none_pos hs1
      obtain ⟨hpe, h0 | ⟨rows, hrows⟩⟩ := hR.state fun P hP => hP.good
      · exact absurd h0 hne
      obtain ⟨hpe1, h0 | ⟨rows1, hrows1⟩⟩ := hR1.state fun P hP => hP.good
      · exact absurd h0 hne1
      have hnp : s1.np = s.np := by
        have e1 := hsw1.symm.trans hrows1.1
        have e2 := hsw.symm.trans hrows.1
        rw [hrows1.2, hrows.2]
        have := e1.symm.trans e2
        simp only [Option.some.injEq] at this
        have := congrArg (fun w : WalkData K => w.xinds.length) this
        simpa [ofRows] using this
      have hrel := runIteration_rel (s := s1) (s' := s) hb.good ω ⟨hpe1, hpe, by rw [hworld, ← hp]; rfl⟩ hnp (hsw1.trans hsw.symm)
        (some (A.add (.fin t) (A.mul (.fin (A.rnd ((n + 1 : Nat) : K))) (.fin t)))) 10000
      rw [hr] at hrel
      cases hr' : runIteration A F P ω s (some (A.add (.fin t) (A.mul (.fin (A.rnd ((n + 1 : Nat) : K))) (.fin t)))) 10000 with
      | error e => rw [hr'] at hrel; cases hrel
      | ok r' =>
        rw [hr'] at hrel
        cases hrel with
        | ok hrel =>
          obtain ⟨e1, -, e3, -, e5, -⟩ := hrel
          have hwr := hrun hR hr'
          refine ⟨P, s0, r'.state, hP, hg, ?_, .run hR trivial hr', hv, by rw [hwr]; simp, by rw [hw', hwr, e1], by rw [hp', e5]⟩
          unfold stepTimes at hto ⊢
          rw [List.range_succ, List.map_append, runTo_append, hto]
          simp only [ok_bind, List.map_cons, List.map_nil, runTo, hr']

/-- Whenever `unsteady_plots` returns and all flow fields of the directory are the same: the walks returned, and the place in the random stream, are those
of one `Particles` object made from this flow field, seeded in the same way and run to the same target times. Any rounding, any draws. -/
theorem C96_steady {ω : Nat → K} {dx t : K} {dir : List (String × FileData K)} {ot : String} (hclean : CleanFields dir ot) {f : FlowFields K}
    (hsame : ∀ i f', FieldNo dir ot i f' → f' = f) {N : Nat} {xs ys : List Int} {numSteps : Int} {pos : Nat} {w : WalkData K} {pos' : Nat}
    {figs : List (FlowFig K)}
    (h : unsteadyPlots A F ω pos dx (.int N) (.list (xs.map .int)) (.list (ys.map .int)) numSteps t dir ot = .ok (w, pos', figs)) :
    ∃ P s0 s, initParticles A F { dx := some dx, verbose := some false, depth := some f.depth, stage := some f.stage, qx := some f.qx, qy := some f.qy } = .ok P ∧
      generateParticles A P ω (initState A F P pos) (.int N) (.list (xs.map .int)) (.list (ys.map .int)) (.int 0) (.str "random") none = .ok s0 ∧
      runTo A F P ω (stepTimes A t (min numSteps (max (filesWith dir "depth") (filesWith dir "data") : Nat)).toNat) s0 = .ok s ∧
      s.walk = some w ∧ s.world.pos = pos' := by
  unfold unsteadyPlots at h
  rw [numOutputs_eq] at h
  simp only [bind_ok] at h
  obtain ⟨len, hlen, st, hst, h⟩ := h
  have hmin : (if numSteps > ((max (filesWith dir "depth") (filesWith dir "data") : Nat) : Int) then
      ((max (filesWith dir "depth") (filesWith dir "data") : Nat) : Int) else numSteps) =
      min numSteps (max (filesWith dir "depth") (filesWith dir "data") : Nat) := by split_ifs <;> omega
  rw [hmin] at hst
  cases hn : (min numSteps (max (filesWith dir "depth") (filesWith dir "data") : Nat)).toNat with
  | zero =>
    rw [hn] at hst
    cases hst
    cases h
  | succ n =>
    rw [hn] at hst
    obtain ⟨P, s0, s, hP, hg, hto, -, -, -, hw, hp⟩ := steadyFold hclean hsame pos n hst
    rw [hw] at h
    cases hsw : s.walk with
    | none => rw [hsw] at h; cases h
    | some w' =>
      rw [hsw] at h
      cases h
      exact ⟨P, s0, s, hP, hg, hto, hsw, hp.symm⟩

/-! ## Example -/

/-- An output directory with three times the same fields: water two deep flowing to the right. -/
def steadyDir : List (String × FileData ℚ) :=
  let g (x : ℚ) : FileData ℚ := .array ⟨7, 7, fun _ _ => .fin x⟩
  [("qx_1.csv", g 1), ("depth_2.csv", g 2), ("depth_0.csv", g 2), ("depth_1.csv", g 2), ("qx_0.csv", g 1), ("qx_2.csv", g 1),
    ("qy_0.csv", g 0), ("qy_1.csv", g 0), ("qy_2.csv", g 0), ("stage_0.csv", g 3), ("stage_1.csv", g 3), ("stage_2.csv", g 3)]

/-- The flow field of this directory. -/
def steadyField : FlowFields ℚ :=
  ⟨⟨7, 7, fun _ _ => .fin 2⟩, ⟨7, 7, fun _ _ => .fin 3⟩, ⟨7, 7, fun _ _ => .fin 1⟩, ⟨7, 7, fun _ _ => .fin 0⟩⟩

theorem FileNo.mem {dir : List (String × FileData K)} {pre : String} {i : Nat} {d : FileData K} (h : FileNo dir pre i d) :
    ∃ name, (name, d) ∈ dir ∧ pre.toList.isPrefixOf name.toList = true := by
  obtain ⟨L, hL, -, name, hn⟩ := h
  have := hL.mem_iff.1 (List.mem_of_getElem? hn)
  exact ⟨name, (List.mem_filter.1 this).1, (List.mem_filter.1 this).2⟩

theorem steadyDir_same : ∀ i f', FieldNo steadyDir "csv" i f' → f' = steadyField := by
  have key : ∀ pre x i g, (pre, x) ∈ [("depth", (2 : ℚ)), ("stage", 3), ("qx", 1), ("qy", 0)] → FileNo steadyDir pre i (.array g) →
      g = ⟨7, 7, fun _ _ => .fin x⟩ := by
    intro pre x i g hpx h
    obtain ⟨name, hm, hp⟩ := h.mem
    suffices FileData.array g = .array ⟨7, 7, fun _ _ => .fin x⟩ by simpa using this
    generalize FileData.array g = d at hm
    unfold steadyDir at hm
    simp only [List.mem_cons, List.not_mem_nil, or_false, Prod.mk.injEq] at hm hpx
    rcases hpx with ⟨rfl, rfl⟩ | ⟨rfl, rfl⟩ | ⟨rfl, rfl⟩ | ⟨rfl, rfl⟩ <;>
      rcases hm with ⟨rfl, rfl⟩ | ⟨rfl, rfl⟩ | ⟨rfl, rfl⟩ | ⟨rfl, rfl⟩ | ⟨rfl, rfl⟩ | ⟨rfl, rfl⟩ | ⟨rfl, rfl⟩ | ⟨rfl, rfl⟩ | ⟨rfl, rfl⟩ | ⟨rfl, rfl⟩ |
        ⟨rfl, rfl⟩ | ⟨rfl, rfl⟩ <;> first | rfl | (exfalso; revert hp; decide +kernel)
  intro i f' h
  rcases h with ⟨-, h1, h2, h3, h4⟩ | ⟨h, -⟩
  · have a1 := key _ 2 i _ (by simp) h1
    have a2 := key _ 3 i _ (by simp) h2
    have a3 := key _ 1 i _ (by simp) h3
    have a4 := key _ 0 i _ (by simp) h4
    cases f'
    simp only at a1 a2 a3 a4
    subst a1 a2 a3 a4
    rfl
  · exact absurd h (by decide)

theorem steadyDir_clean : CleanFields steadyDir "csv" := fun i f hf => by
  rw [steadyDir_same i f hf]
  exact ⟨fun _ _ _ _ => Or.inr ⟨_, rfl⟩, fun _ _ _ _ => Or.inr ⟨_, rfl⟩, fun _ _ _ _ => Or.inr ⟨_, rfl⟩, fun _ _ _ _ => Or.inr ⟨_, rfl⟩⟩

set_option synthInstance.maxSize 1024 in
/-- Two particles carried to the right by three steps. -/
example : CleanFields steadyDir "csv" ∧ (∀ i f', FieldNo steadyDir "csv" i f' → f' = steadyField) ∧
    (unsteadyPlots Arith.exact Fun.toy (fun _ => (1 / 2 : ℚ)) 0 10 (.int 2) (.list [.int 4, .int 2]) (.list [.int 2, .int 3]) 5 15
        steadyDir "csv").toOption.map (fun r => (r.1.xinds, r.1.yinds, r.2.1)) =
      some ([[4, 4, 4], [4, 4, 4]], [[2, 3, 4], [2, 3, 4]], 12) :=
  ⟨steadyDir_clean, steadyDir_same, by decide +kernel⟩

end Dorado
