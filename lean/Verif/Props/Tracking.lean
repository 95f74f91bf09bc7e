import Verif.Lemmas.Tracking
import Verif.Props.Arrival

/-! # C127: tracking variables and regions only observes -/

set_option linter.unusedSectionVars false

namespace Dorado

noncomputable section

variable {A : Arith ℝ} {F : Fun ℝ A} {p : Params ℝ} {P P' : PObj ℝ} {R C : Nat} {vb : Option Bool} {pv : Option (List String)} {g : Option (Grid (Fl ℝ))}

/-- Any list of names and any region of the shape of the grid is accepted in place of the given ones. No attribute changes but those that hold them. -/
theorem C127_accepted (hv : ValidParams p) (hP : initParticles A F p = .ok P) (hE : Enclosed A F R C P) (hg : ∀ x, g = some x → x.rows = R ∧ x.cols = C) :
    ∃ P', initParticles A F { p with verbose := vb, particleVars := pv, roi := g } = .ok P' ∧ Enclosed A F R C P' ∧
      P' = { P with verbose := vb.getD true, roi := g, particleVars := P'.particleVars } ∧
      ∀ var, var ∈ P'.particleVars ↔ var ∈ pv.getD [] ∨ var = "roi_flag" ∧ g.isSome := by
  have hv' : ValidParams { p with verbose := vb, particleVars := pv, roi := g } :=
    ⟨hv.depth, hv.stage, hv.topography, hv.qx, hv.qy, hv.u, hv.v, hv.gamma, hv.dryDepth, hv.distances, hv.ivec, hv.jvec⟩
  have acc : ∃ P', initParticles A F { p with verbose := vb, particleVars := pv, roi := g } = .ok P' ∧
      P' = { P with verbose := vb.getD true, roi := g, particleVars := P'.particleVars } ∧
      P'.particleVars = initVars { p with verbose := vb, particleVars := pv, roi := g } := by
    unfold initParticles at hP ⊢
    simp only [bind_ok, pure_ok, Prod.exists] at hP ⊢
    obtain ⟨dx, h1, d, h2, st, h3, qx, qy, u, v, h4, r, h5, c, h6, rfl⟩ := hP
    refine ⟨_, ⟨dx, h1, d, h2, st, h3, qx, qy, u, v, h4, (), ?_, c, h6, rfl⟩, rfl, rfl⟩
    unfold checkRoi
    cases g with
    | none => rfl
    | some x =>
      obtain ⟨e1, e2⟩ := hg x rfl
      have r1 : d.rows = R := hE.rows
      have r2 : d.cols = C := hE.cols
      simp only [needShape]
      rw [if_pos (by unfold Grid.sameShape; simp; omega)]
  obtain ⟨P', h1, h2, h3⟩ := acc
  refine ⟨P', h1, ⟨⟨_, hv', h1⟩, ?_, ?_, ?_, ?_, ?_, ?_⟩, h2, fun var => ?_⟩
  · rw [h2]; exact hE.rows
  · rw [h2]; exact hE.cols
  · rw [h2]; exact hE.ring
  · rw [h2]; exact hE.walk
  · rw [h2]; exact hE.steps
  · rw [h2]; exact hE.angles
  · rw [h3]
    unfold initVars
    simp only
    split_ifs with h
    · simp only [Bool.and_eq_true] at h
      simp [h.2]
    · simp only [Bool.and_eq_true, Bool.not_eq_true', not_and] at h
      constructor
      · exact Or.inl
      · rintro (h4 | ⟨rfl, h5⟩)
        · exact h4
        · by_contra hc
          exact h (by simpa using hc) h5

/-- Any rounding, any draws, any sequence of calls (with and without target times, seeding in between, starting anew): if the simulation gets through without exception,
then so it does with other tracked variables, another region and other messages, as long as the variables can be tracked; and positions, times, number of particles and use of
random numbers are the same. -/
theorem C127_same (hv : ValidParams p) (hP : initParticles A F p = .ok P) (hE : Enclosed A F R C P) (hg : ∀ x, g = some x → x.rows = R ∧ x.cols = C)
    (hP' : initParticles A F { p with verbose := vb, particleVars := pv, roi := g } = .ok P') (ht : ∀ var, OptVar P' var → Trackable P' var)
    {ω : Nat → ℝ} (hω : Draws ω) {cs : List (ApiCall ℝ)} (hcs : ∀ c ∈ cs, c.SeedsWithin R C) {pos : Nat} {s : PState ℝ}
    (h : session A F P ω cs (initState A F P pos) = .ok s) :
    ∃ s', session A F P' ω cs (initState A F P' pos) = .ok s' ∧ s'.motion = s.motion := by
  obtain ⟨Q, hQ, hE', e, -⟩ := C127_accepted (vb := vb) (pv := pv) hv hP hE hg
  rw [hP'] at hQ
  cases hQ
  have hS : SameMotion P P' := by
    unfold SameMotion
    conv_lhs => rw [e]
    conv_rhs => rw [e]
  suffices key : ∀ {s0 s0' : PState ℝ}, Reach A F (Enclosed A F R C) Draws (InsideSeeds R C) P s0 → Reach A F (Enclosed A F R C) Draws (InsideSeeds R C) P' s0' →
      s0'.motion = s0.motion → session A F P ω cs s0 = .ok s → ∃ s', session A F P' ω cs s0' = .ok s' ∧ s'.motion = s.motion from
    key (.new pos hE) (.new pos hE') rfl h
  clear h
  induction cs with
  | nil =>
    intro s0 s0' _ _ hm h
    cases h
    exact ⟨s0', rfl, hm⟩
  | cons c cs ih =>
    have ih := fun {s0 s0' : PState ℝ} => ih (fun c hc => hcs c (by simp [hc])) (s0 := s0) (s0' := s0')
    have hc := hcs c (by simp)
    intro s0 s0' r r' hm h
    cases c with
    | generate np xs ys time method prev =>
      obtain ⟨rfl, n, x, y, t, m, hchk, hn, hin⟩ := hc
      unfold session at h ⊢
      obtain ⟨s1, h1, h2⟩ := bind_ok.1 h
      obtain ⟨s1', h1', h2'⟩ := generate_tracking (A := A) hE'.built.fields ht hm hchk (fun a ha b hb => by
        have := hin a ha b hb
        have e1 := hE'.rows
        have e2 := hE'.cols
        unfold Inside at this
        unfold OnGrid
        simp only at this
        omega) h1
      obtain ⟨s', h3, h4⟩ := ih (.generate r hω hchk hn hin h1) (.generate r' hω hchk hn hin h1') h2' h2
      exact ⟨s', bind_ok.2 ⟨s1', h1', h3⟩, h4⟩
    | run target maxIter =>
      unfold session at h ⊢
      obtain ⟨res, h1, h2⟩ := bind_ok.1 h
      obtain ⟨res', h1', h2'⟩ := run_tracking hS r r' hm hω h1
      obtain ⟨s', h3, h4⟩ := ih (.run r hω h1) (.run r' hω h1') h2' h2
      exact ⟨s', bind_ok.2 ⟨res', h1', h3⟩, h4⟩
    | clear =>
      unfold session at h ⊢
      refine ih (.clear r) (.clear r') ?_ h
      simp only [PState.motion, Prod.mk.injEq, clearWalkData] at hm ⊢
      exact ⟨hm.1, hm.2.1, trivial⟩

/-! ## Concrete cases -/

/-- The western half of the wide channel. -/
def westHalf : Grid (Fl ℝ) := ⟨11, 11, fun i _ => if i < 5 then .fin 1 else .fin 0⟩

/-- C127: three particles at the centre of the wide channel, moved on to time 100, without and with depth, velocity and a region tracked. -/
example : ∃ P', initParticles Arith.exact Fun.real { wideChan with verbose := some false, particleVars := some ["depth", "u"], roi := some westHalf } = .ok P' ∧
    P'.particleVars ≠ wideObj.particleVars ∧ ∀ ω, Draws ω → ∃ s s',
      session Arith.exact Fun.real wideObj ω [.generate (.int 3) (.list [.int 5]) (.list [.int 5]) (.int 0) (.str "exact") none, .run (some (.fin 100)) 10]
        (initState Arith.exact Fun.real wideObj 0) = .ok s ∧
      session Arith.exact Fun.real P' ω [.generate (.int 3) (.list [.int 5]) (.list [.int 5]) (.int 0) (.str "exact") none, .run (some (.fin 100)) 10]
        (initState Arith.exact Fun.real P' 0) = .ok s' ∧ s'.motion = s.motion := by
  have hg : ∀ x, some westHalf = some x → x.rows = 11 ∧ x.cols = 11 := by rintro x ⟨⟩; exact ⟨rfl, rfl⟩
  obtain ⟨P', h1, h2, h3, h4⟩ := C127_accepted (vb := some false) (pv := some ["depth", "u"]) (g := some westHalf) wideChan_valid wideObj_init wideObj_enclosed hg
  refine ⟨P', h1, fun e => ?_, fun ω hω => ?_⟩
  · have := (h4 "depth").2 (Or.inl (by simp))
    rw [e] at this
    have e2 : wideObj.particleVars = [] := rfl
    rw [e2] at this
    simp at this
  have ht : ∀ var, OptVar P' var → Trackable P' var := by
    intro var hvar
    rcases (h4 var).1 hvar.1 with h | ⟨rfl, -⟩
    · simp only [Option.getD_some, List.mem_cons, List.not_mem_nil, or_false] at h
      rcases h with rfl | rfl
      · exact Or.inl ⟨_, rfl⟩
      · exact Or.inl ⟨_, rfl⟩
    · exact Or.inr ⟨rfl, westHalf, by rw [h3]⟩
  have hc : genInputCheck (K := ℝ) (.int 3) (.list [.int 5]) (.list [.int 5]) (.int 0) (.str "exact") = .ok (3, [5], [5], .fin ((0 : Int) : ℝ), .exact) := rfl
  have hseed : ∀ x ∈ ([5] : List Int), ∀ y ∈ ([5] : List Int), Inside 11 11 (x, y) := by
    intro x hx y hy
    simp at hx hy
    subst hx hy
    unfold Inside
    decide
  obtain ⟨s1, hs1, hnp, hw⟩ : ∃ s1, generateParticles Arith.exact wideObj ω (initState Arith.exact Fun.real wideObj 0) (.int 3) (.list [.int 5]) (.list [.int 5]) (.int 0)
    (.str "exact") none = .ok s1 ∧ s1.np = 3 ∧ s1.walk ≠ none := ⟨_, rfl, rfl, by simp⟩
  have r1 : Reach Arith.exact Fun.real (Enclosed Arith.exact Fun.real 11 11) Draws (InsideSeeds 11 11) wideObj s1 :=
    .generate (.new 0 wideObj_enclosed) hω hc (by norm_num) hseed hs1
  obtain ⟨res, hres⟩ := C17_no_crash r1 hw hω (some (.fin 100)) 10 (Or.inr (by rw [hnp]; norm_num))
  have hrun : session Arith.exact Fun.real wideObj ω [.generate (.int 3) (.list [.int 5]) (.list [.int 5]) (.int 0) (.str "exact") none, .run (some (.fin 100)) 10]
      (initState Arith.exact Fun.real wideObj 0) = .ok res.state := by
    simp only [session, hs1, hres, ok_bind]
  obtain ⟨s', k1, k2⟩ := C127_same wideChan_valid wideObj_init wideObj_enclosed hg h1 ht hω (fun c hc' => by
    simp only [List.mem_cons, List.not_mem_nil, or_false] at hc'
    rcases hc' with rfl | rfl
    · exact ⟨rfl, _, _, _, _, _, hc, by norm_num, hseed⟩
    · trivial) hrun
  exact ⟨_, s', hrun, k1, k2⟩

end

end Dorado
