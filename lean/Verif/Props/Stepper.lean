import Verif.Props.Safety
import Verif.Props.Time

/-!
# The particle stepper (C68)
-/

set_option linter.unusedSectionVars false

namespace Dorado

variable {K : Type} [Field K] [LinearOrder K] [IsStrictOrderedRing K] [FloorRing K] {A : Arith K} {F : Fun K A}

theorem stepper_times {P : PObj K} {ω : Nat → K} {s s' : World K} {cur news : List (Int × Int)}
    {times times' : List (Fl K)} {vars : List String} {upd : List (String × List (Val K))}
    (h : particleStepper A F P ω s cur times vars = .ok ((news, times', upd), s')) : times'.length ≤ times.length := by
  unfold particleStepper at h
  simp only [bind_ok, pure_ok, Prod.exists, Prod.mk.injEq] at h
  obtain ⟨cells, s1, hcells, inds0, hinds0, dist, hdist, temp, pos', htemp, opt, hopt, ⟨rfl, rfl, rfl⟩, rfl⟩ := h
  simp

/-- Any history, any draws, any rounding: called with interior positions and one time per position, `particle_stepper` succeeds; it returns one
position and one time per particle, in order; a particle stays (its time only rounded) or moves to a neighbouring interior cell; it stays next to
an edge; every requested variable is sampled at the new position. -/
theorem C68_contract {R C : Nat} {P : PObj K} {s : PState K} (h : Reach A F (Enclosed A F R C) Draws (InsideSeeds R C) P s)
    (hwd : s.walk ≠ none) {ω : Nat → K} (hω : Draws ω) {cur : List (Int × Int)} (hcur : ∀ p ∈ cur, Inside R C p) {times : List (Fl K)}
    (hlen : times.length = cur.length) {vars : List String} (hvars : ∀ v ∈ vars, OptVar P v) :
    ∃ news times' upd w, particleStepper A F P ω s.world cur times vars = .ok ((news, times', upd), w) ∧
      news.length = cur.length ∧ times'.length = cur.length ∧
      ∀ (i : Nat) p t, cur[i]? = some p → times[i]? = some t → ∃ q t', news[i]? = some q ∧ times'[i]? = some t' ∧ Inside R C q ∧
        |q.1 - p.1| ≤ 1 ∧ |q.2 - p.2| ≤ 1 ∧ (q = p → ∀ x, t = .fin x → t' = .fin (A.rnd x)) ∧
        (∀ a b : Nat, p = ((a : Int), (b : Int)) → NearEdge P a b → q = p) ∧
        ∀ var ∈ vars, ∃ l v, dictGet upd var = some l ∧ l[i]? = some v ∧
          (∀ g, fieldOf P var = some g → ∃ x, g.get q.1 q.2 = .ok x ∧ v = .num x) ∧
          (var = "roi_flag" → ∀ g, P.roi = some g → ∃ x, g.get q.1 q.2 = .ok x ∧ v = .flag (if x = .fin 1 then 1 else 0)) := by
  have hO := h.obj
  have hpe := (Enclosed.rowsOk h).1
  have hR : Routable A P := ⟨hO.built.fields, hO.walk, hO.steps, hO.ring, hO.angles, h.avail hwd⟩
  obtain ⟨news, times', upd, w, hs, hv⟩ := particleStepper_total hR hω hpe (cur := cur) (by rw [hO.rows, hO.cols]; exact hcur) times vars
    fun v hv => optVar_iff.1 (hvars v hv)
  obtain ⟨-, hnl, hstep, hopt⟩ := particleStepper_inv A F hO.built.good hpe hs
  refine ⟨news, times', upd, w, hs, hnl, le_antisymm (hlen ▸ stepper_times hs) ?_, ?_⟩
  · by_contra hlt
    have hi : times'.length < cur.length := by omega
    obtain ⟨q, t', -, ht', -⟩ := hstep times'.length _ _ (List.getElem?_eq_getElem hi) (List.getElem?_eq_getElem (by omega))
    simp at ht'
  · intro i p t hp ht
    obtain ⟨q, t', hq, ht', hso⟩ := hstep i p t hp ht
    have hpin := hcur p (List.mem_of_getElem? hp)
    have hin : Inside R C q := by
      obtain ⟨k, q0, d, m, m', dt, -, hq0, hd, rfl, -, -⟩ := hso
      have := dest_inside hO.built.good hO.walk hO.steps hO.ring (by rw [hO.rows, hO.cols]; exact hpin) hq0 hd
      rwa [hO.rows, hO.cols] at this
    have hnear : |q.1 - p.1| ≤ 1 ∧ |q.2 - p.2| ≤ 1 := by
      by_cases hne : q = p
      · subst hne; simp
      · obtain ⟨a, b, k, r, hm⟩ := hso.move hO.steps hne
        have hd := hm.dest
        rw [hO.walk.1, hO.walk.2] at hd
        have hk := hm.lt
        rw [hd]
        simp only [add_sub_cancel_left]
        clear hd hm hin hq hso
        interval_cases k <;> simp [defaultIwalk, defaultJwalk]
    refine ⟨q, t', hq, ht', hin, hnear.1, hnear.2, fun he x hx => ?_, fun a b hab hedge => ?_, fun var hvar => ?_⟩
    · subst he hx
      obtain ⟨k, q0, d, m, m', dt, -, -, -, -, hct, rfl⟩ := hso
      unfold calcTravelTime at hct
      rw [if_neg (by simp)] at hct
      cases hct
      simp [Arith.add]
    · subst hab
      have h1 : 1 ≤ a := by have := hpin.1; simp only at this; omega
      have h2 : 1 ≤ b := by have := hpin.2.2.1; simp only at this; omega
      exact hso.edge ((nearEdge_iff h1 h2).2 hedge)
    · obtain ⟨l, hl⟩ := hv var hvar
      obtain ⟨v, hlv, hva⟩ := hopt var l i q hl hq
      refine ⟨l, v, hl, hlv, fun g hg => ?_, fun hroi g hg => ?_⟩
      · rcases hva with ⟨h1, -⟩ | ⟨-, g', hg', hs'⟩
        · rw [h1] at hg; simp [fieldOf] at hg
        · rw [availVar_eq_fieldOf, hg] at hg'
          cases hg'
          unfold sampleAt at hs'
          simp only [bind_ok, pure_ok] at hs'
          obtain ⟨x, hx, rfl⟩ := hs'
          exact ⟨x, hx, rfl⟩
      · rcases hva with ⟨-, g', hg', hs'⟩ | ⟨h1, -⟩
        · rw [hg] at hg'
          cases hg'
          unfold roiFlagAt at hs'
          simp only [bind_ok, pure_ok] at hs'
          obtain ⟨x, hx, rfl⟩ := hs'
          refine ⟨x, hx, ?_⟩
          congr 1
          cases x <;> simp [Fl.eq]
        · exact absurd ⟨hroi, by rw [hg]; rfl⟩ h1

/-- With `diff_coeff <= 2` and a non-negative cell size (and a rounding that represents -1/2 and -1) no time decreases. -/
theorem C68_time (hh : A.rnd (-(1 / 2)) = -(1 / 2)) (h1 : A.rnd (-1) = -1) {P : PObj K} {s : PState K} {Sd : PObj K → List Int → List Int → Fl K → Prop}
    (h : Reach A F (Built A F) Draws Sd P s) (hd : P.diffCoeff ≤ 2) (hx : 0 ≤ P.dx) {ω : Nat → K} (hω : Draws ω)
    {cur news : List (Int × Int)} {times times' : List (Fl K)} {vars : List String} {upd : List (String × List (Val K))} {w : World K}
    (hs : particleStepper A F P ω s.world cur times vars = .ok ((news, times', upd), w)) {i : Nat} {p : Int × Int} {t : K}
    (hp : cur[i]? = some p) (ht : times[i]? = some (.fin t)) (hr : A.rnd t = t) : ∃ t', times'[i]? = some (.fin t') ∧ t ≤ t' := by
  have hO := h.obj
  obtain ⟨hpe, -⟩ := h.state fun P hP => hP.good
  obtain ⟨-, -, hstep, -⟩ := particleStepper_inv A F hO.good hpe hs
  obtain ⟨q, t', hq, ht', k, q0, d, m, m', dt, -, -, hd', -, hct, rfl⟩ := hstep i p _ hp ht
  rw [ht']
  obtain ⟨D, rfl, hD⟩ := dist_nonneg_of hO.good hx hd'
  by_cases hne : p = q
  · subst hne
    unfold calcTravelTime at hct
    rw [if_neg (by simp)] at hct
    cases hct
    exact ⟨_, rfl, by simp [hr]⟩
  · obtain ⟨i, j, i', j', vo, vn, va, c, diff, hp⟩ := calcTravelTime_inv hO.fields hne hct
    obtain ⟨y, rfl, hy⟩ := hp.nonneg hω hd hh h1 hD
    refine ⟨_, rfl, ?_⟩
    conv_lhs => rw [← hr]
    exact A.mono _ _ (by linarith)

/-- Two particles handed to `particle_stepper` after seeding: the first moves to (3,2), the second is next to an edge cell. -/
def stepperDemo : Option ((List (Int × Int) × List (Fl ℚ)) × List (String × List (Val ℚ))) :=
  ((demo chanVars (fun _ => 1 / 2) 1 [2] [2] []).toOption.bind fun s =>
    (particleStepper Arith.exact Fun.toy (objOf chanVars) (fun _ => 1 / 2) s.world [(2, 2), (1, 3)] [.fin 7, .fin 8] ["depth"]).toOption).map
      fun r => ((r.1.1, r.1.2.1), r.1.2.2)

/-- The hypotheses of C68 hold for the seeded object and these positions; the second particle keeps position and time. -/
example : (∃ s, Reach Arith.exact Fun.toy (Enclosed Arith.exact Fun.toy 5 5) Draws (InsideSeeds 5 5) (objOf chanVars) s ∧ s.walk ≠ none) ∧
    (∀ p ∈ [((2 : Int), (2 : Int)), (1, 3)], Inside 5 5 p) ∧ OptVar (objOf chanVars) "depth" ∧
    stepperDemo = some (([(3, 2), (1, 3)], [.fin (8190000012600000007 / 360000000000000000), .fin 8]),
      [("roi_flag", [.flag 1, .flag 0]), ("depth", [.num (.fin 3), .num (.fin 2)])]) := by
  refine ⟨?_, by unfold Inside; decide, ⟨by decide +kernel, by decide, by decide, by decide⟩, by decide +kernel⟩
  obtain ⟨s, wd, hr, hw, -, -⟩ := demo_walk (p := chanVars) (ω := fun _ => 1 / 2) (n := 1) (xs := [2]) (ys := [2])
    (runs := []) (Ob := Enclosed Arith.exact Fun.toy 5 5) (Ω := Draws) (Sd := InsideSeeds 5 5)
    chanVars_enclosed half_draws.1 (fun x hx y hy => by simp at hx hy; subst hx hy; unfold Inside; decide)
    (f := fun wd => (wd.xinds, wd.yinds)) (b := ([[2]], [[2]])) (by decide +kernel)
  exact ⟨s, hr, by rw [hw]; simp⟩

end Dorado
