import Verif.Lemmas.Elsewhere
import Verif.Lemmas.Twin

/-! # Objects that differ in the diffusion coefficient only (for C126) -/

set_option linter.unusedSectionVars false

namespace Dorado

section paths

variable {K : Type} [Field K] [LinearOrder K] [IsStrictOrderedRing K] [FloorRing K] {A : Arith K} {F : Fun K A} {p : Params K} {P P' : PObj K}

/-- Only the diffusion coefficient changes; negative ones count as zero. -/
theorem init_spread {D : K} (hP : initParticles A F p = .ok P) :
    initParticles A F { p with diffCoeff := some D } = .ok { P with diffCoeff := if D < 0 then 0 else D } := by
  unfold initParticles at hP ⊢
  simp only [bind_ok, pure_ok, Prod.exists] at hP ⊢
  obtain ⟨dx, h1, d, h2, s, h3, qx, qy, u, v, h4, r, h5, c, h6, rfl⟩ := hP
  exact ⟨dx, h1, d, h2, s, h3, qx, qy, u, v, h4, r, h5, c, h6, rfl⟩

theorem twin_spread (G : Good P) {D : K} (h : 0 < P.diffCoeff) (hD : 0 < D) : Twin A F (fun _ _ => True) P { P with diffCoeff := D } where
  good := G
  good' := ⟨G.stage_rows, G.stage_cols, G.ct_rows, G.ct_cols, G.depth_fin, G.stage_fin, G.qx_fin, G.qy_fin, G.dist_pos, G.ivec_fin, G.jvec_fin, G.gamma_nonneg,
    G.gamma_le, G.dry_nonneg⟩
  rows := rfl
  cols := rfl
  steepest := rfl
  iwalk := rfl
  jwalk := rfl
  distances := rfl
  dx := rfl
  edges := rfl
  vars := rfl
  roi := rfl
  verbose := rfl
  avail _ _ := rfl
  weight _ _ _ _ _ _ := rfl
  time T ω cell a b d := by
    unfold travelTimeStmt
    split
    · refine RelM.bind (RelM.lift (RelE.eq _)) ?_
      rintro v _ rfl
      refine RelM.bind (RelM.lift (RelE.eq _)) ?_
      rintro w _ rfl
      refine RelM.bind RelM.read fun s s' hs => ?_
      refine RelM.bind (RelM.assign fun s t hst => ?_) fun _ _ _ => ?_
      · try simp only [if_pos h, if_pos hD]
        obtain ⟨⟨b1, b2, b3⟩, a2, a3⟩ := hst
        exact ⟨⟨b1, b2, by simp only [PState.atPos, b3]⟩, a2, a3⟩
      refine RelM.bind (RelM.lift (RelE.eq _)) ?_
      rintro ang _ rfl
      refine RelM.bind (RelM.lift (RelE.eq _)) ?_
      rintro va _ rfl
      refine RelM.bind (RelM.lift (RelE.eq _)) ?_
      rintro c _ rfl
      exact RelM.pure trivial
    · exact RelM.pure trivial

end paths

noncomputable section

variable {F : Fun ℝ Arith.exact} {P : PObj ℝ} {D E a b : ℝ}

/-- The same discrete state; finite times of the third particle are a mean of those of the others. -/
structure Blend (a b : ℝ) (m m' m'' : Mach) : Prop where
  disc : m'.1 = m.1
  disc' : m''.1 = m.1
  ne : m.1.cells ≠ []
  times : ∀ n, n < m.1.cells.length → ∀ x y, m.2.1 n = .fin x → m'.2.1 n = .fin y → m''.2.1 n = .fin (a * x + b * y)

theorem add_fin {s t : Fl ℝ} {x : ℝ} (h : Arith.exact.add s t = .fin x) : ∃ y z, s = .fin y ∧ t = .fin z ∧ x = y + z := by
  cases s <;> cases t <;> simp [Arith.add, Arith.exact] at h
  exact ⟨_, _, rfl, rfl, h.symm⟩

theorem mul_fin {s : Fl ℝ} {c x : ℝ} (h : Arith.exact.mul s (.fin c) = .fin x) : ∃ y, s = .fin y ∧ x = y * c := by
  cases s with
  | fin y => exact ⟨y, rfl, by simpa [Arith.mul, Arith.exact, eq_comm] using h⟩
  | nan => simp [Arith.mul] at h
  | pinf => exfalso; revert h; simp only [Arith.mul, Arith.infMul]; split_ifs <;> simp
  | ninf => exfalso; revert h; simp only [Arith.mul, Arith.infMul]; split_ifs <;> simp [Fl.neg]

/-- The duration of a step is linear in the diffusion coefficient. -/
theorem dur_blend (hab : a + b = 1) (hd : 0 < P.diffCoeff) (hD : 0 < D) (hE : E = a * P.diffCoeff + b * D) (hE0 : 0 < E) {q : Int × Int} {k : Nat} {v x y : ℝ}
    (hx : durOf Arith.exact F P q k v = .fin x) (hy : durOf Arith.exact F { P with diffCoeff := D } q k v = .fin y) :
    durOf Arith.exact F { P with diffCoeff := E } q k v = .fin (a * x + b * y) := by
  unfold durOf at hx hy ⊢
  rw [show destOf Arith.exact { P with diffCoeff := D } q k = destOf Arith.exact P q k from rfl] at hy
  rw [show destOf Arith.exact { P with diffCoeff := E } q k = destOf Arith.exact P q k from rfl]
  cases hst : stepUpdate Arith.exact k P.distances P.dx with
  | error e => simp [hst] at hx
  | ok d =>
    simp only [hst] at hx hy ⊢
    unfold calcTravelTime at hx hy ⊢
    by_cases hne : q ≠ destOf Arith.exact P q k
    · simp only [if_pos hne, if_pos hd, if_pos hD, if_pos hE0] at hx hy ⊢
      cases h1 : P.velocity.get q.1 q.2 with
      | error e => simp [h1, error_bind] at hx
      | ok v1 =>
        cases h2 : P.velocity.get (destOf Arith.exact P q k).1 (destOf Arith.exact P q k).2 with
        | error e => simp [h1, h2, ok_bind, error_bind] at hx
        | ok v2 =>
          cases h3 : flat9 P.angles k with
          | error e => simp [h1, h2, h3, ok_bind, error_bind] at hx
          | ok ang =>
            cases h4 : P.velocityAngle.get q.1 q.2 with
            | error e => simp [h1, h2, h3, h4, ok_bind, error_bind] at hx
            | ok va =>
              cases h5 : mathCos Arith.exact F (Arith.exact.sub ang va) with
              | error e => simp [h1, h2, h3, h4, h5, ok_bind] at hx
              | ok c =>
                simp only [h1, h2, h3, h4, h5, ok_bind] at hx hy ⊢
                have key : ∀ e : ℝ, Arith.exact.add (.fin 1) (Arith.exact.mul (Arith.exact.sub (.fin (1 / 2)) (.fin v)) (.fin e)) = .fin (1 + (1 / 2 - v) * e) := by
                  intro e
                  simp [Arith.add, Arith.mul, Arith.sub, Fl.neg, Arith.exact, sub_eq_add_neg]
                change Arith.exact.mul _ (Arith.exact.add (.fin 1) (Arith.exact.mul (Arith.exact.sub (.fin (1 / 2)) (.fin v)) (.fin P.diffCoeff))) = _ at hx
                change Arith.exact.mul _ (Arith.exact.add (.fin 1) (Arith.exact.mul (Arith.exact.sub (.fin (1 / 2)) (.fin v)) (.fin D))) = _ at hy
                change Arith.exact.mul _ (Arith.exact.add (.fin 1) (Arith.exact.mul (Arith.exact.sub (.fin (1 / 2)) (.fin v)) (.fin E))) = _
                rw [key] at hx hy ⊢
                obtain ⟨B, hB, rfl⟩ := mul_fin hx
                rw [hB] at hy ⊢
                obtain ⟨B', hB', rfl⟩ := mul_fin hy
                cases hB'
                simp only [Arith.mul, Arith.exact]
                rw [hE]
                congr 1
                simp only [id]
                linear_combination (-B) * hab
    · simp only [if_neg hne] at hx hy ⊢
      cases hx
      cases hy
      simp only [mul_zero, add_zero]
      rfl

theorem blend_step (hab : a + b = 1) (hd : 0 < P.diffCoeff) (hD : 0 < D) (hE : E = a * P.diffCoeff + b * D) (hE0 : 0 < E) {m m' m'' : Mach} (H : Blend a b m m' m'') (v : ℝ) :
    Blend a b (m.step Arith.exact F P v) (m'.step Arith.exact F { P with diffCoeff := D } v) (m''.step Arith.exact F { P with diffCoeff := E } v) := by
  obtain ⟨d, ts, e⟩ := m
  obtain ⟨d', ts', e'⟩ := m'
  obtain ⟨d'', ts'', e''⟩ := m''
  obtain ⟨h1, h2, h3, h4⟩ := H
  simp only at h1 h2 h3 h4
  subst h1 h2
  have hlen : 0 < d''.cells.length := List.length_pos_iff.2 h3
  refine ⟨rfl, rfl, by simp [Mach.step], fun n hn x y hx hy => ?_⟩
  simp only [Mach.step, List.length_append, List.length_singleton] at hn hx hy ⊢
  by_cases hnl : n = d''.cells.length
  · subst hnl
    simp only [Function.update_self, Mach.time] at hx hy ⊢
    obtain ⟨x1, x2, e1, e2, rfl⟩ := add_fin hx
    obtain ⟨y1, y2, f1, f2, rfl⟩ := add_fin hy
    rw [h4 _ (by omega) _ _ e1 f1, dur_blend hab hd hD hE hE0 e2 f2]
    simp only [Arith.add, Arith.exact]
    simp only [id]
    congr 1
    ring
  · simp only [Function.update_of_ne hnl] at hx hy ⊢
    exact h4 n (by omega) x y hx hy

theorem blend_move (hab : a + b = 1) (hd : 0 < P.diffCoeff) (hD : 0 < D) (hE : E = a * P.diffCoeff + b * D) (hE0 : 0 < E) {m m' m'' : Mach} (H : Blend a b m m' m'') (v : ℝ) :
    Blend a b (m.move Arith.exact F P v) (m'.move Arith.exact F { P with diffCoeff := D } v) (m''.move Arith.exact F { P with diffCoeff := E } v) := by
  unfold Mach.move
  rw [H.disc, H.disc']
  by_cases hg : m.1.goes Arith.exact P
  · rw [if_pos hg, if_pos (show m.1.goes Arith.exact { P with diffCoeff := D } from hg), if_pos (show m.1.goes Arith.exact { P with diffCoeff := E } from hg)]
    exact blend_step hab hd hD hE hE0 H v
  · rw [if_neg hg, if_neg (show ¬ m.1.goes Arith.exact { P with diffCoeff := D } from hg), if_neg (show ¬ m.1.goes Arith.exact { P with diffCoeff := E } from hg)]
    exact H

/-- The operation for choosing a neighbour, or for taking the step. -/
def plainOp (F : Fun ℝ Arith.exact) (P : PObj ℝ) (c : Bool) : Op Mach := if c then pickOp Arith.exact F P else timeOp Arith.exact F P

/-- Who does what in a number of calls without target time. -/
def plainPlan (N : Nat) (calls : List (Option (Fl ℝ) × Int)) : List (Fin N × Bool) :=
  calls.flatMap fun _ => (List.finRange N).map (fun i => (i, true)) ++ (List.finRange N).map fun i => (i, false)

theorem callsOps_plain {N : Nat} {calls : List (Option (Fl ℝ) × Int)} (h : ∀ c ∈ calls, c.1 = none) :
    callsOps Arith.exact F P N calls = (plainPlan N calls).map fun x => (x.1, plainOp F P x.2) := by
  unfold callsOps plainPlan
  induction calls with
  | nil => rfl
  | cons c cs ih =>
    obtain ⟨t, n⟩ := c
    obtain rfl : t = none := h (t, n) (by simp)
    rw [List.flatMap_cons, List.flatMap_cons, List.map_append, ih fun c hc => h c (by simp [hc])]
    congr 1
    simp [callOps, plainOp, Function.comp_def]

theorem deal_blend (hab : a + b = 1) (hd : 0 < P.diffCoeff) (hD : 0 < D) (hE : E = a * P.diffCoeff + b * D) (hE0 : 0 < E) {N : Nat} (ω : Nat → ℝ)
    (L : List (Fin N × Bool)) {st st' st'' : Fin N → Mach} (H : ∀ i, Blend a b (st i) (st' i) (st'' i)) (pos : Nat) :
    ∀ i, Blend a b ((deal ω (L.map fun x => (x.1, plainOp F P x.2)) (st, pos)).1 i)
      ((deal ω (L.map fun x => (x.1, plainOp F { P with diffCoeff := D } x.2)) (st', pos)).1 i)
      ((deal ω (L.map fun x => (x.1, plainOp F { P with diffCoeff := E } x.2)) (st'', pos)).1 i) := by
  classical
  induction L generalizing st st' st'' pos with
  | nil => exact H
  | cons x L ih =>
    obtain ⟨j, c⟩ := x
    simp only [List.map_cons, deal_cons]
    have hup : ∀ {m m' m'' : Mach}, Blend a b m m' m'' → ∀ i, Blend a b (Function.update st j m i) (Function.update st' j m' i) (Function.update st'' j m'' i) := by
      intro m m' m'' hm i
      by_cases hi : i = j
      · subst hi; simpa using hm
      · simpa [hi] using H i
    have hj := H j
    cases c with
    | true =>
      have e : ∀ (Q : PObj ℝ) (t : Fin N → Mach), dealStep ω (t, pos) (j, plainOp F Q true) =
          (Function.update t j ({ (t j).1 with pick := pickOf Arith.exact F Q (t j).1.cur (ω pos) }, (t j).2), pos + 1) := by
        intro Q t
        unfold dealStep plainOp pickOp
        simp
        congr!
      rw [e, e, e]
      refine ih (hup ?_) _
      refine ⟨?_, ?_, hj.ne, hj.times⟩
      · rw [hj.disc]; rfl
      · rw [hj.disc']; rfl
    | false =>
      have e : ∀ (Q : PObj ℝ), 0 < Q.diffCoeff → ∀ t : Fin N → Mach, dealStep ω (t, pos) (j, plainOp F Q false) =
          if (t j).1.goes Arith.exact Q then (Function.update t j ((t j).move Arith.exact F Q (ω pos)), pos + 1) else
            (Function.update t j ((t j).move Arith.exact F Q 0), pos) := by
        intro Q hQ t
        unfold dealStep plainOp timeOp
        simp only [Bool.false_eq_true, if_false, hQ, and_true]
        congr!
      rw [e P hd, e { P with diffCoeff := D } hD, e { P with diffCoeff := E } hE0, hj.disc, hj.disc']
      by_cases hg : (st j).1.goes Arith.exact P
      · rw [if_pos hg, if_pos (show (st j).1.goes Arith.exact { P with diffCoeff := D } from hg), if_pos (show (st j).1.goes Arith.exact { P with diffCoeff := E } from hg)]
        exact ih (hup (blend_move hab hd hD hE hE0 hj _)) _
      · rw [if_neg hg, if_neg (show ¬ (st j).1.goes Arith.exact { P with diffCoeff := D } from hg), if_neg (show ¬ (st j).1.goes Arith.exact { P with diffCoeff := E } from hg)]
        exact ih (hup (blend_move hab hd hD hE hE0 hj _)) _

end

end Dorado
