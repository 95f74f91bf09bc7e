import Verif.Lemmas.Transform

/-! # Velocity fields of mirrored domains (C118) -/

set_option linter.unusedSectionVars false

namespace Dorado

variable {K : Type} [Field K] [LinearOrder K] [IsStrictOrderedRing K]

theorem neg_div' (x y : Fl K) : Arith.exact.div x.neg y = (Arith.exact.div x y).neg := by
  cases x <;> cases y <;> simp only [Arith.div, Fl.neg, Arith.exact, id]
  case fin.fin a b =>
    by_cases hb : b = 0
    · rcases lt_trichotomy a 0 with h | h | h
      · simp [hb, h.ne, h, not_lt.2 h.le]
      · simp [hb, h]
      · simp [hb, h.ne', h, not_lt.2 h.le]
    · simp [hb, neg_div]
  case ninf.fin b => split_ifs <;> rfl
  case pinf.fin b => split_ifs <;> rfl
  case fin.pinf => simp
  case fin.ninf => simp

theorem add_swap' (x y : Fl K) : (Arith.exact : Arith K).add x y = Arith.exact.add y x := by
  cases x <;> cases y <;> simp only [Arith.add, Arith.exact, id, add_comm]

theorem neg_sq' (x : Fl K) : (Arith.exact : Arith K).mul x.neg x.neg = Arith.exact.mul x x := by
  cases x <;> simp [Arith.mul, Fl.neg, Arith.exact]

/-- Internal velocity component computed from an input array (discharge if `isQ`, else velocity), before the clamp. -/
def vComp (A : Arith K) (isQ : Bool) (a d : Grid (Fl K)) : Grid (Fl K) := cond isQ (velFromQ A (qComp A isQ a d) d) (nanZeroGrid a)

theorem initFlow_vel {A : Arith K} {p : Params K} {d qx qy u v : Grid (Fl K)} (h : initFlow A p d = .ok (qx, qy, u, v)) {isQ : Bool}
    {ex ey : Grid (Fl K)} (hi : FlowInput p isQ ex ey) :
    u = vComp A isQ (cond p.deltaRCM ex (negGrid ey)) d ∧ v = vComp A isQ (cond p.deltaRCM ey ex) d := by
  obtain ⟨isQ', ex', ey', hi', -, -, rfl, rfl, hu, hv⟩ := initFlow_parts h
  have : isQ' = isQ ∧ ex' = ex ∧ ey' = ey := by
    rcases hi with ⟨rfl, h1, h2⟩ | ⟨rfl, h1, h2, h3⟩ <;> rcases hi' with ⟨rfl, k1, k2⟩ | ⟨rfl, k1, k2, k3⟩ <;> simp_all
  obtain ⟨rfl, rfl, rfl⟩ := this
  exact ⟨hu, hv⟩

theorem vComp_act {swap : Bool} {φ : Nat → Nat → Nat → Nat → Nat × Nat} (A : Arith K) (isQ : Bool) {a d : Grid (Fl K)} {u : Unit}
    (h : needShape a d = .ok u) : vComp A isQ (gact swap φ a) (gact swap φ d) = gact swap φ (vComp A isQ a d) := by
  obtain ⟨hr, hc⟩ := needShape_ok.1 h
  cases isQ
  · rfl
  · show velFromQ A (gact swap φ (nanZeroGrid a)) (gact swap φ d) = gact swap φ (velFromQ A (nanZeroGrid a) d)
    unfold velFromQ
    rw [gact_zip (g := nanZeroGrid a) _ hr hc]
    rfl

theorem vComp_neg (isQ : Bool) (a d : Grid (Fl K)) : vComp Arith.exact isQ (negGrid a) d = negGrid (vComp Arith.exact isQ a d) := by
  cases isQ
  · exact Grid.ext' rfl rfl fun i j => neg_nanTo0 _
  · show velFromQ Arith.exact (nanZeroGrid (negGrid a)) d = negGrid (velFromQ Arith.exact (nanZeroGrid a) d)
    refine Grid.ext' rfl rfl fun i j => ?_
    show (Arith.exact.div (Arith.exact.mul (a.at' i j).neg.nanTo0 (d.at' i j)) _).nanTo0 =
      (Arith.exact.div (Arith.exact.mul (a.at' i j).nanTo0 (d.at' i j)) _).nanTo0.neg
    rw [neg_nanTo0, neg_mul', neg_div', neg_nanTo0]

theorem velLR {p : Params K} {d qx qy u v qx' qy' u' v' : Grid (Fl K)} (h : initFlow Arith.exact p d = .ok (qx, qy, u, v))
    (h' : initFlow Arith.exact p.mirrorLR (gact false phiLR d) = .ok (qx', qy', u', v')) :
    u' = gact false phiLR u ∧ v' = negGrid (gact false phiLR v) := by
  obtain ⟨isQ, ex, ey, hi, hx, hy, -⟩ := initFlow_parts h
  obtain ⟨rfl, rfl⟩ := initFlow_vel h hi
  have hneg : needShape (negGrid ey) d = .ok () := hy
  cases e : p.deltaRCM with
  | true =>
    have hi' : FlowInput p.mirrorLR isQ (gact false phiLR ex) (negGrid (gact false phiLR ey)) := by
      unfold FlowInput Params.mirrorLR at *
      rcases hi with ⟨h0, h1, h2⟩ | ⟨h0, h1, h2, h3⟩
      · left; simp only [e, h1, h2, if_true]; exact ⟨h0, rfl, rfl⟩
      · right; simp only [e, h2, h3, if_true, Option.map_eq_none_iff]; exact ⟨h0, h1, rfl, rfl⟩
    obtain ⟨rfl, rfl⟩ := initFlow_vel h' hi'
    rw [show p.mirrorLR.deltaRCM = true from e]
    simp only [cond]
    rw [vComp_neg, vComp_act _ _ hx, vComp_act _ _ hy]
    exact ⟨rfl, rfl⟩
  | false =>
    have hi' : FlowInput p.mirrorLR isQ (negGrid (gact false phiLR ex)) (gact false phiLR ey) := by
      unfold FlowInput Params.mirrorLR at *
      rcases hi with ⟨h0, h1, h2⟩ | ⟨h0, h1, h2, h3⟩
      · left; simp only [e, h1, h2, Bool.false_eq_true, if_false]; exact ⟨h0, rfl, rfl⟩
      · right; simp only [e, h2, h3, Bool.false_eq_true, if_false, Option.map_eq_none_iff]; exact ⟨h0, h1, rfl, rfl⟩
    obtain ⟨rfl, rfl⟩ := initFlow_vel h' hi'
    rw [show p.mirrorLR.deltaRCM = false from e]
    simp only [cond]
    rw [vComp_neg isQ (gact false phiLR ex), vComp_act _ _ hx,
      show negGrid (gact false phiLR ey) = gact false phiLR (negGrid ey) from rfl, vComp_act _ _ hneg]
    exact ⟨rfl, rfl⟩

theorem velUD {p : Params K} {d qx qy u v qx' qy' u' v' : Grid (Fl K)} (h : initFlow Arith.exact p d = .ok (qx, qy, u, v))
    (h' : initFlow Arith.exact p.mirrorUD (gact false phiUD d) = .ok (qx', qy', u', v')) :
    u' = negGrid (gact false phiUD u) ∧ v' = gact false phiUD v := by
  obtain ⟨isQ, ex, ey, hi, hx, hy, -⟩ := initFlow_parts h
  obtain ⟨rfl, rfl⟩ := initFlow_vel h hi
  have hneg : needShape (negGrid ey) d = .ok () := hy
  cases e : p.deltaRCM with
  | true =>
    have hi' : FlowInput p.mirrorUD isQ (negGrid (gact false phiUD ex)) (gact false phiUD ey) := by
      unfold FlowInput Params.mirrorUD at *
      rcases hi with ⟨h0, h1, h2⟩ | ⟨h0, h1, h2, h3⟩
      · left; simp only [e, h1, h2, if_true]; exact ⟨h0, rfl, rfl⟩
      · right; simp only [e, h2, h3, if_true, Option.map_eq_none_iff]; exact ⟨h0, h1, rfl, rfl⟩
    obtain ⟨rfl, rfl⟩ := initFlow_vel h' hi'
    rw [show p.mirrorUD.deltaRCM = true from e]
    simp only [cond]
    rw [vComp_neg, vComp_act _ _ hx, vComp_act _ _ hy]
    exact ⟨rfl, rfl⟩
  | false =>
    have hi' : FlowInput p.mirrorUD isQ (gact false phiUD ex) (negGrid (gact false phiUD ey)) := by
      unfold FlowInput Params.mirrorUD at *
      rcases hi with ⟨h0, h1, h2⟩ | ⟨h0, h1, h2, h3⟩
      · left; simp only [e, h1, h2, Bool.false_eq_true, if_false]; exact ⟨h0, rfl, rfl⟩
      · right; simp only [e, h2, h3, Bool.false_eq_true, if_false, Option.map_eq_none_iff]; exact ⟨h0, h1, rfl, rfl⟩
    obtain ⟨rfl, rfl⟩ := initFlow_vel h' hi'
    rw [show p.mirrorUD.deltaRCM = false from e]
    simp only [cond]
    rw [vComp_act _ _ hx, vComp_neg, show negGrid (gact false phiUD ey) = gact false phiUD (negGrid ey) from rfl, vComp_act _ _ hneg]
    exact ⟨rfl, rfl⟩

theorem velT {p : Params K} {d qx qy u v qx' qy' u' v' : Grid (Fl K)} (h : initFlow Arith.exact p d = .ok (qx, qy, u, v))
    (h' : initFlow Arith.exact p.transpose (gact true phiT d) = .ok (qx', qy', u', v')) :
    u' = gact true phiT v ∧ v' = gact true phiT u := by
  obtain ⟨isQ, ex, ey, hi, hx, hy, -⟩ := initFlow_parts h
  obtain ⟨rfl, rfl⟩ := initFlow_vel h hi
  have hneg : needShape (negGrid ey) d = .ok () := hy
  cases e : p.deltaRCM with
  | true =>
    have hi' : FlowInput p.transpose isQ (gact true phiT ey) (gact true phiT ex) := by
      unfold FlowInput Params.transpose at *
      rcases hi with ⟨h0, h1, h2⟩ | ⟨h0, h1, h2, h3⟩
      · left; simp only [e, h1, h2, if_true]; exact ⟨h0, rfl, rfl⟩
      · right; simp only [e, h2, h3, if_true, Option.map_eq_none_iff]; exact ⟨h0, h1.symm, rfl, rfl⟩
    obtain ⟨rfl, rfl⟩ := initFlow_vel h' hi'
    rw [show p.transpose.deltaRCM = true from e]
    simp only [cond]
    rw [vComp_act _ _ hx, vComp_act _ _ hy]
    exact ⟨rfl, rfl⟩
  | false =>
    have hi' : FlowInput p.transpose isQ (negGrid (gact true phiT ey)) (negGrid (gact true phiT ex)) := by
      unfold FlowInput Params.transpose at *
      rcases hi with ⟨h0, h1, h2⟩ | ⟨h0, h1, h2, h3⟩
      · left; simp only [e, h1, h2, Bool.false_eq_true, if_false]; exact ⟨h0, rfl, rfl⟩
      · right; simp only [e, h2, h3, Bool.false_eq_true, if_false, Option.map_eq_none_iff]; exact ⟨h0, h1.symm, rfl, rfl⟩
    obtain ⟨rfl, rfl⟩ := initFlow_vel h' hi'
    rw [show p.transpose.deltaRCM = false from e]
    simp only [cond]
    rw [negGrid_negGrid, vComp_act _ _ hx, show negGrid (gact true phiT ey) = gact true phiT (negGrid ey) from rfl, vComp_act _ _ hneg]
    exact ⟨rfl, rfl⟩

end Dorado
