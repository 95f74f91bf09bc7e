import Verif.Spec.Build
import Verif.Lemmas.Init
import Verif.Lemmas.Local

/-! # Lemmas about the constructor with shared arrays -/

set_option linter.unusedSectionVars false
set_option linter.unusedSimpArgs false

namespace Dorado

variable {K : Type} [Field K] [LinearOrder K] {A : Arith K} {F : Fun K A}

@[simp] theorem ArrHeap.write_arr (h : ArrHeap K) (r : Nat) (g : Grid (Fl K)) (i : Nat) :
    (h.write r g).arr i = if i = r then g else h.arr i := rfl
@[simp] theorem ArrHeap.write_next (h : ArrHeap K) (r : Nat) (g : Grid (Fl K)) : (h.write r g).next = h.next := rfl
@[simp] theorem ArrHeap.write_strs (h : ArrHeap K) (r : Nat) (g : Grid (Fl K)) : (h.write r g).strs = h.strs := rfl
@[simp] theorem ArrHeap.alloc_arr (h : ArrHeap K) (g : Grid (Fl K)) (i : Nat) :
    (h.alloc g).1.arr i = if i = h.next then g else h.arr i := rfl
@[simp] theorem ArrHeap.alloc_next (h : ArrHeap K) (g : Grid (Fl K)) : (h.alloc g).1.next = h.next + 1 := rfl
@[simp] theorem ArrHeap.alloc_strs (h : ArrHeap K) (g : Grid (Fl K)) : (h.alloc g).1.strs = h.strs := rfl
@[simp] theorem ArrHeap.alloc_snd (h : ArrHeap K) (g : Grid (Fl K)) : (h.alloc g).2 = h.next := rfl

theorem nanTo0_idem (x : Fl K) : Fl.nanTo0 (Fl.nanTo0 x) = Fl.nanTo0 x := by cases x <;> rfl

@[simp] theorem nanZero_idem (g : Grid (Fl K)) : nanZeroGrid (nanZeroGrid g) = nanZeroGrid g := by
  unfold nanZeroGrid Grid.map; simp only [nanTo0_idem]

theorem clampSmall_idem (g : Grid (Fl K)) : clampSmall A (clampSmall A g) = clampSmall A g := by
  unfold clampSmall Grid.map
  congr 1; funext i j
  dsimp only
  split
  · split <;> rfl
  · rfl

theorem clampSmall_nanZero (g : Grid (Fl K)) : nanZeroGrid (clampSmall A (nanZeroGrid g)) = clampSmall A (nanZeroGrid g) := by
  unfold clampSmall nanZeroGrid Grid.map
  congr 1; funext i j
  dsimp only
  split
  · rfl
  · exact nanTo0_idem _

theorem stageNan_idem (s d : Grid (Fl K)) : stageNan (stageNan s d) d = stageNan s d := by
  unfold stageNan Grid.zip
  congr 1; funext i j
  dsimp only
  split <;> simp_all

/-- Which arrays the discharges and velocities of the object are. -/
def FlowRefs (h : ArrHeap K) (p : RParams K) (qx qy u v : Nat) : Prop :=
  (p.GivesQ ∧ p.base.deltaRCM = true ∧ p.qx = some qx ∧ p.qy = some qy ∧ h.next ≤ u ∧ h.next ≤ v) ∨
  (p.GivesQ ∧ p.base.deltaRCM = false ∧ h.next ≤ qx ∧ p.qx = some qy ∧ h.next ≤ u ∧ h.next ≤ v) ∨
  (¬p.GivesQ ∧ p.base.deltaRCM = true ∧ h.next ≤ qx ∧ h.next ≤ qy ∧ p.u = some u ∧ p.v = some v) ∨
  (¬p.GivesQ ∧ p.base.deltaRCM = false ∧ h.next ≤ qx ∧ h.next ≤ qy ∧ h.next ≤ u ∧ p.u = some v)

/-- The effect of the flow part of the constructor. -/
structure FlowPost (A : Arith K) (h : ArrHeap K) (p : RParams K) (d : Nat) (h' : ArrHeap K) (qx qy u v : Nat) : Prop where
  val : initFlow A (p.val h) (h.arr d) = .ok (h'.arr qx, h'.arr qy, h'.arr u, h'.arr v)
  strs : h'.strs = h.strs
  next : h.next ≤ h'.next
  refs : FlowRefs h p qx qy u v
  lt : qx < h'.next ∧ qy < h'.next ∧ u < h'.next ∧ v < h'.next
  sep : qx ≠ u ∧ qx ≠ v ∧ qy ≠ u ∧ qy ≠ v
  changes : ∀ r, r < h.next → h'.arr r = h.arr r ∨
    h'.arr r = nanZeroGrid (h.arr r) ∧ (p.GivesQ ∧ (r = qx ∨ r = qy) ∨ ¬p.GivesQ ∧ (r = u ∨ r = v))
  clean : ¬p.GivesQ → ∀ r, (r = u ∨ r = v) → r < h.next → h'.arr r = nanZeroGrid (h.arr r)

theorem mem_flowRefs {p : RParams K} {r : Nat} : r ∈ p.flowRefs ↔ p.qx = some r ∨ p.qy = some r ∨ p.u = some r ∨ p.v = some r := by
  unfold RParams.flowRefs; simp only [List.mem_append, Option.mem_toList, or_assoc]

theorem buildVel_ok {h h' : ArrHeap K} {q d w : Nat} (hqd : q ≠ d) (e : buildVel A h q d = .ok (h', w)) :
    h' = ((h.write q (nanZeroGrid (h.arr q))).alloc (velFromQ A (nanZeroGrid (h.arr q)) (h.arr d))).1 ∧ w = h.next ∧
    needShape (nanZeroGrid (h.arr q)) (h.arr d) = .ok () := by
  unfold buildVel at e
  simp only [bind_ok, pure_ok] at e
  obtain ⟨x, hx, e⟩ := e
  simp only [ArrHeap.write_arr, if_true, if_neg (Ne.symm hqd)] at e hx
  have := congrArg Prod.fst e
  have h2 := congrArg Prod.snd e
  exact ⟨this.symm, h2.symm, hx⟩

theorem buildQ_ok {h h' : ArrHeap K} {q d w : Nat} (hqd : q ≠ d) (e : buildQ A h q d = .ok (h', w)) :
    h' = ((h.write q (nanZeroGrid (h.arr q))).alloc (Grid.zip A.mul (nanZeroGrid (h.arr q)) (h.arr d))).1 ∧ w = h.next ∧
    needShape (nanZeroGrid (h.arr q)) (h.arr d) = .ok () := by
  unfold buildQ at e
  simp only [bind_ok, pure_ok] at e
  obtain ⟨x, hx, e⟩ := e
  simp only [ArrHeap.write_arr, if_true, if_neg (Ne.symm hqd)] at e hx
  have := congrArg Prod.fst e
  have h2 := congrArg Prod.snd e
  exact ⟨this.symm, h2.symm, hx⟩

theorem needShape_nanZero {g : Grid (Fl K)} {d : Grid (Fl K)} : needShape (nanZeroGrid g) d = needShape g d := rfl

theorem nanZero_neg (g : Grid (Fl K)) : nanZeroGrid (negGrid g) = negGrid (nanZeroGrid g) := by
  unfold nanZeroGrid negGrid Grid.map
  congr 1; funext i j
  dsimp only
  cases g.at' i j <;> simp [Fl.neg, Fl.nanTo0, Fl.isNan]

theorem buildFlow_ok {h h' : ArrHeap K} {p : RParams K} {d qx qy u v : Nat} (hd : d < h.next) (hfl : d ∉ p.flowRefs)
    (hu : ∀ r ∈ p.flowRefs, r < h.next) (e : buildFlow A h p d = .ok (h', qx, qy, u, v)) : FlowPost A h p d h' qx qy u v := by
  unfold RParams.flowRefs at hfl hu
  simp only [List.mem_append, Option.mem_toList, not_or] at hfl hu
  obtain ⟨⟨⟨hfqx, hfqy⟩, hfu⟩, hfv⟩ := hfl
  have key : ∀ {w : Nat} {x : Option Nat}, x = some w → ¬ x = some d → w ≠ d := by
    rintro w x rfl h rfl; exact h rfl
  have hnd : d ≠ h.next := by omega
  unfold buildFlow at e
  split at e
  · rename_i a b hm hqx hqy
    simp only [bind_ok, pure_ok, Prod.exists, Prod.mk.injEq] at e
    obtain ⟨h1, u', e1, h2, v', e2, rfl, rfl, rfl, rfl, rfl⟩ := e
    have ha := hu a (by tauto); have hb := hu b (by tauto)
    have had := key hqx hfqx; have hbd := key hqy hfqy
    obtain ⟨rfl, rfl, s1⟩ := buildVel_ok had e1
    obtain ⟨rfl, rfl, s2⟩ := buildVel_ok hbd e2
    have hna : a ≠ h.next := by omega
    have hnb : b ≠ h.next := by omega
    have hQ : p.GivesQ := ⟨by rw [hqx]; rfl, by rw [hqy]; rfl⟩
    have n1 : ∀ r, r < h.next → r ≠ h.next ∧ r ≠ h.next + 1 := fun r hr => ⟨by omega, by omega⟩
    refine ⟨?_, rfl, by simp; omega, Or.inl ⟨hQ, hm, hqx, hqy, le_rfl, by simp⟩, by simp; omega, by simp; omega, ?_, ?_⟩
    · simp only [ArrHeap.alloc_arr, ArrHeap.write_arr, ArrHeap.alloc_next, ArrHeap.write_next, if_neg hnb] at s1 s2 ⊢
      simp only [initFlow, RParams.val, hm, hqx, hqy, Option.map_some, flowFromQ]
      by_cases hab : b = a
      · subst hab
        simp [n1 _ ha, n1 _ hd, had.symm, needShape_nanZero] at s1 s2 ⊢
        simp [s1]
        try (intro hc; omega)
      · simp [n1 _ ha, n1 _ hb, n1 _ hd, had.symm, hbd.symm, needShape_nanZero, hab, Ne.symm hab] at s1 s2 ⊢
        simp [s1, s2]
        try (intro hc; omega)
    · intro r hr
      obtain ⟨m1, m2⟩ := n1 r hr
      simp only [ArrHeap.alloc_arr, ArrHeap.write_arr, ArrHeap.alloc_next, ArrHeap.write_next, if_neg m1, if_neg m2, if_neg hnb]
      by_cases h1 : r = a <;> by_cases h2 : r = b
      · subst h1; subst h2; right; simp [hQ, m1, m2]
      · subst h1; right; simp [h2, hQ, m1, m2]
      · subst h2; right; simp [h1, hQ, m1, m2]
      · left; simp [h1, h2, m1, m2]
    · exact fun h => absurd hQ h
  · rename_i a b hm hua hvb hno
    simp only [bind_ok, pure_ok, Prod.exists, Prod.mk.injEq] at e
    obtain ⟨h1, u', e1, h2, v', e2, rfl, rfl, rfl, rfl, rfl⟩ := e
    have ha := hu a (by tauto); have hb := hu b (by tauto)
    have had := key hua hfu; have hbd := key hvb hfv
    obtain ⟨rfl, rfl, s1⟩ := buildQ_ok had e1
    obtain ⟨rfl, rfl, s2⟩ := buildQ_ok hbd e2
    have hna : a ≠ h.next := by omega
    have hnb : b ≠ h.next := by omega
    have hQ : ¬p.GivesQ := by
      rintro ⟨g1, g2⟩
      obtain ⟨x, hx⟩ := Option.isSome_iff_exists.1 g1
      obtain ⟨y, hy⟩ := Option.isSome_iff_exists.1 g2
      exact hno x y hx hy
    have n1 : ∀ r, r < h.next → r ≠ h.next ∧ r ≠ h.next + 1 := fun r hr => ⟨by omega, by omega⟩
    refine ⟨?_, rfl, by simp; omega, Or.inr (Or.inr (Or.inl ⟨hQ, hm, le_rfl, by simp, hua, hvb⟩)), by simp; omega, by simp; omega, ?_, ?_⟩
    · simp only [ArrHeap.alloc_arr, ArrHeap.write_arr, ArrHeap.alloc_next, ArrHeap.write_next, if_neg hnb] at s1 s2 ⊢
      have hi : initFlow A (p.val h) (h.arr d) = flowFromU A (h.arr a) (h.arr b) (h.arr d) := by
        unfold initFlow
        simp only [RParams.val, hm, hua, hvb, Option.map_some]
        cases hx : p.qx <;> cases hy : p.qy <;> simp
        exact absurd ⟨by rw [hx]; rfl, by rw [hy]; rfl⟩ hQ
      rw [hi]
      unfold flowFromU
      by_cases hab : b = a
      · subst hab
        simp [n1 _ ha, n1 _ hd, had.symm, needShape_nanZero] at s1 s2 ⊢
        simp [s1]
        try (intro hc; omega)
      · simp [n1 _ ha, n1 _ hb, n1 _ hd, had.symm, hbd.symm, needShape_nanZero, hab, Ne.symm hab] at s1 s2 ⊢
        simp [s1, s2]
        try (intro hc; omega)
    · intro r hr
      obtain ⟨m1, m2⟩ := n1 r hr
      simp only [ArrHeap.alloc_arr, ArrHeap.write_arr, ArrHeap.alloc_next, ArrHeap.write_next, if_neg m1, if_neg m2, if_neg hnb]
      by_cases h1 : r = a <;> by_cases h2 : r = b
      · subst h1; subst h2; right; simp [hQ, m1, m2]
      · subst h1; right; simp [h2, hQ, m1, m2]
      · subst h2; right; simp [h1, hQ, m1, m2]
      · left; simp [h1, h2, m1, m2]
    · intro _ r hr hrn
      obtain ⟨m1, m2⟩ := n1 r hrn
      simp only [ArrHeap.alloc_arr, ArrHeap.write_arr, ArrHeap.alloc_next, ArrHeap.write_next, if_neg m1, if_neg m2, if_neg hnb]
      by_cases h1 : r = a <;> by_cases h2 : r = b
      · subst h1; subst h2; simp [m1, m2]
      · subst h1; simp [h2, m1, m2]
      · subst h2; simp [h1, m1, m2]
      · rcases hr with h | h <;> contradiction
  · rename_i a b hm hqx hqy
    simp only [bind_ok, pure_ok, Prod.exists, Prod.mk.injEq] at e
    obtain ⟨h1, u', e1, h2, v', e2, rfl, rfl, rfl, rfl, rfl⟩ := e
    have ha := hu a (by tauto); have hb := hu b (by tauto)
    have had := key hqx hfqx; have hbd := key hqy hfqy
    obtain ⟨rfl, rfl, s1⟩ := buildVel_ok (by simp; omega) e1
    obtain ⟨rfl, rfl, s2⟩ := buildVel_ok had e2
    have hQ : p.GivesQ := ⟨by rw [hqx]; rfl, by rw [hqy]; rfl⟩
    have n1 : ∀ r, r < h.next → r ≠ h.next ∧ r ≠ h.next + 1 ∧ r ≠ h.next + 1 + 1 := fun r hr => ⟨by omega, by omega, by omega⟩
    refine ⟨?_, rfl, by simp; omega, Or.inr (Or.inl ⟨hQ, hm, le_rfl, hqx, by simp, by simp; omega⟩), by simp; omega, by simp; omega, ?_, ?_⟩
    · simp only [ArrHeap.alloc_arr, ArrHeap.alloc_snd, ArrHeap.write_arr, ArrHeap.alloc_next, ArrHeap.write_next] at s1 s2 ⊢
      simp only [initFlow, RParams.val, hm, hqx, hqy, Option.map_some, flowFromQ]
      simp [n1 _ ha, n1 _ hd, had.symm, needShape_nanZero] at s1 s2 ⊢
      simp [s1, s2]
      exact ⟨by rw [if_neg (by omega), if_neg (by omega)], fun hc => absurd hc (by omega)⟩
    · intro r hr
      obtain ⟨m1, m2, m3⟩ := n1 r hr
      simp only [ArrHeap.alloc_arr, ArrHeap.alloc_snd, ArrHeap.write_arr, ArrHeap.alloc_next, ArrHeap.write_next, if_neg m1, if_neg m2, if_neg m3]
      by_cases h1 : r = a
      · subst h1; right; simp [hQ, m1, m2, m3]
      · left; simp [h1, m1, m2, m3]
    · exact fun h => absurd hQ h
  · rename_i a b hm hua hvb hno
    simp only [bind_ok, pure_ok, Prod.exists, Prod.mk.injEq] at e
    obtain ⟨h1, u', e1, h2, v', e2, rfl, rfl, rfl, rfl, rfl⟩ := e
    have ha := hu a (by tauto); have hb := hu b (by tauto)
    have had := key hua hfu; have hbd := key hvb hfv
    obtain ⟨rfl, rfl, s1⟩ := buildQ_ok (by simp; omega) e1
    obtain ⟨rfl, rfl, s2⟩ := buildQ_ok had e2
    have hQ : ¬p.GivesQ := by
      rintro ⟨g1, g2⟩
      obtain ⟨x, hx⟩ := Option.isSome_iff_exists.1 g1
      obtain ⟨y, hy⟩ := Option.isSome_iff_exists.1 g2
      exact hno x y hx hy
    have n1 : ∀ r, r < h.next → r ≠ h.next ∧ r ≠ h.next + 1 ∧ r ≠ h.next + 1 + 1 := fun r hr => ⟨by omega, by omega, by omega⟩
    refine ⟨?_, rfl, by simp; omega, Or.inr (Or.inr (Or.inr ⟨hQ, hm, by simp, by simp; omega, le_rfl, hua⟩)), by simp; omega, by simp; omega, ?_, ?_⟩
    · simp only [ArrHeap.alloc_arr, ArrHeap.alloc_snd, ArrHeap.write_arr, ArrHeap.alloc_next, ArrHeap.write_next] at s1 s2 ⊢
      have hi : initFlow A (p.val h) (h.arr d) = flowFromU A (negGrid (h.arr b)) (h.arr a) (h.arr d) := by
        unfold initFlow
        simp only [RParams.val, hm, hua, hvb, Option.map_some]
        cases hx : p.qx <;> cases hy : p.qy <;> simp
        exact absurd ⟨by rw [hx]; rfl, by rw [hy]; rfl⟩ hQ
      rw [hi]
      unfold flowFromU
      simp [n1 _ ha, n1 _ hd, had.symm, needShape_nanZero] at s1 s2 ⊢
      simp [s1, s2]
      exact ⟨fun hc => absurd hc (by omega), by rw [if_neg (by omega), if_neg (by omega)]⟩
    · intro r hr
      obtain ⟨m1, m2, m3⟩ := n1 r hr
      simp only [ArrHeap.alloc_arr, ArrHeap.alloc_snd, ArrHeap.write_arr, ArrHeap.alloc_next, ArrHeap.write_next, if_neg m1, if_neg m2, if_neg m3]
      by_cases h1 : r = a
      · subst h1; right; simp [hQ, m1, m2, m3]
      · left; simp [h1, m1, m2, m3]
    · intro _ r hr hrn
      obtain ⟨m1, m2, m3⟩ := n1 r hrn
      simp only [ArrHeap.alloc_arr, ArrHeap.alloc_snd, ArrHeap.write_arr, ArrHeap.alloc_next, ArrHeap.write_next, if_neg m1, if_neg m2, if_neg m3]
      rcases hr with h | h
      · exact absurd h m1
      · subst h; simp [m1, m2, m3]
  · cases e

theorem buildVel_exists {h : ArrHeap K} {q d : Nat} (hqd : q ≠ d) (e : needShape (h.arr q) (h.arr d) = .ok ()) :
    ∃ r, buildVel A h q d = .ok r := by
  unfold buildVel
  simp only [ArrHeap.write_arr, if_true, if_neg (Ne.symm hqd), needShape_nanZero, e]
  exact ⟨_, rfl⟩

theorem buildQ_exists {h : ArrHeap K} {q d : Nat} (hqd : q ≠ d) (e : needShape (h.arr q) (h.arr d) = .ok ()) :
    ∃ r, buildQ A h q d = .ok r := by
  unfold buildQ
  simp only [ArrHeap.write_arr, if_true, if_neg (Ne.symm hqd), needShape_nanZero, e]
  exact ⟨_, rfl⟩

theorem flowFromQ_shape {a b d : Grid (Fl K)} {f} (e : flowFromQ A a b d = .ok f) :
    needShape a d = .ok () ∧ needShape b d = .ok () := by
  unfold flowFromQ at e
  simp only [bind_ok] at e
  obtain ⟨x, hx, y, hy, _⟩ := e
  exact ⟨hx, hy⟩

theorem flowFromU_shape {a b d : Grid (Fl K)} {f} (e : flowFromU A a b d = .ok f) :
    needShape a d = .ok () ∧ needShape b d = .ok () := by
  unfold flowFromU at e
  simp only [bind_ok] at e
  obtain ⟨x, hx, y, hy, _⟩ := e
  exact ⟨hx, hy⟩

theorem buildFlow_exists {h : ArrHeap K} {p : RParams K} {d : Nat} {f} (hd : d < h.next) (hfl : d ∉ p.flowRefs)
    (hu : ∀ r ∈ p.flowRefs, r < h.next) (e : initFlow A (p.val h) (h.arr d) = .ok f) : ∃ r, buildFlow A h p d = .ok r := by
  unfold RParams.flowRefs at hfl hu
  simp only [List.mem_append, Option.mem_toList, not_or] at hfl hu
  obtain ⟨⟨⟨hfqx, hfqy⟩, hfu⟩, hfv⟩ := hfl
  have key : ∀ {w : Nat} {x : Option Nat}, x = some w → ¬ x = some d → w ≠ d := by
    rintro w x rfl h rfl; exact h rfl
  have hnd : d ≠ h.next := by omega
  have shape : ∀ {g : Grid (Fl K)} {a b : Nat}, needShape (h.arr b) g = .ok () →
      needShape (if b = a then nanZeroGrid (h.arr a) else h.arr b) g = .ok () := by
    intro g a b h
    split
    · rename_i e; subst e; rw [needShape_nanZero]; exact h
    · exact h
  have cQ1 : ∀ a b : Nat, a ≠ d → b ≠ d → b < h.next → needShape (h.arr a) (h.arr d) = .ok () → needShape (h.arr b) (h.arr d) = .ok () →
      ∃ r, (do let (h, u) ← buildVel A h a d
               let (h, v) ← buildVel A h b d
               return (h, a, b, u, v)) = .ok r := by
    intro a b had hbd hb sa sb
    have hnb : b ≠ h.next := by omega
    obtain ⟨⟨h1, w⟩, e1⟩ := buildVel_exists (A := A) had sa
    obtain ⟨rfl, rfl, -⟩ := buildVel_ok had e1
    obtain ⟨⟨h2, w2⟩, e2⟩ := buildVel_exists (A := A) (h := ((h.write a (nanZeroGrid (h.arr a))).alloc (velFromQ A (nanZeroGrid (h.arr a)) (h.arr d))).1) hbd (by
      rw [ArrHeap.alloc_arr, ArrHeap.alloc_arr, if_neg (show b ≠ (h.write a (nanZeroGrid (h.arr a))).next from hnb),
        if_neg (show d ≠ (h.write a (nanZeroGrid (h.arr a))).next from hnd), ArrHeap.write_arr, ArrHeap.write_arr, if_neg had.symm]
      exact shape sb)
    exact ⟨(h2, a, b, h.next, w2), by rw [e1, ok_bind]; simp only []; rw [e2]; rfl⟩
  have cU1 : ∀ a b : Nat, a ≠ d → b ≠ d → b < h.next → needShape (h.arr a) (h.arr d) = .ok () → needShape (h.arr b) (h.arr d) = .ok () →
      ∃ r, (do let (h, qx) ← buildQ A h a d
               let (h, qy) ← buildQ A h b d
               return (h, qx, qy, a, b)) = .ok r := by
    intro a b had hbd hb sa sb
    have hnb : b ≠ h.next := by omega
    obtain ⟨⟨h1, w⟩, e1⟩ := buildQ_exists (A := A) had sa
    obtain ⟨rfl, rfl, -⟩ := buildQ_ok had e1
    obtain ⟨⟨h2, w2⟩, e2⟩ := buildQ_exists (A := A) (h := ((h.write a (nanZeroGrid (h.arr a))).alloc (Grid.zip A.mul (nanZeroGrid (h.arr a)) (h.arr d))).1) hbd (by
      rw [ArrHeap.alloc_arr, ArrHeap.alloc_arr, if_neg (show b ≠ (h.write a (nanZeroGrid (h.arr a))).next from hnb),
        if_neg (show d ≠ (h.write a (nanZeroGrid (h.arr a))).next from hnd), ArrHeap.write_arr, ArrHeap.write_arr, if_neg had.symm]
      exact shape sb)
    exact ⟨(h2, h.next, w2, a, b), by rw [e1, ok_bind]; simp only []; rw [e2]; rfl⟩
  have cQ2 : ∀ a b : Nat, a ≠ d → a < h.next → needShape (negGrid (h.arr b)) (h.arr d) = .ok () → needShape (h.arr a) (h.arr d) = .ok () →
      ∃ r, (do let (h, qx) := h.alloc (negGrid (h.arr b))
               let (h, u) ← buildVel A h qx d
               let (h, v) ← buildVel A h a d
               return (h, qx, a, u, v)) = .ok r := by
    intro a b had ha sb sa
    obtain ⟨⟨h1, w⟩, e1⟩ := buildVel_exists (A := A) (h := (h.alloc (negGrid (h.arr b))).1) (q := h.next) (d := d) (by omega) (by
      simp only [ArrHeap.alloc_arr, if_true, if_neg hnd]; exact sb)
    obtain ⟨rfl, rfl, -⟩ := buildVel_ok (by omega) e1
    obtain ⟨⟨h2, w2⟩, e2⟩ := buildVel_exists (A := A) (h := (((h.alloc (negGrid (h.arr b))).1.write h.next
        (nanZeroGrid ((h.alloc (negGrid (h.arr b))).1.arr h.next))).alloc
          (velFromQ A (nanZeroGrid ((h.alloc (negGrid (h.arr b))).1.arr h.next)) ((h.alloc (negGrid (h.arr b))).1.arr d))).1) had (by
      simp only [ArrHeap.alloc_arr, ArrHeap.alloc_next, ArrHeap.write_arr, ArrHeap.write_next, if_neg hnd, if_neg had.symm,
        if_neg (show a ≠ h.next by omega), if_neg (show a ≠ h.next + 1 by omega), if_neg (show d ≠ h.next + 1 by omega)]
      exact sa)
    exact ⟨(h2, h.next, a, _, w2), by dsimp only [ArrHeap.alloc_snd]; rw [e1, ok_bind]; simp only []; rw [e2]; rfl⟩
  have cU2 : ∀ a b : Nat, a ≠ d → a < h.next → needShape (negGrid (h.arr b)) (h.arr d) = .ok () → needShape (h.arr a) (h.arr d) = .ok () →
      ∃ r, (do let (h, u) := h.alloc (negGrid (h.arr b))
               let (h, qx) ← buildQ A h u d
               let (h, qy) ← buildQ A h a d
               return (h, qx, qy, u, a)) = .ok r := by
    intro a b had ha sb sa
    obtain ⟨⟨h1, w⟩, e1⟩ := buildQ_exists (A := A) (h := (h.alloc (negGrid (h.arr b))).1) (q := h.next) (d := d) (by omega) (by
      simp only [ArrHeap.alloc_arr, if_true, if_neg hnd]; exact sb)
    obtain ⟨rfl, rfl, -⟩ := buildQ_ok (by omega) e1
    obtain ⟨⟨h2, w2⟩, e2⟩ := buildQ_exists (A := A) (h := (((h.alloc (negGrid (h.arr b))).1.write h.next
        (nanZeroGrid ((h.alloc (negGrid (h.arr b))).1.arr h.next))).alloc
          (Grid.zip A.mul (nanZeroGrid ((h.alloc (negGrid (h.arr b))).1.arr h.next)) ((h.alloc (negGrid (h.arr b))).1.arr d))).1) had (by
      simp only [ArrHeap.alloc_arr, ArrHeap.alloc_next, ArrHeap.write_arr, ArrHeap.write_next, if_neg hnd, if_neg had.symm,
        if_neg (show a ≠ h.next by omega), if_neg (show a ≠ h.next + 1 by omega), if_neg (show d ≠ h.next + 1 by omega)]
      exact sa)
    exact ⟨(h2, _, w2, h.next, a), by dsimp only [ArrHeap.alloc_snd]; rw [e1, ok_bind]; simp only []; rw [e2]; rfl⟩
  unfold buildFlow
  unfold initFlow at e
  simp only [RParams.val] at e
  have uv : ∀ {m : Bool}, p.base.deltaRCM = m → (∀ a b, p.qx = some a → p.qy = some b → False) → ∃ a b, p.u = some a ∧ p.v = some b ∧
      (match m with
       | true => flowFromU A (h.arr a) (h.arr b) (h.arr d) = .ok f
       | false => flowFromU A (negGrid (h.arr b)) (h.arr a) (h.arr d) = .ok f) := by
    intro m hm hno
    cases hua : p.u with
    | none => cases hqx : p.qx <;> cases hqy : p.qy <;> cases m <;> simp_all
    | some a =>
      cases hvb : p.v with
      | none => cases hqx : p.qx <;> cases hqy : p.qy <;> cases m <;> simp_all
      | some b =>
        refine ⟨a, b, rfl, rfl, ?_⟩
        cases hqx : p.qx <;> cases hqy : p.qy <;> cases m <;> simp_all
  split
  · rename_i a b hm hqx hqy
    simp only [hm, hqx, hqy, Option.map_some] at e
    exact cQ1 a b (key hqx hfqx) (key hqy hfqy) (hu _ (by tauto)) (flowFromQ_shape e).1 (flowFromQ_shape e).2
  · rename_i a b hm hua hvb hno
    obtain ⟨a', b', e1, e2, e3⟩ := uv hm hno
    obtain rfl : a = a' := by rw [hua] at e1; injection e1
    obtain rfl : b = b' := by rw [hvb] at e2; injection e2
    exact cU1 a b (key hua hfu) (key hvb hfv) (hu _ (by tauto)) (flowFromU_shape e3).1 (flowFromU_shape e3).2
  · rename_i a b hm hqx hqy
    simp only [hm, hqx, hqy, Option.map_some] at e
    exact cQ2 a b (key hqx hfqx) (hu _ (by tauto)) (flowFromQ_shape e).1 (flowFromQ_shape e).2
  · rename_i a b hm hua hvb hno
    obtain ⟨a', b', e1, e2, e3⟩ := uv hm hno
    obtain rfl : a = a' := by rw [hua] at e1; injection e1
    obtain rfl : b = b' := by rw [hvb] at e2; injection e2
    exact cU2 a b (key hua hfu) (hu _ (by tauto)) (flowFromU_shape e3).1 (flowFromU_shape e3).2
  · rename_i n1 n2 n3 n4
    exfalso
    cases hm : p.base.deltaRCM
    · by_cases hno : ∀ a b, p.qx = some a → p.qy = some b → False
      · obtain ⟨a, b, e1, e2, -⟩ := uv hm hno
        exact n4 _ _ hm e1 e2
      · push Not at hno
        obtain ⟨a, b, e1, e2, -⟩ := hno
        exact n2 _ _ hm e1 e2
    · by_cases hno : ∀ a b, p.qx = some a → p.qy = some b → False
      · obtain ⟨a, b, e1, e2, -⟩ := uv hm hno
        exact n3 _ _ hm e1 e2
      · push Not at hno
        obtain ⟨a, b, e1, e2, -⟩ := hno
        exact n1 _ _ hm e1 e2

theorem buildDepth_ok {h h1 : ArrHeap K} {p : RParams K} {d : Nat} (e : buildDepth A h p = .ok (h1, d)) :
    initDepth A (p.val h) = .ok (h1.arr d) ∧ h1.strs = h.strs ∧
    ((p.depth = some d ∧ h1 = h.write d (nanZeroGrid (h.arr d))) ∨
      (p.depth = none ∧ p.stage.isSome ∧ d = h.next ∧ h1 = (h.alloc (h1.arr d)).1)) := by
  unfold buildDepth at e
  unfold initDepth
  split at e
  · rename_i d' hd'
    injection e with e
    injection e with e1 e2
    subst e2; subst e1
    refine ⟨?_, rfl, Or.inl ⟨hd', rfl⟩⟩
    simp only [RParams.val, hd', Option.map_some, ArrHeap.write_arr, if_true]
  · rename_i s t hd hs ht
    simp only [bind_ok, pure_ok] at e
    obtain ⟨x, hx, e⟩ := e
    have e1 := congrArg Prod.fst e
    have e2 := congrArg Prod.snd e
    dsimp only at e1 e2
    subst e2; subst e1
    refine ⟨?_, rfl, Or.inr ⟨hd, by rw [hs]; rfl, rfl, by simp⟩⟩
    simp only [RParams.val, hd, hs, ht, Option.map_some, Option.map_none, ArrHeap.alloc_arr, ArrHeap.alloc_snd, if_true]
    rw [hx]; rfl
  · cases e

theorem buildDepth_exists {h : ArrHeap K} {p : RParams K} {g} (e : initDepth A (p.val h) = .ok g) : ∃ r, buildDepth A h p = .ok r := by
  unfold buildDepth
  unfold initDepth at e
  cases hd : p.depth with
  | some d => exact ⟨_, rfl⟩
  | none =>
    cases hs : p.stage with
    | none => simp [RParams.val, hd, hs] at e
    | some s =>
      cases ht : p.topography with
      | none => simp [RParams.val, hd, hs, ht] at e
      | some t =>
        simp only [RParams.val, hd, hs, ht, Option.map_some, Option.map_none, bind_ok] at e ⊢
        obtain ⟨x, hx, -⟩ := e
        exact ⟨_, _, hx, rfl⟩

theorem buildStage_ok {h h1 : ArrHeap K} {p : RParams K} {d s : Nat} (hd : ∀ x, p.depth = some x → x = d)
    (e : buildStage A h p d = .ok (h1, s)) :
    initStage A (p.val h) (h.arr d) = .ok (h1.arr s) ∧ h1.strs = h.strs ∧
    ((p.stage = some s ∧ h1 = h.write s (stageNan (h.arr s) (h.arr d))) ∨
      (p.stage = none ∧ p.depth.isSome ∧ s = h.next ∧ h1 = (h.alloc (h1.arr s)).1)) := by
  unfold buildStage at e
  unfold initStage
  split at e
  · rename_i s' hs'
    simp only [bind_ok, pure_ok] at e
    obtain ⟨x, hx, e⟩ := e
    injection e with e1 e2
    subst e2; subst e1
    refine ⟨?_, rfl, Or.inl ⟨hs', rfl⟩⟩
    simp only [RParams.val, hs', Option.map_some, ArrHeap.write_arr, if_true]
    rw [hx]; rfl
  · rename_i t pd hs ht hpd
    simp only [bind_ok, pure_ok] at e
    obtain ⟨x, hx, e⟩ := e
    have e1 := congrArg Prod.fst e
    have e2 := congrArg Prod.snd e
    dsimp only at e1 e2
    obtain rfl := hd _ hpd
    subst e2; subst e1
    refine ⟨?_, rfl, Or.inr ⟨hs, by rw [hpd]; rfl, rfl, by simp⟩⟩
    simp only [RParams.val, hpd, hs, ht, Option.map_some, Option.map_none, ArrHeap.alloc_arr, ArrHeap.alloc_snd, if_true]
    rw [hx]; rfl
  · cases e

theorem buildStage_exists {h : ArrHeap K} {p : RParams K} {d : Nat} (hd : ∀ x, p.depth = some x → x = d) {g}
    (e : initStage A (p.val h) (h.arr d) = .ok g) : ∃ r, buildStage A h p d = .ok r := by
  unfold buildStage
  unfold initStage at e
  cases hs : p.stage with
  | some s =>
    simp only [RParams.val, hs, Option.map_some, bind_ok] at e ⊢
    obtain ⟨x, hx, -⟩ := e
    exact ⟨_, _, hx, rfl⟩
  | none =>
    cases ht : p.topography with
    | none => simp [RParams.val, hs, ht] at e
    | some t =>
      cases hpd : p.depth with
      | none => simp [RParams.val, hs, ht, hpd] at e
      | some pd =>
        obtain rfl := hd _ hpd
        simp only [RParams.val, hpd, hs, ht, Option.map_some, Option.map_none, bind_ok] at e ⊢
        obtain ⟨x, hx, -⟩ := e
        exact ⟨_, _, hx, rfl⟩

theorem initFlow_congr {p p' : Params K} (h1 : p'.deltaRCM = p.deltaRCM) (h2 : p'.qx = p.qx) (h3 : p'.qy = p.qy) (h4 : p'.u = p.u)
    (h5 : p'.v = p.v) (d : Grid (Fl K)) : initFlow A p' d = initFlow A p d := by
  unfold initFlow; rw [h1, h2, h3, h4, h5]

theorem initStage_congr {p p' : Params K} (h1 : p'.stage = p.stage) (h2 : p'.topography = p.topography) (h3 : p'.depth.isSome = p.depth.isSome)
    (d : Grid (Fl K)) : initStage A p' d = initStage A p d := by
  unfold initStage; rw [h1, h2]
  cases e : p.depth <;> cases e' : p'.depth <;> simp [e, e'] at h3
  all_goals cases p.stage <;> cases p.topography <;> rfl

@[simp] theorem buildVars_arr (h : ArrHeap K) (p : RParams K) : (buildVars h p).arr = h.arr := by
  unfold buildVars; split <;> rfl

@[simp] theorem buildVars_next (h : ArrHeap K) (p : RParams K) : (buildVars h p).next = h.next := by
  unfold buildVars; split <;> rfl

theorem buildVars_strs (h : ArrHeap K) (p : RParams K) (r : Nat) :
    (buildVars h p).strs r = if p.vars = some r then initVars { p.base with particleVars := some (h.strs r) } else h.strs r := by
  unfold buildVars
  split
  · rename_i q hq
    rw [hq]
    by_cases hr : r = q
    · subst hr; simp
    · simp [hr, Ne.symm hr]
  · rename_i hq; simp [hq]

theorem map_congr_refs {h h' : ArrHeap K} {o : Option Nat} (hr : ∀ r, o = some r → h'.arr r = h.arr r) : o.map h'.arr = o.map h.arr := by
  cases o with
  | none => rfl
  | some r => simp [hr r rfl]

theorem FlowRefs.mono {h h' : ArrHeap K} {p : RParams K} {a b c d : Nat} (hn : h.next ≤ h'.next) (hf : FlowRefs h' p a b c d) :
    FlowRefs h p a b c d := by
  unfold FlowRefs at *
  rcases hf with ⟨h1, h2, h3, h4, h5, h6⟩ | ⟨h1, h2, h3, h4, h5, h6⟩ | ⟨h1, h2, h3, h4, h5, h6⟩ | ⟨h1, h2, h3, h4, h5, h6⟩
  · exact Or.inl ⟨h1, h2, h3, h4, hn.trans h5, hn.trans h6⟩
  · exact Or.inr (Or.inl ⟨h1, h2, hn.trans h3, h4, hn.trans h5, hn.trans h6⟩)
  · exact Or.inr (Or.inr (Or.inl ⟨h1, h2, hn.trans h3, hn.trans h4, h5, h6⟩))
  · exact Or.inr (Or.inr (Or.inr ⟨h1, h2, hn.trans h3, hn.trans h4, hn.trans h5, h6⟩))

/-- How the memory after the constructor differs, for an array in use before. -/
def Changed (A : Arith K) (h h' : ArrHeap K) (p : RParams K) (depth : Grid (Fl K)) (r : Nat) : Prop :=
  (p.depth = some r ∧ h'.arr r = nanZeroGrid (h.arr r)) ∨
  (p.stage = some r ∧ h'.arr r = stageNan (h.arr r) depth) ∨
  (p.GivesQ ∧ (p.qx = some r ∨ p.base.deltaRCM = true ∧ p.qy = some r) ∧ h'.arr r = nanZeroGrid (h.arr r)) ∨
  (¬p.GivesQ ∧ (p.u = some r ∨ p.base.deltaRCM = true ∧ p.v = some r) ∧ h'.arr r = clampSmall A (nanZeroGrid (h.arr r)))

/-- Everything about a successful construction. -/
structure BuildPost (A : Arith K) (F : Fun K A) (h : ArrHeap K) (p : RParams K) (h' : ArrHeap K) (p' : RParams K) (o : RObj K) : Prop where
  init : initParticles A F (p.val h) = .ok (o.val h')
  params : p' = buildParams p
  next : h.next ≤ h'.next
  depthRef : p.depth = some o.depth ∨ p.depth = none ∧ h.next ≤ o.depth
  stageRef : p.stage = some o.stage ∨ p.stage = none ∧ h.next ≤ o.stage
  flow : FlowRefs h p o.qx o.qy o.u o.v
  lt : o.depth < h'.next ∧ o.stage < h'.next ∧ o.qx < h'.next ∧ o.qy < h'.next ∧ o.u < h'.next ∧ o.v < h'.next
  changes : ∀ r, r < h.next → h'.arr r = h.arr r ∨ Changed A h h' p (h'.arr o.depth) r
  strs : ∀ r, h'.strs r = if p.vars = some r then initVars { p.base with particleVars := some (h.strs r) } else h.strs r

theorem Apart.facts {h : ArrHeap K} {p : RParams K} (ha : Apart h p) :
    (∀ d, p.depth = some d → d < h.next ∧ p.stage ≠ some d ∧ p.topography ≠ some d ∧ d ∉ p.flowRefs) ∧
    (∀ s, p.stage = some s → s < h.next ∧ p.topography ≠ some s ∧ s ∉ p.flowRefs) ∧
    (∀ t, p.topography = some t → t < h.next ∧ t ∉ p.flowRefs) ∧ (∀ r ∈ p.flowRefs, r < h.next) := by
  obtain ⟨hu, hn, hf⟩ := ha
  unfold RParams.refs at hu
  rw [List.nodup_append, List.nodup_append] at hn
  simp only [List.mem_append, Option.mem_toList] at hu hf hn
  refine ⟨fun d hd => ⟨hu _ (by tauto), ?_, ?_, hf _ (by tauto)⟩, fun d hd => ⟨hu _ (by tauto), ?_, hf _ (by tauto)⟩,
    fun t ht => ⟨hu _ (by tauto), hf _ (by tauto)⟩, fun r hr => hu _ (by tauto)⟩
  · intro hs; exact hn.1.2.2 d hd d hs rfl
  · intro hs; exact hn.2.2 d (Or.inl hd) d hs rfl
  · intro hs; exact hn.2.2 d (Or.inr hd) d hs rfl

/-- After the depth has been set up. -/
structure PreDepth (A : Arith K) (h h1 : ArrHeap K) (p : RParams K) (d : Nat) : Prop where
  dd : ∀ x, p.depth = some x → x = d
  n1 : h.next ≤ h1.next
  d1 : d < h1.next
  a1 : ∀ r, r < h.next → r ≠ d → h1.arr r = h.arr r
  dflow : d ∉ p.flowRefs
  stage : initStage A (p.val h1) (h1.arr d) = initStage A (p.val h) (h1.arr d)

/-- After depth and stage have been set up. -/
structure PreStage (A : Arith K) (h h1 h2 : ArrHeap K) (p : RParams K) (d s : Nat) : Prop where
  n2 : h1.next ≤ h2.next
  s2 : s < h2.next
  a2 : ∀ r, r < h1.next → r ≠ s → h2.arr r = h1.arr r
  sflow : s ∉ p.flowRefs
  hsd : s ≠ d
  dD : h2.arr d = h1.arr d
  flow : ∀ g, initFlow A (p.val h2) g = initFlow A (p.val h) g

theorem pre_depth {h h1 : ArrHeap K} {p : RParams K} {d : Nat} (ha : Apart h p) (e1 : buildDepth A h p = .ok (h1, d)) :
    PreDepth A h h1 p d := by
  obtain ⟨fd, fs, ft, ff⟩ := ha.facts
  obtain ⟨v1, st1, c1⟩ := buildDepth_ok e1
  have hdd : ∀ x, p.depth = some x → x = d := by
    intro x hx
    rcases c1 with ⟨c, -⟩ | ⟨c, -⟩
    · rw [c] at hx; injection hx with hx; exact hx.symm
    · rw [c] at hx; cases hx
  have n1 : h.next ≤ h1.next := by
    rcases c1 with ⟨-, c⟩ | ⟨-, -, -, c⟩ <;> rw [c] <;> simp
  have d1 : d < h1.next := by
    rcases c1 with ⟨c, c'⟩ | ⟨-, -, c, c'⟩
    · rw [c']; exact (fd d c).1
    · rw [c', c]; simp
  have a1 : ∀ r, r < h.next → r ≠ d → h1.arr r = h.arr r := by
    intro r hr hrd
    rcases c1 with ⟨-, c⟩ | ⟨-, -, -, c⟩
    · rw [c]; simp [hrd]
    · rw [c]; simp [show r ≠ h.next by omega]
  have dflow : d ∉ p.flowRefs := by
    rcases c1 with ⟨c, -⟩ | ⟨-, -, c, -⟩
    · exact (fd d c).2.2.2
    · intro hm; have := ff d hm; omega
  have tdep : ∀ t, p.topography = some t → t ≠ d := by
    intro t ht hc
    subst hc
    rcases c1 with ⟨c', -⟩ | ⟨-, -, c', -⟩
    · exact (fd t c').2.2.1 ht
    · have := (ft t ht).1; omega
  refine ⟨hdd, n1, d1, a1, dflow, ?_⟩
  refine initStage_congr (A := A) (p := p.val h) (p' := p.val h1) ?_ ?_ ?_ _
  · refine map_congr_refs fun r hr => a1 r (fs r hr).1 fun hc => ?_
    subst hc
    rcases c1 with ⟨c', -⟩ | ⟨-, -, c', -⟩
    · exact (fd r c').2.1 hr
    · have := (fs r hr).1; omega
  · exact map_congr_refs fun r hr => a1 r (ft r hr).1 (tdep r hr)
  · simp only [RParams.val]; cases p.depth <;> rfl

theorem pre_stage {h h1 h2 : ArrHeap K} {p : RParams K} {d s : Nat} (ha : Apart h p) (e1 : buildDepth A h p = .ok (h1, d))
    (e2 : buildStage A h1 p d = .ok (h2, s)) : PreStage A h h1 h2 p d s := by
  obtain ⟨fd, fs, ft, ff⟩ := ha.facts
  obtain ⟨v1, st1, c1⟩ := buildDepth_ok e1
  obtain ⟨hdd, n1, d1, a1, dflow, -⟩ := pre_depth ha e1
  obtain ⟨v2, st2, c2⟩ := buildStage_ok hdd e2
  have n2 : h1.next ≤ h2.next := by
    rcases c2 with ⟨-, c⟩ | ⟨-, -, -, c⟩ <;> rw [c] <;> simp
  have s2 : s < h2.next := by
    rcases c2 with ⟨c, c'⟩ | ⟨-, -, c, c'⟩
    · have := (fs s c).1; omega
    · rw [c', c]; simp
  have a2 : ∀ r, r < h1.next → r ≠ s → h2.arr r = h1.arr r := by
    intro r hr hrs
    rcases c2 with ⟨-, c⟩ | ⟨-, -, -, c⟩
    · rw [c]; simp [hrs]
    · rw [c]; simp [show r ≠ h1.next by omega]
  have sflow : s ∉ p.flowRefs := by
    rcases c2 with ⟨c, -⟩ | ⟨-, -, c, -⟩
    · exact (fs s c).2.2
    · intro hm; have := ff s hm; omega
  have hsd : s ≠ d := by
    rcases c2 with ⟨c, -⟩ | ⟨-, -, c, -⟩
    · rcases c1 with ⟨c', -⟩ | ⟨-, -, c', -⟩
      · intro h; subst h; exact (fd s c').2.1 c
      · have := (fs s c).1; omega
    · omega
  have dD : h2.arr d = h1.arr d := a2 d d1 (Ne.symm hsd)
  have fl2 : ∀ r ∈ p.flowRefs, h2.arr r = h.arr r := by
    intro r hr
    have := ff r hr
    rw [a2 r (by omega) (fun h => sflow (h ▸ hr)), a1 r this (fun h => dflow (h ▸ hr))]
  refine ⟨n2, s2, a2, sflow, hsd, dD, fun g => ?_⟩
  refine initFlow_congr (A := A) (p := p.val h) (p' := p.val h2) rfl ?_ ?_ ?_ ?_ _ <;> refine map_congr_refs (fun r hr => fl2 r (mem_flowRefs.2 ?_)) <;> tauto

/-- The flow part leaves depth and stage alone. -/
theorem flow_keeps {h2 h3 : ArrHeap K} {p : RParams K} {d s qx qy u v : Nat} (hd : d < h2.next) (hs : s < h2.next)
    (dflow : d ∉ p.flowRefs) (sflow : s ∉ p.flowRefs) (P : FlowPost A h2 p d h3 qx qy u v) :
    (u ≠ d ∧ v ≠ d ∧ u ≠ s ∧ v ≠ s) ∧ ∀ r, r = d ∨ r = s → h3.arr r = h2.arr r := by
  have huvd : u ≠ d ∧ v ≠ d ∧ u ≠ s ∧ v ≠ s := by
    have hR := P.refs
    have mem : ∀ r, (p.u = some r ∨ p.v = some r) → r ∈ p.flowRefs := by
      intro r hr; exact mem_flowRefs.2 (Or.inr (Or.inr hr))
    rcases hR with ⟨-, -, -, -, x, y⟩ | ⟨-, -, -, -, x, y⟩ | ⟨-, -, -, -, x, y⟩ | ⟨-, -, -, -, x, y⟩
    · omega
    · omega
    · exact ⟨fun h => dflow (h ▸ mem _ (Or.inl x)), fun h => dflow (h ▸ mem _ (Or.inr y)),
        fun h => sflow (h ▸ mem _ (Or.inl x)), fun h => sflow (h ▸ mem _ (Or.inr y))⟩
    · exact ⟨by omega, fun h => dflow (h ▸ mem _ (Or.inl y)), by omega, fun h => sflow (h ▸ mem _ (Or.inl y))⟩
  have hqd : ∀ r, r = d ∨ r = s → h3.arr r = h2.arr r := by
    intro r hr
    have hrn : r < h2.next := by rcases hr with rfl | rfl <;> omega
    have hrf : r ∉ p.flowRefs := by rcases hr with rfl | rfl <;> assumption
    have mem : ∀ r, (p.qx = some r ∨ p.qy = some r ∨ p.u = some r ∨ p.v = some r) → r ∈ p.flowRefs := by
      intro r hr; exact mem_flowRefs.2 hr
    rcases P.changes r hrn with h | ⟨-, h⟩
    · exact h
    · exfalso
      rcases P.refs with ⟨g, -, a, b, x, y⟩ | ⟨g, -, a, b, x, y⟩ | ⟨g, -, a, b, x, y⟩ | ⟨g, -, a, b, x, y⟩
      · rcases h with ⟨-, rfl | rfl⟩ | ⟨g', -⟩
        · exact hrf (mem _ (by tauto))
        · exact hrf (mem _ (by tauto))
        · exact g' g
      · rcases h with ⟨-, rfl | rfl⟩ | ⟨g', -⟩
        · omega
        · exact hrf (mem _ (by tauto))
        · exact g' g
      · rcases h with ⟨g', -⟩ | ⟨-, rfl | rfl⟩
        · exact g g'
        · exact hrf (mem _ (by tauto))
        · exact hrf (mem _ (by tauto))
      · rcases h with ⟨g', -⟩ | ⟨-, rfl | rfl⟩
        · exact g g'
        · omega
        · exact hrf (mem _ (by tauto))
  exact ⟨huvd, hqd⟩

set_option maxHeartbeats 1000000 in
theorem build_ok {h h' : ArrHeap K} {p p' : RParams K} {o : RObj K} (ha : Apart h p)
    (e : buildParticles A F h p = .ok (h', p', o)) : BuildPost A F h p h' p' o := by
  obtain ⟨fd, fs, ft, ff⟩ := ha.facts
  unfold buildParticles at e
  simp only [bind_ok, pure_ok, Prod.exists, Prod.mk.injEq] at e
  obtain ⟨dx, hdx, h1, d, e1, h2, s, e2, h3, qx, qy, u, v, e3, _, hroi, ct, hct, rfl, rfl, rfl⟩ := e
  obtain ⟨v1, st1, c1⟩ := buildDepth_ok e1
  obtain ⟨hdd, n1, d1, a1, dflow, hst⟩ := pre_depth ha e1
  obtain ⟨v2, st2, c2⟩ := buildStage_ok hdd e2
  obtain ⟨n2, s2, a2, sflow, hsd, dD, hfl⟩ := pre_stage ha e1 e2
  have P := buildFlow_ok (A := A) (by omega) dflow (fun r hr => by have := ff r hr; omega) e3
  have hval : initFlow A (p.val h) (h1.arr d) = .ok (h3.arr qx, h3.arr qy, h3.arr u, h3.arr v) := by
    rw [← dD, ← P.val, hfl]
  obtain ⟨huvd, hqd⟩ := flow_keeps (by omega) s2 dflow sflow P
  have hstage : initStage A (p.val h) (h1.arr d) = .ok (h2.arr s) := by rw [← v2, hst]
  generalize hw : ((h3.write u (clampSmall A (h3.arr u))).write v (clampSmall A ((h3.write u (clampSmall A (h3.arr u))).arr v))) = h5 at hct hroi ⊢
  have wu : h5.arr u = clampSmall A (h3.arr u) := by
    rw [← hw]; simp only [ArrHeap.write_arr, if_true]
    by_cases huv : u = v
    · subst huv; simp [clampSmall_idem]
    · simp [huv]
  have wv : h5.arr v = clampSmall A (h3.arr v) := by
    rw [← hw]; simp only [ArrHeap.write_arr, if_true]
    by_cases huv : v = u
    · subst huv; simp [clampSmall_idem]
    · simp [huv]
  have wr : ∀ r, r ≠ u → r ≠ v → h5.arr r = h3.arr r := by
    intro r h1 h2; rw [← hw]; simp [h1, h2]
  have wn : h5.next = h3.next := by rw [← hw]; rfl
  have ws : h5.strs = h.strs := by rw [← hw, ← st1, ← st2, ← P.strs]; rfl
  have wd : h5.arr d = h1.arr d := by
    rw [wr d (Ne.symm huvd.1) (Ne.symm huvd.2.1), hqd d (Or.inl rfl), dD]
  have wst : h5.arr s = h2.arr s := by
    rw [wr s (Ne.symm huvd.2.2.1) (Ne.symm huvd.2.2.2), hqd s (Or.inr rfl)]
  have wqx : h5.arr qx = h3.arr qx := wr qx P.sep.1 P.sep.2.1
  have wqy : h5.arr qy = h3.arr qy := wr qy P.sep.2.2.1 P.sep.2.2.2
  have pn := P.next
  have pl := P.lt
  refine ⟨?_, rfl, ?_, ?_, ?_, FlowRefs.mono (h' := h2) (by omega) P.refs, ?_, ?_, ?_⟩
  · unfold initParticles
    have hdx' : initDx (p.val h) = .ok dx := hdx
    have hct' : initCellType (p.val h) (h1.arr d) ((p.val h).dryDepth.getD (A.rnd (1 / 10))) = .ok ct := by rw [← wd]; exact hct
    have hroi' : checkRoi (p.val h) (h1.arr d) = .ok () := by rw [← wd]; exact hroi
    simp only [hdx', v1, hstage, hval, hct', hroi', ok_bind]
    simp only [RObj.val, buildVars_arr, wu, wv, wd, wst, wqx, wqy, ws]
    rfl
  · simp only [buildVars_next]; omega
  · rcases c1 with ⟨c, -⟩ | ⟨c, -, c', -⟩
    · exact Or.inl c
    · exact Or.inr ⟨c, by simp only; omega⟩
  · rcases c2 with ⟨c, -⟩ | ⟨c, -, c', -⟩
    · exact Or.inl c
    · exact Or.inr ⟨c, by simp only; omega⟩
  · simp only [buildVars_next]; omega
  · intro r hr
    simp only [Changed, buildVars_arr]
    by_cases hrd : r = d
    · subst hrd
      right; left
      rcases c1 with ⟨c, c'⟩ | ⟨-, -, c, -⟩
      · exact ⟨c, by rw [wd, c']; simp⟩
      · omega
    by_cases hrs : r = s
    · subst hrs
      right; right; left
      rcases c2 with ⟨c, c'⟩ | ⟨-, -, c, -⟩
      · refine ⟨c, ?_⟩
        rw [wst, c', wd]
        simp only [ArrHeap.write_arr, if_true]
        rw [a1 r hr hrd]
      · omega
    have e2 : h2.arr r = h.arr r := by rw [a2 r (by omega) hrs, a1 r hr hrd]
    have hch := P.changes r (by omega)
    rw [e2] at hch
    have hrf := P.refs
    by_cases hru : r = u ∨ r = v
    · rcases hrf with ⟨g, m, a, b, x, y⟩ | ⟨g, m, a, b, x, y⟩ | ⟨g, m, a, b, x, y⟩ | ⟨g, m, a, b, x, y⟩
      · omega
      · omega
      · right; right; right; right
        have hc := P.clean g r hru (by omega)
        rw [e2] at hc
        refine ⟨g, ?_, ?_⟩
        · rcases hru with h | h <;> rw [h]
          · exact Or.inl x
          · exact Or.inr ⟨m, y⟩
        · rcases hru with h | h
          · rw [h, wu, ← h, hc]
          · rw [h, wv, ← h, hc]
      · right; right; right; right
        have hc := P.clean g r hru (by omega)
        rw [e2] at hc
        refine ⟨g, ?_, ?_⟩
        · rcases hru with h | h
          · omega
          · rw [h]; exact Or.inl y
        · rcases hru with h | h
          · omega
          · rw [h, wv, ← h, hc]
    · push Not at hru
      rw [wr r hru.1 hru.2]
      rcases hch with h | ⟨h, h'⟩
      · exact Or.inl h
      · right; right; right; left
        rcases h' with ⟨g, h'⟩ | ⟨-, h'⟩
        · refine ⟨g, ?_, h⟩
          rcases hrf with ⟨-, m, a, b, -, -⟩ | ⟨-, m, a, b, -, -⟩ | ⟨g', -⟩ | ⟨g', -⟩
          · rcases h' with rfl | rfl <;> tauto
          · rcases h' with rfl | rfl
            · omega
            · tauto
          · exact absurd g g'
          · exact absurd g g'
        · rcases h' with rfl | rfl
          · exact absurd rfl hru.1
          · exact absurd rfl hru.2
  · intro r; rw [buildVars_strs, ws]

theorem build_exists [IsStrictOrderedRing K] {h : ArrHeap K} {p : RParams K} {P : PObj K} (ha : Apart h p)
    (e : initParticles A F (p.val h) = .ok P) : ∃ r, buildParticles A F h p = .ok r := by
  obtain ⟨fd, fs, ft, ff⟩ := ha.facts
  obtain ⟨pu, pv, X⟩ := init_parts A F e
  obtain ⟨⟨h1, d⟩, e1⟩ := buildDepth_exists X.depth
  obtain ⟨v1, st1, c1⟩ := buildDepth_ok e1
  have hD : h1.arr d = P.depth := by have := X.depth; rw [v1] at this; injection this
  obtain ⟨hdd, n1, d1, a1, dflow, hst⟩ := pre_depth ha e1
  obtain ⟨⟨h2, s⟩, e2⟩ := buildStage_exists (A := A) hdd (g := P.stage) (by rw [hst, hD]; exact X.stage)
  obtain ⟨n2, s2, a2, sflow, hsd, dD, hfl⟩ := pre_stage ha e1 e2
  obtain ⟨⟨h3, qx, qy, u, v⟩, e3⟩ := buildFlow_exists (A := A) (h := h2) (d := d) (f := (P.qx, P.qy, pu, pv)) (by omega) dflow
    (fun r hr => by have := ff r hr; omega) (by rw [dD, hfl, hD]; exact X.flow)
  have Q := buildFlow_ok (A := A) (by omega) dflow (fun r hr => by have := ff r hr; omega) e3
  obtain ⟨huvd, hqd⟩ := flow_keeps (by omega) s2 dflow sflow Q
  have wd : ((h3.write u (clampSmall A (h3.arr u))).write v (clampSmall A ((h3.write u (clampSmall A (h3.arr u))).arr v))).arr d = P.depth := by
    simp only [ArrHeap.write_arr, if_neg (Ne.symm huvd.1), if_neg (Ne.symm huvd.2.1)]
    rw [hqd d (Or.inl rfl), dD, hD]
  have hdx : initDx p.base = .ok P.dx := by
    have : p.base.dx = some P.dx := X.dx
    unfold initDx; rw [this]
  have hct : initCellType p.base P.depth (p.base.dryDepth.getD (A.rnd (1 / 10))) = .ok P.cellType := by
    have := X.ct; rw [X.dry] at this; exact this
  have hroi : checkRoi p.base P.depth = .ok () := X.roiShape
  unfold buildParticles
  simp only [hdx, e1, e2, e3, ok_bind, wd, hct, hroi]
  exact ⟨_, rfl⟩

end Dorado
