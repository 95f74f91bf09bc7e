import Verif.Lemmas.Mask
import Verif.Model.Particles

/-! Helper lemmas: what one call of `particle_stepper` does to each particle. -/

set_option linter.unusedSectionVars false

namespace Dorado

variable {K : Type} [Field K] [LinearOrder K] [IsStrictOrderedRing K] (A : Arith K) (F : Fun K A)

/-- Cell choice of one particle, from the fresh weights: `r` is one of the draws. -/
def CellChoice (P : PObj K) (ω : Nat → K) (p : Int × Int) (k : Nat) : Prop :=
  (p = (0, 0) ∧ k = 4) ∨
  (p ≠ (0, 0) ∧ ∃ n i j, pyIdx P.stage.rows p.1 = .ok i ∧ pyIdx P.stage.cols p.2 = .ok j ∧
    pickFrom A (maskOf P (makeWeight A F P i j)) (ω n) = .ok k)

/-- One step of one particle at position `p` and time `t`: new position `q` and time `t'`. -/
def StepOf (P : PObj K) (ω : Nat → K) (p : Int × Int) (t : Fl K) (q : Int × Int) (t' : Fl K) : Prop :=
  ∃ k q0 d m m' dt, CellChoice A F P ω p k ∧ newInd1 P p k = .ok q0 ∧ stepUpdate A k P.distances P.dx = .ok d ∧
    q = checkForBoundary1 (zeroDist q0 d) p P.cellType ∧
    calcTravelTime A F P ω m k p q d = .ok (dt, m') ∧ t' = A.add t dt

/-- Value of a tracked variable at a position. -/
def VarAt (P : PObj K) (var : String) (q : Int × Int) (v : Val K) : Prop :=
  (var = "roi_flag" ∧ ∃ g, P.roi = some g ∧ roiFlagAt g q = .ok v) ∨
  (¬(var = "roi_flag" ∧ P.roi.isSome) ∧ ∃ g, availVar P var = some g ∧ sampleAt g q = .ok v)

theorem Forall₂_get {α β : Type} {R : α → β → Prop} {l : List α} {r : List β} (h : List.Forall₂ R l r) {i : Nat} {a : α}
    (ha : l[i]? = some a) : ∃ b, r[i]? = some b ∧ R a b := by
  induction h generalizing i with
  | nil => simp at ha
  | cons hb _ ih =>
    cases i with
    | zero => simp at ha; subst ha; exact ⟨_, rfl, hb⟩
    | succ i => simp at ha ⊢; exact ih ha

/-- Inversion of `updatedOptional`. -/
theorem updatedOptional_inv {P : PObj K} {vars : List String} {news : List (Int × Int)}
    {opt : List (String × List (Val K))} (h : updatedOptional P vars news = .ok opt)
    {var : String} {l : List (Val K)} (hget : dictGet opt var = some l) (i : Nat) (q : Int × Int) (hq : news[i]? = some q) :
    ∃ v, l[i]? = some v ∧ VarAt P var q v := by
  unfold updatedOptional at h
  simp only [bind_ok, pure_ok] at h
  obtain ⟨rp, hroi, rest, hrest, rfl⟩ := h
  unfold roiPart at hroi
  unfold dictGet at hget
  simp only [Option.map_eq_some_iff] at hget
  obtain ⟨e, he, rfl⟩ := hget
  have hname : e.1 = var := by simpa using List.find?_some he
  rw [List.find?_append] at he
  cases hr : P.roi with
  | some g =>
    rw [hr] at hroi
    simp only [bind_ok, pure_ok] at hroi
    obtain ⟨fl, hfl, rfl⟩ := hroi
    by_cases hv : var = "roi_flag"
    · subst hv
      simp at he
      subst he
      obtain ⟨v, hv1, hv2⟩ := mapE_get hfl hq
      exact ⟨v, hv1, Or.inl ⟨rfl, g, hr, hv2⟩⟩
    · have hnone : List.find? (fun e => e.1 == var) [(("roi_flag" : String), fl)] = none := by
        simp; exact fun h => hv h.symm
      rw [hnone] at he
      simp only [Option.none_or] at he
      have hmem := List.mem_of_find?_eq_some he
      obtain ⟨sub, hsub, hesub⟩ := List.mem_flatten.1 hmem
      obtain ⟨n, hn⟩ := List.getElem?_of_mem hsub
      obtain ⟨w, -, hw⟩ := mapE_get' hrest hn
      unfold varPart at hw
      cases hav : availVar P w with
      | none => simp only [hav, Except.ok.injEq] at hw; rw [← hw] at hesub; cases hesub
      | some gr =>
        simp only [hav, bind_ok, pure_ok] at hw
        obtain ⟨ll, hll, rfl⟩ := hw
        simp at hesub
        subst hesub
        simp only at hname
        subst hname
        obtain ⟨v, hv1, hv2⟩ := mapE_get hll hq
        exact ⟨v, hv1, Or.inr ⟨by simp [hv], gr, hav, hv2⟩⟩
  | none =>
    rw [hr] at hroi
    simp only [Except.ok.injEq] at hroi
    subst hroi
    simp only [List.find?_nil, Option.none_or] at he
    have hmem := List.mem_of_find?_eq_some he
    obtain ⟨sub, hsub, hesub⟩ := List.mem_flatten.1 hmem
    obtain ⟨n, hn⟩ := List.getElem?_of_mem hsub
    obtain ⟨w, -, hw⟩ := mapE_get' hrest hn
    unfold varPart at hw
    cases hav : availVar P w with
    | none => simp only [hav, Except.ok.injEq] at hw; rw [← hw] at hesub; cases hesub
    | some gr =>
      simp only [hav, bind_ok, pure_ok] at hw
      obtain ⟨ll, hll, rfl⟩ := hw
      simp at hesub
      subst hesub
      simp only at hname
      subst hname
      obtain ⟨v, hv1, hv2⟩ := mapE_get hll hq
      exact ⟨v, hv1, Or.inr ⟨by simp [hr], gr, hav, hv2⟩⟩

/-- Inversion of `particle_stepper`. -/
theorem particleStepper_inv {P : PObj K} (G : Good P) {ω : Nat → K} {s s' : World K} {cur news : List (Int × Int)}
    {times times' : List (Fl K)} {vars : List String} {upd : List (String × List (Val K))}
    (hw : PickEquiv A F P s.weight)
    (h : particleStepper A F P ω s cur times vars = .ok ((news, times', upd), s')) :
    PickEquiv A F P s'.weight ∧ news.length = cur.length ∧
    (∀ (i : Nat) (p : Int × Int) (t : Fl K), cur[i]? = some p → times[i]? = some t →
      ∃ q t', news[i]? = some q ∧ times'[i]? = some t' ∧ StepOf A F P ω p t q t') ∧
    (∀ (var : String) (l : List (Val K)) (i : Nat) (q : Int × Int), dictGet upd var = some l → news[i]? = some q → ∃ v, l[i]? = some v ∧ VarAt P var q v) := by
  unfold particleStepper at h
  simp only [bind_ok, pure_ok, Prod.exists, Prod.mk.injEq] at h
  obtain ⟨cells, s1, hcells, inds0, hinds0, dist, hdist, temp, pos', htemp, opt, hopt, ⟨rfl, rfl, rfl⟩, rfl⟩ := h
  have hc := mapAcc_inv (fun s : World K => PickEquiv A F P s.weight) (CellChoice A F P ω) (by
    intro s a b s' hs hb
    unfold newCell1 at hb
    by_cases h0 : a = (0, 0)
    · simp only [h0, ne_eq, not_true, if_false, Except.ok.injEq, Prod.mk.injEq] at hb
      obtain ⟨rfl, rfl⟩ := hb
      exact ⟨hs, Or.inl ⟨h0, rfl⟩⟩
    · simp only [ne_eq, h0, not_false_eq_true, if_true] at hb
      obtain ⟨h1, -, i, j, hi, hj, hk⟩ := getWeight_inv A F G hs hb
      exact ⟨h1, Or.inr ⟨h0, s.pos, i, j, hi, hj, hk⟩⟩) hw hcells
  obtain ⟨hw1, hcc⟩ := hc
  have hlen1 : cells.length = cur.length := hcc.length_eq.symm
  have hlen2 := mapE_length hinds0
  have hlen3 := mapE_length hdist
  have hlenN : (checkForBoundary (List.zipWith zeroDist inds0 dist) cur P.cellType).length = cur.length := by
    unfold checkForBoundary
    simp [hlen2, hlen3, hlen1]
  refine ⟨hw1, hlenN, ?_, ?_⟩
  · intro i p t hp ht
    obtain ⟨k, hk, hkc⟩ := Forall₂_get hcc hp
    have hz : (cur.zip cells)[i]? = some (p, k) := by
      rw [List.getElem?_zip_eq_some]; exact ⟨hp, hk⟩
    obtain ⟨q0, hq0, hq0'⟩ := mapE_get hinds0 hz
    obtain ⟨d, hd, hd'⟩ := mapE_get hdist hk
    have hq : (checkForBoundary (List.zipWith zeroDist inds0 dist) cur P.cellType)[i]? =
        some (checkForBoundary1 (zeroDist q0 d) p P.cellType) := by
      unfold checkForBoundary
      rw [List.getElem?_zipWith_eq_some]
      refine ⟨zeroDist q0 d, p, ?_, hp, rfl⟩
      rw [List.getElem?_zipWith_eq_some]
      exact ⟨q0, d, hq0, hd, rfl⟩
    have ht2 := mapAcc_inv (fun _ : Nat => True)
      (fun (q : (Nat × (Int × Int)) × ((Int × Int) × Fl K)) dt => ∃ m m',
        calcTravelTime A F P ω m q.1.1 q.1.2 q.2.1 q.2.2 = .ok (dt, m'))
      (fun s a b s' _ hb => ⟨trivial, s, s', hb⟩) trivial htemp
    have hz2 : ((cells.zip cur).zip
        ((checkForBoundary (List.zipWith zeroDist inds0 dist) cur P.cellType).zip dist))[i]? =
        some ((k, p), (checkForBoundary1 (zeroDist q0 d) p P.cellType, d)) := by
      rw [List.getElem?_zip_eq_some, List.getElem?_zip_eq_some, List.getElem?_zip_eq_some]
      exact ⟨⟨hk, hp⟩, hq, hd⟩
    obtain ⟨dt, hdt, m, m', hm⟩ := Forall₂_get ht2.2 hz2
    refine ⟨_, A.add t dt, hq, ?_, k, q0, d, m, m', dt, hkc, hq0', hd', rfl, hm, rfl⟩
    rw [List.getElem?_zipWith_eq_some]
    exact ⟨t, dt, ht, hdt, rfl⟩
  · intro var l i q hl hq
    exact updatedOptional_inv hopt hl i q hq

end Dorado
