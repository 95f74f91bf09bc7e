import Verif.Lemmas.Alike

/-! Helper lemmas: two objects with the same usable weights route the same particles to the same places. -/

set_option linter.unusedSectionVars false

namespace Dorado

variable {K : Type} [Field K] [LinearOrder K] [IsStrictOrderedRing K] {A : Arith K} {F : Fun K A}

/-- Nonnegative-or-NaN weights that agree with NaN read as 0 are masked to the same vector. -/
theorem maskOf_nanTo0 {P : PObj K} {p q : Nat → Fl K} (hp : ∀ k, k < 9 → NN A (p k)) (hq : ∀ k, k < 9 → NN A (q k))
    (h : ∀ k, k < 9 → (p k).nanTo0 = (q k).nanTo0) {k : Nat} (hk : k < 9) : maskOf P p k = maskOf P q k := by
  have key : ∀ p : Nat → Fl K, (∀ k, k < 9 → NN A (p k)) → ∀ k, k < 9 → maskOf P (zeroNan p) k = maskOf P p k := by
    intro p hp k hk
    unfold maskOf
    split
    · have hz : ∀ k, k < 9 → NN A (zeroNan p k) := by
        intro k hk
        rcases hp k hk with h | ⟨x, hx, h1, h2⟩
        · right
          exact ⟨0, by simp [zeroNan, h, Fl.nanTo0, Fl.isNan], le_refl _, A.zero⟩
        · right
          exact ⟨x, by simp [zeroNan, hx, Fl.nanTo0, Fl.isNan], h1, h2⟩
      rcases nanmax9_spec A hz with ⟨h1, h2⟩ | ⟨m, h1, h2, h3, k0, hk0, hk0'⟩
      · exfalso
        have := h2 0 (by omega)
        rcases hp 0 (by omega) with h | ⟨x, hx, -⟩ <;> simp_all [zeroNan, Fl.nanTo0, Fl.isNan]
      · rw [steepMask_eq A hz h1 h3 hk]
        rcases nanmax9_spec A hp with ⟨g1, g2⟩ | ⟨m', g1, g2, g3, k1, hk1, hk1'⟩
        · rw [steepMask_allNan g2 g1 hk]
          have e : zeroNan p k = .fin 0 := by simp [zeroNan, g2 k hk, Fl.nanTo0, Fl.isNan]
          split
          · rename_i hc
            rw [e] at hc
            exact hc.2.symm
          · rfl
        · have hmm : m = m' := by
            apply le_antisymm
            · rcases hp k0 hk0 with h | ⟨x, hx, -⟩
              · have : (0 : K) = m := by simpa [zeroNan, h, Fl.nanTo0, Fl.isNan] using hk0'
                rw [← this]; exact g2
              · have : x = m := by simpa [zeroNan, hx, Fl.nanTo0, Fl.isNan] using hk0'
                subst this
                exact g3 k0 x hk0 hx
            · exact h3 k1 m' hk1 (by simp [zeroNan, hk1', Fl.nanTo0, Fl.isNan])
          subst hmm
          rw [steepMask_eq A hp g1 g3 hk]
          rcases hp k hk with h | ⟨x, hx, -⟩
          · rw [if_neg (c := k ≠ 4 ∧ p k = .fin m) (by simp [h])]
            have e : zeroNan p k = .fin 0 := by simp [zeroNan, h, Fl.nanTo0, Fl.isNan]
            split
            · rename_i hc
              rw [e] at hc
              exact hc.2.symm
            · rfl
          · have e : zeroNan p k = p k := by simp [zeroNan, hx, Fl.nanTo0, Fl.isNan]
            rw [e]
    · rw [zeroNan_idem]
  rw [← key p hp k hk, ← key q hq k hk]
  exact maskOf_congr h hk

/-- Two objects that route alike: the same usable weights and the same tables; travel times of single steps related by `D`. -/
structure Twin (A : Arith K) (F : Fun K A) (D : Fl K → Fl K → Prop) (P P' : PObj K) : Prop where
  good : Good P
  good' : Good P'
  rows : P'.stage.rows = P.stage.rows
  cols : P'.stage.cols = P.stage.cols
  steepest : P'.steepest = P.steepest
  iwalk : P'.iwalk = P.iwalk
  jwalk : P'.jwalk = P.jwalk
  distances : P'.distances = P.distances
  dx : P'.dx = P.dx
  edges : edgeInWindow P'.cellType = edgeInWindow P.cellType
  vars : P'.particleVars = P.particleVars
  roi : P'.roi = P.roi
  verbose : P'.verbose = P.verbose
  avail : ∀ v ∈ P.particleVars, availVar P' v = availVar P v
  weight : ∀ i j, i < P.stage.rows → j < P.stage.cols → ∀ k, k < 9 → (makeWeight A F P' i j k).nanTo0 = (makeWeight A F P i j k).nanTo0
  time : ∀ T ω cell a b d, RelM (StRel (fun w w' => PickEquiv A F P w.weight ∧ PickEquiv A F P' w'.weight ∧ w.pos = w'.pos) T) D
    (travelTimeStmt A F P ω cell a b d) (travelTimeStmt A F P' ω cell a b d)

variable {D T : Fl K → Fl K → Prop} {P P' : PObj K}

/-- Same stream position, each array equivalent to the fresh one of its object. -/
def TwinW (A : Arith K) (F : Fun K A) (P P' : PObj K) (w w' : World K) : Prop :=
  PickEquiv A F P w.weight ∧ PickEquiv A F P' w'.weight ∧ w.pos = w'.pos

/-- The two objects choose alike, each with its own stream. -/
def PickAlike (A : Arith K) (F : Fun K A) (ω ω' : Nat → K) (P P' : PObj K) : Prop := ∀ i j n, i < P.stage.rows → j < P.stage.cols →
  pickFrom A (maskOf P (makeWeight A F P i j)) (ω n) = pickFrom A (maskOf P' (makeWeight A F P' i j)) (ω' n)

/-- Objects that choose alike visit the same cells. -/
theorem pick_alike (G : Good P) (G' : Good P') (hrows : P'.stage.rows = P.stage.rows) (hcols : P'.stage.cols = P.stage.cols) {ω ω' : Nat → K}
    (hω : PickAlike A F ω ω' P P') (ind : Int × Int) :
    RelM (StRel (TwinW A F P P') T) Eq (newCellStmt A P ω ind) (newCellStmt A P' ω' ind) := by
  unfold newCellStmt
  split
  · unfold getWeightStmt
    rw [hrows, hcols]
    intro s s' hs
    cases hi : pyIdx P.stage.rows ind.1 with
    | error e => exact RelM.bind (RelM.lift (.error e)) (fun _ _ (h : False) => h.elim) s s' hs
    | ok i =>
      rw [PyM.lift_run rfl, PyM.lift_run rfl]
      cases hj : pyIdx P.stage.cols ind.2 with
      | error e => exact RelM.bind (RelM.lift (.error e)) (fun _ _ (h : False) => h.elim) s s' hs
      | ok j =>
        rw [PyM.lift_run rfl, PyM.lift_run rfl, PyM.read_run, PyM.read_run]
        have hi' := pyIdx_lt hi
        have hj' := pyIdx_lt hj
        have hi2 : i < P'.stage.rows := by rw [hrows]; exact hi'
        have hj2 : j < P'.stage.cols := by rw [hcols]; exact hj'
        obtain ⟨⟨h1, h2, h3⟩, hk, hn⟩ := hs
        have hp : pickFrom A (maskOf P (s.world.weight i j)) (ω s.world.pos) = pickFrom A (maskOf P' (s'.world.weight i j)) (ω' s'.world.pos) := by
          rw [h3, pickFrom_congr A (fun k hk => h1 i j hi' hj' k hk), pickFrom_congr A (fun k hk => h2 i j hi2 hj2 k hk)]
          exact hω i j _ hi' hj'
        rw [PyM.assign_run, PyM.assign_run]
        have key : RelM (StRel (TwinW A F P P') T) Eq
            (do
              let k ← PyM.lift (pickFrom A (maskOf P (s.world.weight i j)) (ω s.world.pos))
              PyM.assign fun s => s.atPos (s.world.pos + 1)
              return k)
            (do
              let k ← PyM.lift (pickFrom A (maskOf P' (s'.world.weight i j)) (ω' s'.world.pos))
              PyM.assign fun s => s.atPos (s.world.pos + 1)
              return k) := by
          rw [hp]
          refine RelM.bind (RelM.lift (RelE.eq _)) ?_
          rintro k _ rfl
          refine RelM.bind (RelM.assign fun s t hst => ?_) fun _ _ _ => RelM.pure rfl
          obtain ⟨⟨a1, a2, a3⟩, a4, a5⟩ := hst
          exact ⟨⟨a1, a2, by simp only [PState.atPos, a3]⟩, a4, a5⟩
        exact key _ _ ⟨⟨h1.touch A F G hi' hj', h2.touch A F G' hi2 hj2, h3⟩, hk, hn⟩
  · exact RelM.pure rfl

theorem Twin.mask (H : Twin A F D P P') {i j : Nat} (hi : i < P.stage.rows) (hj : j < P.stage.cols) {k : Nat} (hk : k < 9) :
    maskOf P (makeWeight A F P i j) k = maskOf P' (makeWeight A F P' i j) k := by
  have e : maskOf P' (makeWeight A F P' i j) k = maskOf P (makeWeight A F P' i j) k := by
    unfold maskOf
    rw [H.steepest]
  rw [e]
  exact maskOf_nanTo0 (A := A) (fun k hk => fresh_NN A F H.good hi hj hk)
    (fun k hk => fresh_NN A F H.good' (by rw [H.rows]; exact hi) (by rw [H.cols]; exact hj) hk) (fun k hk => (H.weight i j hi hj k hk).symm) hk

theorem Twin.pickAlike (H : Twin A F D P P') (ω : Nat → K) : PickAlike A F ω ω P P' :=
  fun _ _ _ hi hj => pickFrom_congr A (fun _ hk => H.mask hi hj hk) _

theorem Twin.pick (H : Twin A F D P P') {ω ω' : Nat → K} (hω : PickAlike A F ω ω' P P') (ind : Int × Int) :
    RelM (StRel (TwinW A F P P') T) Eq (newCellStmt A P ω ind) (newCellStmt A P' ω' ind) :=
  pick_alike H.good H.good' H.rows H.cols hω ind

theorem Twin.routes (H : Twin A F D P P') (ω : Nat → K) (hT : ∀ t t' d d', T t t' → D d d' → T (A.add t d) (A.add t' d')) :
    Routes A F ω ω (TwinW A F P P') T Eq D P P' where
  pos _ _ h := h.2.2
  move _ _ _ h := ⟨h.1, h.2.1, rfl⟩
  pick := H.pick (H.pickAlike ω)
  iwalk := H.iwalk
  jwalk := H.jwalk
  edges := H.edges
  vars := H.vars
  roi := H.roi
  verbose := H.verbose
  avail := H.avail
  dist c := by rw [H.distances, H.dx]; exact RelE.eq _
  zero _ _ h := by rw [h]
  time cell a b d d' h := by subst h; exact H.time T ω cell a b d
  add := hT

theorem Twin.init (A : Arith K) (F : Fun K A) (T : Fl K → Fl K → Prop) (P P' : PObj K) (pos : Nat) :
    FutRel (TwinW A F P P') T (initState A F P pos) (initState A F P' pos) :=
  ⟨⟨PickEquiv.fresh A F P, PickEquiv.fresh A F P', rfl⟩, trivial, .inl rfl⟩

/-- Times of single steps of objects with the same velocities. -/
theorem Twin.sameTime (hv : P'.velocity = P.velocity) (ha : P'.velocityAngle = P.velocityAngle) (hd : P'.diffCoeff = P.diffCoeff)
    (hg : P'.angles = P.angles) {W : World K → World K → Prop} (hpos : ∀ w w', W w w' → w.pos = w'.pos)
    (hmove : ∀ w w' n, W w w' → W { w with pos := n } { w' with pos := n }) (ω : Nat → K) (cell : Nat) (a b : Int × Int) (d : Fl K) :
    RelM (StRel W T) Eq (travelTimeStmt A F P ω cell a b d) (travelTimeStmt A F P' ω cell a b d) :=
  travelTimeStmt_rel (E := Eq) (V := Eq) (G := Eq) (C := Eq) hpos hmove (fun _ _ => by rw [hv]; exact RelE.eq _) hd hg
    (fun _ _ => by rw [ha]; exact RelE.eq _) (fun _ _ _ h => by rw [h]; exact RelE.eq _) rfl
    (fun _ _ _ _ _ _ _ _ _ _ h1 h2 h3 h4 h5 => by rw [h1, h2, h3, h4, h5 (.inl rfl)]) cell a b rfl

/-- Every object routes like itself, whatever has been masked already. -/
theorem Twin.self (G : Good P) : Twin A F Eq P P where
  good := G
  good' := G
  rows := rfl
  cols := rfl
  steepest := rfl
  iwalk := rfl
  jwalk := rfl
  distances := rfl
  dx := rfl
  edges := rfl
  vars := rfl
  roi := rfl
  verbose := rfl
  avail _ _ := rfl
  weight _ _ _ _ _ _ := rfl
  time _ ω cell a b d := Twin.sameTime rfl rfl rfl rfl (fun _ _ h => h.2.2) (fun _ _ _ h => ⟨h.1, h.2.1, rfl⟩) ω cell a b d

theorem callRel_refl (A : Arith K) (ω : Nat → K) (c : ApiCall K) : CallRel A ω ω Eq c c := by
  have hw : ∀ w : WalkData K, WalkRel Eq w w := fun w => ⟨rfl, rfl, forall₂_refl (fun l => forall₂_refl (fun _ => rfl) l) _, rfl⟩
  cases c with
  | generate np xs ys time method prev =>
    refine ⟨rfl, rfl, rfl, RelE.eq _, rfl, .inl rfl, ?_⟩
    cases prev with
    | none => trivial
    | some w => exact hw w
  | run target maxIter =>
    refine ⟨?_, rfl, .inr (Clock.eq A)⟩
    cases target with
    | none => trivial
    | some t => rfl
  | clear => trivial

theorem walkRel_eq {w w' : WalkData K} (h : WalkRel Eq w w') : w = w' := by
  obtain ⟨a, b, c, d⟩ := w
  obtain ⟨a', b', c', d'⟩ := w'
  obtain ⟨h1, h2, h3, h4⟩ := h
  simp only at h1 h2 h3 h4
  have h3 : c = c' := forall₂_eq (by simpa [List.forall₂_eq_eq_eq] using h3)
  subst h1 h2 h3 h4
  rfl

theorem optRel_eq {α : Type} {R : α → α → Prop} (hR : ∀ a b, R a b → a = b) {x y : Option α} (h : OptRel R x y) : x = y := by
  cases x <;> cases y <;> first | rfl | exact h.elim | exact congrArg some (hR _ _ h)

theorem seenRel_eq {l l' : List (Seen K)} (h : List.Forall₂ (SeenRel Eq) l l') : l = l' := by
  induction h with
  | nil => rfl
  | @cons a b l l' hab _ ih =>
    rw [ih]
    congr 1
    obtain ⟨a1, a2, a3⟩ := a
    obtain ⟨b1, b2, b3⟩ := b
    obtain ⟨h1, h2, h3⟩ := hab
    simp only at h1 h2 h3
    rw [optRel_eq (fun _ _ => walkRel_eq) h2, h3]
    cases h1 with
    | error e => rfl
    | ok h => rw [Prod.ext (optRel_eq (fun _ _ => walkRel_eq) h.1) h.2]

end Dorado
