import Verif.Lemmas.Records

/-! Helper lemmas: two runs that differ only in which weights were already masked give the same results. -/

set_option linter.unusedSectionVars false

namespace Dorado

/-- Two computations that fail with the same error or succeed with related values. -/
inductive RelE {α β : Type} (R : α → β → Prop) : Except PyErr α → Except PyErr β → Prop
  | error (e) : RelE R (.error e) (.error e)
  | ok {a b} (h : R a b) : RelE R (.ok a) (.ok b)

theorem RelE.bind {α β γ δ : Type} {R : α → β → Prop} {S : γ → δ → Prop} {x : Except PyErr α} {y : Except PyErr β}
    {f : α → Except PyErr γ} {g : β → Except PyErr δ} (h : RelE R x y) (hf : ∀ a b, R a b → RelE S (f a) (g b)) :
    RelE S (x >>= f) (y >>= g) := by
  cases h with
  | error e => exact .error e
  | ok h => exact hf _ _ h

theorem RelE.map_eq {α β γ : Type} {R : α → β → Prop} {x : Except PyErr α} {y : Except PyErr β} {f : α → γ} {g : β → γ}
    (h : RelE R x y) (hf : ∀ a b, R a b → f a = g b) : x.map f = y.map g := by
  cases h with
  | error e => rfl
  | ok h => simp only [Except.map]; rw [hf _ _ h]

theorem RelE.refl {α : Type} {R : α → α → Prop} (hR : ∀ a, R a a) (x : Except PyErr α) : RelE R x x := by
  cases x with
  | error e => exact .error e
  | ok a => exact .ok (hR a)

theorem RelE.eq {α : Type} (x : Except PyErr α) : RelE (fun a b => a = b) x x := RelE.refl (fun _ => rfl) x

theorem mapAcc_rel {α β σ : Type} {f g : σ → α → Except PyErr (β × σ)} {W : σ → σ → Prop}
    (h : ∀ s s' a, W s s' → RelE (fun x y => x.1 = y.1 ∧ W x.2 y.2) (f s a) (g s' a)) {s s' : σ} (hs : W s s') (l : List α) :
    RelE (fun x y => x.1 = y.1 ∧ W x.2 y.2) (mapAcc f s l) (mapAcc g s' l) := by
  induction l generalizing s s' with
  | nil => exact .ok ⟨rfl, hs⟩
  | cons a l ih =>
    simp only [mapAcc]
    refine (h s s' a hs).bind fun x y hxy => ?_
    obtain ⟨x1, x2⟩ := x
    obtain ⟨y1, y2⟩ := y
    obtain ⟨rfl, hw⟩ := hxy
    refine (ih hw).bind fun x y hxy => ?_
    exact .ok ⟨by rw [hxy.1], hxy.2⟩

variable {K : Type} [Field K] [LinearOrder K] [IsStrictOrderedRing K] {A : Arith K} {F : Fun K A}

/-- Same stream position, both arrays equivalent to the fresh one. -/
def EqW (A : Arith K) (F : Fun K A) (P : PObj K) (w w' : World K) : Prop :=
  PickEquiv A F P w.weight ∧ PickEquiv A F P w'.weight ∧ w.pos = w'.pos

theorem getWeight_rel {P : PObj K} (G : Good P) (ω : Nat → K) {w w' : World K} (h : EqW A F P w w') (ind : Int × Int) :
    RelE (fun x y => x.1 = y.1 ∧ EqW A F P x.2 y.2) (getWeight A P ω w ind) (getWeight A P ω w' ind) := by
  obtain ⟨h1, h2, h3⟩ := h
  rw [getWeight_eq, getWeight_eq]
  cases hi : pyIdx P.stage.rows ind.1 with
  | error e => exact .error e
  | ok i =>
    simp only [ok_bind]
    cases hj : pyIdx P.stage.cols ind.2 with
    | error e => exact .error e
    | ok j =>
      simp only [ok_bind]
      have hi' := pyIdx_lt hi
      have hj' := pyIdx_lt hj
      have hp : pickFrom A (maskOf P (w.weight i j)) (ω w.pos) = pickFrom A (maskOf P (w'.weight i j)) (ω w'.pos) := by
        rw [h3]
        exact pickFrom_congr A (fun k hk => by rw [h1 i j hi' hj' k hk, h2 i j hi' hj' k hk]) _
      rw [hp]
      cases pickFrom A (maskOf P (w'.weight i j)) (ω w'.pos) with
      | error e => exact .error e
      | ok k => exact .ok ⟨rfl, h1.touch A F G hi' hj', h2.touch A F G hi' hj', by simp [h3]⟩

theorem newCell1_rel {P : PObj K} (G : Good P) (ω : Nat → K) {w w' : World K} (h : EqW A F P w w') (ind : Int × Int) :
    RelE (fun x y => x.1 = y.1 ∧ EqW A F P x.2 y.2) (newCell1 A P ω w ind) (newCell1 A P ω w' ind) := by
  unfold newCell1
  split
  · exact getWeight_rel G ω h ind
  · exact .ok ⟨rfl, h⟩

theorem stepper_rel {P : PObj K} (G : Good P) (ω : Nat → K) {w w' : World K} (h : EqW A F P w w') (cur : List (Int × Int))
    (times : List (Fl K)) (vars : List String) :
    RelE (fun x y => x.1 = y.1 ∧ EqW A F P x.2 y.2) (particleStepper A F P ω w cur times vars)
      (particleStepper A F P ω w' cur times vars) := by
  unfold particleStepper
  refine (mapAcc_rel (W := EqW A F P) (fun s s' a hs => newCell1_rel G ω hs a) h cur).bind ?_
  rintro ⟨cells, s1⟩ ⟨cells', s1'⟩ ⟨h1, hw⟩
  simp only at h1 hw
  subst h1
  obtain ⟨hw1, hw2, hw3⟩ := hw
  refine (RelE.eq _).bind ?_
  rintro inds _ rfl
  refine (RelE.eq _).bind ?_
  rintro dist _ rfl
  rw [hw3]
  refine (RelE.eq _).bind ?_
  rintro ⟨temp, pos'⟩ _ rfl
  refine (RelE.eq _).bind ?_
  rintro opt _ rfl
  exact .ok ⟨rfl, hw1, hw2, rfl⟩

theorem targetLoop_rel {P : PObj K} (G : Good P) (ω : Nat → K) (target : Fl K) (maxIter : Int) (keys : List String) (ii : Nat)
    (fuel : Nat) (wd : WalkData K) {w w' : World K} (h : EqW A F P w w') (est : Fl K) (count : Int) :
    RelE (fun x y => x.1 = y.1 ∧ x.2.2 = y.2.2 ∧ EqW A F P x.2.1 y.2.1)
      (targetLoop A F P ω target maxIter keys ii fuel wd w est count)
      (targetLoop A F P ω target maxIter keys ii fuel wd w' est count) := by
  induction fuel generalizing wd w w' est count with
  | zero =>
    unfold targetLoop
    refine (RelE.eq _).bind ?_
    rintro t _ rfl
    split
    · exact .error _
    · exact .ok ⟨rfl, rfl, h⟩
  | succ fuel ih =>
    unfold targetLoop
    refine (RelE.eq _).bind ?_
    rintro t _ rfl
    split
    · refine (RelE.eq _).bind ?_
      rintro x _ rfl
      refine (RelE.eq _).bind ?_
      rintro y _ rfl
      refine (stepper_rel G ω h _ _ _).bind ?_
      rintro ⟨⟨news, times, upd⟩, s1⟩ ⟨r, s1'⟩ ⟨h1, hw⟩
      simp only at h1 hw
      subst h1
      refine (RelE.eq _).bind ?_
      rintro n _ rfl
      split
      · refine (RelE.eq _).bind ?_
        rintro t1 _ rfl
        refine (RelE.eq _).bind ?_
        rintro vals _ rfl
        simp only
        split
        · exact .ok ⟨rfl, rfl, hw⟩
        · exact ih _ hw _ _
      · exact .ok ⟨rfl, rfl, hw⟩
    · exact .ok ⟨rfl, rfl, h⟩

theorem targetAll_rel {P : PObj K} (G : Good P) (ω : Nat → K) (target : Fl K) (maxIter : Int) (keys : List String)
    (is : List Nat) (wd : WalkData K) {w w' : World K} (h : EqW A F P w w') (warn : Option (List Nat)) :
    RelE (fun x y => x.1 = y.1 ∧ x.2.2 = y.2.2 ∧ EqW A F P x.2.1 y.2.1)
      (targetAll A F P ω target maxIter keys is wd w warn) (targetAll A F P ω target maxIter keys is wd w' warn) := by
  induction is generalizing wd w w' warn with
  | nil => exact .ok ⟨rfl, rfl, h⟩
  | cons i is ih =>
    simp only [targetAll]
    have h1 : RelE (fun x y => x.1 = y.1 ∧ x.2.2 = y.2.2 ∧ EqW A F P x.2.1 y.2.1)
        (targetOne A F P ω target maxIter keys wd w i) (targetOne A F P ω target maxIter keys wd w' i) := by
      unfold targetOne
      refine (RelE.eq _).bind ?_
      rintro ts _ rfl
      refine (RelE.eq _).bind ?_
      rintro x _ rfl
      refine (RelE.eq _).bind ?_
      rintro y _ rfl
      split
      · exact .ok ⟨rfl, rfl, h⟩
      · exact targetLoop_rel G ω _ _ _ _ _ _ h _ _
    refine h1.bind ?_
    rintro ⟨wd1, s1, hit⟩ ⟨wd1', s1', hit'⟩ ⟨e1, e2, hw⟩
    simp only at e1 e2 hw
    subst e1 e2
    exact ih _ hw _

theorem runIteration_rel {P : PObj K} (G : Good P) (ω : Nat → K) {s s' : PState K} (h : EqW A F P s.world s'.world)
    (hn : s.np = s'.np) (hwalk : s.walk = s'.walk) (target : Option (Fl K)) (maxIter : Int) :
    RelE (fun x y => x.returned = y.returned ∧ x.warned = y.warned ∧ x.state.walk = y.state.walk ∧ x.state.np = y.state.np ∧
        x.state.world.pos = y.state.world.pos ∧ EqW A F P x.state.world y.state.world)
      (runIteration A F P ω s target maxIter) (runIteration A F P ω s' target maxIter) := by
  unfold runIteration
  rw [hwalk, hn]
  cases s'.walk with
  | none => exact .error _
  | some wd0 =>
    simp only
    refine (RelE.eq _).bind ?_
    rintro sx _ rfl
    refine (RelE.eq _).bind ?_
    rintro sy _ rfl
    refine (RelE.eq _).bind ?_
    rintro st _ rfl
    refine (RelE.eq _).bind ?_
    rintro _ _ rfl
    cases target with
    | none =>
      simp only
      refine (stepper_rel G ω h _ _ _).bind ?_
      rintro ⟨⟨news, times, upd⟩, s1⟩ ⟨r, s1'⟩ ⟨h1, hw⟩
      simp only at h1 hw
      subst h1
      refine (RelE.eq _).bind ?_
      rintro out _ rfl
      exact .ok ⟨rfl, rfl, rfl, rfl, hw.2.2, hw⟩
    | some tgt =>
      simp only
      refine (targetAll_rel G ω _ _ _ _ _ h _).bind ?_
      rintro ⟨wd1, s1, warn⟩ ⟨wd1', s1', warn'⟩ ⟨e1, e2, hw⟩
      simp only at e1 e2 hw
      subst e1 e2
      cases warn with
      | none => exact .error _
      | some l => exact .ok ⟨rfl, rfl, rfl, rfl, hw.2.2, hw⟩

end Dorado
