import Verif.Lemmas.Hist
import Verif.Lemmas.Init

/-! Helper lemmas: which exceptions routing can raise, and when it cannot fail. -/

set_option linter.unusedSectionVars false

namespace Dorado

variable {K : Type} [Field K] [LinearOrder K] [IsStrictOrderedRing K] {A : Arith K} {F : Fun K A}

/-! ## Possible exceptions -/

/-- All exceptions of `x` are in `S`. -/
def ErrIn {α : Type} (S : PyErr → Prop) (x : Except PyErr α) : Prop := ∀ e, x = .error e → S e

theorem ErrIn.ok {α : Type} {S : PyErr → Prop} (a : α) : ErrIn S (.ok a : Except PyErr α) := fun e h => by cases h

theorem ErrIn.pure {α : Type} {S : PyErr → Prop} (a : α) : ErrIn S (Pure.pure a : Except PyErr α) := .ok a

theorem ErrIn.err {α : Type} {S : PyErr → Prop} {e : PyErr} (h : S e) : ErrIn S (.error e : Except PyErr α) := fun e' h' => by
  cases h'; exact h

theorem ErrIn.bind {α β : Type} {S : PyErr → Prop} {x : Except PyErr α} {f : α → Except PyErr β} (hx : ErrIn S x)
    (hf : ∀ a, x = .ok a → ErrIn S (f a)) : ErrIn S (x >>= f) := by
  intro e he
  cases x with
  | error e' => cases he; exact hx _ rfl
  | ok a => exact hf a rfl e he

theorem ErrIn.mapE {α β : Type} {S : PyErr → Prop} {f : α → Except PyErr β} {l : List α} (h : ∀ a ∈ l, ErrIn S (f a)) :
    ErrIn S (Dorado.mapE f l) := by
  induction l with
  | nil => exact .ok _
  | cons a l ih =>
    unfold Dorado.mapE
    exact .bind (h a (by simp)) fun b _ => .bind (ih fun a ha => h a (by simp [ha])) fun _ _ => .pure _

theorem ErrIn.mapAcc {α β σ : Type} {S : PyErr → Prop} {f : σ → α → Except PyErr (β × σ)} {l : List α} (h : ∀ s, ∀ a ∈ l, ErrIn S (f s a))
    (s : σ) : ErrIn S (Dorado.mapAcc f s l) := by
  induction l generalizing s with
  | nil => exact .ok _
  | cons a l ih =>
    unfold Dorado.mapAcc
    exact .bind (h s a (by simp)) fun b _ => .bind (ih (fun s a ha => h s a (by simp [ha])) b.2) fun _ _ => .pure _

/-- Exceptions that routing can raise apart from ValueError. -/
structure Usual (S : PyErr → Prop) : Prop where
  index : S .indexError
  key : S .keyError
  overflow : S .overflowError
  unbound : S .unboundLocalError

theorem pyIdx_err {S : PyErr → Prop} (hS : Usual S) (n : Nat) (i : Int) : ErrIn S (pyIdx n i) := by
  unfold pyIdx
  split
  · exact .ok _
  · split
    · exact .ok _
    · exact .err hS.index

theorem get_err {S : PyErr → Prop} (hS : Usual S) {α : Type} (g : Grid α) (x y : Int) : ErrIn S (g.get x y) :=
  .bind (pyIdx_err hS _ _) fun _ _ => .bind (pyIdx_err hS _ _) fun _ _ => .pure _

theorem listGet_err {S : PyErr → Prop} (hS : Usual S) {α : Type} (l : List α) (i : Nat) : ErrIn S (listGet l i) := by
  unfold listGet
  split
  · exact .ok _
  · exact .err hS.index

theorem lastAt_err {S : PyErr → Prop} (hS : Usual S) {α : Type} (l : List (List α)) (i : Nat) : ErrIn S (lastAt l i) := by
  unfold lastAt
  refine .bind (listGet_err hS _ _) fun r _ => ?_
  unfold lastOf
  split
  · exact .ok _
  · exact .err hS.index

theorem flat9_err {S : PyErr → Prop} (hS : Usual S) {α : Type} (t : Nat → α) (k : Nat) : ErrIn S (flat9 t k) := by
  unfold flat9
  split
  · exact .ok _
  · exact .err hS.index

theorem pickFrom_err {S : PyErr → Prop} (hS : Usual S) (p : Nat → Fl K) (r : K) : ErrIn S (pickFrom A p r) := by
  unfold pickFrom
  refine .bind ?_ fun _ _ => .pure _
  unfold uniform0
  split
  · exact .ok _
  · exact .err hS.overflow

theorem newCell1_err {S : PyErr → Prop} (hS : Usual S) (P : PObj K) (ω : Nat → K) (s : World K) (p : Int × Int) :
    ErrIn S (newCell1 A P ω s p) := by
  unfold newCell1
  split
  · rw [getWeight_eq]
    exact .bind (pyIdx_err hS _ _) fun _ _ => .bind (pyIdx_err hS _ _) fun _ _ => .bind (pickFrom_err hS _ _) fun _ _ => .pure _
  · exact .ok _

theorem mathCos_ok {P : PObj K} (hA : AnglesOk P) (hF : FinLike P.depth P.velocityAngle) {k : Nat} {a : Fl K}
    (ha : flat9 P.angles k = .ok a) {x y : Int} {v : Fl K} (hv : P.velocityAngle.get x y = .ok v) :
    ∃ c, mathCos A F (A.sub a v) = .ok c := by
  have hk : k < 9 ∧ P.angles k = a := by
    unfold flat9 at ha
    split at ha
    · injection ha with ha; exact ⟨‹_›, ha⟩
    · cases ha
  unfold Grid.get at hv
  simp only [bind_ok, pure_ok] at hv
  obtain ⟨i, hi, j, hj, rfl⟩ := hv
  obtain ⟨z, hz⟩ := hF.1 i j (pyIdx_lt hi) (pyIdx_lt hj)
  rcases hA k hk.1 with h | ⟨w, h⟩
  · rw [← hk.2, h, hz]; exact ⟨_, rfl⟩
  · rw [← hk.2, h, hz]; exact ⟨_, rfl⟩

theorem calcTravelTime_err {S : PyErr → Prop} (hS : Usual S) {P : PObj K}
    (hv : S .valueError ∨ (AnglesOk P ∧ FinLike P.depth P.velocityAngle)) (ω : Nat → K) (pos k : Nat) (p q : Int × Int) (d : Fl K) :
    ErrIn S (calcTravelTime A F P ω pos k p q d) := by
  unfold calcTravelTime
  split
  · refine .bind (get_err hS _ _ _) fun _ _ => .bind (get_err hS _ _ _) fun _ _ => ?_
    simp only
    refine .bind (flat9_err hS _ _) fun a ha => .bind (get_err hS _ _ _) fun v hva => .bind ?_ fun _ _ => .pure _
    rcases hv with h | ⟨h1, h2⟩
    · unfold mathCos
      split
      · exact .ok _
      · exact .ok _
      · exact .err h
    · obtain ⟨c, hc⟩ := mathCos_ok (A := A) (F := F) h1 h2 ha hva
      rw [hc]; exact .ok _
  · exact .pure _

theorem updatedOptional_err {S : PyErr → Prop} (hS : Usual S) (P : PObj K) (vars : List String) (news : List (Int × Int)) :
    ErrIn S (updatedOptional P vars news) := by
  unfold updatedOptional
  refine .bind ?_ fun _ _ => .bind (.mapE fun v _ => ?_) fun _ _ => .pure _
  · unfold roiPart
    split
    · exact .bind (.mapE fun q _ => .bind (get_err hS _ _ _) fun _ _ => .pure _) fun _ _ => .pure _
    · exact .ok _
  · unfold varPart
    split
    · exact .bind (.mapE fun q _ => .bind (get_err hS _ _ _) fun _ _ => .pure _) fun _ _ => .pure _
    · exact .ok _

theorem particleStepper_err {S : PyErr → Prop} (hS : Usual S) {P : PObj K}
    (hv : S .valueError ∨ (AnglesOk P ∧ FinLike P.depth P.velocityAngle)) (ω : Nat → K) (s : World K) (cur : List (Int × Int))
    (times : List (Fl K)) (vars : List String) : ErrIn S (particleStepper A F P ω s cur times vars) := by
  unfold particleStepper
  refine .bind (.mapAcc (fun s p _ => newCell1_err hS P ω s p) s) fun _ _ => ?_
  simp only
  refine .bind (.mapE fun p _ => ?_) fun _ _ => .bind (.mapE fun p _ => ?_) fun _ _ =>
    .bind (.mapAcc (fun m q _ => calcTravelTime_err hS hv ω m _ _ _ _) _) fun _ _ => ?_
  · unfold newInd1 calculateNewInd
    split
    · exact .bind (flat9_err hS _ _) fun _ _ => .bind (flat9_err hS _ _) fun _ _ => .pure _
    · exact .ok _
  · unfold stepUpdate
    exact .bind (flat9_err hS _ _) fun _ _ => .pure _
  · exact .bind (updatedOptional_err hS _ _ _) fun _ _ => .pure _

theorem pickOpt_err {S : PyErr → Prop} (hS : Usual S) (upd : List (String × List (Val K))) (keys : List String) (k : Nat) :
    ErrIn S (pickOpt upd keys k) := by
  unfold pickOpt
  refine .mapE fun v _ => ?_
  split
  · exact .bind (listGet_err hS _ _) fun _ _ => .pure _
  · exact .err hS.key

theorem storeSteps_err {S : PyErr → Prop} (hS : Usual S) {starts news : List (Int × Int)} {times : List (Fl K)}
    {upd : List (String × List (Val K))} {keys : List String} (is : List Nat) (wd : WalkData K) :
    ErrIn S (storeSteps starts news times upd keys is wd) := by
  induction is generalizing wd with
  | nil => exact .ok _
  | cons a is ih =>
    unfold storeSteps
    refine .bind (listGet_err hS _ _) fun _ _ => .bind (listGet_err hS _ _) fun _ _ => ?_
    split
    · exact .bind (listGet_err hS _ _) fun _ _ => .bind (pickOpt_err hS _ _ _) fun _ _ => ih _
    · exact ih _

theorem targetLoop_err {S : PyErr → Prop} (hS : Usual S) {P : PObj K}
    (hv : S .valueError ∨ (AnglesOk P ∧ FinLike P.depth P.velocityAngle)) {ω : Nat → K} {target : Fl K} {maxIter : Int}
    {keys : List String} {ii : Nat} (fuel : Nat) (wd : WalkData K) (s : World K) (est : Fl K) (count : Int)
    (hf : 1 ≤ fuel) (hc : maxIter + 2 ≤ fuel + count) :
    ErrIn S (targetLoop A F P ω target maxIter keys ii fuel wd s est count) := by
  induction fuel generalizing wd s est count with
  | zero => omega
  | succ fuel ih =>
    unfold targetLoop
    refine .bind (lastAt_err hS _ _) fun _ _ => ?_
    split
    · refine .bind (lastAt_err hS _ _) fun _ _ => .bind (lastAt_err hS _ _) fun _ _ =>
        .bind (particleStepper_err hS hv _ _ _ _ _) fun _ _ => ?_
      simp only
      refine .bind (listGet_err hS _ _) fun _ _ => ?_
      split
      · refine .bind (listGet_err hS _ _) fun _ _ => .bind (pickOpt_err hS _ _ _) fun _ _ => ?_
        split
        · exact .pure _
        · exact ih _ _ _ _ (by omega) (by push_cast at hc; omega)
      · exact .pure _
    · exact .pure _

theorem targetAll_err {S : PyErr → Prop} (hS : Usual S) {P : PObj K}
    (hv : S .valueError ∨ (AnglesOk P ∧ FinLike P.depth P.velocityAngle)) {ω : Nat → K} {target : Fl K} {maxIter : Int}
    {keys : List String} (is : List Nat) (wd : WalkData K) (s : World K) (w : Option (List Nat)) :
    ErrIn S (targetAll A F P ω target maxIter keys is wd s w) := by
  induction is generalizing wd s w with
  | nil => exact .ok _
  | cons a is ih =>
    unfold targetAll
    refine .bind ?_ fun _ _ => ih _ _ _
    unfold targetOne
    refine .bind (listGet_err hS _ _) fun _ _ => .bind (lastAt_err hS _ _) fun _ _ => .bind (lastAt_err hS _ _) fun _ _ => ?_
    split
    · exact .pure _
    · exact targetLoop_err hS hv _ _ _ _ _ (by omega) (by push_cast; omega)

/-- Exceptions of `run_iteration` once walk data exists: never the recursion bound, and a ValueError only from infinite angles. -/
theorem runIteration_err {S : PyErr → Prop} (hS : Usual S) {P : PObj K}
    (hv : S .valueError ∨ (AnglesOk P ∧ FinLike P.depth P.velocityAngle)) {ω : Nat → K} {s : PState K} {wd : WalkData K}
    (hwd : s.walk = some wd) {target : Option (Fl K)} {maxIter : Int} : ErrIn S (runIteration A F P ω s target maxIter) := by
  unfold runIteration
  rw [hwd]
  simp only
  refine .bind (.mapE fun _ _ => lastAt_err hS _ _) fun _ _ => .bind (.mapE fun _ _ => lastAt_err hS _ _) fun _ _ =>
    .bind (.mapE fun _ _ => lastAt_err hS _ _) fun _ _ => .bind (.mapE fun _ _ => .mapE fun _ _ => lastAt_err hS _ _) fun _ _ => ?_
  cases target with
  | none =>
    exact .bind (particleStepper_err hS hv _ _ _ _ _) fun _ _ => .bind (storeSteps_err hS _ _) fun _ _ => .pure _
  | some t =>
    refine .bind (targetAll_err hS hv _ _ _ _) fun r _ => ?_
    obtain ⟨out, w1, warn⟩ := r
    cases warn with
    | none => exact .err hS.unbound
    | some l => exact .pure _

/-- Number of steps of the while loop. -/
theorem LoopRun.count {P : PObj K} {ω : Nat → K} {target : Fl K} {maxIter : Int} {r r' : Row K} {est est' : Fl K}
    {c : Int} {e : Exit} {n : Nat} (h : LoopRun A F P ω target maxIter r est c r' est' e n) :
    r'.xs.length = r.xs.length + n ∧ ((n : Int) ≤ 1 ∨ (n : Int) ≤ maxIter + 1 - c) := by
  induction h with
  | reached => simp
  | still => simp
  | limit _ _ hs _ _ =>
    obtain ⟨p, t, q, t', v, -, -, -, -, -, rfl⟩ := hs
    simp [Row.append]
  | more _ _ hs _ _ _ ih =>
    obtain ⟨p, t, q, t', v, -, -, -, -, -, rfl⟩ := hs
    simp [Row.append] at ih ⊢
    omega

/-! ## Routing of interior particles cannot fail -/

theorem Inside.nat {R C : Nat} {p : Int × Int} (h : Inside R C p) :
    ∃ a b : Nat, p = ((a : Int), (b : Int)) ∧ 1 ≤ a ∧ a + 1 < R ∧ 1 ≤ b ∧ b + 1 < C := by
  obtain ⟨h1, h2, h3, h4⟩ := h
  refine ⟨p.1.toNat, p.2.toNat, Prod.ext (by simp; omega) (by simp; omega), ?_, ?_, ?_, ?_⟩ <;> omega

theorem get_inside {α : Type} {g : Grid α} {R C : Nat} (hr : g.rows = R) (hc : g.cols = C) {p : Int × Int} (h : Inside R C p) :
    ∃ a, g.get p.1 p.2 = .ok a := by
  obtain ⟨h1, h2, h3, h4⟩ := h
  unfold Grid.get
  rw [pyIdx_nonneg (by omega) (by omega), pyIdx_nonneg (by omega) (by omega)]
  exact ⟨_, rfl⟩

/-- Where any step from an interior position leads. -/
theorem dest_inside {P : PObj K} (G : Good P) (hw : DefaultWalk P) (hz : StepsNonzero A P) (hring : EdgeRing P)
    {p q0 : Int × Int} (hp : Inside P.depth.rows P.depth.cols p) {k : Nat} {d : Fl K} (hq0 : newInd1 P p k = .ok q0)
    (hd : stepUpdate A k P.distances P.dx = .ok d) :
    Inside P.depth.rows P.depth.cols (checkForBoundary1 (zeroDist q0 d) p P.cellType) := by
  unfold checkForBoundary1
  split
  · exact hp
  rename_i he
  obtain ⟨a, b, rfl, ha, ha', hb, hb'⟩ := hp.nat
  rw [nearEdge_iff ha hb] at he
  have hk : k < 9 ∧ A.mul (P.distances k) (.fin P.dx) = d := by
    unfold stepUpdate flat9 at hd
    simp only [bind_ok, pure_ok] at hd
    obtain ⟨a, ha, rfl⟩ := hd
    split at ha
    · injection ha with ha; subst ha; exact ⟨‹_›, rfl⟩
    · cases ha
  obtain ⟨hk, rfl⟩ := hk
  have hzd : zeroDist q0 (A.mul (P.distances k) (.fin P.dx)) = q0 := by
    unfold zeroDist
    rw [if_neg]
    have := hz k hk
    intro hh
    cases hm : A.mul (P.distances k) (.fin P.dx) <;> rw [hm] at hh this <;> simp [Fl.eq] at hh
    exact this (by rw [hh])
  rw [hzd]
  have hdest : q0 = (((Flow.nr a k : Nat) : Int), ((Flow.nc b k : Nat) : Int)) := by
    rw [← default_dest hw hk ha hb]
    unfold newInd1 calculateNewInd flat9 at hq0
    by_cases h4 : k = 4
    · subst h4
      simp at hq0
      rw [← hq0, hw.1, hw.2]
      simp [defaultIwalk, defaultJwalk]
    · rw [if_pos h4, if_pos hk, if_pos hk] at hq0
      simp only [ok_bind, pure_ok] at hq0
      rw [← hq0]
  rw [hdest]
  have h1 : a ≤ Flow.nr a k + 1 ∧ Flow.nr a k ≤ a + 1 ∧ b ≤ Flow.nc b k + 1 ∧ Flow.nc b k ≤ b + 1 := by
    unfold Flow.nr Flow.nc; omega
  have hr1 := G.ct_rows
  have hc1 := G.ct_cols
  have hnot : ¬ (Flow.nr a k = 0 ∨ Flow.nc b k = 0 ∨ Flow.nr a k + 1 = P.cellType.rows ∨ Flow.nc b k + 1 = P.cellType.cols) := by
    intro hb2
    exact he ⟨Flow.nr a k, Flow.nc b k, by omega, by omega, ⟨h1.1, h1.2.1⟩, ⟨h1.2.2.1, h1.2.2.2⟩,
      hring _ _ (by omega) (by omega) hb2⟩
  unfold Inside
  simp only
  omega

theorem availVar_shape {P : PObj K} (Fd : Fields A P) {var : String} {g : Grid (Fl K)} (h : availVar P var = some g) :
    g.rows = P.depth.rows ∧ g.cols = P.depth.cols := by
  unfold availVar at h
  split at h
  · cases h; exact ⟨rfl, rfl⟩
  split at h
  · cases h; exact ⟨Fd.good.stage_rows, Fd.good.stage_cols⟩
  split at h
  · cases h; exact Fd.qx.2
  split at h
  · cases h; exact Fd.qy.2
  split at h
  · cases h; exact Fd.u.2
  split at h
  · cases h; exact Fd.v.2
  · cases h

/-- Sampling tracked variables at interior positions. -/
theorem updatedOptional_total {P : PObj K} (Fd : Fields A P) {vars : List String} {news : List (Int × Int)}
    (hn : ∀ q ∈ news, Inside P.depth.rows P.depth.cols q) : ∃ upd, updatedOptional P vars news = .ok upd := by
  unfold updatedOptional
  have h1 : ∃ rp, roiPart P news = .ok rp := by
    unfold roiPart
    cases hr : P.roi with
    | none => exact ⟨_, rfl⟩
    | some g =>
      obtain ⟨l, hl⟩ := mapE_exists (f := roiFlagAt g) (l := news) fun q hq => by
        obtain ⟨v, hv⟩ := get_inside (Fd.roi g hr).1 (Fd.roi g hr).2 (hn q hq)
        unfold roiFlagAt
        rw [hv]
        exact ⟨_, rfl⟩
      simp only [hl]
      exact ⟨_, rfl⟩
  obtain ⟨rp, h1⟩ := h1
  obtain ⟨rest, h2⟩ := mapE_exists (f := varPart P news) (l := vars.filter fun v => !(rp.any fun e => e.1 == v)) fun var _ => by
    unfold varPart
    cases hv : availVar P var with
    | none => exact ⟨_, rfl⟩
    | some g =>
      obtain ⟨l, hl⟩ := mapE_exists (f := sampleAt g) (l := news) fun q hq => by
        obtain ⟨v, hv⟩ := get_inside (availVar_shape Fd hv).1 (availVar_shape Fd hv).2 (hn q hq)
        unfold sampleAt
        rw [hv]
        exact ⟨_, rfl⟩
      simp only [hl]
      exact ⟨_, rfl⟩
  rw [h1]
  simp only [ok_bind, h2]
  exact ⟨_, rfl⟩

/-- Conditions under which routing cannot fail. -/
structure Routable (A : Arith K) (P : PObj K) : Prop where
  fields : Fields A P
  walk : DefaultWalk P
  steps : StepsNonzero A P
  ring : EdgeRing P
  angles : AnglesOk P
  vars : VarsOk P

theorem newCell1_total {P : PObj K} (G : Good P) {ω : Nat → K} (hω : Draws ω) {s : World K} (hw : PickEquiv A F P s.weight)
    {p : Int × Int} (hp : Inside P.depth.rows P.depth.cols p) :
    ∃ k s', newCell1 A P ω s p = .ok (k, s') ∧ PickEquiv A F P s'.weight ∧ k < 9 := by
  obtain ⟨h1, h2, h3, h4⟩ := hp
  unfold newCell1
  rw [if_pos (by rintro rfl; simp at h1), getWeight_eq]
  have hr := G.stage_rows
  have hc := G.stage_cols
  have hi : p.1.toNat < P.stage.rows := by omega
  have hj : p.2.toNat < P.stage.cols := by omega
  rw [pyIdx_nonneg (by omega) (by omega), pyIdx_nonneg (by omega) (by omega)]
  simp only [ok_bind]
  rw [pickFrom_congr A (fun k hk => hw _ _ hi hj k hk)]
  obtain ⟨x, hx, hx0, hxr⟩ := mask_vec (A := A) (F := F) G hi hj
  obtain ⟨k, hk, hpick, -⟩ := pickFrom_spec A hx hx0 (hxr 0 (by omega)) (hω s.pos).2
  rw [hpick]
  exact ⟨k, _, rfl, hw.touch A F G hi hj, hk⟩

theorem particleStepper_total {P : PObj K} (R : Routable A P) {ω : Nat → K} (hω : Draws ω) {s : World K}
    (hw : PickEquiv A F P s.weight) {cur : List (Int × Int)} (hcur : ∀ p ∈ cur, Inside P.depth.rows P.depth.cols p)
    (times : List (Fl K)) (vars : List String) (hvars : ∀ v ∈ vars, v ∈ keysOf P) :
    ∃ news times' upd s', particleStepper A F P ω s cur times vars = .ok ((news, times', upd), s') ∧
      (∀ v ∈ vars, ∃ l, dictGet upd v = some l) := by
  have G := R.fields.good
  obtain ⟨cells, s1, hcells⟩ := mapAcc_exists (f := newCell1 A P ω) (fun s : World K => PickEquiv A F P s.weight) (l := cur)
    (fun s hs p hp => by
      obtain ⟨k, s', h1, h2, -⟩ := newCell1_total G hω hs (hcur p hp)
      exact ⟨k, s', h1, h2⟩) hw
  have hk := (mapAcc_inv (fun s : World K => PickEquiv A F P s.weight) (fun p k => Inside P.depth.rows P.depth.cols p → k < 9) (by
    intro s a b s' hs hb
    by_cases ha : Inside P.depth.rows P.depth.cols a
    · obtain ⟨k, s2, h1, h2, h3⟩ := newCell1_total G hω hs ha
      rw [h1] at hb
      cases hb
      exact ⟨h2, fun _ => h3⟩
    · refine ⟨?_, fun h => absurd h ha⟩
      unfold newCell1 at hb
      split at hb
      · exact (getWeight_inv A F G hs hb).1
      · cases hb; exact hs) hw hcells).2
  have hcell : ∀ (i : Nat) (p : Int × Int) (k : Nat), cur[i]? = some p → cells[i]? = some k → k < 9 := by
    intro i p k hp hk'
    obtain ⟨b, hb, hb'⟩ := Forall₂_get hk hp
    rw [hk'] at hb
    cases hb
    exact hb' (hcur p (List.mem_of_getElem? hp))
  have hlen : cells.length = cur.length := hk.length_eq.symm
  have hk9 : ∀ k ∈ cells, k < 9 := by
    intro k hk'
    obtain ⟨i, hi⟩ := List.getElem?_of_mem hk'
    have hlt : i < cur.length := by rw [← hlen]; exact (List.getElem?_eq_some_iff.1 hi).1
    exact hcell i _ k (List.getElem?_eq_getElem hlt) hi
  have hflat : ∀ {α : Type} (t : Nat → α) {k : Nat}, k < 9 → flat9 t k = .ok (t k) := fun t k hk => by unfold flat9; rw [if_pos hk]
  obtain ⟨inds0, hinds0⟩ := mapE_exists (f := fun p : (Int × Int) × Nat => newInd1 P p.1 p.2) (l := cur.zip cells) fun p hp => by
    unfold newInd1 calculateNewInd
    split
    · rw [hflat _ (hk9 _ (List.of_mem_zip hp).2), hflat _ (hk9 _ (List.of_mem_zip hp).2)]
      exact ⟨_, rfl⟩
    · exact ⟨_, rfl⟩
  obtain ⟨dist, hdist⟩ := mapE_exists (f := fun c => stepUpdate A c P.distances P.dx) (l := cells) fun k hk' => by
    unfold stepUpdate
    rw [hflat _ (hk9 k hk')]
    exact ⟨_, rfl⟩
  have hlen2 := mapE_length hinds0
  have hlen3 := mapE_length hdist
  have hnew : ∀ (i : Nat) (p : Int × Int) (k : Nat) (q : Int × Int), cur[i]? = some p → cells[i]? = some k →
      (checkForBoundary (List.zipWith zeroDist inds0 dist) cur P.cellType)[i]? = some q → Inside P.depth.rows P.depth.cols q := by
    intro i p k q hp hk' hq
    have hz : (cur.zip cells)[i]? = some (p, k) := by rw [List.getElem?_zip_eq_some]; exact ⟨hp, hk'⟩
    obtain ⟨q0, hq0, hq0'⟩ := mapE_get hinds0 hz
    obtain ⟨d, hd, hd'⟩ := mapE_get hdist hk'
    unfold checkForBoundary at hq
    rw [List.getElem?_zipWith_eq_some] at hq
    obtain ⟨q1, p1, hq1, hp1, rfl⟩ := hq
    rw [List.getElem?_zipWith_eq_some] at hq1
    obtain ⟨q2, d2, hq2, hd2, rfl⟩ := hq1
    rw [hp] at hp1; cases hp1
    rw [hq0] at hq2; cases hq2
    rw [hd] at hd2; cases hd2
    exact dest_inside G R.walk R.steps R.ring (hcur p (List.mem_of_getElem? hp)) hq0' hd'
  have hnewmem : ∀ q ∈ checkForBoundary (List.zipWith zeroDist inds0 dist) cur P.cellType, Inside P.depth.rows P.depth.cols q := by
    intro q hq
    obtain ⟨i, hi⟩ := List.getElem?_of_mem hq
    have hlt : i < cur.length := by
      have := (List.getElem?_eq_some_iff.1 hi).1
      unfold checkForBoundary at this
      simp at this
      omega
    exact hnew i _ _ q (List.getElem?_eq_getElem hlt) (List.getElem?_eq_getElem (by omega : i < cells.length)) hi
  obtain ⟨temp, pos', htemp⟩ := mapAcc_exists
    (f := fun pos (q : (Nat × (Int × Int)) × ((Int × Int) × Fl K)) => calcTravelTime A F P ω pos q.1.1 q.1.2 q.2.1 q.2.2)
    (fun _ : Nat => True)
    (l := (cells.zip cur).zip ((checkForBoundary (List.zipWith zeroDist inds0 dist) cur P.cellType).zip dist))
    (fun m _ q hq => by
      obtain ⟨⟨k, p⟩, ⟨q, d⟩⟩ := q
      obtain ⟨h1, h2⟩ := List.of_mem_zip hq
      obtain ⟨h1a, h1b⟩ := List.of_mem_zip h1
      obtain ⟨h2a, h2b⟩ := List.of_mem_zip h2
      simp only
      unfold calcTravelTime
      split
      · obtain ⟨ov, hov⟩ := get_inside R.fields.vel_rows R.fields.vel_cols (hcur p h1b)
        obtain ⟨nv, hnv⟩ := get_inside R.fields.vel_rows R.fields.vel_cols (hnewmem q h2a)
        obtain ⟨va, hva⟩ := get_inside R.fields.ang.2.1 R.fields.ang.2.2 (hcur p h1b)
        obtain ⟨c, hc⟩ := mathCos_ok (A := A) (F := F) R.angles R.fields.ang (hflat P.angles (hk9 k h1a)) hva
        rw [hov, hnv]
        simp only [ok_bind]
        rw [hflat P.angles (hk9 k h1a), hva]
        simp only [ok_bind, hc]
        exact ⟨_, _, rfl, trivial⟩
      · exact ⟨_, _, rfl, trivial⟩) trivial (s := s1.pos)
  obtain ⟨upd, hupd⟩ := updatedOptional_total R.fields (vars := vars) hnewmem
  have hps : ∃ r, particleStepper A F P ω s cur times vars = .ok r ∧ r.1.2.2 = upd := by
    unfold particleStepper
    rw [hcells]
    simp only [ok_bind]
    rw [hinds0]
    simp only [ok_bind]
    rw [hdist]
    simp only [ok_bind]
    rw [htemp]
    simp only [ok_bind]
    rw [hupd]
    exact ⟨_, rfl, rfl⟩
  obtain ⟨⟨⟨n, t, upd'⟩, s'⟩, h1, rfl⟩ := hps
  exact ⟨n, t, upd', s', h1, fun v hv => updatedOptional_has R.vars hvars hupd hv⟩

end Dorado
