import Verif.Spec.Draws
import Verif.Lemmas.RunStmt
import Verif.Lemmas.TimeMap

/-! Helper lemmas: which random numbers a call uses. -/

set_option linter.unusedSectionVars false

namespace Dorado

variable {K : Type} [Field K] [LinearOrder K] [IsStrictOrderedRing K] {A : Arith K} {F : Fun K A}
variable {σ α β : Type} {ω ω' : Nat → K}

/-! ## Only the numbers drawn matter -/

/-- The generator is never rewound, and `m'` does the same as `m` if the streams agree on the numbers that `m` draws. -/
def Causal (pos : σ → Nat) (ω ω' : Nat → K) (m m' : PyM σ α) : Prop :=
  ∀ s, pos s ≤ pos (m s).2 ∧ ((∀ n, pos s ≤ n → n < pos (m s).2 → ω' n = ω n) → m' s = m s)

variable {pos : σ → Nat}

theorem Causal.bind {m m' : PyM σ α} {f f' : α → PyM σ β} (h : Causal pos ω ω' m m') (hf : ∀ a, Causal pos ω ω' (f a) (f' a)) :
    Causal pos ω ω' (m >>= f) (m' >>= f') := by
  intro s
  obtain ⟨h1, h2⟩ := h s
  cases hm : m s with
  | mk x s1 =>
    rw [hm] at h1 h2
    cases x with
    | error e =>
      rw [PyM.error_run hm]
      exact ⟨h1, fun hag => PyM.error_run (h2 hag)⟩
    | ok a =>
      obtain ⟨g1, g2⟩ := hf a s1
      rw [PyM.ok_run hm]
      refine ⟨h1.trans g1, fun hag => ?_⟩
      rw [PyM.ok_run (h2 fun n hn hn' => hag n hn (lt_of_lt_of_le hn' g1))]
      exact g2 fun n hn hn' => hag n (h1.trans hn) hn'

theorem Causal.lift (x : Except PyErr α) : Causal pos ω ω' (PyM.lift x) (PyM.lift x) := fun _ => ⟨le_refl _, fun _ => rfl⟩

theorem Causal.pure (a : α) : Causal pos ω ω' (Pure.pure a) (Pure.pure a) := fun _ => ⟨le_refl _, fun _ => rfl⟩

theorem Causal.read : Causal pos ω ω' (PyM.read : PyM σ σ) PyM.read := fun _ => ⟨le_refl _, fun _ => rfl⟩

theorem Causal.assign {f : σ → σ} (h : ∀ s, pos s ≤ pos (f s)) : Causal pos ω ω' (PyM.assign f) (PyM.assign f) := fun s => ⟨h s, fun _ => rfl⟩

/-- Statements that use the draw at the current position after moving past it. -/
theorem Causal.draw {m m' : σ → PyM σ α} {f : σ → σ} (hf : ∀ s, pos s ≤ pos (f s)) (hm : ∀ s, pos s < pos (f s) → ω' (pos s) = ω (pos s) → m' s = m s)
    (hm0 : ∀ s, pos s = pos (f s) → m' s = m s) (hmono : ∀ s, Causal pos ω ω (m s) (m s)) :
    Causal pos ω ω' (do let s ← PyM.read; PyM.assign f; m s) (do let s ← PyM.read; PyM.assign f; m' s) := by
  intro s
  rw [PyM.read_run, PyM.read_run, PyM.assign_run, PyM.assign_run]
  refine ⟨(hf s).trans ((hmono s _).1), fun hag => ?_⟩
  rcases (hf s).eq_or_lt with h | h
  · rw [hm0 s h]
  · rw [hm s h (hag _ (le_refl _) (lt_of_lt_of_le h ((hmono s _).1)))]

/-- The position of the generator in the state of an object. -/
def objPos (s : PState K) : Nat := s.world.pos

/-- The same during a call. -/
def runPos (s : RunSt K) : Nat := s.obj.world.pos

theorem pickFrom_fails {p : Nat → Fl K} {r r' : K} {e : PyErr} (h : pickFrom A p r = .error e) : pickFrom A p r' = .error e := by
  unfold pickFrom uniform0 at h ⊢
  generalize cumsum A p 8 = c at h ⊢
  cases c <;> first | exact h | cases h

theorem newCellStmt_causal (P : PObj K) (ind : Int × Int) : Causal objPos ω ω' (newCellStmt A P ω ind) (newCellStmt A P ω' ind) := by
  unfold newCellStmt
  split
  · unfold getWeightStmt
    refine Causal.bind (Causal.lift _) fun i => Causal.bind (Causal.lift _) fun j => ?_
    intro s
    rw [PyM.read_run, PyM.read_run, PyM.assign_run, PyM.assign_run]
    generalize (if P.steepest = true then steepMask (s.world.weight i j) else zeroNan (s.world.weight i j)) = p
    cases hp : pickFrom A p (ω s.world.pos) with
    | error e => 
      rw [PyM.lift_error rfl, pickFrom_fails hp, PyM.lift_error rfl]
      exact ⟨le_refl _, fun _ => rfl⟩
    | ok k =>
      rw [PyM.lift_run rfl]
      refine ⟨Nat.le_succ _, fun hag => ?_⟩
      rw [hag s.world.pos (le_refl _) (Nat.lt_succ_self _), hp, PyM.lift_run rfl]
  · exact Causal.pure _

theorem newCellsStmt_causal (P : PObj K) (cur : List (Int × Int)) : Causal objPos ω ω' (newCellsStmt A P ω cur) (newCellsStmt A P ω' cur) := by
  induction cur with
  | nil => exact Causal.pure _
  | cons ind rest ih => exact Causal.bind (newCellStmt_causal P ind) fun k => Causal.bind ih fun ks => Causal.pure _

theorem travelTimeStmt_causal (P : PObj K) (cell : Nat) (a b : Int × Int) (d : Fl K) :
    Causal objPos ω ω' (travelTimeStmt A F P ω cell a b d) (travelTimeStmt A F P ω' cell a b d) := by
  unfold travelTimeStmt
  split
  · refine Causal.bind (Causal.lift _) fun v => Causal.bind (Causal.lift _) fun w => ?_
    refine Causal.draw (fun s => ?_) (fun s _ h => ?_) (fun s h => ?_) fun s => ?_
    · split
      · exact Nat.le_succ _
      · exact le_refl _
    · unfold objPos at h
      rw [h]
    · split at h
      · unfold objPos PState.atPos at h
        simp at h
      · rename_i hd
        simp only [if_neg hd]
    · exact Causal.bind (Causal.lift _) fun ang => Causal.bind (Causal.lift _) fun va => Causal.bind (Causal.lift _) fun c => Causal.pure _
  · exact Causal.pure _

theorem travelTimesStmt_causal (P : PObj K) (l : List ((Nat × (Int × Int)) × ((Int × Int) × Fl K))) :
    Causal objPos ω ω' (travelTimesStmt A F P ω l) (travelTimesStmt A F P ω' l) := by
  induction l with
  | nil => exact Causal.pure _
  | cons q rest ih => exact Causal.bind (travelTimeStmt_causal P _ _ _ _) fun k => Causal.bind ih fun ks => Causal.pure _

theorem stepperStmt_causal (P : PObj K) (cur : List (Int × Int)) (times : List (Fl K)) (vars : List String) :
    Causal objPos ω ω' (stepperStmt A F P ω cur times vars) (stepperStmt A F P ω' cur times vars) := by
  unfold stepperStmt
  exact Causal.bind (newCellsStmt_causal P cur) fun cells => Causal.bind (Causal.lift _) fun inds => Causal.bind (Causal.lift _) fun dist =>
    Causal.bind (travelTimesStmt_causal P _) fun temp => Causal.bind (Causal.lift _) fun opt => Causal.pure _

theorem Causal.onObj {m m' : PyM (PState K) α} (h : Causal objPos ω ω' m m') : Causal runPos ω ω' (PyM.onObj m) (PyM.onObj m') := by
  intro s
  obtain ⟨h1, h2⟩ := h s.obj
  refine ⟨h1, fun hag => ?_⟩
  have := h2 hag
  unfold PyM.onObj
  rw [this]

theorem Causal.withView {m m' : PyM (RunSt K) α} (h : Causal runPos ω ω' m m') (view : List (String × List (List (Val K)))) :
    Causal objPos ω ω' (PyM.withView view m) (PyM.withView view m') := by
  intro s
  obtain ⟨h1, h2⟩ := h ⟨s, view⟩
  refine ⟨h1, fun hag => ?_⟩
  have := h2 hag
  unfold PyM.withView
  rw [this]

/-- Statements that do not draw. -/
def Still (m : PyM (RunSt K) α) : Prop := ∀ s, (m s).2.obj.world = s.obj.world ∧ (m s).2.obj.np = s.obj.np

theorem Still.bind {m : PyM (RunSt K) α} {f : α → PyM (RunSt K) β} (h : Still m) (hf : ∀ a, Still (f a)) : Still (m >>= f) := by
  intro s
  cases hm : m s with
  | mk x s1 =>
    have := h s
    rw [hm] at this
    cases x with
    | error e => rw [PyM.error_run hm]; exact this
    | ok a => rw [PyM.ok_run hm, (hf a s1).1, (hf a s1).2]; exact this

theorem Still.lift (x : Except PyErr α) : Still (K := K) (PyM.lift x) := fun _ => ⟨rfl, rfl⟩

theorem Still.causal {m : PyM (RunSt K) α} (h : Still m) : Causal runPos ω ω' m m :=
  fun s => ⟨le_of_eq (by unfold runPos; rw [(h s).1]), fun _ => rfl⟩

theorem appendVarsStmt_still (ii k : Nat) (upd : List (String × List (Val K))) (keys : List String) : Still (appendVarsStmt ii k upd keys) := by
  induction keys with
  | nil => exact fun _ => ⟨rfl, rfl⟩
  | cons var rest ih =>
    unfold appendVarsStmt
    split
    · exact Still.lift _
    · exact Still.bind (Still.lift _) fun v => Still.bind (fun _ => ⟨rfl, rfl⟩) fun _ => ih

theorem appendRecStmt_still (ii k : Nat) (q : Int × Int) (times : List (Fl K)) (upd : List (String × List (Val K))) (keys : List String) :
    Still (appendRecStmt ii k q times upd keys) := by
  unfold appendRecStmt
  exact Still.bind (fun _ => ⟨rfl, rfl⟩) fun _ => Still.bind (fun _ => ⟨rfl, rfl⟩) fun _ => Still.bind (Still.lift _) fun _ => Still.bind (fun _ => ⟨rfl, rfl⟩) fun _ =>
    appendVarsStmt_still _ _ _ _

theorem storeStmt_still (starts news : List (Int × Int)) (times : List (Fl K)) (upd : List (String × List (Val K))) (keys : List String)
    (is : List Nat) : Still (storeStmt starts news times upd keys is) := by
  induction is with
  | nil => exact fun _ => ⟨rfl, rfl⟩
  | cons i is ih =>
    unfold storeStmt
    refine Still.bind (Still.lift _) fun n => Still.bind (Still.lift _) fun p => ?_
    split
    · exact Still.bind (appendRecStmt_still _ _ _ _ _ _) fun _ => ih
    · exact ih

theorem loopStmt_causal (P : PObj K) (target : Fl K) (maxIter : Int) (keys : List String) (ii fuel : Nat) (est : Fl K) (count : Int) :
    Causal runPos ω ω' (loopStmt A F P ω target maxIter keys ii fuel est count) (loopStmt A F P ω' target maxIter keys ii fuel est count) := by
  induction fuel generalizing est count with
  | zero =>
    unfold loopStmt
    refine Causal.bind Causal.read fun s => Causal.bind (Causal.lift _) fun t => ?_
    split
    · exact Causal.lift _
    · exact Causal.pure _
  | succ fuel ih =>
    unfold loopStmt
    refine Causal.bind Causal.read fun s => Causal.bind (Causal.lift _) fun t => ?_
    split
    · refine Causal.bind (Causal.lift _) fun x => Causal.bind (Causal.lift _) fun y => Causal.bind (Causal.lift _) fun _ =>
        Causal.bind (stepperStmt_causal P _ _ _).onObj fun r => Causal.bind (Causal.lift _) fun n => ?_
      split
      · refine Causal.bind (appendRecStmt_still _ _ _ _ _ _).causal fun _ => Causal.bind Causal.read fun s1 => Causal.bind (Causal.lift _) fun ts => ?_
        split
        · exact Causal.pure _
        · exact ih _ _
      · exact Causal.pure _
    · exact Causal.pure _

theorem allStmt_causal (P : PObj K) (target : Fl K) (maxIter : Int) (keys : List String) (is : List Nat) (warn : Option (List Nat)) :
    Causal runPos ω ω' (allStmt A F P ω target maxIter keys is warn) (allStmt A F P ω' target maxIter keys is warn) := by
  induction is generalizing warn with
  | nil => exact Causal.pure _
  | cons i is ih =>
    unfold allStmt
    refine Causal.bind ?_ fun hit => ih _
    unfold oneStmt
    refine Causal.bind Causal.read fun s => Causal.bind (Causal.lift _) fun ts => Causal.bind (Causal.lift _) fun x => Causal.bind (Causal.lift _) fun y => ?_
    split
    · exact Causal.pure _
    · exact loopStmt_causal P target maxIter keys i _ _ _

theorem runStmt_causal (P : PObj K) (target : Option (Fl K)) (maxIter : Int) :
    Causal objPos ω ω' (runStmt A F P ω target maxIter) (runStmt A F P ω' target maxIter) := by
  unfold runStmt
  refine Causal.bind Causal.read fun s0 => ?_
  split
  · exact Causal.lift _
  · refine Causal.bind (Causal.assign fun s => ?_) fun _ => Causal.bind Causal.read fun s => Causal.bind (Causal.lift _) fun sx =>
      Causal.bind (Causal.lift _) fun sy => Causal.bind (Causal.lift _) fun st => Causal.bind (Causal.lift _) fun _ => Causal.withView ?_ _
    · split <;> exact le_refl _
    · cases target with
      | none =>
        exact Causal.bind (stepperStmt_causal P _ _ _).onObj fun r => Causal.bind (storeStmt_still _ _ _ _ _ _).causal fun _ =>
          Causal.bind Causal.read fun s1 => Causal.pure _
      | some tgt =>
        refine Causal.bind (allStmt_causal P _ _ _ _ _) fun warn => Causal.bind Causal.read fun s1 => ?_
        cases warn with
        | none => exact Causal.lift _
        | some l => exact Causal.bind (Causal.assign fun _ => le_refl _) fun _ => Causal.pure _

theorem randomSeedsStmt_causal (locs : List Int) (n : Nat) : Causal objPos ω ω' (randomSeedsStmt A ω locs n) (randomSeedsStmt A ω' locs n) := by
  induction n with
  | zero => exact Causal.pure _
  | succ n ih =>
    intro s
    unfold randomSeedsStmt
    rw [PyM.read_run, PyM.read_run, PyM.assign_run, PyM.assign_run]
    split
    · rename_i h
      subst h
      have e : ∀ r, randomPickSeed A [] r = .error .indexError := fun _ => rfl
      rw [e, e]
      exact ⟨le_refl _, fun _ => rfl⟩
    · obtain ⟨h1, h2⟩ : _ ∧ _ := Causal.bind (Causal.lift (randomPickSeed A locs (ω s.world.pos))) (fun c => Causal.bind ih fun cs => Causal.pure (c :: cs))
        (s.atPos (s.world.pos + 1))
      refine ⟨(Nat.le_succ _).trans h1, fun hag => ?_⟩
      rw [hag s.world.pos (le_refl _) (lt_of_lt_of_le (Nat.lt_succ_self _) h1)]
      exact h2 fun n hn hn' => hag n (le_trans (Nat.le_succ _) hn) hn'

/-! ## How many numbers are drawn -/

theorem PyM.inv {m : PyM σ α} {f : α → PyM σ β} {s s' : σ} {b : β} (h : (m >>= f) s = (.ok b, s')) :
    ∃ a s1, m s = (.ok a, s1) ∧ f a s1 = (.ok b, s') := by
  cases hm : m s with
  | mk x s1 =>
    cases x with
    | error e => rw [PyM.error_run hm] at h; cases h
    | ok a => rw [PyM.ok_run hm] at h; exact ⟨a, s1, rfl, h⟩

theorem PyM.lift_inv {x : Except PyErr α} {f : α → PyM σ β} {s s' : σ} {b : β} (h : (PyM.lift x >>= f) s = (.ok b, s')) :
    ∃ a, x = .ok a ∧ f a s = (.ok b, s') := by
  obtain ⟨a, s1, h1, h2⟩ := PyM.inv h
  cases h1
  exact ⟨a, rfl, h2⟩

theorem newCellStmt_draws {P : PObj K} {ind : Int × Int} {s s' : PState K} {k : Nat} (h : newCellStmt A P ω ind s = (.ok k, s')) :
    s'.world.pos = s.world.pos + (if ind = (0, 0) then 0 else 1) ∧ s'.walk = s.walk ∧ s'.np = s.np ∧ (ind = (0, 0) → k = 4) := by
  unfold newCellStmt at h
  split at h
  · rename_i hne
    rw [if_neg hne]
    unfold getWeightStmt at h
    obtain ⟨i, -, h⟩ := PyM.lift_inv h
    obtain ⟨j, -, h⟩ := PyM.lift_inv h
    rw [PyM.read_run, PyM.assign_run] at h
    obtain ⟨k', -, h⟩ := PyM.lift_inv h
    rw [PyM.assign_run] at h
    cases h
    exact ⟨rfl, rfl, rfl, fun e => (hne e).elim⟩
  · rename_i hne
    rw [if_pos (not_not.1 hne)]
    cases h
    exact ⟨rfl, rfl, rfl, fun _ => rfl⟩

theorem newCellsStmt_draws {P : PObj K} {cur : List (Int × Int)} {s s' : PState K} {ks : List Nat} (h : newCellsStmt A P ω cur s = (.ok ks, s')) :
    s'.world.pos = s.world.pos + cur.countP (fun p => p ≠ (0, 0)) ∧ s'.walk = s.walk ∧ s'.np = s.np ∧
      List.Forall₂ (fun (p : Int × Int) (k : Nat) => p = (0, 0) → k = 4) cur ks := by
  induction cur generalizing s ks with
  | nil => cases h; exact ⟨rfl, rfl, rfl, .nil⟩
  | cons ind rest ih =>
    unfold newCellsStmt at h
    obtain ⟨k, s1, h1, h⟩ := PyM.inv h
    obtain ⟨ks', s2, h2, h⟩ := PyM.inv h
    cases h
    obtain ⟨a1, a2, a3, a4⟩ := newCellStmt_draws h1
    obtain ⟨b1, b2, b3, b4⟩ := ih h2
    refine ⟨?_, b2.trans a2, b3.trans a3, .cons a4 b4⟩
    rw [b1, a1, List.countP_cons]
    by_cases h0 : ind = (0, 0) <;> (simp [h0]; try omega)

theorem travelTimeStmt_draws {P : PObj K} {cell : Nat} {a b : Int × Int} {d t : Fl K} {s s' : PState K}
    (h : travelTimeStmt A F P ω cell a b d s = (.ok t, s')) :
    s'.world.pos = s.world.pos + (if a = b then 0 else diffDraw P) ∧ s'.walk = s.walk ∧ s'.np = s.np := by
  unfold travelTimeStmt at h
  split at h
  · rename_i hne
    rw [if_neg hne]
    obtain ⟨v, -, h⟩ := PyM.lift_inv h
    obtain ⟨w, -, h⟩ := PyM.lift_inv h
    rw [PyM.read_run, PyM.assign_run] at h
    obtain ⟨ang, -, h⟩ := PyM.lift_inv h
    obtain ⟨va, -, h⟩ := PyM.lift_inv h
    obtain ⟨c, -, h⟩ := PyM.lift_inv h
    cases h
    unfold diffDraw
    split <;> exact ⟨rfl, rfl, rfl⟩
  · rename_i hne
    rw [if_pos (not_not.1 hne)]
    cases h
    exact ⟨rfl, rfl, rfl⟩

theorem travelTimesStmt_draws {P : PObj K} {l : List ((Nat × (Int × Int)) × ((Int × Int) × Fl K))} {s s' : PState K} {ts : List (Fl K)}
    (h : travelTimesStmt A F P ω l s = (.ok ts, s')) :
    s'.world.pos = s.world.pos + diffDraw P * l.countP (fun q => q.1.2 ≠ q.2.1) ∧ s'.walk = s.walk ∧ s'.np = s.np := by
  induction l generalizing s ts with
  | nil => cases h; exact ⟨rfl, rfl, rfl⟩
  | cons q rest ih =>
    unfold travelTimesStmt at h
    obtain ⟨k, s1, h1, h⟩ := PyM.inv h
    obtain ⟨ks', s2, h2, h⟩ := PyM.inv h
    cases h
    obtain ⟨a1, a2, a3⟩ := travelTimeStmt_draws h1
    obtain ⟨b1, b2, b3⟩ := ih h2
    refine ⟨?_, b2.trans a2, b3.trans a3⟩
    rw [b1, a1, List.countP_cons]
    by_cases h0 : q.1.2 = q.2.1 <;> (simp [h0]; try ring)

theorem zip4_count {a : List Nat} {b c : List (Int × Int)} {d : List (Fl K)} (h1 : a.length = b.length) (h2 : c.length = b.length)
    (h3 : d.length = b.length) : ((a.zip b).zip (c.zip d)).countP (fun q => q.1.2 ≠ q.2.1) = (b.zip c).countP fun q => q.1 ≠ q.2 := by
  induction b generalizing a c d with
  | nil => simp
  | cons x b ih =>
    cases a with
    | nil => simp at h1
    | cons _ a =>
      cases c with
      | nil => simp at h2
      | cons _ c =>
        cases d with
        | nil => simp at h3
        | cons _ d =>
          simp only [List.length_cons, Nat.add_right_cancel_iff] at h1 h2 h3
          simp only [List.zip_cons_cons, List.countP_cons, ih h1 h2 h3]

theorem stepperStmt_draws {P : PObj K} {cur : List (Int × Int)} {times : List (Fl K)} {vars : List String} {s s' : PState K}
    {r : List (Int × Int) × List (Fl K) × List (String × List (Val K))} (h : stepperStmt A F P ω cur times vars s = (.ok r, s')) :
    s'.world.pos = s.world.pos + cur.countP (fun p => p ≠ (0, 0)) + diffDraw P * (cur.zip r.1).countP (fun q => q.1 ≠ q.2) ∧
      s'.walk = s.walk ∧ s'.np = s.np ∧ r.1.length = cur.length ∧
      List.Forall₂ (fun (p q : Int × Int) => p = (0, 0) → q = p) cur r.1 := by
  unfold stepperStmt at h
  obtain ⟨cells, s1, h1, h⟩ := id (PyM.inv h)
  obtain ⟨inds, h2, h⟩ := PyM.lift_inv h
  obtain ⟨dist, h3, h⟩ := PyM.lift_inv h
  obtain ⟨temp, s2, h4, h⟩ := PyM.inv h
  obtain ⟨opt, h5, h⟩ := PyM.lift_inv h
  cases h
  obtain ⟨a1, a2, a3, a4⟩ := newCellsStmt_draws h1
  obtain ⟨b1, b2, b3⟩ := travelTimesStmt_draws h4
  have l1 := a4.length_eq
  have l2 := mapE_length h2
  have l3 := mapE_length h3
  simp only [List.length_zip, l1, Nat.min_self] at l2
  have l4 : (checkForBoundary (List.zipWith zeroDist inds dist) cur P.cellType).length = cur.length := by
    unfold checkForBoundary
    simp [List.length_zipWith, l1, l2, l3]
  refine ⟨?_, b2.trans a2, b3.trans a3, l4, ?_⟩
  · rw [b1, a1, zip4_count l1.symm l4 (by rw [l3, l1])]
  · simp only
    clear h4 h5 l4 b1 b2 b3 a1 a2 a3 h1
    clear * - h2 h3 l1 l2 l3 a4
    induction a4 generalizing inds dist with
    | nil => cases h2; cases h3; exact .nil
    | @cons p k cur cells hk _ ih =>
      simp only [List.zip_cons_cons, mapE, bind_ok, pure_ok] at h2 h3
      obtain ⟨q, hq, qs, hqs, rfl⟩ := h2
      obtain ⟨d, hd, ds, hds, rfl⟩ := h3
      simp only [List.zipWith_cons_cons, checkForBoundary]
      simp only [List.length_cons, Nat.add_right_cancel_iff] at l1 l2 l3
      refine .cons ?_ (ih qs hqs ds hds l1 l3 l2)
      rintro rfl
      obtain rfl := hk rfl
      unfold newInd1 at hq
      obtain rfl : (0, 0) = q := Except.ok.inj hq
      unfold checkForBoundary1 zeroDist
      split
      · rfl
      · split <;> rfl

/-- Numbers of recorded positions during a call. -/
def lens (s : RunSt K) : List Nat := s.walk.xinds.map List.length

theorem appendStmt_lens {f : WalkData K → WalkData K} {g : List Nat → List Nat} (hg : g [] = [])
    (h : ∀ wd, (f wd).xinds.map List.length = g (wd.xinds.map List.length)) (s : RunSt K) : lens (appendStmt f s).2 = g (lens s) := by
  unfold appendStmt PyM.assign lens RunSt.walk
  simp only
  cases s.obj.walk with
  | none => simp [hg]
  | some wd => exact h wd

theorem appendVarsStmt_lens (ii k : Nat) (upd : List (String × List (Val K))) (keys : List String) (s : RunSt K) :
    lens (appendVarsStmt ii k upd keys s).2 = lens s := by
  have : (appendVarsStmt ii k upd keys).Keeps fun t => lens t = lens s := by
    induction keys with
    | nil => exact PyM.Keeps.pure _
    | cons var rest ih =>
      unfold appendVarsStmt
      split
      · exact PyM.Keeps.lift _
      · refine PyM.Keeps.bind (PyM.Keeps.lift _) fun v => PyM.Keeps.bind (PyM.Keeps.assign fun t ht => ?_) fun _ => ih
        rw [← ht]
        unfold lens RunSt.walk
        simp only
        cases t.obj.walk <;> rfl
  exact this s rfl

theorem appendRecStmt_lens {ii k : Nat} {q : Int × Int} {times : List (Fl K)} {upd : List (String × List (Val K))} {keys : List String}
    {s s' : RunSt K} {u : Unit} (h : appendRecStmt ii k q times upd keys s = (.ok u, s')) : lens s' = (lens s).modify ii (· + 1) := by
  unfold appendRecStmt at h
  obtain ⟨_, s1, h1, h⟩ := PyM.inv h
  obtain ⟨_, s2, h2, h⟩ := PyM.inv h
  obtain ⟨t, -, h⟩ := PyM.lift_inv h
  obtain ⟨_, s3, h3, h⟩ := PyM.inv h
  have e1 := appendStmt_lens (f := fun wd => { wd with xinds := wd.xinds.modify ii (· ++ [q.1]) }) (g := fun l => l.modify ii (· + 1)) (by simp)
    (fun wd => by
      apply List.ext_getElem?
      intro i
      simp only [List.getElem?_map, List.getElem?_modify]
      by_cases hi : ii = i
      · subst hi
        cases wd.xinds[ii]? <;> simp
      · cases wd.xinds[i]? <;> simp [hi]) s
  have e2 := appendStmt_lens (f := fun wd => { wd with yinds := wd.yinds.modify ii (· ++ [q.2]) }) (g := id) rfl (fun _ => rfl) s1
  have e3 := appendStmt_lens (f := fun wd => { wd with times := wd.times.modify ii (· ++ [t]) }) (g := id) rfl (fun _ => rfl) s2
  have e4 := appendVarsStmt_lens ii k upd keys s3
  rw [h1] at e1
  rw [h2] at e2
  rw [h3] at e3
  rw [h] at e4
  rw [e4, e3, id_eq, e2, id_eq, e1]

theorem sum_modify {l : List Nat} {i : Nat} (h : i < l.length) : (l.modify i (· + 1)).sum = l.sum + 1 := by
  induction l generalizing i with
  | nil => simp at h
  | cons a l ih =>
    cases i with
    | zero => simp; omega
    | succ i => simp [ih (by simpa using h)]; omega

theorem storeStmt_lens {starts news : List (Int × Int)} {times : List (Fl K)} {upd : List (String × List (Val K))} {keys : List String}
    {is : List Nat} {s s' : RunSt K} {u : Unit} (h : storeStmt starts news times upd keys is s = (.ok u, s')) (hi : ∀ i ∈ is, i < (lens s).length) :
    (lens s').length = (lens s).length ∧ (lens s').sum = (lens s).sum + is.countP fun i => starts[i]? ≠ news[i]? := by
  induction is generalizing s with
  | nil => cases h; exact ⟨rfl, rfl⟩
  | cons i is ih =>
    unfold storeStmt at h
    obtain ⟨n, hn, h⟩ := PyM.lift_inv h
    obtain ⟨p, hp, h⟩ := PyM.lift_inv h
    rw [listGet_ok] at hn hp
    rw [List.countP_cons, hn, hp]
    split at h
    · rename_i hne
      obtain ⟨_, s1, h1, h⟩ := PyM.inv h
      have e := appendRecStmt_lens h1
      have el : (lens s1).length = (lens s).length := by rw [e]; simp
      obtain ⟨h2, h3⟩ := ih h fun j hj => by rw [el]; exact hi j (by simp [hj])
      refine ⟨h2.trans el, ?_⟩
      rw [h3, e, sum_modify (hi i (by simp)), if_pos (by simpa using fun e => hne e.symm)]
      omega
    · rename_i heq
      obtain ⟨h2, h3⟩ := ih h fun j hj => hi j (by simp [hj])
      refine ⟨h2, ?_⟩
      rw [h3, if_neg (by simpa using (not_not.1 heq).symm)]
      rfl

theorem count_range {a b : List (Int × Int)} (h : b.length = a.length) :
    (List.range a.length).countP (fun i => a[i]? ≠ b[i]?) = (a.zip b).countP fun q => q.1 ≠ q.2 := by
  induction a generalizing b with
  | nil => simp
  | cons x a ih =>
    cases b with
    | nil => simp at h
    | cons y b =>
      simp only [List.length_cons, Nat.add_right_cancel_iff] at h
      rw [List.length_cons, List.range_succ_eq_map, List.countP_cons, List.zip_cons_cons, List.countP_cons, List.countP_map, ← ih h]
      simp [Function.comp_def]

/-- Passes of the while loop: one number each, one more per recorded move if there is diffusion; only the last pass may record nothing. -/
def LoopDraws (P : PObj K) (slack : Nat) (s s' : RunSt K) : Prop :=
  (lens s').length = (lens s).length ∧ s'.obj.np = s.obj.np ∧ ∃ g, (lens s').sum = (lens s).sum + g ∧ s.obj.world.pos + (1 + diffDraw P) * g ≤ s'.obj.world.pos ∧
    s'.obj.world.pos ≤ s.obj.world.pos + (1 + diffDraw P) * g + slack

theorem LoopDraws.refl (P : PObj K) (slack : Nat) (s : RunSt K) : LoopDraws P slack s s := ⟨rfl, rfl, 0, by simp, by simp, by simp⟩

theorem LoopDraws.trans {P : PObj K} {k k' : Nat} {s s' s'' : RunSt K} (h : LoopDraws P k s s') (h' : LoopDraws P k' s' s'') :
    LoopDraws P (k + k') s s'' := by
  obtain ⟨h1, h0, g, h2, h3, h4⟩ := h
  obtain ⟨h1', h0', g', h2', h3', h4'⟩ := h'
  refine ⟨h1'.trans h1, h0'.trans h0, g + g', by omega, ?_, ?_⟩ <;> rw [Nat.mul_add] <;> omega

theorem onObj_inv {m : PyM (PState K) α} {s s' : RunSt K} {a : α} (h : PyM.onObj m s = (.ok a, s')) :
    m s.obj = (.ok a, s'.obj) ∧ s'.view = s.view := by
  unfold PyM.onObj at h
  simp only [Prod.mk.injEq] at h
  obtain ⟨h1, h2⟩ := h
  refine ⟨?_, by rw [← h2]⟩
  rw [← h2, ← h1]

theorem loopStmt_draws {P : PObj K} {target : Fl K} {maxIter : Int} {keys : List String} {ii fuel : Nat} {est : Fl K} {count : Int} {s s' : RunSt K}
    {b : Bool} (h : loopStmt A F P ω target maxIter keys ii fuel est count s = (.ok b, s')) (hi : ii < (lens s).length) : LoopDraws P 1 s s' := by
  induction fuel generalizing est count s with
  | zero =>
    unfold loopStmt at h
    rw [PyM.read_run] at h
    obtain ⟨t, -, h⟩ := PyM.lift_inv h
    split at h
    · cases h
    · cases h; exact .refl _ _ _
  | succ fuel ih =>
    unfold loopStmt at h
    rw [PyM.read_run] at h
    obtain ⟨t, -, h⟩ := PyM.lift_inv h
    split at h
    · obtain ⟨x, -, h⟩ := PyM.lift_inv h
      obtain ⟨y, -, h⟩ := PyM.lift_inv h
      obtain ⟨_, -, h⟩ := PyM.lift_inv h
      obtain ⟨r, s1, h1, h⟩ := PyM.inv h
      obtain ⟨n, hn, h⟩ := PyM.lift_inv h
      obtain ⟨a1, a2, a3, a4, a5⟩ := stepperStmt_draws (onObj_inv h1).1
      have el : lens s1 = lens s := by unfold lens RunSt.walk; rw [a2]
      obtain ⟨news, r2⟩ := r
      simp only at hn a1 a4 a5 h
      cases a5 with
      | cons hz hnil =>
        cases hnil
        rename_i q
        simp only [listGet, List.getElem?_cons_zero, Except.ok.injEq] at hn
        subst hn
        simp only [List.zip_cons_cons, List.zip_nil_right, List.countP_cons, List.countP_nil, Nat.zero_add, decide_eq_true_eq] at a1
        split at h
        · rename_i hne
          have hxy : (x, y) ≠ (0, 0) := fun e => hne (hz e)
          rw [if_pos hxy, if_pos (fun e => hne e.symm), Nat.mul_one] at a1
          obtain ⟨_, s2, h2, h⟩ := PyM.inv h
          have e2 := appendRecStmt_lens h2
          have w2 := appendRecStmt_still ii 0 q r2.1 r2.2 keys s1
          rw [h2] at w2
          have hs2 : LoopDraws P 0 s s2 := by
            refine ⟨by rw [e2, el]; simp, w2.2.trans a3, 1, by rw [e2, el, sum_modify hi], ?_, ?_⟩ <;> rw [w2.1, a1] <;> omega
          rw [PyM.read_run] at h
          obtain ⟨ts, -, h⟩ := PyM.lift_inv h
          split at h
          · cases h
            obtain ⟨b1, b0, g, b2, b3, b4⟩ := hs2
            exact ⟨b1, b0, g, b2, b3, by omega⟩
          · exact (Nat.zero_add 1) ▸ hs2.trans (ih h (by rw [hs2.1]; exact hi))
        · rename_i heq
          cases h
          rw [if_neg (c := (x, y) ≠ q) (fun e => heq fun e' => e e'.symm), Nat.mul_zero] at a1
          refine ⟨by rw [el], a3, 0, by rw [el]; rfl, by omega, ?_⟩
          rw [a1]
          split <;> omega
    · cases h; exact .refl _ _ _

theorem allStmt_draws {P : PObj K} {target : Fl K} {maxIter : Int} {keys : List String} {is : List Nat} {warn : Option (List Nat)} {s s' : RunSt K}
    {b : Option (List Nat)} (h : allStmt A F P ω target maxIter keys is warn s = (.ok b, s')) (hi : ∀ i ∈ is, i < (lens s).length) :
    LoopDraws P is.length s s' := by
  induction is generalizing warn s with
  | nil => cases h; exact .refl _ _ _
  | cons i is ih =>
    unfold allStmt at h
    obtain ⟨hit, s1, h1, h⟩ := PyM.inv h
    have h2 : LoopDraws P 1 s s1 := by
      unfold oneStmt at h1
      rw [PyM.read_run] at h1
      obtain ⟨ts, -, h1⟩ := PyM.lift_inv h1
      obtain ⟨x, -, h1⟩ := PyM.lift_inv h1
      obtain ⟨y, -, h1⟩ := PyM.lift_inv h1
      split at h1
      · cases h1; exact .refl _ _ _
      · exact loopStmt_draws h1 (hi i (by simp))
    have := h2.trans (ih h fun j hj => by rw [h2.1]; exact hi j (by simp [hj]))
    rwa [Nat.add_comm] at this

theorem mapE_mem_ok {f : α → Except PyErr β} {l : List α} {r : List β} (h : mapE f l = .ok r) {a : α} (ha : a ∈ l) : ∃ b, f a = .ok b := by
  induction l generalizing r with
  | nil => cases ha
  | cons x l ih =>
    simp only [mapE, bind_ok, pure_ok] at h
    obtain ⟨b, hb, bs, hbs, rfl⟩ := h
    cases ha with
    | head => exact ⟨b, hb⟩
    | tail _ ha => exact ih hbs ha

theorem mapE_place {wd : WalkData K} {is : List Nat} {sx sy : List Int} (hx : mapE (lastAt wd.xinds) is = .ok sx)
    (hy : mapE (lastAt wd.yinds) is = .ok sy) : (sx.zip sy).map some = is.map wd.place := by
  induction is generalizing sx sy with
  | nil => cases hx; cases hy; rfl
  | cons i is ih =>
    simp only [mapE, bind_ok, pure_ok] at hx hy
    obtain ⟨x, h1, xs, h2, rfl⟩ := hx
    obtain ⟨y, h3, ys, h4, rfl⟩ := hy
    rw [List.zip_cons_cons, List.map_cons, List.map_cons, ih h2 h4]
    congr 1
    unfold lastAt at h1 h3
    rw [bind_ok] at h1 h3
    obtain ⟨rx, h5, h6⟩ := h1
    obtain ⟨ry, h7, h8⟩ := h3
    rw [listGet_ok] at h5 h7
    rw [lastOf_ok] at h6 h8
    simp [WalkData.place, h5, h6, h7, h8]

theorem lens_some {s : RunSt K} : (lens s).sum = records s.obj.walk := by
  unfold lens RunSt.walk records
  cases s.obj.walk <;> rfl

theorem runStmt_draws {P : PObj K} {target : Option (Fl K)} {maxIter : Int} {s s' : PState K} {r : WalkData K × List Nat}
    (h : runStmt A F P ω target maxIter s = (.ok r, s')) :
    ∃ wd g, s.walk = some wd ∧ records s'.walk = records s.walk + g ∧
      (target = none → s'.world.pos = s.world.pos + ((List.range s'.np).map wd.place).countP (fun p => p ≠ some (0, 0)) + diffDraw P * g) ∧
      (target ≠ none → s.world.pos + (1 + diffDraw P) * g ≤ s'.world.pos ∧ s'.world.pos ≤ s.world.pos + (1 + diffDraw P) * g + s'.np) := by
  unfold runStmt at h
  rw [PyM.read_run] at h
  cases hw : s.walk with
  | none => simp only [hw] at h; cases h
  | some wd =>
    simp only [hw] at h
    rw [PyM.assign_run, PyM.read_run] at h
    generalize hs0 : (if s.np = 0 then { s with np := wd.xinds.length } else s) = s0 at h
    have w0 : s0.walk = some wd ∧ s0.world = s.world := by
      rw [← hs0]
      split
      · exact ⟨hw, rfl⟩
      · exact ⟨hw, rfl⟩
    obtain ⟨sx, hx, h⟩ := PyM.lift_inv h
    obtain ⟨sy, hy, h⟩ := PyM.lift_inv h
    obtain ⟨st, ht, h⟩ := PyM.lift_inv h
    obtain ⟨_, -, h⟩ := PyM.lift_inv h
    have hp := mapE_place hx hy
    have hlen : (sx.zip sy).length = s0.np := by
      have := congrArg List.length hp
      simpa using this
    have hin : ∀ i ∈ List.range s0.np, i < wd.xinds.length := by
      intro i hi
      obtain ⟨b, hb⟩ := mapE_mem_ok hx hi
      unfold lastAt at hb
      rw [bind_ok] at hb
      obtain ⟨row, hrow, -⟩ := hb
      rw [listGet_ok] at hrow
      exact (List.getElem?_eq_some_iff.1 hrow).1
    generalize optionalVars P s0.np wd = opt at h
    unfold PyM.withView at h
    simp only [Prod.mk.injEq] at h
    obtain ⟨h1, h2⟩ := h
    have l0 : lens (⟨s0, opt⟩ : RunSt K) = wd.xinds.map List.length := by
      unfold lens RunSt.walk
      rw [w0.1]
      rfl
    have r0 : records (some wd) = (lens (⟨s0, opt⟩ : RunSt K)).sum := by rw [l0]; rfl
    cases target with
    | none =>
      simp only at h1 h2
      generalize hr : (PyM.onObj (stepperStmt A F P ω (sx.zip sy) st (opt.map (·.1))) >>= _ : PyM (RunSt K) (WalkData K × List Nat)) ⟨s0, opt⟩ = out at h1 h2
      obtain ⟨o1, o2⟩ := out
      simp only at h1 h2
      subst h1
      obtain ⟨q, s1, h3, h4⟩ := PyM.inv hr
      obtain ⟨_, s2, h5, h6⟩ := PyM.inv h4
      cases h6
      obtain ⟨a1, a2, a3, a4, -⟩ := stepperStmt_draws (onObj_inv h3).1
      simp only at a1 a2 a3
      have l1 : lens s1 = lens (⟨s0, opt⟩ : RunSt K) := by unfold lens RunSt.walk; rw [a2]
      obtain ⟨b1, b2⟩ := storeStmt_lens h5 (by rw [l1, l0]; simpa using hin)
      have w2 := storeStmt_still (sx.zip sy) q.1 q.2.1 q.2.2 (opt.map (·.1)) (List.range s0.np) s1
      rw [h5] at w2
      have n2 : o2.obj.np = s0.np := w2.2.trans a3
      rw [← hlen, count_range a4] at b2
      refine ⟨wd, (List.zip (sx.zip sy) q.1).countP fun q => q.1 ≠ q.2, rfl, ?_, fun _ => ?_, fun hne => absurd rfl hne⟩
      · rw [← h2, ← lens_some, b2, l1, r0]
      · rw [← h2, w2.1, a1, w0.2, n2, ← hp, List.countP_map]
        simp [Function.comp_def]
    | some tgt =>
      simp only at h1 h2
      generalize hr : (allStmt A F P ω tgt maxIter (opt.map (·.1)) (List.range s0.np) none >>= _ : PyM (RunSt K) (WalkData K × List Nat)) ⟨s0, opt⟩ = out at h1 h2
      obtain ⟨o1, o2⟩ := out
      simp only at h1 h2
      subst h1
      obtain ⟨warn, s1, h3, h4⟩ := PyM.inv hr
      rw [PyM.read_run] at h4
      cases warn with
      | none => cases h4
      | some l =>
        simp only at h4
        cases h4
        obtain ⟨a1, n2, g, a2, a3, a4⟩ := allStmt_draws h3 (by rw [l0]; simpa using hin)
        refine ⟨wd, g, rfl, ?_, fun hne => (by cases hne), fun _ => ?_⟩
        · rw [← h2, r0, ← a2]
          rfl
        · rw [← h2, ← w0.2]
          simp only [List.length_range] at a3 a4
          simp only [n2]
          exact ⟨a3, a4⟩

variable [FloorRing K]

theorem generateStmt_causal (P : PObj K) (np xs ys time method : PyVal K) (prev : Option (WalkData K)) :
    Causal objPos ω ω' (generateStmt A P ω np xs ys time method prev) (generateStmt A P ω' np xs ys time method prev) := by
  unfold generateStmt
  refine Causal.bind (Causal.lift _) fun args => Causal.bind ?_ fun starts => Causal.bind (Causal.lift _) fun nx => Causal.bind (Causal.lift _) fun ny =>
    Causal.bind (Causal.lift _) fun opt => Causal.bind Causal.read fun s => Causal.bind (Causal.assign fun _ => le_refl _) fun _ =>
    Causal.assign fun _ => le_refl _
  cases args.2.2.2.2 with
  | random => exact Causal.bind (randomSeedsStmt_causal _ _) fun x => Causal.bind (randomSeedsStmt_causal _ _) fun y => Causal.pure _
  | exact =>
    simp only [startIndicesStmt]
    split
    · exact Causal.lift _
    · exact Causal.bind (Causal.lift _) fun x => Causal.bind (Causal.lift _) fun y => Causal.pure _

theorem act_causal (P : PObj K) (c : ApiCall K) : Causal objPos ω ω' (c.act A F P ω) (c.act A F P ω') := by
  cases c with
  | generate np xs ys time method prev => exact Causal.bind (generateStmt_causal P _ _ _ _ _ _) fun _ => Causal.pure _
  | run target maxIter => exact Causal.bind (runStmt_causal P _ _) fun _ => Causal.pure _
  | clear => exact Causal.bind (Causal.assign fun _ => le_refl _) fun _ => Causal.pure _

theorem randomSeedsStmt_draws {locs : List Int} {n : Nat} {s s' : PState K} {l : List Int} (h : randomSeedsStmt A ω locs n s = (.ok l, s')) :
    s'.world.pos = s.world.pos + n ∧ s'.walk = s.walk := by
  induction n generalizing s l with
  | zero => cases h; exact ⟨rfl, rfl⟩
  | succ n ih =>
    unfold randomSeedsStmt at h
    rw [PyM.read_run, PyM.assign_run] at h
    obtain ⟨c, hc, h⟩ := PyM.lift_inv h
    obtain ⟨cs, s1, h1, h⟩ := PyM.inv h
    cases h
    obtain ⟨a1, a2⟩ := ih h1
    by_cases hl : locs = []
    · subst hl
      cases hc
    · rw [if_neg hl] at a1 a2
      refine ⟨?_, a2⟩
      rw [a1]
      simp only [PState.atPos]
      omega

theorem generateStmt_draws {P : PObj K} {np xs ys time method : PyVal K} {prev : Option (WalkData K)} {s s' : PState K} {u : Unit}
    (h : generateStmt A P ω np xs ys time method prev s = (.ok u, s')) :
    ∃ n, particles s'.walk = particles prev + particles s.walk + n ∧
      (method = .str "random" → s'.world.pos = s.world.pos + 2 * n) ∧ (method ≠ .str "random" → s'.world.pos = s.world.pos) := by
  unfold generateStmt at h
  obtain ⟨args, h0, h⟩ := PyM.lift_inv h
  obtain ⟨starts, s1, h1, h⟩ := PyM.inv h
  obtain ⟨nx, h2, h⟩ := PyM.lift_inv h
  obtain ⟨ny, h3, h⟩ := PyM.lift_inv h
  obtain ⟨opt, h4, h⟩ := PyM.lift_inv h
  rw [PyM.read_run, PyM.assign_run] at h
  cases h
  have hm : checkMethod method = .ok args.2.2.2.2 := by
    unfold genInputCheck at h0
    simp only [bind_ok, pure_ok] at h0
    obtain ⟨_, -, _, -, _, -, _, -, m, hm, rfl⟩ := h0
    exact hm
  have hs1 : s1.walk = s.walk ∧ (method = .str "random" → s1.world.pos = s.world.pos + 2 * args.1.toNat) ∧
      (method ≠ .str "random" → s1.world.pos = s.world.pos) := by
    cases ha : args.2.2.2.2 with
    | random =>
      rw [ha] at hm h1
      obtain ⟨x, s2, h5, h6⟩ := PyM.inv h1
      obtain ⟨y, s3, h7, h8⟩ := PyM.inv h6
      cases h8
      obtain ⟨a1, a2⟩ := randomSeedsStmt_draws h5
      obtain ⟨b1, b2⟩ := randomSeedsStmt_draws h7
      exact ⟨b2.trans a2, fun _ => by omega, fun hne => absurd hm (checkMethod_random hne)⟩
    | exact =>
      rw [ha] at hm h1
      simp only [startIndicesStmt] at h1
      split at h1
      · cases h1
      · obtain ⟨x, h5, h6⟩ := PyM.lift_inv h1
        obtain ⟨y, h7, h8⟩ := PyM.lift_inv h6
        cases h8
        exact ⟨rfl, fun e => (by subst e; cases hm), fun _ => rfl⟩
  refine ⟨args.1.toNat, ?_, hs1.2⟩
  have hx := mapE_length h2
  rw [List.length_range] at hx
  simp only [hs1.1]
  cases prev <;> cases s.walk <;> (simp [particles, prependWalk, hx]; try omega)

end Dorado
