import Verif.Lemmas.Vars
import Verif.Lemmas.PyM
import Verif.Model.RunStmt

/-! Helper lemmas: the statement-level model of `run_iteration` refines the functional one; the state left behind by an exception. -/

set_option linter.unusedSectionVars false

namespace Dorado

theorem PyM.read_run {σ β : Type} {f : σ → PyM σ β} {s : σ} : (PyM.read >>= f) s = f s s := PyM.ok_run rfl

variable {K : Type} [Field K] [LinearOrder K] [IsStrictOrderedRing K] {A : Arith K} {F : Fun K A}

/-- Same value and world, or the same exception in a world whose weights still lead to the same choices; nothing else changes. -/
def RefW (A : Arith K) (F : Fun K A) (P : PObj K) {α : Type} (m : PyM (PState K) α) (s : PState K) (x : Except PyErr (α × World K)) : Prop :=
  (∀ a w, x = .ok (a, w) → m s = (.ok a, { s with world := w })) ∧
  ∀ e, x = .error e → ∃ w, PickEquiv A F P w.weight ∧ m s = (.error e, { s with world := w })

theorem RefW.bind {P : PObj K} {α β : Type} {m : PyM (PState K) α} {s : PState K} {x : Except PyErr (α × World K)} {f : α → PyM (PState K) β}
    {g : α × World K → Except PyErr (β × World K)} (h : RefW A F P m s x)
    (hf : ∀ a w, x = .ok (a, w) → RefW A F P (f a) { s with world := w } (g (a, w))) : RefW A F P (m >>= f) s (x >>= g) := by
  obtain ⟨h1, h2⟩ := h
  cases x with
  | error e =>
    obtain ⟨w, hw, hm⟩ := h2 e rfl
    exact ⟨fun _ _ h => (by cases h), fun e' h => (by cases h; exact ⟨w, hw, PyM.error_run hm⟩)⟩
  | ok r =>
    obtain ⟨a, w⟩ := r
    have hm := h1 a w rfl
    obtain ⟨g1, g2⟩ := hf a w rfl
    refine ⟨fun b w' h => ?_, fun e h => ?_⟩
    · rw [PyM.ok_run hm]; exact g1 b w' h
    · obtain ⟨w', hw', h'⟩ := g2 e h
      exact ⟨w', hw', by rw [PyM.ok_run hm, h']⟩

theorem RefW.lift {P : PObj K} {α β : Type} {s : PState K} {x : Except PyErr α} {f : α → PyM (PState K) β}
    {g : α → Except PyErr (β × World K)} (hw : PickEquiv A F P s.world.weight) (hf : ∀ a, x = .ok a → RefW A F P (f a) s (g a)) :
    RefW A F P (PyM.lift x >>= f) s (x >>= g) := by
  cases x with
  | error e => exact ⟨fun _ _ h => (by cases h), fun e' h => (by cases h; exact ⟨s.world, hw, PyM.lift_error rfl⟩)⟩
  | ok a =>
    obtain ⟨g1, g2⟩ := hf a rfl
    refine ⟨fun b w' h => ?_, fun e h => ?_⟩
    · rw [PyM.lift_run rfl]; exact g1 b w' h
    · obtain ⟨w', hw', h'⟩ := g2 e h
      exact ⟨w', hw', by rw [PyM.lift_run rfl, h']⟩

theorem RefW.pure {P : PObj K} {α : Type} {s : PState K} (a : α) : RefW A F P (pure a) s (.ok (a, s.world)) :=
  ⟨fun _ _ h => by cases h; rfl, fun _ h => by cases h⟩

theorem getWeightStmt_ref {P : PObj K} (G : Good P) (ω : Nat → K) {s : PState K} (hw : PickEquiv A F P s.world.weight) (ind : Int × Int) :
    RefW A F P (getWeightStmt A P ω ind) s (getWeight A P ω s.world ind) := by
  rw [getWeight_eq]
  unfold getWeightStmt
  refine RefW.lift hw fun i hi => RefW.lift hw fun j hj => ?_
  have hm : (if P.steepest then steepMask (s.world.weight i j) else zeroNan (s.world.weight i j)) = maskOf P (s.world.weight i j) := by
    unfold maskOf; rfl
  have h1 := hw.touch A F G (pyIdx_lt hi) (pyIdx_lt hj)
  cases hp : pickFrom A (maskOf P (s.world.weight i j)) (ω s.world.pos) with
  | error e =>
    refine ⟨fun _ _ h => (by cases h), fun e' h => ?_⟩
    cases h
    refine ⟨{ s.world with weight := setCell s.world.weight i j (maskOf P (s.world.weight i j)) }, h1, ?_⟩
    rw [PyM.read_run, hm, PyM.assign_run, PyM.lift_error hp]
  | ok k =>
    refine ⟨fun a w h => ?_, fun e' h => by cases h⟩
    cases h
    rw [PyM.read_run, hm, PyM.assign_run, PyM.lift_run hp, PyM.assign_run]
    rfl

theorem newCellsStmt_ref {P : PObj K} (G : Good P) (ω : Nat → K) (cur : List (Int × Int)) {s : PState K} (hw : PickEquiv A F P s.world.weight) :
    RefW A F P (newCellsStmt A P ω cur) s (mapAcc (newCell1 A P ω) s.world cur) := by
  induction cur generalizing s with
  | nil => exact RefW.pure _
  | cons ind rest ih =>
    unfold newCellsStmt mapAcc
    have h1 : RefW A F P (newCellStmt A P ω ind) s (newCell1 A P ω s.world ind) := by
      unfold newCellStmt newCell1
      split
      · exact getWeightStmt_ref G ω hw ind
      · exact RefW.pure _
    refine h1.bind fun k w hk => ?_
    have hw' : PickEquiv A F P w.weight := by
      unfold newCell1 at hk
      split at hk
      · exact (getWeight_inv A F G hw hk).1
      · cases hk; exact hw
    exact (ih (s := { s with world := w }) hw').bind fun ks w' _ => RefW.pure _

theorem travelTimeStmt_ref {P : PObj K} (ω : Nat → K) {s : PState K} (hw : PickEquiv A F P s.world.weight) (k : Nat) (p q : Int × Int)
    (d : Fl K) : RefW A F P (travelTimeStmt A F P ω k p q d) s
      ((calcTravelTime A F P ω s.world.pos k p q d).map fun r => (r.1, { s.world with pos := r.2 })) := by
  unfold travelTimeStmt calcTravelTime
  by_cases hpq : p = q
  · simp only [hpq, ne_eq, not_true, if_false]
    exact RefW.pure _
  · simp only [ne_eq, hpq, not_false_eq_true, if_true]
    cases h1 : P.velocity.get p.1 p.2 with
    | error e => exact ⟨fun _ _ h => (by cases h), fun e' h => (by cases h; exact ⟨s.world, hw, PyM.lift_error rfl⟩)⟩
    | ok ov =>
      cases h2 : P.velocity.get q.1 q.2 with
      | error e =>
        exact ⟨fun _ _ h => (by cases h), fun e' h => (by cases h; exact ⟨s.world, hw, by rw [PyM.lift_run rfl, PyM.lift_error rfl]⟩)⟩
      | ok nv =>
        simp only [ok_bind]
        by_cases hd : 0 < P.diffCoeff
        · simp only [hd, if_true]
          have hrun : ∀ {β : Type} (f : Unit → PyM (PState K) β), ((PyM.assign fun s : PState K => s.atPos (s.world.pos + 1)) >>= f) s =
              f () (s.atPos (s.world.pos + 1)) := fun f => PyM.assign_run
          refine ⟨fun a w h => ?_, fun e h => ?_⟩
          · cases h3 : flat9 P.angles k with
            | error e => rw [h3] at h; cases h
            | ok ang =>
              rw [h3] at h
              cases h4 : P.velocityAngle.get p.1 p.2 with
              | error e => rw [h4] at h; cases h
              | ok va =>
                rw [h4] at h
                simp only [ok_bind] at h
                cases h5 : mathCos A F (A.sub ang va) with
                | error e => rw [h5] at h; cases h
                | ok c =>
                  rw [h5] at h
                  cases h
                  rw [PyM.lift_run rfl, PyM.lift_run rfl, PyM.read_run, PyM.assign_run, PyM.lift_run rfl, PyM.lift_run rfl, PyM.lift_run h5]
                  rfl
          · refine ⟨{ s.world with pos := s.world.pos + 1 }, hw, ?_⟩
            rw [PyM.lift_run rfl, PyM.lift_run rfl, PyM.read_run, PyM.assign_run]
            cases h3 : flat9 P.angles k with
            | error e' => rw [h3] at h; cases h; rw [PyM.lift_error rfl]; rfl
            | ok ang =>
              rw [h3] at h
              rw [PyM.lift_run rfl]
              cases h4 : P.velocityAngle.get p.1 p.2 with
              | error e' => rw [h4] at h; cases h; rw [PyM.lift_error rfl]; rfl
              | ok va =>
                rw [h4] at h
                rw [PyM.lift_run rfl]
                simp only [ok_bind] at h
                cases h5 : mathCos A F (A.sub ang va) with
                | error e' => rw [h5] at h; cases h; rw [PyM.lift_error rfl]; rfl
                | ok c => rw [h5] at h; cases h
        · simp only [hd, if_false]
          refine ⟨fun a w h => ?_, fun e h => ?_⟩
          · cases h3 : flat9 P.angles k with
            | error e => rw [h3] at h; cases h
            | ok ang =>
              rw [h3] at h
              cases h4 : P.velocityAngle.get p.1 p.2 with
              | error e => rw [h4] at h; cases h
              | ok va =>
                rw [h4] at h
                simp only [ok_bind] at h
                cases h5 : mathCos A F (A.sub ang va) with
                | error e => rw [h5] at h; cases h
                | ok c =>
                  rw [h5] at h
                  cases h
                  rw [PyM.lift_run rfl, PyM.lift_run rfl, PyM.read_run, PyM.assign_run, PyM.lift_run rfl, PyM.lift_run rfl, PyM.lift_run h5]
                  rfl
          · refine ⟨s.world, hw, ?_⟩
            rw [PyM.lift_run rfl, PyM.lift_run rfl, PyM.read_run, PyM.assign_run]
            cases h3 : flat9 P.angles k with
            | error e' => rw [h3] at h; cases h; rw [PyM.lift_error rfl]
            | ok ang =>
              rw [h3] at h
              rw [PyM.lift_run rfl]
              cases h4 : P.velocityAngle.get p.1 p.2 with
              | error e' => rw [h4] at h; cases h; rw [PyM.lift_error rfl]
              | ok va =>
                rw [h4] at h
                rw [PyM.lift_run rfl]
                simp only [ok_bind] at h
                cases h5 : mathCos A F (A.sub ang va) with
                | error e' => rw [h5] at h; cases h; rw [PyM.lift_error rfl]
                | ok c => rw [h5] at h; cases h

theorem travelTimesStmt_ref {P : PObj K} (ω : Nat → K) (l : List ((Nat × (Int × Int)) × ((Int × Int) × Fl K))) {s : PState K}
    (hw : PickEquiv A F P s.world.weight) : RefW A F P (travelTimesStmt A F P ω l) s
      ((mapAcc (fun pos q => calcTravelTime A F P ω pos q.1.1 q.1.2 q.2.1 q.2.2) s.world.pos l).map fun r => (r.1, { s.world with pos := r.2 })) := by
  induction l generalizing s with
  | nil => exact RefW.pure _
  | cons q rest ih =>
    unfold travelTimesStmt mapAcc
    have h1 := travelTimeStmt_ref (A := A) (F := F) ω hw q.1.1 q.1.2 q.2.1 q.2.2
    cases hc : calcTravelTime A F P ω s.world.pos q.1.1 q.1.2 q.2.1 q.2.2 with
    | error e =>
      obtain ⟨w, hw', h⟩ := h1.2 e (by rw [hc]; rfl)
      exact ⟨fun _ _ h => (by cases h), fun e' h' => (by cases h'; exact ⟨w, hw', PyM.error_run h⟩)⟩
    | ok r =>
      have h := h1.1 r.1 { s.world with pos := r.2 } (by rw [hc]; rfl)
      have h2 := ih (s := { s with world := { s.world with pos := r.2 } }) hw
      simp only [ok_bind]
      cases hm : mapAcc (fun pos (q : (Nat × (Int × Int)) × ((Int × Int) × Fl K)) => calcTravelTime A F P ω pos q.1.1 q.1.2 q.2.1 q.2.2) r.2 rest with
      | error e =>
        obtain ⟨w, hw', h3⟩ := h2.2 e (by simp only [hm]; rfl)
        exact ⟨fun _ _ h => (by cases h), fun e' h' => (by cases h'; exact ⟨w, hw', by rw [PyM.ok_run h, PyM.error_run h3]⟩)⟩
      | ok r' =>
        have h3 := h2.1 r'.1 { s.world with pos := r'.2 } (by simp only [hm]; rfl)
        exact ⟨fun _ _ h4 => (by cases h4; rw [PyM.ok_run h, PyM.ok_run h3]; rfl), fun e' h' => by cases h'⟩

theorem stepperStmt_ref {P : PObj K} (G : Good P) (ω : Nat → K) {s : PState K} (hw : PickEquiv A F P s.world.weight) (cur : List (Int × Int))
    (times : List (Fl K)) (vars : List String) :
    RefW A F P (stepperStmt A F P ω cur times vars) s (particleStepper A F P ω s.world cur times vars) := by
  unfold stepperStmt particleStepper
  refine (newCellsStmt_ref G ω cur hw).bind fun cells w hcells => ?_
  have hw1 : PickEquiv A F P w.weight := (mapAcc_inv (fun s : World K => PickEquiv A F P s.weight) (fun _ _ => True) (by
    intro s a b s' hs hb
    unfold newCell1 at hb
    split at hb
    · exact ⟨(getWeight_inv A F G hs hb).1, trivial⟩
    · cases hb; exact ⟨hs, trivial⟩) hw hcells).1
  refine RefW.lift hw1 fun inds hinds => RefW.lift hw1 fun dist hdist => ?_
  have h1 := travelTimesStmt_ref (A := A) (F := F) ω
    ((cells.zip cur).zip ((checkForBoundary (List.zipWith zeroDist inds dist) cur P.cellType).zip dist)) (s := { s with world := w }) hw1
  simp only at h1 ⊢
  cases hm : mapAcc (fun pos (q : (Nat × (Int × Int)) × ((Int × Int) × Fl K)) => calcTravelTime A F P ω pos q.1.1 q.1.2 q.2.1 q.2.2) w.pos
      ((cells.zip cur).zip ((checkForBoundary (List.zipWith zeroDist inds dist) cur P.cellType).zip dist)) with
  | error e =>
    obtain ⟨w', hw', h3⟩ := h1.2 e (by rw [hm]; rfl)
    exact ⟨fun _ _ h => (by cases h), fun e' h' => (by cases h'; exact ⟨w', hw', PyM.error_run h3⟩)⟩
  | ok r =>
    have h3 := h1.1 r.1 { w with pos := r.2 } (by rw [hm]; rfl)
    simp only [ok_bind]
    cases ho : updatedOptional P vars (checkForBoundary (List.zipWith zeroDist inds dist) cur P.cellType) with
    | error e =>
      exact ⟨fun _ _ h => (by cases h), fun e' h' => (by
        cases h'; exact ⟨{ w with pos := r.2 }, hw1, by rw [PyM.ok_run h3, PyM.lift_error rfl]⟩)⟩
    | ok opt =>
      exact ⟨fun _ _ h => (by cases h; rw [PyM.ok_run h3, PyM.lift_run rfl]; rfl), fun e' h' => by cases h'⟩

/-! ## Records -/

/-- The state of a running call: walk data made of rows. -/
def mkR (P : PObj K) (np : Nat) (rows : List (Row K)) (w : World K) : RunSt K :=
  ⟨{ world := w, np := np, walk := some (ofRows (keysOf P) rows) }, (ofRows (keysOf P) rows).opt⟩

theorem dictApp_dictOf (keys : List String) (f : String → List (List (Val K))) (var : String) (ii : Nat) (v : Val K) :
    dictApp (dictOf keys f) var ii v = dictOf keys (fun k => if k = var then (f k).modify ii (· ++ [v]) else f k) := by
  unfold dictApp dictOf
  rw [List.map_map]
  apply List.map_congr_left
  intro k _
  simp only [Function.comp]
  split <;> rfl

theorem foldl_dictApp {ks : List String} (hnd : ks.Nodup) (keys : List String) (f : String → List (List (Val K))) (ii : Nat)
    (v : String → Val K) : ks.foldl (fun d var => dictApp d var ii (v var)) (dictOf keys f) =
      dictOf keys (fun k => if k ∈ ks then (f k).modify ii (· ++ [v k]) else f k) := by
  induction ks generalizing f with
  | nil => simp
  | cons a ks ih =>
    rw [List.nodup_cons] at hnd
    rw [List.foldl_cons, dictApp_dictOf, ih hnd.2]
    apply dictOf_congr
    intro k _
    by_cases hk : k = a
    · subst hk
      simp [hnd.1]
    · simp [hk]

theorem appendVarsStmt_ok {ii k : Nat} {upd : List (String × List (Val K))} {v : String → Val K} (ks : List String)
    (h : ∀ key ∈ ks, ∃ l, dictGet upd key = some l ∧ l[k]? = some (v key)) (s : RunSt K) :
    appendVarsStmt ii k upd ks s = (.ok (), ⟨{ s.obj with walk := s.obj.walk.map fun wd =>
      { wd with opt := ks.foldl (fun d var => dictApp d var ii (v var)) wd.opt } },
      ks.foldl (fun d var => dictApp d var ii (v var)) s.view⟩) := by
  induction ks generalizing s with
  | nil =>
    show (Except.ok (), s) = _
    have : s.obj.walk.map (fun wd : WalkData K => { wd with opt := wd.opt }) = s.obj.walk := by cases s.obj.walk <;> rfl
    simp only [List.foldl_nil, this]
  | cons a ks ih =>
    obtain ⟨l, hl, hv⟩ := h a (by simp)
    unfold appendVarsStmt
    rw [hl]
    simp only
    rw [PyM.lift_run (listGet_ok.2 hv), PyM.assign_run, ih (fun key hk => h key (by simp [hk]))]
    simp only [List.foldl_cons, Option.map_map, Function.comp_def]

theorem appendRecStmt_ok {P : PObj K} {ii k : Nat} {q : Int × Int} {times : List (Fl K)} {upd : List (String × List (Val K))} {t : Fl K}
    {v : String → Val K} (ht : times[k]? = some t) (hv : ∀ key ∈ keysOf P, ∃ l, dictGet upd key = some l ∧ l[k]? = some (v key))
    (np : Nat) (rows : List (Row K)) (w : World K) :
    appendRecStmt ii k q times upd (keysOf P) (mkR P np rows w) = (.ok (), mkR P np (rows.modify ii fun r => r.append q t v) w) := by
  unfold appendRecStmt appendStmt
  rw [PyM.assign_run, PyM.assign_run, PyM.lift_run (listGet_ok.2 ht), PyM.assign_run, appendVarsStmt_ok _ hv]
  have hopt : (keysOf P).foldl (fun d var => dictApp d var ii (v var)) (ofRows (keysOf P) rows).opt =
      (ofRows (keysOf P) (rows.modify ii fun r => r.append q t v)).opt := by
    show (keysOf P).foldl _ (dictOf _ _) = dictOf _ _
    rw [foldl_dictApp (keysOf_nodup P)]
    apply dictOf_congr
    intro key hk
    rw [if_pos hk]
    exact map_modify_comm _ _ _ _ _ fun _ => rfl
  unfold mkR
  simp only [Option.map_some, hopt]
  have := appendRec_ofRows (keys := keysOf P) rows ii q t v
  have h1 := congrArg WalkData.xinds this
  have h2 := congrArg WalkData.yinds this
  have h3 := congrArg WalkData.times this
  simp only [appendRec] at h1 h2 h3
  rw [h1, h2, h3]

theorem storeStmt_ok {P : PObj K} {starts news : List (Int × Int)} {times : List (Fl K)} {upd : List (String × List (Val K))} {np : Nat}
    {w : World K} (is : List Nat) {rows : List (Row K)} {out : WalkData K}
    (h : storeSteps starts news times upd (keysOf P) is (ofRows (keysOf P) rows) = .ok out) :
    ∃ rows', out = ofRows (keysOf P) rows' ∧
      storeStmt starts news times upd (keysOf P) is (mkR P np rows w) = (.ok (), mkR P np rows' w) := by
  induction is generalizing rows with
  | nil =>
    simp only [storeSteps, Except.ok.injEq] at h
    exact ⟨rows, h.symm, rfl⟩
  | cons a is ih =>
    simp only [storeSteps, bind_ok] at h
    obtain ⟨q, hq, p, hp, h⟩ := h
    unfold storeStmt
    rw [PyM.lift_run hq, PyM.lift_run hp]
    by_cases hqp : q = p
    · simp only [hqp, ne_eq, not_true, if_false] at h ⊢
      exact ih h
    · simp only [ne_eq, hqp, not_false_eq_true, if_true, bind_ok, listGet_ok] at h ⊢
      obtain ⟨t, ht, vals, hvals, h⟩ := h
      obtain ⟨v, rfl, hv⟩ := pickOpt_inv hvals
      rw [appendRec_ofRows] at h
      obtain ⟨rows', h1, h2⟩ := ih h
      exact ⟨rows', h1, by rw [PyM.ok_run (appendRecStmt_ok ht hv np rows w)]; exact h2⟩

/-! ## The loop for one particle -/

theorem onObj_ref {P : PObj K} {α : Type} {m : PyM (PState K) α} {np : Nat} {rows : List (Row K)} {w : World K}
    {x : Except PyErr (α × World K)} (h : RefW A F P m (mkR P np rows w).obj x) :
    (∀ a w', x = .ok (a, w') → PyM.onObj m (mkR P np rows w) = (.ok a, mkR P np rows w')) ∧
    ∀ e, x = .error e → ∃ w', PickEquiv A F P w'.weight ∧ PyM.onObj m (mkR P np rows w) = (.error e, mkR P np rows w') := by
  refine ⟨fun a w' hx => ?_, fun e hx => ?_⟩
  · unfold PyM.onObj
    rw [h.1 a w' hx]
    rfl
  · obtain ⟨w', hw', hm⟩ := h.2 e hx
    refine ⟨w', hw', ?_⟩
    unfold PyM.onObj
    rw [hm]
    rfl

/-- The rows of an interrupted loop for particle `ii`: zero or more recorded moves. -/
def PartRun (A : Arith K) (F : Fun K A) (P : PObj K) (ω : Nat → K) (ii : Nat) (rows rows' : List (Row K)) : Prop :=
  rows'.length = rows.length ∧ (∀ j, j ≠ ii → rows'[j]? = rows[j]?) ∧
    ∀ r, rows[ii]? = some r → ∃ r', rows'[ii]? = some r' ∧ RowSteps A F P ω r r'

theorem PartRun.refl {P : PObj K} {ω : Nat → K} (ii : Nat) (rows : List (Row K)) : PartRun A F P ω ii rows rows :=
  ⟨rfl, fun _ _ => rfl, fun r hr => ⟨r, hr, .refl _⟩⟩

theorem loopStmt_spec {P : PObj K} (G : Good P) (hV : VarsOk P) (ω : Nat → K) (target : Fl K) (maxIter : Int) (ii np : Nat) (fuel : Nat)
    {rows : List (Row K)} {w : World K} {est : Fl K} {count : Int} (hw : PickEquiv A F P w.weight)
    (hopt : ∀ r, rows[ii]? = some r → ∀ key ∈ keysOf P, r.os key ≠ []) :
    (∀ out w' hit, targetLoop A F P ω target maxIter (keysOf P) ii fuel (ofRows (keysOf P) rows) w est count = .ok (out, w', hit) →
      ∃ rows', out = ofRows (keysOf P) rows' ∧
        loopStmt A F P ω target maxIter (keysOf P) ii fuel est count (mkR P np rows w) = (.ok hit, mkR P np rows' w')) ∧
    ∀ e, targetLoop A F P ω target maxIter (keysOf P) ii fuel (ofRows (keysOf P) rows) w est count = .error e →
      ∃ rows' w', PickEquiv A F P w'.weight ∧ PartRun A F P ω ii rows rows' ∧
        loopStmt A F P ω target maxIter (keysOf P) ii fuel est count (mkR P np rows w) = (.error e, mkR P np rows' w') := by
  induction fuel generalizing rows w est count with
  | zero =>
    unfold targetLoop loopStmt
    rw [PyM.read_run]
    show (∀ out w' hit, (lastAt (ofRows (keysOf P) rows).times ii >>= _) = _ → _) ∧ _
    cases ht : lastAt (ofRows (keysOf P) rows).times ii with
    | error e =>
      exact ⟨fun _ _ _ h => (by cases h), fun e' h => (by cases h; exact ⟨rows, w, hw, .refl _ _, PyM.lift_error ht⟩)⟩
    | ok t =>
      rw [PyM.lift_run (show lastAt (mkR P np rows w).walk.times ii = .ok t from ht)]
      simp only [ok_bind]
      split
      · exact ⟨fun _ _ _ h => (by cases h), fun e' h => (by cases h; exact ⟨rows, w, hw, .refl _ _, rfl⟩)⟩
      · exact ⟨fun _ _ _ h => (by cases h; exact ⟨rows, rfl, rfl⟩), fun e' h => by cases h⟩
  | succ fuel ih =>
    unfold targetLoop loopStmt
    rw [PyM.read_run]
    cases ht : lastAt (ofRows (keysOf P) rows).times ii with
    | error e =>
      exact ⟨fun _ _ _ h => (by cases h), fun e' h => (by cases h; exact ⟨rows, w, hw, .refl _ _, PyM.lift_error ht⟩)⟩
    | ok t =>
      rw [PyM.lift_run (show lastAt (mkR P np rows w).walk.times ii = .ok t from ht)]
      simp only [ok_bind]
      split
      swap
      · exact ⟨fun _ _ _ h => (by cases h; exact ⟨rows, rfl, rfl⟩), fun e' h => by cases h⟩
      cases hx : lastAt (ofRows (keysOf P) rows).xinds ii with
      | error e =>
        exact ⟨fun _ _ _ h => (by cases h), fun e' h => (by cases h; exact ⟨rows, w, hw, .refl _ _, PyM.lift_error hx⟩)⟩
      | ok x =>
        rw [PyM.lift_run (show lastAt (mkR P np rows w).walk.xinds ii = .ok x from hx)]
        cases hy : lastAt (ofRows (keysOf P) rows).yinds ii with
        | error e =>
          exact ⟨fun _ _ _ h => (by cases h), fun e' h => (by cases h; exact ⟨rows, w, hw, .refl _ _, PyM.lift_error hy⟩)⟩
        | ok y =>
          rw [PyM.lift_run (show lastAt (mkR P np rows w).walk.yinds ii = .ok y from hy)]
          simp only [ok_bind]
          obtain ⟨r, hr, htl⟩ := lastAt_ofRows (f := fun r => r.ts) ht
          obtain ⟨r1, hr1, hxl⟩ := lastAt_ofRows (f := fun r => r.xs) hx
          obtain ⟨r2, hr2, hyl⟩ := lastAt_ofRows (f := fun r => r.ys) hy
          rw [hr] at hr1 hr2
          cases hr1
          cases hr2
          have hview : ∃ l, mapE (fun e : String × List (List (Val K)) => lastAt e.2 ii) (mkR P np rows w).view = .ok l := by
            refine mapE_exists fun e he => ?_
            have he : e ∈ dictOf (keysOf P) fun k => rows.map fun r => r.os k := he
            unfold dictOf at he
            obtain ⟨k, hk, rfl⟩ := List.mem_map.1 he
            exact ⟨_, lastAt_ofRows' (f := fun r => r.os k) hr (List.getLast?_eq_some_getLast (hopt r hr k hk))⟩
          obtain ⟨lv, hlv⟩ := hview
          rw [PyM.lift_run hlv]
          have hst := onObj_ref (np := np) (rows := rows) (stepperStmt_ref (A := A) (F := F) G ω (s := (mkR P np rows w).obj) hw [(x, y)] [t] (keysOf P))
          change _ ∧ _ at hst
          cases hs : particleStepper A F P ω w [(x, y)] [t] (keysOf P) with
          | error e =>
            obtain ⟨w', hw', hm⟩ := hst.2 e hs
            exact ⟨fun _ _ _ h => (by cases h), fun e' h => (by cases h; exact ⟨rows, w', hw', .refl _ _, PyM.error_run hm⟩)⟩
          | ok res =>
            obtain ⟨⟨news, times, upd⟩, w1⟩ := res
            rw [PyM.ok_run (hst.1 _ _ hs)]
            simp only [ok_bind]
            obtain ⟨hw1, hlen, hstep, hupd⟩ := particleStepper_inv A F G hw hs
            obtain ⟨q, t1, hq, ht1, hso⟩ := hstep 0 (x, y) t rfl rfl
            rw [PyM.lift_run (listGet_ok.2 hq), listGet_ok.2 hq]
            simp only [ok_bind]
            by_cases hqp : q = (x, y)
            · simp only [hqp, ne_eq, not_true, if_false]
              exact ⟨fun _ _ _ h => (by cases h; exact ⟨rows, rfl, rfl⟩), fun e' h => by cases h⟩
            · simp only [ne_eq, hqp, not_false_eq_true, if_true]
              rw [listGet_ok.2 ht1]
              have hupd' : ∃ o, updatedOptional P (keysOf P) news = .ok o ∧ o = upd := by
                unfold particleStepper at hs
                simp only [bind_ok, pure_ok, Prod.exists, Prod.mk.injEq] at hs
                obtain ⟨cells, s1, hcells, inds0, hinds0, dist, hdist, temp, pos', htemp, opt, hopt', ⟨rfl, rfl, rfl⟩, rfl⟩ := hs
                exact ⟨opt, hopt', rfl⟩
              obtain ⟨o, ho, rfl⟩ := hupd'
              obtain ⟨vals, hvals⟩ := pickOpt_total (upd := o) (keys := keysOf P) (k := 0) (fun key hk => by
                obtain ⟨l, hl⟩ := updatedOptional_has hV (fun _ h => h) ho hk
                obtain ⟨v, hv, -⟩ := hupd key l 0 q hl hq
                exact ⟨l, v, hl, hv⟩)
              rw [hvals]
              simp only [ok_bind]
              obtain ⟨v, rfl, hv⟩ := pickOpt_inv hvals
              rw [appendRec_ofRows, PyM.ok_run (appendRecStmt_ok ht1 hv np rows w1), PyM.read_run]
              have hmod : rows.modify ii (fun r => r.append q t1 v) = rows.set ii (r.append q t1 v) := by
                rw [List.modify_eq_set_getElem?, hr]; rfl
              rw [hmod]
              have hlt : ii < rows.length := (List.getElem?_eq_some_iff.1 hr).1
              have hget : (rows.set ii (r.append q t1 v))[ii]? = some (r.append q t1 v) := List.getElem?_set_self hlt
              have hts : listGet (mkR P np (rows.set ii (r.append q t1 v)) w1).walk.times ii = .ok (r.ts ++ [t1]) := by
                rw [listGet_ok]
                show (List.map _ _)[ii]? = _
                rw [List.getElem?_map, hget]
                rfl
              rw [PyM.lift_run hts]
              have hest : initEst A (r.ts ++ [t1]) = A.sub t1 t := by
                unfold initEst
                obtain ⟨l, hl⟩ := List.getLast?_eq_some_iff.1 htl
                simp [hl]
              rw [hest]
              have hrs : RowStep A F P ω r (r.append q t1 v) := by
                refine ⟨(x, y), t, q, t1, v, ⟨hxl, hyl⟩, htl, hso, hqp, fun key hkey => ?_, rfl⟩
                obtain ⟨l, hl, hl'⟩ := hv key hkey
                obtain ⟨w2, hw2, hw3⟩ := hupd key l 0 q hl hq
                rw [hl'] at hw2
                injection hw2 with hw2
                rw [hw2]; exact hw3
              split
              · exact ⟨fun _ _ _ h => (by cases h; exact ⟨_, rfl, rfl⟩), fun e' h => by cases h⟩
              · have := ih (rows := rows.set ii (r.append q t1 v)) (w := w1) (est := Fl.pyMax (.fin (A.rnd (1 / 10))) (A.sub t1 t)) (count := count + 1) hw1
                  (fun r' hr' key hk => by
                    rw [hget] at hr'
                    cases hr'
                    simp [Row.append])
                refine ⟨this.1, fun e h => ?_⟩
                obtain ⟨rows', w', hw', ⟨p1, p2, p3⟩, hrun⟩ := this.2 e h
                refine ⟨rows', w', hw', ⟨by simpa using p1, fun j hj => ?_, fun r0 hr0 => ?_⟩, hrun⟩
                · rw [p2 j hj, List.getElem?_set_ne (Ne.symm hj)]
                · rw [hr] at hr0
                  cases hr0
                  obtain ⟨r', hr', hsteps⟩ := p3 _ hget
                  exact ⟨r', hr', RowSteps.head A F hrs hsteps⟩

theorem oneStmt_spec {P : PObj K} (G : Good P) (hV : VarsOk P) (ω : Nat → K) (target : Fl K) (maxIter : Int) (ii np : Nat)
    {rows : List (Row K)} {w : World K} (hw : PickEquiv A F P w.weight) (hopt : ∀ r, rows[ii]? = some r → ∀ key ∈ keysOf P, r.os key ≠ []) :
    (∀ out w' hit, targetOne A F P ω target maxIter (keysOf P) (ofRows (keysOf P) rows) w ii = .ok (out, w', hit) →
      ∃ rows', out = ofRows (keysOf P) rows' ∧
        oneStmt A F P ω target maxIter (keysOf P) ii (mkR P np rows w) = (.ok hit, mkR P np rows' w')) ∧
    ∀ e, targetOne A F P ω target maxIter (keysOf P) (ofRows (keysOf P) rows) w ii = .error e →
      ∃ rows' w', PickEquiv A F P w'.weight ∧ PartRun A F P ω ii rows rows' ∧
        oneStmt A F P ω target maxIter (keysOf P) ii (mkR P np rows w) = (.error e, mkR P np rows' w') := by
  unfold targetOne oneStmt
  rw [PyM.read_run]
  cases ht : listGet (ofRows (keysOf P) rows).times ii with
  | error e =>
    exact ⟨fun _ _ _ h => (by cases h), fun e' h => (by cases h; exact ⟨rows, w, hw, .refl _ _, PyM.lift_error ht⟩)⟩
  | ok ts =>
    rw [PyM.lift_run (show listGet (mkR P np rows w).walk.times ii = .ok ts from ht)]
    cases hx : lastAt (ofRows (keysOf P) rows).xinds ii with
    | error e =>
      exact ⟨fun _ _ _ h => (by cases h), fun e' h => (by cases h; exact ⟨rows, w, hw, .refl _ _, PyM.lift_error hx⟩)⟩
    | ok x =>
      rw [PyM.lift_run (show lastAt (mkR P np rows w).walk.xinds ii = .ok x from hx)]
      cases hy : lastAt (ofRows (keysOf P) rows).yinds ii with
      | error e =>
        exact ⟨fun _ _ _ h => (by cases h), fun e' h => (by cases h; exact ⟨rows, w, hw, .refl _ _, PyM.lift_error hy⟩)⟩
      | ok y =>
        rw [PyM.lift_run (show lastAt (mkR P np rows w).walk.yinds ii = .ok y from hy)]
        simp only [ok_bind]
        split
        · exact ⟨fun _ _ _ h => (by cases h; exact ⟨rows, rfl, rfl⟩), fun e' h => by cases h⟩
        · exact loopStmt_spec G hV ω target maxIter ii np _ hw hopt

theorem RowSteps.opt {P : PObj K} {ω : Nat → K} {r r' : Row K} (h : RowSteps A F P ω r r') (hr : ∀ key ∈ keysOf P, r.os key ≠ []) :
    ∀ key ∈ keysOf P, r'.os key ≠ [] :=
  h.inv A F (Q := fun r => ∀ key ∈ keysOf P, r.os key ≠ []) (by
    rintro a b _ ⟨p, t, q, t', v, -, -, -, -, -, rfl⟩ key _
    simp [Row.append]) hr

/-- The rows after the loop over the particles `done`. -/
def DoneRows (A : Arith K) (F : Fun K A) (P : PObj K) (ω : Nat → K) (done : List Nat) (rows rows1 : List (Row K)) : Prop :=
  rows1.length = rows.length ∧ ∀ (i : Nat) (r : Row K), rows[i]? = some r → ∃ r1, rows1[i]? = some r1 ∧ (i ∉ done → r1 = r) ∧ RowSteps A F P ω r r1

theorem allStmt_spec {P : PObj K} (G : Good P) (hV : VarsOk P) (ω : Nat → K) (target : Fl K) (maxIter : Int) (np : Nat) (is : List Nat)
    (hnd : is.Nodup) {rows : List (Row K)} {w : World K} {w0 : Option (List Nat)} (hw : PickEquiv A F P w.weight)
    (hopt : ∀ r ∈ rows, ∀ key ∈ keysOf P, r.os key ≠ []) :
    (∀ out w' warn, targetAll A F P ω target maxIter (keysOf P) is (ofRows (keysOf P) rows) w w0 = .ok (out, w', warn) →
      ∃ rows', out = ofRows (keysOf P) rows' ∧
        allStmt A F P ω target maxIter (keysOf P) is w0 (mkR P np rows w) = (.ok warn, mkR P np rows' w')) ∧
    ∀ e, targetAll A F P ω target maxIter (keysOf P) is (ofRows (keysOf P) rows) w w0 = .error e →
      ∃ done k rest rows1 w1 warn rows' w', is = done ++ k :: rest ∧ PickEquiv A F P w'.weight ∧
        targetAll A F P ω target maxIter (keysOf P) done (ofRows (keysOf P) rows) w w0 = .ok (ofRows (keysOf P) rows1, w1, warn) ∧
        DoneRows A F P ω done rows rows1 ∧ PartRun A F P ω k rows1 rows' ∧
        allStmt A F P ω target maxIter (keysOf P) is w0 (mkR P np rows w) = (.error e, mkR P np rows' w') := by
  induction is generalizing rows w w0 with
  | nil =>
    unfold targetAll allStmt
    exact ⟨fun _ _ _ h => (by cases h; exact ⟨rows, rfl, rfl⟩), fun e' h => by cases h⟩
  | cons a is ih =>
    rw [List.nodup_cons] at hnd
    unfold targetAll allStmt
    have h1 := oneStmt_spec (A := A) (F := F) G hV ω target maxIter a np (rows := rows) hw (fun r hr => hopt r (List.mem_of_getElem? hr))
    cases ho : targetOne A F P ω target maxIter (keysOf P) (ofRows (keysOf P) rows) w a with
    | error e =>
      obtain ⟨rows', w', hw', hp, hrun⟩ := h1.2 e ho
      refine ⟨fun _ _ _ h => (by cases h), fun e' h => ?_⟩
      cases h
      exact ⟨[], a, is, rows, w, w0, rows', w', rfl, hw', rfl, ⟨rfl, fun i r hr => ⟨r, hr, fun _ => rfl, .refl _⟩⟩, hp, PyM.error_run hrun⟩
    | ok res =>
      obtain ⟨out, w1, hit⟩ := res
      obtain ⟨hw1, r0, r1, hr0, hout, hto⟩ := targetOne_inv A F G hw ho
      obtain ⟨rows1, hout1, hrun⟩ := h1.1 out w1 hit ho
      have hrows1 : mkR P np rows1 w1 = mkR P np (rows.set a r1) w1 := by
        unfold mkR
        rw [← hout1, hout]
      rw [hrows1] at hrun
      rw [PyM.ok_run hrun]
      simp only [ok_bind]
      subst hout
      have hlt : a < rows.length := (List.getElem?_eq_some_iff.1 hr0).1
      have h2 := ih hnd.2 (rows := rows.set a r1) (w := w1) (w0 := some (if hit then [a] else [])) hw1 (fun r hr => by
        rcases List.mem_or_eq_of_mem_set hr with hr | rfl
        · exact hopt r hr
        · exact (hto.steps A F).opt (hopt r0 (List.mem_of_getElem? hr0)))
      refine ⟨h2.1, fun e h => ?_⟩
      obtain ⟨done, k, rest, rows1, w2, warn, rows', w', his, hw', hdone, ⟨hl1, hd1⟩, hp, hrun'⟩ := h2.2 e h
      have hd : a ∉ done := fun hd => hnd.1 (by rw [his]; simp [hd])
      refine ⟨a :: done, k, rest, rows1, w2, warn, rows', w', by rw [his]; rfl, hw', ?_, ⟨by simpa using hl1, fun i r hr => ?_⟩, hp, hrun'⟩
      · show (targetOne A F P ω target maxIter (keysOf P) (ofRows (keysOf P) rows) w a >>= fun x =>
          targetAll A F P ω target maxIter (keysOf P) done x.1 x.2.1 (some (if x.2.2 then [a] else []))) = _
        rw [ho]
        exact hdone
      · by_cases hia : i = a
        · subst hia
          rw [hr0] at hr
          cases hr
          obtain ⟨r2, hr2, h3, h4⟩ := hd1 i r1 (List.getElem?_set_self hlt)
          cases h3 hd
          exact ⟨r1, hr2, fun h => absurd (by simp) h, hto.steps A F⟩
        · obtain ⟨r2, hr2, h3, h4⟩ := hd1 i r (by rw [List.getElem?_set_ne (Ne.symm hia)]; exact hr)
          exact ⟨r2, hr2, fun h => h3 fun h' => h (by simp [h']), h4⟩

/-! ## The call -/

/-- The rows after a call that raised: unchanged, or the particles before `k` as left by the loop and complete records appended to
particle `k`. -/
def FailedRows (A : Arith K) (F : Fun K A) (P : PObj K) (ω : Nat → K) (target : Option (Fl K)) (maxIter : Int) (w : World K)
    (rows rows' : List (Row K)) : Prop :=
  rows' = rows ∨ ∃ tgt k rows1 w1 warn, target = some tgt ∧ k < rows.length ∧
    targetAll A F P ω tgt maxIter (keysOf P) (List.range k) (ofRows (keysOf P) rows) w none = .ok (ofRows (keysOf P) rows1, w1, warn) ∧
    DoneRows A F P ω (List.range k) rows rows1 ∧ PartRun A F P ω k rows1 rows'

theorem FailedRows.steps {P : PObj K} {ω : Nat → K} {target : Option (Fl K)} {maxIter : Int} {w : World K} {rows rows' : List (Row K)}
    (h : FailedRows A F P ω target maxIter w rows rows') : rows'.length = rows.length ∧ ∀ (i : Nat) (r : Row K), rows[i]? = some r →
      ∃ r', rows'[i]? = some r' ∧ RowSteps A F P ω r r' := by
  rcases h with rfl | ⟨tgt, k, rows1, w1, warn, -, -, -, ⟨hl, hd⟩, hl', hp, hk⟩
  · exact ⟨rfl, fun i r hr => ⟨r, hr, .refl _⟩⟩
  · refine ⟨by rw [hl', hl], fun i r hr => ?_⟩
    obtain ⟨r1, hr1, -, h1⟩ := hd i r hr
    by_cases hik : i = k
    · subst hik
      obtain ⟨r2, hr2, h2⟩ := hk r1 hr1
      exact ⟨r2, hr2, h1.trans A F h2⟩
    · exact ⟨r1, by rw [hp i hik]; exact hr1, h1⟩

theorem range_split {n : Nat} {done rest : List Nat} {k : Nat} (h : List.range n = done ++ k :: rest) : done = List.range k ∧ k < n := by
  have hk : done.length = k := by
    have h1 : (List.range n)[done.length]? = some k := by rw [h]; simp
    have hlt : done.length < n := by
      have := (List.getElem?_eq_some_iff.1 h1).1
      simpa using this
    rw [List.getElem?_range hlt] at h1
    simpa using h1
  have hlt : k < n := by
    have := congrArg List.length h
    simp at this
    omega
  refine ⟨?_, hlt⟩
  have h2 : (List.range n).take k = done := by rw [h, ← hk]; simp
  rw [← h2, List.take_range]
  congr 1
  omega

theorem runStmt_spec {P : PObj K} (G : Good P) (hV : VarsOk P) (ω : Nat → K) (target : Option (Fl K)) (maxIter : Int) {s : PState K}
    {rows : List (Row K)} (hw : PickEquiv A F P s.world.weight) (hwalk : s.walk = some (ofRows (keysOf P) rows))
    (hnp : s.np = rows.length ∨ s.np = 0) :
    (∀ res, runIteration A F P ω s target maxIter = .ok res → runStmt A F P ω target maxIter s = (.ok (res.returned, res.warned), res.state)) ∧
    ∀ e, runIteration A F P ω s target maxIter = .error e → ∃ s' rows', runStmt A F P ω target maxIter s = (.error e, s') ∧
      PickEquiv A F P s'.world.weight ∧ s'.walk = some (ofRows (keysOf P) rows') ∧ s'.np = rows.length ∧
      FailedRows A F P ω target maxIter s.world rows rows' := by
  unfold runIteration runStmt
  rw [PyM.read_run, hwalk]
  simp only
  rw [PyM.assign_run, PyM.read_run]
  have hnp' : (if s.np = 0 then (ofRows (keysOf P) rows).xinds.length else s.np) = rows.length := by
    rcases hnp with h0 | h0
    · by_cases hz : s.np = 0
      · rw [if_pos hz]; simp [ofRows]
      · rw [if_neg hz, h0]
    · rw [if_pos h0]; simp [ofRows]
  have hst : (if s.np = 0 then { s with np := (ofRows (keysOf P) rows).xinds.length } else s) =
      { world := s.world, np := rows.length, walk := some (ofRows (keysOf P) rows) } := by
    split
    · rename_i hz
      rw [if_pos hz] at hnp'
      rw [hnp', hwalk]
    · rename_i hz
      rw [if_neg hz] at hnp'
      rw [← hnp', ← hwalk]
  rw [hnp', hst]
  simp only [optionalVars_ofRows]
  have triv : ∀ e, ∃ s' rows', ((.error e, { world := s.world, np := rows.length, walk := some (ofRows (keysOf P) rows) }) :
      Except PyErr (WalkData K × List Nat) × PState K) = (.error e, s') ∧
      PickEquiv A F P s'.world.weight ∧ s'.walk = some (ofRows (keysOf P) rows') ∧ s'.np = rows.length ∧
      FailedRows A F P ω target maxIter s.world rows rows' := fun e => ⟨_, rows, rfl, hw, rfl, rfl, Or.inl rfl⟩
  cases hsx : mapE (lastAt (ofRows (keysOf P) rows).xinds) (List.range rows.length) with
  | error e => exact ⟨fun _ h => (by cases h), fun e' h => (by cases h; rw [PyM.lift_error rfl]; exact triv _)⟩
  | ok sx =>
  rw [PyM.lift_run rfl]
  cases hsy : mapE (lastAt (ofRows (keysOf P) rows).yinds) (List.range rows.length) with
  | error e => exact ⟨fun _ h => (by cases h), fun e' h => (by cases h; rw [PyM.lift_error rfl]; exact triv _)⟩
  | ok sy =>
  rw [PyM.lift_run rfl]
  cases hsti : mapE (lastAt (ofRows (keysOf P) rows).times) (List.range rows.length) with
  | error e => exact ⟨fun _ h => (by cases h), fun e' h => (by cases h; rw [PyM.lift_error rfl]; exact triv _)⟩
  | ok st =>
  rw [PyM.lift_run rfl]
  simp only [ok_bind]
  cases hso : mapE (fun e : String × List (List (Val K)) => mapE (lastAt e.2) (List.range rows.length))
      (dictOf (keysOf P) fun k => rows.map fun r => r.os k) with
  | error e => exact ⟨fun _ h => (by cases h), fun e' h => (by cases h; rw [PyM.lift_error rfl]; exact triv _)⟩
  | ok so =>
  rw [PyM.lift_run rfl]
  simp only [ok_bind]
  have hopt : ∀ r ∈ rows, ∀ key ∈ keysOf P, r.os key ≠ [] := by
    intro r hr key hk h0
    obtain ⟨i, hi⟩ := List.getElem?_of_mem hr
    have hlt := (List.getElem?_eq_some_iff.1 hi).1
    have hmem : (key, rows.map fun r => r.os key) ∈ dictOf (keysOf P) fun k => rows.map fun r => r.os k := List.mem_map.2 ⟨key, hk, rfl⟩
    obtain ⟨n, hn⟩ := List.getElem?_of_mem hmem
    obtain ⟨b, -, hb⟩ := mapE_get hso hn
    obtain ⟨c, -, hc⟩ := mapE_get hb (List.getElem?_range hlt)
    obtain ⟨r1, hr1, hl⟩ := lastAt_ofRows (f := fun r => r.os key) hc
    rw [hi] at hr1
    cases hr1
    rw [h0] at hl
    cases hl
  have hkeys : (dictOf (keysOf P) fun k => rows.map fun r => r.os k).map (fun x => x.1) = keysOf P := by
    unfold dictOf; rw [List.map_map]; simp [Function.comp_def]
  rw [hkeys]
  have hwd : WalkData.mk (ofRows (keysOf P) rows).xinds (ofRows (keysOf P) rows).yinds
      (ofRows (keysOf P) rows).times (dictOf (keysOf P) fun k => rows.map fun r => r.os k) = ofRows (keysOf P) rows := rfl
  rw [hwd]
  have hmerge : ∀ rows' : List (Row K), mergeOpt (ofRows (keysOf P) rows).opt (ofRows (keysOf P) rows').opt =
      (ofRows (keysOf P) rows').opt := by
    intro rows'
    have hg : ∀ k ∈ keysOf P, dictGet (ofRows (keysOf P) rows').opt k = some (rows'.map fun r => r.os k) := fun k hk => by
      show dictGet (dictOf (keysOf P) _) k = _
      rw [dictGet_dictOf, if_pos hk]
    unfold mergeOpt
    show List.map _ (dictOf (keysOf P) _) = dictOf _ _
    unfold dictOf
    rw [List.map_map]
    apply List.map_congr_left
    intro k hk
    simp only [Function.comp]
    rw [hg k hk]
  have hR : (⟨{ world := s.world, np := rows.length, walk := some (ofRows (keysOf P) rows) }, dictOf (keysOf P) fun k => rows.map fun r => r.os k⟩ :
      RunSt K) = mkR P rows.length rows s.world := rfl
  unfold PyM.withView
  rw [hR]
  cases target with
  | none =>
    simp only
    have hst2 := onObj_ref (np := rows.length) (rows := rows)
      (stepperStmt_ref (A := A) (F := F) G ω (s := (mkR P rows.length rows s.world).obj) hw (sx.zip sy) st (keysOf P))
    cases hs : particleStepper A F P ω s.world (sx.zip sy) st (keysOf P) with
    | error e =>
      obtain ⟨w', hw', hm⟩ := hst2.2 e hs
      refine ⟨fun _ h => (by cases h), fun e' h => ?_⟩
      cases h
      rw [PyM.error_run hm]
      exact ⟨_, rows, rfl, hw', rfl, rfl, Or.inl rfl⟩
    | ok res =>
      obtain ⟨⟨news, times, upd⟩, w1⟩ := res
      rw [PyM.ok_run (hst2.1 _ _ hs)]
      simp only [ok_bind]
      obtain ⟨hw1, hlen, hst1, hupd⟩ := particleStepper_inv A F G hw hs
      have hupd' : updatedOptional P (keysOf P) news = .ok upd := by
        unfold particleStepper at hs
        simp only [bind_ok, pure_ok, Prod.exists, Prod.mk.injEq] at hs
        obtain ⟨cells, s1, hcells, inds0, hinds0, dist, hdist, temp, pos', htemp, opt, hopt', ⟨rfl, rfl, rfl⟩, rfl⟩ := hs
        exact hopt'
      have hlx := mapE_length hsx
      have hly := mapE_length hsy
      have hlt := mapE_length hsti
      obtain ⟨out, hout⟩ := storeSteps_total (starts := sx.zip sy) (news := news) (times := times) (upd := upd) (keys := keysOf P)
        (List.range rows.length) (fun i hi => by
          have hi' : i < rows.length := by simpa using hi
          have hp : ∃ p, (sx.zip sy)[i]? = some p := ⟨_, List.getElem?_eq_getElem (by simp [List.length_zip]; simp at hlx hly; omega)⟩
          have ht : ∃ t, st[i]? = some t := ⟨_, List.getElem?_eq_getElem (by simp at hlt; omega)⟩
          obtain ⟨p, hp⟩ := hp
          obtain ⟨t, ht⟩ := ht
          obtain ⟨q, t1, hq, ht1, -⟩ := hst1 i p t hp ht
          refine ⟨⟨q, hq⟩, ⟨p, hp⟩, ⟨t1, ht1⟩, fun key hk => ?_⟩
          obtain ⟨l, hl⟩ := updatedOptional_has hV (fun _ h => h) hupd' hk
          obtain ⟨v, hv, -⟩ := hupd key l i q hl hq
          exact ⟨l, v, hl, hv⟩) (ofRows (keysOf P) rows)
      obtain ⟨rows', rfl, hrun⟩ := storeStmt_ok (np := rows.length) (w := w1) (List.range rows.length) hout
      rw [hout, PyM.ok_run hrun, PyM.read_run]
      refine ⟨fun res h => ?_, fun e h => by cases h⟩
      cases h
      simp only [hmerge]
      rfl
  | some tgt =>
    simp only
    have h1 := allStmt_spec (A := A) (F := F) G hV ω tgt maxIter rows.length (List.range rows.length) List.nodup_range (rows := rows)
      (w := s.world) (w0 := none) hw hopt
    cases ha : targetAll A F P ω tgt maxIter (keysOf P) (List.range rows.length) (ofRows (keysOf P) rows) s.world none with
    | error e =>
      obtain ⟨done, k, rest, rows1, w2, warn, rows', w', his, hw', hdone, hl1, hp, hrun⟩ := h1.2 e ha
      refine ⟨fun _ h => (by cases h), fun e' h => ?_⟩
      cases h
      rw [PyM.error_run hrun]
      obtain ⟨rfl, hk⟩ := range_split his
      exact ⟨_, rows', rfl, hw', rfl, rfl, Or.inr ⟨tgt, k, rows1, w2, warn, rfl, hk, hdone, hl1, hp⟩⟩
    | ok res =>
      obtain ⟨out, w1, warn⟩ := res
      obtain ⟨rows', rfl, hrun⟩ := h1.1 _ _ _ ha
      obtain ⟨hw1, rows2, hits, hr2, hl2, hrw2, hwarn⟩ := targetAll_inv A F G (List.range rows.length) List.nodup_range hw ha
      rw [PyM.ok_run hrun, PyM.read_run]
      simp only [ok_bind]
      cases warn with
      | none =>
        refine ⟨fun _ h => (by cases h), fun e' h => ?_⟩
        cases h
        have hnil : rows = [] := by
          cases rows with
          | nil => rfl
          | cons r0 rows0 =>
            rw [List.getLast?_range] at hwarn
            simp at hwarn
        subst hnil
        refine ⟨_, rows', rfl, hw1, rfl, rfl, Or.inl ?_⟩
        have hx : (Except.ok (ofRows (keysOf P) [], s.world, none) : Except PyErr (WalkData K × World K × Option (List Nat))) = _ := ha
        rw [Except.ok.injEq, Prod.mk.injEq] at hx
        have : ([] : List (List Int)) = rows'.map _ := congrArg WalkData.xinds hx.1
        simpa using this.symm
      | some l =>
        refine ⟨fun res h => ?_, fun e' h => by cases h⟩
        cases h
        simp only
        rw [PyM.assign_run]
        rfl

/-! ## Walk data are never dropped -/

/-- The predicate survives the statements, whether they raise or not. -/
def PyM.Keeps {σ α : Type} (I : σ → Prop) (m : PyM σ α) : Prop := ∀ s, I s → I (m s).2

theorem PyM.Keeps.bind {σ α β : Type} {I : σ → Prop} {m : PyM σ α} {f : α → PyM σ β} (h : m.Keeps I) (hf : ∀ a, (f a).Keeps I) :
    (m >>= f).Keeps I := by
  intro s hs
  have h1 := h s hs
  show I (PyM.seq m f s).2
  unfold PyM.seq
  generalize m s = r at h1
  obtain ⟨x, s'⟩ := r
  cases x with
  | error e => exact h1
  | ok a => exact hf a s' h1

theorem PyM.Keeps.lift {σ α : Type} {I : σ → Prop} (x : Except PyErr α) : (PyM.lift x : PyM σ α).Keeps I := fun _ hs => hs
theorem PyM.Keeps.pure {σ α : Type} {I : σ → Prop} (a : α) : (Pure.pure a : PyM σ α).Keeps I := fun _ hs => hs
theorem PyM.Keeps.read {σ : Type} {I : σ → Prop} : (PyM.read : PyM σ σ).Keeps I := fun _ hs => hs
theorem PyM.Keeps.assign {σ : Type} {I : σ → Prop} {f : σ → σ} (h : ∀ s, I s → I (f s)) : (PyM.assign f).Keeps I := fun s hs => h s hs

/-- There are walk data. -/
def HasWalk (s : PState K) : Prop := s.walk ≠ none

theorem stepperStmt_keeps (P : PObj K) (ω : Nat → K) (cur : List (Int × Int)) (times : List (Fl K)) (vars : List String) :
    (stepperStmt A F P ω cur times vars).Keeps HasWalk := by
  have h1 : ∀ ind, (getWeightStmt A P ω ind).Keeps HasWalk := by
    intro ind
    unfold getWeightStmt
    exact .bind (.lift _) fun i => .bind (.lift _) fun j => .bind .read fun s => .bind (.assign fun _ h => h) fun _ => .bind (.lift _) fun _ =>
      .bind (.assign fun _ h => h) fun _ => .pure _
  have h2 : ∀ l, (newCellsStmt A P ω l).Keeps HasWalk := by
    intro l
    induction l with
    | nil => exact .pure _
    | cons a l ih =>
      unfold newCellsStmt
      refine .bind ?_ fun _ => .bind ih fun _ => .pure _
      unfold newCellStmt
      split
      · exact h1 a
      · exact .pure _
  have h3 : ∀ k p q d, (travelTimeStmt A F P ω k p q d).Keeps HasWalk := by
    intro k p q d
    unfold travelTimeStmt
    split
    · refine .bind (.lift _) fun _ => .bind (.lift _) fun _ => .bind .read fun _ => .bind (.assign fun s h => ?_) fun _ =>
        .bind (.lift _) fun _ => .bind (.lift _) fun _ => .bind (.lift _) fun _ => .pure _
      split
      · exact h
      · exact h
    · exact .pure _
  have h4 : ∀ l, (travelTimesStmt A F P ω l).Keeps HasWalk := by
    intro l
    induction l with
    | nil => exact .pure _
    | cons a l ih =>
      unfold travelTimesStmt
      exact .bind (h3 _ _ _ _) fun _ => .bind ih fun _ => .pure _
  unfold stepperStmt
  exact .bind (h2 _) fun _ => .bind (.lift _) fun _ => .bind (.lift _) fun _ => .bind (h4 _) fun _ => .bind (.lift _) fun _ => .pure _

theorem appendRecStmt_keeps (ii k : Nat) (q : Int × Int) (times : List (Fl K)) (upd : List (String × List (Val K))) (keys : List String) :
    (appendRecStmt ii k q times upd keys).Keeps (fun s : RunSt K => HasWalk s.obj) := by
  have h0 : ∀ f : WalkData K → WalkData K, (appendStmt f).Keeps (fun s : RunSt K => HasWalk s.obj) := fun f => .assign fun s h => by
    unfold HasWalk at h ⊢
    simpa using h
  have h1 : (appendVarsStmt ii k upd keys).Keeps (fun s : RunSt K => HasWalk s.obj) := by
    induction keys with
    | nil => exact .pure _
    | cons a l ih =>
      unfold appendVarsStmt
      split
      · exact .lift _
      · refine .bind (.lift _) fun _ => .bind (.assign fun s h => ?_) fun _ => ih
        unfold HasWalk at h ⊢
        simpa using h
  unfold appendRecStmt
  exact .bind (h0 _) fun _ => .bind (h0 _) fun _ => .bind (.lift _) fun _ => .bind (h0 _) fun _ => h1

theorem onObj_keeps {α : Type} {m : PyM (PState K) α} (h : m.Keeps HasWalk) : (PyM.onObj m).Keeps (fun s : RunSt K => HasWalk s.obj) :=
  fun s hs => h s.obj hs

theorem runStmt_keeps (P : PObj K) (ω : Nat → K) (target : Option (Fl K)) (maxIter : Int) {s : PState K} (hs : s.walk ≠ none) :
    (runStmt A F P ω target maxIter s).2.walk ≠ none := by
  have hstore : ∀ starts news (times : List (Fl K)) upd keys is,
      (storeStmt starts news times upd keys is).Keeps (fun s : RunSt K => HasWalk s.obj) := by
    intro starts news times upd keys is
    induction is with
    | nil => exact .pure _
    | cons a is ih =>
      unfold storeStmt
      refine .bind (.lift _) fun _ => .bind (.lift _) fun _ => ?_
      split
      · exact .bind (appendRecStmt_keeps _ _ _ _ _ _) fun _ => ih
      · exact ih
  have hloop : ∀ tgt keys ii fuel est count, (loopStmt A F P ω tgt maxIter keys ii fuel est count).Keeps (fun s : RunSt K => HasWalk s.obj) := by
    intro tgt keys ii fuel
    induction fuel with
    | zero =>
      intro est count
      unfold loopStmt
      refine .bind .read fun _ => .bind (.lift _) fun _ => ?_
      split
      · exact .lift _
      · exact .pure _
    | succ fuel ih =>
      intro est count
      unfold loopStmt
      refine .bind .read fun _ => .bind (.lift _) fun _ => ?_
      split
      · refine .bind (.lift _) fun _ => .bind (.lift _) fun _ => .bind (.lift _) fun _ => .bind (onObj_keeps (stepperStmt_keeps _ _ _ _ _)) fun _ =>
          .bind (.lift _) fun _ => ?_
        split
        · refine .bind (appendRecStmt_keeps _ _ _ _ _ _) fun _ => .bind .read fun _ => .bind (.lift _) fun _ => ?_
          split
          · exact .pure _
          · exact ih _ _
        · exact .pure _
      · exact .pure _
  have hall : ∀ tgt keys is w0, (allStmt A F P ω tgt maxIter keys is w0).Keeps (fun s : RunSt K => HasWalk s.obj) := by
    intro tgt keys is
    induction is with
    | nil => intro w0; exact .pure _
    | cons a is ih =>
      intro w0
      unfold allStmt
      refine .bind ?_ fun _ => ih _
      unfold oneStmt
      refine .bind .read fun _ => .bind (.lift _) fun _ => .bind (.lift _) fun _ => .bind (.lift _) fun _ => ?_
      split
      · exact .pure _
      · exact hloop _ _ _ _ _ _
  have : (runStmt A F P ω target maxIter).Keeps HasWalk := by
    unfold runStmt
    refine .bind .read fun s0 => ?_
    split
    · exact .lift _
    · refine .bind (.assign fun s h => ?_) fun _ => .bind .read fun _ => .bind (.lift _) fun _ => .bind (.lift _) fun _ => .bind (.lift _) fun _ =>
        .bind (.lift _) fun _ => ?_
      · split
        · exact h
        · exact h
      · intro s h
        unfold PyM.withView
        have key : ∀ {α : Type} (m : PyM (RunSt K) α), m.Keeps (fun s : RunSt K => HasWalk s.obj) → ∀ v, HasWalk (m ⟨s, v⟩).2.obj :=
          fun m hm v => hm ⟨s, v⟩ h
        refine key _ ?_ _
        split
        · exact .bind (onObj_keeps (stepperStmt_keeps _ _ _ _ _)) fun _ => .bind (hstore _ _ _ _ _ _) fun _ => .bind .read fun _ => .pure _
        · refine .bind (hall _ _ _ _) fun _ => .bind .read fun _ => ?_
          split
          · exact .lift _
          · exact .bind (.assign fun _ _ => by unfold HasWalk; simp) fun _ => .pure _
  exact this s hs

end Dorado
