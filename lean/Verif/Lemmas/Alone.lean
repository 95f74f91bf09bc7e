import Verif.Lemmas.First
import Verif.Lemmas.HeapRun
import Verif.Spec.Alone

/-! Helper lemmas: the target-time loop of one particle as a sequence of plain iterations. -/

set_option linter.unusedSectionVars false

namespace Dorado

variable {K : Type} [Field K] [LinearOrder K] [IsStrictOrderedRing K] [FloorRing K] {A : Arith K} {F : Fun K A}

/-- No history of the row is empty. -/
structure Row.Full (keys : List String) (r : Row K) : Prop where
  xs : r.xs ≠ []
  ys : r.ys ≠ []
  ts : r.ts ≠ []
  os : ∀ key ∈ keys, r.os key ≠ []

theorem Row.Full.append {keys : List String} {r : Row K} (q : Int × Int) (t : Fl K) (v : String → Val K) :
    (r.append q t v).Full keys :=
  ⟨by simp [Row.append], by simp [Row.append], by simp [Row.append], fun _ _ => by simp [Row.append]⟩

theorem VarInv.full {V : String → Int × Int → Val K → Prop} {keys : List String} {r : Row K} (h : VarInv V keys r) : r.Full keys := by
  obtain ⟨h1, h2, h3⟩ := h.aligned
  refine ⟨fun h0 => ?_, fun h0 => ?_, fun h0 => ?_, fun key hk h0 => ?_⟩
  · rw [h0] at h3; simp at h3
  · rw [h0] at h1; simp at h1; rw [h1] at h3; simp at h3
  · rw [h0] at h2; simp at h2; omega
  · have := h.len key hk
    rw [h0] at this
    simp at this
    omega

theorem only_ofRows {keys : List String} {rows : List (Row K)} {i : Nat} {r : Row K} (h : rows[i]? = some r) :
    (ofRows keys rows).only i = ofRows keys [r] := by
  have hd : (rows.drop i).take 1 = [r] := by
    obtain ⟨hlt, he⟩ := List.getElem?_eq_some_iff.1 h
    rw [List.drop_eq_getElem_cons hlt, he]
    simp
  unfold WalkData.only ofRows dictOf
  simp only [← List.map_drop, ← List.map_take, hd, List.map_map, Function.comp_def]

/-- A plain iteration of a single particle, up to the call of the stepper. -/
theorem runIteration_alone {P : PObj K} {ω : Nat → K} {w w1 : World K} {r : Row K} (hf : r.Full (keysOf P)) {x y : Int} {t : Fl K}
    (hx : r.xs.getLast? = some x) (hy : r.ys.getLast? = some y) (ht : r.ts.getLast? = some t)
    {news : List (Int × Int)} {times : List (Fl K)} {upd : List (String × List (Val K))}
    (hst : particleStepper A F P ω w [(x, y)] [t] (keysOf P) = .ok ((news, times, upd), w1)) {rows' : List (Row K)}
    (hs : storeSteps [(x, y)] news times upd (keysOf P) [0] (ofRows (keysOf P) [r]) = .ok (ofRows (keysOf P) rows')) (m : Int) :
    runIteration A F P ω (alone w (ofRows (keysOf P) [r])) none m =
      .ok { returned := ofRows (keysOf P) rows', state := alone w1 (ofRows (keysOf P) rows'), warned := [] } := by
  unfold runIteration alone
  simp only [one_ne_zero, if_false, optionalVars_ofRows]
  have hl : ∀ {β : Type} (f : Row K → List β) (a : β), (f r).getLast? = some a → mapE (lastAt ([r].map f)) (List.range 1) = .ok [a] := by
    intro β f a ha
    have : lastAt ([r].map f) 0 = .ok a := lastAt_ofRows' (f := f) (rows := [r]) (i := 0) rfl ha
    simp only [List.range_one, mapE, this]
    rfl
  have ex : mapE (lastAt (ofRows (keysOf P) [r]).xinds) (List.range 1) = .ok [x] := hl (fun r => r.xs) x hx
  have ey : mapE (lastAt (ofRows (keysOf P) [r]).yinds) (List.range 1) = .ok [y] := hl (fun r => r.ys) y hy
  have et : mapE (lastAt (ofRows (keysOf P) [r]).times) (List.range 1) = .ok [t] := hl (fun r => r.ts) t ht
  obtain ⟨so, hso⟩ := mapE_exists (f := fun e : String × List (List (Val K)) => mapE (lastAt e.2) (List.range 1))
      (l := dictOf (keysOf P) fun k => [r].map fun r => r.os k) fun e he => by
    unfold dictOf at he
    obtain ⟨k, hk, rfl⟩ := List.mem_map.1 he
    exact ⟨_, hl (fun r => r.os k) _ (List.getLast?_eq_some_getLast (hf.os k hk))⟩
  have hkeys : (dictOf (keysOf P) fun k => [r].map fun r => r.os k).map (fun x => x.1) = keysOf P := by
    unfold dictOf; rw [List.map_map]; simp [Function.comp_def]
  rw [ex, ey, et]
  simp only [ok_bind]
  rw [hso]
  simp only [ok_bind]
  rw [hkeys]
  have hwd : WalkData.mk (ofRows (keysOf P) [r]).xinds (ofRows (keysOf P) [r]).yinds
      (ofRows (keysOf P) [r]).times (dictOf (keysOf P) fun k => [r].map fun r => r.os k) = ofRows (keysOf P) [r] := rfl
  rw [hwd]
  have hz : [x].zip [y] = [(x, y)] := rfl
  rw [hz, hst]
  simp only [ok_bind, List.range_one]
  rw [hs]
  simp only [ok_bind]
  have hm : mergeOpt (ofRows (keysOf P) [r]).opt (ofRows (keysOf P) rows').opt = (ofRows (keysOf P) rows').opt := mergeOpt_dictOf _ _ _
  rw [hm]
  rfl

/-- The while loop of one particle is a number of plain iterations of that particle alone; at most the last of them records nothing. -/
theorem targetLoop_plain {P : PObj K} {ω : Nat → K} {target : Fl K} {maxIter : Int} {ii : Nat} (fuel : Nat)
    {rows : List (Row K)} {s s' : World K} {est : Fl K} {count : Int} {out : WalkData K} {hit : Bool} {r : Row K}
    (hr : rows[ii]? = some r) (hf : r.Full (keysOf P))
    (h : targetLoop A F P ω target maxIter (keysOf P) ii fuel (ofRows (keysOf P) rows) s est count = .ok (out, s', hit)) :
    ∃ k r', out = ofRows (keysOf P) (rows.set ii r') ∧ r'.Full (keysOf P) ∧
      plainRuns A F P ω k (alone s (ofRows (keysOf P) [r])) = .ok (alone s' (ofRows (keysOf P) [r'])) ∧
      (r'.xs.length = r.xs.length + k ∨ r'.xs.length + 1 = r.xs.length + k) := by
  induction fuel generalizing rows s est count r with
  | zero =>
    unfold targetLoop at h
    simp only [bind_ok] at h
    obtain ⟨t, ht, h⟩ := h
    split at h
    · cases h
    · simp only [pure_ok, Prod.mk.injEq] at h
      obtain ⟨rfl, rfl, rfl⟩ := h
      exact ⟨0, r, by rw [set_self_of_get hr], hf, rfl, Or.inl rfl⟩
  | succ fuel ih =>
    unfold targetLoop at h
    simp only [bind_ok] at h
    obtain ⟨t, ht, h⟩ := h
    obtain ⟨r0, hr0, ht⟩ := lastAt_ofRows (f := fun r => r.ts) ht
    rw [hr] at hr0
    injection hr0 with hr0; subst hr0
    split at h
    · simp only [bind_ok] at h
      obtain ⟨x, hx, y, hy, ⟨⟨news, times, upd⟩, s1⟩, hst, h⟩ := h
      obtain ⟨r1, hr1, hx⟩ := lastAt_ofRows (f := fun r => r.xs) hx
      obtain ⟨r2, hr2, hy⟩ := lastAt_ofRows (f := fun r => r.ys) hy
      rw [hr] at hr1 hr2
      injection hr1 with hr1; subst hr1
      injection hr2 with hr2; subst hr2
      simp only at h
      obtain ⟨q, hq, h⟩ := h
      by_cases hqp : q = (x, y)
      · simp only [hqp, ne_eq, not_true, if_false, pure_ok, Prod.mk.injEq] at h
        obtain ⟨rfl, rfl, rfl⟩ := h
        have hs : storeSteps [(x, y)] news times upd (keysOf P) [0] (ofRows (keysOf P) [r]) = .ok (ofRows (keysOf P) [r]) := by
          simp only [storeSteps, hq, ok_bind, hqp]
          simp [listGet]
        refine ⟨1, r, by rw [set_self_of_get hr], hf, ?_, Or.inr rfl⟩
        simp only [plainRuns, runIteration_alone hf hx hy ht hst hs, ok_bind]
      · simp only [ne_eq, hqp, not_false_eq_true, if_true, bind_ok] at h
        obtain ⟨t1, ht1, vals, hvals, h⟩ := h
        obtain ⟨v, hve, hv⟩ := pickOpt_inv hvals
        have hs : storeSteps [(x, y)] news times upd (keysOf P) [0] (ofRows (keysOf P) [r]) =
            .ok (ofRows (keysOf P) [r.append q t1 v]) := by
          simp only [storeSteps, hq, ok_bind]
          have h0 : listGet [(x, y)] 0 = .ok (x, y) := rfl
          simp only [h0, ok_bind, ne_eq, hqp, not_false_eq_true, if_true, ht1, hvals]
          rw [hve, appendRec_ofRows]
          rfl
        have hrun := runIteration_alone hf hx hy ht hst hs 10000
        subst hve
        rw [appendRec_ofRows] at h
        have hmod : rows.modify ii (fun r => r.append q t1 v) = rows.set ii (r.append q t1 v) := by
          rw [List.modify_eq_set_getElem?, hr]; rfl
        rw [hmod] at h
        have hlt : ii < rows.length := (List.getElem?_eq_some_iff.1 hr).1
        have hlen : (r.append q t1 v).xs.length = r.xs.length + 1 := by simp [Row.append]
        split at h
        · simp only [pure_ok, Prod.mk.injEq] at h
          obtain ⟨rfl, rfl, rfl⟩ := h
          refine ⟨1, _, rfl, Row.Full.append q t1 v, ?_, Or.inl hlen⟩
          simp only [plainRuns, hrun, ok_bind]
        · obtain ⟨k, r', hout, hf', hp, hl⟩ := ih (List.getElem?_set_self hlt) (Row.Full.append q t1 v) h
          refine ⟨k + 1, r', by rw [hout, List.set_set], hf', ?_, by rw [hlen] at hl; omega⟩
          simp only [plainRuns, hrun, ok_bind, hp]
    · simp only [pure_ok, Prod.mk.injEq] at h
      obtain ⟨rfl, rfl, rfl⟩ := h
      exact ⟨0, r, by rw [set_self_of_get hr], hf, rfl, Or.inl rfl⟩

theorem targetOne_plain {P : PObj K} {ω : Nat → K} {target : Fl K} {maxIter : Int} {ii : Nat} {rows : List (Row K)} {s s' : World K}
    {out : WalkData K} {hit : Bool} {r : Row K} (hr : rows[ii]? = some r) (hf : r.Full (keysOf P))
    (h : targetOne A F P ω target maxIter (keysOf P) (ofRows (keysOf P) rows) s ii = .ok (out, s', hit)) :
    ∃ k r', out = ofRows (keysOf P) (rows.set ii r') ∧ r'.Full (keysOf P) ∧
      plainRuns A F P ω k (alone s (ofRows (keysOf P) [r])) = .ok (alone s' (ofRows (keysOf P) [r'])) ∧
      (r'.xs.length = r.xs.length + k ∨ r'.xs.length + 1 = r.xs.length + k) := by
  unfold targetOne at h
  simp only [bind_ok] at h
  obtain ⟨ts, hts, x, hx, y, hy, h⟩ := h
  split at h
  · simp only [pure_ok, Prod.mk.injEq] at h
    obtain ⟨rfl, rfl, rfl⟩ := h
    exact ⟨0, r, by rw [set_self_of_get hr], hf, rfl, Or.inl rfl⟩
  · exact targetLoop_plain _ hr hf h

/-- The loop over the particles `a, a+1, …`: worlds before and after each of them. -/
theorem targetAll_plain {P : PObj K} {ω : Nat → K} {target : Fl K} {maxIter : Int} (n a : Nat) {rows : List (Row K)} (hn : a + n = rows.length)
    (hf : ∀ r ∈ rows, r.Full (keysOf P)) {s s' : World K} {out : WalkData K} {w0 warn : Option (List Nat)}
    (h : targetAll A F P ω target maxIter (keysOf P) (List.range' a n) (ofRows (keysOf P) rows) s w0 = .ok (out, s', warn)) :
    ∃ (rows' : List (Row K)) (w : Nat → World K), out = ofRows (keysOf P) rows' ∧ rows'.length = rows.length ∧ w a = s ∧ w (a + n) = s' ∧
      (∀ (i : Nat), i < a → rows'[i]? = rows[i]?) ∧
      ∀ (i : Nat) (r : Row K), a ≤ i → rows[i]? = some r → ∃ r' k, rows'[i]? = some r' ∧
        plainRuns A F P ω k (alone (w i) (ofRows (keysOf P) [r])) = .ok (alone (w (i + 1)) (ofRows (keysOf P) [r'])) ∧
        (r'.xs.length = r.xs.length + k ∨ r'.xs.length + 1 = r.xs.length + k) := by
  induction n generalizing a rows s w0 with
  | zero =>
    simp only [List.range'_zero, targetAll, Except.ok.injEq, Prod.mk.injEq] at h
    obtain ⟨rfl, rfl, rfl⟩ := h
    refine ⟨rows, fun _ => s, rfl, rfl, rfl, rfl, fun _ _ => rfl, fun i r hi hr => ?_⟩
    have := (List.getElem?_eq_some_iff.1 hr).1
    omega
  | succ n ih =>
    rw [List.range'_succ] at h
    simp only [targetAll, bind_ok] at h
    obtain ⟨⟨wd1, s1, hit⟩, h1, h⟩ := h
    have hlt : a < rows.length := by omega
    have hra := List.getElem?_eq_getElem hlt
    obtain ⟨k, r1, rfl, hfull, hp, hl⟩ := targetOne_plain hra (hf _ (List.getElem_mem hlt)) h1
    obtain ⟨rows', w, hout, hlen, hw1, hw2, hbefore, hafter⟩ := ih (a + 1) (by simpa using by omega) (fun r hr => by
      rcases List.mem_or_eq_of_mem_set hr with hr | rfl
      · exact hf r hr
      · exact hfull) h
    refine ⟨rows', fun i => if i ≤ a then s else w i, hout, by simpa using hlen, by simp, ?_, fun i hi => ?_, fun i r hi hr => ?_⟩
    · have : ¬ a + (n + 1) ≤ a := by omega
      simp only [this, if_false]
      rw [← hw2]
      congr 1
      omega
    · rw [hbefore i (by omega), List.getElem?_set_ne (by omega)]
    · by_cases hia : i = a
      · subst hia
        rw [hra] at hr
        injection hr with hr; subst hr
        refine ⟨r1, k, ?_, ?_, hl⟩
        · rw [hbefore i (by omega), List.getElem?_set_self hlt]
        · have : ¬ i + 1 ≤ i := by omega
          simp only [le_refl, if_true, this, if_false, hw1]
          exact hp
      · obtain ⟨r', k', h1, h2, h3⟩ := hafter i r (by omega) (by rw [List.getElem?_set_ne (by omega)]; exact hr)
        refine ⟨r', k', h1, ?_, h3⟩
        have e1 : ¬ i ≤ a := by omega
        have e2 : ¬ i + 1 ≤ a := by omega
        simp only [e1, e2, if_false]
        exact h2

/-- A target-time call is the loop over the particles. -/
theorem runIteration_targetAll {P : PObj K} {ω : Nat → K} {s : PState K} {rows : List (Row K)} {target : Fl K} {maxIter : Int}
    {res : RunResult K} (hr : HasRows P s rows) (h : runIteration A F P ω s (some target) maxIter = .ok res) :
    res.state.walk = some res.returned ∧ res.state.np = rows.length ∧ ∃ l, res.warned = (if P.verbose then l else []) ∧
      targetAll A F P ω target maxIter (keysOf P) (List.range rows.length) (ofRows (keysOf P) rows) s.world none =
        .ok (res.returned, res.state.world, some l) := by
  unfold runIteration at h
  rw [hr.1] at h
  simp only at h
  have hnp' : (if s.np = 0 then (ofRows (keysOf P) rows).xinds.length else s.np) = rows.length := by
    rw [hr.2]
    split
    · simp [ofRows]
    · rfl
  rw [hnp'] at h
  simp only [optionalVars_ofRows, bind_ok] at h
  obtain ⟨sx, hsx, sy, hsy, st, hst, _, _, h⟩ := h
  have hkeys : (dictOf (keysOf P) fun k => rows.map fun r => r.os k).map (fun x => x.1) = keysOf P := by
    unfold dictOf; rw [List.map_map]; simp [Function.comp_def]
  rw [hkeys] at h
  obtain ⟨⟨out, w1, warn⟩, hall, h⟩ := h
  cases warn with
  | none => cases h
  | some l =>
    cases h
    exact ⟨rfl, rfl, l, rfl, hall⟩

end Dorado
