import Verif.Lemmas.Alone
import Verif.Props.Target
import Verif.Spec.Outputs

/-! Helper lemmas: target-time calls of a single particle as runs of plain calls, for different targets. -/

set_option linter.unusedSectionVars false

namespace Dorado

variable {K : Type} [Field K] [LinearOrder K] [IsStrictOrderedRing K] [FloorRing K]

section
variable (A : Arith K) (F : Fun K A)

/-- The loop of a target-time call on a single particle, without limit: from a state and estimate to a final state and estimate, whether the
particle stood still at the end, and the number of recorded steps. -/
inductive TWalk (P : PObj K) (ω : Nat → K) (T : Fl K) : PState K → Fl K → PState K → Fl K → Bool → Nat → Prop
  | stop {s est t} (ht : s.walk.bind (·.lastTime 0) = some t) (hc : ¬ loopCond A T t est) : TWalk P ω T s est s est false 0
  | still {s est t res} (ht : s.walk.bind (·.lastTime 0) = some t) (hc : loopCond A T t est)
      (hr : runIteration A F P ω s none 10000 = .ok res) (hs : res.state.walk = s.walk) : TWalk P ω T s est res.state est true 0
  | more {s est t res t' s' est' b n} (ht : s.walk.bind (·.lastTime 0) = some t) (hc : loopCond A T t est)
      (hr : runIteration A F P ω s none 10000 = .ok res) (hs : res.state.walk ≠ s.walk)
      (ht' : res.state.walk.bind (·.lastTime 0) = some t')
      (hrest : TWalk P ω T res.state (Fl.pyMax (.fin (A.rnd (1 / 10))) (A.sub t' t)) s' est' b n) : TWalk P ω T s est s' est' b (n + 1)

end

variable {A : Arith K} {F : Fun K A}

theorem alone_time {w : World K} {keys : List String} {r : Row K} {t : Fl K} (ht : r.ts.getLast? = some t) :
    (alone w (ofRows keys [r])).walk.bind (·.lastTime 0) = some t := lastTime_ofRows.2 ⟨r, rfl, ht⟩

theorem ofRows_xs {keys : List String} {r r' : Row K} (h : ofRows keys [r] = ofRows keys [r']) : r.xs = r'.xs := by
  have := congrArg WalkData.xinds h
  simpa [ofRows] using this

theorem ofRows_ys {keys : List String} {r r' : Row K} (h : ofRows keys [r] = ofRows keys [r']) : r.ys = r'.ys := by
  have := congrArg WalkData.yinds h
  simpa [ofRows] using this

theorem ofRows_ts {keys : List String} {r r' : Row K} (h : ofRows keys [r] = ofRows keys [r']) : r.ts = r'.ts := by
  have := congrArg WalkData.times h
  simpa [ofRows] using this

theorem targetLoop_walk {P : PObj K} {ω : Nat → K} {T : Fl K} {maxIter : Int} (fuel : Nat)
    {s s' : World K} {est : Fl K} {count : Int} {out : WalkData K} {hit : Bool} {r : Row K} (hf : r.Full (keysOf P))
    (h : targetLoop A F P ω T maxIter (keysOf P) 0 fuel (ofRows (keysOf P) [r]) s est count = .ok (out, s', hit)) :
    ∃ r', out = ofRows (keysOf P) [r'] ∧ ((1 ≤ r'.xs.length - r.xs.length ∧ maxIter < count + (r'.xs.length - r.xs.length : Nat)) ∨
      ∃ est' b n, TWalk A F P ω T (alone s (ofRows (keysOf P) [r])) est (alone s' (ofRows (keysOf P) [r'])) est' b n) := by
  induction fuel generalizing s est count r with
  | zero =>
    unfold targetLoop at h
    simp only [bind_ok] at h
    obtain ⟨t, ht, h⟩ := h
    obtain ⟨r0, hr0, ht⟩ := lastAt_ofRows (f := fun r => r.ts) ht
    cases hr0
    split at h
    · cases h
    · rename_i hc
      simp only [pure_ok, Prod.mk.injEq] at h
      obtain ⟨rfl, rfl, rfl⟩ := h
      exact ⟨r, rfl, Or.inr ⟨est, false, 0, .stop (alone_time ht) hc⟩⟩
  | succ fuel ih =>
    unfold targetLoop at h
    simp only [bind_ok] at h
    obtain ⟨t, ht, h⟩ := h
    obtain ⟨r0, hr0, ht⟩ := lastAt_ofRows (f := fun r => r.ts) ht
    cases hr0
    split at h
    · rename_i hc
      simp only [bind_ok] at h
      obtain ⟨x, hx, y, hy, ⟨⟨news, times, upd⟩, s1⟩, hst, h⟩ := h
      obtain ⟨r1, hr1, hx⟩ := lastAt_ofRows (f := fun r => r.xs) hx
      obtain ⟨r2, hr2, hy⟩ := lastAt_ofRows (f := fun r => r.ys) hy
      cases hr1
      cases hr2
      simp only at h
      obtain ⟨q, hq, h⟩ := h
      by_cases hqp : q = (x, y)
      · simp only [hqp, ne_eq, not_true, if_false, pure_ok, Prod.mk.injEq] at h
        obtain ⟨rfl, rfl, rfl⟩ := h
        have hs : storeSteps [(x, y)] news times upd (keysOf P) [0] (ofRows (keysOf P) [r]) = .ok (ofRows (keysOf P) [r]) := by
          simp only [storeSteps, hq, ok_bind, hqp]
          simp [listGet]
        exact ⟨r, rfl, Or.inr ⟨est, true, 0, .still (alone_time ht) hc (runIteration_alone hf hx hy ht hst hs _) rfl⟩⟩
      · simp only [ne_eq, hqp, not_false_eq_true, if_true, bind_ok] at h
        obtain ⟨t1, ht1, vals, hvals, h⟩ := h
        obtain ⟨v, hve, hv⟩ := pickOpt_inv hvals
        have hs : storeSteps [(x, y)] news times upd (keysOf P) [0] (ofRows (keysOf P) [r]) =
            .ok (ofRows (keysOf P) [r.append q t1 v]) := by
          simp only [storeSteps, hq, ok_bind]
          have h0 : listGet [(x, y)] 0 = .ok (x, y) := rfl
          simp only [h0, ok_bind, ne_eq, hqp, not_false_eq_true, if_true, ht1, hvals]
          rw [hve, appendRec_ofRows]
          rfl
        have hrun := runIteration_alone hf hx hy ht hst hs 10000
        subst hve
        rw [appendRec_ofRows] at h
        have hmod : [r].modify 0 (fun r => r.append q t1 v) = [r.append q t1 v] := rfl
        rw [hmod] at h
        have hlen : (r.append q t1 v).xs.length = r.xs.length + 1 := by simp [Row.append]
        split at h
        · rename_i hl
          simp only [pure_ok, Prod.mk.injEq] at h
          obtain ⟨rfl, rfl, rfl⟩ := h
          exact ⟨_, rfl, Or.inl (by rw [hlen]; omega)⟩
        · obtain ⟨r', hout, hcase⟩ := ih (Row.Full.append q t1 v) h
          refine ⟨r', hout, ?_⟩
          rcases hcase with hcase | ⟨est', b, n, hw⟩
          · rw [hlen] at hcase
            exact Or.inl (by omega)
          · refine Or.inr ⟨est', b, n + 1, .more (alone_time ht) hc hrun ?_ (alone_time (by simp [Row.append])) hw⟩
            intro he
            have := ofRows_xs (Option.some.inj he)
            have := congrArg List.length this
            omega
    · rename_i hc
      simp only [pure_ok, Prod.mk.injEq] at h
      obtain ⟨rfl, rfl, rfl⟩ := h
      exact ⟨r, rfl, Or.inr ⟨est, false, 0, .stop (alone_time ht) hc⟩⟩

/-- A whole target-time call on a single particle, not stopped by the limit. -/
def Single (A : Arith K) (F : Fun K A) (P : PObj K) (ω : Nat → K) (T : Fl K) (s s' : PState K) : Prop :=
  ∃ r p, s.walk = some (ofRows (keysOf P) [r]) ∧ r.lastPos p ∧ ((edgeInWindow P.cellType p.1 p.2 = true ∧ s' = s) ∨
    (edgeInWindow P.cellType p.1 p.2 = false ∧ ∃ est b n, TWalk A F P ω T s (initEst A r.ts) s' est b n))

theorem runIteration_single {P : PObj K} {ω : Nat → K} {T : Fl K} {m : Int} {s : PState K} {r : Row K} (hr : HasRows P s [r])
    (hf : r.Full (keysOf P)) {res : RunResult K} (h : runIteration A F P ω s (some T) m = .ok res) (hm : Unlimited m s res) :
    res.state.walk = some res.returned ∧ res.state.np = 1 ∧ Single A F P ω T s res.state := by
  obtain ⟨h1, h2, l, -, hall⟩ := runIteration_targetAll hr h
  have hs : s = alone s.world (ofRows (keysOf P) [r]) := by
    obtain ⟨w, np, wk⟩ := s
    obtain ⟨ha, hb⟩ := hr
    simp only at ha hb
    subst ha hb
    rfl
  refine ⟨h1, h2, ?_⟩
  simp only [List.length_singleton, List.range_one, targetAll, bind_ok] at hall
  obtain ⟨⟨wd1, s1, hit⟩, hone, hall⟩ := hall
  simp only [Except.ok.injEq, Prod.mk.injEq] at hall
  obtain ⟨rfl, rfl, -⟩ := hall
  have he' : res.state = alone res.state.world res.returned := by
    obtain ⟨ret, ⟨w, np, wk⟩, _⟩ := res
    simp only at h1 h2
    subst h1 h2
    rfl
  unfold targetOne at hone
  simp only [bind_ok] at hone
  obtain ⟨ts, hts, x, hx, y, hy, hone⟩ := hone
  obtain ⟨r1, hr1, hx⟩ := lastAt_ofRows (f := fun r => r.xs) hx
  obtain ⟨r2, hr2, hy⟩ := lastAt_ofRows (f := fun r => r.ys) hy
  cases hr1
  cases hr2
  cases hts
  refine ⟨r, (x, y), hr.1, ⟨hx, hy⟩, ?_⟩
  split at hone
  · rename_i he
    simp only [pure_ok, Prod.mk.injEq] at hone
    obtain ⟨e1, e2, -⟩ := hone
    refine Or.inl ⟨he, ?_⟩
    rw [he', ← e1, ← e2]
    exact hs.symm
  · rename_i he
    refine Or.inr ⟨by simpa using he, ?_⟩
    obtain ⟨r', hout, hcase⟩ := targetLoop_walk _ hf hone
    rcases hcase with hcase | ⟨est', b, n, hw⟩
    · exfalso
      have := hm r.xs r.ys r.ts r'.xs r'.ys r'.ts (by rw [hr.1]; rfl) (by rw [hout]; rfl)
      omega
    · rw [he', hout]
      rw [hs]
      exact ⟨est', b, n, hw⟩

theorem TWalk.unique {P : PObj K} {ω : Nat → K} {T : Fl K} {s s1 s2 : PState K} {est e1 e2 : Fl K} {b1 b2 : Bool} {n1 n2 : Nat}
    (h1 : TWalk A F P ω T s est s1 e1 b1 n1) (h2 : TWalk A F P ω T s est s2 e2 b2 n2) : s1 = s2 := by
  induction h1 generalizing s2 e2 b2 n2 with
  | stop ht hc =>
    cases h2 with
    | stop => rfl
    | still ht' hc' => rw [ht] at ht'; cases ht'; exact absurd hc' hc
    | more ht' hc' => rw [ht] at ht'; cases ht'; exact absurd hc' hc
  | still ht hc hr hs =>
    cases h2 with
    | stop ht' hc' => rw [ht] at ht'; cases ht'; exact absurd hc hc'
    | still _ _ hr' => rw [hr] at hr'; cases hr'; rfl
    | more _ _ hr' hs' => rw [hr] at hr'; cases hr'; exact absurd hs hs'
  | more ht hc hr hs ht1 _ ih =>
    cases h2 with
    | stop ht' hc' => rw [ht] at ht'; cases ht'; exact absurd hc hc'
    | still _ _ hr' hs' => rw [hr] at hr'; cases hr'; exact absurd hs' hs
    | more ht' _ hr' _ ht1' hrest =>
      rw [hr] at hr'; cases hr'
      rw [ht] at ht'; cases ht'
      rw [ht1] at ht1'; cases ht1'
      exact ih hrest

theorem Single.unique {P : PObj K} {ω : Nat → K} {T : Fl K} {s s1 s2 : PState K} (h1 : Single A F P ω T s s1)
    (h2 : Single A F P ω T s s2) : s1 = s2 := by
  obtain ⟨r, p, hw, hp, h1⟩ := h1
  obtain ⟨r', p', hw', hp', h2⟩ := h2
  rw [hw] at hw'
  have e := Option.some.inj hw'
  have e1 := ofRows_xs e
  have e2 := ofRows_ys e
  have e3 := ofRows_ts e
  have : p = p' := by
    refine Row.lastPos_unique hp ?_
    unfold Row.lastPos
    rw [e1, e2]
    exact hp'
  subst this
  rcases h1 with ⟨he, rfl⟩ | ⟨he, _, _, _, h1⟩
  · rcases h2 with ⟨-, rfl⟩ | ⟨he', -⟩
    · rfl
    · rw [he] at he'; cases he'
  · rcases h2 with ⟨he', -⟩ | ⟨-, _, _, _, h2⟩
    · rw [he] at he'; cases he'
    · rw [e3] at h1
      exact h1.unique h2

/-- The two walks towards two targets agree as long as the one with the earlier target goes on. -/
theorem TWalk.split {P : PObj K} {ω : Nat → K} {T1 T2 : Fl K} {s s1 s2 : PState K} {est e1 e2 : Fl K} {b1 b2 : Bool} {n1 n2 : Nat}
    (h1 : TWalk A F P ω T1 s est s1 e1 b1 n1) (Q : PState K → Fl K → Prop)
    (hQ : ∀ s est t, Q s est → s.walk.bind (·.lastTime 0) = some t → loopCond A T1 t est → loopCond A T2 t est)
    (hstep : ∀ s est t res t', Q s est → s.walk.bind (·.lastTime 0) = some t → runIteration A F P ω s none 10000 = .ok res →
      res.state.walk.bind (·.lastTime 0) = some t' → Q res.state (Fl.pyMax (.fin (A.rnd (1 / 10))) (A.sub t' t)))
    (h0 : Q s est) (h2 : TWalk A F P ω T2 s est s2 e2 b2 n2) :
    (b1 = true → s2 = s1) ∧ (b1 = false → ∃ n, TWalk A F P ω T2 s1 e1 s2 e2 b2 n) := by
  induction h1 generalizing s2 e2 b2 n2 with
  | stop ht hc => exact ⟨fun h => (by cases h), fun _ => ⟨_, h2⟩⟩
  | still ht hc hr hs =>
    refine ⟨fun _ => ?_, fun h => by cases h⟩
    have hc2 := hQ _ _ _ h0 ht hc
    cases h2 with
    | stop ht' hc' => rw [ht] at ht'; cases ht'; exact absurd hc2 hc'
    | still _ _ hr' => rw [hr] at hr'; cases hr'; rfl
    | more _ _ hr' hs' => rw [hr] at hr'; cases hr'; exact absurd hs hs'
  | more ht hc hr hs ht1 _ ih =>
    have hc2 := hQ _ _ _ h0 ht hc
    cases h2 with
    | stop ht' hc' => rw [ht] at ht'; cases ht'; exact absurd hc2 hc'
    | still _ _ hr' hs' => rw [hr] at hr'; cases hr'; exact absurd hs' hs
    | more ht' _ hr' _ ht1' hrest =>
      rw [hr] at hr'; cases hr'
      rw [ht] at ht'; cases ht'
      rw [ht1] at ht1'; cases ht1'
      exact ih (hstep _ _ _ _ _ h0 ht hr ht1) hrest

/-! ## Reachable states of one particle -/

section
variable {Ob : PObj K → Prop} {Ω : (Nat → K) → Prop} {Sd : PObj K → List Int → List Int → Fl K → Prop}

theorem Reach.row (hG : ∀ P, Ob P → Good P) {P : PObj K} {s : PState K} (h : Reach A F Ob Ω Sd P s) (hn : s.np = 1) {wd : WalkData K}
    (hwd : s.walk = some wd) : ∃ r, HasRows P s [r] ∧ r.Full (keysOf P) := by
  obtain ⟨rows, rfl, hnp, hv⟩ := Reach.vars (V := fun _ _ _ => True) hG h (fun _ _ _ _ _ _ _ _ => trivial) hwd
  obtain ⟨r, rfl⟩ := List.length_eq_one_iff.1 (hnp.symm.trans hn)
  exact ⟨r, ⟨hwd, hnp⟩, (hv r (by simp)).full⟩

/-- A plain call on a single particle. -/
theorem plain_single (hG : ∀ P, Ob P → Good P) {P : PObj K} {s : PState K} (h : Reach A F Ob Ω Sd P s) (hn : s.np = 1) {ω : Nat → K} {m : Int}
    {res : RunResult K} (hr : runIteration A F P ω s none m = .ok res) :
    ∃ r r', s.walk = some (ofRows (keysOf P) [r]) ∧ res.state.walk = some (ofRows (keysOf P) [r']) ∧ res.state.np = 1 ∧
      ((r' = r ∧ RowStill A F P ω r) ∨ RowStep A F P ω r r') := by
  cases hw : s.walk with
  | none => unfold runIteration at hr; rw [hw] at hr; cases hr
  | some wd =>
    obtain ⟨r, hrow, -⟩ := h.row hG hn hw
    obtain ⟨hpe, -⟩ := h.state hG
    rw [hrow.1] at hw
    cases hw
    obtain ⟨-, rows', hlen, -, hwalk, hnp, -, hout⟩ := runIteration_inv A F (hG _ h.obj) hpe hrow.1 (Or.inl hrow.2) hr
    obtain ⟨r', rfl⟩ := List.length_eq_one_iff.1 hlen
    obtain ⟨r1, hr1, hcase⟩ := hout 0 r rfl
    cases hr1
    exact ⟨r, r', rfl, hwalk, hnp, hcase⟩

theorem RowStep.longer {P : PObj K} {ω : Nat → K} {r r' : Row K} (h : RowStep A F P ω r r') : r'.xs.length = r.xs.length + 1 := by
  obtain ⟨p, t, q, t', v, -, -, -, -, -, rfl⟩ := h
  simp [Row.append]

theorem RowStep.est {P : PObj K} {ω : Nat → K} {r r' : Row K} (h : RowStep A F P ω r r') {t t' : Fl K} (ht : r.ts.getLast? = some t)
    (ht' : r'.ts.getLast? = some t') : initEst A r'.ts = A.sub t' t := by
  obtain ⟨p, t0, q, t1, v, -, -, -, -, -, rfl⟩ := h
  have h1 : t' = t1 := by simpa [Row.append] using ht'.symm
  subst h1
  obtain ⟨l, hl⟩ : ∃ l, r.ts = l ++ [t] := by
    rw [List.getLast?_eq_some_iff] at ht
    exact ht
  unfold initEst Row.append
  rw [hl]
  simp

/-- The end of the loop: how far the history grew, and the estimate in use. -/
theorem TWalk.last (hG : ∀ P, Ob P → Good P) {P : PObj K} {ω : Nat → K} (hω : Ω ω) {T : Fl K} {s s1 : PState K} {est e1 : Fl K} {b : Bool}
    {n : Nat} (h : TWalk A F P ω T s est s1 e1 b n) (hs : Reach A F Ob Ω Sd P s) (hn : s.np = 1) :
    Reach A F Ob Ω Sd P s1 ∧ s1.np = 1 ∧ ∃ r r1, s.walk = some (ofRows (keysOf P) [r]) ∧ s1.walk = some (ofRows (keysOf P) [r1]) ∧
      r1.xs.length = r.xs.length + n ∧ (n = 0 → e1 = est ∧ s1.walk = s.walk) ∧
      (0 < n → e1 = Fl.pyMax (.fin (A.rnd (1 / 10))) (initEst A r1.ts)) ∧ (b = true → RowStill A F P ω r1) := by
  induction h with
  | @stop s est t ht hc =>
    cases hw : s.walk with
    | none => rw [hw] at ht; cases ht
    | some wd =>
      obtain ⟨r, hrow, -⟩ := hs.row hG hn hw
      rw [hrow.1] at hw
      cases hw
      exact ⟨hs, hn, r, r, rfl, rfl, rfl, fun _ => ⟨rfl, rfl⟩, fun h => absurd h (lt_irrefl 0), fun h => by cases h⟩
  | still ht hc hr hsame =>
    obtain ⟨r, r', e1, e2, e3, hcase⟩ := plain_single hG hs hn hr
    refine ⟨.run hs hω hr, e3, r, r', e1, e2, ?_, fun _ => ⟨rfl, hsame⟩, fun h => absurd h (lt_irrefl 0), fun _ => ?_⟩
    · rcases hcase with ⟨rfl, -⟩ | hcase
      · rfl
      · rw [e1, e2] at hsame
        rw [ofRows_xs (Option.some.inj hsame)]
        rfl
    · rcases hcase with ⟨rfl, h⟩ | hcase
      · exact h
      · exfalso
        rw [e1, e2] at hsame
        have := hcase.longer
        rw [ofRows_xs (Option.some.inj hsame)] at this
        omega
  | @more s est t res t' s' est' b n ht hc hr hne ht' hrest ih =>
    obtain ⟨r, r', e1, e2, e3, hcase⟩ := plain_single hG hs hn hr
    obtain ⟨i1, i2, q, q1, i3, i4, i5, i6, i7, i8⟩ := ih (.run hs hω hr) e3
    rcases hcase with ⟨rfl, -⟩ | hcase
    · exact absurd (e2.trans e1.symm) hne
    rw [e2] at i3
    have ex := ofRows_xs (Option.some.inj i3)
    have et := ofRows_ts (Option.some.inj i3)
    have hlen := hcase.longer
    refine ⟨i1, i2, r, q1, e1, i4, by rw [i5, ← ex, hlen]; omega, fun h => by omega, fun _ => ?_, i8⟩
    by_cases hz : n = 0
    · obtain ⟨j1, j2⟩ := i6 hz
      rw [i4, e2] at j2
      rw [j1, ofRows_ts (Option.some.inj j2)]
      rw [e1] at ht
      rw [e2] at ht'
      obtain ⟨_, h1, ht⟩ := lastTime_ofRows.1 ht
      cases h1
      obtain ⟨_, h1, ht'⟩ := lastTime_ofRows.1 ht'
      cases h1
      rw [hcase.est ht ht']
    · exact i7 (Nat.pos_of_ne_zero hz)

/-- Next to an edge cell nothing changes. -/
theorem TWalk.edge (hG : ∀ P, Ob P → Good P) {P : PObj K} {ω : Nat → K} {T : Fl K} {s s1 : PState K} {est e1 : Fl K} {b : Bool}
    {n : Nat} (h : TWalk A F P ω T s est s1 e1 b n) (hs : Reach A F Ob Ω Sd P s) (hn : s.np = 1) {r : Row K}
    (hw : s.walk = some (ofRows (keysOf P) [r])) {p : Int × Int} (hp : r.lastPos p) (he : edgeInWindow P.cellType p.1 p.2 = true) :
    s1.walk = s.walk := by
  cases h with
  | stop => rfl
  | still _ _ _ h => exact h
  | more ht hc hr hne _ _ =>
    exfalso
    obtain ⟨r0, r', e1, e2, e3, hcase⟩ := plain_single hG hs hn hr
    rcases hcase with ⟨rfl, -⟩ | ⟨p0, t0, q, t1, v, hp0, -, hst, hq, -, -⟩
    · exact hne (e2.trans e1.symm)
    · rw [hw] at e1
      have h1 := ofRows_xs (Option.some.inj e1)
      have h2 := ofRows_ys (Option.some.inj e1)
      have : p0 = p := by
        refine Row.lastPos_unique hp0 ?_
        unfold Row.lastPos
        rw [← h1, ← h2]
        exact hp
      subst this
      exact hq (hst.edge he)

end

/-! ## Exact arithmetic -/

theorem loopCond_mono {T1 T2 x e : K} (hT : T1 ≤ T2) (he : 0 ≤ e) (h : loopCond Arith.exact (.fin T1) (.fin x) (.fin e)) :
    loopCond Arith.exact (.fin T2) (.fin x) (.fin e) := by
  rw [loopCond_exact] at *
  rcases he.eq_or_lt with rfl | he
  · simp
  · by_contra hc
    rw [not_le, near_iff he] at hc
    exact absurd ((near_iff he).2 (by linarith)) (not_lt.2 h)

theorem pyMax_exact {a b : K} : Fl.pyMax (.fin a) (.fin b) = .fin (max a b) := by
  unfold Fl.pyMax
  simp only [Fl.lt, decide_eq_true_eq]
  split
  · rw [max_eq_right (le_of_lt ‹_›)]
  · rw [max_eq_left (not_lt.1 ‹_›)]

/-- A call with an earlier target first: afterwards the call with the later target ends where it ends from the beginning. -/
theorem Single.split {F : Fun K (Arith.exact : Arith K)} {Ob : PObj K → Prop} (hOb : ∀ P, Ob P → Standard F P) {P : PObj K} {s s1 s2 : PState K}
    (h : Reach Arith.exact F Ob (NonzeroDraws Arith.exact) (FinSeed Arith.exact) P s) (hn : s.np = 1) {ω : Nat → K}
    (hω : NonzeroDraws Arith.exact ω) {T1 T2 : K} (hT : T1 ≤ T2) {r r1 : Row K} (hr : s.walk = some (ofRows (keysOf P) [r]))
    (hr1 : s1.walk = some (ofRows (keysOf P) [r1])) (he : 0 ≤ firstEstimate r.ts) {a b : Nat} (hp : r1.lastPos ((a : Int), (b : Int)))
    (hin : Interior P a b) (hplace : NearEdge P a b ∨ ¬ (flowOf F P).DeadEnd a b) (hlong : r1.xs = r.xs ∨ 1 / 10 ≤ firstEstimate r1.ts)
    (h1 : Single Arith.exact F P ω (.fin T1) s s1) (h2 : Single Arith.exact F P ω (.fin T2) s s2) :
    0 ≤ firstEstimate r1.ts ∧ ∃ s3, Single Arith.exact F P ω (.fin T2) s1 s3 ∧ s3.walk = s2.walk ∧ (¬ NearEdge P a b → s3 = s2) := by
  have hG : ∀ P, Ob P → Good P := fun P hP => (hOb P hP).built.good
  have hB : ∀ P, Ob P → Built Arith.exact F P := fun P hP => (hOb P hP).built
  have fin1 : ∀ (s : PState K) (r : Row K), Reach Arith.exact F Ob (NonzeroDraws Arith.exact) (FinSeed Arith.exact) P s →
      s.walk = some (ofRows (keysOf P) [r]) → FinTimes r.ts := by
    intro s r h hr
    obtain ⟨rows, hrow, -, hfin⟩ := h.finTimes hB hr
    have ht := congrArg WalkData.times hrow
    obtain ⟨q, hq, he⟩ : ∃ q ∈ rows, q.ts = r.ts := by
      have : r.ts ∈ (ofRows (keysOf P) rows).times := by rw [← hrow]; simp [ofRows]
      simpa [ofRows] using this
    rw [← he]
    exact (hfin q hq).2
  have hedge : ∀ p : Int × Int, r1.lastPos p → edgeInWindow P.cellType p.1 p.2 = true → NearEdge P a b := fun p h0 h1 => by
    have := Row.lastPos_unique h0 hp
    subst this
    exact (nearEdge_iff hin.1 hin.2.2.1).1 h1
  have hedge' : NearEdge P a b → edgeInWindow P.cellType (a : Int) (b : Int) = true := fun h => (nearEdge_iff hin.1 hin.2.2.1).2 h
  obtain ⟨q, p, hq, hqp, h1⟩ := h1
  rw [hr] at hq
  have q1 := ofRows_xs (Option.some.inj hq)
  have q2 := ofRows_ys (Option.some.inj hq)
  have q3 := ofRows_ts (Option.some.inj hq)
  have hrp : r.lastPos p := by unfold Row.lastPos; rw [q1, q2]; exact hqp
  obtain ⟨q', p', hq', hqp', h2⟩ := h2
  rw [hr] at hq'
  have q1' := ofRows_xs (Option.some.inj hq')
  have q2' := ofRows_ys (Option.some.inj hq')
  have q3' := ofRows_ts (Option.some.inj hq')
  have hrp' : r.lastPos p' := by unfold Row.lastPos; rw [q1', q2']; exact hqp'
  have hpp := Row.lastPos_unique hrp hrp'
  subst hpp
  rw [← q3] at h1
  rw [← q3'] at h2
  rcases h1 with ⟨h1, rfl⟩ | ⟨h1, est1, b1, n1, w1⟩
  · rw [hr] at hr1
    have e3 := ofRows_ts (Option.some.inj hr1)
    rcases h2 with ⟨-, rfl⟩ | ⟨h2, -⟩
    · exact ⟨by rw [← e3]; exact he, s2, ⟨r, p, hr, hrp, Or.inl ⟨h1, rfl⟩⟩, rfl, fun _ => rfl⟩
    · rw [h1] at h2; cases h2
  rcases h2 with ⟨h2, -⟩ | ⟨-, est2, b2, n2, w2⟩
  · rw [h1] at h2; cases h2
  obtain ⟨hs1, hn1, q, q1, eq, eq1, hlen, hzero, hpos, hstill⟩ := w1.last hG hω h hn
  rw [hr] at eq
  rw [hr1] at eq1
  have eqx := ofRows_xs (Option.some.inj eq)
  have eqx1 := ofRows_xs (Option.some.inj eq1)
  have eqy1 := ofRows_ys (Option.some.inj eq1)
  have eqt1 := ofRows_ts (Option.some.inj eq1)
  have hf1 := fin1 s1 r1 hs1 hr1
  -- the estimate at the end of the first call is the one at the beginning of the second
  have hest : est1 = initEst Arith.exact r1.ts ∧ 0 ≤ firstEstimate r1.ts := by
    by_cases hz : n1 = 0
    · obtain ⟨j1, j2⟩ := hzero hz
      rw [hr, hr1] at j2
      have := ofRows_ts (Option.some.inj j2)
      rw [j1, this]
      exact ⟨rfl, he⟩
    · have hl : 1 / 10 ≤ firstEstimate r1.ts := by
        refine hlong.resolve_left fun h0 => ?_
        rw [← eqx1, ← eqx, h0] at hlen
        omega
      refine ⟨?_, le_trans (by norm_num) hl⟩
      rw [hpos (Nat.pos_of_ne_zero hz), ← eqt1, initEst_exact hf1]
      change Fl.pyMax (.fin (1 / 10)) _ = _
      rw [pyMax_exact, max_eq_right hl]
  refine ⟨hest.2, ?_⟩
  obtain ⟨k1, k2⟩ := w1.split (fun s est => Reach Arith.exact F Ob (NonzeroDraws Arith.exact) (FinSeed Arith.exact) P s ∧ s.np = 1 ∧
      ∃ e, est = .fin e ∧ 0 ≤ e) (fun s est t hQ ht hc => by
        obtain ⟨hR, hN, e, rfl, h0⟩ := hQ
        cases hw : s.walk with
        | none => rw [hw] at ht; cases ht
        | some wd =>
          obtain ⟨u, hu, -⟩ := hR.row hG hN hw
          rw [hu.1] at ht
          obtain ⟨_, h1, ht⟩ := lastTime_ofRows.1 ht
          cases h1
          obtain ⟨x, rfl⟩ := fin1 s u hR hu.1 t (List.mem_of_getLast? ht)
          exact loopCond_mono hT h0 hc) (fun s est t res t' hQ ht hrun ht' => by
        obtain ⟨hR, hN, e, rfl, h0⟩ := hQ
        obtain ⟨u, u', e1, e2, e3, -⟩ := plain_single hG hR hN hrun
        have hR' := Reach.run hR hω hrun
        rw [e1] at ht
        rw [e2] at ht'
        obtain ⟨_, h1, ht⟩ := lastTime_ofRows.1 ht
        cases h1
        obtain ⟨_, h1, ht'⟩ := lastTime_ofRows.1 ht'
        cases h1
        obtain ⟨x, rfl⟩ := fin1 s u hR e1 t (List.mem_of_getLast? ht)
        obtain ⟨x', rfl⟩ := fin1 _ u' hR' e2 t' (List.mem_of_getLast? ht')
        refine ⟨hR', e3, max (1 / 10) (x' - x), ?_, le_trans (by norm_num) (le_max_left _ _)⟩
        change Fl.pyMax (.fin (1 / 10)) (.fin (x' + -x)) = _
        rw [pyMax_exact, sub_eq_add_neg]) ⟨h, hn, firstEstimate r.ts, initEst_exact (fin1 s r h hr), he⟩ w2
  have hstop : NearEdge P a b → Single Arith.exact F P ω (.fin T2) s1 s1 := fun hne =>
    ⟨r1, _, hr1, hp, Or.inl ⟨hedge' hne, rfl⟩⟩
  cases b1 with
  | true =>
    have hs2 := k1 rfl
    subst hs2
    have hst : RowStill Arith.exact F P ω q1 := hstill rfl
    have hlp : q1.lastPos ((a : Int), (b : Int)) := by
      unfold Row.lastPos; rw [← eqx1, ← eqy1]; exact hp
    have htr := hst.trapped (hOb _ h.obj) hω hlp a b rfl hin
    have hne : NearEdge P a b := by
      rcases hplace with h0 | h0
      · exact h0
      · exact htr.resolve_right h0
    exact ⟨s2, hstop hne, rfl, fun h0 => absurd hne h0⟩
  | false =>
    obtain ⟨n, w3⟩ := k2 rfl
    by_cases hne : NearEdge P a b
    · exact ⟨s1, hstop hne, (w3.edge hG hs1 hn1 hr1 hp (hedge' hne)).symm, fun h0 => absurd hne h0⟩
    · refine ⟨s2, ⟨r1, _, hr1, hp, Or.inr ⟨?_, est2, b2, n, ?_⟩⟩, rfl, fun _ => rfl⟩
      · cases hc : edgeInWindow P.cellType (a : Int) (b : Int) with
        | false => rfl
        | true => exact absurd (hedge _ hp hc) hne
      · rw [← hest.1]
        exact w3

end Dorado
