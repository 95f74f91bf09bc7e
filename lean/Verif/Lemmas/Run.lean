import Verif.Lemmas.Rows

/-! Helper lemmas: `generate_particles` and `run_iteration` as operations on rows. -/

set_option linter.unusedSectionVars false

namespace Dorado

variable {K : Type} [Field K] [LinearOrder K] [IsStrictOrderedRing K] (A : Arith K) (F : Fun K A)

/-! ## Seeding -/

/-- The row of a newly seeded particle. -/
def SeedRow (P : PObj K) (xy : Int × Int) (t : Fl K) (r : Row K) : Prop :=
  r.xs = [xy.1] ∧ r.ys = [xy.2] ∧ r.ts = [t] ∧ ∀ key ∈ keysOf P, ∃ v, r.os key = [v] ∧ VarAt P key xy v

theorem mapE_listGet_wrap {α : Type} {l : List α} {n : Nat} {r : List (List α)}
    (h : mapE (fun i => do let a ← listGet l i; return [a]) (List.range n) = .ok r) :
    r.length = n ∧ n ≤ l.length ∧ ∀ (i : Nat) (a : α), i < n → l[i]? = some a → r[i]? = some [a] := by
  have hlen := mapE_length h
  rw [List.length_range] at hlen
  refine ⟨hlen, ?_, fun i a hi ha => ?_⟩
  · rcases Nat.eq_zero_or_pos n with h0 | h0
    · omega
    · have : (List.range n)[n - 1]? = some (n - 1) := by
        rw [List.getElem?_range (by omega)]
      obtain ⟨b, -, hb⟩ := mapE_get h this
      simp only [bind_ok, pure_ok, listGet_ok] at hb
      obtain ⟨a, ha, -⟩ := hb
      obtain ⟨hlt, -⟩ := List.getElem?_eq_some_iff.1 ha
      omega
  · have : (List.range n)[i]? = some i := List.getElem?_range hi
    obtain ⟨b, hb, hb'⟩ := mapE_get h this
    simp only [bind_ok, pure_ok, listGet_ok] at hb'
    obtain ⟨a', ha', rfl⟩ := hb'
    rw [ha] at ha'
    injection ha' with ha'
    subst ha'
    exact hb

theorem randomSeeds_length {ω : Nat → K} {pos pos' : Nat} {locs l : List Int} {n : Nat}
    (h : randomSeeds A ω pos locs n = .ok (l, pos')) : l.length = n := by
  unfold randomSeeds at h
  have := (mapAcc_inv (fun _ : Nat => True) (fun _ _ => True) (fun _ _ _ _ _ _ => ⟨trivial, trivial⟩) trivial h).2.length_eq
  simpa using this.symm

theorem exactSeeds_length {locs l : List Int} {np : Int} {n : Nat} (h : exactSeeds locs np n = .ok l) :
    l.length = (np / (n : Int)).toNat * locs.length + (np % (n : Int)).toNat := by
  unfold exactSeeds at h
  simp only [bind_ok, pure_ok] at h
  obtain ⟨tail, ht, rfl⟩ := h
  have := mapE_length ht
  simp only [List.length_append, pyRepeat, List.length_flatten, List.map_replicate, List.sum_replicate, this,
    List.length_range]
  rfl

theorem startIndices_length {ω : Nat → K} {pos pos' n : Nat} {xs ys sx sy : List Int} {m : Method}
    (h : startIndices A ω pos (n : Int) xs ys m = .ok (sx, sy, pos')) : sx.length = n := by
  cases m with
  | random =>
    simp only [startIndices, bind_ok, pure_ok, Prod.exists, Prod.mk.injEq] at h
    obtain ⟨x, p1, hx, y, p2, hy, rfl, rfl, rfl⟩ := h
    simpa using randomSeeds_length A hx
  | exact =>
    simp only [startIndices] at h
    split at h
    · cases h
    · rename_i hne
      simp only [bind_ok, pure_ok, Prod.mk.injEq] at h
      obtain ⟨x, hx, y, hy, rfl, rfl, rfl⟩ := h
      rw [exactSeeds_length hx]
      have h1 : ((n : Int) / (xs.length : Int)).toNat = n / xs.length := by
        rw [← Int.natCast_ediv]; exact Int.toNat_natCast _
      have h2 : ((n : Int) % (xs.length : Int)).toNat = n % xs.length := by
        rw [← Int.natCast_emod]; exact Int.toNat_natCast _
      rw [h1, h2, mul_comm]
      exact Nat.div_add_mod n xs.length

/-- The new particles as rows. -/
theorem newWalk_inv {P : PObj K} {ω : Nat → K} {pos pos' n : Nat} {xs ys : List Int} {t : Fl K} {m : Method}
    {wd : WalkData K} (h : newWalk A P ω pos (n : Int) xs ys t m = .ok (wd, pos')) :
    ∃ sx sy rows, startIndices A ω pos (n : Int) xs ys m = .ok (sx, sy, pos') ∧ wd = ofRows (keysOf P) rows ∧
      rows.length = n ∧ sx.length = n ∧ n ≤ sy.length ∧
      ∀ (i : Nat) (r : Row K), rows[i]? = some r → ∃ x y, sx[i]? = some x ∧ sy[i]? = some y ∧ SeedRow P (x, y) t r := by
  unfold newWalk at h
  simp only [bind_ok, pure_ok, Prod.exists, Prod.mk.injEq, Int.toNat_natCast] at h
  obtain ⟨sx, sy, p1, hs, nx, hnx, ny, hny, opt, hopt, rfl, rfl⟩ := h
  have hlx := startIndices_length A hs
  obtain ⟨hnx1, -, hnx2⟩ := mapE_listGet_wrap hnx
  obtain ⟨hny1, hny0, hny2⟩ := mapE_listGet_wrap hny
  have hopt' : startVars P (sx.zip sy) P.particleVars (dictOf [] fun _ => []) = .ok opt := hopt
  obtain ⟨g, rfl, hg⟩ := startVars_inv P.particleVars [] _ (by simp) hopt'
  change ∀ k ∈ keysOf P, _ at hg
  have hzl : (sx.zip sy).length = n := by rw [List.length_zip]; omega
  set rows : List (Row K) := (List.range n).map fun i =>
    { xs := nx.getD i [], ys := ny.getD i [], ts := [t], os := fun k => (g k).getD i [] } with hrows
  have hrl : rows.length = n := by simp [hrows]
  refine ⟨sx, sy, rows, hs, ?_, hrl, hlx, hny0, ?_⟩
  · unfold ofRows
    simp only [WalkData.mk.injEq]
    have H : ∀ {α : Type} (l : List (List α)), l.length = n → l = (List.range n).map fun i => l.getD i [] := by
      intro α l hl
      apply List.ext_getElem?
      intro i
      simp only [List.getElem?_map]
      rcases Nat.lt_or_ge i n with hi | hi
      · rw [List.getElem?_range hi]
        simp [List.getD_eq_getElem?_getD, List.getElem?_eq_getElem (by omega : i < l.length)]
      · rw [List.getElem?_eq_none (by omega), List.getElem?_eq_none (by simpa using hi)]
        rfl
    refine ⟨?_, ?_, ?_, ?_⟩
    · rw [hrows, List.map_map]; exact H nx hnx1
    · rw [hrows, List.map_map]; exact H ny hny1
    · rw [hrows, List.map_map]; rfl
    · apply dictOf_congr
      intro k hk
      rw [hrows, List.map_map]
      exact H (g k) (by rw [(startVar_get (hg k hk)).1, hzl])
  · intro i r hr
    have hi : i < n := by
      obtain ⟨hlt, -⟩ := List.getElem?_eq_some_iff.1 hr
      omega
    have hx : sx[i]? = some sx[i] := List.getElem?_eq_getElem (by omega)
    have hy : sy[i]? = some sy[i] := List.getElem?_eq_getElem (by omega)
    refine ⟨_, _, hx, hy, ?_⟩
    rw [hrows, List.getElem?_map, List.getElem?_range hi] at hr
    simp only [Option.map_some, Option.some.injEq] at hr
    subst hr
    refine ⟨?_, ?_, rfl, ?_⟩
    · simp [List.getD_eq_getElem?_getD, hnx2 i _ hi hx]
    · simp [List.getD_eq_getElem?_getD, hny2 i _ hi hy]
    · intro key hkey
      have hz : (sx.zip sy)[i]? = some (sx[i], sy[i]) := by
        rw [List.getElem?_zip_eq_some]; exact ⟨hx, hy⟩
      obtain ⟨v, hv, hv'⟩ := (startVar_get (hg key hkey)).2 i _ hz
      exact ⟨v, by simp [List.getD_eq_getElem?_getD, hv], hv'⟩

/-! ## Routing -/

theorem set_self_of_get {α : Type} {l : List α} {i : Nat} {a : α} (h : l[i]? = some a) : l.set i a = l := by
  apply List.ext_getElem?
  intro j
  rw [List.getElem?_set]
  split
  · rename_i hij
    subst hij
    rw [h, if_pos (List.getElem?_eq_some_iff.1 h).1]
  · rfl

/-- Last position of a row. -/
def Row.lastPos (r : Row K) (p : Int × Int) : Prop := r.xs.getLast? = some p.1 ∧ r.ys.getLast? = some p.2

/-- One recorded move. -/
def RowStep (P : PObj K) (ω : Nat → K) (r r' : Row K) : Prop :=
  ∃ p t q t' v, r.lastPos p ∧ r.ts.getLast? = some t ∧ StepOf A F P ω p t q t' ∧ q ≠ p ∧
    (∀ key ∈ keysOf P, VarAt P key q (v key)) ∧ r' = r.append q t' v

/-- A step that leaves the particle where it is. -/
def RowStill (P : PObj K) (ω : Nat → K) (r : Row K) : Prop :=
  ∃ p t t', r.lastPos p ∧ r.ts.getLast? = some t ∧ StepOf A F P ω p t p t'

theorem storeSteps_inv {starts news : List (Int × Int)} {times : List (Fl K)} {upd : List (String × List (Val K))}
    {keys : List String} (is : List Nat) (hnd : is.Nodup) {rows : List (Row K)} {out : WalkData K}
    (h : storeSteps starts news times upd keys is (ofRows keys rows) = .ok out) :
    ∃ rows', out = ofRows keys rows' ∧ rows'.length = rows.length ∧
      ∀ (i : Nat) (r : Row K), rows[i]? = some r → ∃ r', rows'[i]? = some r' ∧ (i ∉ is → r' = r) ∧
        (i ∈ is → ∃ q p, news[i]? = some q ∧ starts[i]? = some p ∧
          ((q = p ∧ r' = r) ∨ (q ≠ p ∧ ∃ t v, times[i]? = some t ∧
            (∀ key ∈ keys, ∃ l, dictGet upd key = some l ∧ l[i]? = some (v key)) ∧ r' = r.append q t v))) := by
  induction is generalizing rows with
  | nil =>
    simp only [storeSteps, Except.ok.injEq] at h
    exact ⟨rows, h.symm, rfl, fun i r hr => ⟨r, hr, fun _ => rfl, by simp⟩⟩
  | cons a is ih =>
    simp only [storeSteps, bind_ok, listGet_ok] at h
    obtain ⟨q, hq, p, hp, h⟩ := h
    rw [List.nodup_cons] at hnd
    by_cases hqp : q = p
    · simp only [hqp, ne_eq, not_true, if_false] at h
      obtain ⟨rows', h1, h2, h3⟩ := ih hnd.2 h
      refine ⟨rows', h1, h2, fun i r hr => ?_⟩
      obtain ⟨r', hr', hn, hy⟩ := h3 i r hr
      refine ⟨r', hr', fun hni => hn fun hi => hni (by simp [hi]), fun hi => ?_⟩
      by_cases hia : i = a
      · subst hia
        exact ⟨q, p, hq, hp, Or.inl ⟨hqp, hn hnd.1⟩⟩
      · exact hy (by simpa [hia] using hi)
    · simp only [ne_eq, hqp, not_false_eq_true, if_true, bind_ok, listGet_ok] at h
      obtain ⟨t, ht, vals, hvals, h⟩ := h
      obtain ⟨v, rfl, hv⟩ := pickOpt_inv hvals
      rw [appendRec_ofRows] at h
      obtain ⟨rows', h1, h2, h3⟩ := ih hnd.2 h
      refine ⟨rows', h1, by simpa using h2, fun i r hr => ?_⟩
      by_cases hia : i = a
      · subst hia
        obtain ⟨r', hr', hn, -⟩ := h3 i (r.append q t v) (by rw [List.getElem?_modify]; simp [hr])
        have hr'' := hn hnd.1
        refine ⟨r', hr', fun hni => absurd (by simp) hni, fun _ => ⟨q, p, hq, hp, Or.inr ⟨hqp, t, v, ht, hv, hr''⟩⟩⟩
      · obtain ⟨r', hr', hn, hy⟩ := h3 i r (by rw [List.getElem?_modify]; simp [hr, Ne.symm hia])
        exact ⟨r', hr', fun hni => hn fun hi => hni (by simp [hi]), fun hi => hy (by simpa [hia] using hi)⟩

/-- How the loop of `run_iteration(target_time)` for one particle ended. -/
inductive Exit where
  | reached
  | still
  | limit
  deriving DecidableEq

/-- The loop condition (particle_track.py:744-745). -/
def loopCond (target t est : Fl K) : Prop :=
  Fl.le (Fl.abs (A.sub (A.add t est) target)) (Fl.abs (A.sub t target)) = true

/-- Runs of the while loop on one row: from `(row, estimate, count)` to a final row, estimate and exit reason;
the number of recorded steps is the last argument. -/
inductive LoopRun (P : PObj K) (ω : Nat → K) (target : Fl K) (maxIter : Int) :
    Row K → Fl K → Int → Row K → Fl K → Exit → Nat → Prop
  | reached {r est c t} (ht : r.ts.getLast? = some t) (hc : ¬ loopCond A target t est) :
      LoopRun P ω target maxIter r est c r est .reached 0
  | still {r est c t} (ht : r.ts.getLast? = some t) (hc : loopCond A target t est)
      (hs : RowStill A F P ω r) : LoopRun P ω target maxIter r est c r est .still 0
  | limit {r est c t r' t'} (ht : r.ts.getLast? = some t) (hc : loopCond A target t est)
      (hs : RowStep A F P ω r r') (ht' : r'.ts.getLast? = some t') (hl : c + 1 > maxIter) :
      LoopRun P ω target maxIter r est c r' (Fl.pyMax (.fin (A.rnd (1 / 10))) (A.sub t' t)) .limit 1
  | more {r est c t r' t' r'' est'' e n} (ht : r.ts.getLast? = some t) (hc : loopCond A target t est)
      (hs : RowStep A F P ω r r') (ht' : r'.ts.getLast? = some t') (hl : ¬ c + 1 > maxIter)
      (hrest : LoopRun P ω target maxIter r' (Fl.pyMax (.fin (A.rnd (1 / 10))) (A.sub t' t)) (c + 1) r'' est'' e n) :
      LoopRun P ω target maxIter r est c r'' est'' e (n + 1)

/-- Inversion of the while loop. -/
theorem targetLoop_inv {P : PObj K} (G : Good P) {ω : Nat → K} {target : Fl K} {maxIter : Int} {ii : Nat} (fuel : Nat)
    {rows : List (Row K)} {s s' : World K} {est : Fl K} {count : Int} {out : WalkData K} {hit : Bool}
    (hw : PickEquiv A F P s.weight)
    (h : targetLoop A F P ω target maxIter (keysOf P) ii fuel (ofRows (keysOf P) rows) s est count =
      .ok (out, s', hit)) :
    PickEquiv A F P s'.weight ∧ ∃ r r' est' e n, rows[ii]? = some r ∧ out = ofRows (keysOf P) (rows.set ii r') ∧
      LoopRun A F P ω target maxIter r est count r' est' e n ∧ (hit = true ↔ e = .limit) := by
  induction fuel generalizing rows s est count with
  | zero =>
    unfold targetLoop at h
    simp only [bind_ok] at h
    obtain ⟨t, ht, h⟩ := h
    obtain ⟨r, hr, ht⟩ := lastAt_ofRows (f := fun r => r.ts) ht
    split at h
    · cases h
    · rename_i hc
      simp only [pure_ok, Prod.mk.injEq] at h
      obtain ⟨rfl, rfl, rfl⟩ := h
      refine ⟨hw, r, r, est, .reached, 0, hr, ?_, .reached ht hc, by simp⟩
      rw [set_self_of_get hr]
  | succ fuel ih =>
    unfold targetLoop at h
    simp only [bind_ok] at h
    obtain ⟨t, ht, h⟩ := h
    obtain ⟨r, hr, ht⟩ := lastAt_ofRows (f := fun r => r.ts) ht
    split at h
    · rename_i hc
      simp only [bind_ok] at h
      obtain ⟨x, hx, y, hy, ⟨⟨news, times, upd⟩, s1⟩, hst, h⟩ := h
      obtain ⟨r1, hr1, hx⟩ := lastAt_ofRows (f := fun r => r.xs) hx
      obtain ⟨r2, hr2, hy⟩ := lastAt_ofRows (f := fun r => r.ys) hy
      rw [hr] at hr1 hr2
      injection hr1 with hr1; subst hr1
      injection hr2 with hr2; subst hr2
      obtain ⟨hw1, hlen, hstep, hopt⟩ := particleStepper_inv A F G hw hst
      obtain ⟨q, t1, hq, ht1, hso⟩ := hstep 0 (x, y) t rfl rfl
      simp only [listGet_ok] at h
      obtain ⟨q', hq', h⟩ := h
      rw [hq] at hq'
      injection hq' with hq'; subst hq'
      by_cases hqp : q = (x, y)
      · simp only [hqp, ne_eq, not_true, if_false, pure_ok, Prod.mk.injEq] at h
        obtain ⟨rfl, rfl, rfl⟩ := h
        refine ⟨hw1, r, r, est, .still, 0, hr, by rw [set_self_of_get hr], .still ht hc ⟨(x, y), t, t1, ⟨hx, hy⟩, ht, ?_⟩, by simp⟩
        rw [hqp] at hso
        exact hso
      · simp only [ne_eq, hqp, not_false_eq_true, if_true, bind_ok, listGet_ok] at h
        obtain ⟨t1', ht1', vals, hvals, h⟩ := h
        rw [ht1] at ht1'
        injection ht1' with ht1'; subst ht1'
        obtain ⟨v, rfl, hv⟩ := pickOpt_inv hvals
        rw [appendRec_ofRows] at h
        have hmod : rows.modify ii (fun r => r.append q t1 v) = rows.set ii (r.append q t1 v) := by
          rw [List.modify_eq_set_getElem?, hr]; rfl
        rw [hmod] at h
        have hrs : RowStep A F P ω r (r.append q t1 v) := by
          refine ⟨(x, y), t, q, t1, v, ⟨hx, hy⟩, ht, hso, hqp, fun key hkey => ?_, rfl⟩
          obtain ⟨l, hl, hl'⟩ := hv key hkey
          obtain ⟨w, hw2, hw3⟩ := hopt key l 0 q hl hq
          rw [hl'] at hw2
          injection hw2 with hw2
          rw [hw2]; exact hw3
        have hlast : (r.append q t1 v).ts.getLast? = some t1 := by simp [Row.append]
        have hlt : ii < rows.length := (List.getElem?_eq_some_iff.1 hr).1
        by_cases hl : count + 1 > maxIter
        · rw [if_pos hl] at h
          simp only [pure_ok, Prod.mk.injEq] at h
          obtain ⟨rfl, rfl, rfl⟩ := h
          exact ⟨hw1, r, _, _, .limit, 1, hr, rfl, .limit ht hc hrs hlast hl, by simp⟩
        · rw [if_neg hl] at h
          obtain ⟨hw2, r3, r4, est4, e, n, hr3, hout, hrun, hhit⟩ := ih hw1 h
          rw [List.getElem?_set_self hlt] at hr3
          injection hr3 with hr3
          subst hr3
          refine ⟨hw2, r, r4, est4, e, n + 1, hr, ?_, .more ht hc hrs hlast hl hrun, hhit⟩
          rw [hout, List.set_set]
    · rename_i hc
      simp only [pure_ok, Prod.mk.injEq] at h
      obtain ⟨rfl, rfl, rfl⟩ := h
      refine ⟨hw, r, r, est, .reached, 0, hr, ?_, .reached ht hc, by simp⟩
      rw [set_self_of_get hr]

/-- The outcome of `run_iteration(target_time)` for one particle. -/
def TargetOutcome (P : PObj K) (ω : Nat → K) (target : Fl K) (maxIter : Int) (r r' : Row K) (hit : Bool) : Prop :=
  ∃ p, r.lastPos p ∧
    ((edgeInWindow P.cellType p.1 p.2 = true ∧ r' = r ∧ hit = false) ∨
     (edgeInWindow P.cellType p.1 p.2 = false ∧ ∃ est' e n,
        LoopRun A F P ω target maxIter r (initEst A r.ts) 1 r' est' e n ∧ (hit = true ↔ e = .limit)))

theorem targetOne_inv {P : PObj K} (G : Good P) {ω : Nat → K} {target : Fl K} {maxIter : Int} {ii : Nat}
    {rows : List (Row K)} {s s' : World K} {out : WalkData K} {hit : Bool} (hw : PickEquiv A F P s.weight)
    (h : targetOne A F P ω target maxIter (keysOf P) (ofRows (keysOf P) rows) s ii = .ok (out, s', hit)) :
    PickEquiv A F P s'.weight ∧ ∃ r r', rows[ii]? = some r ∧ out = ofRows (keysOf P) (rows.set ii r') ∧
      TargetOutcome A F P ω target maxIter r r' hit := by
  unfold targetOne at h
  simp only [bind_ok] at h
  obtain ⟨ts, hts, x, hx, y, hy, h⟩ := h
  obtain ⟨r, hr, hx⟩ := lastAt_ofRows (f := fun r => r.xs) hx
  obtain ⟨r2, hr2, hy⟩ := lastAt_ofRows (f := fun r => r.ys) hy
  rw [hr] at hr2
  injection hr2 with hr2; subst hr2
  have hts' : ts = r.ts := by
    rw [listGet_ok] at hts
    change (rows.map _)[ii]? = _ at hts
    rw [List.getElem?_map, hr] at hts
    simpa using hts.symm
  subst hts'
  split at h
  · rename_i he
    simp only [pure_ok, Prod.mk.injEq] at h
    obtain ⟨rfl, rfl, rfl⟩ := h
    exact ⟨hw, r, r, hr, by rw [set_self_of_get hr], (x, y), ⟨hx, hy⟩, Or.inl ⟨he, rfl, rfl⟩⟩
  · rename_i he
    obtain ⟨hw2, r3, r4, est4, e, n, hr3, hout, hrun, hhit⟩ := targetLoop_inv A F G _ hw h
    rw [hr] at hr3
    injection hr3 with hr3; subst hr3
    exact ⟨hw2, r, r4, hr, hout, (x, y), ⟨hx, hy⟩, Or.inr ⟨by simpa using he, est4, e, n, hrun, hhit⟩⟩

theorem targetAll_inv {P : PObj K} (G : Good P) {ω : Nat → K} {target : Fl K} {maxIter : Int} (is : List Nat)
    (hnd : is.Nodup) {rows : List (Row K)} {s s' : World K} {out : WalkData K} {w0 warn : Option (List Nat)}
    (hw : PickEquiv A F P s.weight)
    (h : targetAll A F P ω target maxIter (keysOf P) is (ofRows (keysOf P) rows) s w0 = .ok (out, s', warn)) :
    PickEquiv A F P s'.weight ∧ ∃ rows' : List (Row K), ∃ hits : Nat → Bool, out = ofRows (keysOf P) rows' ∧
      rows'.length = rows.length ∧
      (∀ (i : Nat) (r : Row K), rows[i]? = some r → ∃ r', rows'[i]? = some r' ∧ (i ∉ is → r' = r) ∧
        (i ∈ is → TargetOutcome A F P ω target maxIter r r' (hits i))) ∧
      warn = (match is.getLast? with
        | none => w0
        | some l => some (if hits l then [l] else [])) := by
  induction is generalizing rows s w0 with
  | nil =>
    simp only [targetAll, Except.ok.injEq, Prod.mk.injEq] at h
    obtain ⟨rfl, rfl, rfl⟩ := h
    exact ⟨hw, rows, fun _ => false, rfl, rfl, fun i r hr => ⟨r, hr, fun _ => rfl, by simp⟩, rfl⟩
  | cons a is ih =>
    simp only [targetAll, bind_ok] at h
    obtain ⟨⟨wd1, s1, hit⟩, h1, h⟩ := h
    rw [List.nodup_cons] at hnd
    obtain ⟨hw1, r0, r1, hr0, rfl, hto⟩ := targetOne_inv A F G hw h1
    obtain ⟨hw2, rows', hits, hout, hlen, hrows, hwarn⟩ := ih hnd.2 hw1 h
    have hlt : a < rows.length := (List.getElem?_eq_some_iff.1 hr0).1
    refine ⟨hw2, rows', fun i => if i = a then hit else hits i, hout, by simpa using hlen, ?_, ?_⟩
    · intro i r hr
      by_cases hia : i = a
      · subst hia
        rw [hr0] at hr
        injection hr with hr; subst hr
        obtain ⟨r', hr', hn, -⟩ := hrows i r1 (List.getElem?_set_self hlt)
        have := hn hnd.1
        subst this
        exact ⟨r', hr', fun hni => absurd (by simp) hni, fun _ => by simpa using hto⟩
      · obtain ⟨r', hr', hn, hy⟩ := hrows i r (by rw [List.getElem?_set_ne (Ne.symm hia)]; exact hr)
        refine ⟨r', hr', fun hni => hn fun hi => hni (by simp [hi]), fun hi => ?_⟩
        simp only [hia, if_false]
        exact hy (by simpa [hia] using hi)
    · rw [hwarn]
      cases is with
      | nil => simp
      | cons b is =>
        have : (a :: b :: is).getLast? = (b :: is).getLast? := by simp [List.getLast?_cons_cons]
        rw [this]
        cases hg : (b :: is).getLast? with
        | none => simp at hg
        | some l =>
          have hl : l ∈ b :: is := List.mem_of_getLast? hg
          have : l ≠ a := fun hh => hnd.1 (hh ▸ hl)
          simp [this]

/-- The effect of `run_iteration` on the rows and the particles it reports as stopped by the iteration limit. -/
def RunOutcome (P : PObj K) (ω : Nat → K) (target : Option (Fl K)) (maxIter : Int) (rows rows' : List (Row K))
    (warned : List Nat) : Prop :=
  match target with
  | none => warned = [] ∧ ∀ (i : Nat) (r : Row K), rows[i]? = some r → ∃ r', rows'[i]? = some r' ∧
      ((r' = r ∧ RowStill A F P ω r) ∨ RowStep A F P ω r r')
  | some tgt => rows ≠ [] ∧ ∃ hits : Nat → Bool,
      (∀ (i : Nat) (r : Row K), rows[i]? = some r → ∃ r', rows'[i]? = some r' ∧
        TargetOutcome A F P ω tgt maxIter r r' (hits i)) ∧
      warned = if P.verbose then (if hits (rows.length - 1) then [rows.length - 1] else []) else []

/-- What `run_iteration` does to the rows. -/
theorem runIteration_inv {P : PObj K} (G : Good P) {ω : Nat → K} {s : PState K} {rows : List (Row K)}
    {target : Option (Fl K)} {maxIter : Int} {res : RunResult K}
    (hw : PickEquiv A F P s.world.weight) (hwalk : s.walk = some (ofRows (keysOf P) rows))
    (hnp : s.np = rows.length ∨ s.np = 0)
    (h : runIteration A F P ω s target maxIter = .ok res) :
    PickEquiv A F P res.state.world.weight ∧ ∃ rows' : List (Row K), rows'.length = rows.length ∧
      res.returned = ofRows (keysOf P) rows' ∧ res.state.walk = some (ofRows (keysOf P) rows') ∧
      res.state.np = rows.length ∧ RunOutcome A F P ω target maxIter rows rows' res.warned := by
  unfold runIteration at h
  rw [hwalk] at h
  simp only at h
  have hnp' : (if s.np = 0 then (ofRows (keysOf P) rows).xinds.length else s.np) = rows.length := by
    rcases hnp with h0 | h0
    · by_cases hz : s.np = 0
      · rw [if_pos hz]; simp [ofRows]
      · rw [if_neg hz, h0]
    · rw [if_pos h0]; simp [ofRows]
  rw [hnp'] at h
  simp only [optionalVars_ofRows, bind_ok] at h
  obtain ⟨sx, hsx, sy, hsy, st, hst, -, -, h⟩ := h
  have hkeys : (dictOf (keysOf P) fun k => rows.map fun r => r.os k).map (fun x => x.1) = keysOf P := by
    unfold dictOf; rw [List.map_map]; simp [Function.comp_def]
  rw [hkeys] at h
  have hwd : WalkData.mk (ofRows (keysOf P) rows).xinds (ofRows (keysOf P) rows).yinds
      (ofRows (keysOf P) rows).times (dictOf (keysOf P) fun k => rows.map fun r => r.os k) = ofRows (keysOf P) rows := rfl
  rw [hwd] at h
  have hmerge : ∀ rows' : List (Row K), mergeOpt (ofRows (keysOf P) rows).opt (ofRows (keysOf P) rows').opt =
      (ofRows (keysOf P) rows').opt := by
    intro rows'
    have hg : ∀ k ∈ keysOf P, dictGet (ofRows (keysOf P) rows').opt k = some (rows'.map fun r => r.os k) := fun k hk => by
      show dictGet (dictOf (keysOf P) _) k = _
      rw [dictGet_dictOf, if_pos hk]
    have he : (ofRows (keysOf P) rows').opt = dictOf (keysOf P) fun k => rows'.map fun r => r.os k := rfl
    generalize (ofRows (keysOf P) rows').opt = dv at hg he
    unfold mergeOpt
    change List.map _ (dictOf (keysOf P) _) = _
    rw [he]
    unfold dictOf
    rw [List.map_map]
    apply List.map_congr_left
    intro k hk
    simp only [Function.comp]
    have := hg k hk
    rw [he] at this
    unfold dictOf at this
    rw [this]
  cases target with
  | none =>
    simp only [bind_ok] at h
    obtain ⟨⟨⟨news, times, upd⟩, w1⟩, hstep, out, hout, h⟩ := h
    simp only [pure_ok] at h
    subst h
    obtain ⟨hw1, hlen, hst1, hopt⟩ := particleStepper_inv A F G hw hstep
    obtain ⟨rows', rfl, hl, hrows⟩ := storeSteps_inv (List.range rows.length) List.nodup_range hout
    refine ⟨hw1, rows', hl, rfl, ?_, rfl, rfl, ?_⟩
    · simp only [hmerge]
    · intro i r hr
      have hi : i < rows.length := (List.getElem?_eq_some_iff.1 hr).1
      obtain ⟨r', hr', -, hmem⟩ := hrows i r hr
      obtain ⟨q, p, hq, hp, hcase⟩ := hmem (by simpa using hi)
      have hrange : (List.range rows.length)[i]? = some i := List.getElem?_range hi
      obtain ⟨x, hx, hx'⟩ := mapE_get hsx hrange
      obtain ⟨y, hy, hy'⟩ := mapE_get hsy hrange
      obtain ⟨t, ht, ht'⟩ := mapE_get hst hrange
      obtain ⟨r1, hr1, hx'⟩ := lastAt_ofRows (f := fun r => r.xs) hx'
      obtain ⟨r2, hr2, hy'⟩ := lastAt_ofRows (f := fun r => r.ys) hy'
      obtain ⟨r3, hr3, ht'⟩ := lastAt_ofRows (f := fun r => r.ts) ht'
      rw [hr] at hr1 hr2 hr3
      injection hr1 with hr1; subst hr1
      injection hr2 with hr2; subst hr2
      injection hr3 with hr3; subst hr3
      have hp' : (sx.zip sy)[i]? = some (x, y) := by rw [List.getElem?_zip_eq_some]; exact ⟨hx, hy⟩
      rw [hp] at hp'
      injection hp' with hp'; subst hp'
      obtain ⟨q', t1, hq', ht1, hso⟩ := hst1 i (x, y) t hp ht
      rw [hq] at hq'
      injection hq' with hq'; subst hq'
      refine ⟨r', hr', ?_⟩
      rcases hcase with ⟨hqp, rfl⟩ | ⟨hqp, t2, v, ht2, hv, rfl⟩
      · left
        subst hqp
        exact ⟨rfl, (x, y), t, t1, ⟨hx', hy'⟩, ht', hso⟩
      · right
        rw [ht1] at ht2
        injection ht2 with ht2; subst ht2
        refine ⟨(x, y), t, q, t1, v, ⟨hx', hy'⟩, ht', hso, hqp, fun key hkey => ?_, rfl⟩
        obtain ⟨l, hl, hl'⟩ := hv key hkey
        obtain ⟨w, hw2, hw3⟩ := hopt key l i q hl hq
        rw [hl'] at hw2
        injection hw2 with hw2
        rw [hw2]; exact hw3
  | some tgt =>
    simp only [bind_ok] at h
    obtain ⟨⟨out, w1, warn⟩, hall, h⟩ := h
    obtain ⟨hw1, rows', hits, rfl, hl, hrows, hwarn⟩ := targetAll_inv A F G (List.range rows.length) List.nodup_range hw hall
    cases rows with
    | nil =>
      simp at hwarn
      subst hwarn
      cases h
    | cons r0 rows0 =>
      have hlast : (List.range (r0 :: rows0).length).getLast? = some ((r0 :: rows0).length - 1) := by
        rw [List.getLast?_range]; simp
      rw [hlast] at hwarn
      subst hwarn
      simp only [pure_ok] at h
      subst h
      refine ⟨hw1, rows', hl, rfl, rfl, rfl, by simp, hits, ?_, rfl⟩
      intro i r hr
      have hi : i < (r0 :: rows0).length := (List.getElem?_eq_some_iff.1 hr).1
      obtain ⟨r', hr', -, hmem⟩ := hrows i r hr
      exact ⟨r', hr', hmem (by simpa using hi)⟩

/-- Zero or more recorded moves. -/
inductive RowSteps (P : PObj K) (ω : Nat → K) : Row K → Row K → Prop
  | refl (r) : RowSteps P ω r r
  | tail {r r' r''} (h : RowSteps P ω r r') (hs : RowStep A F P ω r' r'') : RowSteps P ω r r''

theorem RowSteps.trans {P : PObj K} {ω : Nat → K} {r r' r'' : Row K} (h1 : RowSteps A F P ω r r')
    (h : RowSteps A F P ω r' r'') : RowSteps A F P ω r r'' := by
  induction h with
  | refl => exact h1
  | tail _ hs ih => exact .tail ih hs

theorem RowSteps.head {P : PObj K} {ω : Nat → K} {r r' r'' : Row K} (h1 : RowStep A F P ω r r')
    (h : RowSteps A F P ω r' r'') : RowSteps A F P ω r r'' := by
  induction h with
  | refl => exact .tail (.refl _) h1
  | tail _ hs ih => exact .tail ih hs

theorem LoopRun.steps {P : PObj K} {ω : Nat → K} {target : Fl K} {maxIter : Int} {r r' : Row K} {est est' : Fl K}
    {c : Int} {e : Exit} {n : Nat} (h : LoopRun A F P ω target maxIter r est c r' est' e n) :
    RowSteps A F P ω r r' := by
  induction h with
  | reached => exact .refl _
  | still => exact .refl _
  | limit _ _ hs _ _ => exact .tail (.refl _) hs
  | more _ _ hs _ _ _ ih => exact .head A F hs ih

theorem TargetOutcome.steps {P : PObj K} {ω : Nat → K} {target : Fl K} {maxIter : Int} {r r' : Row K} {hit : Bool}
    (h : TargetOutcome A F P ω target maxIter r r' hit) : RowSteps A F P ω r r' := by
  obtain ⟨p, -, ⟨-, rfl, -⟩ | ⟨-, est', e, n, hl, -⟩⟩ := h
  · exact .refl _
  · exact hl.steps A F

theorem RunOutcome.steps {P : PObj K} {ω : Nat → K} {target : Option (Fl K)} {maxIter : Int} {rows rows' : List (Row K)}
    {w : List Nat} (h : RunOutcome A F P ω target maxIter rows rows' w) {i : Nat} {r : Row K} (hr : rows[i]? = some r) :
    ∃ r', rows'[i]? = some r' ∧ RowSteps A F P ω r r' := by
  cases target with
  | none =>
    obtain ⟨r', hr', ⟨rfl, -⟩ | hs⟩ := h.2 i r hr
    · exact ⟨r', hr', .refl _⟩
    · exact ⟨r', hr', .tail (.refl _) hs⟩
  | some tgt =>
    obtain ⟨-, hits, hrows, -⟩ := h
    obtain ⟨r', hr', ht⟩ := hrows i r hr
    exact ⟨r', hr', ht.steps A F⟩

theorem RowSteps.inv {P : PObj K} {ω : Nat → K} {Q : Row K → Prop}
    (hs : ∀ r r', Q r → RowStep A F P ω r r' → Q r') {r r' : Row K} (h : RowSteps A F P ω r r') (hr : Q r) : Q r' := by
  induction h with
  | refl => exact hr
  | tail _ h1 ih => exact hs _ _ ih h1

end Dorado
