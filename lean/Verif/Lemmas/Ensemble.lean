import Verif.Lemmas.Feed

/-! Helper lemmas: sequences of `run_iteration` calls as dealing draws to machines. -/

set_option linter.unusedSectionVars false

namespace Dorado

open MeasureTheory

noncomputable section

variable {A : Arith ℝ} {F : Fun ℝ A} {P : PObj ℝ}

/-- The loop of a call with a target time, for one particle. -/
theorem targetOne_feed (R : Routable A P) {N : Nat} {ω : Nat → ℝ} {target : Fl ℝ} {maxIter : Int} {i : Fin N}
    {rows : List (Row ℝ)} {s s' : World ℝ} {out : WalkData ℝ} {hit : Bool} (hw : PickEquiv A F P s.weight) (hok : ∀ r ∈ rows, RowOk P r)
    {st : Fin N → Mach} (hm : Matches rows st)
    (h : targetOne A F P ω target maxIter (keysOf P) (ofRows (keysOf P) rows) s i.val = .ok (out, s', hit)) :
    ∃ rows', out = ofRows (keysOf P) rows' ∧ (∀ r ∈ rows', RowOk P r) ∧ PickEquiv A F P s'.weight ∧
      Matches rows' (deal ω ((targetOps A F P target maxIter).map fun o => (i, o)) (st, s.pos)).1 ∧
      s'.pos = (deal ω ((targetOps A F P target maxIter).map fun o => (i, o)) (st, s.pos)).2 := by
  obtain ⟨hN, hM⟩ := hm
  have hlt : i.val < rows.length := by omega
  have hri := List.getElem?_eq_getElem hlt
  have hMi := hM i _ hri
  have hoki := hok _ (List.getElem_mem hlt)
  have hset : ∀ r', RowOk P r' → ∀ r ∈ rows.set i.val r', RowOk P r := by
    intro r' h' r hr
    rcases List.mem_or_eq_of_mem_set hr with hr | rfl
    · exact hok r hr
    · exact h'
  have hothers : ∀ (pos : Nat) (L : List (Op Mach)) (j : Fin N), j ≠ i → ∀ st' : Fin N → Mach,
      (deal ω (L.map fun o => (i, o)) (st', pos)).1 j = st' j := by
    intro pos L j hj st'
    refine deal_untouched ω (fun io hio => ?_) (st', pos)
    obtain ⟨o, -, rfl⟩ := List.mem_map.1 hio
    exact fun e => hj e.symm
  let m0 : Mach := ({ (st i).1 with on := !(edgeInWindow P.cellType (st i).1.cur.1 (st i).1.cur.2), count := 1 }, ((st i).2.1, (st i).est0 A))
  have hstart : deal ω ((targetOps A F P target maxIter).map fun o => (i, o)) (st, s.pos) =
      deal ω ((loopOps A F P target maxIter (maxIter.toNat + 1)).map fun o => (i, o)) (Function.update st i m0, s.pos) := by
    classical
    show deal ω ((startOp A P :: loopOps A F P target maxIter (maxIter.toNat + 1)).map fun o => (i, o)) (st, s.pos) = _
    rw [List.map_cons, deal_cons, dealStep_eq, if_neg (show ¬ (startOp A P).need (st i) from fun h => h)]
    unfold Op.act
    rw [if_neg (show ¬ (startOp A P).need (st i) from fun h => h)]
    rfl
  have hM0 : Match rows[i.val] m0 := hMi.congr rfl rfl
  unfold targetOne at h
  simp only [bind_ok] at h
  obtain ⟨ts, hts, x, hx, y, hy, h⟩ := h
  obtain ⟨r1, hr1, hx⟩ := lastAt_ofRows (f := fun r => r.xs) hx
  obtain ⟨r2, hr2, hy⟩ := lastAt_ofRows (f := fun r => r.ys) hy
  rw [hri] at hr1 hr2
  injection hr1 with hr1; subst hr1
  injection hr2 with hr2; subst hr2
  have hcur : (x, y) = (st i).1.cur := Row.lastPos_unique ⟨hx, hy⟩ hMi.pos
  have hts' : ts = rows[i.val].ts := by
    rw [listGet_ok] at hts
    have : (rows.map fun r => r.ts)[i.val]? = some ts := hts
    rw [List.getElem?_map, hri] at this
    injection this with this
    exact this.symm
  rw [hstart]
  split at h
  · rename_i hedge
    simp only [pure_ok, Prod.mk.injEq] at h
    obtain ⟨rfl, rfl, rfl⟩ := h
    have hoff : (Function.update st i m0 i).1.on = false := by
      rw [Function.update_self]
      show (!(edgeInWindow P.cellType (st i).1.cur.1 (st i).1.cur.2)) = false
      rw [← hcur, hedge]
      rfl
    rw [deal_off _ _ _ hoff]
    refine ⟨rows, rfl, hok, hw, ⟨hN, fun j r hr => ?_⟩, rfl⟩
    simp only
    by_cases hj : j = i
    · subst hj
      rw [Function.update_self]
      rw [hri] at hr
      cases hr
      exact hM0
    · rw [Function.update_of_ne hj]
      exact hM j r hr
  · rename_i hedge
    obtain ⟨r', hout, h1, h2, h3, h4⟩ := targetLoop_feed R (maxIter.toNat + 1) (i := i) (st := Function.update st i m0) hw hri hoki
      (by rw [Function.update_self]; exact hM0)
      (by
        rw [Function.update_self]
        show (!(edgeInWindow P.cellType (st i).1.cur.1 (st i).1.cur.2)) = true
        rw [← hcur]
        simpa using hedge)
      (by rw [Function.update_self])
      (by rw [Function.update_self, hts', hMi.est]) h
    refine ⟨_, hout, hset r' h1, h2, ⟨by simpa using hN, fun j r hr => ?_⟩, h4⟩
    by_cases hj : j = i
    · subst hj
      rw [List.getElem?_set_self hlt] at hr
      cases hr
      exact h3
    · rw [hothers _ _ j hj, Function.update_of_ne hj]
      rw [List.getElem?_set_ne (fun e => hj (Fin.ext e.symm))] at hr
      exact hM j r hr

/-- All particles in turn. -/
theorem targetAll_feed (R : Routable A P) {N : Nat} {ω : Nat → ℝ} {target : Fl ℝ} {maxIter : Int} (is : List (Fin N))
    {rows : List (Row ℝ)} {s s' : World ℝ} {out : WalkData ℝ} {w0 warn : Option (List Nat)} (hw : PickEquiv A F P s.weight)
    (hok : ∀ r ∈ rows, RowOk P r) {st : Fin N → Mach} (hm : Matches rows st)
    (h : targetAll A F P ω target maxIter (keysOf P) (is.map (·.val)) (ofRows (keysOf P) rows) s w0 = .ok (out, s', warn)) :
    ∃ rows', out = ofRows (keysOf P) rows' ∧ (∀ r ∈ rows', RowOk P r) ∧ PickEquiv A F P s'.weight ∧
      Matches rows' (deal ω (callOps A F P is (some target, maxIter)) (st, s.pos)).1 ∧
      s'.pos = (deal ω (callOps A F P is (some target, maxIter)) (st, s.pos)).2 := by
  induction is generalizing rows s w0 st with
  | nil =>
    simp only [List.map_nil, targetAll, Except.ok.injEq, Prod.mk.injEq] at h
    obtain ⟨rfl, rfl, rfl⟩ := h
    exact ⟨rows, rfl, hok, hw, hm, rfl⟩
  | cons a is ih =>
    simp only [List.map_cons, targetAll, bind_ok] at h
    obtain ⟨⟨wd1, s1, hit⟩, h1, h⟩ := h
    obtain ⟨rows1, rfl, hok1, hw1, hm1, hpos1⟩ := targetOne_feed R hw hok hm h1
    have e : callOps A F P (a :: is) (some target, maxIter) =
        (targetOps A F P target maxIter).map (fun o => (a, o)) ++ callOps A F P is (some target, maxIter) := by
      simp [callOps]
    simp only at h
    obtain ⟨rows', h1, h2, h3, h4, h5⟩ := ih hw1 hok1 hm1 h
    refine ⟨rows', h1, h2, h3, ?_, ?_⟩
    · rw [e, deal_append]
      rw [hpos1] at h4
      exact h4
    · rw [e, deal_append]
      rw [hpos1] at h5
      exact h5

/-- What is known of the object between calls. -/
structure Sound (A : Arith ℝ) (F : Fun ℝ A) (P : PObj ℝ) (s : PState ℝ) (rows : List (Row ℝ)) : Prop where
  weight : PickEquiv A F P s.world.weight
  has : HasRows P s rows
  ok : ∀ r ∈ rows, RowOk P r

theorem RowOk.nonzero {r : Row ℝ} (h : RowOk P r) {p : Int × Int} (hp : r.lastPos p) : p ≠ (0, 0) := by
  rintro rfl
  have := (h.inside _ hp).1
  simp at this

theorem Match.sameLists {r r' : Row ℝ} {m : Mach} (h : Match r m) (h1 : r'.xs = r.xs) (h2 : r'.ys = r.ys) (h3 : r'.ts = r.ts) : Match r' m :=
  ⟨by rw [h1, h.xs], by rw [h2, h.ys], by rw [h3, h.ts], h.ne⟩

/-- One call of either kind. -/
theorem call_feed (R : Routable A P) {N : Nat} {ω : Nat → ℝ} {s : PState ℝ} {rows : List (Row ℝ)} {c : Option (Fl ℝ) × Int} {res : RunResult ℝ}
    (hs : Sound A F P s rows) {st : Fin N → Mach} (hm : Matches rows st) (h : runIteration A F P ω s c.1 c.2 = .ok res) :
    ∃ rows', Sound A F P res.state rows' ∧ Matches rows' (deal ω (callOps A F P (List.finRange N) c) (st, s.world.pos)).1 ∧
      res.state.world.pos = (deal ω (callOps A F P (List.finRange N) c) (st, s.world.pos)).2 := by
  obtain ⟨_ | target, maxIter⟩ := c
  · obtain ⟨rows1, hrows1, hm1, hpos⟩ := runIteration_feed R.fields.good hs.weight hs.has (fun r hr p hp => (hs.ok r hr).nonzero hp) hm h
    obtain ⟨hw', rows', hl, -, hwalk, hnp, hout⟩ := runIteration_inv A F R.fields.good hs.weight hs.has.1 (Or.inl hs.has.2) h
    refine ⟨rows', ⟨hw', ⟨hwalk, by rw [hnp, hl]⟩, fun r hr => ?_⟩, ⟨by rw [hl]; exact hm.1, fun i r hr => ?_⟩, hpos⟩
    · obtain ⟨i, hi⟩ := List.getElem?_of_mem hr
      have hlt : i < rows.length := by rw [← hl]; exact (List.getElem?_eq_some_iff.1 hi).1
      obtain ⟨r', hr', hsteps⟩ := hout.steps A F (List.getElem?_eq_getElem hlt)
      rw [hi] at hr'
      cases hr'
      exact hsteps.inv A F (Q := RowOk P) (fun r r' h hs => RowStep.rowOk (F := F) R h hs) (hs.ok _ (List.getElem_mem hlt))
    · have e : ofRows (keysOf P) rows' = ofRows (keysOf P) rows1 := by
        have := hwalk.symm.trans hrows1.1
        injection this
      have hlt1 : i.val < rows1.length := by have := hm1.1; omega
      have a1 := congrArg (fun w => w.xinds[i.val]?) e
      have a2 := congrArg (fun w => w.yinds[i.val]?) e
      have a3 := congrArg (fun w => w.times[i.val]?) e
      simp only [ofRows, List.getElem?_map, hr, List.getElem?_eq_getElem hlt1, Option.map_some, Option.some.injEq] at a1 a2 a3
      exact (hm1.2 i _ (List.getElem?_eq_getElem hlt1)).sameLists a1 a2 a3
  · obtain ⟨hwalk, hnp, l, -, hall⟩ := runIteration_targetAll hs.has h
    have hr : List.range rows.length = (List.finRange N).map (·.val) := by
      rw [hm.1, List.map_coe_finRange_eq_range]
    rw [hr] at hall
    obtain ⟨rows', hout, hok, hw', hm', hpos⟩ := targetAll_feed R (List.finRange N) hs.weight hs.ok hm hall
    refine ⟨rows', ⟨hw', ⟨by rw [hwalk, hout], ?_⟩, hok⟩, hm', hpos⟩
    rw [hnp, hm.1, hm'.1]

/-- The operations of a sequence of calls. -/
def callsOps (A : Arith ℝ) (F : Fun ℝ A) (P : PObj ℝ) (N : Nat) (calls : List (Option (Fl ℝ) × Int)) : List (Fin N × Op Mach) :=
  calls.flatMap (callOps A F P (List.finRange N))

/-- A sequence of calls. -/
theorem calls_feed (R : Routable A P) {N : Nat} {ω : Nat → ℝ} (hω : Draws ω) (hN : 0 < N) (calls : List (Option (Fl ℝ) × Int)) {s : PState ℝ}
    {rows : List (Row ℝ)} (hs : Sound A F P s rows) {st : Fin N → Mach} (hm : Matches rows st) :
    ∃ s' rows', runCalls A F P ω calls s = .ok s' ∧ Sound A F P s' rows' ∧
      Matches rows' (deal ω (callsOps A F P N calls) (st, s.world.pos)).1 := by
  induction calls generalizing s rows st with
  | nil => exact ⟨s, rows, rfl, hs, hm⟩
  | cons c cs ih =>
    obtain ⟨res, hres⟩ := runIteration_total (target := c.1) (maxIter := c.2) R hω hs.weight hs.has hs.ok (.inr fun e => by
      have := hm.1
      rw [e] at this
      simp at this
      omega)
    obtain ⟨rows1, hs1, hm1, hpos1⟩ := call_feed R hs hm hres
    obtain ⟨s', rows', h1, h2, h3⟩ := ih hs1 hm1
    refine ⟨s', rows', ?_, h2, ?_⟩
    · simp only [runCalls, hres, ok_bind, h1]
    · have : callsOps A F P N (c :: cs) = callOps A F P (List.finRange N) c ++ callsOps A F P N cs := by simp [callsOps]
      rw [this, deal_append]
      rw [hpos1] at h3
      exact h3

theorem callsOps_meas {N : Nat} {calls : List (Option (Fl ℝ) × Int)} : ∀ io ∈ callsOps A F P N calls, io.2.Meas := by
  intro io hio
  obtain ⟨c, -, hc⟩ := List.mem_flatMap.1 hio
  exact callOps_meas _ c io hc

/-- The history shown by a machine. -/
def Mach.history (m : Mach) : History ℝ := fun n =>
  ((m.1.cells[n]?).map (·.1), (m.1.cells[n]?).map (·.2), if n < m.1.cells.length then some (m.2.1 n) else none)

theorem Mach.history_measurable : Measurable Mach.history := by
  refine measurable_disc fun d => ?_
  rw [measurable_pi_iff]
  intro n
  unfold Mach.history
  simp only
  refine Measurable.prodMk measurable_const (Measurable.prodMk measurable_const ?_)
  by_cases h : n < d.cells.length
  · simp only [if_pos h]
    exact measurable_osome.comp ((measurable_pi_apply n).comp measurable_fst)
  · simp only [if_neg h]
    exact measurable_const

theorem Match.history {r : Row ℝ} {m : Mach} (h : Match r m) : (fun n => (r.xs[n]?, r.ys[n]?, r.ts[n]?)) = m.history := by
  funext n
  unfold Mach.history
  rw [h.xs, h.ys, h.ts, List.getElem?_map, List.getElem?_map, List.getElem?_map]
  by_cases hn : n < m.1.cells.length
  · rw [if_pos hn, List.getElem?_range hn]
    rfl
  · rw [if_neg hn, List.getElem?_eq_none (by simpa using hn)]
    rw [List.getElem?_eq_none (l := List.range _) (by simpa using hn)]
    rfl

theorem history_ofRows {keys : List String} {rows : List (Row ℝ)} {i : Nat} {r : Row ℝ} (h : rows[i]? = some r) :
    (ofRows keys rows).history i = fun n => (r.xs[n]?, r.ys[n]?, r.ts[n]?) := by
  funext n
  unfold WalkData.history ofRows
  simp [List.getElem?_map, h]

/-- The history of a particle after a sequence of calls. -/
theorem historyIn_feed (R : Routable A P) {N : Nat} {ω : Nat → ℝ} (hω : Draws ω) (calls : List (Option (Fl ℝ) × Int)) {s : PState ℝ}
    {rows : List (Row ℝ)} (hs : Sound A F P s rows) {st : Fin N → Mach} (hm : Matches rows st) (i : Fin N) :
    historyIn i.val (runCalls A F P ω calls s) = ((deal (fun n => ω (n + s.world.pos)) (callsOps A F P N calls) (st, 0)).1 i).history := by
  obtain ⟨s', rows', h1, h2, h3, h4⟩ := calls_feed R hω i.pos calls hs hm
  rw [h1]
  unfold historyIn
  simp only [h2.has.1]
  have hlt : i.val < rows'.length := by omega
  rw [history_ofRows (List.getElem?_eq_getElem hlt), (h4 i _ (List.getElem?_eq_getElem hlt)).history]
  have := deal_shift ω (callsOps A F P N calls) st 0 s.world.pos
  rw [Nat.zero_add] at this
  rw [this]

/-! ## One particle among many and alone -/

theorem opsOf_flat {ι : Type} [DecidableEq ι] {l : List ι} (hl : l.Nodup) (ops : List (Op Mach)) (i : ι) :
    opsOf i (l.flatMap fun j => ops.map fun o => (j, o)) = if i ∈ l then ops.map fun o => ((), o) else [] := by
  induction l with
  | nil => simp [opsOf]
  | cons a l ih =>
    rw [List.nodup_cons] at hl
    have ih := ih hl.2
    unfold opsOf at ih ⊢
    rw [List.flatMap_cons, List.filter_append, List.map_append, ih, List.filter_map]
    by_cases ha : a = i
    · subst ha
      simp [hl.1, Function.comp_def]
    · have : ¬ i = a := fun e => ha e.symm
      simp [ha, this, Function.comp_def]

theorem opsOf_append {ι : Type} [DecidableEq ι] (i : ι) (L L' : List (ι × Op Mach)) : opsOf i (L ++ L') = opsOf i L ++ opsOf i L' := by
  simp [opsOf]

theorem opsOf_common {ι : Type} [DecidableEq ι] {l : List ι} (hl : l.Nodup) (o : Op Mach) {i : ι} (hi : i ∈ l) :
    opsOf i (l.map fun j => (j, o)) = [((), o)] := by
  have := opsOf_flat hl [o] i
  rw [if_pos hi] at this
  rw [List.map_eq_flatMap]
  exact this

theorem opsOf_call {N : Nat} (i : Fin N) (c : Option (Fl ℝ) × Int) : opsOf i (callOps A F P (List.finRange N) c) = callOps A F P [()] c := by
  have hi : i ∈ List.finRange N := List.mem_finRange i
  obtain ⟨_ | target, maxIter⟩ := c
  · unfold callOps
    rw [opsOf_append, opsOf_common (List.nodup_finRange N) _ hi, opsOf_common (List.nodup_finRange N) _ hi]
    rfl
  · unfold callOps
    rw [opsOf_flat (List.nodup_finRange N), if_pos hi]
    simp

theorem opsOf_calls {N : Nat} (i : Fin N) (calls : List (Option (Fl ℝ) × Int)) :
    opsOf i (callsOps A F P N calls) = calls.flatMap (callOps A F P [()]) := by
  induction calls with
  | nil => rfl
  | cons c cs ih =>
    have : callsOps A F P N (c :: cs) = callOps A F P (List.finRange N) c ++ callsOps A F P N cs := by simp [callsOps]
    rw [this, opsOf_append, ih, opsOf_call, List.flatMap_cons]

theorem callOps_rename {ι κ : Type} (e : ι → κ) (l : List ι) (c : Option (Fl ℝ) × Int) :
    callOps A F P (l.map e) c = (callOps A F P l c).map fun io => (e io.1, io.2) := by
  obtain ⟨_ | target, maxIter⟩ := c
  · simp [callOps, Function.comp_def]
  · simp [callOps, Function.comp_def, List.flatMap_map, List.map_flatMap]

theorem deal_rename {ι κ : Type} {e : ι → κ} (he : Function.Injective e) (ω : Nat → ℝ) (L : List (ι × Op Mach)) (st : κ → Mach) (pos : Nat) :
    ((deal ω (L.map fun io => (e io.1, io.2)) (st, pos)).1 ∘ e, (deal ω (L.map fun io => (e io.1, io.2)) (st, pos)).2) = deal ω L (st ∘ e, pos) := by
  classical
  induction L generalizing st pos with
  | nil => rfl
  | cons io L ih =>
    obtain ⟨i, o⟩ := io
    rw [List.map_cons, deal_cons, deal_cons, dealStep_eq, dealStep_eq]
    rw [ih, Function.update_comp_eq_of_injective _ he]
    rfl

/-- The machine of a single particle. -/
theorem deal_single (ω : Nat → ℝ) (calls : List (Option (Fl ℝ) × Int)) (m : Mach) :
    (deal ω (callsOps A F P 1 calls) (fun _ => m, 0)).1 0 = (deal ω (calls.flatMap (callOps A F P [()])) (fun _ => m, 0)).1 () := by
  have e : callsOps A F P 1 calls = (calls.flatMap (callOps A F P [()])).map fun io => ((fun _ : Unit => (0 : Fin 1)) io.1, io.2) := by
    unfold callsOps
    rw [List.map_flatMap]
    congr 1
    funext c
    exact callOps_rename (fun _ : Unit => (0 : Fin 1)) [()] c
  have := deal_rename (e := fun _ : Unit => (0 : Fin 1)) (fun a b _ => rfl) ω (calls.flatMap (callOps A F P [()])) (fun _ => m) 0
  rw [← e] at this
  exact congrFun (congrArg Prod.fst this) ()

theorem Sound.single {s : PState ℝ} {rows : List (Row ℝ)} (hs : Sound A F P s rows) {wd : WalkData ℝ} (hwd : s.walk = some wd) {i : Nat} {r : Row ℝ}
    (hr : rows[i]? = some r) : Sound A F P (alone s.world (wd.only i)) [r] := by
  have : wd = ofRows (keysOf P) rows := by
    have := hs.has.1
    rw [hwd] at this
    injection this
  subst this
  refine ⟨hs.weight, ⟨?_, rfl⟩, fun r' hr' => ?_⟩
  · show some _ = some _
    rw [only_ofRows hr]
  · simp only [List.mem_singleton] at hr'
    subst hr'
    exact hs.ok _ (List.mem_of_getElem? hr)

end

end Dorado
