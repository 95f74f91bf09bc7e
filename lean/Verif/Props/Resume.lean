import Verif.Lemmas.Json
import Verif.Props.Figures
import Verif.Props.Api
import Verif.Props.Accept

/-! # C85: data files and resuming from them -/

set_option linter.unusedSectionVars false

namespace Dorado

variable {K : Type} [Field K] [LinearOrder K] [IsStrictOrderedRing K] [FloorRing K] {A : Arith K} {F : Fun K A} {R : FloatText K}

/-! ## The objects stored -/

theorem items_ofList (l : List (JTree K)) : (JList.ofList l).items = l := by
  induction l with
  | nil => rfl
  | cons a l ih => simp [JList.ofList, JList.items, ih]

theorem pairs_ofList (l : List (String × JTree K)) : (JDict.ofList l).items = l := by
  induction l with
  | nil => rfl
  | cons a l ih => simp [JDict.ofList, JDict.items, ih]

theorem doubles_ofList {l : List (JTree K)} : DoublesL A (JList.ofList l) ↔ ∀ t ∈ l, Doubles A t := by
  induction l with
  | nil => simp [JList.ofList, DoublesL]
  | cons a l ih => simp [JList.ofList, DoublesL, ih]

theorem doubles_pairs {l : List (String × JTree K)} : DoublesD A (JDict.ofList l) ↔ ∀ e ∈ l, Doubles A e.2 := by
  induction l with
  | nil => simp [JDict.ofList, DoublesD]
  | cons a l ih => simp [JDict.ofList, DoublesD, ih]

theorem rows_forall₂ {α : Type} {Q : JTree K → α → Prop} {f : Nat → α → JTree K} (hf : ∀ i a, Q (f i a) a) (rows : List (List α)) :
    (rowsTree f rows).IsListOf (JTree.IsListOf Q) rows := by
  refine ⟨_, rfl, ?_⟩
  rw [items_ofList, List.forall₂_iff_get]
  refine ⟨by simp, fun i h1 h2 => ?_⟩
  simp only [List.get_eq_getElem, List.getElem_mapIdx]
  refine ⟨_, rfl, ?_⟩
  rw [items_ofList, List.forall₂_map_left_iff]
  exact List.forall₂_same.2 fun a _ => hf i a

theorem timeRow_forall₂ {b : Bool} {ts : List (Fl K)} (h : ∀ t r, ts = t :: r → b = true → ∃ n : Int, t = .fin (n : K)) :
    List.Forall₂ JTree.IsNum (timeRow b ts) ts := by
  cases ts with
  | nil => exact .nil
  | cons t ts =>
    refine .cons ?_ ?_
    · cases b with
      | false => cases t <;> exact .inl rfl
      | true =>
        obtain ⟨n, rfl⟩ := h t ts rfl rfl
        exact .inr ⟨n, by simp [timeTree], rfl⟩
    · rw [List.forall₂_map_left_iff]
      exact List.forall₂_same.2 fun a _ => .inl rfl

theorem walkTree_holds {ints : Nat → Bool} {wd : WalkData K} (ho : wd.opt = []) (hi : IntSeeds ints wd) : HoldsWalk (walkTree ints wd) wd := by
  refine ⟨ho, _, _, _, .list (.ofList (wd.times.mapIdx fun i r => .list (.ofList (timeRow (ints i) r)))), rfl, ?_, rows_forall₂ (f := fun _ n => .int n) (fun _ _ => rfl) _,
    rows_forall₂ (f := fun _ n => .int n) (fun _ _ => rfl) _, ?_⟩
  · rw [pairs_ofList, ho]
    rfl
  · refine ⟨_, rfl, ?_⟩
    rw [items_ofList, List.forall₂_iff_get]
    refine ⟨by simp, fun i h1 h2 => ?_⟩
    simp only [List.get_eq_getElem, List.getElem_mapIdx]
    refine ⟨_, rfl, ?_⟩
    rw [items_ofList]
    exact timeRow_forall₂ fun t r he hb => hi i t r (by rw [List.getElem?_eq_getElem h2, he]) hb

theorem walkTree_doubles {ints : Nat → Bool} {wd : WalkData K} (ho : wd.opt = []) (hd : DoubleTimes A wd) : Doubles A (walkTree ints wd) := by
  have hint : ∀ rows : List (List Int), Doubles A (rowsTree (fun _ n => .int n) rows : JTree K) := fun rows => by
    refine doubles_ofList.2 fun t ht => ?_
    obtain ⟨i, hi, rfl⟩ := List.mem_mapIdx.1 ht
    refine doubles_ofList.2 fun t ht => ?_
    obtain ⟨n, -, rfl⟩ := List.mem_map.1 ht
    trivial
  refine doubles_pairs.2 fun e he => ?_
  rw [ho] at he
  simp only [List.map_nil, List.append_nil, List.mem_cons, List.not_mem_nil, or_false] at he
  rcases he with rfl | rfl | rfl
  · exact hint _
  · exact hint _
  · refine doubles_ofList.2 fun t ht => ?_
    obtain ⟨i, hi, rfl⟩ := List.mem_mapIdx.1 ht
    refine doubles_ofList.2 fun t ht => ?_
    have hrow := hd _ (List.getElem_mem hi)
    generalize wd.times[i] = row at ht hrow
    cases row with
    | nil => cases ht
    | cons a row =>
      rcases List.mem_cons.1 ht with rfl | ht
      · have := hrow a (by simp)
        cases a with
        | fin x =>
          cases ints i with
          | true => trivial
          | false => exact this
        | _ => trivial
      · obtain ⟨b, hb, rfl⟩ := List.mem_map.1 ht
        exact hrow b (by simp [hb])

theorem forall₂_unique {α β : Type} {Q : α → β → Prop} (hq : ∀ a b b', Q a b → Q a b' → b = b') {l : List α} {r r' : List β}
    (h : List.Forall₂ Q l r) (h' : List.Forall₂ Q l r') : r = r' := by
  induction h generalizing r' with
  | nil => cases h'; rfl
  | cons h _ ih =>
    cases h' with
    | cons h1 h2 => rw [hq _ _ _ h h1, ih h2]

theorem listOf_unique {α : Type} {Q : JTree K → α → Prop} (hq : ∀ a b b', Q a b → Q a b' → b = b') (t : JTree K) (l l' : List α)
    (h : t.IsListOf Q l) (h' : t.IsListOf Q l') : l = l' := by
  obtain ⟨j, rfl, h⟩ := h
  obtain ⟨j', he, h'⟩ := h'
  cases he
  exact forall₂_unique hq h h'

/-! ## Times are floats -/

theorem isDouble_add (a b : Fl K) : IsDouble A (A.add a b) := by
  cases a <;> cases b <;> first | trivial | exact A.idem _

/-- Seed times are floats. -/
def DoubleSeeds (A : Arith K) : PObj K → List Int → List Int → Fl K → Prop := fun _ _ _ t => IsDouble A t

theorem row_doubles {P : PObj K} {ω : Nat → K} {r r' : Row K} (h : ∀ t ∈ r.ts, IsDouble A t) (hs : RowStep A F P ω r r') :
    ∀ t ∈ r'.ts, IsDouble A t := by
  obtain ⟨p, t, q, t', v, -, -, ⟨k, q0, d, m, m', dt, -, -, -, -, -, rfl⟩, -, -, rfl⟩ := hs
  intro t0 ht0
  rcases List.mem_append.1 ht0 with h1 | h1
  · exact h t0 h1
  · rw [List.mem_singleton] at h1
    subst h1
    exact isDouble_add t dt

theorem Reach.doubleTimes {Ob : PObj K → Prop} {Ω : (Nat → K) → Prop} (hOb : ∀ P, Ob P → Built A F P) {P : PObj K} {s : PState K}
    (h : Reach A F Ob Ω (DoubleSeeds A) P s) {wd : WalkData K} (hw : s.walk = some wd) : DoubleTimes A wd := by
  obtain ⟨-, h0 | ⟨rows, hrows, hq⟩⟩ := Reach.rows (Q := fun r => ∀ t ∈ r.ts, IsDouble A t) (fun P hP => (hOb P hP).good)
    (fun P xs ys t x y r _ hs _ _ hr => by
      obtain ⟨-, -, e, -⟩ := hr
      rw [e]
      intro t0 ht0
      rw [List.mem_singleton.1 ht0]
      exact hs)
    (fun P ω r r' _ _ hr hs => row_doubles hr hs) h
  · rw [h0] at hw; cases hw
  · have := hrows.1
    rw [hw] at this
    cases this
    intro ts hts
    obtain ⟨r, hr, rfl⟩ := List.mem_map.1 hts
    exact hq r hr

/-! ## Resuming -/

theorem startVar_nil {P : PObj K} {var : String} {starts : List (Int × Int)} {l : List (List (Val K))} (h : startVar P var starts = .ok l) :
    startVar P var [] = .ok [] := by
  unfold startVar at h ⊢
  cases hr : P.roi with
  | none =>
    cases ha : availVar P var with
    | none => rw [hr, ha] at h; cases h
    | some g => rfl
  | some g =>
    rw [hr] at h
    simp only at h ⊢
    split_ifs with hv
    · rfl
    · rw [if_neg hv] at h
      cases ha : availVar P var with
      | none => rw [ha] at h; cases h
      | some g => rfl

theorem startVars_each {P : PObj K} {starts : List (Int × Int)} {vars : List String} {d d' : List (String × List (List (Val K)))}
    (h : startVars P starts vars d = .ok d') : ∀ v ∈ vars, isBaseVar v = false → ∃ l, startVar P v starts = .ok l := by
  induction vars generalizing d with
  | nil => simp
  | cons a vars ih =>
    intro v hv hb
    unfold startVars at h
    by_cases ha : isBaseVar a = true
    · rw [if_pos ha] at h
      rcases List.mem_cons.1 hv with rfl | hv
      · rw [ha] at hb; cases hb
      · exact ih h v hv hb
    · rw [if_neg ha, bind_ok] at h
      obtain ⟨l, hl, h⟩ := h
      rcases List.mem_cons.1 hv with rfl | hv
      · exact ⟨l, hl⟩
      · exact ih h v hv hb

/-- The tracked variables of the object are known. -/
def KnownVars (P : PObj K) : Prop := ∀ v ∈ P.particleVars, isBaseVar v = false → startVar P v [] = .ok []

theorem generate_known {P : PObj K} {ω : Nat → K} {s s' : PState K} {np xs ys time method : PyVal K} {prev : Option (WalkData K)}
    (h : generateParticles A P ω s np xs ys time method prev = .ok s') : KnownVars P := by
  unfold generateParticles generateCore newWalk at h
  simp only [bind_ok, Prod.exists] at h
  obtain ⟨n, x, y, t, m, -, w0, p, ⟨sx, sy, p', -, nx, -, ny, -, opt, ho, -⟩, -⟩ := h
  intro v hv hb
  obtain ⟨l, hl⟩ := startVars_each ho v hv hb
  exact startVar_nil hl

theorem run_needs {P : PObj K} {ω : Nat → K} {s : PState K} {target : Option (Fl K)} {maxIter : Int} {r : RunResult K}
    (h : runIteration A F P ω s target maxIter = .ok r) : s.walk ≠ none := by
  intro h0
  unfold runIteration at h
  rw [h0] at h
  cases h

theorem Reach.known {Ob : PObj K → Prop} {Ω : (Nat → K) → Prop} {Sd : PObj K → List Int → List Int → Fl K → Prop} {P : PObj K} {s : PState K}
    (h : Reach A F Ob Ω Sd P s) : s.walk ≠ none → KnownVars P := by
  induction h with
  | new pos hP => intro h; exact absurd rfl h
  | generate h hω hc hn hs hg ih => exact fun _ => generate_known hg
  | «continue» h h0 hprev hvars hω hc hn hs hg ih ih0 => exact fun _ => generate_known hg
  | run h hω hr ih => exact fun _ => ih (run_needs hr)
  | failed h hω hr ih => exact fun hs => ih (runStmt_needs hr hs)
  | clear h ih => intro h; exact absurd rfl h
  | reseed pos h ih => exact ih

/-- Seeding no particles but handing over walk data. -/
theorem generate_none {P : PObj K} (hk : KnownVars P) (ω : Nat → K) (pos : Nat) {rows : List (Row K)} (wd : WalkData K)
    (hw : wd = ofRows (keysOf P) rows) :
    generateParticles A P ω (initState A F P pos) (.int 0) (.list []) (.list []) (.int 0) (.str "random") (some wd) =
      .ok { initState A F P pos with np := rows.length, walk := some wd } := by
  have hc := check_zero (K := K) 0 [] []
  have hc' : genInputCheck (K := K) (.int 0) (.list []) (.list []) (.int 0) (.str "random") = .ok (0, [], [], .fin 0, .random) := hc
  obtain ⟨d, hd⟩ := startVars_ok (P := P) (starts := []) (vars := P.particleVars) (fun v hv hb => ⟨_, hk v hv hb⟩) []
  have he : ∃ s', generateParticles A P ω (initState A F P pos) (.int 0) (.list []) (.list []) (.int 0) (.str "random") (some wd) = .ok s' ∧
      s'.world = (initState A F P pos).world := by
    unfold generateParticles
    rw [hc']
    simp only [ok_bind]
    unfold generateCore newWalk startIndices
    simp [mapE, randomSeeds, mapAcc, hd, initState]
  obtain ⟨s', hs, hworld⟩ := he
  obtain ⟨new, hrows, -, hlen, -⟩ := generate_rows A (old := []) (prev := rows) hc' le_rfl (Or.inl ⟨rfl, rfl⟩) (Or.inr (by rw [hw])) hs
  have hnew : new = [] := List.length_eq_zero_iff.1 hlen
  rw [hnew] at hrows
  simp only [List.append_nil] at hrows
  rw [hs]
  obtain ⟨w, n, k⟩ := s'
  obtain ⟨h1, h2⟩ := hrows
  simp only at h1 h2 hworld
  subst h1 h2 hworld hw
  rfl

/-! ## What is saved -/

theorem plotLoop_opt {Ob : PObj K → Prop} {Ω : (Nat → K) → Prop} {Sd : PObj K → List Int → List Int → Fl K → Prop} (hOb : ∀ P, Ob P → Built A F P)
    {P : PObj K} {s : PState K} (h : Reach A F Ob Ω Sd P s) {ω : Nat → K} (hω : Ω ω) {times : Bool} {n : Nat} {st : PlotLoop K}
    (hst : foldE (plotStep A F P ω true times) ⟨s, none, [], []⟩ (List.range n) = .ok st) {w : WalkData K} (hw : st.walk = some w) : w.opt = [] := by
  obtain ⟨hR', -, hz, hsame, -, -, -⟩ := plotLoop_figs hOb h hω n hst
  have hobj := hsame w hw
  cases n with
  | zero => rw [hz.2 rfl] at hw; cases hw
  | succ n =>
    rw [List.range_succ, foldE_append, bind_ok] at hst
    obtain ⟨st1, h1, h2⟩ := hst
    simp only [foldE, bind_ok] at h2
    obtain ⟨st2, h2, h3⟩ := h2
    cases h3
    unfold plotStep at h2
    simp only [bind_ok, if_true] at h2
    obtain ⟨r, hr, g, hg, p, hp, m, hm, h2⟩ := h2
    by_cases hc : times = true ∧ p.2.2 = []
    · rw [if_pos hc] at h2; cases h2
    · rw [if_neg hc] at h2
      cases h2
      cases hw
      obtain ⟨-, g', hg', hs⟩ := C54_reachable (hR'.mono hOb) hobj (-1)
      rw [hg] at hg'
      cases hg'
      exact (unpack3_iff hs.fields).1 ⟨p, hp⟩

theorem plotRuns_saved {Ob : PObj K → Prop} {Ω : (Nat → K) → Prop} (hOb : ∀ P, Ob P → Built A F P) (hR : Faithful A R)
    {P : PObj K} {s : PState K} (h : Reach A F Ob Ω (DoubleSeeds A) P s) {ω : Nat → K} (hω : Ω ω) {times : Bool} {numIter : Int} {w : WalkData K}
    {s' : PState K} {figs : List (IterFig K)} (hr : plotRuns A F P ω true times s numIter = .ok (w, s', figs)) {ints : Nat → Bool} (hi : IntSeeds ints w) :
    Reach A F Ob Ω (DoubleSeeds A) P s' ∧ s'.walk = some w ∧ ∃ t, loadText R (dumpText R (walkTree ints w)) = .ok t ∧ HoldsWalk t w := by
  unfold plotRuns at hr
  rw [bind_ok] at hr
  obtain ⟨st, hst, hr⟩ := hr
  obtain ⟨hR', -, -, hsame, -⟩ := plotLoop_figs hOb h hω _ hst
  cases hw : st.walk with
  | none => rw [hw] at hr; cases hr
  | some w' =>
    rw [hw] at hr
    cases hr
    have ho := plotLoop_opt hOb h hω hst hw
    exact ⟨hR', hsame _ hw, _, load_dump hR (walkTree_doubles ho (hR'.doubleTimes hOb (hsame _ hw))), walkTree_holds ho hi⟩

/-! ## C85 -/

/-- Walk data found in a loaded object are unique: what is loaded says which particles there are, where they were and when. -/
theorem C85_loaded_unique {t : JTree K} {w w' : WalkData K} (h : HoldsWalk t w) (h' : HoldsWalk t w') : w = w' := by
  obtain ⟨ho, d, tx, ty, tt, rfl, hd, hx, hy, ht⟩ := h
  obtain ⟨ho', d', tx', ty', tt', he, hd', hx', hy', ht'⟩ := h'
  cases he
  rw [hd] at hd'
  simp only [List.cons.injEq, Prod.mk.injEq, true_and, and_true] at hd'
  obtain ⟨rfl, rfl, rfl⟩ := hd'
  have hint : ∀ (t : JTree K) (a b : Int), t.IsInt a → t.IsInt b → a = b := fun t a b h1 h2 => by
    unfold JTree.IsInt at h1 h2
    rw [h1] at h2
    cases h2
    rfl
  have hnum : ∀ (t : JTree K) (a b : Fl K), t.IsNum a → t.IsNum b → a = b := fun t a b h1 h2 => by
    rcases h1 with rfl | ⟨n, rfl, rfl⟩ <;> rcases h2 with h2 | ⟨m, h2, rfl⟩ <;> cases h2 <;> rfl
  obtain ⟨x, y, ts, o⟩ := w
  obtain ⟨x', y', ts', o'⟩ := w'
  have e1 : x = x' := listOf_unique (listOf_unique hint) _ _ _ hx hx'
  have e2 : y = y' := listOf_unique (listOf_unique hint) _ _ _ hy hy'
  have e3 : ts = ts' := listOf_unique (listOf_unique hnum) _ _ _ ht ht'
  simp only at ho ho'
  subst e1 e2 e3 ho ho'
  rfl

/-- `steady_plots` with `save_output`: the file `data.txt` can be loaded and holds exactly the walk data returned. Any rounding, any draws, any history
before; seed times of type float or int. -/
theorem C85_steady {Ob : PObj K → Prop} {Ω : (Nat → K) → Prop} (hOb : ∀ P, Ob P → Built A F P) (hR : Faithful A R)
    {P : PObj K} {s : PState K} (h : Reach A F Ob Ω (DoubleSeeds A) P s) {ω : Nat → K} (hω : Ω ω) {numIter : Int} {ints : Nat → Bool} {w : WalkData K}
    {s' : PState K} {file : Option (List Char)} (hr : steadyPlotsFile A F R P ω s numIter true ints = .ok (w, s', file)) (hi : IntSeeds ints w) :
    ∃ txt t, file = some txt ∧ loadText R txt = .ok t ∧ HoldsWalk t w := by
  unfold steadyPlotsFile steadyPlots at hr
  simp only [bind_ok, if_true, Prod.exists] at hr
  obtain ⟨w1, s1, figs, h1, h2⟩ := hr
  cases h2
  obtain ⟨-, -, t, ht, hh⟩ := plotRuns_saved hOb hR h hω h1 hi
  exact ⟨_, t, rfl, ht, hh⟩

/-- `time_plots`: likewise. -/
theorem C85_time {Ob : PObj K → Prop} {Ω : (Nat → K) → Prop} (hOb : ∀ P, Ob P → Built A F P) (hR : Faithful A R)
    {P : PObj K} {s : PState K} (h : Reach A F Ob Ω (DoubleSeeds A) P s) {ω : Nat → K} (hω : Ω ω) {numIter : Int} {ints : Nat → Bool} {w : WalkData K}
    {s' : PState K} {txt : List Char} (hr : timePlotsFile A F R P ω s numIter ints = .ok (w, s', txt)) (hi : IntSeeds ints w) :
    ∃ t, loadText R txt = .ok t ∧ HoldsWalk t w := by
  unfold timePlotsFile timePlots at hr
  simp only [bind_ok, Prod.exists] at hr
  obtain ⟨w1, s1, figs, h1, h2⟩ := hr
  cases h2
  exact (plotRuns_saved hOb hR h hω h1 hi).2.2

/-- `unsteady_plots`: likewise. -/
theorem C85_unsteady {ω : Nat → K} {dx t : K} {dir : List (String × FileData K)} {ot : String} (hclean : CleanFields dir ot) (hR : Faithful A R) {N : Nat}
    {xs ys : List Int} {numSteps : Int} {pos : Nat} {w : WalkData K} {txt : List Char}
    (h : unsteadyPlotsFile A F R ω pos dx (.int N) (.list (xs.map .int)) (.list (ys.map .int)) numSteps t dir ot = .ok (w, txt)) :
    ∃ t, loadText R txt = .ok t ∧ HoldsWalk t w := by
  unfold unsteadyPlotsFile at h
  simp only [bind_ok, Prod.exists] at h
  obtain ⟨w1, p1, figs, h1, h2⟩ := h
  cases h2
  unfold unsteadyPlots at h1
  simp only [bind_ok] at h1
  obtain ⟨len, hlen, st, hst, h1⟩ := h1
  obtain ⟨ws, hl, hrun, hheld, hlast, -⟩ := flowRun (Ob := Built A F) (Ω := fun _ => True) (Sd := fun _ _ _ t => t = .fin 0) trivial
    (fun i f P hf hP => ⟨_, stepParams_valid (hclean i f hf), hP⟩) (fun P hP => hP) (fun _ _ => rfl) (fun _ _ => rfl) pos _ hst
  rw [hlast] at h1
  cases hw : ws.getLast? with
  | none => rw [hw] at h1; cases h1
  | some w' =>
    rw [hw] at h1
    cases h1
    obtain ⟨P, s, hr, hv, hsw⟩ := hheld w (List.mem_of_getLast? hw)
    obtain ⟨-, h0 | ⟨rows, hrows, hq⟩⟩ := Reach.rows (Q := fun r => (∀ t ∈ r.ts, IsDouble A t) ∧ ∃ tl, r.ts = .fin 0 :: tl) (fun P hP => hP.good)
      (fun P xs ys t x y r _ hs _ _ hr => by
        obtain ⟨-, -, e, -⟩ := hr
        subst hs
        rw [e]
        refine ⟨fun t0 ht0 => ?_, [], rfl⟩
        rw [List.mem_singleton.1 ht0]
        exact A.zero)
      (fun P ω r r' _ _ hr hs => ⟨row_doubles hr.1 hs, by
        obtain ⟨tl, ht⟩ := hr.2
        obtain ⟨q, hq⟩ := hs.prefix.ts
        exact ⟨tl ++ q, by rw [← hq, ht]; rfl⟩⟩) hr
    · rw [h0] at hsw; cases hsw
    · have := hrows.1
      rw [hsw, step_keys hv] at this
      cases this
      refine ⟨_, load_dump hR (walkTree_doubles rfl fun ts hts => ?_), walkTree_holds rfl fun i t ts hti _ => ?_⟩
      · obtain ⟨r, hr, rfl⟩ := List.mem_map.1 hts
        exact (hq r hr).1
      · simp only [ofRows, List.getElem?_map, Option.map_eq_some_iff] at hti
        obtain ⟨r, hr, hrt⟩ := hti
        obtain ⟨tl, htl⟩ := (hq r (List.mem_of_getElem? hr)).2
        rw [htl] at hrt
        cases hrt
        exact ⟨0, by simp⟩

/-- The exposure times saved by `plot_exposure_time`, as computed by `exposure_time`, are loaded exactly. -/
theorem C85_exposure (hR : Faithful A R) {wd : WalkData K} {region : Grid Int} {r : ExposureResult K} (h : exposureTime A wd region = .ok r) :
    ∃ t, loadText R (exposureText R r.times) = .ok t ∧ t.IsListOf (fun t x => t = .flt x) r.times := by
  refine ⟨_, load_dump hR (doubles_ofList.2 fun t ht => ?_), _, rfl, ?_⟩
  · obtain ⟨x, hx, rfl⟩ := List.mem_map.1 ht
    show IsDouble A x
    unfold exposureTime at h
    rw [bind_ok] at h
    obtain ⟨res, hres, h⟩ := h
    cases h
    obtain ⟨e, he, rfl⟩ := List.mem_map.1 hx
    obtain ⟨i, hi⟩ := List.mem_iff_getElem?.1 he
    obtain ⟨ii, -, hone⟩ := mapE_get' hres hi
    unfold exposureOne at hone
    simp only [bind_ok] at hone
    obtain ⟨xs, -, ys, -, pv, -, ts, -, st, hst, hone⟩ := hone
    cases hone
    have hinv : ∀ (l : List Nat) (s0 s1 : ExpoState K), IsDouble A s0.acc → foldE (exposureStep A region xs ys ts) s0 l = .ok s1 → IsDouble A s1.acc := by
      intro l
      induction l with
      | nil => intro s0 s1 h0 h; cases h; exact h0
      | cons j l ih =>
        intro s0 s1 h0 h
        simp only [foldE, bind_ok] at h
        obtain ⟨s2, h2, h⟩ := h
        refine ih s2 s1 ?_ h
        unfold exposureStep at h2
        simp only [bind_ok] at h2
        obtain ⟨c, -, t1, -, t0, -, h2⟩ := h2
        cases h2
        show IsDouble A (if _ then _ else _)
        split_ifs
        · exact isDouble_add _ _
        · exact isDouble_add _ _
        · exact h0
    exact hinv _ ⟨.fin 0, pv, false⟩ _ A.zero hst
  · rw [items_ofList, List.forall₂_map_left_iff]
    exact List.forall₂_same.2 fun a _ => rfl

/-- Resuming: a fresh object of the same parameters to which the walk data are handed (no new particles) shows, over any sequence of calls, what the object
that produced the data would have shown. Any rounding, tracked variables and history; both objects at the same position of the random stream. -/
theorem C85_resume {P0 : PObj K} (hB : Built A F P0) {Ω : (Nat → K) → Prop} {Sd : PObj K → List Int → List Int → Fl K → Prop}
    {P : PObj K} {s : PState K} (h : Reach A F (· = P0) Ω Sd P s) {wd : WalkData K} (hw : s.walk = some wd) (ω : Nat → K) (cs : List (ApiCall K)) :
    transcript A F P ω (.generate (.int 0) (.list []) (.list []) (.int 0) (.str "random") (some wd) :: cs) (initState A F P s.world.pos) =
      (.ok (none, []), some wd, s.world.pos) :: transcript A F P ω cs s := by
  rw [C12_future hB h ω cs]
  obtain ⟨-, h0 | ⟨rows, hrows⟩⟩ := h.state (fun P hP => by subst hP; exact hB.good)
  · rw [h0] at hw; cases hw
  have hg := generate_none (F := F) (A := A) (h.known (by rw [hw]; simp)) ω s.world.pos wd (rows := rows) (by
    have := hrows.1
    rw [hw] at this
    exact Option.some.inj this)
  have ha : ApiCall.act A F P ω (.generate (.int 0) (.list []) (.list []) (.int 0) (.str "random") (some wd)) (initState A F P s.world.pos) =
      (.ok (none, []), _) := PyM.ok_run ((generateStmt_refines (A := A) P ω (initState A F P s.world.pos) _ _ _ _ _ _).1 _ hg)
  simp only [transcript, ha]
  rw [hw, hrows.2]
  rfl

/-- Saving with `steady_plots`, loading the file and handing it to a fresh object continues the simulation. -/
theorem C85_save_resume {P0 : PObj K} (hB : Built A F P0) (hR : Faithful A R) {Ω : (Nat → K) → Prop}
    {P : PObj K} {s : PState K} (h : Reach A F (· = P0) Ω (DoubleSeeds A) P s) {ω : Nat → K} (hω : Ω ω) {numIter : Int} {ints : Nat → Bool}
    {w : WalkData K} {s' : PState K} {txt : List Char} (hr : steadyPlotsFile A F R P ω s numIter true ints = .ok (w, s', some txt))
    (hi : IntSeeds ints w) :
    ∃ t, loadText R txt = .ok t ∧ ∃ wd, HoldsWalk t wd ∧ ∀ (ω' : Nat → K) (cs : List (ApiCall K)),
      transcript A F P ω' (.generate (.int 0) (.list []) (.list []) (.int 0) (.str "random") (some wd) :: cs) (initState A F P s'.world.pos) =
        (.ok (none, []), some wd, s'.world.pos) :: transcript A F P ω' cs s' := by
  unfold steadyPlotsFile steadyPlots at hr
  simp only [bind_ok, if_true, Prod.exists] at hr
  obtain ⟨w1, s1, figs, h1, h2⟩ := hr
  cases h2
  obtain ⟨hre, hsw, t, ht, hh⟩ := plotRuns_saved (fun P hP => by subst hP; exact hB) hR h hω h1 hi
  exact ⟨t, ht, w, hh, fun ω' cs => C85_resume hB hre hsw ω' cs⟩

/-! ## Concrete cases -/

/-- Text of rational numbers: numerator and denominator around the point. -/
def ratText : FloatText ℚ where
  text q := (if q.num < 0 then ['-'] else []) ++ Nat.toDigits 10 q.num.natAbs ++ '.' :: Nat.toDigits 10 q.den
  value s :=
    let neg := s.head? = some '-'
    let body := if neg then s.tail else s
    let a := Nat.ofDigitChars 10 (takeDigits body).1 0
    let b := Nat.ofDigitChars 10 (takeDigits body).2.tail 0
    (if neg then -(a : ℚ) else a) / b

theorem ratText_faithful (A : Arith ℚ) : Faithful A ratText := by
  intro q _
  have hp := plainInt_digits q.num.natAbs
  have hd := plainInt_digits q.den
  refine ⟨⟨if q.num < 0 then ['-'] else [], _, _, [], by simp [ratText], ?_, hp, .inr ⟨_, rfl, hd.1⟩, .inl rfl, .inl (by simp)⟩, ?_⟩
  · split_ifs
    · exact .inr rfl
    · exact .inl rfl
  · have ht := takeDigits_append (s := '.' :: Nat.toDigits 10 q.den) hp.1.2 (fun c r h => by cases h; decide)
    have hh := plainInt_head (s := '.' :: Nat.toDigits 10 q.den) hp
    by_cases hn : q.num < 0
    · have e : (q.num.natAbs : ℚ) = -(q.num : ℚ) := by
        have : (q.num.natAbs : Int) = -q.num := by omega
        rw [← Int.cast_natCast, this]
        simp
      simp only [ratText, hn, if_true, List.cons_append, List.nil_append, List.head?_cons, List.tail_cons, ht, Nat.ofDigitChars_ten_toDigits, e, neg_neg]
      exact Rat.num_div_den q
    · have e : (q.num.natAbs : ℚ) = (q.num : ℚ) := by
        have : (q.num.natAbs : Int) = q.num := by omega
        rw [← Int.cast_natCast, this]
      simp only [ratText, hn, if_false, List.nil_append, hh, ht, List.tail_cons, Nat.ofDigitChars_ten_toDigits, e]
      exact Rat.num_div_den q

set_option synthInstance.maxSize 1024 in
/-- Two particles seeded at the int 0, one iteration with tracked time: the text of the file. -/
example : ((demo chan (fun _ => 1 / 2) 2 [2, 1] [2, 1] []).toOption.bind fun s =>
    (steadyPlotsFile Arith.exact Fun.toy ratText (objOf chan) (fun _ => 1 / 2) s 1 true (fun _ => true)).toOption.map fun r => r.2.2) =
    some (some
      "{\"xinds\": [[2, 3], [1]], \"yinds\": [[2, 2], [1]], \"travel_times\": [[0, 5670000012600000007.360000000000000000], [0]]}".toList) := by
  decide +kernel

/-- The float reader at work: an int, a float, both signs, the three special values, an empty list. -/
example : (loadText ratText "[12, -3.4, NaN, Infinity, -Infinity, null, [], {\"a b\": -7}]".toList).toOption.isSome = true ∧
    (loadText ratText "[1, 2".toList).toOption.isSome = false ∧ (loadText ratText "[01]".toList).toOption.isSome = false := by
  decide +kernel

set_option synthInstance.maxSize 1024 in
/-- C85_steady, C85_save_resume: one iteration of two particles, of which one moves. -/
example : ∃ s w s' txt, Reach Arith.exact Fun.toy (· = objOf chan) (NonzeroDraws Arith.exact) (DoubleSeeds Arith.exact) (objOf chan) s ∧
    steadyPlotsFile Arith.exact Fun.toy ratText (objOf chan) (fun _ => 1 / 2) s 1 true (fun _ => true) = .ok (w, s', some txt) ∧
    IntSeeds (fun _ => true) w ∧ w.xinds = [[2, 3], [1]] := by
  have hdec : ((demo chan (fun _ => 1 / 2) 2 [2, 1] [2, 1] []).toOption.bind fun s =>
      (steadyPlotsFile Arith.exact Fun.toy ratText (objOf chan) (fun _ => 1 / 2) s 1 true (fun _ => true)).toOption.map fun r =>
        (r.1.xinds, r.1.times.map List.head?, r.2.2.isSome)) = some ([[2, 3], [1]], [some (.fin 0), some (.fin 0)], true) := by decide +kernel
  cases hx : demo chan (fun _ => 1 / 2) 2 [2, 1] [2, 1] [] with
  | error e => rw [hx] at hdec; cases hdec
  | ok s =>
    rw [hx] at hdec
    simp only [Except.toOption, Option.bind_some] at hdec
    cases hr : steadyPlotsFile Arith.exact Fun.toy ratText (objOf chan) (fun _ => 1 / 2) s 1 true (fun _ => true) with
    | error e => rw [hr] at hdec; cases hdec
    | ok r =>
      obtain ⟨w, s', file⟩ := r
      rw [hr] at hdec
      simp only [Option.map_some, Option.some.injEq, Prod.mk.injEq] at hdec
      obtain ⟨h1, h2, h3⟩ := hdec
      obtain ⟨txt, rfl⟩ := Option.isSome_iff_exists.1 h3
      refine ⟨s, w, s', txt, demo_reach half_draws rfl hx, hr, fun i t ts hi _ => ⟨0, ?_⟩, h1⟩
      have : (w.times.map List.head?)[i]? = some (some t) := by rw [List.getElem?_map, hi]; rfl
      rw [h2] at this
      rcases i with _ | _ | i <;> simp at this <;> simp [← this]

set_option synthInstance.maxSize 1024 in
/-- C85_time: the same run with `time_plots`, seed times given as floats. -/
example : ((demo chan (fun _ => 1 / 2) 2 [2, 1] [2, 1] []).toOption.bind fun s =>
    (timePlotsFile Arith.exact Fun.toy ratText (objOf chan) (fun _ => 1 / 2) s 1 (fun _ => false)).toOption.map fun r => r.2.2) =
    some "{\"xinds\": [[2, 3], [1]], \"yinds\": [[2, 2], [1]], \"travel_times\": [[0.1, 5670000012600000007.360000000000000000], [0.1]]}".toList := by
  decide +kernel

/-- C85_unsteady: two particles through two flow fields. -/
example : CleanFields flowDir "csv" ∧ ((unsteadyPlotsFile Arith.exact Fun.toy ratText (fun _ => (1 / 2 : ℚ)) 0 10 (.int 2) (.list [.int 4, .int 2])
      (.list [.int 2, .int 3]) 2 10 flowDir "csv").toOption.map fun r => r.2) =
    some ("{\"xinds\": [[4, 3, 3], [4, 3, 3]], \"yinds\": [[2, 2, 3], [2, 2, 3]], \"travel_times\": [[0, 70000001400000007.10000000000000000, " ++
      "280000002240000007.8000000000000000], [0, 70000001400000007.10000000000000000, 280000002240000007.8000000000000000]]}").toList :=
  ⟨flowDir_clean, by decide +kernel⟩

/-- C85_exposure: two particles, the second of which leaves the region. -/
example : (exposureTime Arith.exact (⟨[[2, 3], [3, 2, 1]], [[2, 2], [2, 2, 2]], [[.fin 0, .fin 4], [.fin 0, .fin 1, .fin 3]], []⟩ : WalkData ℚ) ⟨5, 5, fun i _ => if i = 3 then 1 else 0⟩).toOption.map (fun r => exposureText ratText r.times) =
    some "[2.1, 1.2]".toList := by
  decide +kernel

set_option synthInstance.maxSize 1024 in
/-- C85_resume with tracked variables: three calls after the walk data were handed over, and the same calls on the object that produced them. -/
example : (demo chanVars (fun _ => 1 / 2) 2 [2, 1] [2, 1] []).toOption.map (fun s =>
      (s.walk.map fun w => w.opt.map (·.1), seenSizes (transcript Arith.exact Fun.toy (objOf chanVars) (fun _ => 1 / 2)
        [.generate (.int 0) (.list []) (.list []) (.int 0) (.str "random") s.walk, .run none 10, .run (some (.fin 5)) 10]
        (initState Arith.exact Fun.toy (objOf chanVars) s.world.pos)))) = some (some ["depth", "u", "roi_flag"], [some [1, 1], some [2, 1], some [2, 1]]) := by
  decide +kernel

end Dorado
