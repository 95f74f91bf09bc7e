import Verif.Props.Figures
import Verif.Props.Safety
import Verif.Props.TimeReal
import Verif.Props.Pick
import Verif.Lemmas.Law
import Verif.Lemmas.Measure
import Verif.Spec.Law

/-! # C75: the walks are independent Markov chains -/

set_option linter.unusedSectionVars false

namespace Dorado

open MeasureTheory Finset

section

variable {K : Type} [Field K] [LinearOrder K] [IsStrictOrderedRing K] {A : Arith K} {F : Fun K A}

/-- Where the neighbour selected by the draw leads. -/
theorem lands_iff {P : PObj K} (G : Good P) (hw : DefaultWalk P) (hz : StepsNonzero A P) {a b : Nat} (h : Interior P a b) {u : K} {k : Nat}
    (hk : k < 9) (hpick : pickFrom A (maskOf P (makeWeight A F P a b)) u = .ok k) {q : Int × Int} :
    Lands A F P ((a : Int), (b : Int)) u q ↔ (NearEdge P a b ∧ q = ((a : Int), (b : Int))) ∨
      (¬ NearEdge P a b ∧ q = (((Flow.nr a k : Nat) : Int), ((Flow.nc b k : Nat) : Int))) := by
  have ha : 1 ≤ a := h.1
  have hb : 1 ≤ b := h.2.2.1
  have hi : pyIdx P.stage.rows (a : Int) = .ok a := by
    rw [pyIdx_nonneg (by omega) (by have := G.stage_rows; have := h.2.1; omega)]; simp
  have hj : pyIdx P.stage.cols (b : Int) = .ok b := by
    rw [pyIdx_nonneg (by omega) (by have := G.stage_cols; have := h.2.2.2; omega)]; simp
  have hq0 : newInd1 P ((a : Int), (b : Int)) k = .ok (((Flow.nr a k : Nat) : Int), ((Flow.nc b k : Nat) : Int)) := by
    rw [← default_dest hw hk ha hb]
    unfold newInd1 calculateNewInd flat9
    by_cases h4 : k = 4
    · subst h4
      rw [hw.1, hw.2]
      simp [defaultIwalk, defaultJwalk]
    · rw [if_pos h4, if_pos hk, if_pos hk]
      rfl
  have hd : stepUpdate A k P.distances P.dx = .ok (A.mul (P.distances k) (.fin P.dx)) := by
    unfold stepUpdate flat9
    rw [if_pos hk]
    rfl
  have hzd : zeroDist (((Flow.nr a k : Nat) : Int), ((Flow.nc b k : Nat) : Int)) (A.mul (P.distances k) (.fin P.dx)) =
      (((Flow.nr a k : Nat) : Int), ((Flow.nc b k : Nat) : Int)) := by
    unfold zeroDist
    rw [if_neg]
    have := hz k hk
    intro hh
    cases hm : A.mul (P.distances k) (.fin P.dx) <;> rw [hm] at hh this <;> simp [Fl.eq] at hh
    exact this (by rw [hh])
  have hL : Lands A F P ((a : Int), (b : Int)) u (checkForBoundary1 (((Flow.nr a k : Nat) : Int), ((Flow.nc b k : Nat) : Int)) ((a : Int), (b : Int)) P.cellType) :=
    ⟨a, b, k, _, _, hi, hj, hpick, hq0, hd, by rw [hzd]⟩
  have hc : checkForBoundary1 (((Flow.nr a k : Nat) : Int), ((Flow.nc b k : Nat) : Int)) ((a : Int), (b : Int)) P.cellType = q ↔
      (NearEdge P a b ∧ q = ((a : Int), (b : Int))) ∨ (¬ NearEdge P a b ∧ q = (((Flow.nr a k : Nat) : Int), ((Flow.nc b k : Nat) : Int))) := by
    unfold checkForBoundary1
    by_cases he : NearEdge P a b
    · rw [if_pos ((nearEdge_iff ha hb).2 he)]
      simp [he, eq_comm]
    · rw [if_neg (fun hh => he ((nearEdge_iff ha hb).1 hh))]
      simp [he, eq_comm]
  rw [← hc]
  exact ⟨fun h' => hL.unique h', fun h' => h' ▸ hL⟩

end

/-- The weights of an interior cell in terms of the closed formula. -/
theorem weights_exact {F : Fun ℝ Arith.exact} {P : PObj ℝ} (G : Good P) (hst : P.steepest = false) {a b : Nat} (hin : Interior P a b) :
    (∀ k, k < 9 → maskOf P (makeWeight Arith.exact F P a b) k = .fin ((flowOf F P).weight a b k)) ∧
    (∀ k, k < 9 → 0 ≤ (flowOf F P).weight a b k) ∧ 0 < ∑ m ∈ range 9, (flowOf F P).weight a b m := by
  have hR := represents_flowOf (F := F) G
  have hrep := fun (k : Nat) (hk : k < 9) => makeWeight_repr G hR hin hk
  have hnn : ∀ k, k < 9 → 0 ≤ (flowOf F P).weight a b k := by
    intro k hk
    obtain ⟨x, hx, h0, -⟩ := (makeWeight_NN Arith.exact F G hin hk).nanTo0
    rw [hrep k hk] at hx
    injection hx with hx
    rw [hx]; exact h0
  refine ⟨fun k hk => ?_, hnn, ?_⟩
  · unfold maskOf
    rw [hst]
    exact hrep k hk
  · obtain ⟨k, hk, x, hx, h0⟩ := makeWeight_some_pos Arith.exact F G hin
    have := hrep k hk
    rw [hx] at this
    simp only [Fl.nanTo0, Fl.isNan, Bool.false_eq_true, if_false, Fl.fin.injEq] at this
    exact sum_pos' (fun m hm => hnn m (mem_range.1 hm)) ⟨k, mem_range.2 hk, by rw [← this]; exact h0⟩

/-- With random routing every neighbour takes part with its weight. -/
theorem chooseProb_random (f : Flow ℝ) (a b k : Nat) :
    f.chooseProb false a b k = ENNReal.ofReal (f.weight a b k / ∑ m ∈ range 9, f.weight a b m) := by
  unfold Flow.chooseProb Flow.candidate
  simp

/-- The array from which the neighbour is picked. -/
theorem candidates_exact {F : Fun ℝ Arith.exact} {P : PObj ℝ} (G : Good P) {a b : Nat} (hin : Interior P a b) :
    (∀ k, k < 9 → maskOf P (makeWeight Arith.exact F P a b) k = .fin ((flowOf F P).candidate P.steepest a b k)) ∧
    (∀ k, k < 9 → 0 ≤ (flowOf F P).candidate P.steepest a b k) ∧
    (P.steepest = false → 0 < ∑ m ∈ range 9, (flowOf F P).candidate P.steepest a b m) := by
  by_cases hst : P.steepest = false
  · obtain ⟨h1, h2, h3⟩ := weights_exact (F := F) G hst hin
    rw [hst]
    have e : ∀ k, (flowOf F P).candidate false a b k = (flowOf F P).weight a b k := fun k => by unfold Flow.candidate; simp
    simp only [e]
    exact ⟨h1, h2, fun _ => h3⟩
  have hst' : P.steepest = true := by simpa using hst
  have hR := represents_flowOf (F := F) G
  have hrep := fun (k : Nat) (hk : k < 9) => makeWeight_repr G hR hin hk
  have hNN := fun (k : Nat) (hk : k < 9) => makeWeight_NN Arith.exact F G hin hk
  have hnn : ∀ k, k < 9 → 0 ≤ (flowOf F P).weight a b k := by
    intro k hk
    obtain ⟨x, hx, h0, -⟩ := (hNN k hk).nanTo0
    rw [hrep k hk] at hx
    injection hx with hx
    rw [hx]; exact h0
  have hval : ∀ k x, k < 9 → makeWeight Arith.exact F P a b k = .fin x → (flowOf F P).weight a b k = x := by
    intro k x hk hx
    have := hrep k hk
    rw [hx] at this
    simpa [Fl.nanTo0, Fl.isNan, eq_comm] using this
  obtain ⟨kp, hkp, xp, hxp, hxp0⟩ := makeWeight_some_pos Arith.exact F G hin
  obtain ⟨m, hm, -, hmax, km, hkm, hkmm⟩ : ∃ m, nanmax9 (makeWeight Arith.exact F P a b) = .fin m ∧ 0 ≤ m ∧
      (∀ k x, k < 9 → makeWeight Arith.exact F P a b k = .fin x → x ≤ m) ∧ ∃ k, k < 9 ∧ makeWeight Arith.exact F P a b k = .fin m := by
    rcases nanmax9_spec Arith.exact hNN with ⟨-, h⟩ | h
    · rw [h kp hkp] at hxp; cases hxp
    · exact h
  have hm0 : 0 < m := hxp0.trans_le (hmax kp xp hkp hxp)
  have hle : ∀ k, k < 9 → (flowOf F P).weight a b k ≤ m := by
    intro k hk
    rcases hNN k hk with h | ⟨x, hx, -⟩
    · have := hrep k hk
      rw [h] at this
      have : (flowOf F P).weight a b k = 0 := by simpa [Fl.nanTo0, Fl.isNan, eq_comm] using this
      rw [this]; exact hm0.le
    · rw [hval k x hk hx]; exact hmax k x hk hx
  have hiff : ∀ k, k < 9 → (makeWeight Arith.exact F P a b k = .fin m ↔ ¬ ∃ m, m < 9 ∧ (flowOf F P).weight a b k < (flowOf F P).weight a b m) := by
    intro k hk
    constructor
    · rintro h ⟨l, hl, hlt⟩
      rw [hval k m hk h] at hlt
      exact absurd (hle l hl) (not_le.2 hlt)
    · intro h
      have h1 : m ≤ (flowOf F P).weight a b k := by
        by_contra hc
        refine h ⟨km, hkm, ?_⟩
        rw [hval km m hkm hkmm]
        exact not_le.1 hc
      rcases hNN k hk with h2 | ⟨x, hx, -⟩
      · have := hrep k hk
        rw [h2] at this
        have : (flowOf F P).weight a b k = 0 := by simpa [Fl.nanTo0, Fl.isNan, eq_comm] using this
        rw [this] at h1
        exact absurd hm0 (not_lt.2 h1)
      · rw [hval k x hk hx] at h1
        rw [hx, le_antisymm (hmax k x hk hx) h1]
  refine ⟨fun k hk => ?_, fun k hk => ?_, fun h => absurd h hst⟩
  · unfold maskOf Flow.candidate
    rw [if_pos hst', hst', steepMask_eq Arith.exact hNN hm hmax hk]
    by_cases h4 : k = 4
    · rw [if_neg (by simp [h4]), if_pos ⟨rfl, .inl h4⟩]
    · by_cases h5 : makeWeight Arith.exact F P a b k = .fin m
      · rw [if_pos ⟨h4, h5⟩, if_neg, hval k m hk h5]
        rintro ⟨-, h | h⟩
        · exact h4 h
        · exact (hiff k hk).1 h5 h
      · rw [if_neg (fun h => h5 h.2), if_pos]
        refine ⟨rfl, .inr ?_⟩
        by_contra hc
        exact h5 ((hiff k hk).2 hc)
  · unfold Flow.candidate
    split_ifs
    · exact le_rfl
    · exact hnn k hk

theorem pick_measurable {p : Nat → Fl ℝ} {x : Nat → ℝ} (hp : ∀ k, k < 9 → p k = .fin (x k)) (hx : ∀ k, k < 9 → 0 ≤ x k) (k : Nat) :
    MeasurableSet {r : ℝ | 0 ≤ r ∧ r < 1 ∧ pickFrom Arith.exact p r = .ok k} := by
  have : {r : ℝ | 0 ≤ r ∧ r < 1 ∧ pickFrom Arith.exact p r = .ok k} = {r : ℝ | 0 ≤ r ∧ r < 1 ∧ k < 9 ∧
      (∑ m ∈ range 9, x m) * r ≤ ∑ m ∈ range (k + 1), x m ∧ (0 < k → ∑ m ∈ range k, x m < (∑ m ∈ range 9, x m) * r)} := by
    ext r
    simp only [Set.mem_ofPred_eq]
    exact and_congr_right fun _ => and_congr_right fun h1 => pick_iff hp hx h1
  rw [this]
  measurability

theorem choose_volume {f : Flow ℝ} {st : Bool} {a b : Nat} {p : Nat → Fl ℝ} (hp : ∀ k, k < 9 → p k = .fin (f.candidate st a b k))
    (hx : ∀ k, k < 9 → 0 ≤ f.candidate st a b k) (hpos : st = false → 0 < ∑ m ∈ range 9, f.candidate st a b m) {k : Nat} (hk : k < 9) :
    volume {r : ℝ | 0 ≤ r ∧ r < 1 ∧ pickFrom Arith.exact p r = .ok k} = f.chooseProb st a b k := by
  unfold Flow.chooseProb
  by_cases h : st = true ∧ ∀ m, m < 9 → f.candidate st a b m = 0
  · rw [if_pos h]
    have hz : ∀ n, n ≤ 9 → ∑ m ∈ range n, f.candidate st a b m = 0 := fun n hn => sum_eq_zero fun m hm => h.2 m (by have := mem_range.1 hm; omega)
    by_cases h0 : k = 0
    · have : {r : ℝ | 0 ≤ r ∧ r < 1 ∧ pickFrom Arith.exact p r = .ok k} = Set.Ico 0 1 := by
        ext r
        simp only [Set.mem_ofPred_eq, Set.mem_Ico]
        refine and_congr_right fun _ => ⟨fun h => h.1, fun h1 => ⟨h1, (pick_iff hp hx h1).2 ⟨hk, ?_, fun h => absurd h (by omega)⟩⟩⟩
        rw [hz 9 le_rfl, hz (k + 1) (by omega), zero_mul]
      rw [if_pos h0, this]
      simp
    · have : {r : ℝ | 0 ≤ r ∧ r < 1 ∧ pickFrom Arith.exact p r = .ok k} = ∅ := by
        ext r
        simp only [Set.mem_ofPred_eq, Set.mem_empty_iff_false, iff_false]
        rintro ⟨-, h1, h2⟩
        have := ((pick_iff hp hx h1).1 h2).2.2 (by omega)
        rw [hz k (by omega), hz 9 le_rfl, zero_mul] at this
        exact lt_irrefl _ this
      rw [if_neg h0, this]
      simp
  · rw [if_neg h]
    refine pick_volume hp hx ?_ hk
    by_cases hst : st = false
    · exact hpos hst
    · by_contra hc
      refine h ⟨by simpa using hst, fun m hm => ?_⟩
      exact (sum_eq_zero_iff_of_nonneg fun m hm => hx m (mem_range.1 hm)).1
        (le_antisymm (not_lt.1 hc) (sum_nonneg fun m hm => hx m (mem_range.1 hm))) m (mem_range.2 hm)

/-- The draws that take a particle from one cell to another: their set is measurable, and its measure is the transition probability. -/
theorem lands_volume {F : Fun ℝ Arith.exact} {R C : Nat} {P : PObj ℝ} (hP : Enclosed Arith.exact F R C P)
    {p : Int × Int} (hp : Inside R C p) (q : Int × Int) :
    MeasurableSet {r : ℝ | 0 ≤ r ∧ r < 1 ∧ Lands Arith.exact F P p r q} ∧
      volume {r : ℝ | 0 ≤ r ∧ r < 1 ∧ Lands Arith.exact F P p r q} = moveProb (flowOf F P) P p q := by
  have G := hP.built.good
  obtain ⟨a, b, rfl, ha, ha', hb, hb'⟩ := hp.nat
  have hin : Interior P a b := ⟨ha, by rw [hP.rows]; exact ha', hb, by rw [hP.cols]; exact hb'⟩
  obtain ⟨hm, hnn, hpos⟩ := candidates_exact (F := F) G hin
  have hex : ∀ r : ℝ, r < 1 → ∃ k, k < 9 ∧ pickFrom Arith.exact (maskOf P (makeWeight Arith.exact F P a b)) r = .ok k := fun r h1 => by
    obtain ⟨k, hk, h2, -⟩ := pickFrom_spec Arith.exact hm hnn rfl h1
    exact ⟨k, hk, h2⟩
  unfold moveProb
  simp only [Int.toNat_natCast]
  by_cases he : NearEdge P a b
  · rw [if_pos he]
    by_cases hq : q = ((a : Int), (b : Int))
    · have : {r : ℝ | 0 ≤ r ∧ r < 1 ∧ Lands Arith.exact F P ((a : Int), (b : Int)) r q} = Set.Ico 0 1 := by
        ext r
        simp only [Set.mem_ofPred_eq, Set.mem_Ico]
        refine ⟨fun h => ⟨h.1, h.2.1⟩, fun h => ⟨h.1, h.2, ?_⟩⟩
        obtain ⟨k, hk, hpk⟩ := hex r h.2
        exact (lands_iff G hP.walk hP.steps hin hk hpk).2 (Or.inl ⟨he, hq⟩)
      rw [this, if_pos hq]
      exact ⟨measurableSet_Ico, by simp⟩
    · have : {r : ℝ | 0 ≤ r ∧ r < 1 ∧ Lands Arith.exact F P ((a : Int), (b : Int)) r q} = ∅ := by
        ext r
        simp only [Set.mem_ofPred_eq, Set.mem_empty_iff_false, iff_false]
        rintro ⟨-, h1, h2⟩
        obtain ⟨k, hk, hpk⟩ := hex r h1
        rcases (lands_iff G hP.walk hP.steps hin hk hpk).1 h2 with ⟨-, h⟩ | ⟨h, -⟩
        · exact hq h
        · exact h he
      rw [this, if_neg hq]
      exact ⟨MeasurableSet.empty, by simp⟩
  · rw [if_neg he]
    have hset : {r : ℝ | 0 ≤ r ∧ r < 1 ∧ Lands Arith.exact F P ((a : Int), (b : Int)) r q} =
        ⋃ k ∈ (range 9).filter (fun k => q = (((Flow.nr a k : Nat) : Int), ((Flow.nc b k : Nat) : Int))),
          {r : ℝ | 0 ≤ r ∧ r < 1 ∧ pickFrom Arith.exact (maskOf P (makeWeight Arith.exact F P a b)) r = .ok k} := by
      ext r
      simp only [Set.mem_ofPred_eq, Set.mem_iUnion, mem_filter, mem_range, exists_prop]
      constructor
      · rintro ⟨h0, h1, h2⟩
        obtain ⟨k, hk, hpk⟩ := hex r h1
        rcases (lands_iff G hP.walk hP.steps hin hk hpk).1 h2 with ⟨h, -⟩ | ⟨-, h⟩
        · exact absurd h he
        · exact ⟨k, ⟨hk, h⟩, h0, h1, hpk⟩
      · rintro ⟨k, ⟨hk, h⟩, h0, h1, hpk⟩
        exact ⟨h0, h1, (lands_iff G hP.walk hP.steps hin hk hpk).2 (Or.inr ⟨he, h⟩)⟩
    have hmeas := fun k => pick_measurable hm hnn k
    rw [hset]
    refine ⟨Finset.measurableSet_biUnion _ fun k _ => hmeas k, ?_⟩
    rw [measure_biUnion_finset ?_ (fun k _ => hmeas k), sum_filter]
    · refine sum_congr rfl fun k hk => ?_
      split_ifs with h
      · exact choose_volume hm hnn hpos (mem_range.1 hk)
      · rfl
    · intro k _ k' _ hne
      refine Set.disjoint_left.2 ?_
      rintro r ⟨-, -, h1⟩ ⟨-, -, h2⟩
      rw [h1] at h2
      injection h2 with h2
      exact hne h2

section

variable {K : Type} [Field K] [LinearOrder K] [IsStrictOrderedRing K] [FloorRing K] {A : Arith K} {F : Fun K A}

/-- Number of particles that move in iteration `j` of the path. -/
def movedAt (N : Nat) (path : Nat → Nat → Int × Int) (j : Nat) : Nat :=
  (((List.range N).map (path j)).zip ((List.range N).map (path (j + 1)))).countP fun x => decide (x.1 ≠ x.2)

/-- Position of the first draw of iteration `j` along the path. -/
def drawsBefore (P : PObj K) (pos N : Nat) (path : Nat → Nat → Int × Int) : Nat → Nat
  | 0 => pos
  | j + 1 => drawsBefore P pos N path j + N + if 0 < P.diffCoeff then movedAt N path j else 0

/-- The object after `n` iterations along the path. -/
structure OnPath (A : Arith K) (F : Fun K A) (R C : Nat) (P : PObj K) (ω : Nat → K) (s : PState K) (N : Nat) (path : Nat → Nat → Int × Int)
    (n : Nat) (s' : PState K) : Prop where
  runs : ∃ w, AfterRuns A F P ω s n s' w
  reach : Reach A F (Enclosed A F R C) Draws (InsideSeeds R C) P s'
  rows : ∃ rows, HasRows P s' rows ∧ rows.length = N ∧ ∀ (i : Nat) r, rows[i]? = some r → r.lastPos (path n i)
  pos : s'.world.pos = drawsBefore P s.world.pos N path n

theorem inside_ne {R C : Nat} {p : Int × Int} (h : Inside R C p) : p ≠ (0, 0) := by
  rintro rfl
  have := h.1
  simp at this

theorem OnPath.next {R C : Nat} {P : PObj K} {ω : Nat → K} (hω : Draws ω) {s s' : PState K} {N : Nat} {path : Nat → Nat → Int × Int} {n : Nat}
    (h : OnPath A F R C P ω s N path n s') :
    ∃ res rows' news, runIteration A F P ω s' none 10000 = .ok res ∧ HasRows P res.state rows' ∧ rows'.length = N ∧ news.length = N ∧
      (∀ (i : Nat) r' q, rows'[i]? = some r' → news[i]? = some q → r'.lastPos q) ∧
      (∀ (i : Nat) q, news[i]? = some q → Lands A F P (path n i) (ω (drawsBefore P s.world.pos N path n + i)) q) ∧
      (news = (List.range N).map (path (n + 1)) → OnPath A F R C P ω s N path (n + 1) res.state) := by
  obtain ⟨⟨w, hruns⟩, hreach, ⟨rows, hr, hlen, hlast⟩, hpos⟩ := h
  obtain ⟨res, hres⟩ := C17_no_crash hreach (by rw [hr.1]; simp) hω none 10000 (Or.inl rfl)
  obtain ⟨hpe, hbad | ⟨rows0, hr0, hok⟩⟩ := Enclosed.rowsOk hreach
  · rw [hr.1] at hbad; cases hbad
  have hin : ∀ r ∈ rows, ∀ p, r.lastPos p → p ≠ (0, 0) := by
    intro r hrm p hp
    obtain ⟨i, hi⟩ := List.getElem?_of_mem hrm
    have hp' : (ofRows (keysOf P) rows).lastPos i = some p := lastPos_ofRows.2 ⟨r, hi, hp⟩
    have e : ofRows (keysOf P) rows = ofRows (keysOf P) rows0 := by
      have := hr.1.symm.trans hr0.1
      injection this
    rw [e] at hp'
    obtain ⟨r0, hr0i, hp0⟩ := lastPos_ofRows.1 hp'
    obtain ⟨hv, hin⟩ := hok r0 (List.mem_of_getElem? hr0i)
    have hal := hv.aligned
    have hne : r0.ts ≠ [] := by
      intro h0
      have h1 := hal.2.1
      have h2 := hal.2.2
      rw [h0] at h1
      simp at h1
      omega
    exact inside_ne (hin _ p _ (Row.last_rec hal hp0 (List.getLast?_eq_some_getLast hne)))
  obtain ⟨rows', hr', hl', cur, news, hcl, hnl, hcur, hnews, hland, hpos'⟩ := runIteration_law hreach.obj.built.good hpe hr hin hres
  have hcureq : cur = (List.range N).map (path n) := by
    apply List.ext_getElem? fun i => ?_
    by_cases hi : i < N
    · have hi' : i < rows.length := by omega
      rw [hcur i _ _ (List.getElem?_eq_getElem hi') (hlast i _ (List.getElem?_eq_getElem hi'))]
      simp [hi]
    · rw [List.getElem?_eq_none (by omega), List.getElem?_eq_none (by simp; omega)]
  refine ⟨res, rows', news, hres, hr', by omega, by omega, hnews, fun i q hq => ?_, fun hnp => ?_⟩
  · have hi : i < N := by have := (List.getElem?_eq_some_iff.1 hq).1; omega
    rw [← hpos]
    exact hland i _ q (by rw [hcureq]; simp [hi]) hq
  · refine ⟨⟨_, .succ hruns hres⟩, .run hreach hω hres, ⟨rows', hr', by omega, fun i r' hr'i => ?_⟩, ?_⟩
    · have hi : i < N := by have := (List.getElem?_eq_some_iff.1 hr'i).1; omega
      exact hnews i r' _ hr'i (by rw [hnp]; simp [hi])
    · rw [hpos', hpos, hlen, hcureq, hnp]
      rfl

/-- With proper draws, following a path means that the right draws land in the right cells. -/
theorem follows_iff {R C : Nat} {P : PObj K} {ω : Nat → K} (hω : Draws ω) {s : PState K} {N : Nat} {path : Nat → Nat → Int × Int}
    (h0 : OnPath A F R C P ω s N path 0 s) (n : Nat) :
    (Follows A F P ω s n path → ∃ s', OnPath A F R C P ω s N path n s') ∧
    (Follows A F P ω s n path ↔ ∀ j, j < n → ∀ i, i < N → Lands A F P (path j i) (ω (drawsBefore P s.world.pos N path j + i)) (path (j + 1) i)) := by
  have hF : ∀ {n s'}, OnPath A F R C P ω s N path n s' → ∃ s' w wd, AfterRuns A F P ω s n s' w ∧ s'.walk = some wd ∧
      ∀ i, i < wd.xinds.length → wd.lastPos i = some (path n i) := by
    rintro n s' ⟨⟨w, hruns⟩, -, ⟨rows, hr, hlen, hlast⟩, -⟩
    refine ⟨s', w, _, hruns, hr.1, fun i hi => ?_⟩
    have hi' : i < rows.length := by simpa [ofRows] using hi
    exact lastPos_ofRows.2 ⟨_, List.getElem?_eq_getElem hi', hlast i _ (List.getElem?_eq_getElem hi')⟩
  induction n with
  | zero =>
    refine ⟨fun _ => ⟨s, h0⟩, fun _ j hj => absurd hj (by omega), fun _ j hj => ?_⟩
    obtain rfl : j = 0 := by omega
    exact hF h0
  | succ n ih =>
    have hsplit : Follows A F P ω s (n + 1) path ↔ Follows A F P ω s n path ∧ ∃ s' w wd, AfterRuns A F P ω s (n + 1) s' w ∧
        s'.walk = some wd ∧ ∀ i, i < wd.xinds.length → wd.lastPos i = some (path (n + 1) i) := by
      constructor
      · intro h
        exact ⟨fun j hj => h j (by omega), h (n + 1) le_rfl⟩
      · rintro ⟨h1, h2⟩ j hj
        rcases Nat.lt_or_ge j (n + 1) with hlt | hge
        · exact h1 j (by omega)
        · obtain rfl : j = n + 1 := by omega
          exact h2
    have key : Follows A F P ω s (n + 1) path → (∃ s', OnPath A F R C P ω s N path (n + 1) s') ∧ Follows A F P ω s n path ∧
        ∀ i, i < N → Lands A F P (path n i) (ω (drawsBefore P s.world.pos N path n + i)) (path (n + 1) i) := by
      intro h
      obtain ⟨h1, s2, w2, wd2, hruns2, hwd2, hlast2⟩ := hsplit.1 h
      obtain ⟨s', hs'⟩ := ih.1 h1
      obtain ⟨res, rows', news, hres, hr', hl', hnl, hnews, hland, hnext⟩ := hs'.next hω
      obtain ⟨w, hruns⟩ := hs'.runs
      obtain ⟨rfl, -⟩ := hruns2.unique (.succ hruns hres)
      rw [hr'.1] at hwd2
      cases hwd2
      have hn : news = (List.range N).map (path (n + 1)) := by
        apply List.ext_getElem? fun i => ?_
        by_cases hi : i < N
        · have hi1 : i < news.length := by omega
          have hi2 : i < rows'.length := by omega
          obtain ⟨r2, hr2, hp2⟩ := lastPos_ofRows.1 (hlast2 i (by simpa [ofRows] using hi2))
          have := hnews i r2 _ hr2 (List.getElem?_eq_getElem hi1)
          rw [List.getElem?_eq_getElem hi1, Row.lastPos_unique this hp2]
          simp [hi]
        · rw [List.getElem?_eq_none (by omega), List.getElem?_eq_none (by simp; omega)]
      exact ⟨⟨_, hnext hn⟩, h1, fun i hi => hland i _ (by rw [hn]; simp [hi])⟩
    refine ⟨fun h => (key h).1, fun h j hj i hi => ?_, fun h => ?_⟩
    · rcases Nat.lt_or_ge j n with hlt | hge
      · exact ih.2.1 (key h).2.1 j hlt i hi
      · obtain rfl : j = n := by omega
        exact (key h).2.2 i hi
    · have h1 := ih.2.2 fun j hj => h j (by omega)
      obtain ⟨s', hs'⟩ := ih.1 h1
      obtain ⟨res, rows', news, hres, hr', hl', hnl, hnews, hland, hnext⟩ := hs'.next hω
      have hn : news = (List.range N).map (path (n + 1)) := by
        apply List.ext_getElem? fun i => ?_
        by_cases hi : i < N
        · have hi1 : i < news.length := by omega
          have := hland i _ (List.getElem?_eq_getElem hi1)
          rw [List.getElem?_eq_getElem hi1, this.unique (h n (by omega) i hi)]
          simp [hi]
        · rw [List.getElem?_eq_none (by omega), List.getElem?_eq_none (by simp; omega)]
      exact hsplit.2 ⟨h1, hF (hnext hn)⟩

theorem drawsBefore_le (P : PObj K) (pos N : Nat) (path : Nat → Nat → Int × Int) {j k : Nat} (h : j < k) :
    drawsBefore P pos N path j + N ≤ drawsBefore P pos N path k := by
  induction k with
  | zero => omega
  | succ k ih =>
    have e : drawsBefore P pos N path (k + 1) = drawsBefore P pos N path k + N + if 0 < P.diffCoeff then movedAt N path k else 0 := rfl
    rcases Nat.lt_or_ge j k with hlt | hge
    · have := ih hlt
      omega
    · obtain rfl : j = k := by omega
      omega

end

instance : IsProbabilityMeasure (volume.restrict (Set.Ico (0 : ℝ) 1)) := ⟨by simp⟩

/-- Almost every stream of independent uniform draws is a stream of non-zero draws of `[0,1)`. -/
theorem uniformDraws_nonzero : ∀ᵐ ω ∂uniformDraws, NonzeroDraws Arith.exact ω := by
  have h1 : ∀ n : Nat, ∀ᵐ ω ∂uniformDraws, 0 < ω n ∧ ω n < 1 := by
    intro n
    have hmp := measurePreserving_eval_infinitePi (fun _ : Nat => volume.restrict (Set.Ico (0 : ℝ) 1)) n
    have h2 : ∀ᵐ r ∂(volume.restrict (Set.Ico (0 : ℝ) 1)), 0 < r ∧ r < 1 := by
      rw [ae_restrict_iff' measurableSet_Ico]
      have : ∀ᵐ r : ℝ, r ≠ 0 := by simp [ae_iff]
      filter_upwards [this] with r hr h
      exact ⟨lt_of_le_of_ne h.1 (Ne.symm hr), h.2⟩
    exact hmp.quasiMeasurePreserving.ae h2
  filter_upwards [ae_all_iff.2 h1] with ω h
  refine ⟨fun n => ⟨(h n).1.le, (h n).2⟩, fun n x hx _ h0 => ?_⟩
  exact absurd h0 (mul_pos hx (h n).1).ne'

/-- Leaving the interior has probability zero. -/
theorem moveProb_outside {F : Fun ℝ Arith.exact} {R C : Nat} {P : PObj ℝ} (hP : Enclosed Arith.exact F R C P)
    {p q : Int × Int} (hp : Inside R C p) (hq : ¬ Inside R C q) : moveProb (flowOf F P) P p q = 0 := by
  rw [← (lands_volume hP hp q).2]
  have : {r : ℝ | 0 ≤ r ∧ r < 1 ∧ Lands Arith.exact F P p r q} = ∅ := by
    ext r
    simp only [Set.mem_ofPred_eq, Set.mem_empty_iff_false, iff_false]
    rintro ⟨-, -, i, j, k, q0, d, -, -, -, hq0, hd, rfl⟩
    have := dest_inside (A := Arith.exact) hP.built.good hP.walk hP.steps hP.ring (by rw [hP.rows, hP.cols]; exact hp) hq0 hd
    rw [hP.rows, hP.cols] at this
    exact hq this
  rw [this]
  simp

/-- Exact arithmetic, independent uniform draws, random or steepest-descent routing, any diffusivity, any number of particles, any starting
state with interior seeds: the probability that the next `n` calls of `run_iteration()` take the particles along a given joint path is the
product, over iterations and particles, of the documented probability of that particle's move. So the particles are independent of
each other and every walk is a Markov chain with the documented transition probabilities. -/
theorem C75_law {F : Fun ℝ Arith.exact} {R C : Nat} {P : PObj ℝ} {s : PState ℝ}
    (h : Reach Arith.exact F (Enclosed Arith.exact F R C) Draws (InsideSeeds R C) P s) {wd : WalkData ℝ}
    (hwd : s.walk = some wd) {N : Nat} (hN : wd.xinds.length = N) (n : Nat) (path : Nat → Nat → Int × Int)
    (h0 : ∀ i, i < N → wd.lastPos i = some (path 0 i)) :
    uniformDraws {ω | Follows Arith.exact F P ω s n path} =
      ∏ j ∈ range n, ∏ i ∈ range N, moveProb (flowOf F P) P (path j i) (path (j + 1) i) := by
  have hO := h.obj
  obtain ⟨hpe, hbad | ⟨rows, hr, hok⟩⟩ := Enclosed.rowsOk h
  · rw [hwd] at hbad; cases hbad
  have hwd' := hwd
  rw [hr.1] at hwd'
  cases hwd'
  have hlen : rows.length = N := by simpa [ofRows] using hN
  have hstart : ∀ ω, OnPath Arith.exact F R C P ω s N path 0 s := fun ω =>
    ⟨⟨_, .zero⟩, h, ⟨rows, hr, hlen, fun i r hri => by
      have hi : i < N := by rw [← hlen]; exact (List.getElem?_eq_some_iff.1 hri).1
      obtain ⟨r', hr', hp⟩ := lastPos_ofRows.1 (h0 i hi)
      rw [hri] at hr'
      cases hr'
      exact hp⟩, rfl⟩
  have hin0 : ∀ i, i < N → Inside R C (path 0 i) := by
    intro i hi
    obtain ⟨r', hr', hp⟩ := lastPos_ofRows.1 (h0 i hi)
    obtain ⟨hv, hin⟩ := hok r' (List.mem_of_getElem? hr')
    have hal := hv.aligned
    have hne : r'.ts ≠ [] := by
      intro h0
      have h1 := hal.2.1
      have h2 := hal.2.2
      rw [h0] at h1
      simp at h1
      omega
    exact hin _ _ _ (Row.last_rec hal hp (List.getLast?_eq_some_getLast hne))
  have hae : {ω | Follows Arith.exact F P ω s n path} =ᵐ[uniformDraws] {ω | ∀ j, j < n → ∀ i, i < N →
      0 ≤ ω (drawsBefore P s.world.pos N path j + i) ∧ ω (drawsBefore P s.world.pos N path j + i) < 1 ∧
        Lands Arith.exact F P (path j i) (ω (drawsBefore P s.world.pos N path j + i)) (path (j + 1) i)} := by
    rw [Filter.eventuallyEq_set]
    filter_upwards [uniformDraws_nonzero] with ω hω
    rw [(follows_iff hω.1 (hstart ω) n).2]
    exact ⟨fun hh j hj i hi => ⟨(hω.1 _).1, (hω.1 _).2, hh j hj i hi⟩, fun hh j hj i hi => (hh j hj i hi).2.2⟩
  rw [measure_congr hae]
  by_cases hall : ∀ j, j < n → ∀ i, i < N → Inside R C (path j i)
  · set c : Nat × Nat → Nat := fun x => drawsBefore P s.world.pos N path x.1 + x.2 with hc
    set t : Nat → Set ℝ := fun m => {r | ∀ x ∈ range n ×ˢ range N, c x = m → 0 ≤ r ∧ r < 1 ∧
      Lands Arith.exact F P (path x.1 x.2) r (path (x.1 + 1) x.2)} with ht
    have hinj : Set.InjOn c (range n ×ˢ range N : Finset (Nat × Nat)) := by
      rintro ⟨j, i⟩ h1 ⟨j', i'⟩ h2 e
      simp only [coe_product, coe_range, Set.mem_prod, Set.mem_Iio] at h1 h2
      simp only [hc] at e
      rcases Nat.lt_trichotomy j j' with hlt | rfl | hlt
      · have := drawsBefore_le P s.world.pos N path hlt
        omega
      · simp only [Prod.mk.injEq, true_and]
        omega
      · have := drawsBefore_le P s.world.pos N path hlt
        omega
    have htc : ∀ x ∈ range n ×ˢ range N, t (c x) = {r | 0 ≤ r ∧ r < 1 ∧ Lands Arith.exact F P (path x.1 x.2) r (path (x.1 + 1) x.2)} := by
      intro x hx
      ext r
      simp only [ht, Set.mem_ofPred_eq]
      exact ⟨fun hh => hh x hx rfl, fun hh y hy e => by rw [hinj (mem_coe.2 hy) (mem_coe.2 hx) e]; exact hh⟩
    have hset : {ω : Nat → ℝ | ∀ j, j < n → ∀ i, i < N →
        0 ≤ ω (drawsBefore P s.world.pos N path j + i) ∧ ω (drawsBefore P s.world.pos N path j + i) < 1 ∧
          Lands Arith.exact F P (path j i) (ω (drawsBefore P s.world.pos N path j + i)) (path (j + 1) i)} =
        Set.pi ((range n ×ˢ range N).image c : Finset Nat) t := by
      ext ω
      simp only [Set.mem_ofPred_eq, Set.mem_pi, coe_image, Set.mem_image, mem_coe]
      constructor
      · rintro hh m ⟨x, hx, rfl⟩
        rw [htc x hx]
        rw [mem_product, mem_range, mem_range] at hx
        exact hh x.1 hx.1 x.2 hx.2
      · intro hh j hj i hi
        have hx : (j, i) ∈ range n ×ˢ range N := by rw [mem_product, mem_range, mem_range]; exact ⟨hj, hi⟩
        have := hh (c (j, i)) ⟨(j, i), hx, rfl⟩
        rw [htc _ hx] at this
        exact this
    rw [hset, uniformDraws, Measure.infinitePi_pi, prod_image hinj, prod_product]
    · refine prod_congr rfl fun j hj => prod_congr rfl fun i hi => ?_
      have hx : (j, i) ∈ range n ×ˢ range N := mem_product.2 ⟨hj, hi⟩
      rw [htc _ hx]
      obtain ⟨h1, h2⟩ := lands_volume hO (hall j (mem_range.1 hj) i (mem_range.1 hi)) (path (j + 1) i)
      rw [← h2, Measure.restrict_apply h1]
      congr 1
      ext r
      simp only [Set.mem_inter_iff, Set.mem_ofPred_eq, Set.mem_Ico]
      tauto
    · intro m hm
      obtain ⟨x, hx, rfl⟩ := mem_image.1 hm
      rw [htc x hx]
      rw [mem_product, mem_range, mem_range] at hx
      exact (lands_volume hO (hall _ hx.1 _ hx.2) _).1
  · push Not at hall
    have hex : ∃ j, j < n ∧ ∃ i, i < N ∧ ¬ Inside R C (path j i) := by
      obtain ⟨j, hj, i, hi, hb⟩ := hall
      exact ⟨j, hj, i, hi, hb⟩
    classical
    obtain ⟨hjn, i, hi, hb⟩ := Nat.find_spec hex
    have hmin := fun m (hm : m < Nat.find hex) => Nat.find_min hex hm
    obtain ⟨j, hj⟩ : ∃ j, Nat.find hex = j + 1 := by
      refine Nat.exists_eq_succ_of_ne_zero fun h0 => ?_
      rw [h0] at hb
      exact hb (hin0 i hi)
    rw [hj] at hb hjn
    have hin : Inside R C (path j i) := by
      by_contra hc
      exact hmin j (by omega) ⟨by omega, i, hi, hc⟩
    have hz := moveProb_outside hO hin hb
    rw [prod_eq_zero (mem_range.2 (show j < n by omega)) (prod_eq_zero (mem_range.2 hi) hz)]
    have : {ω : Nat → ℝ | ∀ j, j < n → ∀ i, i < N →
        0 ≤ ω (drawsBefore P s.world.pos N path j + i) ∧ ω (drawsBefore P s.world.pos N path j + i) < 1 ∧
          Lands Arith.exact F P (path j i) (ω (drawsBefore P s.world.pos N path j + i)) (path (j + 1) i)} = ∅ := by
      ext ω
      simp only [Set.mem_ofPred_eq, Set.mem_empty_iff_false, iff_false]
      intro hh
      obtain ⟨-, -, i', j', k, q0, d, -, -, -, hq0, hd, hq⟩ := hh j (by omega) i hi
      have := dest_inside (A := Arith.exact) hO.built.good hO.walk hO.steps hO.ring (by rw [hO.rows, hO.cols]; exact hin) hq0 hd
      rw [hO.rows, hO.cols, ← hq] at this
      exact hb this
    rw [this]
    simp

/-- Histories with weaker conditions on the draws. -/
theorem Reach.monoDraws {K : Type} [Field K] [LinearOrder K] [FloorRing K] {A : Arith K} {F : Fun K A} {Ob : PObj K → Prop}
    {Ω Ω' : (Nat → K) → Prop} {Sd : PObj K → List Int → List Int → Fl K → Prop} {P : PObj K} {s : PState K} (h : Reach A F Ob Ω Sd P s)
    (hΩ : ∀ ω, Ω ω → Ω' ω) : Reach A F Ob Ω' Sd P s := by
  induction h with
  | new pos hP => exact .new pos hP
  | generate _ hω hc hn hs hg ih => exact .generate ih (hΩ _ hω) hc hn hs hg
  | «continue» _ _ hprev hvars hω hc hn hs hg ih ih0 => exact .continue ih ih0 hprev hvars (hΩ _ hω) hc hn hs hg
  | run _ hω hr ih => exact .run ih (hΩ _ hω) hr
  | failed _ hω hr ih => exact .failed ih (hΩ _ hω) hr
  | clear _ ih => exact .clear ih
  | reseed pos _ ih => exact .reseed pos ih

/-- C01 with probability one (exact arithmetic, independent uniform draws): outside a null set of streams, no history of calls on any object
routes a particle from an interior cell that is not a dead end onto a dry or land cell. -/
theorem C01_almost_surely (F : Fun ℝ Arith.exact) : ∀ᵐ ω ∂uniformDraws, ∀ (P0 P : PObj ℝ) (s : PState ℝ) (wd : WalkData ℝ) (i n a b : Nat) (q : Int × Int),
    Built Arith.exact F P0 → DefaultWalk P0 → SelfZero P0 → P0.dx ≠ 0 → Reach Arith.exact F (· = P0) (· = ω) AnySeed P s → s.walk = some wd →
    wd.posAt i n = some ((a : Int), (b : Int)) → wd.posAt i (n + 1) = some q → Interior P0 a b → ¬ (flowOf F P0).DeadEnd a b →
    ∃ k, k < 9 ∧ k ≠ 4 ∧ q = (((Flow.nr a k : Nat) : Int), ((Flow.nc b k : Nat) : Int)) ∧ (flowOf F P0).Passable a b k := by
  filter_upwards [uniformDraws_nonzero] with ω hω P0 P s wd i n a b q hB hw hS hdx h hwd hp hq hin hd
  refine C01_passable_partial hB hw hS hdx (h.monoDraws ?_) hwd hp hq hin hd
  intro ω' hω' n
  rw [hω']
  refine ⟨lt_of_le_of_ne (hω.1 n).1 fun h0 => hω.2 n 1 one_pos rfl ?_, (hω.1 n).2⟩
  change 1 * ω n = 0
  rw [← h0, mul_zero]

/-- C02 with probability one (exact arithmetic, independent uniform draws): every recorded move away from an interior dead end goes to a deepest cell
of the window. (Under steepest descent the window needs a deepest cell other than the centre, see `C02_steepest_counterexample`.) -/
theorem C02_almost_surely (F : Fun ℝ Arith.exact) : ∀ᵐ ω ∂uniformDraws, ∀ (P0 P : PObj ℝ) (s : PState ℝ) (wd : WalkData ℝ) (i n a b : Nat) (q : Int × Int),
    Built Arith.exact F P0 → DefaultWalk P0 → StepsNonzero Arith.exact P0 → Reach Arith.exact F (· = P0) (· = ω) AnySeed P s → s.walk = some wd →
    wd.posAt i n = some ((a : Int), (b : Int)) → wd.posAt i (n + 1) = some q → Interior P0 a b → NoFlowWeight Arith.exact F P0 a b →
    (P0.steepest = true → ∃ k, k < 9 ∧ k ≠ 4 ∧ (flowOf F P0).Deepest a b k) →
    ∃ k, k < 9 ∧ q = (((Flow.nr a k : Nat) : Int), ((Flow.nc b k : Nat) : Int)) ∧ (flowOf F P0).Deepest a b k := by
  filter_upwards [uniformDraws_nonzero] with ω hω P0 P s wd i n a b q hB hw hz h hwd hp hq hin hd hst
  exact C02_records_partial hB hw hz (h.monoDraws (by rintro _ rfl; exact hω)) hwd hp hq hin hd hst

/-! ## A concrete case -/

theorem realObj_far : ¬ NearEdge realObj 2 2 := by
  intro he
  obtain ⟨i, j, hi, hj, h1, h2, h3⟩ := he
  have : realObj.cellType.at' i j = if interiorB 5 5 i j then (if Fl.lt (.fin (1 : ℝ)) (.fin (1 / 10)) then 2 else 0) else -1 := rfl
  rw [this, if_pos (by unfold interiorB; simp; omega)] at h3
  split_ifs at h3

theorem realObj_near : NearEdge realObj 1 1 := by
  refine ⟨0, 0, by change 0 < 5; norm_num, by change 0 < 5; norm_num, by omega, by omega, ?_⟩
  change (if interiorB 5 5 0 0 then (if Fl.lt (.fin (1 : ℝ)) (.fin (1 / 10)) then 2 else 0) else -1) = -1
  rfl

/-- Routing weights at the centre of the uniform real channel. -/
theorem realObj_weight {k : Nat} (hk : k < 9) :
    (flowOf Fun.real realObj).weight 2 2 k = 19 / 20 * ((if k = 7 then 2 else if k = 6 ∨ k = 8 then 1 else 0) / 4) := by
  have hpass : ∀ k, (flowOf Fun.real realObj).Passable 2 2 k := by
    intro k
    obtain ⟨d1, -, -, -, d5⟩ := realObj_cell (Flow.nr 2 k) (Flow.nc 2 k)
    refine ⟨?_, d5⟩
    rw [d1]
    change (1 / 10 : ℝ) < 1
    norm_num
  obtain ⟨-, c2, c3, c4, -⟩ := realObj_cell 2 2
  have hslope : ∀ k, (flowOf Fun.real realObj).slope 2 2 k = 0 := by
    intro k
    unfold Flow.slope
    rw [if_pos (hpass k), c2, (realObj_cell _ _).2.1]
    simp [Flow.drop]
  have hr : Real.sqrt (1 / 2) / Real.sqrt 2 = 1 / 2 := by
    rw [← Real.sqrt_div (by norm_num), show (1 / 2 / 2 : ℝ) = (1 / 2) ^ 2 by norm_num]
    exact Real.sqrt_sq (by norm_num)
  have hpos2 : (0 : ℝ) < Real.sqrt 2 := by positivity
  have hpos3 : (0 : ℝ) < Real.sqrt (1 / 2) := by positivity
  have hin : ∀ k, k < 9 → (flowOf Fun.real realObj).inertia 2 2 k = if k = 7 then 2 else if k = 6 ∨ k = 8 then 1 else 0 := by
    intro k hk
    unfold Flow.inertia
    rw [if_pos (hpass k), c3, c4]
    change max 0 (((2 : ℝ) * (defaultJvec Arith.exact Fun.real k).num + 0 * _) / (defaultDistances Arith.exact Fun.real k).num) = _
    rw [zero_mul, add_zero]
    have neg : max 0 (2 * (-Real.sqrt (1 / 2)) / Real.sqrt 2) = 0 := by
      rw [max_eq_left]
      rw [mul_neg, neg_div]
      have : 0 < 2 * Real.sqrt (1 / 2) / Real.sqrt 2 := by positivity
      linarith
    have pos : max 0 (2 * (Real.sqrt (1 / 2)) / Real.sqrt 2) = 1 := by
      rw [mul_div_assoc, hr]
      norm_num
    interval_cases k
    · exact neg
    · change max (0 : ℝ) (2 * -1 / 1) = 0; norm_num
    · exact neg
    · change max (0 : ℝ) (2 * 0 / 1) = 0; norm_num
    · change max (0 : ℝ) (2 * 0 / 1) = 0; norm_num
    · change max (0 : ℝ) (2 * 0 / 1) = 0; norm_num
    · exact pos
    · change max (0 : ℝ) (2 * 1 / 1) = 2; norm_num
    · exact pos
  have hsum : ∑ m ∈ range 9, (flowOf Fun.real realObj).inertia 2 2 m = 4 := by
    rw [sum_congr rfl fun m hm => hin m (mem_range.1 hm)]
    norm_num [sum_range_succ]
  have hpw : (flowOf Fun.real realObj).pw 1 = 1 := by
    change ((if (1 : ℝ) = 0 then Fl.fin 1 else if (0 : ℝ) < 1 then .fin (1 ^ (1 : ℝ)) else _) : Fl ℝ).num = 1
    rw [if_neg one_ne_zero, if_pos one_pos]
    exact Real.one_rpow 1
  unfold Flow.weight Flow.flow
  rw [if_neg realObj_moves, if_pos ⟨hpass k, by rw [c2]; rfl, by rw [(realObj_cell _ _).2.1]; rfl⟩, (realObj_cell _ _).1, hpw]
  unfold Flow.share
  rw [hslope, hsum, hin k hk, show (flowOf Fun.real realObj).gamma = 1 / 20 from rfl]
  norm_num

/-- In the uniform real channel the cell ahead is chosen with probability one half. -/
theorem realObj_half : moveProb (flowOf Fun.real realObj) realObj (2, 2) (3, 2) = ENNReal.ofReal (1 / 2) := by
  have hw : ∀ k, k < 9 → (flowOf Fun.real realObj).weight 2 2 k = 19 / 20 * ((if k = 7 then 2 else if k = 6 ∨ k = 8 then 1 else 0) / 4) :=
    fun k hk => realObj_weight hk
  have hW : ∑ m ∈ range 9, (flowOf Fun.real realObj).weight 2 2 m = 19 / 20 := by
    rw [sum_congr rfl fun m hm => hw m (mem_range.1 hm)]
    norm_num [sum_range_succ]
  unfold moveProb
  rw [if_neg (show ¬ NearEdge realObj ((2, 2) : Int × Int).1.toNat ((2, 2) : Int × Int).2.toNat from realObj_far)]
  rw [sum_eq_single 7]
  · rw [if_pos (by decide)]
    change ENNReal.ofReal ((flowOf Fun.real realObj).weight 2 2 7 / ∑ m ∈ range 9, (flowOf Fun.real realObj).weight 2 2 m) = _
    rw [hW, hw 7 (by norm_num)]
    norm_num
  · intro k hk hne
    rw [if_neg]
    have hk := mem_range.1 hk
    unfold Flow.nr Flow.nc
    change ¬ ((3, 2) : Int × Int) = (((2 + k / 3 - 1 : Nat) : Int), ((2 + k % 3 - 1 : Nat) : Int))
    interval_cases k <;> first | exact absurd rfl hne | decide
  · intro h
    exact absurd (mem_range.2 (by norm_num)) h

/-- The uniform real channel with steepest descent. -/
noncomputable def realSteep : PObj ℝ := (initParticles Arith.exact Fun.real { realChan with steepest := some true }).toOption.get rfl

theorem realSteep_init : initParticles Arith.exact Fun.real { realChan with steepest := some true } = .ok realSteep := rfl

theorem realSteep_built : Built Arith.exact Fun.real realSteep := ⟨{ realChan with steepest := some true }, { realChan_valid with }, realSteep_init⟩

theorem realSteep_enclosed : Enclosed Arith.exact Fun.real 5 5 realSteep := by
  obtain ⟨h1, h2, h3⟩ := C17_default_ring (p := { realChan with steepest := some true }) rfl rfl rfl rfl realSteep_init
  exact ⟨realSteep_built, rfl, rfl, h1, h2, realObj_steps, h3⟩

/-- With steepest descent the cell ahead is chosen with probability one. -/
theorem realSteep_sure : moveProb (flowOf Fun.real realSteep) realSteep (2, 2) (3, 2) = 1 := by
  have hw : ∀ k, k < 9 → (flowOf Fun.real realSteep).weight 2 2 k = 19 / 20 * ((if k = 7 then 2 else if k = 6 ∨ k = 8 then 1 else 0) / 4) :=
    fun k hk => realObj_weight hk
  have hc : ∀ k, k < 9 → (flowOf Fun.real realSteep).candidate true 2 2 k = if k = 7 then 19 / 40 else 0 := by
    intro k hk
    unfold Flow.candidate
    by_cases h7 : k = 7
    · subst h7
      rw [if_pos rfl, if_neg, hw 7 hk]
      · norm_num
      · rintro ⟨-, h | ⟨m, hm, h⟩⟩
        · cases h
        · rw [hw m hm, hw 7 hk] at h
          interval_cases m <;> norm_num at h
    · rw [if_neg h7]
      refine if_pos ⟨rfl, Or.inr ⟨7, by norm_num, ?_⟩⟩
      rw [hw k hk, hw 7 (by norm_num)]
      interval_cases k <;> first | exact absurd rfl h7 | norm_num
  have hsum : ∑ m ∈ range 9, (flowOf Fun.real realSteep).candidate true 2 2 m = 19 / 40 := by
    rw [sum_congr rfl fun m hm => hc m (mem_range.1 hm)]
    norm_num [sum_range_succ]
  unfold moveProb
  rw [if_neg (show ¬ NearEdge realSteep ((2, 2) : Int × Int).1.toNat ((2, 2) : Int × Int).2.toNat from realObj_far), sum_eq_single 7]
  · rw [if_pos (by decide)]
    change (flowOf Fun.real realSteep).chooseProb true 2 2 7 = 1
    unfold Flow.chooseProb
    rw [if_neg, hsum, hc 7 (by norm_num), if_pos rfl]
    · norm_num
    · rintro ⟨-, h⟩
      have := h 7 (by norm_num)
      rw [hc 7 (by norm_num)] at this
      norm_num at this
  · intro k hk hne
    rw [if_neg]
    have hk := mem_range.1 hk
    unfold Flow.nr Flow.nc
    change ¬ ((3, 2) : Int × Int) = (((2 + k / 3 - 1 : Nat) : Int), ((2 + k % 3 - 1 : Nat) : Int))
    interval_cases k <;> first | exact absurd rfl hne | decide
  · intro h
    exact absurd (mem_range.2 (by norm_num)) h

/-- C75 with steepest descent: a particle at the centre goes straight ahead with probability one. -/
example : ∃ (s : PState ℝ) (wd : WalkData ℝ), Reach Arith.exact Fun.real (Enclosed Arith.exact Fun.real 5 5) Draws (InsideSeeds 5 5) realSteep s ∧
    s.walk = some wd ∧ wd.xinds.length = 1 ∧ realSteep.steepest = true ∧
    uniformDraws {ω | Follows Arith.exact Fun.real realSteep ω s 1 fun j _ => if j = 0 then (2, 2) else (3, 2)} = 1 := by
  obtain ⟨s0, h0, wd, hwd, hlen, hl0⟩ : ∃ s0, generateParticles Arith.exact realSteep (fun _ => 1 / 2) (initState Arith.exact Fun.real realSteep 0) (.int 1)
    (.list [.int 2]) (.list [.int 2]) (.int 0) (.str "exact") none = .ok s0 ∧
      ∃ wd, s0.walk = some wd ∧ wd.xinds.length = 1 ∧ wd.lastPos 0 = some (2, 2) := ⟨_, rfl, _, rfl, rfl, rfl⟩
  have hc : genInputCheck (K := ℝ) (.int 1) (.list [.int 2]) (.list [.int 2]) (.int 0) (.str "exact") =
    .ok (1, [2], [2], .fin ((0 : Int) : ℝ), .exact) := rfl
  have hreach : Reach Arith.exact Fun.real (Enclosed Arith.exact Fun.real 5 5) Draws (InsideSeeds 5 5) realSteep s0 :=
    .generate (.new 0 realSteep_enclosed) (fun _ => by norm_num) hc (by norm_num)
      (by intro x hx y hy; simp at hx hy; subst hx hy; unfold Inside; decide) h0
  refine ⟨s0, wd, hreach, hwd, hlen, rfl, ?_⟩
  rw [C75_law hreach hwd hlen 1 _ (by
    intro i hi
    interval_cases i
    exact hl0)]
  rw [prod_range_one, prod_range_one]
  exact realSteep_sure

/-- C75: two particles, one at the centre and one next to the edge. In one iteration the first moves to the cell ahead and the second stays with
probability one half. -/
example : ∃ (s : PState ℝ) (wd : WalkData ℝ), Reach Arith.exact Fun.real (Enclosed Arith.exact Fun.real 5 5) Draws (InsideSeeds 5 5) realObj s ∧
    s.walk = some wd ∧ wd.xinds.length = 2 ∧ realObj.steepest = false ∧
    uniformDraws {ω | Follows Arith.exact Fun.real realObj ω s 1 fun j i => if i = 0 then (if j = 0 then (2, 2) else (3, 2)) else (1, 1)} =
      ENNReal.ofReal (1 / 2) := by
  obtain ⟨s0, h0, wd, hwd, hlen, hl0, hl1⟩ : ∃ s0, generateParticles Arith.exact realObj (fun _ => 1 / 2) (initState Arith.exact Fun.real realObj 0) (.int 2)
    (.list [.int 2, .int 1]) (.list [.int 2, .int 1]) (.int 0) (.str "exact") none = .ok s0 ∧
      ∃ wd, s0.walk = some wd ∧ wd.xinds.length = 2 ∧ wd.lastPos 0 = some (2, 2) ∧ wd.lastPos 1 = some (1, 1) := ⟨_, rfl, _, rfl, rfl, rfl, rfl⟩
  have hc : genInputCheck (K := ℝ) (.int 2) (.list [.int 2, .int 1]) (.list [.int 2, .int 1]) (.int 0) (.str "exact") =
    .ok (2, [2, 1], [2, 1], .fin ((0 : Int) : ℝ), .exact) := rfl
  have hreach : Reach Arith.exact Fun.real (Enclosed Arith.exact Fun.real 5 5) Draws (InsideSeeds 5 5) realObj s0 :=
    .generate (.new 0 realObj_enclosed) (fun _ => by norm_num) hc (by norm_num)
      (by intro x hx y hy; simp at hx hy; rcases hx with rfl | rfl <;> rcases hy with rfl | rfl <;> (unfold Inside; decide)) h0
  refine ⟨s0, wd, hreach, hwd, hlen, rfl, ?_⟩
  rw [C75_law hreach hwd hlen 1 _ (by
    intro i hi
    interval_cases i
    · exact hl0
    · exact hl1)]
  rw [prod_range_one, prod_range_succ, prod_range_one]
  simp only [if_true, one_ne_zero, if_false, Nat.zero_add]
  rw [realObj_half]
  unfold moveProb
  rw [if_pos (show NearEdge realObj ((1, 1) : Int × Int).1.toNat ((1, 1) : Int × Int).2.toNat from realObj_near), if_pos rfl, mul_one]

end Dorado
