import Verif.Lemmas.Reach
import Verif.Spec.Walk

/-! Helper lemmas: invariants of consecutive records along call histories, and what one move is. -/

set_option linter.unusedSectionVars false

namespace Dorado

variable {K : Type} [Field K] [LinearOrder K] [IsStrictOrderedRing K]

/-! ## Records of rows -/

/-- Record `n` of a row. -/
def Row.recAt (r : Row K) (n : Nat) (p : Int × Int) (t : Fl K) : Prop :=
  r.xs[n]? = some p.1 ∧ r.ys[n]? = some p.2 ∧ r.ts[n]? = some t

/-- Equal non-zero lengths. -/
def Row.aligned (r : Row K) : Prop := r.ys.length = r.xs.length ∧ r.ts.length = r.xs.length ∧ 0 < r.xs.length

theorem getLast?_eq_getElem?' {α : Type} {l : List α} {a : α} (h : l.getLast? = some a) : l[l.length - 1]? = some a := by
  rw [← h, List.getLast?_eq_getElem?]

theorem Row.last_rec {r : Row K} (ha : r.aligned) {p : Int × Int} {t : Fl K} (hp : r.lastPos p) (ht : r.ts.getLast? = some t) :
    r.recAt (r.xs.length - 1) p t := by
  obtain ⟨h1, h2, h3⟩ := ha
  refine ⟨getLast?_eq_getElem?' hp.1, ?_, ?_⟩
  · have := getLast?_eq_getElem?' hp.2; rwa [h1] at this
  · have := getLast?_eq_getElem?' ht; rwa [h2] at this

theorem Row.append_aligned {r : Row K} (ha : r.aligned) (q : Int × Int) (t : Fl K) (v : String → Val K) :
    (r.append q t v).aligned := by
  obtain ⟨h1, h2, h3⟩ := ha
  simp [Row.append, Row.aligned, h1, h2]

theorem Row.append_rec {r : Row K} (ha : r.aligned) {q : Int × Int} {t : Fl K} {v : String → Val K} {n : Nat} {p : Int × Int} {t' : Fl K} :
    (r.append q t v).recAt n p t' ↔ r.recAt n p t' ∨ (n = r.xs.length ∧ p = q ∧ t' = t) := by
  obtain ⟨h1, h2, h3⟩ := ha
  unfold Row.append Row.recAt
  simp only [List.getElem?_append]
  rw [h1, h2]
  rcases lt_trichotomy n r.xs.length with h | h | h
  · simp only [h, if_true]
    constructor
    · exact Or.inl
    · rintro (h' | ⟨h', -⟩)
      · exact h'
      · omega
  · subst h
    simp only [lt_irrefl, if_false, Nat.sub_self, List.getElem?_cons_zero, Option.some.injEq, true_and]
    constructor
    · rintro ⟨a, b, c⟩; exact Or.inr ⟨Prod.ext a.symm b.symm, c.symm⟩
    · rintro (⟨h', -⟩ | ⟨rfl, rfl⟩)
      · rw [List.getElem?_eq_none (le_refl _)] at h'; cases h'
      · exact ⟨rfl, rfl, rfl⟩
  · have hn : ¬ n < r.xs.length := by omega
    have h1' : n - r.xs.length ≠ 0 := by omega
    simp only [hn, if_false]
    constructor
    · rintro ⟨a, -⟩
      rw [List.getElem?_eq_none (by simp; omega)] at a
      cases a
    · rintro (⟨h', -⟩ | ⟨h', -⟩)
      · rw [List.getElem?_eq_none (by omega)] at h'; cases h'
      · omega

theorem Row.rec_lt {r : Row K} {n : Nat} {p : Int × Int} {t : Fl K} (h : r.recAt n p t) : n < r.xs.length :=
  (List.getElem?_eq_some_iff.1 h.1).1

theorem Row.rec_unique {r : Row K} {n : Nat} {p q : Int × Int} {t t' : Fl K} (h : r.recAt n p t) (h' : r.recAt n q t') :
    p = q ∧ t = t' := by
  obtain ⟨a, b, c⟩ := h
  obtain ⟨a', b', c'⟩ := h'
  rw [a] at a'; rw [b] at b'; rw [c] at c'
  injection a' with a'; injection b' with b'; injection c' with c'
  exact ⟨Prod.ext a' b', c'⟩

/-- Row invariant: every record satisfies `I`, consecutive ones are different positions related by `R`. -/
structure RowInv (I : Int × Int → Fl K → Prop) (R : Int × Int → Fl K → Int × Int → Fl K → Prop) (r : Row K) : Prop where
  aligned : r.aligned
  recs : ∀ n p t, r.recAt n p t → I p t
  pairs : ∀ n p t q t', r.recAt n p t → r.recAt (n + 1) q t' → q ≠ p ∧ R p t q t'

theorem seedRow_inv {P : PObj K} {xy : Int × Int} {t : Fl K} {r : Row K} {I : Int × Int → Fl K → Prop}
    {R : Int × Int → Fl K → Int × Int → Fl K → Prop} (h : SeedRow P xy t r) (hI : I xy t) : RowInv I R r := by
  obtain ⟨h1, h2, h3, -⟩ := h
  refine ⟨by simp [Row.aligned, h1, h2, h3], fun n p t' hr => ?_, fun n p t q t' _ hr => ?_⟩
  · have hlt := r.rec_lt hr
    rw [h1] at hlt
    simp at hlt
    subst hlt
    obtain ⟨a, b, c⟩ := hr
    rw [h1] at a; rw [h2] at b; rw [h3] at c
    simp at a b c
    have : p = xy := Prod.ext a.symm b.symm
    rw [this, ← c]; exact hI
  · have hlt := r.rec_lt hr
    rw [h1] at hlt
    simp at hlt

section reach
variable {A : Arith K} {F : Fun K A}

theorem rowStep_inv {P : PObj K} {ω : Nat → K} {I : Int × Int → Fl K → Prop} {R : Int × Int → Fl K → Int × Int → Fl K → Prop}
    (hstep : ∀ p t q t', I p t → StepOf A F P ω p t q t' → q ≠ p → I q t' ∧ R p t q t')
    {r r' : Row K} (h : RowInv I R r) (hs : RowStep A F P ω r r') : RowInv I R r' := by
  obtain ⟨p, t, q, t', v, hp, ht, hst, hne, -, rfl⟩ := hs
  have hl := r.last_rec h.aligned hp ht
  obtain ⟨h1, h2⟩ := hstep p t q t' (h.recs _ _ _ hl) hst hne
  refine ⟨r.append_aligned h.aligned _ _ _, fun n p' t'' hr => ?_, fun n p1 t1 q1 t1' ha hb => ?_⟩
  · rcases (Row.append_rec h.aligned).1 hr with hr | ⟨-, rfl, rfl⟩
    · exact h.recs _ _ _ hr
    · exact h1
  · rcases (Row.append_rec h.aligned).1 ha with ha' | ⟨ha', -⟩
    · rcases (Row.append_rec h.aligned).1 hb with hb' | ⟨hb', e1, e2⟩
      · exact h.pairs _ _ _ _ _ ha' hb'
      · have hn : n = r.xs.length - 1 := by omega
        rw [hn] at ha'
        obtain ⟨e3, e4⟩ := Row.rec_unique ha' hl
        rw [e1, e2, e3, e4]
        exact ⟨hne, h2⟩
    · rcases (Row.append_rec h.aligned).1 hb with hb' | ⟨hb', -⟩
      · have := r.rec_lt hb'; omega
      · omega

variable [FloorRing K] {Ob : PObj K → Prop} {Ω : (Nat → K) → Prop} {Sd : PObj K → List Int → List Int → Fl K → Prop}

/-- Record invariants hold along every history. -/
theorem Reach.walk (hG : ∀ P, Ob P → Good P) {I : Int × Int → Fl K → Prop} {R : Int × Int → Fl K → Int × Int → Fl K → Prop}
    (hseed : ∀ P xs ys t x y, Ob P → Sd P xs ys t → x ∈ xs → y ∈ ys → I (x, y) t)
    (hstep : ∀ P ω p t q t', Ob P → Ω ω → I p t → StepOf A F P ω p t q t' → q ≠ p → I q t' ∧ R p t q t')
    {P : PObj K} {s : PState K} (h : Reach A F Ob Ω Sd P s) {wd : WalkData K} (hwd : s.walk = some wd) :
    ∃ rows, wd = ofRows (keysOf P) rows ∧ s.np = rows.length ∧ ∀ r ∈ rows, RowInv I R r := by
  have := Reach.rows hG (Q := RowInv I R) (fun P xs ys t x y r hO hS hx hy hr => seedRow_inv hr (hseed P xs ys t x y hO hS hx hy))
    (fun P ω r r' hO hΩ hQ hs => rowStep_inv (fun p t q t' => hstep P ω p t q t' hO hΩ) hQ hs) h
  rcases this.2 with h0 | ⟨rows, ⟨h1, h1'⟩, h2⟩
  · rw [h0] at hwd; cases hwd
  · rw [h1] at hwd
    injection hwd with hwd
    exact ⟨rows, hwd.symm, h1', h2⟩

end reach

/-! ## Reading walk data -/

theorem posAt_ofRows {keys : List String} {rows : List (Row K)} {i n : Nat} {p : Int × Int} :
    (ofRows keys rows).posAt i n = some p ↔ ∃ r, rows[i]? = some r ∧ r.xs[n]? = some p.1 ∧ r.ys[n]? = some p.2 := by
  unfold WalkData.posAt ofRows
  simp only [List.getElem?_map]
  cases h : rows[i]? with
  | none => simp
  | some r =>
    cases hx : r.xs[n]? with
    | none => simp [hx]
    | some x =>
      cases hy : r.ys[n]? with
      | none => simp [hx, hy]
      | some y => simp [hx, hy, Prod.ext_iff]

theorem timeAt_ofRows {keys : List String} {rows : List (Row K)} {i n : Nat} {t : Fl K} :
    (ofRows keys rows).timeAt i n = some t ↔ ∃ r, rows[i]? = some r ∧ r.ts[n]? = some t := by
  unfold WalkData.timeAt ofRows
  simp only [List.getElem?_map]
  cases h : rows[i]? <;> simp

theorem valAt_ofRows {keys : List String} {rows : List (Row K)} {var : String} {i n : Nat} {v : Val K} :
    (ofRows keys rows).valAt var i n = some v ↔ var ∈ keys ∧ ∃ r, rows[i]? = some r ∧ (r.os var)[n]? = some v := by
  unfold WalkData.valAt ofRows
  simp only [dictGet_dictOf]
  by_cases hv : var ∈ keys
  · simp only [hv, if_true, true_and, Option.bind_eq_bind, Option.bind_some, List.getElem?_map]
    cases h : rows[i]? <;> simp
  · simp [hv]

/-- Positions determine the time of a record. -/
theorem rec_of_pos {r : Row K} (ha : r.aligned) {n : Nat} {p : Int × Int} (hx : r.xs[n]? = some p.1) (hy : r.ys[n]? = some p.2) :
    ∃ t, r.ts[n]? = some t ∧ r.recAt n p t := by
  have hlt := (List.getElem?_eq_some_iff.1 hx).1
  exact ⟨r.ts[n]'(by rw [ha.2.1]; exact hlt), List.getElem?_eq_getElem _, hx, hy, List.getElem?_eq_getElem _⟩

/-! ## One move -/

section move
variable {A : Arith K} {F : Fun K A}

/-- Content of a move: the chosen neighbour, the offsets and the travel time. -/
structure Move (A : Arith K) (F : Fun K A) (P : PObj K) (ω : Nat → K) (p : Int × Int) (t : Fl K) (q : Int × Int) (t' : Fl K) (i j k : Nat)
    (r : K) : Prop where
  row : pyIdx P.stage.rows p.1 = .ok i
  col : pyIdx P.stage.cols p.2 = .ok j
  draw : ∃ n, r = ω n
  pick : pickFrom A (maskOf P (makeWeight A F P i j)) r = .ok k
  lt : k < 9
  ne4 : k ≠ 4
  dest : q = (p.1 + P.jwalk k, p.2 + P.iwalk k)
  noEdge : edgeInWindow P.cellType p.1 p.2 = false
  time : ∃ m m' dt, calcTravelTime A F P ω m k p q (A.mul (P.distances k) (.fin P.dx)) = .ok (dt, m') ∧ t' = A.add t dt

theorem StepOf.move {P : PObj K} (hz : StepsNonzero A P) {ω : Nat → K} {p q : Int × Int} {t t' : Fl K}
    (h : StepOf A F P ω p t q t') (hne : q ≠ p) : ∃ i j k r, Move A F P ω p t q t' i j k r := by
  obtain ⟨k, q0, d, m, m', dt, hc, hq0, hd, hq, ht, rfl⟩ := h
  have hk : k < 9 ∧ A.mul (P.distances k) (.fin P.dx) = d := by
    unfold stepUpdate flat9 at hd
    simp only [bind_ok, pure_ok] at hd
    obtain ⟨a, ha, rfl⟩ := hd
    split at ha
    · injection ha with ha; subst ha; exact ⟨‹_›, rfl⟩
    · cases ha
  obtain ⟨hk, rfl⟩ := hk
  have hzd : zeroDist q0 (A.mul (P.distances k) (.fin P.dx)) = q0 := by
    unfold zeroDist
    rw [if_neg]
    have := hz k hk
    intro hh
    cases hm : A.mul (P.distances k) (.fin P.dx) <;> rw [hm] at hh this <;> simp [Fl.eq] at hh
    exact this (by rw [hh])
  rw [hzd] at hq
  unfold checkForBoundary1 at hq
  have hedge : edgeInWindow P.cellType p.1 p.2 = false := by
    by_contra he
    rw [if_pos (by simpa using he)] at hq
    exact hne hq
  rw [hedge] at hq
  simp only [Bool.false_eq_true, if_false] at hq
  have h4 : k ≠ 4 := by
    rintro rfl
    unfold newInd1 at hq0
    simp at hq0
    exact hne (by rw [hq, hq0])
  have hdest : q = (p.1 + P.jwalk k, p.2 + P.iwalk k) := by
    unfold newInd1 calculateNewInd flat9 at hq0
    rw [if_pos h4, if_pos hk, if_pos hk] at hq0
    simp only [ok_bind, pure_ok] at hq0
    rw [hq, ← hq0]
  rcases hc with ⟨-, h'⟩ | ⟨-, n, i, j, hi, hj, hpick⟩
  · exact absurd h' h4
  · exact ⟨i, j, k, ω n, hi, hj, ⟨n, rfl⟩, hpick, hk, h4, hdest, hedge, m, m', dt, ht, rfl⟩

/-- The nine masked weights as numbers. -/
theorem mask_vec {P : PObj K} (G : Good P) {i j : Nat} (hi : i < P.stage.rows) (hj : j < P.stage.cols) :
    ∃ x : Nat → K, (∀ k, k < 9 → maskOf P (makeWeight A F P i j) k = .fin (x k)) ∧ (∀ k, k < 9 → 0 ≤ x k) ∧
      ∀ k, k < 9 → A.rnd (x k) = x k := by
  have key : ∀ k, k < 9 → ∃ x, maskOf P (makeWeight A F P i j) k = .fin x ∧ 0 ≤ x ∧ A.rnd x = x := by
    intro k hk
    unfold maskOf
    split
    · exact steepMask_NN A (fun k hk => fresh_NN A F G hi hj hk) hk
    · exact (fresh_NN A F G hi hj hk).nanTo0
  refine ⟨fun k => match maskOf P (makeWeight A F P i j) k with | .fin x => x | _ => 0, ?_, ?_, ?_⟩ <;>
  · intro k hk
    obtain ⟨x, hx, h0, hr⟩ := key k hk
    simp [hx, h0, hr]

/-- A positive masked weight is the weight itself. -/
theorem mask_pos {P : PObj K} (G : Good P) {i j : Nat} (hi : i < P.stage.rows) (hj : j < P.stage.cols) {k : Nat} (hk : k < 9)
    {x : K} (hx : maskOf P (makeWeight A F P i j) k = .fin x) (h0 : 0 < x) : makeWeight A F P i j k = .fin x := by
  unfold maskOf at hx
  split at hx
  · rcases nanmax9_spec A (p := makeWeight A F P i j) (fun k hk => fresh_NN A F G hi hj hk) with ⟨h1, h2⟩ | ⟨m, h1, h2, h3, -⟩
    · rw [steepMask_allNan h2 h1 hk] at hx
      injection hx with hx
      exact absurd hx h0.ne
    · rw [steepMask_eq A (fun k hk => fresh_NN A F G hi hj hk) h1 h3 hk] at hx
      split at hx
      · rename_i h; rw [h.2]; exact hx
      · injection hx with hx; exact absurd hx h0.ne
  · unfold zeroNan Fl.nanTo0 at hx
    cases hw : makeWeight A F P i j k <;> rw [hw] at hx <;> simp [Fl.isNan] at hx
    · exact absurd hx h0.ne
    · rw [hx]

theorem steep_mask_val {P : PObj K} (G : Good P) (hs : P.steepest = true) {i j : Nat} (hi : i < P.stage.rows) (hj : j < P.stage.cols)
    {k : Nat} (hk : k < 9) (h4 : k ≠ 4) {x : K} (hx : makeWeight A F P i j k = .fin x)
    (hmax : ∀ m y, m < 9 → makeWeight A F P i j m = .fin y → y ≤ x) :
    maskOf P (makeWeight A F P i j) k = .fin x := by
  unfold maskOf
  rw [if_pos hs]
  rcases nanmax9_spec A (p := makeWeight A F P i j) (fun k hk => fresh_NN A F G hi hj hk) with ⟨h1, h2⟩ | ⟨m, h1, h2, h3, k0, hk0, hk0'⟩
  · rw [h2 k hk] at hx; cases hx
  · rw [steepMask_eq A (fun k hk => fresh_NN A F G hi hj hk) h1 h3 hk]
    have : m = x := le_antisymm (hmax k0 m hk0 hk0') (h3 k x hk hx)
    subst this
    rw [if_pos ⟨h4, hx⟩]

/-- Some masked weight is positive: always in the weighted mode, and in steepest-descent mode unless the cell itself is the only
maximum. -/
theorem mask_some_pos {P : PObj K} (G : Good P) {i j : Nat} (h : Interior P i j)
    (hself : P.steepest = true → ∃ k x, k < 9 ∧ k ≠ 4 ∧ makeWeight A F P i j k = .fin x ∧ 0 < x ∧
      ∀ y, makeWeight A F P i j 4 = .fin y → y ≤ x) :
    ∃ k x, k < 9 ∧ maskOf P (makeWeight A F P i j) k = .fin x ∧ 0 < x := by
  have hi : i < P.stage.rows := by have := G.stage_rows; have := h.2.1; omega
  have hj : j < P.stage.cols := by have := G.stage_cols; have := h.2.2.2; omega
  by_cases hs : P.steepest = true
  · rcases nanmax9_spec A (p := makeWeight A F P i j) (fun k hk => fresh_NN A F G hi hj hk) with ⟨h1, h2⟩ | ⟨m, h1, h2, h3, k0, hk0, hk0'⟩
    · obtain ⟨k, hk, x, hx, -⟩ := makeWeight_some_pos A F G h
      rw [h2 k hk] at hx; cases hx
    · obtain ⟨k1, x1, hk1, hk14, hx1, hx1p, hx1m⟩ := hself hs
      have hmpos : 0 < m := lt_of_lt_of_le hx1p (h3 k1 x1 hk1 hx1)
      by_cases h04 : k0 = 4
      · subst h04
        have : m = x1 := le_antisymm (hx1m m hk0') (h3 k1 x1 hk1 hx1)
        subst this
        exact ⟨k1, m, hk1, steep_mask_val G hs hi hj hk1 hk14 hx1 (fun a y ha hy => h3 a y ha hy), hmpos⟩
      · exact ⟨k0, m, hk0, steep_mask_val G hs hi hj hk0 h04 hk0' (fun a y ha hy => h3 a y ha hy), hmpos⟩
  · obtain ⟨k, hk, x, hx, hx0⟩ := makeWeight_some_pos A F G h
    refine ⟨k, x, hk, ?_, hx0⟩
    unfold maskOf
    rw [if_neg hs]
    simp [zeroNan, hx, Fl.nanTo0, Fl.isNan]

/-- A non-zero draw picks a neighbour of positive (masked) weight. -/
theorem pick_positive {P : PObj K} (G : Good P) {i j : Nat} (hi : i < P.stage.rows) (hj : j < P.stage.cols)
    {r : K} (hr : 0 ≤ r) (hr1 : r < 1) (hnz : NonzeroDraw A r) (hpos : ∃ k x, k < 9 ∧ maskOf P (makeWeight A F P i j) k = .fin x ∧ 0 < x)
    {k : Nat} (h : pickFrom A (maskOf P (makeWeight A F P i j)) r = .ok k) :
    ∃ x, makeWeight A F P i j k = .fin x ∧ maskOf P (makeWeight A F P i j) k = .fin x ∧ 0 < x := by
  obtain ⟨x, hx, hx0, hxr⟩ := mask_vec (A := A) (F := F) G hi hj
  have hk := pickFrom_lt A hx hx0 (hxr 0 (by omega)) hr1 h
  obtain ⟨k0, y, hk0, hy, hy0⟩ := hpos
  have hyx : y = x k0 := by rw [hx k0 hk0] at hy; injection hy with hy; exact hy.symm
  have hsum : 0 < csum A x 8 := by
    have h1 : x k0 ≤ csum A x k0 := csum_ge A (n := 8) (fun k hk => hxr k (by omega)) (fun k hk => hx0 k (by omega)) (by omega)
    have h2 : csum A x k0 ≤ csum A x 8 := csum_mono A (hxr 0 (by omega)) (n := 8) (fun k hk => hx0 k (by omega)) (by omega) (le_refl _)
    rw [← hyx] at h1
    linarith
  have hp := pickFrom_pos A hx hx0 (hxr 0 (by omega)) hr hr1 (hnz _ hsum (csum_rep A (hxr 0 (by omega)) 8)) h
  exact ⟨x k, mask_pos G hi hj hk (hx k hk) hp, hx k hk, hp⟩

theorem default_dest {P : PObj K} (hw : DefaultWalk P) {a b k : Nat} (hk : k < 9) (ha : 1 ≤ a) (hb : 1 ≤ b) :
    (((a : Int) + P.jwalk k, (b : Int) + P.iwalk k) : Int × Int) = (((Flow.nr a k : Nat) : Int), ((Flow.nc b k : Nat) : Int)) := by
  rw [hw.1, hw.2]
  unfold Flow.nr Flow.nc defaultIwalk defaultJwalk
  have : k = 0 ∨ k = 1 ∨ k = 2 ∨ k = 3 ∨ k = 4 ∨ k = 5 ∨ k = 6 ∨ k = 7 ∨ k = 8 := by omega
  rcases this with rfl | rfl | rfl | rfl | rfl | rfl | rfl | rfl | rfl <;> simp <;> omega

/-- The index of a non-negative in-range position. -/
theorem pyIdx_cast {n a i : Nat} (ha : a < n) (h : pyIdx n (a : Int) = .ok i) : i = a := by
  rw [pyIdx_nonneg (by omega) (by omega)] at h
  injection h with h
  simpa using h.symm

end move

end Dorado
