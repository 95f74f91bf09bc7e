import Verif.Props.Accept
import Verif.Props.Init
import Verif.Props.Seed
import Verif.Lemmas.Figures

/-!
# Unsteady flow (C62)
-/

set_option linter.unusedSectionVars false

namespace Dorado

variable {K : Type} [Field K] [LinearOrder K] [IsStrictOrderedRing K] [FloorRing K] {A : Arith K} {F : Fun K A}

/-! ## Files -/

theorem listing_get {dir : List (String × FileData K)} {pre : String} {i : Nat} {d : FileData K} (h : (listing dir pre)[i]? = some d) :
    FileNo dir pre i d := by
  unfold listing at h
  rw [List.getElem?_map] at h
  obtain ⟨⟨name, d'⟩, he, hd⟩ := Option.map_eq_some_iff.1 h
  simp only at hd
  subst hd
  refine ⟨_, List.perm_insertionSort _ _, ?_, name, he⟩
  have : Std.Total (fun a b : String × FileData K => a.1.toList ≤ b.1.toList) := ⟨fun a b => List.le_total _ _⟩
  have : IsTrans (String × FileData K) (fun a b => a.1.toList ≤ b.1.toList) := ⟨fun a b c => List.le_trans⟩
  exact List.pairwise_insertionSort _ _

theorem listing_length (dir : List (String × FileData K)) (pre : String) : (listing dir pre).length = filesWith dir pre := by
  unfold listing filesWith
  rw [List.length_map, List.length_insertionSort, List.countP_eq_length_filter]

theorem numOutputs_eq (dir : List (String × FileData K)) : numOutputs dir = max (filesWith dir "depth") (filesWith dir "data") := by
  unfold numOutputs
  rw [listing_length, listing_length]

theorem loadArray_inv {l : List (FileData K)} {i : Nat} {g : Grid (Fl K)} (h : loadArray l i = .ok g) : l[i]? = some (.array g) := by
  unfold loadArray at h
  simp only [bind_ok, listGet_ok] at h
  obtain ⟨f, hf, h⟩ := h
  cases f with
  | array g' => cases h; exact hf
  | npz _ => cases h
  | dir => cases h

theorem npzField_inv {l : List (String × Grid (Fl K))} {n : String} {g : Grid (Fl K)} (h : npzField l n = .ok g) : dictGet l n = some g := by
  unfold npzField at h
  split at h
  · cases h; assumption
  · cases h

theorem loadStep_inv {dir : List (String × FileData K)} {ot : String} {i : Nat} {f : FlowFields K} (h : loadStep dir ot i = .ok f) :
    FieldNo dir ot i f := by
  unfold loadStep at h
  by_cases h1 : ot = "csv" ∨ ot = "npy"
  · rw [if_pos h1] at h
    simp only [bind_ok, pure_ok] at h
    obtain ⟨d, hd, s, hs, qx, hqx, qy, hqy, rfl⟩ := h
    exact Or.inl ⟨h1, listing_get (loadArray_inv hd), listing_get (loadArray_inv hs), listing_get (loadArray_inv hqx), listing_get (loadArray_inv hqy)⟩
  rw [if_neg h1] at h
  by_cases h2 : ot = "npz"
  · rw [if_pos h2] at h
    simp only [bind_ok, listGet_ok] at h
    obtain ⟨fl, hfl, h⟩ := h
    cases fl with
    | array _ => cases h
    | dir => cases h
    | npz fields =>
      simp only [bind_ok, pure_ok] at h
      obtain ⟨d, hd, s, hs, qx, hqx, qy, hqy, rfl⟩ := h
      exact Or.inr ⟨h2, fields, listing_get hfl, npzField_inv hd, npzField_inv hs, npzField_inv hqx, npzField_inv hqy⟩
  · rw [if_neg h2] at h
    cases h

/-! ## One step -/

/-- All flow fields of the directory consist of finite values and NaN. -/
def CleanFields (dir : List (String × FileData K)) (ot : String) : Prop :=
  ∀ i f, FieldNo dir ot i f → f.depth.FinOrNan ∧ f.stage.FinOrNan ∧ f.qx.FinOrNan ∧ f.qy.FinOrNan

theorem stepParams_valid {dx : K} {f : FlowFields K} (h : f.depth.FinOrNan ∧ f.stage.FinOrNan ∧ f.qx.FinOrNan ∧ f.qy.FinOrNan) :
    ValidParams (stepParams dx f) where
  depth := by intro g hg; cases hg; exact h.1
  stage := by intro g hg; cases hg; exact h.2.1
  topography := by intro g hg; cases hg
  qx := by intro g hg; cases hg; exact h.2.2.1
  qy := by intro g hg; cases hg; exact h.2.2.2
  u := by intro g hg; cases hg
  v := by intro g hg; cases hg
  gamma := by intro g hg; cases hg
  dryDepth := by intro g hg; cases hg
  distances := by intro g hg; cases hg
  ivec := by intro g hg; cases hg
  jvec := by intro g hg; cases hg

theorem step_vars {dx : K} {f : FlowFields K} {P : PObj K} (h : initParticles A F (stepParams dx f) = .ok P) : P.particleVars = [] := by
  obtain ⟨u, v, hp⟩ := init_parts A F h
  rw [hp.vars]
  rfl

theorem step_keys {P : PObj K} (h : P.particleVars = []) : keysOf P = [] := by
  unfold keysOf
  rw [h]
  rfl

/-- Rows of a walk without optional variables. -/
theorem extends_rows {rows rows' : List (Row K)} (hl : rows'.length = rows.length) {P : PObj K} {ω : Nat → K}
    (h : ∀ (i : Nat) r, rows[i]? = some r → ∃ r', rows'[i]? = some r' ∧ RowSteps A F P ω r r') {ks : List String} :
    ExtendsWalk (ofRows ks rows) (ofRows ks rows') := by
  refine ⟨by simp [ofRows, hl], fun i xs ys ts hli => ?_⟩
  obtain ⟨r, hr, he⟩ := lists_ofRows.1 hli
  obtain ⟨r', hr', hs⟩ := h i r hr
  simp only [Prod.mk.injEq] at he
  obtain ⟨rfl, rfl, rfl⟩ := he
  exact ⟨_, _, _, lists_ofRows.2 ⟨r', hr', rfl⟩, hs.prefix.xs, hs.prefix.ys, hs.prefix.ts⟩

/-- What is known about a walk inside the run: it is held by a reachable state of an object without optional variables. -/
def Held (A : Arith K) (F : Fun K A) (Ob : PObj K → Prop) (Ω : (Nat → K) → Prop) (Sd : PObj K → List Int → List Int → Fl K → Prop)
    (w : WalkData K) : Prop :=
  ∃ P s, Reach A F Ob Ω Sd P s ∧ P.particleVars = [] ∧ s.walk = some w

theorem stepSeed_reach {Ob : PObj K → Prop} {Ω : (Nat → K) → Prop} {Sd : PObj K → List Int → List Int → Fl K → Prop} {ω : Nat → K} (hω : Ω ω)
    {N : Nat} {xs ys : List Int} (hG : ∀ P, Ob P → Built A F P) {P : PObj K} (hOb : Ob P) (hvars : P.particleVars = [])
    (hS : ∀ P, Ob P → Sd P xs ys (.fin 0)) (hS0 : ∀ P, Ob P → Sd P [] [] (.fin 0)) {st : FlowLoop K}
    (hheld : ∀ w, st.1 = some w → Held A F Ob Ω Sd w) {s1 : PState K}
    (hs1 : stepSeed A F P ω st.2 (.int N) (.list (xs.map .int)) (.list (ys.map .int)) st.1 = .ok s1) :
    Reach A F Ob Ω Sd P s1 ∧ s1.walk ≠ none ∧ (∀ w0, st.1 = some w0 → s1.walk = some w0) ∧ (st.1 = none → s1.np = N) := by
  have hGood : ∀ P, Ob P → Good P := fun P hP => (hG P hP).good
  unfold stepSeed at hs1
  cases hst : st.1 with
  | none =>
    rw [hst] at hs1
    have hc := check_zero (K := K) N xs ys
    have hR : Reach A F Ob Ω Sd P s1 := .generate (.new st.2 hOb) hω hc (by positivity) (hS P hOb) hs1
    obtain ⟨new, hrows, -, hlen, -⟩ := generate_rows A (old := []) (prev := []) hc (by positivity) (Or.inl ⟨rfl, rfl⟩) (Or.inl ⟨rfl, rfl⟩) hs1
    refine ⟨hR, by rw [hrows.1]; simp, by simp, fun _ => ?_⟩
    rw [hrows.2]
    simpa using hlen
  | some w0 =>
    rw [hst] at hs1
    obtain ⟨P0, s0, hr0, hv0, hw0⟩ := hheld w0 hst
    have hc := check_zero (K := K) 0 [] []
    have hR : Reach A F Ob Ω Sd P s1 := .continue (.new st.2 hOb) hr0 hw0 (by rw [hv0, hvars]) hω hc le_rfl (hS0 P hOb) hs1
    rcases (hr0.state hGood).2 with h0 | ⟨rows0, hrows0⟩
    · rw [h0] at hw0; cases hw0
    have hprev : w0 = ofRows (keysOf P) rows0 := by
      have := hrows0.1
      rw [hw0, step_keys hv0] at this
      rw [step_keys hvars]
      exact Option.some.inj this
    obtain ⟨new, hrows, -, hlen, -⟩ := generate_rows A (old := []) (prev := rows0) hc le_rfl (Or.inl ⟨rfl, rfl⟩) (Or.inr (by rw [hprev])) hs1
    have hnew : new = [] := List.length_eq_zero_iff.1 hlen
    rw [hnew] at hrows
    simp only [List.append_nil] at hrows
    refine ⟨hR, by rw [hrows.1]; simp, fun w hw => ?_, by simp⟩
    cases hw
    rw [hrows.1, hprev]

/-- What figure `i` of `unsteady_plots` shows: the time `t + i*t`, the water depth of flow field `i` with zero for missing values, and markers at the first and newest records of the
walks `w` after step `i`. -/
structure FlowFigure (A : Arith K) (t : K) (dir : List (String × FileData K)) (ot : String) (i : Nat) (w : WalkData K) (fig : FlowFig K) : Prop where
  number : fig.number = i
  time : fig.time = A.add (.fin t) (A.mul (.fin (A.rnd (i : K))) (.fin t))
  depth : ∃ f, FieldNo dir ot i f ∧ fig.depth.rows = f.depth.rows ∧ fig.depth.cols = f.depth.cols ∧
    ∀ a b, fig.depth.at' a b = if f.depth.at' a b = .nan then .fin 0 else f.depth.at' a b
  pts : AtNewest w fig.pts
  start : AtStart w fig.start

theorem Held.aligned {Ob : PObj K → Prop} {Ω : (Nat → K) → Prop} {Sd : PObj K → List Int → List Int → Fl K → Prop} (hG : ∀ P, Ob P → Built A F P)
    {w : WalkData K} (h : Held A F Ob Ω Sd w) : AlignedWalk w := by
  obtain ⟨P, s, hr, -, hw⟩ := h
  exact (C54_reachable (hr.mono hG) hw 0).1

theorem flowStep {Ob : PObj K → Prop} {Ω : (Nat → K) → Prop} {Sd : PObj K → List Int → List Int → Fl K → Prop} {ω : Nat → K} (hω : Ω ω)
    {dx t : K} {len : Nat} {dir : List (String × FileData K)} {ot : String} {N : Nat} {xs ys : List Int}
    (hO : ∀ i f P, FieldNo dir ot i f → initParticles A F (stepParams dx f) = .ok P → Ob P) (hG : ∀ P, Ob P → Built A F P)
    (hS : ∀ P, Ob P → Sd P xs ys (.fin 0)) (hS0 : ∀ P, Ob P → Sd P [] [] (.fin 0))
    {st st' : FlowLoop K} {i : Nat} (hi : st.walk = none ↔ i = 0) (hheld : ∀ w, st.walk = some w → Held A F Ob Ω Sd w)
    (h : unsteadyStep A F ω dx t len dir ot (.int N) (.list (xs.map .int)) (.list (ys.map .int)) st i = .ok st') :
    ∃ w, st'.walk = some w ∧ FlowStep A F ω dx t dir ot N xs ys i st.walk w ∧ Held A F Ob Ω Sd w ∧ (∀ w0, st.walk = some w0 → ExtendsWalk w0 w) ∧
      (st.walk = none → w.xinds.length = N) ∧
      ∃ fig, st'.figs = st.figs ++ [fig] ∧ st'.start = fig.start ∧ ((∀ w0, st.walk = some w0 → AtStart w0 st.start) → FlowFigure A t dir ot i w fig) := by
  unfold unsteadyStep at h
  simp only [bind_ok] at h
  obtain ⟨f, hf, P, hP, s1, hs1, tgt, htgt, r, hr, g, hg, p, hp, m, hm, h⟩ := h
  have hf' := loadStep_inv hf
  have hOb := hO i f P hf' hP
  have hGood : ∀ P, Ob P → Good P := fun P hP => (hG P hP).good
  simp only [pure, Except.pure, Except.ok.injEq] at h
  have hret : st'.walk = some r.returned := by
    rw [← h]
  have hvars := step_vars hP
  have htgt' : tgt = A.add (.fin t) (A.mul (.fin (A.rnd (i : K))) (.fin t)) := by
    unfold targetTime at htgt
    split at htgt
    · cases htgt; rfl
    · cases htgt
  have key := stepSeed_reach hω hG hOb hvars hS hS0 hheld hs1
  obtain ⟨hR, hne, hsame, hnp⟩ := key
  obtain ⟨hpe, h0 | ⟨rows, hrows⟩⟩ := hR.state hGood
  · exact absurd h0 hne
  obtain ⟨-, rows', hlen, hretr, hwalk, -, hout⟩ := runIteration_inv A F (hGood P hOb) hpe hrows.1 (Or.inl hrows.2) hr
  have hext : ∀ w0, st.walk = some w0 → ExtendsWalk w0 r.returned := fun w0 hw0 => by
    have := hsame w0 hw0
    rw [hrows.1] at this
    cases this
    rw [hretr]
    exact extends_rows hlen fun i r hr => hout.steps A F hr
  have hheld' : Held A F Ob Ω Sd r.returned := ⟨P, r.state, .run hR hω hr, hvars, by rw [hretr, hwalk]⟩
  have hdep : P.depth.rows = f.depth.rows ∧ P.depth.cols = f.depth.cols ∧
      ∀ a b, P.depth.at' a b = if f.depth.at' a b = .nan then .fin 0 else f.depth.at' a b := by
    obtain ⟨_, _, parts⟩ := init_parts A F hP
    have hd : nanZeroGrid f.depth = P.depth := Except.ok.inj parts.depth
    rw [← hd]
    refine ⟨rfl, rfl, fun a b => ?_⟩
    simp only [nanZeroGrid, Grid.map, Fl.nanTo0]
    cases f.depth.at' a b <;> simp [Fl.isNan]
  refine ⟨r.returned, hret, ⟨f, P, st.pos, s1, r, hf', hP, ?_, by rw [← htgt']; exact hr, rfl⟩, hheld', hext, fun hst => ?_,
    ⟨i, tgt, P.depth, m, p.2.1.zip p.1⟩, by rw [← h], by rw [← h], fun hst => ⟨rfl, htgt', ⟨f, hf', hdep⟩, newest_of_slice (hheld'.aligned hG) hg hp, ?_⟩⟩
  · cases hst : st.walk with
    | none =>
      refine ⟨hi.1 hst, ?_⟩
      rw [hst] at hs1
      exact hs1
    | some w0 =>
      refine ⟨Nat.pos_of_ne_zero fun h0 => ?_, hsame w0 hst⟩
      rw [hi.2 h0] at hst
      cases hst
  · rw [hretr]
    simp only [ofRows, List.length_map]
    rw [hlen, ← hrows.2, hnp hst]
  · show AtStart r.returned m
    cases hw : st.walk with
    | none =>
      have h0 := hi.1 hw
      subst h0
      exact startMarks_first (hheld'.aligned hG) hm
    | some w0 =>
      have h0 : i ≠ 0 := fun h0 => by rw [hi.2 h0] at hw; cases hw
      rw [startMarks_later h0 hm]
      exact (hst w0 hw).extend ((hheld w0 hw).aligned hG) (hext w0 hw)

/-! ## C62 -/

/-- All steps of the run: the walks `ws` after the steps. -/
structure FlowRun (A : Arith K) (F : Fun K A) (ω : Nat → K) (dx t : K) (dir : List (String × FileData K)) (ot : String) (N : Nat) (xs ys : List Int)
    (ws : List (WalkData K)) : Prop where
  step : ∀ (i : Nat) w, ws[i]? = some w → FlowStep A F ω dx t dir ot N xs ys i (if i = 0 then none else ws[i - 1]?) w
  extend : ∀ (i : Nat) w0 w, ws[i]? = some w0 → ws[i + 1]? = some w → ExtendsWalk w0 w
  number : ∀ w ∈ ws, w.xinds.length = N

theorem flowRun {Ob : PObj K → Prop} {Ω : (Nat → K) → Prop} {Sd : PObj K → List Int → List Int → Fl K → Prop} {ω : Nat → K} (hω : Ω ω)
    {dx t : K} {len : Nat} {dir : List (String × FileData K)} {ot : String} {N : Nat} {xs ys : List Int}
    (hO : ∀ i f P, FieldNo dir ot i f → initParticles A F (stepParams dx f) = .ok P → Ob P) (hG : ∀ P, Ob P → Built A F P)
    (hS : ∀ P, Ob P → Sd P xs ys (.fin 0)) (hS0 : ∀ P, Ob P → Sd P [] [] (.fin 0)) (pos n : Nat) {st : FlowLoop K}
    (h : foldE (unsteadyStep A F ω dx t len dir ot (.int N) (.list (xs.map .int)) (.list (ys.map .int))) ⟨none, pos, [], []⟩ (List.range n) = .ok st) :
    ∃ ws : List (WalkData K), ws.length = n ∧ FlowRun A F ω dx t dir ot N xs ys ws ∧ (∀ w ∈ ws, Held A F Ob Ω Sd w) ∧ st.walk = ws.getLast? ∧
      st.figs.length = n ∧ (∀ w, st.walk = some w → AtStart w st.start) ∧
      ∀ (i : Nat) fig, st.figs[i]? = some fig → ∃ w, ws[i]? = some w ∧ FlowFigure A t dir ot i w fig := by
  induction n generalizing st with
  | zero =>
    cases h
    exact ⟨[], rfl, ⟨by simp, by simp, by simp⟩, by simp, rfl, rfl, by simp, by simp⟩
  | succ n ih =>
    rw [List.range_succ, foldE_append, bind_ok] at h
    obtain ⟨st1, h1, h2⟩ := h
    obtain ⟨ws, hl, hrun, hheld, hlast, hfl, hstart, hfigs⟩ := ih h1
    simp only [foldE, bind_ok] at h2
    obtain ⟨st2, h2, h3⟩ := h2
    cases h3
    have hi : st1.walk = none ↔ n = 0 := by
      rw [hlast, List.getLast?_eq_none_iff, ← hl, List.length_eq_zero_iff]
    obtain ⟨w, hw, hstep, hh, hext, hnum, fig, hfig, hfs, hff⟩ := flowStep hω hO hG hS hS0 hi (fun w hw => hheld w (List.mem_of_getLast? (by rw [← hlast]; exact hw))) h2
    have hlast' : st1.walk = if n = 0 then none else ws[n - 1]? := by
      split_ifs with h0
      · exact hi.2 h0
      · rw [hlast, List.getLast?_eq_getElem?, hl]
    refine ⟨ws ++ [w], by simp [hl], ⟨fun i v hv => ?_, fun i w0 v hw0 hv => ?_, fun v hv => ?_⟩, fun v hv => ?_, by simp [hw], by rw [hfig]; simp [hfl],
      fun v hv => ?_, fun i fg hfg => ?_⟩
    · rcases Nat.lt_or_ge i n with hin | hin
      · rw [List.getElem?_append_left (by omega)] at hv
        have := hrun.step i v hv
        rwa [List.getElem?_append_left (by omega)]
      · have hlt := (List.getElem?_eq_some_iff.1 hv).1
        simp [hl] at hlt
        have : i = n := by omega
        subst this
        rw [List.getElem?_append_right (by omega)] at hv
        simp only [hl, Nat.sub_self, List.getElem?_cons_zero, Option.some.injEq] at hv
        subst hv
        have : (if i = 0 then none else (ws ++ [w])[i - 1]?) = st1.walk := by
          rw [hlast']
          split_ifs with h0
          · rfl
          · rw [List.getElem?_append_left (by omega)]
        rw [this]
        exact hstep
    · have hlt := (List.getElem?_eq_some_iff.1 hv).1
      simp [hl] at hlt
      rw [List.getElem?_append_left (by omega)] at hw0
      rcases Nat.lt_or_ge (i + 1) n with hin | hin
      · rw [List.getElem?_append_left (by omega)] at hv
        exact hrun.extend i w0 v hw0 hv
      · have : i + 1 = n := by omega
        rw [List.getElem?_append_right (by omega), hl, this] at hv
        simp only [Nat.sub_self, List.getElem?_cons_zero, Option.some.injEq] at hv
        subst hv
        refine hext w0 ?_
        rw [hlast', if_neg (by omega), ← hw0]
        congr 1
        omega
    · rcases List.mem_append.1 hv with hv | hv
      · exact hrun.number v hv
      · rw [List.mem_singleton] at hv
        subst hv
        cases hst : st1.walk with
        | none => exact hnum hst
        | some w0 =>
          rw [(hext w0 hst).1]
          exact hrun.number w0 (List.mem_of_getLast? (by rw [← hlast]; exact hst))
    · rcases List.mem_append.1 hv with hv | hv
      · exact hheld v hv
      · rw [List.mem_singleton] at hv
        subst hv
        exact hh
    · rw [hw] at hv
      cases hv
      rw [hfs]
      exact (hff hstart).start
    · rw [hfig] at hfg
      rcases Nat.lt_or_ge i n with hin | hin
      · rw [List.getElem?_append_left (by omega)] at hfg
        obtain ⟨v, hv, hv'⟩ := hfigs i fg hfg
        exact ⟨v, by rw [List.getElem?_append_left (by omega)]; exact hv, hv'⟩
      · have hlt := (List.getElem?_eq_some_iff.1 hfg).1
        simp [hfl] at hlt
        have : i = n := by omega
        subst this
        rw [List.getElem?_append_right (by omega), hfl] at hfg
        simp only [Nat.sub_self, List.getElem?_cons_zero, Option.some.injEq] at hfg
        subst hfg
        exact ⟨w, by rw [List.getElem?_append_right (by omega)]; simp [hl], hff hstart⟩

/-- Whenever `unsteady_plots` returns, it has run `min(num_steps, number of outputs)` steps (at least one), step `i` on flow field `i` up to time
`t + i*t`, each walk extending the preceding one for the same `N` particles; the last walk is returned. Any rounding, any draws, any files. -/
theorem C62_steps {ω : Nat → K} {dx t : K} {dir : List (String × FileData K)} {ot : String} (hclean : CleanFields dir ot) {N : Nat} {xs ys : List Int}
    {numSteps : Int} {pos : Nat} {w : WalkData K} {pos' : Nat} {figs : List (FlowFig K)}
    (h : unsteadyPlots A F ω pos dx (.int N) (.list (xs.map .int)) (.list (ys.map .int)) numSteps t dir ot = .ok (w, pos', figs)) :
    ∃ ws : List (WalkData K), (ws.length : Int) = min numSteps (max (filesWith dir "depth") (filesWith dir "data") : Nat) ∧ ws.getLast? = some w ∧
      FlowRun A F ω dx t dir ot N xs ys ws := by
  unfold unsteadyPlots at h
  simp only [bind_ok] at h
  obtain ⟨len, hlen, st, hst, h⟩ := h
  obtain ⟨ws, hl, hrun, -, hlast, -⟩ := flowRun (Ob := Built A F) (Ω := fun _ => True) (Sd := fun _ _ _ _ => True) trivial
    (fun i f P hf hP => ⟨_, stepParams_valid (hclean i f hf), hP⟩) (fun P hP => hP) (fun _ _ => trivial) (fun _ _ => trivial) pos _ hst
  rw [hlast] at h
  cases hw : ws.getLast? with
  | none => rw [hw] at h; cases h
  | some w' =>
    rw [hw] at h
    cases h
    have hne : ws ≠ [] := by rintro rfl; cases hw
    have : 0 < ws.length := List.length_pos_iff.2 hne
    refine ⟨ws, ?_, hw, hrun⟩
    rw [← numOutputs_eq]
    split_ifs at hl with hc <;> omega

/-- Exact arithmetic: step `i` runs to time `(i+1)*t`. -/
theorem C62_target {F : Fun K Arith.exact} {ω : Nat → K} {dx t : K} {dir : List (String × FileData K)} {ot : String} (hclean : CleanFields dir ot)
    {N : Nat} {xs ys : List Int} {numSteps : Int} {pos : Nat} {w : WalkData K} {pos' : Nat} {figs : List (FlowFig K)}
    (h : unsteadyPlots Arith.exact F ω pos dx (.int N) (.list (xs.map .int)) (.list (ys.map .int)) numSteps t dir ot = .ok (w, pos', figs)) :
    ∃ ws : List (WalkData K), (ws.length : Int) = min numSteps (max (filesWith dir "depth") (filesWith dir "data") : Nat) ∧ ws.getLast? = some w ∧
      ∀ (i : Nat) v, ws[i]? = some v → ∃ f P s r, FieldNo dir ot i f ∧ initParticles Arith.exact F (stepParams dx f) = .ok P ∧
        (∀ v0, ws[i - 1]? = some v0 → 0 < i → s.walk = some v0) ∧
        runIteration Arith.exact F P ω s (some (.fin ((i + 1) * t))) 10000 = .ok r ∧ r.returned = v := by
  obtain ⟨ws, hl, hlast, hrun⟩ := C62_steps hclean h
  refine ⟨ws, hl, hlast, fun i v hv => ?_⟩
  obtain ⟨f, P, p0, s, r, hf, hP, hs, hr, hrv⟩ := hrun.step i v hv
  refine ⟨f, P, s, r, hf, hP, fun v0 hv0 hi => ?_, ?_, hrv⟩
  · rw [if_neg (by omega), hv0] at hs
    exact hs.2
  · rw [← hr]
    congr 3
    show (i + 1) * t = t + (i : K) * t
    ring

/-! ## Success -/

/-- The directory has at least `n` readable outputs on a grid of `R` rows and `C` columns. -/
def GoodOutputs (dir : List (String × FileData K)) (ot : String) (R C n : Nat) : Prop :=
  ((ot = "csv" ∨ ot = "npy") ∧ ∀ pre ∈ ["depth", "stage", "qx", "qy"], n ≤ filesWith dir pre ∧
    ∀ e ∈ dir, pre.toList.isPrefixOf e.1.toList = true → ∃ g, e.2 = .array g ∧ g.FinOrNan ∧ g.rows = R ∧ g.cols = C) ∨
  (ot = "npz" ∧ n ≤ filesWith dir "data" ∧ ∀ e ∈ dir, "data".toList.isPrefixOf e.1.toList = true → ∃ fields, e.2 = .npz fields ∧
    ∀ name ∈ ["depth", "stage", "qx", "qy"], ∃ g, dictGet fields name = some g ∧ g.FinOrNan ∧ g.rows = R ∧ g.cols = C)

theorem fileNo_mem {dir : List (String × FileData K)} {pre : String} {i : Nat} {d : FileData K} (h : FileNo dir pre i d) :
    ∃ name, (name, d) ∈ dir ∧ pre.toList.isPrefixOf name.toList = true := by
  obtain ⟨L, hp, -, name, hn⟩ := h
  have := hp.mem_iff.1 (List.mem_of_getElem? hn)
  rw [List.mem_filter] at this
  exact ⟨name, this⟩

theorem GoodOutputs.field {dir : List (String × FileData K)} {ot : String} {R C n : Nat} (h : GoodOutputs dir ot R C n) {i : Nat} {f : FlowFields K}
    (hf : FieldNo dir ot i f) : ∀ g ∈ [f.depth, f.stage, f.qx, f.qy], g.FinOrNan ∧ g.rows = R ∧ g.cols = C := by
  rcases h with ⟨hot, hall⟩ | ⟨hot, -, hall⟩
  · rcases hf with ⟨-, h1, h2, h3, h4⟩ | ⟨h0, -⟩
    · have key : ∀ pre ∈ ["depth", "stage", "qx", "qy"], ∀ g, FileNo dir pre i (.array g) → g.FinOrNan ∧ g.rows = R ∧ g.cols = C := by
        intro pre hpre g hg
        obtain ⟨name, hm, hpn⟩ := fileNo_mem hg
        obtain ⟨g', he, hg'⟩ := (hall pre hpre).2 _ hm hpn
        cases he
        exact hg'
      intro g hg
      simp only [List.mem_cons, List.not_mem_nil, or_false] at hg
      rcases hg with rfl | rfl | rfl | rfl
      · exact key "depth" (by simp) _ h1
      · exact key "stage" (by simp) _ h2
      · exact key "qx" (by simp) _ h3
      · exact key "qy" (by simp) _ h4
    · rw [h0] at hot; simp at hot
  · rcases hf with ⟨h0, -⟩ | ⟨-, fields, hfile, h1, h2, h3, h4⟩
    · rw [hot] at h0; simp at h0
    · obtain ⟨name, hm, hpn⟩ := fileNo_mem hfile
      obtain ⟨fields', he, hfl⟩ := hall _ hm hpn
      cases he
      have key : ∀ nm ∈ ["depth", "stage", "qx", "qy"], ∀ g, dictGet fields nm = some g → g.FinOrNan ∧ g.rows = R ∧ g.cols = C := by
        intro nm hnm g hg
        obtain ⟨g', hg', h⟩ := hfl nm hnm
        rw [hg] at hg'
        cases hg'
        exact h
      intro g hg
      simp only [List.mem_cons, List.not_mem_nil, or_false] at hg
      rcases hg with rfl | rfl | rfl | rfl
      · exact key "depth" (by simp) _ h1
      · exact key "stage" (by simp) _ h2
      · exact key "qx" (by simp) _ h3
      · exact key "qy" (by simp) _ h4

theorem GoodOutputs.load {dir : List (String × FileData K)} {ot : String} {R C n : Nat} (h : GoodOutputs dir ot R C n) {i : Nat} (hi : i < n) :
    ∃ f, loadStep dir ot i = .ok f := by
  unfold loadStep
  rcases h with ⟨hot, hall⟩ | ⟨hot, hn, hall⟩
  · rw [if_pos hot]
    have key : ∀ pre ∈ ["depth", "stage", "qx", "qy"], ∃ g, loadArray (listing dir pre) i = .ok g := by
      intro pre hpre
      obtain ⟨hn, hg⟩ := hall pre hpre
      have hlt : i < (listing dir pre).length := by rw [listing_length]; omega
      have hget := List.getElem?_eq_getElem hlt
      obtain ⟨name, hm, hpn⟩ := fileNo_mem (listing_get hget)
      obtain ⟨g, he, -⟩ := hg _ hm hpn
      refine ⟨g, ?_⟩
      unfold loadArray
      rw [listGet_ok.2 hget]
      simp only [ok_bind]
      simp only at he
      rw [he]
      rfl
    obtain ⟨d, hd⟩ := key "depth" (by simp)
    obtain ⟨s, hs⟩ := key "stage" (by simp)
    obtain ⟨qx, hqx⟩ := key "qx" (by simp)
    obtain ⟨qy, hqy⟩ := key "qy" (by simp)
    rw [hd, hs, hqx, hqy]
    exact ⟨_, rfl⟩
  · rw [if_neg (by rw [hot]; simp), if_pos hot]
    have hlt : i < (listing dir "data").length := by rw [listing_length]; omega
    have hget := List.getElem?_eq_getElem hlt
    obtain ⟨name, hm, hpn⟩ := fileNo_mem (listing_get hget)
    obtain ⟨fields, he, hfl⟩ := hall _ hm hpn
    rw [listGet_ok.2 hget]
    simp only [ok_bind]
    simp only at he
    rw [he]
    simp only
    have key : ∀ nm ∈ ["depth", "stage", "qx", "qy"], ∃ g, npzField fields nm = .ok g := by
      intro nm hnm
      obtain ⟨g, hg, -⟩ := hfl nm hnm
      exact ⟨g, by unfold npzField; rw [hg]⟩
    obtain ⟨d, hd⟩ := key "depth" (by simp)
    obtain ⟨s, hs⟩ := key "stage" (by simp)
    obtain ⟨qx, hqx⟩ := key "qx" (by simp)
    obtain ⟨qy, hqy⟩ := key "qy" (by simp)
    rw [hd, hs, hqx, hqy]
    exact ⟨_, rfl⟩

theorem step_enclosed {F : Fun K Arith.exact} {dx : K} (hdx : dx ≠ 0) {f : FlowFields K} {R C : Nat}
    (hf : ∀ g ∈ [f.depth, f.stage, f.qx, f.qy], g.FinOrNan ∧ g.rows = R ∧ g.cols = C) {P : PObj K}
    (hP : initParticles Arith.exact F (stepParams dx f) = .ok P) : Enclosed Arith.exact F R C P := by
  have hB : Built Arith.exact F P := ⟨_, stepParams_valid ⟨(hf _ (by simp)).1, (hf _ (by simp)).1, (hf _ (by simp)).1, (hf _ (by simp)).1⟩, hP⟩
  obtain ⟨hring, hwalk, hang⟩ := C17_default_ring (p := stepParams dx f) rfl rfl rfl rfl hP
  obtain ⟨u, v, hp⟩ := init_parts Arith.exact F hP
  have hd : nanZeroGrid f.depth = P.depth := Except.ok.inj hp.depth
  have hd' := (hf f.depth (by simp)).2
  have hx : dx = P.dx := Option.some.inj hp.dx
  refine ⟨hB, by rw [← hd]; exact hd'.1, by rw [← hd]; exact hd'.2, hring, hwalk, fun k hk => ?_, hang⟩
  rw [hp.distances, ← hx]
  show Arith.exact.mul (defaultDistances Arith.exact F k) (.fin dx) ≠ .fin 0
  unfold defaultDistances
  have h2 : F.sqrt 2 ≠ 0 := (F.sqrt_pos 2 (by norm_num)).ne'
  split_ifs
  · show Fl.fin (F.sqrt 2 * dx) ≠ .fin 0
    simp [h2, hdx]
  · show Fl.fin (1 * dx) ≠ .fin 0
    simp [hdx]

theorem stepParams_init {dx : K} {f : FlowFields K} {R C : Nat} (hR : 2 ≤ R) (hC : 2 ≤ C)
    (hf : ∀ g ∈ [f.depth, f.stage, f.qx, f.qy], g.FinOrNan ∧ g.rows = R ∧ g.cols = C) : ∃ P, initParticles A F (stepParams dx f) = .ok P := by
  have hs : CommonShape R C (stepParams dx f) := by
    constructor <;> intro g hg <;> cases hg
    · exact (hf f.depth (by simp)).2
    · exact (hf f.stage (by simp)).2
    · exact (hf f.qx (by simp)).2
    · exact (hf f.qy (by simp)).2
  refine (C36_decides hs).1 ⟨⟨?_, ?_, ?_, ?_⟩, ?_, ⟨hR, hC⟩⟩
  all_goals first | (intro g hg; cases hg) | simp [stepParams]

theorem stepOk {F : Fun K Arith.exact} {ω : Nat → K} (hω : Draws ω) {dx t : K} (hdx : dx ≠ 0) {len : Nat} {dir : List (String × FileData K)} {ot : String}
    {R C n : Nat} (hgood : GoodOutputs dir ot R C n) {N : Nat} (hN : 0 < N) {xs ys : List Int} (hxn : xs ≠ []) (hyn : ys ≠ [])
    (hin : ∀ x ∈ xs, ∀ y ∈ ys, Inside R C (x, y)) {st : FlowLoop K}
    (hheld : ∀ w, st.walk = some w → Held Arith.exact F (Enclosed Arith.exact F R C) Draws (InsideSeeds R C) w ∧ w.xinds.length = N) {i : Nat} (hi : i < n)
    (hlen : i < len) :
    ∃ st', unsteadyStep Arith.exact F ω dx t len dir ot (.int N) (.list (xs.map .int)) (.list (ys.map .int)) st i = .ok st' := by
  obtain ⟨f, hf⟩ := hgood.load hi
  have hff := hgood.field (loadStep_inv hf)
  obtain ⟨hR, hC⟩ : 2 ≤ R ∧ 2 ≤ C := by
    obtain ⟨x, hx⟩ := List.exists_mem_of_ne_nil _ hxn
    obtain ⟨y, hy⟩ := List.exists_mem_of_ne_nil _ hyn
    have := hin x hx y hy
    unfold Inside at this
    omega
  obtain ⟨P, hP⟩ := stepParams_init (A := Arith.exact) (F := F) (dx := dx) hR hC hff
  have hE := step_enclosed hdx hff hP
  have hvars := step_vars hP
  have htr : ∀ var, OptVar P var → Trackable P var := fun var h => by
    have := h.1
    rw [hvars] at this
    cases this
  have hon : ∀ x ∈ xs, ∀ y ∈ ys, OnGrid P x y := fun x hx y hy => by
    have := hin x hx y hy
    unfold Inside at this
    unfold OnGrid
    rw [hE.rows, hE.cols]
    omega
  have hseed : ∃ s1, stepSeed Arith.exact F P ω st.pos (.int N) (.list (xs.map .int)) (.list (ys.map .int)) st.walk = .ok s1 := by
    unfold stepSeed
    have conv : ∀ (s : PState K) (M : Nat) (xs ys : List Int) prev, generateParticles Arith.exact P ω s (.int M) (ints xs) (ints ys) (.int 0) (.str "random") prev =
        generateParticles Arith.exact P ω s (.int M) (ints xs) (ints ys) (.flt (.fin 0)) (.str "random") prev := by
      intro s M xs ys prev
      unfold generateParticles
      rw [check_zero, check_ints, if_pos rfl]
    cases st.walk with
    | none =>
      obtain ⟨s1, h1⟩ := C31_succeeds hE.built htr hω (initState Arith.exact F P st.pos) N hxn hyn rfl rfl hon (.fin 0) none
      rw [← conv] at h1
      exact ⟨s1, h1⟩
    | some w =>
      obtain ⟨s1, h1⟩ := generate_ok (A := Arith.exact) hE.built.fields htr (ω := ω) (s := initState Arith.exact F P st.pos) (N := 0) (xs := []) (ys := [])
        (by simp) (t := .fin 0) (prev := some w) (Or.inl ⟨rfl, rfl⟩) (sx := []) (sy := []) (pos' := st.pos) rfl le_rfl
      rw [← conv] at h1
      exact ⟨s1, h1⟩
  obtain ⟨s1, hs1⟩ := hseed
  obtain ⟨hR, hne, hsame, hnp⟩ := stepSeed_reach hω (fun P (h : Enclosed Arith.exact F R C P) => h.built) hE hvars (fun _ _ => hin)
    (fun _ _ x hx => by cases hx) (fun w hw => (hheld w hw).1) hs1
  have hnp0 : s1.np ≠ 0 := by
    cases hst : st.walk with
    | none =>
      rw [hnp hst]
      omega
    | some w0 =>
      obtain ⟨-, h0 | ⟨rows, hrows⟩⟩ := hR.state (fun P hP => hP.built.good)
      · exact absurd h0 hne
      have h1 := hsame w0 hst
      rw [hrows.1] at h1
      cases h1
      have := (hheld _ hst).2
      simp only [ofRows, List.length_map] at this
      rw [hrows.2]
      omega
  obtain ⟨r, hr⟩ := C17_no_crash hR hne hω (some (Arith.exact.add (.fin t) (Arith.exact.mul (.fin (Arith.exact.rnd (i : K))) (.fin t)))) 10000 (Or.inr hnp0)
  have hR' := Reach.run hR hω hr
  have hwr : r.state.walk = some r.returned := by
    obtain ⟨hpe, h0 | ⟨rows, hrows⟩⟩ := hR.state (fun P hP => hP.built.good)
    · exact absurd h0 hne
    obtain ⟨-, rows', -, hret, hwalk, -⟩ := runIteration_inv Arith.exact F hE.built.good hpe hrows.1 (Or.inl hrows.2) hr
    rw [hret, hwalk]
  have hopt : r.returned.opt = [] := by
    obtain ⟨-, h0 | ⟨rows, hrows⟩⟩ := hR'.state (fun P hP => hP.built.good)
    · rw [hwr] at h0; cases h0
    have := hrows.1
    rw [hwr, step_keys hvars] at this
    rw [Option.some.inj this]
    rfl
  have hslice : ∀ k, ∃ g, getState r.returned k = .ok g ∧ ∃ u, unpack3 g = .ok u := fun k => by
    obtain ⟨-, g, hg, hs⟩ := C54_reachable (hR'.mono fun P hP => hP.built) hwr k
    exact ⟨g, hg, (unpack3_iff hs.fields).2 hopt⟩
  obtain ⟨g, hg, u, hu⟩ := hslice (-1)
  obtain ⟨g0, hg0, u0, hu0⟩ := hslice 0
  unfold unsteadyStep startMarks
  simp only [hf, ok_bind, hP, hs1, targetTime, if_pos hlen, hr, hg, hu]
  by_cases h0 : i = 0
  · simp only [h0, if_true, hg0, ok_bind, hu0]
    exact ⟨_, rfl⟩
  · simp only [h0, if_false]
    exact ⟨_, rfl⟩

/-- Exact arithmetic: on a directory with at least one readable output on a common grid, for non-zero cell size and time step, at least one step, at
least one particle and seeds at interior cells, `unsteady_plots` returns. -/
theorem C62_succeeds {F : Fun K Arith.exact} {ω : Nat → K} (hω : Draws ω) {dx t : K} (hdx : dx ≠ 0) (ht : t ≠ 0) {dir : List (String × FileData K)}
    {ot : String} {R C : Nat} {numSteps : Int} (hn : 0 < numSteps) (hout : 0 < max (filesWith dir "depth") (filesWith dir "data"))
    (hgood : GoodOutputs dir ot R C (min numSteps.toNat (max (filesWith dir "depth") (filesWith dir "data")))) {N : Nat} (hN : 0 < N) {xs ys : List Int}
    (hxn : xs ≠ []) (hyn : ys ≠ []) (hin : ∀ x ∈ xs, ∀ y ∈ ys, Inside R C (x, y)) (pos : Nat) :
    ∃ w pos' figs, unsteadyPlots Arith.exact F ω pos dx (.int N) (.list (xs.map .int)) (.list (ys.map .int)) numSteps t dir ot = .ok (w, pos', figs) := by
  unfold unsteadyPlots
  rw [numOutputs_eq]
  set M := max (filesWith dir "depth") (filesWith dir "data") with hM
  have hnn : (if numSteps > (M : Int) then (M : Int) else numSteps) = ((min numSteps.toNat M : Nat) : Int) := by
    split_ifs <;> omega
  simp only [hnn]
  set n := min numSteps.toNat M with hnd
  have hn0 : 0 < n := by omega
  have hlen : arangeLen Arith.exact t (n : Int) = .ok n := by
    unfold arangeLen
    rw [if_neg ht]
    have : (Arith.exact : Arith K).div (Arith.exact.sub (Arith.exact.mul (.fin t) (.fin (Arith.exact.rnd (((n : Int) + 1 : Int) : K)))) (.fin t)) (.fin t) =
        .fin (n : K) := by
      have : (Arith.exact : Arith K).sub (Arith.exact.mul (.fin t) (.fin (Arith.exact.rnd (((n : Int) + 1 : Int) : K)))) (.fin t) =
          .fin (t * (((n : Int) + 1 : Int) : K) - t) := by
        simp [Arith.sub, Arith.mul, Arith.add, Arith.exact, Fl.neg, sub_eq_add_neg]
      rw [this]
      unfold Arith.div
      simp only [if_neg ht]
      show Fl.fin ((t * (((n : Int) + 1 : Int) : K) - t) / t) = _
      congr 1
      push_cast
      field_simp
      ring
    rw [this]
    simp
  rw [hlen]
  simp only [ok_bind, Int.toNat_natCast]
  have hO : ∀ i f P, FieldNo dir ot i f → initParticles Arith.exact F (stepParams dx f) = .ok P → Enclosed Arith.exact F R C P :=
    fun i f P hf hP => step_enclosed hdx (hgood.field hf) hP
  have hfold : ∀ m, m ≤ n → ∃ st, foldE (unsteadyStep Arith.exact F ω dx t n dir ot (.int N) (.list (xs.map .int)) (.list (ys.map .int))) ⟨none, pos, [], []⟩
      (List.range m) = .ok st := by
    intro m
    induction m with
    | zero => exact fun _ => ⟨_, rfl⟩
    | succ m ih =>
      intro hm
      obtain ⟨st, hst⟩ := ih (by omega)
      obtain ⟨ws, hl, hrun, hheld, hlast, -⟩ := flowRun (Sd := InsideSeeds R C) hω hO (fun P h => h.built) (fun _ _ => hin) (fun _ _ x hx => by cases hx) pos m hst
      obtain ⟨st', hst'⟩ := stepOk (t := t) (len := n) hω hdx hgood hN hxn hyn hin (st := st) (fun w hw => by
        have hm : w ∈ ws := List.mem_of_getLast? (by rw [← hlast]; exact hw)
        exact ⟨hheld w hm, hrun.number w hm⟩) (i := m) (by omega) (by omega)
      rw [List.range_succ, foldE_append, hst]
      simp only [ok_bind, foldE, hst']
      exact ⟨_, rfl⟩
  obtain ⟨st, hst⟩ := hfold n le_rfl
  obtain ⟨ws, hl, -, -, hlast, -⟩ := flowRun (Sd := InsideSeeds R C) hω hO (fun P h => h.built) (fun _ _ => hin) (fun _ _ x hx => by cases hx) pos n hst
  rw [hst]
  simp only [ok_bind, hlast]
  cases hw : ws.getLast? with
  | none =>
    rw [List.getLast?_eq_none_iff] at hw
    rw [hw] at hl
    simp at hl
    omega
  | some w => exact ⟨w, _, _, rfl⟩

/-! ## Example -/

/-- Content of an output directory: three files of each kind (not in order) and a file of another kind. -/
def flowDir : List (String × FileData ℚ) :=
  let g (x : ℚ) : FileData ℚ := .array ⟨7, 7, fun _ _ => .fin x⟩
  [("qx_1.csv", g 1), ("depth_2.csv", g 3), ("depth_0.csv", g 1), ("depth_1.csv", g 2), ("notes.txt", .dir), ("qx_0.csv", g 0), ("qx_2.csv", g 0),
    ("qy_0.csv", g 1), ("qy_1.csv", g 0), ("qy_2.csv", g (-1)), ("stage_0.csv", g 1), ("stage_1.csv", g 2), ("stage_2.csv", g 3)]

theorem flowDir_good : GoodOutputs flowDir "csv" 7 7 2 := by
  refine Or.inl ⟨Or.inl rfl, fun pre hpre => ⟨?_, fun e he hp => ?_⟩⟩
  · simp only [List.mem_cons, List.not_mem_nil, or_false] at hpre
    rcases hpre with rfl | rfl | rfl | rfl <;> decide +kernel
  · unfold flowDir at he
    simp only [List.mem_cons, List.not_mem_nil, or_false] at he hpre
    have key : ∀ x : ℚ, ∃ g, (FileData.array ⟨7, 7, fun _ _ => .fin x⟩ : FileData ℚ) = .array g ∧ g.FinOrNan ∧ g.rows = 7 ∧ g.cols = 7 :=
      fun x => ⟨_, rfl, fun i j _ _ => Or.inr ⟨x, rfl⟩, rfl, rfl⟩
    rcases he with rfl | rfl | rfl | rfl | rfl | rfl | rfl | rfl | rfl | rfl | rfl | rfl | rfl
    all_goals first
      | exact key _
      | (exfalso; revert hp; rcases hpre with rfl | rfl | rfl | rfl <;> decide +kernel)

theorem flowDir_clean : CleanFields flowDir "csv" := fun i f hf =>
  ⟨(flowDir_good.field hf _ (by simp)).1, (flowDir_good.field hf _ (by simp)).1, (flowDir_good.field hf _ (by simp)).1, (flowDir_good.field hf _ (by simp)).1⟩

set_option synthInstance.maxSize 1024 in
/-- Two particles, two steps: in the first flow field both move one cell up, in the second one cell to the right. -/
example : Draws (fun _ : Nat => (1 / 2 : ℚ)) ∧ CleanFields flowDir "csv" ∧
    GoodOutputs flowDir "csv" 7 7 (min (2 : Int).toNat (max (filesWith flowDir "depth") (filesWith flowDir "data"))) ∧
    (∀ x ∈ [4, 2], ∀ y ∈ [2, 3], Inside 7 7 (x, y)) ∧
    ∃ w figs, unsteadyPlots Arith.exact Fun.toy (fun _ => 1 / 2) 0 10 (.int 2) (.list [.int 4, .int 2]) (.list [.int 2, .int 3]) 2 10 flowDir "csv" =
      .ok (w, 12, figs) ∧ w.xinds = [[4, 3, 3], [4, 3, 3]] ∧ w.yinds = [[2, 2, 3], [2, 2, 3]] := by
  refine ⟨half_draws.1, flowDir_clean, ?_, fun x hx y hy => ?_, ?_⟩
  · have : min (2 : Int).toNat (max (filesWith flowDir "depth") (filesWith flowDir "data")) = 2 := by decide +kernel
    rw [this]
    exact flowDir_good
  · simp at hx hy
    rcases hx with rfl | rfl <;> rcases hy with rfl | rfl <;> (unfold Inside; decide)
  · have h : (unsteadyPlots Arith.exact Fun.toy (fun _ => (1 / 2 : ℚ)) 0 10 (.int 2) (.list [.int 4, .int 2]) (.list [.int 2, .int 3]) 2 10
        flowDir "csv").toOption.map (fun r => (r.1.xinds, r.1.yinds, r.2.1)) = some ([[4, 3, 3], [4, 3, 3]], [[2, 2, 3], [2, 2, 3]], 12) := by
      decide +kernel
    cases he : unsteadyPlots Arith.exact Fun.toy (fun _ => (1 / 2 : ℚ)) 0 10 (.int 2) (.list [.int 4, .int 2]) (.list [.int 2, .int 3]) 2 10
        flowDir "csv" with
    | error e => rw [he] at h; cases h
    | ok r =>
      rw [he] at h
      simp only [Except.toOption, Option.map_some, Option.some.injEq, Prod.mk.injEq] at h
      exact ⟨r.1, r.2.2, by rw [← h.2.2], h.1, h.2.1⟩

end Dorado
