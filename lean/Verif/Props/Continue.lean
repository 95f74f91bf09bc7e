import Verif.Spec.Continue
import Verif.Props.Exposure
import Verif.Props.Slices
import Verif.Props.Pipeline

/-! # C93, C94: continuing a simulation -/

set_option linter.unusedSectionVars false

namespace Dorado

variable {K : Type} [Field K] [LinearOrder K] [IsStrictOrderedRing K] {A : Arith K}

/-! ## Records of the continuation -/

theorem extend_get {α : Type} {l l' : List α} (h : l <+: l') {n : Nat} (hn : n < l.length) : l'[n]? = l[n]? := by
  obtain ⟨t, rfl⟩ := h
  exact List.getElem?_append_left hn

/-- The lists of a particle of proper walk data. -/
theorem Proper.lists {wd : WalkData K} (hp : Proper wd) {i : Nat} (hi : i < wd.count) :
    ∃ xs ys ts, wd.lists i = some (xs, ys, ts) ∧ wd.xinds[i]? = some xs ∧ wd.yinds[i]? = some ys ∧ wd.times[i]? = some ts ∧
      xs.length = wd.records i ∧ ys.length = wd.records i ∧ ts.length = wd.records i ∧ 1 ≤ wd.records i := by
  obtain ⟨xs, ys, ts, hx, hy, ht, a, b, c, e⟩ := hp.get hi
  exact ⟨xs, ys, ts, by simp [WalkData.lists, hx, hy, ht], hx, hy, ht, by omega, by omega, by omega, by omega⟩

theorem lists_parts {wd : WalkData K} {i : Nat} {xs ys : List Int} {ts : List (Fl K)} (h : wd.lists i = some (xs, ys, ts)) :
    wd.xinds[i]? = some xs ∧ wd.yinds[i]? = some ys ∧ wd.times[i]? = some ts := by
  unfold WalkData.lists at h
  simp only [Option.bind_eq_bind, Option.bind_eq_some_iff, Option.pure_def, Option.some.injEq, Prod.mk.injEq] at h
  obtain ⟨x, hx, y, hy, t, ht, rfl, rfl, rfl⟩ := h
  exact ⟨hx, hy, ht⟩

/-- Particles of `w0` as seen in `w`. -/
theorem Extends.particle {w0 w : WalkData K} (hp0 : Proper w0) (hc : Extends w0 w) {i : Nat} (hi : i < w0.count) :
    i < w.count ∧ 1 ≤ w0.records i ∧ w0.records i ≤ w.records i ∧
      ∀ n, n < w0.records i → w.posAt i n = w0.posAt i n ∧ w.timeAt i n = w0.timeAt i n := by
  obtain ⟨xs, ys, ts, hl, hx, hy, ht, lx, ly, lt, h1⟩ := hp0.lists hi
  obtain ⟨xs', ys', ts', hl', px, py, pt, -⟩ := hc i xs ys ts hl
  obtain ⟨hx', hy', ht'⟩ := lists_parts hl'
  refine ⟨(List.getElem?_eq_some_iff.1 hx').1, h1, ?_, fun n hn => ?_⟩
  · have : w.records i = ts'.length := by simp [WalkData.records, ht']
    rw [this, ← lt]
    exact pt.length_le
  · constructor
    · simp only [WalkData.posAt, hx, hx', hy, hy', Option.bind_eq_bind, Option.bind_some, extend_get px (lx ▸ hn), extend_get py (ly ▸ hn)]
    · simp only [WalkData.timeAt, ht, ht', Option.bind_eq_bind, Option.bind_some, extend_get pt (lt ▸ hn)]

theorem since_get {α : Type} {l0 l : List (List α)} {i : Nat} {a b : List α} (h0 : l0[i]? = some a) (h : l[i]? = some b) :
    (List.zipWith (fun a b => b.drop (a.length - 1)) l0 l)[i]? = some (b.drop (a.length - 1)) := by
  simp [List.getElem?_zipWith, h0, h]

/-- Particles of the walk data since `w0`. -/
theorem since_particle {w0 w : WalkData K} (hp0 : Proper w0) (hp : Proper w) (hc : Extends w0 w) {i : Nat} (hi : i < w0.count) :
    (w0.since w).records i = w.records i - (w0.records i - 1) ∧
      ∀ n, (w0.since w).posAt i n = w.posAt i (w0.records i - 1 + n) ∧ (w0.since w).timeAt i n = w.timeAt i (w0.records i - 1 + n) := by
  obtain ⟨xs, ys, ts, -, hx, hy, ht, lx, ly, lt, h1⟩ := hp0.lists hi
  obtain ⟨hi', -⟩ := hc.particle hp0 hi
  obtain ⟨xs', ys', ts', -, hx', hy', ht', lx', ly', lt', h1'⟩ := hp.lists hi'
  have ex : (w0.since w).xinds[i]? = some (xs'.drop (w0.records i - 1)) := by rw [← lx]; exact since_get hx hx'
  have ey : (w0.since w).yinds[i]? = some (ys'.drop (w0.records i - 1)) := by rw [← ly]; exact since_get hy hy'
  have et : (w0.since w).times[i]? = some (ts'.drop (w0.records i - 1)) := by rw [← lt]; exact since_get ht ht'
  refine ⟨by simp [WalkData.records, et, ht'] , fun n => ⟨?_, ?_⟩⟩
  · simp only [WalkData.posAt, ex, ey, hx', hy', Option.bind_eq_bind, Option.bind_some, List.getElem?_drop]
  · simp only [WalkData.timeAt, et, ht', Option.bind_eq_bind, Option.bind_some, List.getElem?_drop]

theorem since_count {w0 w : WalkData K} (hp0 : Proper w0) (hp : Proper w) (hc : Extends w0 w) :
    (w0.since w).count = w0.count ∧ (w0.since w).yinds.length = w0.count ∧ (w0.since w).times.length = w0.count := by
  have hle : w0.count ≤ w.count := by
    by_contra h
    have := (hc.particle hp0 (i := w.count) (by omega)).1
    omega
  have a1 := hp0.cols
  have a2 := hp0.times
  have b1 := hp.cols
  have b2 := hp.times
  unfold WalkData.count at *
  simp only [WalkData.since, List.length_zipWith]
  omega

theorem since_proper {w0 w : WalkData K} (hp0 : Proper w0) (hp : Proper w) (hc : Extends w0 w) : Proper (w0.since w) := by
  obtain ⟨c1, c2, c3⟩ := since_count hp0 hp hc
  refine ⟨by rw [c2]; exact c1.symm, by rw [c3]; exact c1.symm, fun i xs ys ts hx hy ht => ?_, fun i n t ht => ?_⟩
  · have hi : i < w0.count := by rw [← c1]; exact (List.getElem?_eq_some_iff.1 hx).1
    obtain ⟨xs0, ys0, ts0, -, hx0, hy0, ht0, lx, ly, lt, h1⟩ := hp0.lists hi
    obtain ⟨hi', -, hle, -⟩ := hc.particle hp0 hi
    obtain ⟨xs', ys', ts', -, hx', hy', ht', lx', ly', lt', h1'⟩ := hp.lists hi'
    have ex := since_get hx0 hx'
    have ey := since_get hy0 hy'
    have et := since_get ht0 ht'
    have := hx.symm.trans ex
    have := hy.symm.trans ey
    have := ht.symm.trans et
    simp only [Option.some.injEq] at *
    subst_vars
    simp only [List.length_drop]
    omega
  · have hi : i < w0.count := by
      unfold WalkData.timeAt at ht
      simp only [Option.bind_eq_bind, Option.bind_eq_some_iff] at ht
      obtain ⟨ts, h1, -⟩ := ht
      rw [← c3]
      exact (List.getElem?_eq_some_iff.1 h1).1
    rw [((since_particle hp0 hp hc hi).2 n).2] at ht
    exact hp.fin _ _ _ ht

theorem since_on {w0 w : WalkData K} (hp0 : Proper w0) (hp : Proper w) (hc : Extends w0 w) {R C : Nat} (hr : OnRaster R C w) :
    OnRaster R C (w0.since w) := by
  intro i n p hpos
  have hi : i < w0.count := by
    unfold WalkData.posAt at hpos
    simp only [Option.bind_eq_bind, Option.bind_eq_some_iff] at hpos
    obtain ⟨xs, h1, -⟩ := hpos
    rw [← (since_count hp0 hp hc).1]
    exact (List.getElem?_eq_some_iff.1 h1).1
  rw [((since_particle hp0 hp hc hi).2 n).1] at hpos
  exact hr _ _ _ hpos

/-! ## Exposure times -/

theorem exposure_since {w0 w : WalkData K} (hp0 : Proper w0) (hp : Proper w) (hc : Extends w0 w) (g : Grid Int) {i : Nat} (hi : i < w0.count) :
    w.exposure g i = w0.exposure g i + (w0.since w).exposure g i := by
  obtain ⟨-, h1, hle, hsame⟩ := hc.particle hp0 hi
  obtain ⟨hrec, hs⟩ := since_particle hp0 hp hc hi
  have m0 : ∀ n, n < w0.records i → w0.mark g i n = w.mark g i n := fun n hn => by
    unfold WalkData.mark WalkData.inRegion
    rw [(hsame n hn).1]
  have t0 : ∀ n, n < w0.records i → w0.tau i n = w.tau i n := fun n hn => by
    unfold WalkData.tau
    rw [(hsame n hn).2]
  have m1 : ∀ n, (w0.since w).mark g i n = w.mark g i (w0.records i - 1 + n) := fun n => by
    unfold WalkData.mark WalkData.inRegion
    rw [(hs n).1]
  have t1 : ∀ n, (w0.since w).tau i n = w.tau i (w0.records i - 1 + n) := fun n => by
    unfold WalkData.tau
    rw [(hs n).2]
  unfold WalkData.exposure
  rw [show w.records i - 1 = (w0.records i - 1) + ((w0.since w).records i - 1) by omega, Finset.sum_range_add]
  congr 1
  · refine Finset.sum_congr rfl fun n hn => ?_
    have hn := Finset.mem_range.1 hn
    rw [m0 n (by omega), m0 (n + 1) (by omega), t0 n (by omega), t0 (n + 1) (by omega)]
  · refine Finset.sum_congr rfl fun n _ => ?_
    rw [m1, m1, t1, t1]
    rfl

theorem expoRec_congr {r r' : Nat → Int} {τ τ' : Nat → K} {k : Nat} (hr : ∀ n, n ≤ k → r n = r' n) (ht : ∀ n, n ≤ k → τ n = τ' n) :
    expoRec A r τ k = expoRec A r' τ' k := by
  induction k with
  | zero => rfl
  | succ k ih =>
    simp only [expoRec]
    rw [ih (fun n hn => hr n (by omega)) (fun n hn => ht n (by omega)), hr k (by omega), hr (k + 1) le_rfl, ht k (by omega), ht (k + 1) le_rfl]

theorem expoRec_fix (r : Nat → Int) (τ : Nat → K) (k : Nat) : A.rnd (expoRec A r τ k) = expoRec A r τ k := by
  induction k with
  | zero => simp [expoRec, A.zero]
  | succ k ih =>
    simp only [expoRec]
    split_ifs
    · rw [A.idem]
    · rw [A.idem]
    · exact ih

theorem expoRec_mono {r : Nat → Int} {τ : Nat → K} {k m : Nat} (hkm : k ≤ m) (ht : ∀ n, n < m → τ n ≤ τ (n + 1)) :
    expoRec A r τ k ≤ expoRec A r τ m := by
  induction m with
  | zero => rw [Nat.le_zero.1 hkm]
  | succ m ih =>
    rcases Nat.lt_or_ge k (m + 1) with h | h
    · refine (ih (by omega) (fun n hn => ht n (by omega))).trans ?_
      have hd : 0 ≤ A.rnd (τ (m + 1) - τ m) := by
        have := A.mono 0 _ (sub_nonneg.2 (ht m (by omega)))
        rwa [A.zero] at this
      have hh : 0 ≤ A.rnd (1 / 2 * A.rnd (τ (m + 1) - τ m)) := by
        have := A.mono 0 _ (show 0 ≤ 1 / 2 * A.rnd (τ (m + 1) - τ m) by linarith)
        rwa [A.zero] at this
      have up : ∀ d : K, 0 ≤ d → expoRec A r τ m ≤ A.rnd (expoRec A r τ m + d) := fun d hd => by
        conv_lhs => rw [← expoRec_fix (A := A) r τ m]
        exact A.mono _ _ (by linarith)
      conv_rhs => unfold expoRec
      split_ifs
      · exact up _ hd
      · exact up _ hh
      · exact le_rfl
    · rw [show k = m + 1 by omega]

variable [FloorRing K] {F : Fun K A} {Ω : (Nat → K) → Prop} {Sd : PObj K → List Int → List Int → Fl K → Prop}

/-! ## C93 -/

/-- Any rounding that represents -1/2 and -1: after any later calls the exposure time of no particle is smaller, and that of a particle which has not
moved is the same. -/
theorem C93_grows (hh : A.rnd (-(1 / 2)) = -(1 / 2)) (h1 : A.rnd (-1) = -1) {R C : Nat} {P : PObj K} {s s' : PState K}
    (h : Reach A F (Routed A F R C) Draws (GoodSeeds A R C) P s) (hl : Later A F Draws (GoodSeeds A R C) P s s') {wd wd' : WalkData K}
    (hw : s.walk = some wd) (hw' : s'.walk = some wd') {g : Grid Int} (hg : g.rows = R ∧ g.cols = C) :
    ∃ r r', exposureTime A wd g = .ok r ∧ exposureTime A wd' g = .ok r' ∧ ∀ i, i < wd.count → ∃ e e' : K,
      r.times[i]? = some (.fin e) ∧ r'.times[i]? = some (.fin e') ∧ e ≤ e' ∧ (wd'.records i = wd.records i → e' = e) := by
  obtain ⟨hp, ho, -, -⟩ := C67_valid hh h1 h hw
  obtain ⟨hp', ho', hm', -⟩ := C67_valid hh h1 (h.later hl) hw'
  have hB : Reach A F (Built A F) Draws (GoodSeeds A R C) P s := h.mono fun P hP => hP.enclosed.built
  obtain ⟨w, hw1, hc⟩ := C21_append_only hB hl hw
  rw [hw'] at hw1
  cases hw1
  obtain ⟨r, e, -, ht, -⟩ := exposureTime_eq (A := A) hp (by rw [hg.1, hg.2]; exact ho)
  obtain ⟨r', e', -, ht', -⟩ := exposureTime_eq (A := A) hp' (by rw [hg.1, hg.2]; exact ho')
  refine ⟨r, r', e, e', fun i hi => ?_⟩
  obtain ⟨hi', k1, hle, hsame⟩ := Extends.particle hp hc hi
  have hcongr : expoRec A (wd.regVal g i) (wd.tau i) (wd.records i - 1) = expoRec A (wd'.regVal g i) (wd'.tau i) (wd.records i - 1) :=
    expoRec_congr (fun n hn => by unfold WalkData.regVal; rw [(hsame n (by omega)).1])
      (fun n hn => by unfold WalkData.tau; rw [(hsame n (by omega)).2])
  refine ⟨_, _, ht i hi, ht' i hi', ?_, fun he => ?_⟩
  · rw [hcongr]
    exact expoRec_mono (by omega) fun n hn => hm' i n (by omega)
  · rw [hcongr, he]

/-- Exact arithmetic: the exposure time after later calls is the one before plus that of the walk since then. -/
theorem C93_adds {F : Fun K Arith.exact} {R C : Nat} {P : PObj K} {s s' : PState K}
    (h : Reach Arith.exact F (Routed Arith.exact F R C) Draws (GoodSeeds Arith.exact R C) P s)
    (hl : Later Arith.exact F Draws (GoodSeeds Arith.exact R C) P s s') {wd wd' : WalkData K}
    (hw : s.walk = some wd) (hw' : s'.walk = some wd') {g : Grid Int} (hg : g.rows = R ∧ g.cols = C) (hb : Binary g) :
    ∃ r r1 r', exposureTime Arith.exact wd g = .ok r ∧ exposureTime Arith.exact (wd.since wd') g = .ok r1 ∧
      exposureTime Arith.exact wd' g = .ok r' ∧ ∀ i, i < wd.count → ∃ a b : K,
        r.times[i]? = some (.fin a) ∧ r1.times[i]? = some (.fin b) ∧ r'.times[i]? = some (.fin (a + b)) := by
  obtain ⟨hp, ho, -, -⟩ := C67_valid rfl rfl h hw
  obtain ⟨hp', ho', -, -⟩ := C67_valid rfl rfl (h.later hl) hw'
  have hB : Reach Arith.exact F (Built Arith.exact F) Draws (GoodSeeds Arith.exact R C) P s := h.mono fun P hP => hP.enclosed.built
  obtain ⟨w, hw1, hc⟩ := C21_append_only hB hl hw
  rw [hw'] at hw1
  cases hw1
  have hps := since_proper hp hp' hc
  have hos := since_on hp hp' hc ho'
  rw [← hg.1, ← hg.2] at ho ho' hos
  obtain ⟨r, e, -⟩ := C42_formula hp ho hb
  obtain ⟨r1, e1, -⟩ := C42_formula hps hos hb
  obtain ⟨r', e', -⟩ := C42_formula hp' ho' hb
  refine ⟨r, r1, r', e, e1, e', fun i hi => ⟨_, _, times_get hp ho hb e hi, times_get hps hos hb e1 ?_, ?_⟩⟩
  · rw [(since_count hp hp' hc).1]
    exact hi
  · rw [times_get hp' ho' hb e' (Extends.particle hp hc hi).1, exposure_since hp hp' hc g hi]

/-! ## C94 -/

theorem entry_get {wd : WalkData K} (ha : AlignedWalk wd) {var : String} (hv : var ∈ keys wd.opt) {i : Nat} (hi : i < wd.xinds.length) :
    ∃ vs, wd.optList var i = some vs := by
  obtain ⟨e, he, rfl⟩ := List.mem_map.1 hv
  have hd : dictGet wd.opt e.1 = some (entry wd.opt e.1) := by
    conv_lhs => rw [dict_eta ha.distinct]
    rw [dictGet_dictOf, if_pos hv]
  have : (e.1, entry wd.opt e.1) ∈ dictOf (keys wd.opt) (entry wd.opt) := List.mem_map.2 ⟨e.1, hv, rfl⟩
  rw [← dict_eta ha.distinct] at this
  have hlen := ha.onum _ this
  simp only at hlen
  exact ⟨(entry wd.opt e.1)[i], by simp [WalkData.optList, hd, hlen, hi]⟩

/-- Two slices that pick the same record of a particle agree on it. -/
theorem slice_same {wd wd' : WalkData K} (ha : AlignedWalk wd) (hc : Extends wd wd') {g g' : GotState K} {sel sel' : List (Fl K) → Nat → Prop}
    (hs : SliceOf wd g sel) (hs' : SliceOf wd' g' sel') {i : Nat}
    (hsel : ∀ xs ys ts, wd.lists i = some (xs, ys, ts) → ∀ xs' ys' ts', wd'.lists i = some (xs', ys', ts') → ts <+: ts' →
      ∀ j j', sel ts j → sel' ts' j' → j < ts.length → j' = j) (hi : i < wd.xinds.length) : SameEntry wd g g' i := by
  have h1 := ha.ynum
  have h2 := ha.tnum
  obtain ⟨xs, ys, ts, hl⟩ : ∃ xs ys ts, wd.lists i = some (xs, ys, ts) :=
    ⟨wd.xinds[i], wd.yinds[i]'(by omega), wd.times[i]'(by omega), by
      simp [WalkData.lists, hi, show i < wd.yinds.length by omega, show i < wd.times.length by omega]⟩
  obtain ⟨xs', ys', ts', hl', px, py, pt, hopt⟩ := hc i xs ys ts hl
  obtain ⟨hne, ly, lt, lo⟩ := ha.same i xs ys ts hl
  obtain ⟨j, hj, hjl, gx, gy, gt, go⟩ := hs.pick i xs ys ts hl
  obtain ⟨j', hj', -, gx', gy', gt', go'⟩ := hs'.pick i xs' ys' ts' hl'
  obtain rfl := hsel xs ys ts hl xs' ys' ts' hl' pt j j' hj hj' hjl
  refine ⟨?_, ?_, ?_, fun var hv => ?_⟩
  · rw [gx, gx', extend_get px (by omega)]
  · rw [gy, gy', extend_get py (by omega)]
  · rw [gt, gt', extend_get pt hjl]
  · obtain ⟨vs, hvs⟩ := entry_get ha hv hi
    obtain ⟨vs', hvs', pv⟩ := hopt var vs hvs
    rw [go var vs hvs, go' var vs' hvs', extend_get pv (by rw [lo var vs hvs]; omega)]

/-- Any rounding, any draws: `get_state` of an iteration a particle has reached returns for it the same after any later calls. -/
theorem C94_iteration {P : PObj K} {s s' : PState K} (h : Reach A F (Built A F) Ω Sd P s) (hl : Later A F Ω Sd P s s') {wd wd' : WalkData K}
    (hw : s.walk = some wd) (hw' : s'.walk = some wd') {k : Int} (hk : 0 ≤ k) :
    ∃ g g', getState wd k = .ok g ∧ getState wd' k = .ok g' ∧ ∀ i, k < wd.records i → SameEntry wd g g' i := by
  obtain ⟨ha, g, hg, hs⟩ := C54_reachable h hw k
  obtain ⟨-, g', hg', hs'⟩ := C54_reachable (h.later hl) hw' k
  obtain ⟨w, hw1, hc⟩ := C21_append_only h hl hw
  rw [hw'] at hw1
  cases hw1
  refine ⟨g, g', hg, hg', fun i hi => ?_⟩
  have hi' : i < wd.xinds.length := by
    rw [← ha.tnum]
    by_contra hne
    have : wd.records i = 0 := by simp [WalkData.records, List.getElem?_eq_none (Nat.le_of_not_lt hne)]
    omega
  refine slice_same ha hc hs hs' (fun xs ys ts hlx xs' ys' ts' hlx' pt j j' hj hj' _ => ?_) hi'
  have hr : wd.records i = ts.length := by simp [WalkData.records, (lists_parts hlx).2.2]
  have := pt.length_le
  unfold RecordNo at hj hj'
  rw [if_pos ⟨hk, by omega⟩] at hj hj'
  omega

theorem firstNearest_unique {d : Fl K → Fl K} {ts : List (Fl K)} {j j' : Nat} (h : FirstNearest d ts j) (h' : FirstNearest d ts j') : j' = j := by
  obtain ⟨t, ht, hm⟩ := h
  obtain ⟨t', ht', hm'⟩ := h'
  by_contra hne
  have key : ∀ {a b : Fl K}, Fl.le a b = true → Fl.lt b a = true → False := fun {a b} h1 h2 => by
    cases a <;> cases b <;> simp [Fl.le, Fl.lt] at h1 h2
    exact absurd h1 (not_le.2 h2)
  rcases Nat.lt_or_gt_of_ne hne with hlt | hlt
  · exact key (hm' _ _ ht).1 ((hm _ _ ht').2 hlt)
  · exact key (hm _ _ ht').1 ((hm' _ _ ht).2 hlt)

/-- The nearest record stays the nearest one if only later records are added and the target time has been passed. -/
theorem firstNearest_prefix {T l : K} {ts ts' : List (Fl K)} (hp : ts <+: ts') (hl : ts.getLast? = some (.fin l)) (hT : T ≤ l)
    (hfin : ∀ t ∈ ts', ∃ x, t = .fin x) (hmono : ∀ (n m : Nat) x y, n ≤ m → ts'[n]? = some (.fin x) → ts'[m]? = some (.fin y) → x ≤ y) {j : Nat}
    (h : FirstNearest (fun t => Fl.abs (A.sub t (.fin T))) ts j) : FirstNearest (fun t => Fl.abs (A.sub t (.fin T))) ts' j := by
  have habs : ∀ y : K, Fl.abs (A.sub (.fin y) (.fin T)) = .fin |A.rnd (y - T)| := by
    intro y
    simp only [Arith.sub, Arith.add, Fl.neg, Fl.abs, abs_eq_max_neg, ← sub_eq_add_neg]
  obtain ⟨t, ht, hm⟩ := h
  have hjl : j < ts.length := (List.getElem?_eq_some_iff.1 ht).1
  refine ⟨t, by rw [extend_get hp hjl]; exact ht, fun m u hu => ?_⟩
  rcases Nat.lt_or_ge m ts.length with hml | hml
  · rw [extend_get hp hml] at hu
    exact hm m u hu
  · have hne : ts ≠ [] := by rintro rfl; simp at hjl
    have hlast : ts[ts.length - 1]? = some (.fin l) := by rw [← List.getLast?_eq_getElem?]; exact hl
    have hlast' : ts'[ts.length - 1]? = some (.fin l) := by rw [extend_get hp (by omega)]; exact hlast
    obtain ⟨y, rfl⟩ := hfin u (List.mem_of_getElem? hu)
    have hly : l ≤ y := hmono _ _ _ _ (by omega) hlast' hu
    have h1 := (hm _ _ hlast).1
    have hz : 0 ≤ A.rnd (l - T) := by
      have := A.mono 0 _ (sub_nonneg.2 hT)
      rwa [A.zero] at this
    have hzy : A.rnd (l - T) ≤ A.rnd (y - T) := A.mono _ _ (by linarith)
    have htx : t ∈ ts' := hp.subset (List.mem_of_getElem? ht)
    obtain ⟨x, rfl⟩ := hfin t htx
    simp only [habs, Fl.le, decide_eq_true_eq] at h1 ⊢
    refine ⟨h1.trans ?_, fun hlt => absurd hlt (by omega)⟩
    rw [abs_of_nonneg hz, abs_of_nonneg (hz.trans hzy)]
    exact hzy

/-- Any rounding that represents -1/2 and -1: `get_time_state` at a time that the particle has reached or passed returns for it the same after any
later calls. -/
theorem C94_time (hh : A.rnd (-(1 / 2)) = -(1 / 2)) (h1 : A.rnd (-1) = -1) {P : PObj K} {s s' : PState K}
    (h : Reach A F (fun P => Built A F P ∧ P.diffCoeff ≤ 2 ∧ 0 ≤ P.dx) Draws (FinSeed A) P s) (hl : Later A F Draws (FinSeed A) P s s')
    {wd wd' : WalkData K} (hw : s.walk = some wd) (hw' : s'.walk = some wd') (T : K) :
    ∃ g g', getTimeState A wd (.fin T) = .ok g ∧ getTimeState A wd' (.fin T) = .ok g' ∧
      ∀ i l, wd.lastTime i = some (.fin l) → T ≤ l → SameEntry wd g g' i := by
  have hB : Reach A F (Built A F) Draws (FinSeed A) P s := h.mono fun P hP => hP.1
  obtain ⟨f1, -⟩ := C18_monotone hh h1 h hw
  obtain ⟨f2, m2⟩ := C18_monotone hh h1 (h.later hl) hw'
  have ha := (C54_reachable hB hw 0).1
  have ha' := (C54_reachable (hB.later hl) hw' 0).1
  have hmem : ∀ {w : WalkData K}, (∀ i n t, w.timeAt i n = some t → ∃ x, t = .fin x) → ∀ ts ∈ w.times, ∀ t ∈ ts, ∃ x, t = .fin x := by
    intro w hf ts hts t ht
    obtain ⟨i, hi⟩ := List.mem_iff_getElem?.1 hts
    obtain ⟨n, hn⟩ := List.mem_iff_getElem?.1 ht
    exact hf i n t (by simp [WalkData.timeAt, hi, hn])
  have hnan : ∀ {w : WalkData K}, (∀ i n t, w.timeAt i n = some t → ∃ x, t = .fin x) → ∀ ts ∈ w.times, ∀ t ∈ ts, A.sub t (.fin T) ≠ .nan := by
    intro w hf ts hts t ht
    obtain ⟨x, rfl⟩ := hmem hf ts hts t ht
    simp [Arith.sub, Arith.add, Fl.neg]
  obtain ⟨g, hg, hs⟩ := C55_nearest (A := A) ha (hnan f1)
  obtain ⟨g', hg', hs'⟩ := C55_nearest (A := A) ha' (hnan f2)
  obtain ⟨w, hw1, hc⟩ := C21_append_only hB hl hw
  rw [hw'] at hw1
  cases hw1
  refine ⟨g, g', hg, hg', fun i l hlast hT => ?_⟩
  have hi' : i < wd.xinds.length := by
    rw [← ha.tnum]
    by_contra hne
    simp [WalkData.lastTime, List.getElem?_eq_none (Nat.le_of_not_lt hne)] at hlast
  refine slice_same ha hc hs hs' (fun xs ys ts hlx xs' ys' ts' hlx' pt j j' hj hj' _ => ?_) hi'
  have hts := (lists_parts hlx).2.2
  have hts' := (lists_parts hlx').2.2
  have hlast' : ts.getLast? = some (.fin l) := by simpa [WalkData.lastTime, hts] using hlast
  refine firstNearest_unique (firstNearest_prefix pt hlast' hT (fun t ht => hmem f2 ts' (List.mem_of_getElem? hts') t ht)
    (fun n m x y hnm hx hy => m2 i n m x y hnm (by simp [WalkData.timeAt, hts', hx]) (by simp [WalkData.timeAt, hts', hy])) hj) hj'

/-! ## Concrete cases -/

/-- A channel of eight rows flowing south, with tracked variables. -/
def chanLong : Params ℚ where
  dx := some 10
  depth := some ⟨8, 5, fun _ j => .fin (if j = 2 then 3 else 2)⟩
  stage := some ⟨8, 5, fun i _ => .fin (9 - (i : ℚ))⟩
  deltaRCM := true
  qx := some ⟨8, 5, fun _ _ => .fin 2⟩
  qy := some ⟨8, 5, fun _ _ => .fin 0⟩
  theta := some 1
  gamma := some (1 / 2)
  particleVars := some ["depth", "u"]

theorem chanLong_init : initParticles Arith.exact Fun.toy chanLong = .ok (objOf chanLong) := rfl

theorem chanLong_built : Built Arith.exact Fun.toy (objOf chanLong) :=
  ⟨chanLong, {
    depth := fun g hg => by cases hg; exact fun _ _ _ _ => Or.inr ⟨_, rfl⟩
    stage := fun g hg => by cases hg; exact fun _ _ _ _ => Or.inr ⟨_, rfl⟩
    topography := fun g hg => by cases hg
    qx := fun g hg => by cases hg; exact fun _ _ _ _ => Or.inr ⟨_, rfl⟩
    qy := fun g hg => by cases hg; exact fun _ _ _ _ => Or.inr ⟨_, rfl⟩
    u := fun g hg => by cases hg
    v := fun g hg => by cases hg
    gamma := fun x hx => by cases hx; norm_num
    dryDepth := fun x hx => by cases hx
    distances := fun t ht => by cases ht
    ivec := fun t ht => by cases ht
    jvec := fun t ht => by cases ht }, chanLong_init⟩

theorem chanLong_routed : Routed Arith.exact Fun.toy 8 5 (objOf chanLong) :=
  ⟨⟨chanLong_built, rfl, rfl, (C17_default_ring rfl rfl rfl rfl chanLong_init).1, ⟨rfl, rfl⟩, fun k hk => by interval_cases k <;> decide +kernel,
    (C17_default_ring rfl rfl rfl rfl chanLong_init).2.2⟩, by decide +kernel, by decide +kernel⟩

/-- The middle rows of the long channel. -/
def midRegion : Grid Int := ⟨8, 5, fun i _ => if 3 ≤ i ∧ i ≤ 4 then 1 else 0⟩

set_option synthInstance.maxSize 1024 in
/-- Two iterations of two particles and then a call with a target time and another iteration, which add two records to the first particle: its exposure
time grows by a third, that of the second stays 0. -/
theorem chanLong_later : ∃ s s' wd wd', Reach Arith.exact Fun.toy (Routed Arith.exact Fun.toy 8 5) Draws (GoodSeeds Arith.exact 8 5) (objOf chanLong) s ∧
    Later Arith.exact Fun.toy Draws (GoodSeeds Arith.exact 8 5) (objOf chanLong) s s' ∧ s.walk = some wd ∧ s'.walk = some wd' ∧
    (wd.xinds, wd'.xinds) = ([[2, 3, 4], [3]], [[2, 3, 4, 5, 6], [3]]) ∧
    (exposureTime Arith.exact wd midRegion).toOption.map (·.times) = some [.fin (5670000012600000007 / 240000000000000000), .fin 0] ∧
    (exposureTime Arith.exact wd' midRegion).toOption.map (·.times) = some [.fin (5670000012600000007 / 180000000000000000), .fin 0] ∧
    wd.lastTime 0 = some (.fin (5670000012600000007 / 180000000000000000)) := by
  obtain ⟨s, s', wd, wd', hr, hl, hw, hw', hf, hf'⟩ := demo_later (p := chanLong) (ω := fun _ => 1 / 2) (n := 2) (xs := [2, 3]) (ys := [2, 1])
    (runs := [(none, 10), (none, 10)]) (runs' := [(some (.fin 40), 10), (none, 10)]) (Ob := Routed Arith.exact Fun.toy 8 5) (Ω := Draws)
    (Sd := GoodSeeds Arith.exact 8 5) chanLong_routed half_draws.1
    ⟨fun x hx y hy => by simp at hx hy; rcases hx with rfl | rfl <;> rcases hy with rfl | rfl <;> (unfold Inside; decide), ⟨0, rfl, rfl⟩⟩
    (f := fun wd => (wd.xinds, (exposureTime Arith.exact wd midRegion).toOption.map (·.times), wd.lastTime 0))
    (b := ([[2, 3, 4], [3]], some [.fin (5670000012600000007 / 240000000000000000), .fin 0], some (.fin (5670000012600000007 / 180000000000000000))))
    (b' := ([[2, 3, 4, 5, 6], [3]], some [.fin (5670000012600000007 / 180000000000000000), .fin 0], some (.fin (5670000012600000007 / 90000000000000000))))
    (by decide +kernel) (by decide +kernel)
  simp only [Prod.mk.injEq] at hf hf'
  exact ⟨s, s', wd, wd', hr, hl, hw, hw', by rw [hf.1, hf'.1], hf.2.1, hf'.2.1, hf.2.2⟩

/-- C93: the region is a raster of zeros and ones, so the theorems apply to this run. -/
example : Binary midRegion ∧ midRegion.rows = 8 ∧ midRegion.cols = 5 :=
  ⟨fun i j _ _ => by simp only [midRegion]; split_ifs <;> simp, rfl, rfl⟩

set_option synthInstance.maxSize 1024 in
/-- C94: iteration 2 and time 20 have been reached by the first particle, whose last time is above 31; the second has no such record. -/
example : ∃ s s' wd wd', Reach Arith.exact Fun.toy (fun P => Built Arith.exact Fun.toy P ∧ P.diffCoeff ≤ 2 ∧ 0 ≤ P.dx) Draws (FinSeed Arith.exact)
      (objOf chanLong) s ∧ Later Arith.exact Fun.toy Draws (FinSeed Arith.exact) (objOf chanLong) s s' ∧ s.walk = some wd ∧ s'.walk = some wd' ∧
    wd.records 0 = 3 ∧ wd'.records 0 = 5 ∧ wd.records 1 = 1 ∧ (∃ l, wd.lastTime 0 = some (.fin l) ∧ 20 ≤ l) ∧
    (getState wd 2).toOption.map (·.xs) = some [4, 3] ∧ (getState wd' 2).toOption.map (·.xs) = some [4, 3] ∧
    (getState wd 4).toOption.map (·.xs) = some [4, 3] ∧ (getState wd' 4).toOption.map (·.xs) = some [6, 3] := by
  obtain ⟨s, s', wd, wd', hr, hl, hw, hw', hf, hf'⟩ := demo_later (p := chanLong) (ω := fun _ => 1 / 2) (n := 2) (xs := [2, 3]) (ys := [2, 1])
    (runs := [(none, 10), (none, 10)]) (runs' := [(some (.fin 40), 10), (none, 10)])
    (Ob := fun P => Built Arith.exact Fun.toy P ∧ P.diffCoeff ≤ 2 ∧ 0 ≤ P.dx) (Ω := Draws)
    (Sd := FinSeed Arith.exact) ⟨chanLong_built, by decide +kernel, by decide +kernel⟩ half_draws.1 ⟨0, rfl, rfl⟩
    (f := fun wd => (wd.records 0, wd.records 1, (getState wd 2).toOption.map (·.xs), (getState wd 4).toOption.map (·.xs), wd.lastTime 0))
    (b := (3, 1, some [4, 3], some [4, 3], some (.fin (5670000012600000007 / 180000000000000000))))
    (b' := (5, 1, some [4, 3], some [6, 3], some (.fin (5670000012600000007 / 90000000000000000))))
    (by decide +kernel) (by decide +kernel)
  simp only [Prod.mk.injEq] at hf hf'
  exact ⟨s, s', wd, wd', hr, hl, hw, hw', hf.1, hf'.1, hf.2.1, ⟨_, hf.2.2.2.2, by norm_num⟩, hf.2.2.1, hf'.2.2.1, hf.2.2.2.1, hf'.2.2.2.1⟩

end Dorado
