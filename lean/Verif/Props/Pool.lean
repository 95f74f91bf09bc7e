import Verif.Lemmas.Pool
import Verif.Lemmas.Parallel
import Verif.Props.Slices
import Verif.Props.Nourish
import Verif.Props.Curve
import Verif.Props.Spatial

/-! # Particles chosen, reordered and put together (C97, C98) -/

set_option linter.unusedSectionVars false

namespace Dorado

variable {K : Type} [Field K] [LinearOrder K] [IsStrictOrderedRing K] [FloorRing K] {A : Arith K}

/-! ## C97 -/

theorem exposureOne_congr {wd wd' : WalkData K} {g : Grid Int} {i j : Nat} {q : List Int × List Int × List (Fl K)} (h : wd.lists i = some q)
    (h' : wd'.lists j = some q) : exposureOne A wd' g j = exposureOne A wd g i := by
  unfold WalkData.lists at h h'
  simp only [Option.bind_eq_bind, Option.bind_eq_some_iff, Option.pure_def, Option.some.injEq] at h h'
  obtain ⟨xs, hx, ys, hy, ts, ht, rfl⟩ := h
  obtain ⟨xs', hx', ys', hy', ts', ht', e⟩ := h'
  cases e
  simp [exposureOne, listGet, hx, hy, ht, hx', hy', ht']

theorem exposure_inv {wd : WalkData K} {g : Grid Int} {r : ExposureResult K} (h : exposureTime A wd g = .ok r) :
    ∃ res : List (Fl K × Bool), res.length = wd.xinds.length ∧ (∀ (i : Nat), i < wd.xinds.length → ∃ v, exposureOne A wd g i = .ok v ∧ res[i]? = some v) ∧
      r.times = res.map (·.1) ∧ ∀ i, i ∈ r.message.getD [] ↔ res[i]?.map (·.2) = some true := by
  unfold exposureTime at h
  simp only [bind_ok] at h
  obtain ⟨res, hres, h⟩ := h
  cases h
  have hf := mapE_ok_iff.1 hres
  have hlen : res.length = wd.xinds.length := by simpa using hf.length_eq.symm
  refine ⟨res, hlen, fun i hi => ?_, rfl, fun i => ?_⟩
  · have := (List.forall₂_iff_get.1 hf).2 i (by simpa using hi) (by omega)
    simp only [List.get_eq_getElem, List.getElem_range] at this
    exact ⟨_, this, List.getElem?_eq_getElem _⟩
  · have hm : i ∈ (List.range wd.xinds.length).filter (fun i => (res[i]?.map (·.2)).getD false) ↔ res[i]?.map (·.2) = some true := by
      rw [List.mem_filter, List.mem_range]
      constructor
      · rintro ⟨-, h⟩
        cases hi : res[i]? <;> simp_all
      · intro h
        refine ⟨?_, by rw [h]; rfl⟩
        by_contra hc
        rw [List.getElem?_eq_none (by omega)] at h
        cases h
    rw [← hm]
    show i ∈ Option.getD (if _ then _ else _) _ ↔ _
    split_ifs with hc
    · rfl
    · rw [Nat.not_lt, Nat.le_zero, List.length_eq_zero_iff] at hc
      rw [hc]
      rfl

/-- The exposure time of a particle, and whether it is reported as still inside, do not depend on the other particles: after choosing particles
(some of them, several times, in any order) every chosen one has the result it had before. -/
theorem C97_exposure {wd : WalkData K} (hy : wd.yinds.length = wd.xinds.length) (ht : wd.times.length = wd.xinds.length) {g : Grid Int} {l : List Nat}
    (hl : ∀ i ∈ l, i < wd.xinds.length) {r : ExposureResult K} (h : exposureTime A wd g = .ok r) :
    ∃ r', exposureTime A (wd.select l) g = .ok r' ∧ r'.times.length = l.length ∧
      ∀ (k : Nat) i, l[k]? = some i → r'.times[k]? = r.times[i]? ∧ (k ∈ r'.message.getD [] ↔ i ∈ r.message.getD []) := by
  obtain ⟨res, e1, e2, e3, e4⟩ := exposure_inv h
  have hlen : (wd.select l).xinds.length = l.length := by
    show (l.filterMap (wd.xinds[·]?)).length = l.length
    clear e2 e3 e4
    induction l with
    | nil => rfl
    | cons a l ih =>
      rw [List.filterMap_cons, List.getElem?_eq_getElem (hl a (by simp))]
      simpa using ih fun i hi => hl i (by simp [hi])
  have hone : ∀ (k : Nat) i, l[k]? = some i → exposureOne A (wd.select l) g k = exposureOne A wd g i := by
    intro k i hk
    have hi := hl i (List.mem_of_getElem? hk)
    have hx := List.getElem?_eq_getElem hi
    have hy' := List.getElem?_eq_getElem (show i < wd.yinds.length by omega)
    have ht' := List.getElem?_eq_getElem (show i < wd.times.length by omega)
    refine exposureOne_congr (q := (wd.xinds[i], wd.yinds[i]'(by omega), wd.times[i]'(by omega))) ?_ ?_
    · simp [WalkData.lists, hx, hy', ht']
    · have a := get_select (rows := wd.xinds) hl k
      have b := get_select (rows := wd.yinds) (l := l) (by rwa [hy]) k
      have c := get_select (rows := wd.times) (l := l) (by rwa [ht]) k
      rw [hk] at a b c
      simp only [Option.bind_some, hx, hy', ht'] at a b c
      simp [WalkData.lists, WalkData.select, a, b, c]
  have hok : ∃ r', exposureTime A (wd.select l) g = .ok r' := by
    have : mapE (exposureOne A (wd.select l) g) (List.range (wd.select l).xinds.length) = .ok (l.filterMap (res[·]?)) := by
      rw [mapE_ok_iff]
      have hl' : (l.filterMap (res[·]?)).length = l.length := by
        have := get_select (rows := res) (l := l) (by rwa [e1])
        apply le_antisymm
        · exact List.length_filterMap_le _ _
        · by_contra hc
          have hlt : (l.filterMap (res[·]?)).length < l.length := by omega
          have h2 := this (l.filterMap (res[·]?)).length
          rw [List.getElem?_eq_none le_rfl, List.getElem?_eq_getElem hlt, Option.bind_some,
            List.getElem?_eq_getElem (by rw [e1]; exact hl _ (List.getElem_mem _))] at h2
          cases h2
      refine List.forall₂_iff_get.2 ⟨by simp [hlen, hl'], fun k h1 h2 => ?_⟩
      simp only [List.get_eq_getElem, List.getElem_range]
      have hk : k < l.length := by rw [hl'] at h2; exact h2
      have hk' := List.getElem?_eq_getElem hk
      rw [hone k _ hk']
      obtain ⟨v, hv, hv'⟩ := e2 l[k] (hl _ (List.getElem_mem _))
      rw [hv]
      have a := get_select (rows := res) (l := l) (by rwa [e1]) k
      rw [hk', Option.bind_some, hv', List.getElem?_eq_getElem h2] at a
      cases a
      rfl
    unfold exposureTime
    rw [this]
    exact ⟨_, rfl⟩
  obtain ⟨r', hr'⟩ := hok
  obtain ⟨res', f1, f2, f3, f4⟩ := exposure_inv hr'
  refine ⟨r', hr', by rw [f3, List.length_map, f1, hlen], fun k i hk => ?_⟩
  have hkl := (List.getElem?_eq_some_iff.1 hk).1
  obtain ⟨v, hv, hv'⟩ := e2 i (hl i (List.mem_of_getElem? hk))
  obtain ⟨v', hw, hw'⟩ := f2 k (by omega)
  rw [hone k i hk, hv] at hw
  cases hw
  rw [e4, f4, e3, f3, List.getElem?_map, List.getElem?_map, hv', hw']
  exact ⟨rfl, Iff.rfl⟩

/-- The nourishment area does not depend on the order of the particles, with any rounding, smoothing and clipping. -/
theorem C97_area {wd : WalkData K} (h : AlignedWalk wd) {l : List Nat} (hl : l.Perm (List.range wd.xinds.length)) (size : Nat × Nat)
    (smooth : Option (Grid (Fl K) → Grid (Fl K))) (clip : K) :
    nourishmentArea A (wd.select l) size smooth clip = nourishmentArea A wd size smooth clip := by
  obtain ⟨rows, he, hr⟩ := aligned_rows h
  generalize keys wd.opt = ks at he hr
  subst he
  rw [select_rows]
  unfold nourishmentArea
  have hp : (l.filterMap (rows[·]?)).Perm rows := perm_rows (by simpa [ofRows] using hl)
  rw [visitFreq_perm ks hp fun r h => (hr r (hp.mem_iff.1 h)).1]

/-- The nourishment time does not depend on the order of the particles, in exact arithmetic. -/
theorem C97_time {wd : WalkData K} (h : AlignedWalk wd) {l : List Nat} (hl : l.Perm (List.range wd.xinds.length)) (size : Nat × Nat)
    (smooth : Option (Grid (Fl K) → Grid (Fl K))) (clip : K) :
    nourishmentTime Arith.exact (wd.select l) size smooth clip = nourishmentTime Arith.exact wd size smooth clip := by
  obtain ⟨rows, he, hr⟩ := aligned_rows h
  generalize keys wd.opt = ks at he hr
  subst he
  rw [select_rows]
  unfold nourishmentTime
  have hp : (l.filterMap (rows[·]?)).Perm rows := perm_rows (by simpa [ofRows] using hl)
  rw [meanTime_perm ks hp fun r h => (hr r (hp.mem_iff.1 h)).1]

theorem lastSlice_perm {wd : WalkData K} (h : AlignedWalk wd) (hf : ∀ ts ∈ wd.times, ∀ t ∈ ts, ∃ x, t = .fin x) {l : List Nat}
    (hl : l.Perm (List.range wd.xinds.length)) : ∃ g g', getState wd (-1) = .ok g ∧ getState (wd.select l) (-1) = .ok g' ∧
      g.ts.Perm g'.ts ∧ (∀ t ∈ g.ts, ∃ x, t = .fin x) ∧ (g.opt = [] ↔ g'.opt = []) ∧ (wd.select l).xinds.length = wd.xinds.length := by
  have hn := h.distinct
  obtain ⟨rows, he, hr⟩ := aligned_rows h
  generalize keys wd.opt = ks at he hr hn
  subst he
  have hp : (l.filterMap (rows[·]?)).Perm rows := perm_rows (by simpa [ofRows] using hl)
  have hr' : ∀ r ∈ l.filterMap (rows[·]?), r.full ks := fun r h => hr r (hp.mem_iff.1 h)
  rw [select_rows]
  have hts : ∀ rows : List (Row K), (sliceRows ks rows (rows.map fun r => chosen r.xs.length (-1))).ts =
      rows.map fun r => r.ts.getD (chosen r.xs.length (-1)) .nan := by
    intro rows
    simp [sliceRows, List.zipWith_map_right, List.zipWith_self]
  refine ⟨_, _, getState_rows hn hr (-1), getState_rows hn hr' (-1), ?_, ?_, ?_, ?_⟩
  · rw [hts, hts]
    exact (hp.map _).symm
  · rw [hts]
    intro t ht
    obtain ⟨r, hrm, rfl⟩ := List.mem_map.1 ht
    obtain ⟨⟨-, a2, a3⟩, -⟩ := hr r hrm
    have hlt := chosen_lt a3 (-1)
    rw [getD_lt (by omega)]
    exact hf r.ts (by simp only [ofRows, List.mem_map]; exact ⟨r, hrm, rfl⟩) _ (List.getElem_mem _)
  · simp [sliceRows, dictOf]
  · simpa [ofRows] using hp.length_eq

/-- The curves, reported times and densities of `plot_exposure_time` do not depend on the order of the particles nor of the exposure times. -/
theorem C97_curve {wd : WalkData K} (h : AlignedWalk wd) (hf : ∀ ts ∈ wd.times, ∀ t ∈ ts, ∃ x, t = .fin x) {l : List Nat}
    (hl : l.Perm (List.range wd.xinds.length)) {expo expo' : List (Fl K)} (hx : expo'.Perm expo) (td : K) (nbins : Int) (u th : Bool) :
    plotExposureTime A (wd.select l) expo' td nbins u th = plotExposureTime A wd expo td nbins u th := by
  obtain ⟨g, g', e, e', hp, hfin, ho, hlen⟩ := lastSlice_perm h hf hl
  unfold plotExposureTime
  rw [e, e', hlen]
  simp only [ok_bind, unpack4, ← ho]
  by_cases h0 : g.opt = []
  · rw [if_pos h0, if_pos h0]
    rfl
  · rw [if_neg h0, if_neg h0]
    simp only [ok_bind]
    rw [exposureCurve_perm hp hfin hx.symm]

/-- The same for `plot_exposure_time_thresholds`. -/
theorem C97_thresholds {wd : WalkData K} (h : AlignedWalk wd) (hf : ∀ ts ∈ wd.times, ∀ t ∈ ts, ∃ x, t = .fin x) {l : List Nat}
    (hl : l.Perm (List.range wd.xinds.length)) {expo expo' : List (Fl K)} (hx : expo'.Perm expo) (td : K) (nbins : Int) (u : Bool) :
    plotExposureTimeThresholds A (wd.select l) expo' td nbins u = plotExposureTimeThresholds A wd expo td nbins u := by
  obtain ⟨g, g', e, e', hp, hfin, ho, hlen⟩ := lastSlice_perm h hf hl
  unfold plotExposureTimeThresholds
  rw [e, e', hlen]
  simp only [ok_bind, unpack3, ← ho]
  by_cases h0 : g.opt = []
  · rw [if_pos h0, if_pos h0]
    simp only [ok_bind]
    rw [exposureCurve_perm hp hfin hx.symm]
  · rw [if_neg h0, if_neg h0]
    rfl

/-- With rounded sums the last digits of the nourishment time can depend on the order: three particles of which one is very slow. -/
def slowDemo : WalkData ℚ :=
  { xinds := [[0, 1, 2], [0, 1, 2], [0, 1, 2]], yinds := [[0, 0, 0], [0, 0, 0], [0, 0, 0]]
    times := [[.fin 0, .fin 1, .fin 20000000000000000], [.fin 0, .fin 1, .fin 2], [.fin 0, .fin 1, .fin 2]], opt := [] }

example : ((nourishmentTime Arith.double slowDemo (3, 1) none 100).toOption.map fun g => g.at' 1 0) ≠
    ((nourishmentTime Arith.double (slowDemo.select [2, 1, 0]) (3, 1) none 100).toOption.map fun g => g.at' 1 0) := by decide +kernel

/-- Two particles exchanged: the exposure times are exchanged, the maps stay. -/
example : (exposureTime Arith.exact sliceDemo ⟨9, 9, fun i _ => if i = 5 then 1 else 0⟩).toOption.map (fun r => (r.times, r.message)) =
      some ([.fin (25 / 2), .fin 0], none) ∧
    (exposureTime Arith.exact (sliceDemo.select [1, 0]) ⟨9, 9, fun i _ => if i = 5 then 1 else 0⟩).toOption.map (fun r => (r.times, r.message)) =
      some ([.fin 0, .fin (25 / 2)], none) := by decide +kernel

example : nourishmentArea Arith.double (sliceDemo.select [1, 0]) (9, 9) none (199 / 2) = nourishmentArea Arith.double sliceDemo (9, 9) none (199 / 2) ∧
    nourishmentTime Arith.exact (sliceDemo.select [1, 0]) (9, 9) none (199 / 2) = nourishmentTime Arith.exact sliceDemo (9, 9) none (199 / 2) ∧
    plotExposureTime Arith.double (sliceDemo.select [1, 0]) [.fin 0, .fin 12] 1 5 true true =
      plotExposureTime Arith.double sliceDemo [.fin 12, .fin 0] 1 5 true true := by
  have hf : ∀ ts ∈ sliceDemo.times, ∀ t ∈ ts, ∃ x, t = .fin x := by
    intro ts h t ht
    simp only [sliceDemo, List.mem_cons, List.not_mem_nil, or_false] at h
    rcases h with rfl | rfl <;> simp only [List.mem_cons, List.not_mem_nil, or_false] at ht
    · rcases ht with rfl | rfl | rfl <;> exact ⟨_, rfl⟩
    · exact ⟨_, ht⟩
  have hp : [1, 0].Perm (List.range sliceDemo.xinds.length) := by decide
  exact ⟨C97_area sliceDemo_aligned hp _ _ _, C97_time sliceDemo_aligned hp _ _ _, C97_curve sliceDemo_aligned hf hp (List.Perm.swap _ _ _) _ _ _ _⟩

/-! ## C98 -/

theorem entry_walkDict {wd : WalkData K} {k : String} (h : k ∉ ["xinds", "yinds", "travel_times"]) : entry (walkDict wd) k = (wd.optOf k).map .vals := by
  simp only [List.mem_cons, List.not_mem_nil, or_false, not_or] at h
  obtain ⟨h1, h2, h3⟩ := h
  have b1 : ("xinds" == k) = false := by simpa using Ne.symm h1
  have b2 : ("yinds" == k) = false := by simpa using Ne.symm h2
  have b3 : ("travel_times" == k) = false := by simpa using Ne.symm h3
  unfold walkDict entry WalkData.optOf dictGet
  simp only [List.cons_append, List.nil_append, List.find?_cons, b1, b2, b3, List.find?_map, Function.comp_def]
  cases wd.opt.find? fun e => e.1 == k <;> rfl

/-- `combine_result` on the walk data returned by several workers gives the walk data of all their particles. -/
theorem C98_combine {w0 : WalkData K} {ws : List (WalkData K)} (h : ∀ w ∈ w0 :: ws, (keys w.opt).Nodup ∧ (∀ k ∈ keys w.opt, k ∈ keys w0.opt) ∧
    ∀ k ∈ ["xinds", "yinds", "travel_times"], k ∉ keys w.opt) :
    combineResult ((w0 :: ws).map walkDict) = .ok (walkDict (w0.pool ws)) := by
  have hk : ∀ w : WalkData K, keys (walkDict w) = ["xinds", "yinds", "travel_times"] ++ keys w.opt := by
    intro w
    simp [walkDict, keys, Function.comp_def]
  rw [List.map_cons, combine_ok]
  · rw [hk]
    congr 1
    have e1 : ((w0 :: ws).map fun w => entry (walkDict w) "xinds").flatten = (w0.pool ws).xinds.map .ints := by
      simp only [WalkData.pool, List.flatMap, List.map_flatten, List.map_map]
      rfl
    have e2 : ((w0 :: ws).map fun w => entry (walkDict w) "yinds").flatten = (w0.pool ws).yinds.map .ints := by
      simp only [WalkData.pool, List.flatMap, List.map_flatten, List.map_map]
      rfl
    have e3 : ((w0 :: ws).map fun w => entry (walkDict w) "travel_times").flatten = (w0.pool ws).times.map .times := by
      simp only [WalkData.pool, List.flatMap, List.map_flatten, List.map_map]
      rfl
    have e4 : ∀ k ∈ keys w0.opt, ((w0 :: ws).map fun w => entry (walkDict w) k).flatten = ((w0 :: ws).flatMap (·.optOf k)).map .vals := by
      intro k hk
      have : k ∉ ["xinds", "yinds", "travel_times"] := fun hb => (h w0 (by simp)).2.2 k hb hk
      simp only [entry_walkDict this, List.flatMap, List.map_flatten, List.map_map, Function.comp_def]
    have hm : ∀ k, (walkDict w0 :: ws.map walkDict).map (fun r => entry r k) = (w0 :: ws).map fun w => entry (walkDict w) k := by
      intro k
      simp [Function.comp_def]
    unfold dictOf
    simp only [hm]
    rw [List.map_append, show ["xinds", "yinds", "travel_times"].map (fun k => (k, ((w0 :: ws).map fun w => entry (walkDict w) k).flatten)) =
      [("xinds", (w0.pool ws).xinds.map Hist.ints), ("yinds", (w0.pool ws).yinds.map .ints), ("travel_times", (w0.pool ws).times.map .times)] by
        rw [← e1, ← e2, ← e3]; rfl]
    show _ = _ ++ _
    congr 1
    unfold keys
    rw [List.map_map]
    show _ = List.map _ (w0.opt.map _)
    rw [List.map_map]
    apply List.map_congr_left
    intro e he
    simp only [Function.comp_def]
    rw [e4 e.1 (List.mem_map.2 ⟨e, he, rfl⟩)]
  · intro r hr
    obtain ⟨w, hw, rfl⟩ : ∃ w ∈ w0 :: ws, walkDict w = r := by
      simpa [eq_comm] using hr
    obtain ⟨h1, h2, h3⟩ := h w hw
    rw [hk, hk]
    refine ⟨List.nodup_append.2 ⟨by decide, h1, fun a ha b hb hab => h3 a ha (hab ▸ hb)⟩, fun k hk => ?_⟩
    rw [List.mem_append] at hk ⊢
    exact hk.imp id (h2 k)

/-- The lists of the particles. -/
def trips (wd : WalkData K) : List (List Int × List Int × List (Fl K)) := wd.xinds.zip (wd.yinds.zip wd.times)

theorem trips_get {wd : WalkData K} {i : Nat} {q : List Int × List Int × List (Fl K)} (h : (trips wd)[i]? = some q) : wd.lists i = some q := by
  simp only [trips, List.getElem?_zip_eq_some] at h
  obtain ⟨h1, h2, h3⟩ := h
  simp [WalkData.lists, h1, h2, h3]

theorem trips_length {wd : WalkData K} (hy : wd.yinds.length = wd.xinds.length) (ht : wd.times.length = wd.xinds.length) :
    (trips wd).length = wd.xinds.length := by
  simp [trips, hy, ht]

theorem trips_pool {w0 : WalkData K} {ws : List (WalkData K)} (h : ∀ w ∈ w0 :: ws, w.yinds.length = w.xinds.length ∧ w.times.length = w.xinds.length) :
    trips (w0.pool ws) = (w0 :: ws).flatMap trips := by
  have key : ∀ l : List (WalkData K), (∀ w ∈ l, w.yinds.length = w.xinds.length ∧ w.times.length = w.xinds.length) →
      (l.flatMap (·.xinds)).zip ((l.flatMap (·.yinds)).zip (l.flatMap (·.times))) = l.flatMap trips ∧
      (l.flatMap (·.yinds)).length = (l.flatMap (·.xinds)).length ∧ (l.flatMap (·.times)).length = (l.flatMap (·.xinds)).length := by
    intro l
    induction l with
    | nil => intro _; simp
    | cons w l ih =>
      intro h
      obtain ⟨a, b, c⟩ := ih fun w hw => h w (by simp [hw])
      obtain ⟨d, e⟩ := h w (by simp)
      simp only [List.flatMap_cons]
      refine ⟨?_, by simp [b, d], by simp [c, e]⟩
      rw [List.zip_append (by omega), List.zip_append (by simp; omega), a]
      rfl
  exact (key _ h).1

theorem pool_columns {w0 : WalkData K} {ws : List (WalkData K)} (h : ∀ w ∈ w0 :: ws, w.yinds.length = w.xinds.length ∧ w.times.length = w.xinds.length) :
    (w0.pool ws).yinds.length = (w0.pool ws).xinds.length ∧ (w0.pool ws).times.length = (w0.pool ws).xinds.length := by
  have key : ∀ l : List (WalkData K), (∀ w ∈ l, w.yinds.length = w.xinds.length ∧ w.times.length = w.xinds.length) →
      (l.flatMap (·.yinds)).length = (l.flatMap (·.xinds)).length ∧ (l.flatMap (·.times)).length = (l.flatMap (·.xinds)).length := by
    intro l
    induction l with
    | nil => intro _; simp
    | cons w l ih =>
      intro h
      obtain ⟨b, c⟩ := ih fun w hw => h w (by simp [hw])
      obtain ⟨d, e⟩ := h w (by simp)
      simp only [List.flatMap_cons]
      exact ⟨by simp [b, d], by simp [c, e]⟩
  exact key _ h

/-- Exposure time and report for one particle alone. -/
def expoTrip (A : Arith K) (g : Grid Int) (q : List Int × List Int × List (Fl K)) : Except PyErr (Fl K × Bool) :=
  exposureOne A { xinds := [q.1], yinds := [q.2.1], times := [q.2.2], opt := [] } g 0

theorem exposureTime_trips {wd : WalkData K} (hy : wd.yinds.length = wd.xinds.length) (ht : wd.times.length = wd.xinds.length) {g : Grid Int}
    {res : List (Fl K × Bool)} (h : mapE (expoTrip A g) (trips wd) = .ok res) :
    ∃ r, exposureTime A wd g = .ok r ∧ r.times = res.map (·.1) ∧ ∀ i, i ∈ r.message.getD [] ↔ res[i]?.map (·.2) = some true := by
  have hf := mapE_ok_iff.1 h
  have hlen : res.length = wd.xinds.length := by rw [← hf.length_eq, trips_length hy ht]
  have hm : mapE (exposureOne A wd g) (List.range wd.xinds.length) = .ok res := by
    rw [mapE_ok_iff]
    refine List.forall₂_iff_get.2 ⟨by simp [hlen], fun i h1 h2 => ?_⟩
    have := (List.forall₂_iff_get.1 hf).2 i (by rw [trips_length hy ht]; omega) h2
    simp only [List.get_eq_getElem, List.getElem_range] at this ⊢
    rw [← this]
    exact exposureOne_congr (q := (trips wd)[i]'(by rw [trips_length hy ht]; omega)) rfl (trips_get (List.getElem?_eq_getElem _))
  have hr : ∃ r, exposureTime A wd g = .ok r ∧ r.times = res.map (·.1) := by
    unfold exposureTime
    rw [hm]
    exact ⟨_, rfl, rfl⟩
  obtain ⟨r, hr, ht⟩ := hr
  refine ⟨r, hr, ht, ?_⟩
  obtain ⟨res', a1, a2, a3, a4⟩ := exposure_inv hr
  have : res' = res := by
    apply List.ext_getElem? fun i => ?_
    rcases Nat.lt_or_ge i wd.xinds.length with hi | hi
    · obtain ⟨v, hv, hv'⟩ := a2 i hi
      have := (List.forall₂_iff_get.1 (mapE_ok_iff.1 hm)).2 i (by simpa using hi) (by omega)
      simp only [List.get_eq_getElem, List.getElem_range] at this
      rw [hv] at this
      rw [hv', List.getElem?_eq_getElem (by omega)]
      cases this
      rfl
    · rw [List.getElem?_eq_none (by omega), List.getElem?_eq_none (by omega)]
  rw [← this]
  exact a4

theorem exposureTime_trips_inv {wd : WalkData K} (hy : wd.yinds.length = wd.xinds.length) (ht : wd.times.length = wd.xinds.length) {g : Grid Int}
    {r : ExposureResult K} (h : exposureTime A wd g = .ok r) : ∃ res, mapE (expoTrip A g) (trips wd) = .ok res := by
  obtain ⟨res, a1, a2, -⟩ := exposure_inv h
  refine ⟨res, mapE_ok_iff.2 (List.forall₂_iff_get.2 ⟨by rw [trips_length hy ht, a1], fun i h1 h2 => ?_⟩)⟩
  obtain ⟨v, hv, hv'⟩ := a2 i (by omega)
  rw [List.getElem?_eq_getElem h2] at hv'
  cases hv'
  simp only [List.get_eq_getElem]
  rw [← hv]
  exact exposureOne_congr (trips_get (List.getElem?_eq_getElem _)) rfl

/-- The exposure times of particles put together are those of the parts, one after the other; a particle is reported as still inside iff it is in
its part. -/
theorem C98_exposure {w0 : WalkData K} {ws : List (WalkData K)} (h : ∀ w ∈ w0 :: ws, w.yinds.length = w.xinds.length ∧ w.times.length = w.xinds.length)
    {g : Grid Int} {rs : List (ExposureResult K)} (hr : List.Forall₂ (fun w r => exposureTime A w g = .ok r) (w0 :: ws) rs) :
    ∃ r, exposureTime A (w0.pool ws) g = .ok r ∧ r.times = (rs.map (·.times)).flatten ∧
      ∀ (p : Nat) rp, rs[p]? = some rp → ∀ k, k < rp.times.length →
        (((rs.take p).map (·.times.length)).sum + k ∈ r.message.getD [] ↔ k ∈ rp.message.getD []) := by
  have key : ∀ (l : List (WalkData K)) (rs : List (ExposureResult K)), (∀ w ∈ l, w.yinds.length = w.xinds.length ∧ w.times.length = w.xinds.length) →
      List.Forall₂ (fun w r => exposureTime A w g = .ok r) l rs → ∃ L : List (List (Fl K × Bool)), mapE (expoTrip A g) (l.flatMap trips) = .ok L.flatten ∧
        List.Forall₂ (fun (res : List (Fl K × Bool)) r => r.times = res.map (·.1) ∧ ∀ i, i ∈ r.message.getD [] ↔ res[i]?.map (·.2) = some true) L rs := by
    intro l rs h hr
    induction hr with
    | nil => exact ⟨[], rfl, .nil⟩
    | @cons w r l rs h1 _ ih =>
      obtain ⟨L, hL, hL'⟩ := ih fun w hw => h w (by simp [hw])
      obtain ⟨hy, ht⟩ := h w (by simp)
      obtain ⟨res, hres⟩ := exposureTime_trips_inv hy ht h1
      obtain ⟨r', e1, e2, e3⟩ := exposureTime_trips hy ht hres
      rw [h1] at e1
      cases e1
      refine ⟨res :: L, ?_, .cons ⟨e2, e3⟩ hL'⟩
      rw [List.flatMap_cons, List.flatten_cons, mapE_ok_iff]
      exact List.rel_append (mapE_ok_iff.1 hres) (mapE_ok_iff.1 hL)
  obtain ⟨L, hL, hF⟩ := key _ rs h hr
  rw [← trips_pool h] at hL
  obtain ⟨hy, ht⟩ := pool_columns h
  obtain ⟨r, e1, e2, e3⟩ := exposureTime_trips hy ht hL
  have hmap : ∀ {L : List (List (Fl K × Bool))} {rs : List (ExposureResult K)}, List.Forall₂ (fun (res : List (Fl K × Bool)) r =>
      r.times = res.map (·.1) ∧ ∀ i, i ∈ r.message.getD [] ↔ res[i]?.map (·.2) = some true) L rs → L.map (List.map (·.1)) = rs.map (·.times) := by
    intro L rs hF
    induction hF with
    | nil => rfl
    | cons h1 _ ih => rw [List.map_cons, List.map_cons, ih, h1.1]
  refine ⟨r, e1, by rw [e2, List.map_flatten, hmap hF], fun p rp hp k hk => ?_⟩
  have hpl := (List.getElem?_eq_some_iff.1 hp).1
  have hLp := List.getElem?_eq_getElem (show p < L.length by rw [hF.length_eq]; exact hpl)
  obtain ⟨f1, f2⟩ := (List.forall₂_iff_get.1 hF).2 p (by rw [hF.length_eq]; exact hpl) hpl
  simp only [List.get_eq_getElem] at f1 f2
  have hrp : rs[p] = rp := by rw [List.getElem?_eq_getElem hpl] at hp; exact Option.some.inj hp
  rw [hrp] at f1 f2
  have hsum : ((rs.take p).map (·.times.length)).sum = ((L.take p).map List.length).sum := by
    have := congrArg (List.map List.length) (hmap hF)
    simp only [List.map_map, Function.comp_def, List.length_map] at this
    rw [List.map_take, List.map_take, ← this]
  rw [hsum, e3, f2, flatten_getElem? L hLp (by rw [f1, List.length_map] at hk; exact hk)]

/-! ## Maps of particles put together -/

theorem sum_trips {M : Type} [AddCommMonoid M] {wd : WalkData K} (hy : wd.yinds.length = wd.xinds.length) (ht : wd.times.length = wd.xinds.length)
    {Φ : Nat → M} {φ : List Int × List Int × List (Fl K) → M} (h : ∀ i q, wd.lists i = some q → Φ i = φ q) :
    ∑ i ∈ Finset.range wd.count, Φ i = ((trips wd).map φ).sum := by
  have key : ∀ (l : List (List Int × List Int × List (Fl K))) (Φ : Nat → M), (∀ (i : Nat) q, l[i]? = some q → Φ i = φ q) →
      ∑ i ∈ Finset.range l.length, Φ i = (l.map φ).sum := by
    intro l
    induction l using List.reverseRecOn with
    | nil => intro _ _; rfl
    | append_singleton l a ih =>
      intro Φ h
      rw [List.length_append, List.length_singleton, Finset.sum_range_succ, List.map_append, List.sum_append,
        ih Φ fun i q hq => h i q (by rw [List.getElem?_append_left (List.getElem?_eq_some_iff.1 hq).1]; exact hq)]
      simp [h l.length a (by simp)]
  have := key (trips wd) Φ fun i q hq => h i q (trips_get hq)
  rwa [trips_length hy ht] at this

theorem sum_pool {M : Type} [AddCommMonoid M] {a b : WalkData K} (ha : a.yinds.length = a.xinds.length ∧ a.times.length = a.xinds.length)
    (hb : b.yinds.length = b.xinds.length ∧ b.times.length = b.xinds.length) {Φ : WalkData K → Nat → M} {φ : List Int × List Int × List (Fl K) → M}
    (h : ∀ wd i q, WalkData.lists wd i = some q → Φ wd i = φ q) :
    ∑ i ∈ Finset.range (a.pool [b]).count, Φ (a.pool [b]) i = ∑ i ∈ Finset.range a.count, Φ a i + ∑ i ∈ Finset.range b.count, Φ b i := by
  have hab : ∀ w ∈ [a, b], w.yinds.length = w.xinds.length ∧ w.times.length = w.xinds.length := by
    simp only [List.mem_cons, List.not_mem_nil, or_false, forall_eq_or_imp, forall_eq]
    exact ⟨ha, hb⟩
  obtain ⟨hy, ht⟩ := pool_columns hab
  rw [sum_trips hy ht (h _), sum_trips ha.1 ha.2 (h _), sum_trips hb.1 hb.2 (h _), trips_pool hab]
  simp

theorem lists_some {wd : WalkData K} {i : Nat} {q : List Int × List Int × List (Fl K)} (h : wd.lists i = some q) :
    wd.xinds[i]? = some q.1 ∧ wd.yinds[i]? = some q.2.1 ∧ wd.times[i]? = some q.2.2 := by
  unfold WalkData.lists at h
  simp only [Option.bind_eq_bind, Option.bind_eq_some_iff, Option.pure_def, Option.some.injEq] at h
  obtain ⟨xs, hx, ys, hy, ts, ht, rfl⟩ := h
  exact ⟨hx, hy, ht⟩

/-- Position, number of records and time of a particle's lists. -/
def oneTrip (q : List Int × List Int × List (Fl K)) : WalkData K := { xinds := [q.1], yinds := [q.2.1], times := [q.2.2], opt := [] }

theorem one_pos {wd : WalkData K} {i : Nat} {q : List Int × List Int × List (Fl K)} (h : wd.lists i = some q) (n : Nat) :
    wd.posAt i n = (oneTrip q).posAt 0 n ∧ wd.timeAt i n = (oneTrip q).timeAt 0 n ∧ wd.tau i n = (oneTrip q).tau 0 n ∧
      wd.records i = (oneTrip q).records 0 := by
  obtain ⟨h1, h2, h3⟩ := lists_some h
  refine ⟨by simp [WalkData.posAt, oneTrip, h1, h2], ?_, ?_, by simp [WalkData.records, oneTrip, h3]⟩
  · simp [WalkData.timeAt, oneTrip, h3]
  · have : wd.timeAt i n = (oneTrip q).timeAt 0 n := by simp [WalkData.timeAt, oneTrip, h3]
    unfold WalkData.tau
    rw [this]

/-- Every particle of the pool is one of the parts. -/
theorem pool_origin {a b : WalkData K} (ha : a.yinds.length = a.xinds.length ∧ a.times.length = a.xinds.length)
    (hb : b.yinds.length = b.xinds.length ∧ b.times.length = b.xinds.length) {i : Nat} {q : List Int × List Int × List (Fl K)}
    (h : (a.pool [b]).lists i = some q) : (∃ j, a.lists j = some q) ∨ ∃ j, b.lists j = some q := by
  have hab : ∀ w ∈ [a, b], w.yinds.length = w.xinds.length ∧ w.times.length = w.xinds.length := by
    simp only [List.mem_cons, List.not_mem_nil, or_false, forall_eq_or_imp, forall_eq]
    exact ⟨ha, hb⟩
  obtain ⟨h1, h2, h3⟩ := lists_some h
  have hq : q ∈ trips (a.pool [b]) := by
    refine List.mem_of_getElem? (i := i) ?_
    simp only [trips, List.getElem?_zip_eq_some]
    exact ⟨h1, h2, h3⟩
  rw [trips_pool hab] at hq
  simp only [List.flatMap_cons, List.flatMap_nil, List.append_nil, List.mem_append] at hq
  rcases hq with hq | hq
  · obtain ⟨j, hj⟩ := List.mem_iff_getElem?.1 hq
    exact .inl ⟨j, trips_get hj⟩
  · obtain ⟨j, hj⟩ := List.mem_iff_getElem?.1 hq
    exact .inr ⟨j, trips_get hj⟩

theorem lists_or {wd : WalkData K} (hp : wd.yinds.length = wd.xinds.length ∧ wd.times.length = wd.xinds.length) (i : Nat) :
    (∃ q, wd.lists i = some q) ∨ (∀ n, wd.posAt i n = none) ∧ (∀ n, wd.timeAt i n = none) ∧ wd.records i = 0 := by
  rcases Nat.lt_or_ge i wd.xinds.length with h | h
  · left
    refine ⟨(wd.xinds[i], wd.yinds[i]'(by omega), wd.times[i]'(by omega)), ?_⟩
    simp [WalkData.lists, h, show i < wd.yinds.length by omega, show i < wd.times.length by omega]
  · right
    have ht : wd.times[i]? = none := List.getElem?_eq_none (by omega)
    refine ⟨fun n => ?_, fun n => by simp [WalkData.timeAt, ht], by simp [WalkData.records, ht]⟩
    simp [WalkData.posAt, List.getElem?_eq_none h]

theorem pool_proper {a b : WalkData K} (ha : Proper a) (hb : Proper b) : Proper (a.pool [b]) := by
  have hab : ∀ w ∈ [a, b], w.yinds.length = w.xinds.length ∧ w.times.length = w.xinds.length := by
    simp only [List.mem_cons, List.not_mem_nil, or_false, forall_eq_or_imp, forall_eq]
    exact ⟨⟨ha.cols, ha.times⟩, hb.cols, hb.times⟩
  have hc := pool_columns hab
  refine ⟨hc.1, hc.2, fun i xs ys ts h1 h2 h3 => ?_, fun i n t ht => ?_⟩
  · have hl : (a.pool [b]).lists i = some (xs, ys, ts) := by simp [WalkData.lists, h1, h2, h3]
    rcases pool_origin ⟨ha.cols, ha.times⟩ ⟨hb.cols, hb.times⟩ hl with ⟨j, hj⟩ | ⟨j, hj⟩ <;> obtain ⟨g1, g2, g3⟩ := lists_some hj
    · exact ha.same j _ _ _ g1 g2 g3
    · exact hb.same j _ _ _ g1 g2 g3
  · rcases lists_or hc i with ⟨q, hq⟩ | ⟨-, h, -⟩
    · rcases pool_origin ⟨ha.cols, ha.times⟩ ⟨hb.cols, hb.times⟩ hq with ⟨j, hj⟩ | ⟨j, hj⟩ <;>
        rw [(one_pos hq n).2.1, ← (one_pos hj n).2.1] at ht
      · exact ha.fin j n t ht
      · exact hb.fin j n t ht
    · rw [h] at ht
      cases ht

theorem pool_raster {a b : WalkData K} (ha : Proper a) (hb : Proper b) {R C : Nat} (ra : OnRaster R C a) (rb : OnRaster R C b) :
    OnRaster R C (a.pool [b]) := by
  have hp := pool_proper ha hb
  intro i n p h
  rcases lists_or ⟨hp.cols, hp.times⟩ i with ⟨q, hq⟩ | ⟨h0, -⟩
  · rcases pool_origin ⟨ha.cols, ha.times⟩ ⟨hb.cols, hb.times⟩ hq with ⟨j, hj⟩ | ⟨j, hj⟩ <;>
      rw [(one_pos hq n).1, ← (one_pos hj n).1] at h
    · exact ra j n p h
    · exact rb j n p h
  · rw [h0] at h
    cases h

theorem pool_mono {a b : WalkData K} (ha : Proper a) (hb : Proper b) (ma : TimesMono a) (mb : TimesMono b) : TimesMono (a.pool [b]) := by
  have hp := pool_proper ha hb
  intro i n h
  rcases lists_or ⟨hp.cols, hp.times⟩ i with ⟨q, hq⟩ | ⟨-, -, h0⟩
  · rcases pool_origin ⟨ha.cols, ha.times⟩ ⟨hb.cols, hb.times⟩ hq with ⟨j, hj⟩ | ⟨j, hj⟩
    · rw [(one_pos hq n).2.2.1, (one_pos hq (n + 1)).2.2.1, ← (one_pos hj n).2.2.1, ← (one_pos hj (n + 1)).2.2.1]
      rw [(one_pos hq n).2.2.2, ← (one_pos hj n).2.2.2] at h
      exact ma j n h
    · rw [(one_pos hq n).2.2.1, (one_pos hq (n + 1)).2.2.1, ← (one_pos hj n).2.2.1, ← (one_pos hj (n + 1)).2.2.1]
      rw [(one_pos hq n).2.2.2, ← (one_pos hj n).2.2.2] at h
      exact mb j n h
  · omega

theorem pool_visits {a b : WalkData K} (ha : Proper a) (hb : Proper b) (c : Int × Int) : (a.pool [b]).visits c = a.visits c + b.visits c := by
  unfold WalkData.visits
  refine sum_pool ⟨ha.cols, ha.times⟩ ⟨hb.cols, hb.times⟩ (φ := fun q => ∑ n ∈ Finset.range ((oneTrip q).records 0), if (oneTrip q).posAt 0 n = some c then 1 else 0)
    (Φ := fun wd p => ∑ n ∈ Finset.range (wd.records p), if wd.posAt p n = some c then 1 else 0) fun wd i q h => ?_
  simp only [fun n => (one_pos h n).1, (one_pos h 0).2.2.2]

theorem pool_inner {a b : WalkData K} (ha : Proper a) (hb : Proper b) (c : Int × Int) :
    (a.pool [b]).innerVisits c = a.innerVisits c + b.innerVisits c := by
  unfold WalkData.innerVisits
  refine sum_pool ⟨ha.cols, ha.times⟩ ⟨hb.cols, hb.times⟩
    (φ := fun q => ∑ n ∈ Finset.range ((oneTrip q).records 0 - 2), if (oneTrip q).posAt 0 (n + 1) = some c then 1 else 0)
    (Φ := fun wd p => ∑ n ∈ Finset.range (wd.records p - 2), if wd.posAt p (n + 1) = some c then 1 else 0) fun wd i q h => ?_
  simp only [fun n => (one_pos h n).1, (one_pos h 0).2.2.2]

theorem pool_residence {a b : WalkData K} (ha : Proper a) (hb : Proper b) (c : Int × Int) :
    (a.pool [b]).residenceAt c = a.residenceAt c + b.residenceAt c := by
  unfold WalkData.residenceAt
  refine sum_pool ⟨ha.cols, ha.times⟩ ⟨hb.cols, hb.times⟩
    (φ := fun q => ∑ n ∈ Finset.range ((oneTrip q).records 0 - 2), if (oneTrip q).posAt 0 (n + 1) = some c then (oneTrip q).residence 0 n else 0)
    (Φ := fun wd p => ∑ n ∈ Finset.range (wd.records p - 2), if wd.posAt p (n + 1) = some c then wd.residence p n else 0) fun wd i q h => ?_
  unfold WalkData.residence
  simp only [fun n => (one_pos h n).1, fun n => (one_pos h n).2.2.1, (one_pos h 0).2.2.2]

/-- The nourishment area of particles put together, in units of visits, is the sum of those of the parts (exact arithmetic, no smoothing, no
clipping). -/
theorem C98_area {a b : WalkData K} {R C : Nat} (ha : Proper a) (hb : Proper b) (ra : OnRaster R C a) (rb : OnRaster R C b) (hR : 0 < R) (hC : 0 < C) :
    ∃ ga gb g Ma Mb M, nourishmentArea Arith.exact a (R, C) none 100 = .ok ga ∧ nourishmentArea Arith.exact b (R, C) none 100 = .ok gb ∧
      nourishmentArea Arith.exact (a.pool [b]) (R, C) none 100 = .ok g ∧ MostVisits R C a Ma ∧ MostVisits R C b Mb ∧ MostVisits R C (a.pool [b]) M ∧
      ∀ i j, i < R → j < C → (M : K) * (g.at' i j).valOr0 = Ma * (ga.at' i j).valOr0 + Mb * (gb.at' i j).valOr0 := by
  have val : ∀ {wd : WalkData K}, Proper wd → OnRaster R C wd → ∃ g M, nourishmentArea Arith.exact wd (R, C) none 100 = .ok g ∧ MostVisits R C wd M ∧
      ∀ i j, i < R → j < C → (M : K) * (g.at' i j).valOr0 = wd.visits ((i : Int), (j : Int)) := by
    intro wd hp hr
    obtain ⟨g, M, e, -, -, h1, h2, h3⟩ := C45_counts hp hr hR hC
    refine ⟨g, M, e, ⟨h1, h2⟩, fun i j hi hj => ?_⟩
    rw [h3 i j hi hj]
    by_cases h0 : wd.visits ((i : Int), (j : Int)) = 0
    · rw [if_pos h0, h0]
      simp [Fl.valOr0]
    · rw [if_neg h0]
      have hM : (M : K) ≠ 0 := by
        have := h2 i j hi hj
        exact Nat.cast_ne_zero.2 (by omega)
      simp only [Fl.valOr0]
      field_simp
  obtain ⟨ga, Ma, ea, ma, va⟩ := val ha ra
  obtain ⟨gb, Mb, eb, mb, vb⟩ := val hb rb
  obtain ⟨g, M, e, m, v⟩ := val (pool_proper ha hb) (pool_raster ha hb ra rb)
  refine ⟨ga, gb, g, Ma, Mb, M, ea, eb, e, ma, mb, m, fun i j hi hj => ?_⟩
  rw [v i j hi hj, va i j hi hj, vb i j hi hj, pool_visits ha hb]
  push_cast
  ring

/-- The nourishment time of particles put together is the mean of those of the parts, weighted by the numbers of inner visits (exact arithmetic, no
smoothing, no clipping). -/
theorem C98_time {a b : WalkData K} {R C : Nat} (ha : Proper a) (hb : Proper b) (ra : OnRaster R C a) (rb : OnRaster R C b) (ma : TimesMono a)
    (mb : TimesMono b) (hR : 0 < R) (hC : 0 < C) :
    ∃ ga gb g, nourishmentTime Arith.exact a (R, C) none 100 = .ok ga ∧ nourishmentTime Arith.exact b (R, C) none 100 = .ok gb ∧
      nourishmentTime Arith.exact (a.pool [b]) (R, C) none 100 = .ok g ∧ ∀ i j, i < R → j < C →
        ((a.innerVisits ((i : Int), (j : Int)) + b.innerVisits ((i : Int), (j : Int)) : Nat) : K) * (g.at' i j).valOr0 =
          a.innerVisits ((i : Int), (j : Int)) * (ga.at' i j).valOr0 + b.innerVisits ((i : Int), (j : Int)) * (gb.at' i j).valOr0 := by
  obtain ⟨ga, ea, -, -, va⟩ := C46_mean ha ra ma hR hC
  obtain ⟨gb, eb, -, -, vb⟩ := C46_mean hb rb mb hR hC
  obtain ⟨g, e, -, -, v⟩ := C46_mean (pool_proper ha hb) (pool_raster ha hb ra rb) (pool_mono ha hb ma mb) hR hC
  refine ⟨ga, gb, g, ea, eb, e, fun i j hi hj => ?_⟩
  rw [← pool_inner ha hb, residence_value (v i j hi hj), residence_value (va i j hi hj), residence_value (vb i j hi hj), pool_residence ha hb]

/-- Two parts with two particles and one. -/
def poolDemo : WalkData ℚ :=
  { xinds := [[4, 5, 5, 6]], yinds := [[7, 7, 8, 8]], times := [[.fin 1, .fin 2, .fin 7, .fin 9]]
    opt := [("depth", [[.num (.fin 1), .num (.fin 2), .num (.fin 3), .num (.fin 3)]])] }

example : combineResult [walkDict sliceDemo, walkDict poolDemo] = .ok (walkDict (sliceDemo.pool [poolDemo])) :=
  C98_combine (w0 := sliceDemo) (ws := [poolDemo]) (by
    simp only [List.mem_cons, List.not_mem_nil, or_false, forall_eq_or_imp, forall_eq]
    decide)

example : (exposureTime Arith.exact (sliceDemo.pool [poolDemo]) ⟨9, 9, fun i _ => if i = 5 ∨ i = 6 then 1 else 0⟩).toOption.map
    (fun r => (r.times, r.message)) = some ([.fin 20, .fin 0, .fin (15 / 2)], some [0, 2]) := by decide +kernel

/-- Two ensembles on one raster. -/
theorem demoWalks_on45 : OnRaster 4 5 demoWalks := fun i n p h => by
  have := demoWalks_on i n p h
  push_cast at this ⊢
  omega

example : ∃ ga gb g, nourishmentTime Arith.exact demoWalks (4, 5) none 100 = .ok ga ∧ nourishmentTime Arith.exact chunkDemo (4, 5) none 100 = .ok gb ∧
    nourishmentTime Arith.exact (demoWalks.pool [chunkDemo]) (4, 5) none 100 = .ok g ∧ ∀ i j : Nat, i < 4 → j < 5 →
      ((demoWalks.innerVisits ((i : Int), (j : Int)) + chunkDemo.innerVisits ((i : Int), (j : Int)) : Nat) : ℚ) * (g.at' i j).valOr0 =
        demoWalks.innerVisits ((i : Int), (j : Int)) * (ga.at' i j).valOr0 + chunkDemo.innerVisits ((i : Int), (j : Int)) * (gb.at' i j).valOr0 :=
  C98_time demoWalks_proper chunkDemo_proper demoWalks_on45 chunkDemo_raster demoWalks_mono chunkDemo_mono (by norm_num) (by norm_num)

/-- Visits of a cell by the two ensembles and by both, with the largest numbers of visits. -/
example : (nourishmentArea Arith.exact demoWalks (4, 5) none 100).toOption.map (fun g => g.at' 1 1) = some (.fin 1) ∧
    (nourishmentArea Arith.exact chunkDemo (4, 5) none 100).toOption.map (fun g => g.at' 1 1) = some (.fin 1) ∧
    (nourishmentArea Arith.exact (demoWalks.pool [chunkDemo]) (4, 5) none 100).toOption.map (fun g => (g.at' 1 1, g.at' 2 1)) =
      some (.fin 1, .fin (1 / 4)) ∧ demoWalks.visits (1, 1) = 3 ∧ chunkDemo.visits (1, 1) = 1 := by decide +kernel

end Dorado
