import Verif.Lemmas.Spatial
import Verif.Props.Exposure

/-!
# Spatial exposure maps (C56 - C58)
-/

set_option linter.unusedSectionVars false

namespace Dorado

variable {K : Type} [Field K] [LinearOrder K] [IsStrictOrderedRing K] {A : Arith K}

/-! ## C56 -/

/-- C56, for every rounding: `systemwide` and `localized` return one entry per chunk, row by row; an entry is NaN iff the chunk has no cell of the region,
else the exposure times (to the region, or to its part inside the chunk) of the particles that start in the chunk or on the row or column behind it.
Missing: the claim says "in the chunk", which `C56_border` refutes; see `C56_started` for runs without particles starting on a border. -/
theorem C56_entries_partial {wd : WalkData K} (hp : Proper wd) (ho : ∀ e ∈ wd.opt, e.2.length = wd.count) {ct : Grid Int}
    (hr : OnRaster ct.rows ct.cols wd) {res : Nat} (hres : 0 < res) :
    ∃ sys loc e, ∃ el : Nat → Nat → ExposureResult K, systemwide A wd (ct.rows, ct.cols) ct res = .ok sys ∧
      localized A wd (ct.rows, ct.cols) ct res = .ok loc ∧
      exposureTime A wd (roiMask ct) = .ok e ∧ (∀ r c, exposureTime A wd (roiMaskIn ct res r c) = .ok (el r c)) ∧
      sys.length = ct.rows / res * (ct.cols / res) ∧ loc.length = ct.rows / res * (ct.cols / res) ∧
      ∀ r c, r < ct.rows / res → c < ct.cols / res →
        (∃ o, sys[r * (ct.cols / res) + c]? = some o ∧ ChunkEntry e.times (ChunkHasRegion ct res r c)
          (wd.starters fun p => ReachesChunk ct.rows res r p.1 ∧ ReachesChunk ct.cols res c p.2) o) ∧
        ∃ o, loc[r * (ct.cols / res) + c]? = some o ∧ ChunkEntry (el r c).times (ChunkHasRegion ct res r c)
          (wd.starters fun p => ReachesChunk ct.rows res r p.1 ∧ ReachesChunk ct.cols res c p.2) o := by
  obtain ⟨sys, e, h1, h2, h3, h4⟩ := systemwide_eq (A := A) hp ho hr hres
  obtain ⟨loc, el, l1, l2, l3, l4⟩ := localized_eq (A := A) hp ho hr hres
  exact ⟨sys, loc, e, el, h1, l1, h2, l2, h3, l3, fun r c hr' hc' => ⟨h4 r c hr' hc', l4 r c hr' hc'⟩⟩

theorem starters_in {wd : WalkData K} {R C : Nat} (hr : OnRaster R C wd) {res r c : Nat} (hr' : r < R / res) (hc' : c < C / res)
    (hb : ∀ i p, wd.posAt i 0 = some p → ¬ ChunkBorder R res p.1 ∧ ¬ ChunkBorder C res p.2) :
    wd.starters (fun p => ReachesChunk R res r p.1 ∧ ReachesChunk C res c p.2) = wd.starters (fun p => InChunk R res r p.1 ∧ InChunk C res c p.2) := by
  classical
  unfold WalkData.starters
  refine List.filter_congr fun i _ => ?_
  simp only [decide_eq_decide]
  have key : ∀ p, wd.posAt i 0 = some p → ((ReachesChunk R res r p.1 ∧ ReachesChunk C res c p.2) ↔ (InChunk R res r p.1 ∧ InChunk C res c p.2)) := by
    intro p hp
    obtain ⟨-, h1, -, h2⟩ := hr i 0 p hp
    rw [reaches_in (hb i p hp).1 h1 hr', reaches_in (hb i p hp).2 h2 hc']
  exact ⟨fun ⟨p, h1, h2⟩ => ⟨p, h1, (key p h1).1 h2⟩, fun ⟨p, h1, h2⟩ => ⟨p, h1, (key p h1).2 h2⟩⟩

theorem chunkEntry_exact {wd : WalkData K} {g : Grid Int} (hp : Proper wd) (hr : OnRaster g.rows g.cols wd) (hb : Binary g) {res : ExposureResult K}
    (h : exposureTime Arith.exact wd g = .ok res) {region : Prop} {S : Int × Int → Prop} {o : Option (List (Fl K))}
    (he : ChunkEntry res.times region (wd.starters S) o) :
    (o = none ↔ ¬ region) ∧ (region → o = some ((wd.starters S).map fun i => .fin (wd.exposure g i))) := by
  cases o with
  | none => exact ⟨iff_of_true rfl he, fun hreg => absurd hreg he⟩
  | some l =>
    refine ⟨iff_of_false (by simp) (fun hh => hh he.1), fun _ => ?_⟩
    have h2 := he.2
    have hlt : ∀ i ∈ wd.starters S, i < wd.count := fun i hi => starters_lt hi
    clear he
    revert h2 hlt
    generalize wd.starters S = sel
    intro h2
    induction h2 with
    | nil => intro _; rfl
    | @cons i x sel l hx _ ih =>
      intro hlt
      simp only [List.map_cons, Option.some.injEq, List.cons.injEq]
      rw [times_get hp hr hb h (hlt i (by simp))] at hx
      refine ⟨(Option.some.inj hx).symm, ?_⟩
      have := ih fun j hj => hlt j (by simp [hj])
      simpa using this

/-- C56 without particles starting on a border between chunks (exact arithmetic): entry `(r, c)` is NaN iff the chunk has no cell of the region, else the
exposure times, by definition, of the particles that started in the chunk. -/
theorem C56_started {wd : WalkData K} (hp : Proper wd) (ho : ∀ e ∈ wd.opt, e.2.length = wd.count) {ct : Grid Int}
    (hr : OnRaster ct.rows ct.cols wd) {res : Nat} (hres : 0 < res)
    (hb : ∀ i p, wd.posAt i 0 = some p → ¬ ChunkBorder ct.rows res p.1 ∧ ¬ ChunkBorder ct.cols res p.2) :
    ∃ sys loc, systemwide Arith.exact wd (ct.rows, ct.cols) ct res = .ok sys ∧ localized Arith.exact wd (ct.rows, ct.cols) ct res = .ok loc ∧
      sys.length = ct.rows / res * (ct.cols / res) ∧ loc.length = ct.rows / res * (ct.cols / res) ∧
      ∀ r c, r < ct.rows / res → c < ct.cols / res →
        (¬ ChunkHasRegion ct res r c → sys[r * (ct.cols / res) + c]? = some none ∧ loc[r * (ct.cols / res) + c]? = some none) ∧
        (ChunkHasRegion ct res r c →
          sys[r * (ct.cols / res) + c]? = some (some ((wd.starters fun p => InChunk ct.rows res r p.1 ∧ InChunk ct.cols res c p.2).map
            fun i => .fin (wd.exposure (roiMask ct) i))) ∧
          loc[r * (ct.cols / res) + c]? = some (some ((wd.starters fun p => InChunk ct.rows res r p.1 ∧ InChunk ct.cols res c p.2).map
            fun i => .fin (wd.exposure (roiMaskIn ct res r c) i)))) := by
  obtain ⟨sys, loc, e, el, h1, h2, h3, h4, h5, h6, h7⟩ := C56_entries_partial (A := Arith.exact) hp ho hr hres
  refine ⟨sys, loc, h1, h2, h5, h6, fun r c hr' hc' => ?_⟩
  obtain ⟨⟨o1, g1, e1⟩, o2, g2, e2⟩ := h7 r c hr' hc'
  rw [starters_in hr hr' hc' hb] at e1 e2
  have f1 := chunkEntry_exact (g := roiMask ct) hp hr (roiMask_binary ct) h3 e1
  have f2 := chunkEntry_exact (g := roiMaskIn ct res r c) hp hr (roiMaskIn_binary ct res r c) (h4 r c) e2
  rw [g1, g2]
  exact ⟨fun hn => ⟨by rw [f1.1.2 hn], by rw [f2.1.2 hn]⟩, fun hh => ⟨by rw [f1.2 hh], by rw [f2.2 hh]⟩⟩


theorem compute_shape {kde : List (Fl K) → Except PyErr (Fl K → Fl K)} {data : List (Option (List (Fl K)))} {R C res : Nat} (hres : 0 < res)
    (hl : data.length = R / res * (C / res)) {td : K} {w : Int} {th : Fl K} (hok : ∀ l ∈ data, ∃ p, chunkPercentiles A kde td l = .ok p) :
    ∃ m50 m75 m90, computeThresholds A kde data (R, C) td res w th = .ok (m50, m75, m90) ∧ m50.rows = R / res ∧ m50.cols = C / res ∧
      m75.rows = R / res ∧ m75.cols = C / res ∧ m90.rows = R / res ∧ m90.cols = C / res := by
  obtain ⟨p, hp⟩ := mapE_exists hok
  have hpl := mapE_length hp
  have hs : ∀ l : List (Fl K), l.length = R / res * (C / res) →
      reshape l ((R / res : Nat) : Int) ((C / res : Nat) : Int) = .ok ⟨R / res, C / res, fun i j => l.getD (i * (C / res) + j) .nan⟩ := by
    intro l h
    unfold reshape
    simp only
    rw [if_pos ⟨Int.natCast_nonneg _, Int.natCast_nonneg _⟩, if_pos (by rw [h]; push_cast; rfl)]
    rfl
  have key : ∃ m, computeThresholds A kde data (R, C) td res w th = .ok m ∧ m.1.rows = R / res ∧ m.1.cols = C / res ∧
      m.2.1.rows = R / res ∧ m.2.1.cols = C / res ∧ m.2.2.rows = R / res ∧ m.2.2.cols = C / res := by
    unfold computeThresholds
    rw [hp, floorDiv_nat _ _ hres, floorDiv_nat _ _ hres]
    simp only [ok_bind]
    rw [hs _ (by simp [hpl, hl]), hs _ (by simp [hpl, hl]), hs _ (by simp [hpl, hl])]
    exact ⟨_, rfl, rfl, rfl, rfl, rfl, rfl, rfl⟩
  obtain ⟨⟨m1, m2, m3⟩, h⟩ := key
  exact ⟨m1, m2, m3, h⟩

/-! ## C57 -/

/-- C57, tiling: with a resolution not larger than the raster every cell of the raster belongs to exactly one chunk. -/
theorem C57_tiling {R C res : Nat} (hres : 0 < res) (hR : res ≤ R) (hC : res ≤ C) {p : Int × Int} (hp : 0 ≤ p.1 ∧ p.1 < R ∧ 0 ≤ p.2 ∧ p.2 < C) :
    ∃! rc : Nat × Nat, rc.1 < R / res ∧ rc.2 < C / res ∧ InChunk R res rc.1 p.1 ∧ InChunk C res rc.2 p.2 := by
  obtain ⟨m, hm, hmi, hu, -⟩ := chunk_home hres hR hp.1 hp.2.1
  obtain ⟨n, hn, hni, hv, -⟩ := chunk_home hres hC hp.2.2.1 hp.2.2.2
  refine ⟨(m, n), ⟨hm, hn, hmi, hni⟩, ?_⟩
  rintro ⟨r, c⟩ ⟨h1, h2, h3, h4⟩
  exact Prod.ext ((hu r h1).1 h3) ((hv c h2).1 h4)

open Classical in
/-- C57, what holds: the number of exposure times in all entries of `systemwide` and of `localized` is the number of particles, except that a particle counts
twice if it starts on the first row (column) of a chunk other than the first, and four times if on both. Missing: such particles violate the claim, see
`C57_counterexample`. -/
theorem C57_total_partial {wd : WalkData K} (hp : Proper wd) (ho : ∀ e ∈ wd.opt, e.2.length = wd.count) {ct : Grid Int}
    (hr : OnRaster ct.rows ct.cols wd) {res : Nat} (hres : 0 < res) (hR : res ≤ ct.rows) (hC : res ≤ ct.cols)
    (hreg : ∀ r c, r < ct.rows / res → c < ct.cols / res → ChunkHasRegion ct res r c) :
    ∃ sys loc, systemwide A wd (ct.rows, ct.cols) ct res = .ok sys ∧ localized A wd (ct.rows, ct.cols) ct res = .ok loc ∧
      ∀ out, out = sys ∨ out = loc → (out.map fun o => (o.getD []).length).sum =
        ∑ i ∈ Finset.range wd.count, (if ∃ p, wd.posAt i 0 = some p ∧ ChunkBorder ct.rows res p.1 then 2 else 1) *
          (if ∃ p, wd.posAt i 0 = some p ∧ ChunkBorder ct.cols res p.2 then 2 else 1) := by
  obtain ⟨sys, loc, e, el, h1, h2, h3, h4, h5, h6, h7⟩ := C56_entries_partial (A := A) hp ho hr hres
  refine ⟨sys, loc, h1, h2, fun out hout => ?_⟩
  have hlen : ∀ (ex : List (Fl K)) r c o, r < ct.rows / res → c < ct.cols / res → ChunkEntry ex (ChunkHasRegion ct res r c)
      (wd.starters fun p => ReachesChunk ct.rows res r p.1 ∧ ReachesChunk ct.cols res c p.2) o →
      (o.getD []).length = (wd.starters fun p => ReachesChunk ct.rows res r p.1 ∧ ReachesChunk ct.cols res c p.2).length := by
    intro ex r c o hr' hc' ho'
    cases o with
    | none => exact absurd (hreg r c hr' hc') ho'
    | some l => exact ho'.2.length_eq.symm
  have hsum : (out.map fun o => (o.getD []).length).sum = ∑ r ∈ Finset.range (ct.rows / res), ∑ c ∈ Finset.range (ct.cols / res),
      (wd.starters fun p => ReachesChunk ct.rows res r p.1 ∧ ReachesChunk ct.cols res c p.2).length := by
    rcases hout with rfl | rfl
    · refine list_pairs (g := fun rc => (wd.starters fun p => ReachesChunk ct.rows res rc.1 p.1 ∧ ReachesChunk ct.cols res rc.2 p.2).length) h5 fun r c hr' hc' => ?_
      obtain ⟨⟨o, g1, g2⟩, -⟩ := h7 r c hr' hc'
      exact ⟨o, g1, hlen _ r c o hr' hc' g2⟩
    · refine list_pairs (g := fun rc => (wd.starters fun p => ReachesChunk ct.rows res rc.1 p.1 ∧ ReachesChunk ct.cols res rc.2 p.2).length) h6 fun r c hr' hc' => ?_
      obtain ⟨-, o, g1, g2⟩ := h7 r c hr' hc'
      exact ⟨o, g1, hlen _ r c o hr' hc' g2⟩
  rw [hsum]
  simp only [starters_length]
  rw [Finset.sum_congr rfl fun r _ => Finset.sum_comm, Finset.sum_comm]
  refine Finset.sum_congr rfl fun i hi => ?_
  obtain ⟨p, hpos⟩ := hp.pos (Finset.mem_range.1 hi) (n := 0) (hp.records_pos (Finset.mem_range.1 hi))
  obtain ⟨b1, b2, b3, b4⟩ := hr i 0 p hpos
  have e1 := reaches_count hres hR b1 b2
  have e2 := reaches_count hres hC b3 b4
  have x1 : ∀ S : Int × Int → Prop, (∃ q, wd.posAt i 0 = some q ∧ S q) ↔ S p := fun S =>
    ⟨fun ⟨q, g1, g2⟩ => by rw [hpos] at g1; cases g1; exact g2, fun h => ⟨p, hpos, h⟩⟩
  simp only [x1 (fun q => ReachesChunk ct.rows res _ q.1 ∧ ReachesChunk ct.cols res _ q.2), x1 (fun q => ChunkBorder ct.rows res q.1),
    x1 (fun q => ChunkBorder ct.cols res q.2)]
  rw [← e1, ← e2, Finset.card_filter, Finset.card_filter, Finset.sum_mul_sum]
  refine Finset.sum_congr rfl fun r _ => Finset.sum_congr rfl fun c _ => ?_
  by_cases k1 : ReachesChunk ct.rows res r p.1 <;> by_cases k2 : ReachesChunk ct.cols res c p.2 <;> simp [k1, k2]

/-! ## C58 -/

/-- Corresponding entries: both NaN, or equally many finite non-negative times, the first never larger. -/
def EntryLe : Option (List (Fl K)) → Option (List (Fl K)) → Prop
  | none, none => True
  | some l, some m => List.Forall₂ (fun x y => ∃ a b, x = .fin a ∧ y = .fin b ∧ 0 ≤ a ∧ a ≤ b) l m
  | _, _ => False

/-- C58, for every rounding: entry by entry `localized` and `systemwide` hold times of the same particles, and no localized time exceeds the system-wide one. -/
theorem C58_localized {wd : WalkData K} (hp : Proper wd) (ho : ∀ e ∈ wd.opt, e.2.length = wd.count) (hm : TimesMono wd) {ct : Grid Int}
    (hr : OnRaster ct.rows ct.cols wd) {res : Nat} (hres : 0 < res) :
    ∃ loc sys, localized A wd (ct.rows, ct.cols) ct res = .ok loc ∧ systemwide A wd (ct.rows, ct.cols) ct res = .ok sys ∧
      List.Forall₂ EntryLe loc sys := by
  obtain ⟨sys, loc, e, el, h1, h2, h3, h4, h5, h6, h7⟩ := C56_entries_partial (A := A) hp ho hr hres
  refine ⟨loc, sys, h2, h1, List.forall₂_iff_get.2 ⟨by rw [h5, h6], fun k k1 k2 => ?_⟩⟩
  rw [h6] at k1
  have hn : 0 < ct.cols / res := by
    rcases Nat.eq_zero_or_pos (ct.cols / res) with h0 | h0
    · rw [h0] at k1; simp at k1
    · exact h0
  have hr' : k / (ct.cols / res) < ct.rows / res := Nat.div_lt_of_lt_mul (by rw [Nat.mul_comm]; exact k1)
  have hc' : k % (ct.cols / res) < ct.cols / res := Nat.mod_lt _ hn
  have hkk : k / (ct.cols / res) * (ct.cols / res) + k % (ct.cols / res) = k := by rw [Nat.mul_comm]; exact Nat.div_add_mod k _
  obtain ⟨⟨o1, g1, e1⟩, o2, g2, e2⟩ := h7 _ _ hr' hc'
  rw [hkk] at g1 g2
  rw [List.get_eq_getElem, List.get_eq_getElem]
  obtain ⟨_, rfl⟩ := List.getElem?_eq_some_iff.1 g1
  obtain ⟨_, rfl⟩ := List.getElem?_eq_some_iff.1 g2
  revert e1 e2
  generalize k / (ct.cols / res) = r
  generalize k % (ct.cols / res) = c
  generalize sys[k] = o1
  generalize loc[k] = o2
  intro e1 e2
  obtain ⟨r1, r2, m1, m2, -, -, m3⟩ := C40_monotone (A := A) (g := roiMaskIn ct res r c) (h := roiMask ct) hp hr hm (roiMaskIn_binary _ _ _ _)
    (roiMask_binary _) ⟨rfl, rfl, fun i j _ _ hh => by
      simp only [roiMaskIn, roiMask] at hh ⊢
      split_ifs at hh with h9 <;> simp_all⟩
  rw [h4 r c] at m1
  rw [h3] at m2
  cases m1
  cases m2
  cases o1 with
  | none =>
    cases o2 with
    | none => trivial
    | some l => exact absurd e2.1 e1
  | some l1 =>
    cases o2 with
    | none => exact absurd e1.1 e2
    | some l2 =>
      have q1 := e1.2
      have q2 := e2.2
      have hlt : ∀ i ∈ wd.starters (fun p => ReachesChunk ct.rows res r p.1 ∧ ReachesChunk ct.cols res c p.2), i < wd.count := fun i hi => starters_lt hi
      revert q1 q2 hlt
      generalize wd.starters (fun p => ReachesChunk ct.rows res r p.1 ∧ ReachesChunk ct.cols res c p.2) = sel
      clear e1 e2
      intro q1 q2
      unfold EntryLe
      clear g1 g2
      induction q1 generalizing l2 with
      | nil => cases q2; intro _; exact List.Forall₂.nil
      | @cons i x sel l1 hx _ ih =>
        cases q2 with
        | @cons _ y _ l2' hy hrest =>
          intro hlt
          obtain ⟨a, b, ha, hb, h0, hab⟩ := m3 i (hlt i (by simp))
          rw [hx] at hb
          rw [hy] at ha
          exact List.Forall₂.cons ⟨a, b, Option.some.inj ha, Option.some.inj hb, h0, hab⟩ (ih l2' hrest fun j hj => hlt j (by simp [hj]))

/-! ## Cases -/

/-- Two particles on a 4 x 5 raster. -/
def chunkDemo : WalkData ℚ :=
  { xinds := [[1, 2, 2], [3, 3]], yinds := [[1, 1, 2], [4, 3]], times := [[.fin 0, .fin 2, .fin 5], [.fin 0, .fin 4]], opt := [("depth", [[.num (.fin 1)], [.num (.fin 2)]])] }

def chunkTypes : Grid Int := ⟨4, 5, fun i j => if i = 2 ∧ j = 1 ∨ i = 3 ∧ j = 3 ∨ i = 1 ∧ j = 1 then 1 else 0⟩

theorem chunkDemo_proper : Proper chunkDemo := by
  refine ⟨rfl, rfl, ?_, ?_⟩
  · intro i xs ys ts hx hy ht
    match i with
    | 0 => cases hx; cases hy; cases ht; decide
    | 1 => cases hx; cases hy; cases ht; decide
    | i + 2 => simp [chunkDemo] at hx
  · intro i n t ht
    match i, n with
    | 0, 0 => cases ht; exact ⟨_, rfl⟩
    | 0, 1 => cases ht; exact ⟨_, rfl⟩
    | 0, 2 => cases ht; exact ⟨_, rfl⟩
    | 0, n + 3 => simp [chunkDemo, WalkData.timeAt] at ht
    | 1, 0 => cases ht; exact ⟨_, rfl⟩
    | 1, 1 => cases ht; exact ⟨_, rfl⟩
    | 1, n + 2 => simp [chunkDemo, WalkData.timeAt] at ht
    | i + 2, n => simp [chunkDemo, WalkData.timeAt] at ht

theorem chunkDemo_pos {i n : Nat} {p : Int × Int} (h : chunkDemo.posAt i n = some p) :
    (i = 0 ∧ n = 0 ∧ p = (1, 1)) ∨ (i = 0 ∧ n = 1 ∧ p = (2, 1)) ∨ (i = 0 ∧ n = 2 ∧ p = (2, 2)) ∨ (i = 1 ∧ n = 0 ∧ p = (3, 4)) ∨ (i = 1 ∧ n = 1 ∧ p = (3, 3)) := by
  match i, n with
  | 0, 0 => cases h; simp
  | 0, 1 => cases h; simp
  | 0, 2 => cases h; simp
  | 0, n + 3 => simp [chunkDemo, WalkData.posAt] at h
  | 1, 0 => cases h; simp
  | 1, 1 => cases h; simp
  | 1, n + 2 => simp [chunkDemo, WalkData.posAt] at h
  | i + 2, n => simp [chunkDemo, WalkData.posAt] at h

theorem chunkDemo_raster : OnRaster 4 5 chunkDemo := by
  intro i n p h
  rcases chunkDemo_pos h with ⟨-, -, rfl⟩ | ⟨-, -, rfl⟩ | ⟨-, -, rfl⟩ | ⟨-, -, rfl⟩ | ⟨-, -, rfl⟩ <;> decide

theorem chunkDemo_mono : TimesMono chunkDemo := by
  intro i n h
  match i, n with
  | 0, 0 => decide +kernel
  | 0, 1 => decide +kernel
  | 0, n + 2 => simp [chunkDemo, WalkData.records] at h; omega
  | 1, 0 => decide +kernel
  | 1, n + 1 => simp [chunkDemo, WalkData.records] at h; omega
  | i + 2, n => simp [chunkDemo, WalkData.records] at h

theorem chunkDemo_opt : ∀ e ∈ chunkDemo.opt, e.2.length = chunkDemo.count := by
  intro e he
  simp only [chunkDemo, List.mem_singleton] at he
  subst he
  rfl

theorem border_iff {size res : Nat} {x : Int} : ChunkBorder size res x ↔ ∃ k < size / res, 0 < k ∧ x = ((k * res : Nat) : Int) := by
  unfold ChunkBorder
  exact ⟨fun ⟨k, h1, h2, h3⟩ => ⟨k, h2, h1, h3⟩, fun ⟨k, h2, h1, h3⟩ => ⟨k, h1, h2, h3⟩⟩

instance (size res : Nat) (x : Int) : Decidable (ChunkBorder size res x) := decidable_of_iff _ border_iff.symm

example : systemwide Arith.exact chunkDemo (4, 5) chunkTypes 2 = .ok [some [.fin (7 / 2)], none, some [], some [.fin 2]] ∧
    localized Arith.exact chunkDemo (4, 5) chunkTypes 2 = .ok [some [.fin 1], none, some [], some [.fin 2]] := by decide +kernel

example : ∃ sys loc, systemwide Arith.exact chunkDemo (4, 5) chunkTypes 2 = .ok sys ∧ localized Arith.exact chunkDemo (4, 5) chunkTypes 2 = .ok loc ∧
    sys.length = 4 ∧ loc.length = 4 := by
  obtain ⟨sys, loc, h1, h2, h3, h4, -⟩ := C56_started (ct := chunkTypes) (res := 2) chunkDemo_proper chunkDemo_opt chunkDemo_raster (by norm_num) (by
    intro i p hp
    rcases chunkDemo_pos hp with ⟨-, -, rfl⟩ | ⟨-, h, -⟩ | ⟨-, h, -⟩ | ⟨-, -, rfl⟩ | ⟨-, h, -⟩
    · decide
    · cases h
    · cases h
    · decide
    · cases h)
  exact ⟨sys, loc, h1, h2, h3, h4⟩

example : ∃ loc sys, localized Arith.exact chunkDemo (4, 5) chunkTypes 2 = .ok loc ∧ systemwide Arith.exact chunkDemo (4, 5) chunkTypes 2 = .ok sys ∧
    List.Forall₂ EntryLe loc sys :=
  C58_localized (ct := chunkTypes) (res := 2) chunkDemo_proper chunkDemo_opt chunkDemo_mono chunkDemo_raster (by norm_num)

/-- All cells in the region. -/
def allTypes : Grid Int := ⟨4, 5, fun _ _ => 1⟩

example : ∃ sys loc, systemwide Arith.exact chunkDemo (4, 5) allTypes 2 = .ok sys ∧ localized Arith.exact chunkDemo (4, 5) allTypes 2 = .ok loc := by
  obtain ⟨sys, loc, h1, h2, -⟩ := C57_total_partial (A := Arith.exact) (ct := allTypes) (res := 2) chunkDemo_proper chunkDemo_opt chunkDemo_raster
    (by norm_num) (by decide) (by decide) (by
      intro r c hr hc
      change r < 2 at hr
      change c < 2 at hc
      refine ⟨2 * r, 2 * c, by simp only [allTypes]; omega, by simp only [allTypes]; omega, ?_, ?_, rfl⟩
      · interval_cases r <;> decide
      · interval_cases c <;> decide)
  exact ⟨sys, loc, h1, h2⟩

example : ∃! rc : Nat × Nat, rc.1 < 4 / 2 ∧ rc.2 < 5 / 2 ∧ InChunk 4 2 rc.1 2 ∧ InChunk 5 2 rc.2 4 :=
  C57_tiling (R := 4) (C := 5) (res := 2) (p := (2, 4)) (by norm_num) (by norm_num) (by norm_num) (by norm_num)

/-- One particle that starts on a border between chunks in both directions. -/
def borderDemo : WalkData ℚ := { xinds := [[2, 2]], yinds := [[2, 3]], times := [[.fin 0, .fin 3]], opt := [] }

/-- C57 fails for particles that start on a border: one particle, four entries. -/
theorem C57_counterexample : borderDemo.count = 1 ∧ systemwide Arith.exact borderDemo (4, 4) ⟨4, 4, fun _ _ => 1⟩ 2 = .ok [some [.fin 3], some [.fin 3], some [.fin 3], some [.fin 3]] ∧
    localized Arith.exact borderDemo (4, 4) ⟨4, 4, fun _ _ => 1⟩ 2 = .ok [some [.fin 0], some [.fin 0], some [.fin 0], some [.fin 3]] := by decide +kernel

/-- C56 fails for particles that start on a border: the particle starts in chunk (1, 1), the entry of chunk (0, 0) holds its time. -/
theorem C56_border : borderDemo.posAt 0 0 = some (2, 2) ∧ (¬ InChunk 4 2 0 2) ∧
    (systemwide Arith.exact borderDemo (4, 4) ⟨4, 4, fun _ _ => 1⟩ 2).toOption.map (·[0]?) = some (some (some [.fin 3])) := by decide +kernel

end Dorado
