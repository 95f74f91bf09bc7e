import Verif.Lemmas.SeedMeasure
import Verif.Lemmas.Stmt
import Verif.Props.TimeReal
import Mathlib.Data.Int.CardIntervalMod

/-! # C30-C34: seeding particles -/

set_option linter.unusedSectionVars false
set_option synthInstance.maxSize 1024

namespace Dorado

open MeasureTheory Finset

variable {K : Type} [Field K] [LinearOrder K] [IsStrictOrderedRing K] [FloorRing K] {A : Arith K} {F : Fun K A}

/-! ## C32, C33 -/

/-- C32: the call keeps the previous data, then the particles held before, then `N` new ones, in every variable, each with its complete
history; the particle count is the total. -/
theorem C32_accumulates {P : PObj K} {ω : Nat → K} {s s' : PState K} {N : Nat} {xs ys : List Int} {t : Fl K} {method : String}
    {prev : Option (WalkData K)} (h : generateParticles A P ω s (.int N) (ints xs) (ints ys) (.flt t) (.str method) prev = .ok s') :
    ∃ wd nx ny nt, s'.walk = some wd ∧ s'.np = wd.xinds.length ∧ nx.length = N ∧ ny.length = N ∧ nt.length = N ∧
      wd.xinds = held prev (·.xinds) ++ held s.walk (·.xinds) ++ nx ∧
      wd.yinds = held prev (·.yinds) ++ held s.walk (·.yinds) ++ ny ∧
      wd.times = held prev (·.times) ++ held s.walk (·.times) ++ nt ∧
      ∀ var, OptVar P var → ∃ nv, nv.length = N ∧
        dictGet wd.opt var = some (held prev (WalkData.optOf var) ++ held s.walk (WalkData.optOf var) ++ nv) := by
  obtain ⟨m, sx, sy, pos', rows, -, -, hl, -, wd, hwd, hnp, e1, e2, e3, e4⟩ := generate_inv h
  exact ⟨wd, _, _, _, hwd, hnp, by simpa using hl, by simpa using hl, by simpa using hl, e1, e2, e3,
    fun var hvar => ⟨_, by simpa using hl, e4 var (optVar_iff.1 hvar)⟩⟩

/-- C32 for data of reachable objects: the history of every particle of `previous_walk_data` and of every particle held is found
unchanged, in this order, in all variables. -/
theorem C32_reachable {Ob : PObj K → Prop} {Ω : (Nat → K) → Prop} {Sd : PObj K → List Int → List Int → Fl K → Prop}
    (hB : ∀ P, Ob P → Built A F P) {P P' : PObj K} {s s0 s' : PState K} (hr : Reach A F Ob Ω Sd P s) (hr0 : Reach A F Ob Ω Sd P' s0)
    (hv : P'.particleVars = P.particleVars) {ω : Nat → K} {N : Nat} {xs ys : List Int} {t : Fl K} {method : String} {w0 w : WalkData K}
    (hw0 : s0.walk = some w0) (hw : s.walk = some w)
    (h : generateParticles A P ω s (.int N) (ints xs) (ints ys) (.flt t) (.str method) (some w0) = .ok s') :
    ∃ wd, s'.walk = some wd ∧ s'.np = s0.np + s.np + N ∧ wd.xinds.length = s'.np ∧
      (∀ i, i < s0.np → wd.lists i = w0.lists i ∧ ∀ var, OptVar P var → wd.optList var i = w0.optList var i) ∧
      ∀ i, i < s.np → wd.lists (s0.np + i) = w.lists i ∧ ∀ var, OptVar P var → wd.optList var (s0.np + i) = w.optList var i := by
  have hG : ∀ P, Ob P → Good P := fun P hP => (hB P hP).good
  obtain ⟨m, sx, sy, pos', rows, -, -, hl, -, wd, hwd, hnp, e1, e2, e3, e4⟩ := generate_inv h
  have z0 := hr0.sized hG hv hw0
  have z := hr.sized hG rfl hw
  have n0 : s0.np = w0.xinds.length := by
    rcases (hr0.state hG).2 with h0 | ⟨rows, h1, h2⟩
    · rw [h0] at hw0; cases hw0
    · rw [h1] at hw0; cases hw0; rw [h2]; simp [ofRows]
  have n1 : s.np = w.xinds.length := by
    rcases (hr.state hG).2 with h0 | ⟨rows, h1, h2⟩
    · rw [h0] at hw; cases hw
    · rw [h1] at hw; cases hw; rw [h2]; simp [ofRows]
  rw [hw] at e1 e2 e3 e4
  simp only [held] at e1 e2 e3 e4
  have o0 : ∀ var, OptVar P var → dictGet w0.opt var = some (w0.optOf var) := fun var hvar => by
    unfold WalkData.optOf
    rcases (hr0.state hG).2 with h0 | ⟨rows, h1, h2⟩
    · rw [h0] at hw0; cases hw0
    · rw [h1] at hw0; cases hw0
      have hk : var ∈ keysOf P' := optVar_iff.1 (by unfold OptVar at hvar ⊢; rwa [hv])
      have : dictGet (ofRows (keysOf P') rows).opt var = some (rows.map fun r => r.os var) := by
        show dictGet (dictOf _ _) _ = _
        rw [dictGet_dictOf, if_pos hk]
      rw [this]; rfl
  have o1 : ∀ var, OptVar P var → dictGet w.opt var = some (w.optOf var) := fun var hvar => by
    unfold WalkData.optOf
    rcases (hr.state hG).2 with h0 | ⟨rows, h1, h2⟩
    · rw [h0] at hw; cases hw
    · rw [h1] at hw; cases hw
      have : dictGet (ofRows (keysOf P) rows).opt var = some (rows.map fun r => r.os var) := by
        show dictGet (dictOf _ _) _ = _
        rw [dictGet_dictOf, if_pos (optVar_iff.1 hvar)]
      rw [this]; rfl
  have get0 : ∀ {α : Type} (a b c : List α) (i : Nat), i < a.length → (a ++ b ++ c)[i]? = a[i]? := fun a b c i hi => by
    rw [List.append_assoc, List.getElem?_append_left hi]
  have get1 : ∀ {α : Type} (a b c : List α) (n i : Nat), a.length = n → i < b.length → (a ++ b ++ c)[n + i]? = b[i]? := fun a b c n i hn hi => by
    subst hn
    rw [List.append_assoc, List.getElem?_append_right (by omega), Nat.add_sub_cancel_left, List.getElem?_append_left hi]
  refine ⟨wd, hwd, ?_, hnp.symm, fun i hi => ⟨?_, fun var hvar => ?_⟩, fun i hi => ⟨?_, fun var hvar => ?_⟩⟩
  · rw [hnp, e1]; simp [hl, n0, n1]; omega
  · unfold WalkData.lists
    rw [e1, e2, e3, get0 _ _ _ i (by omega), get0 _ _ _ i (by rw [z0.ys]; omega), get0 _ _ _ i (by rw [z0.ts]; omega)]
  · unfold WalkData.optList
    rw [e4 var (optVar_iff.1 hvar), o0 var hvar]
    simp only [bind, Option.bind]
    exact get0 _ _ _ i (by rw [z0.opt var hvar]; omega)
  · unfold WalkData.lists
    rw [e1, e2, e3, get1 _ _ _ _ i (by omega) (by omega), get1 _ _ _ _ i (by rw [z0.ys]; omega) (by rw [z.ys]; omega),
      get1 _ _ _ _ i (by rw [z0.ts]; omega) (by rw [z.ts]; omega)]
  · unfold WalkData.optList
    rw [e4 var (optVar_iff.1 hvar), o1 var hvar]
    simp only [bind, Option.bind]
    exact get1 _ _ _ _ i (by rw [z0.opt var hvar]; omega) (by rw [z.opt var hvar]; omega)

/-- C33: every new particle has exactly one record, at a listed row and column and at time `t`, and one value per tracked variable. -/
theorem C33_one_record {Ob : PObj K → Prop} {Ω : (Nat → K) → Prop} {Sd : PObj K → List Int → List Int → Fl K → Prop}
    (hB : ∀ P, Ob P → Built A F P) {P : PObj K} {s s' : PState K} (hr : Reach A F Ob Ω Sd P s) {prev : Option (WalkData K)}
    (hp : ∀ w, prev = some w → Sized P w) {ω : Nat → K} {N : Nat} {xs ys : List Int} {t : Fl K} {method : String}
    (h : generateParticles A P ω s (.int N) (ints xs) (ints ys) (.flt t) (.str method) prev = .ok s') :
    ∃ wd, s'.walk = some wd ∧ wd.xinds.length = count prev + count s.walk + N ∧ ∀ i, i < N →
      ∃ x y, x ∈ xs ∧ y ∈ ys ∧ wd.lists (count prev + count s.walk + i) = some ([x], [y], [t]) ∧
        ∀ var, OptVar P var → ∃ v, wd.optList var (count prev + count s.walk + i) = some [v] := by
  obtain ⟨m, sx, sy, pos', -, hs, wd, hwd, hl, hn⟩ := generate_new hp (fun w hw => hr.sized (fun P hP => (hB P hP).good) rfl hw) h
  refine ⟨wd, hwd, hl, fun i hi => ?_⟩
  obtain ⟨x, y, hx, hy, h1, h2⟩ := hn i hi
  obtain ⟨m1, m2⟩ := startIndices_mem A hs
  exact ⟨x, y, m1 _ (List.mem_of_getElem? hx), m2 _ (List.mem_of_getElem? hy), h1, h2⟩

/-! ## C30 -/

/-- C30: with equally long lists of `n` locations particle `i` starts at location `i mod n`. -/
theorem C30_exact {Ob : PObj K → Prop} {Ω : (Nat → K) → Prop} {Sd : PObj K → List Int → List Int → Fl K → Prop}
    (hB : ∀ P, Ob P → Built A F P) {P : PObj K} {s s' : PState K} (hr : Reach A F Ob Ω Sd P s) {prev : Option (WalkData K)}
    (hp : ∀ w, prev = some w → Sized P w) {ω : Nat → K} {N : Nat} {xs ys : List Int} (hlen : ys.length = xs.length) {t : Fl K}
    (h : generateParticles A P ω s (.int N) (ints xs) (ints ys) (.flt t) (.str "exact") prev = .ok s') :
    ∃ wd, s'.walk = some wd ∧ wd.xinds.length = count prev + count s.walk + N ∧ ∀ i, i < N →
      ∃ x y, xs[i % xs.length]? = some x ∧ ys[i % xs.length]? = some y ∧
        wd.lists (count prev + count s.walk + i) = some ([x], [y], [t]) := by
  obtain ⟨m, sx, sy, pos', hm, hs, wd, hwd, hl, hn⟩ := generate_new hp (fun w hw => hr.sized (fun P hP => (hB P hP).good) rfl hw) h
  obtain ⟨hm, -⟩ | ⟨-, rfl⟩ := hm
  · exact absurd hm (by decide)
  simp only [startIndices] at hs
  split_ifs at hs with h0
  simp only [bind_ok, pure_ok, Prod.mk.injEq] at hs
  obtain ⟨sx', hsx, sy', hsy, rfl, rfl, -⟩ := hs
  rw [← hlen] at hsy
  refine ⟨wd, hwd, hl, fun i hi => ?_⟩
  obtain ⟨x, y, hx, hy, h1, -⟩ := hn i hi
  refine ⟨x, y, ?_, ?_, h1⟩
  · rw [← exactSeeds_get hsx hi, hx]
  · rw [← hlen, ← exactSeeds_get hsy hi, hy]

/-- C30: if the `n` locations are distinct, location `j` receives `N / n` of the new particles, plus one if `j < N mod n`. -/
theorem C30_even {Ob : PObj K → Prop} {Ω : (Nat → K) → Prop} {Sd : PObj K → List Int → List Int → Fl K → Prop}
    (hB : ∀ P, Ob P → Built A F P) {P : PObj K} {s s' : PState K} (hr : Reach A F Ob Ω Sd P s) {prev : Option (WalkData K)}
    (hp : ∀ w, prev = some w → Sized P w) {ω : Nat → K} {N : Nat} {xs ys : List Int} (hlen : ys.length = xs.length)
    (hnd : (xs.zip ys).Nodup) {t : Fl K}
    (h : generateParticles A P ω s (.int N) (ints xs) (ints ys) (.flt t) (.str "exact") prev = .ok s')
    {j : Nat} {x y : Int} (hx : xs[j]? = some x) (hy : ys[j]? = some y) :
    ∃ wd, s'.walk = some wd ∧ #{i ∈ range N | wd.lists (count prev + count s.walk + i) = some ([x], [y], [t])} =
      N / xs.length + if j < N % xs.length then 1 else 0 := by
  obtain ⟨wd, hwd, hl, hn⟩ := C30_exact hB hr hp hlen h
  have hj : j < xs.length := (List.getElem?_eq_some_iff.1 hx).1
  refine ⟨wd, hwd, ?_⟩
  have hiff : ∀ i, i ∈ range N → (wd.lists (count prev + count s.walk + i) = some ([x], [y], [t]) ↔ i ≡ j [MOD xs.length]) := by
    intro i hi
    obtain ⟨x', y', hx', hy', h1⟩ := hn i (mem_range.1 hi)
    rw [h1]
    unfold Nat.ModEq
    rw [Nat.mod_eq_of_lt hj]
    have hi' := Nat.mod_lt i (by omega : 0 < xs.length)
    constructor
    · intro he
      simp only [Option.some.injEq, Prod.mk.injEq, List.cons.injEq, and_true] at he
      obtain ⟨rfl, rfl⟩ := he
      have z1 : (xs.zip ys)[i % xs.length]? = some (x', y') := by rw [List.getElem?_zip_eq_some]; exact ⟨hx', hy'⟩
      have z2 : (xs.zip ys)[j]? = some (x', y') := by rw [List.getElem?_zip_eq_some]; exact ⟨hx, hy⟩
      exact (List.getElem?_inj (by rw [List.length_zip]; omega) hnd).1 (z1.trans z2.symm)
    · intro he
      rw [he] at hx' hy'
      rw [hx] at hx'
      rw [hy] at hy'
      cases hx'; cases hy'; rfl
  rw [filter_congr hiff, ← Nat.count_eq_card_filter_range, Nat.count_modEq_card _ (by omega), Nat.mod_eq_of_lt hj]

/-- C30: the call succeeds: for any number of particles, any non-empty lists of locations on the grid, recognised variables. -/
theorem C30_succeeds {P : PObj K} (hB : Built A F P) (hv : ∀ var, OptVar P var → Trackable P var) (ω : Nat → K) (s : PState K) (N : Nat)
    {xs ys : List Int} (hne : xs ≠ []) (hlen : ys.length = xs.length) (hxy : ∀ x ∈ xs, ∀ y ∈ ys, OnGrid P x y) (t : Fl K)
    (prev : Option (WalkData K)) :
    ∃ s', generateParticles A P ω s (.int N) (ints xs) (ints ys) (.flt t) (.str "exact") prev = .ok s' := by
  have hney : ys ≠ [] := by
    intro h0
    rw [h0] at hlen
    exact hne (List.length_eq_zero_iff.1 hlen.symm)
  obtain ⟨sx, hsx⟩ := exactSeeds_ok hne N
  obtain ⟨sy, hsy⟩ := exactSeeds_ok hney N
  have hlx : xs.length ≠ 0 := fun h0 => hne (List.length_eq_zero_iff.1 h0)
  refine generate_ok hB.fields hv hxy (m := .exact) (Or.inr ⟨rfl, rfl⟩) (sx := sx) (sy := sy) (pos' := s.world.pos) ?_ ?_
  · rw [hlen] at hsy
    simp only [startIndices, if_neg hlx, hsx, ok_bind, hsy]
    rfl
  · by_contra hcon
    push Not at hcon
    have hm := Nat.mod_lt sy.length (List.length_pos_iff.2 hney)
    have := exactSeeds_get hsy hcon
    rw [List.getElem?_eq_getElem hm] at this
    simp at this

/-! ## C31 -/

/-- C31: random seeding succeeds for every stream of draws and all non-empty lists of locations on the grid. -/
theorem C31_succeeds {P : PObj K} (hB : Built A F P) (hv : ∀ var, OptVar P var → Trackable P var) {ω : Nat → K} (hω : Draws ω) (s : PState K)
    (N : Nat) {xs ys : List Int} (hnx : xs ≠ []) (hny : ys ≠ []) (hrx : A.rnd (xs.length : K) = xs.length)
    (hry : A.rnd (ys.length : K) = ys.length) (hxy : ∀ x ∈ xs, ∀ y ∈ ys, OnGrid P x y) (t : Fl K) (prev : Option (WalkData K)) :
    ∃ s', generateParticles A P ω s (.int N) (ints xs) (ints ys) (.flt t) (.str "random") prev = .ok s' := by
  obtain ⟨sx, p1, hsx⟩ := randomSeeds_ok hω hnx hrx s.world.pos N
  obtain ⟨sy, p2, hsy⟩ := randomSeeds_ok hω hny hry p1 N
  have hlen : N ≤ sy.length := by
    by_contra hcon
    obtain ⟨-, h2⟩ := randomSeeds_get hsy
    obtain ⟨a, ha, -⟩ := h2 sy.length (by omega)
    simp at ha
  refine generate_ok hB.fields hv hxy (m := .random) (Or.inl ⟨rfl, rfl⟩) (sx := sx) (sy := sy) (pos' := p2) ?_ hlen
  simp only [startIndices, Int.toNat_natCast, hsx, ok_bind, hsy]
  rfl

/-- C31: exactly `N` particles are added; each starts at a listed row and a listed column. New particle `i` uses draw `i` for its row
and draw `N + i` for its column. -/
theorem C31_members {Ob : PObj K → Prop} {Ω : (Nat → K) → Prop} {Sd : PObj K → List Int → List Int → Fl K → Prop}
    (hB : ∀ P, Ob P → Built A F P) {P : PObj K} {s s' : PState K} (hr : Reach A F Ob Ω Sd P s) {prev : Option (WalkData K)}
    (hp : ∀ w, prev = some w → Sized P w) {ω : Nat → K} {N : Nat} {xs ys : List Int} {t : Fl K}
    (h : generateParticles A P ω s (.int N) (ints xs) (ints ys) (.flt t) (.str "random") prev = .ok s') :
    ∃ wd, s'.walk = some wd ∧ wd.xinds.length = count prev + count s.walk + N ∧ ∀ i, i < N →
      ∃ x y, x ∈ xs ∧ y ∈ ys ∧ randomPickSeed A xs (ω (s.world.pos + i)) = .ok x ∧
        randomPickSeed A ys (ω (s.world.pos + N + i)) = .ok y ∧
        wd.lists (count prev + count s.walk + i) = some ([x], [y], [t]) := by
  obtain ⟨m, sx, sy, pos', hm, hs, wd, hwd, hl, hn⟩ := generate_new hp (fun w hw => hr.sized (fun P hP => (hB P hP).good) rfl hw) h
  obtain ⟨m1, m2⟩ := startIndices_mem A hs
  obtain ⟨-, rfl⟩ | ⟨hm, -⟩ := hm
  swap
  · exact absurd hm (by decide)
  simp only [startIndices, bind_ok, pure_ok, Prod.exists, Prod.mk.injEq, Int.toNat_natCast] at hs
  obtain ⟨sx', p1, hsx, sy', p2, hsy, rfl, rfl, -⟩ := hs
  obtain ⟨rfl, gx⟩ := randomSeeds_get hsx
  obtain ⟨-, gy⟩ := randomSeeds_get hsy
  refine ⟨wd, hwd, hl, fun i hi => ?_⟩
  obtain ⟨x, y, hx, hy, h1, -⟩ := hn i hi
  obtain ⟨x', hx', px⟩ := gx i hi
  obtain ⟨y', hy', py⟩ := gy i hi
  rw [hx] at hx'
  rw [hy] at hy'
  cases hx'; cases hy'
  exact ⟨x, y, m1 _ (List.mem_of_getElem? hx), m2 _ (List.mem_of_getElem? hy), px, py, h1⟩

theorem posAt_of_lists {wd : WalkData K} {i : Nat} {x y : Int} {ts : List (Fl K)} (h : wd.lists i = some ([x], [y], ts)) :
    wd.posAt i 0 = some (x, y) := by
  unfold WalkData.lists at h
  simp only [Option.bind_eq_bind, Option.bind_eq_some_iff, Option.pure_def, Option.some.injEq, Prod.mk.injEq] at h
  obtain ⟨l1, h1, l2, h2, l3, h3, rfl, rfl, rfl⟩ := h
  unfold WalkData.posAt
  rw [h1, h2]
  rfl

/-- The stream `ω` with the draws from position `pos` on replaced by `r`. -/
def splice {n : Nat} (ω : Nat → ℝ) (pos : Nat) (r : Fin n → ℝ) : Nat → ℝ := fun k =>
  if h : pos ≤ k ∧ k - pos < n then r ⟨k - pos, h.2⟩ else ω k

theorem splice_at {n : Nat} (ω : Nat → ℝ) (pos : Nat) (r : Fin n → ℝ) (i : Fin n) : splice ω pos r (pos + i) = r i := by
  unfold splice
  rw [dif_pos ⟨by omega, by have := i.2; omega⟩]
  congr 1
  ext
  simp

/-- C31 (exact arithmetic, real draws): the start positions of the new particles are independent and uniform over the listed entries: for
any positions `p 0, …, p (N-1)` the `2N` draws used by the call produce exactly these with probability
`∏ i, (occurrences of (p i).1 in xs) / (length of xs) * (occurrences of (p i).2 in ys) / (length of ys)`. -/
theorem C31_joint_law {F : Fun ℝ Arith.exact} {Ob : PObj ℝ → Prop} {Ω : (Nat → ℝ) → Prop} {Sd : PObj ℝ → List Int → List Int → Fl ℝ → Prop}
    (hB : ∀ P, Ob P → Built Arith.exact F P) {P : PObj ℝ} {s : PState ℝ} (hr : Reach Arith.exact F Ob Ω Sd P s) {prev : Option (WalkData ℝ)}
    (hp : ∀ w, prev = some w → Sized P w) (hv : ∀ var, OptVar P var → Trackable P var) {ω : Nat → ℝ} (hω : Draws ω) {N : Nat}
    {xs ys : List Int} (hnx : xs ≠ []) (hny : ys ≠ []) (hxy : ∀ x ∈ xs, ∀ y ∈ ys, OnGrid P x y) {t : Fl ℝ} (p : Fin N → Int × Int) :
    volume {r : Fin (N + N) → ℝ | (∀ k, 0 ≤ r k ∧ r k < 1) ∧ ∃ s' wd, generateParticles Arith.exact P (splice ω s.world.pos r) s (.int N)
        (ints xs) (ints ys) (.flt t) (.str "random") prev = .ok s' ∧ s'.walk = some wd ∧
        ∀ i : Fin N, wd.posAt (count prev + count s.walk + i) 0 = some (p i)} =
      ∏ i : Fin N, ENNReal.ofReal (xs.count (p i).1 / xs.length) * ENNReal.ofReal (ys.count (p i).2 / ys.length) := by
  have hset : {r : Fin (N + N) → ℝ | (∀ k, 0 ≤ r k ∧ r k < 1) ∧ ∃ s' wd, generateParticles Arith.exact P (splice ω s.world.pos r) s (.int N)
        (ints xs) (ints ys) (.flt t) (.str "random") prev = .ok s' ∧ s'.walk = some wd ∧
        ∀ i : Fin N, wd.posAt (count prev + count s.walk + i) 0 = some (p i)} =
      Set.pi Set.univ (Fin.addCases (fun i => {u : ℝ | 0 ≤ u ∧ u < 1 ∧ randomPickSeed Arith.exact xs u = .ok (p i).1})
        (fun i => {u : ℝ | 0 ≤ u ∧ u < 1 ∧ randomPickSeed Arith.exact ys u = .ok (p i).2})) := by
    ext r
    simp only [Set.mem_ofPred_eq, Set.mem_pi, Set.mem_univ, true_imp_iff, Fin.forall_fin_add, Fin.addCases_left, Fin.addCases_right]
    constructor
    · rintro ⟨⟨hb1, hb2⟩, s', wd, hg, hwd, hpos⟩
      obtain ⟨wd', hwd', -, hn⟩ := C31_members hB hr hp hg
      rw [hwd] at hwd'
      cases hwd'
      constructor
      · intro i
        obtain ⟨x, y, -, -, px, -, hl⟩ := hn i i.2
        have e := splice_at ω s.world.pos r (Fin.castAdd N i)
        simp only [Fin.val_castAdd] at e
        rw [e] at px
        have := posAt_of_lists hl
        rw [hpos i] at this
        simp only [Option.some.injEq] at this
        rw [this]
        exact ⟨(hb1 i).1, (hb1 i).2, px⟩
      · intro i
        obtain ⟨x, y, -, -, -, py, hl⟩ := hn i i.2
        have e := splice_at ω s.world.pos r (Fin.natAdd N i)
        simp only [Fin.val_natAdd, ← Nat.add_assoc] at e
        rw [e] at py
        have := posAt_of_lists hl
        rw [hpos i] at this
        simp only [Option.some.injEq] at this
        rw [this]
        exact ⟨(hb2 i).1, (hb2 i).2, py⟩
    · rintro ⟨h1, h2⟩
      have hb : ∀ k, 0 ≤ r k ∧ r k < 1 := by
        rw [Fin.forall_fin_add]
        exact ⟨fun i => ⟨(h1 i).1, (h1 i).2.1⟩, fun i => ⟨(h2 i).1, (h2 i).2.1⟩⟩
      have hd : Draws (splice ω s.world.pos r) := by
        intro n
        unfold splice
        split_ifs
        · exact hb _
        · exact hω n
      obtain ⟨s', hg⟩ := C31_succeeds (hB P hr.obj) hv hd s N hnx hny rfl rfl hxy t prev
      obtain ⟨wd, hwd, -, hn⟩ := C31_members hB hr hp hg
      refine ⟨⟨fun i => hb _, fun i => hb _⟩, s', wd, hg, hwd, fun i => ?_⟩
      obtain ⟨x, y, -, -, px, py, hl⟩ := hn i i.2
      have e := splice_at ω s.world.pos r (Fin.castAdd N i)
      simp only [Fin.val_castAdd] at e
      rw [e, (h1 i).2.2] at px
      have e := splice_at ω s.world.pos r (Fin.natAdd N i)
      simp only [Fin.val_natAdd, ← Nat.add_assoc] at e
      rw [e, (h2 i).2.2] at py
      rw [posAt_of_lists hl]
      injection px with px
      injection py with py
      rw [← px, ← py]
  rw [hset, volume_pi_pi, Fin.prod_univ_add, prod_mul_distrib]
  congr 1
  · refine prod_congr rfl fun i _ => ?_
    rw [Fin.addCases_left, pickSeed_volume hnx]
  · refine prod_congr rfl fun i _ => ?_
    rw [Fin.addCases_right, pickSeed_volume hny]

/-! ## C34 -/

theorem asTypeError_error {α : Type} {x : Except PyErr α} (h : ∀ a, x ≠ .ok a) : asTypeError x = .error .typeError := by
  cases x with
  | error e => rfl
  | ok a => exact absurd rfl (h a)

theorem asTypeError_cases {α : Type} (x : Except PyErr α) : asTypeError x = .error .typeError ∨ ∃ a, asTypeError x = .ok a := by
  cases x with
  | error e => exact Or.inl rfl
  | ok a => exact Or.inr ⟨a, rfl⟩

theorem pyInt_number {v : PyVal K} (h : v.IsNumber) : ∃ i, pyInt v = .ok i := by
  cases v with
  | bool b => exact ⟨_, rfl⟩
  | int i => exact ⟨_, rfl⟩
  | flt x => cases x with
    | fin x => exact ⟨_, rfl⟩
    | _ => exact absurd h id
  | _ => exact absurd h id

theorem pyInt_not_number {v : PyVal K} (h : ¬ v.IsNumber) (hs : ¬ v.IsStr) : ∀ i, pyInt v ≠ .ok i := by
  intro i
  cases v with
  | bool b => exact absurd trivial h
  | int i => exact absurd trivial h
  | flt x => cases x with
    | fin x => exact absurd trivial h
    | _ => simp [pyInt]
  | str s => exact absurd trivial hs
  | _ => simp [pyInt]

theorem pyList_number {v : PyVal K} (h : v.IsNumberList) : ∃ l, (do let l ← pyList v; mapE pyInt l) = Except.ok l := by
  have key : ∀ l : List (PyVal K), (∀ v ∈ l, v.IsNumber) → ∃ r, mapE pyInt l = .ok r := fun l hl => mapE_exists fun v hv => pyInt_number (hl v hv)
  cases v with
  | list l =>
    obtain ⟨r, hr⟩ := key l h
    refine ⟨r, ?_⟩
    unfold pyList
    simp only
    rw [if_neg]
    · exact hr
    · simp only [List.any_eq_true, not_exists, not_and]
      intro v hv
      have := h v hv
      cases v <;> simp_all [PyVal.IsNumber]
  | nd l => exact key l h
  | _ => exact absurd h id

theorem pyList_not_list {v : PyVal K} (h : ¬ v.IsNumberList) (hs : ¬ v.IsStr)
    (hl : ∀ l, v = .list l ∨ v = .nd l → ∀ w ∈ l, ¬ w.IsStr) : ∀ r, (do let l ← pyList v; mapE pyInt l) ≠ Except.ok r := by
  have key : ∀ l : List (PyVal K), (∀ w ∈ l, ¬ w.IsStr) → (¬ ∀ v ∈ l, v.IsNumber) → ∀ r, mapE pyInt l ≠ .ok r := by
    intro l h1 h2 r h3
    push Not at h2
    obtain ⟨v, hv, hvn⟩ := h2
    obtain ⟨i, hi⟩ := List.getElem?_of_mem hv
    obtain ⟨b, -, hb⟩ := mapE_get h3 hi
    exact pyInt_not_number hvn (h1 v hv) b hb
  intro r h0
  cases v with
  | list l =>
    unfold pyList at h0
    simp only at h0
    split_ifs at h0
    · cases h0
    · exact key l (hl l (Or.inl rfl)) h r h0
  | nd l => exact key l (hl l (Or.inr rfl)) h r h0
  | str s => exact hs trivial
  | _ => cases h0

/-- C34 (part): a count that is not a finite number, locations that are not a list or array of finite numbers, a seed time that is not a
number or a method that is not a string raise TypeError, whatever the other arguments are. Missing for the full statement: strings are not
covered, because strings of digits are accepted as counts and as locations (see `C34_strings_accepted`). -/
theorem C34_type_error_partial (P : PObj K) (ω : Nat → K) (s : PState K) {np xs ys time method : PyVal K} (prev : Option (WalkData K))
    (hbad : (¬ np.IsNumber ∧ ¬ np.IsStr) ∨
      (¬ xs.IsNumberList ∧ ¬ xs.IsStr ∧ ∀ l, xs = .list l ∨ xs = .nd l → ∀ w ∈ l, ¬ w.IsStr) ∨
      (¬ ys.IsNumberList ∧ ¬ ys.IsStr ∧ ∀ l, ys = .list l ∨ ys = .nd l → ∀ w ∈ l, ¬ w.IsStr) ∨
      ¬ time.IsTime ∨ ¬ method.IsStr) :
    generateParticles A P ω s np xs ys time method prev = .error .typeError := by
  have : genInputCheck np xs ys time method = .error .typeError := by
    unfold genInputCheck
    rcases asTypeError_cases (pyInt np) with h1 | ⟨n, h1⟩
    · rw [h1]; rfl
    rcases asTypeError_cases (do let l ← pyList xs; mapE pyInt l) with h2 | ⟨x, h2⟩
    · rw [h1, h2]; rfl
    rcases asTypeError_cases (do let l ← pyList ys; mapE pyInt l) with h3 | ⟨y, h3⟩
    · rw [h1, h2, h3]; rfl
    rw [h1, h2, h3]
    simp only [ok_bind]
    rcases hbad with ⟨a, b⟩ | ⟨a, b, c⟩ | ⟨a, b, c⟩ | a | a
    · rw [asTypeError_error (pyInt_not_number a b)] at h1; cases h1
    · rw [asTypeError_error (pyList_not_list a b c)] at h2; cases h2
    · rw [asTypeError_error (pyList_not_list a b c)] at h3; cases h3
    · cases time <;> first | exact absurd trivial a | rfl
    · cases method with
      | str m => exact absurd trivial a
      | _ => cases time <;> rfl
  unfold generateParticles
  rw [this]
  rfl

/-- C34: an unknown method is rejected with ValueError when the other arguments have the right types. -/
theorem C34_unknown_method (P : PObj K) (ω : Nat → K) (s : PState K) {np xs ys time : PyVal K} {m : String} (prev : Option (WalkData K))
    (hn : np.IsNumber) (hx : xs.IsNumberList) (hy : ys.IsNumberList) (ht : time.IsTime) (hm : ¬ (PyVal.str m : PyVal K).IsMethod) :
    generateParticles A P ω s np xs ys time (.str m) prev = .error .valueError := by
  obtain ⟨n, h1⟩ := pyInt_number hn
  obtain ⟨x, h2⟩ := pyList_number hx
  obtain ⟨y, h3⟩ := pyList_number hy
  have h4 : ∃ t, checkTime time = .ok t := by
    cases time <;> first | exact ⟨_, rfl⟩ | exact absurd ht id
  obtain ⟨t, h4⟩ := h4
  have h5 : checkMethod (K := K) (.str m) = .error .valueError := by
    unfold PyVal.IsMethod at hm
    push Not at hm
    simp only [checkMethod, if_neg hm.1, if_neg hm.2]
  unfold generateParticles genInputCheck
  rw [h1, h2, h3, h4, h5]
  rfl

/-- C34: a tracked variable with an unknown name is rejected with ValueError (here for locations on the grid). -/
theorem C34_unknown_variable {P : PObj K} (hB : Built A F P) {var : String} (hv : OptVar P var) (hbad : ¬ Trackable P var) (ω : Nat → K)
    (s : PState K) (N : Nat) {xs ys : List Int} (hne : xs ≠ []) (hlen : ys.length = xs.length)
    (hxy : ∀ x ∈ xs, ∀ y ∈ ys, OnGrid P x y) (t : Fl K) (prev : Option (WalkData K)) :
    generateParticles A P ω s (.int N) (ints xs) (ints ys) (.flt t) (.str "exact") prev = .error .valueError := by
  have hstart : ∀ starts : List (Int × Int), (∀ q ∈ starts, OnGrid P q.1 q.2) → ∀ (vars : List String) d, var ∈ vars →
      startVars P starts vars d = .error .valueError := by
    intro starts hs vars
    induction vars with
    | nil => intro d h; cases h
    | cons w vars ih =>
      intro d hmem
      unfold startVars
      have hb : isBaseVar var = false := (mem_keysOf.1 (optVar_iff.1 hv)).2
      by_cases hw : w = var
      · subst hw
        rw [hb]
        have : startVar P w starts = .error .valueError := by
          have hav : availVar P w = none := by
            rw [availVar_eq_fieldOf]
            cases hf : fieldOf P w with
            | none => rfl
            | some g => exact absurd (Or.inl ⟨g, hf⟩) hbad
          unfold startVar
          cases hr : P.roi with
          | none => simp only [hav]
          | some g =>
            simp only [hav]
            rw [if_neg]
            intro he
            exact hbad (Or.inr ⟨he, g, hr⟩)
        rw [this]
        rfl
      · have hmem' : var ∈ vars := by
          rcases List.mem_cons.1 hmem with h | h
          · exact absurd h.symm hw
          · exact h
        by_cases hbw : isBaseVar w = true
        · rw [if_pos hbw]; exact ih d hmem'
        · rw [if_neg hbw]
          by_cases ht : Trackable P w
          · obtain ⟨l, hl⟩ := startVar_ok hB.fields ht hs
            rw [hl]
            exact ih _ hmem'
          · have : startVar P w starts = .error .valueError := by
              have hav : availVar P w = none := by
                rw [availVar_eq_fieldOf]
                cases hf : fieldOf P w with
                | none => rfl
                | some g => exact absurd (Or.inl ⟨g, hf⟩) ht
              unfold startVar
              cases hr : P.roi with
              | none => simp only [hav]
              | some g =>
                simp only [hav]
                rw [if_neg]
                intro he
                exact ht (Or.inr ⟨he, g, hr⟩)
            rw [this]
            rfl
  have hney : ys ≠ [] := by
    intro h0
    rw [h0] at hlen
    exact hne (List.length_eq_zero_iff.1 hlen.symm)
  obtain ⟨sx, hsx⟩ := exactSeeds_ok hne N
  obtain ⟨sy, hsy⟩ := exactSeeds_ok hney N
  have hlx : xs.length ≠ 0 := fun h0 => hne (List.length_eq_zero_iff.1 h0)
  have hget : ∀ (l r : List Int), l ≠ [] → exactSeeds l (N : Int) l.length = .ok r → N ≤ r.length := by
    intro l r hl hr
    by_contra hcon
    push Not at hcon
    have hm := Nat.mod_lt r.length (List.length_pos_iff.2 hl)
    have := exactSeeds_get hr hcon
    rw [List.getElem?_eq_getElem hm] at this
    simp at this
  have hlsx := hget xs sx hne hsx
  have hlsy := hget ys sy hney hsy
  rw [hlen] at hsy
  have hs : startIndices A ω s.world.pos (N : Int) xs ys .exact = .ok (sx, sy, s.world.pos) := by
    simp only [startIndices, if_neg hlx, hsx, ok_bind, hsy]
    rfl
  have wrap : ∀ l : List Int, N ≤ l.length → ∃ r, mapE (fun i => do let a ← listGet l i; return [a]) (List.range N) = .ok r := fun l hl =>
    mapE_exists fun i hi => by
      have := List.mem_range.1 hi
      rw [listGet_ok.2 (List.getElem?_eq_getElem (by omega))]
      exact ⟨_, rfl⟩
  obtain ⟨nx, hnx⟩ := wrap sx hlsx
  obtain ⟨ny, hny⟩ := wrap sy hlsy
  have hv' := hstart (sx.zip sy) (fun q hq => by
    obtain ⟨h1, h2⟩ := List.of_mem_zip hq
    obtain ⟨m1, m2⟩ := startIndices_mem A hs
    exact hxy _ (m1 _ h1) _ (m2 _ h2)) P.particleVars [] hv.1
  unfold generateParticles generateCore newWalk
  rw [check_ints, if_neg (by decide), if_pos rfl]
  simp only [ok_bind, hs, Int.toNat_natCast, hnx, hny, hv']
  rfl

/-- C34: if the call raises, the object still holds the same walk data, particle count and weights; at most draws were consumed.
`generateStmt` executes the statements of `generate_particles` one by one on the object. -/
theorem C34_unchanged {P : PObj K} {ω : Nat → K} {s s' : PState K} {np xs ys time method : PyVal K} {prev : Option (WalkData K)} {e : PyErr}
    (h : generateStmt A P ω np xs ys time method prev s = (.error e, s')) :
    s'.walk = s.walk ∧ s'.np = s.np ∧ s'.world.weight = s.world.weight ∧
      generateParticles A P ω s np xs ys time method prev = .error e := by
  obtain ⟨h1, h2⟩ := generateStmt_refines (A := A) P ω s np xs ys time method prev
  cases hg : generateParticles A P ω s np xs ys time method prev with
  | ok s'' => rw [h1 s'' hg] at h; cases h
  | error e' =>
    obtain ⟨pos', h3⟩ := h2 e' hg
    rw [h3] at h
    simp only [Prod.mk.injEq, Except.error.injEq] at h
    obtain ⟨rfl, rfl⟩ := h
    exact ⟨rfl, rfl, rfl, rfl⟩

/-- The two models of the call agree: the statement-level one returns normally exactly when the functional one does, in the same state. -/
theorem C34_models_agree (P : PObj K) (ω : Nat → K) (s s' : PState K) (np xs ys time method : PyVal K) (prev : Option (WalkData K)) :
    generateStmt A P ω np xs ys time method prev s = (.ok (), s') ↔ generateParticles A P ω s np xs ys time method prev = .ok s' := by
  obtain ⟨h1, h2⟩ := generateStmt_refines (A := A) P ω s np xs ys time method prev
  refine ⟨fun h => ?_, h1 s'⟩
  cases hg : generateParticles A P ω s np xs ys time method prev with
  | ok s'' => rw [h1 s'' hg] at h; cases h; rfl
  | error e' =>
    obtain ⟨pos', h3⟩ := h2 e' hg
    rw [h3] at h
    cases h

/-! ## Concrete cases and counterexamples -/

theorem chanFull_trackable : ∀ var, OptVar (objOf chanFull) var → Trackable (objOf chanFull) var := by
  intro var h
  have : var ∈ ["depth", "u", "roi_flag"] := h.1
  simp only [List.mem_cons, List.not_mem_nil, or_false] at this
  rcases this with rfl | rfl | rfl
  · exact Or.inl ⟨_, rfl⟩
  · exact Or.inl ⟨_, rfl⟩
  · exact Or.inr ⟨rfl, _, rfl⟩

/-- Seven particles at three locations, added to one held particle and to two previous particles that have already moved. -/
def demoAdd : Except PyErr (PState ℚ × PState ℚ × PState ℚ) := do
  let s0 ← demo chanFull (fun _ => 1 / 2) 2 [2] [2] [(none, 0)]
  let s ← demo chanFull (fun _ => 1 / 2) 1 [1] [3] []
  let s' ← generateParticles Arith.exact (objOf chanFull) (fun _ => 1 / 3) s (.int (7 : Nat)) (ints [1, 2, 3]) (ints [3, 2, 1]) (.flt (.fin 5))
    (.str "exact") s0.walk
  return (s0, s, s')

theorem demoAdd_ok {β : Type} {f : WalkData ℚ → WalkData ℚ → WalkData ℚ → β} {b : β}
    (h : (demoAdd.toOption.bind fun r => r.1.walk.bind fun w0 => r.2.1.walk.bind fun w => r.2.2.walk.map fun wd => f w0 w wd) = some b) :
    ∃ s0 s s' w0 w wd, Reach Arith.exact Fun.toy (Built Arith.exact Fun.toy) Draws AnySeed (objOf chanFull) s0 ∧
      Reach Arith.exact Fun.toy (Built Arith.exact Fun.toy) Draws AnySeed (objOf chanFull) s ∧
      s0.walk = some w0 ∧ s.walk = some w ∧
      generateParticles Arith.exact (objOf chanFull) (fun _ => 1 / 3) s (.int (7 : Nat)) (ints [1, 2, 3]) (ints [3, 2, 1]) (.flt (.fin 5))
        (.str "exact") (some w0) = .ok s' ∧ s'.walk = some wd ∧ f w0 w wd = b := by
  unfold demoAdd at h
  cases h0 : demo chanFull (fun _ => 1 / 2) 2 [2] [2] [(none, 0)] with
  | error e => rw [h0] at h; cases h
  | ok s0 =>
    cases h1 : demo chanFull (fun _ => 1 / 2) 1 [1] [3] [] with
    | error e => rw [h0, h1] at h; cases h
    | ok s =>
      rw [h0, h1] at h
      simp only [ok_bind] at h
      cases h2 : generateParticles Arith.exact (objOf chanFull) (fun _ => 1 / 3) s (.int (7 : Nat)) (ints [1, 2, 3]) (ints [3, 2, 1])
          (.flt (.fin 5)) (.str "exact") s0.walk with
      | error e => rw [h2] at h; cases h
      | ok s' =>
        rw [h2] at h
        simp only [ok_bind, pure, Except.pure, Except.toOption, Option.bind_some, Option.bind_eq_some_iff, Option.map_eq_some_iff] at h
        obtain ⟨w0, hw0, w, hw, wd, hwd, hf⟩ := h
        rw [hw0] at h2
        exact ⟨s0, s, s', w0, w, wd, (demo_reach half_draws.1 trivial h0).mono (by rintro P rfl; exact chanFull_built),
          (demo_reach half_draws.1 trivial h1).mono (by rintro P rfl; exact chanFull_built), hw0, hw, h2, hwd, hf⟩

/-- C30, C32, C33: the hypotheses hold in a concrete case, with previous particles that have moved; the resulting rows and columns. -/
example : ∃ s0 s s' w0 w wd, Reach Arith.exact Fun.toy (Built Arith.exact Fun.toy) Draws AnySeed (objOf chanFull) s0 ∧
    Reach Arith.exact Fun.toy (Built Arith.exact Fun.toy) Draws AnySeed (objOf chanFull) s ∧ s0.walk = some w0 ∧ s.walk = some w ∧
    generateParticles Arith.exact (objOf chanFull) (fun _ => 1 / 3) s (.int (7 : Nat)) (ints [1, 2, 3]) (ints [3, 2, 1]) (.flt (.fin 5))
      (.str "exact") (some w0) = .ok s' ∧ s'.walk = some wd ∧
    (wd.xinds, wd.yinds, (wd.optOf "roi_flag").map List.length) =
      ([[2, 3], [2, 3], [1], [1], [2], [3], [1], [2], [3], [1]], [[2, 2], [2, 2], [3], [3], [2], [1], [3], [2], [1], [3]],
        [2, 2, 1, 1, 1, 1, 1, 1, 1, 1]) :=
  demoAdd_ok (f := fun _ _ wd => (wd.xinds, wd.yinds, (wd.optOf "roi_flag").map List.length)) (by decide +kernel)

example : ([1, 2, 3].zip [3, 2, 1] : List (Int × Int)).Nodup := by decide

/-- C30_succeeds, C31_succeeds: locations on the grid, recognised variables. -/
example : ∃ s', generateParticles Arith.exact (objOf chanFull) (fun _ => 1 / 3) (initState Arith.exact Fun.toy (objOf chanFull) 0) (.int (4 : Nat))
    (ints [1, 2, 3]) (ints [0, 4]) (.flt (.fin 0)) (.str "random") none = .ok s' :=
  C31_succeeds chanFull_built chanFull_trackable (fun _ => by norm_num) _ 4 (by decide) (by decide) rfl rfl
    (by intro x hx y hy; fin_cases hx <;> fin_cases hy <;> exact ⟨by decide, by decide, by decide, by decide⟩) _ _

/-- C31_joint_law: two particles in the real channel; rows [1, 2, 2], columns [2, 3]: probability of ((2,2), (1,3)). -/
example : volume {r : Fin (2 + 2) → ℝ | (∀ k, 0 ≤ r k ∧ r k < 1) ∧ ∃ s' wd, generateParticles Arith.exact realObj
      (splice (fun _ => 0) (initState Arith.exact Fun.real realObj 0).world.pos r) (initState Arith.exact Fun.real realObj 0) (.int (2 : Nat))
      (ints [1, 2, 2]) (ints [2, 3]) (.flt (.fin 0)) (.str "random") none = .ok s' ∧ s'.walk = some wd ∧
      ∀ i : Fin 2, wd.posAt (count (K := ℝ) none + count (initState Arith.exact Fun.real realObj 0).walk + i) 0 = some (![((2 : Int), (2 : Int)), (1, 3)] i)} =
    ENNReal.ofReal (2 / 3) * ENNReal.ofReal (1 / 2) * (ENNReal.ofReal (1 / 3) * ENNReal.ofReal (1 / 2)) := by
  have := C31_joint_law (Ob := (· = realObj)) (Ω := Draws) (Sd := AnySeed) (s := initState Arith.exact Fun.real realObj 0) (prev := none)
    (ω := fun _ => 0) (xs := [1, 2, 2]) (ys := [2, 3]) (t := .fin 0) (by rintro P rfl; exact realObj_built) (.new 0 rfl) (by simp)
    (fun var h => absurd h.1 List.not_mem_nil) (fun _ => by norm_num) (by simp) (by simp)
    (by intro x hx y hy; fin_cases hx <;> fin_cases hy <;> exact ⟨by decide, by decide, by decide, by decide⟩) ![((2 : Int), (2 : Int)), (1, 3)]
  rw [this]
  norm_num [Fin.prod_univ_two]

/-- C34, full statement refuted: strings of digits pass as a count and as lists of locations. -/
theorem C34_strings_accepted : ∃ s', generateParticles Arith.exact (objOf chan) (fun _ => 1 / 3) (initState Arith.exact Fun.toy (objOf chan) 0)
    (.str "3") (.str "12") (.str "34") (.int 0) (.str "exact") none = .ok s' ∧
    (s'.np, s'.walk.map fun w => (w.xinds, w.yinds)) = (3, some ([[1], [2], [1]], [[3], [4], [3]])) := by
  have h : (generateParticles Arith.exact (objOf chan) (fun _ => 1 / 3) (initState Arith.exact Fun.toy (objOf chan) 0)
    (.str "3") (.str "12") (.str "34") (.int 0) (.str "exact") none).toOption.map (fun s' => (s'.np, s'.walk.map fun w => (w.xinds, w.yinds))) =
      some (3, some ([[1], [2], [1]], [[3], [4], [3]])) := by decide +kernel
  cases hg : generateParticles Arith.exact (objOf chan) (fun _ => 1 / 3) (initState Arith.exact Fun.toy (objOf chan) 0)
    (.str "3") (.str "12") (.str "34") (.int 0) (.str "exact") none with
  | error e => rw [hg] at h; cases h
  | ok s' =>
    rw [hg] at h
    exact ⟨s', rfl, by simpa [Except.toOption] using h⟩

/-- The channel with an unknown variable name. -/
def chanBad : Params ℚ := { chan with particleVars := some ["depth", "salinity"] }
theorem chanBad_built : Built Arith.exact Fun.toy (objOf chanBad) := ⟨chanBad, { chan_valid with }, rfl⟩

/-- C34: hypotheses of the four statements in concrete cases. -/
example : generateParticles Arith.exact (objOf chan) (fun _ => 1 / 3) (initState Arith.exact Fun.toy (objOf chan) 0) (.list [.int 3])
    (ints [1]) (ints [1]) (.int 0) (.str "random") none = .error .typeError :=
  C34_type_error_partial _ _ _ _ (Or.inl ⟨id, id⟩)
example : generateParticles Arith.exact (objOf chan) (fun _ => 1 / 3) (initState Arith.exact Fun.toy (objOf chan) 0) (.int 3)
    (.int 1) (ints [1]) (.int 0) (.str "random") none = .error .typeError :=
  C34_type_error_partial _ _ _ _ (Or.inr (Or.inl ⟨id, id, by rintro l (h | h) <;> cases h⟩))
example : generateParticles Arith.exact (objOf chan) (fun _ => 1 / 3) (initState Arith.exact Fun.toy (objOf chan) 0) (.int 3)
    (.nd [.int 1, .flt (.fin 2)]) (.list [.int 1]) (.int 0) (.str "uniform") none = .error .valueError :=
  C34_unknown_method _ _ _ _ trivial (by intro v hv; fin_cases hv <;> trivial) (by intro v hv; fin_cases hv; trivial) trivial
    (by unfold PyVal.IsMethod; decide)
example : generateParticles Arith.exact (objOf chanBad) (fun _ => 1 / 3) (initState Arith.exact Fun.toy (objOf chanBad) 0) (.int (3 : Nat))
    (ints [1]) (ints [1]) (.flt (.fin 0)) (.str "exact") none = .error .valueError :=
  C34_unknown_variable (var := "salinity") chanBad_built ⟨by decide, by decide, by decide, by decide⟩
    (by rintro (⟨g, h⟩ | ⟨h, -⟩)
        · cases h
        · exact absurd h (by decide)) _ _ _ (by decide) rfl
    (by intro x hx y hy; fin_cases hx; fin_cases hy; exact ⟨by decide, by decide, by decide, by decide⟩) _ _

/-- C34_unchanged: a rejected random request (unknown variable, found after the draws) on an object. -/
example : ∃ s', generateStmt Arith.exact (objOf chanBad) (fun _ => 1 / 3) (.int 3) (ints [1]) (ints [1]) (.flt (.fin 0)) (.str "random") none
    (initState Arith.exact Fun.toy (objOf chanBad) 0) = (.error .valueError, s') ∧ s'.world.pos = 6 := by
  have h : (generateStmt Arith.exact (objOf chanBad) (fun _ => 1 / 3) (.int 3) (ints [1]) (ints [1]) (.flt (.fin 0)) (.str "random") none
    (initState Arith.exact Fun.toy (objOf chanBad) 0)).2.world.pos = 6 ∧
    (fun x : Except PyErr Unit => match x with | .error e => decide (e = .valueError) | .ok _ => false) (generateStmt Arith.exact (objOf chanBad) (fun _ => 1 / 3) (.int 3) (ints [1]) (ints [1]) (.flt (.fin 0)) (.str "random") none
    (initState Arith.exact Fun.toy (objOf chanBad) 0)).1 = true := by
    constructor
    · decide +kernel
    · decide +kernel
  generalize generateStmt Arith.exact (objOf chanBad) (fun _ => 1 / 3) (.int 3) (ints [1]) (ints [1]) (.flt (.fin 0)) (.str "random") none
    (initState Arith.exact Fun.toy (objOf chanBad) 0) = r at h
  obtain ⟨x, s'⟩ := r
  cases x with
  | ok u => exact absurd h.2 (by simp)
  | error e => exact ⟨s', by rw [of_decide_eq_true h.2], h.1⟩

end Dorado
