import Verif.Props.TimeReal
import Verif.Props.Exposure
import Verif.Props.Downstream
import Verif.Props.Delay
import Verif.Props.Pipeline

/-! # C134: in uniform flow the travel time is the distance along the flow over the speed -/

set_option linter.unusedSectionVars false

namespace Dorado

/-- Number of cells from `p` to `q` (row, column) in the direction `(u, v)`. -/
noncomputable def alongFlow (u v : ℝ) (p q : Int × Int) : ℝ :=
  (u * ((q.1 : ℝ) - p.1) + v * ((q.2 : ℝ) - p.2)) / Real.sqrt (u ^ 2 + v ^ 2)

theorem alongFlow_add (u v : ℝ) (p q r : Int × Int) : alongFlow u v p r = alongFlow u v p q + alongFlow u v q r := by
  unfold alongFlow
  rw [← add_div]
  congr 1
  ring

/-- The cells of the records `n..m` of particle `i` all have the speed `V` and the flow direction `(u, v)`. -/
def UniformAlong (P : PObj ℝ) (wd : WalkData ℝ) (i n m : Nat) (u v V : ℝ) : Prop :=
  ∀ j p, n ≤ j → j ≤ m → wd.posAt i j = some p → FieldAt P.u p u ∧ FieldAt P.v p v ∧ FieldAt P.velocity p V

/-- The default cell geometry and a positive cell size. -/
def DefaultGeometry (P : PObj ℝ) : Prop :=
  Built Arith.exact Fun.real P ∧ DefaultWalk P ∧ P.angles = defaultAngles Arith.exact Fun.real ∧
    P.distances = defaultDistances Arith.exact Fun.real ∧ 0 < P.dx

theorem default_distance {k : Nat} (hk : k < 9) (h4 : k ≠ 4) :
    defaultDistances Arith.exact Fun.real k = .fin (Real.sqrt ((defaultJwalk k : ℝ) ^ 2 + (defaultIwalk k : ℝ) ^ 2)) := by
  have : k = 0 ∨ k = 1 ∨ k = 2 ∨ k = 3 ∨ k = 5 ∨ k = 6 ∨ k = 7 ∨ k = 8 := by omega
  have h2 : Fun.real.sqrt 2 = Real.sqrt 2 := rfl
  rcases this with rfl | rfl | rfl | rfl | rfl | rfl | rfl | rfl <;>
    norm_num [defaultDistances, isCorner, defaultIwalk, defaultJwalk, h2]

theorem getElem?_before {α : Type} {l : List α} {m : Nat} {a : α} (h : l[m + 1]? = some a) : ∃ b, l[m]? = some b := by
  obtain ⟨h, -⟩ := List.getElem?_eq_some_iff.1 h
  exact ⟨_, List.getElem?_eq_getElem (by omega)⟩

theorem posAt_before {K : Type} {wd : WalkData K} {i m : Nat} {q : Int × Int} (h : wd.posAt i (m + 1) = some q) :
    ∃ r, wd.posAt i m = some r := by
  unfold WalkData.posAt at h ⊢
  simp only [Option.bind_eq_bind, Option.bind_eq_some_iff, Option.pure_def, Option.some.injEq] at h ⊢
  obtain ⟨xs, h1, ys, h2, x, h3, y, h4, -⟩ := h
  obtain ⟨a, ha⟩ := getElem?_before h3
  obtain ⟨b, hb⟩ := getElem?_before h4
  exact ⟨_, xs, h1, ys, h2, a, ha, b, hb, rfl⟩

theorem timeAt_before {K : Type} {wd : WalkData K} {i m : Nat} {t : Fl K} (h : wd.timeAt i (m + 1) = some t) :
    ∃ r, wd.timeAt i m = some r := by
  unfold WalkData.timeAt at h ⊢
  simp only [Option.bind_eq_bind, Option.bind_eq_some_iff] at h ⊢
  obtain ⟨ts, h1, h2⟩ := h
  obtain ⟨a, ha⟩ := getElem?_before h2
  exact ⟨a, ts, h1, ha⟩

/-- One recorded step. -/
theorem uniform_step {P0 : PObj ℝ} (hP : DefaultGeometry P0) {P : PObj ℝ} {s : PState ℝ}
    (h : Reach Arith.exact Fun.real (· = P0) Draws (FinSeed Arith.exact) P s) {wd : WalkData ℝ} (hwd : s.walk = some wd)
    {i n : Nat} {p q : Int × Int} {t t' : Fl ℝ} (hp : wd.posAt i n = some p) (hq : wd.posAt i (n + 1) = some q)
    (ht : wd.timeAt i n = some t) (ht' : wd.timeAt i (n + 1) = some t') {u v V : ℝ} (hun : UniformAlong P0 wd i n (n + 1) u v V) :
    ∃ x y δ, t = .fin x ∧ t' = .fin y ∧ 0 < V ∧ |δ| ≤ P0.diffCoeff / 2 ∧ y - x = P0.dx * max 0 (alongFlow u v p q) / V * (1 + δ) := by
  obtain ⟨hB, hw, hang, hdist, hdx⟩ := hP
  obtain ⟨P', x, y, rfl, hx, hy, k, a, d, vo, vn, va, δ, hk, h4, hq', ha, hd, hvo, hvn, hva, h1, h2, h3, h5, h6, h7⟩ :=
    C19_formula (Ob := (· = P0)) (fun P hP => by
      subst hP
      exact ⟨hB, fun k hk => by
        obtain ⟨d, hd, hd0⟩ := hB.good.dist_pos k hk
        rw [hd]
        intro h0
        injection h0 with h0
        exact (mul_pos hd0 hdx).ne' h0, fun k hk h4 => by
        rw [hang]
        obtain ⟨a, ha, -⟩ := angle_default hk h4
        exact ⟨a, ha⟩⟩) h hwd hp hq ht ht'
  obtain ⟨fu, fv, fV⟩ := hun n p le_rfl (by omega) hp
  obtain ⟨-, -, fV'⟩ := hun (n + 1) q (by omega) le_rfl hq
  have uniq : ∀ {g : Grid (Fl ℝ)} {p : Int × Int} {a b : ℝ}, FieldAt g p a → FieldAt g p b → a = b := by
    intro g p a b ha hb
    unfold FieldAt at ha hb
    rw [ha] at hb
    simpa using hb
  obtain rfl := uniq hvo fV
  obtain rfl := uniq hvn fV'
  obtain ⟨u', v', hu, hv, hu0, hv0, rfl⟩ := angle_at hB hva
  obtain rfl := uniq hu fu
  obtain rfl := uniq hv fv
  have hune : u' ≠ 0 := by
    rintro rfl
    rw [abs_zero] at hu0
    exact absurd hu0 (not_le.2 (eps8_pos _))
  obtain ⟨a', ha', hcos⟩ := C20_projection hk h4 (v := v') hune
  rw [hang, ha'] at ha
  injection ha with ha
  subst ha
  rw [hdist, default_distance hk h4] at hd
  injection hd with hd
  have hr : (q.1 : ℝ) - p.1 = defaultJwalk k := by rw [hq', hw.2]; push_cast; ring
  have hc : (q.2 : ℝ) - p.2 = defaultIwalk k := by rw [hq', hw.1]; push_cast; ring
  have hn1 : 0 < d := by
    rw [← hd]
    apply Real.sqrt_pos.2
    have : k = 0 ∨ k = 1 ∨ k = 2 ∨ k = 3 ∨ k = 5 ∨ k = 6 ∨ k = 7 ∨ k = 8 := by omega
    rcases this with rfl | rfl | rfl | rfl | rfl | rfl | rfl | rfl <;> norm_num [defaultIwalk, defaultJwalk]
  have hcr : (Fun.real).cos (a' - Fun.real.arctan2 (-u') v') = _ := hcos
  refine ⟨x, y, δ, hx, hy, h1, h3, ?_⟩
  rw [hcr, hd] at h7
  have e : d * max 0 ((u' * (defaultJwalk k : ℝ) + v' * (defaultIwalk k : ℝ)) / (d * Real.sqrt (u' ^ 2 + v' ^ 2))) =
      max 0 (alongFlow u' v' p q) := by
    rw [mul_max_of_nonneg _ _ hn1.le, mul_zero, alongFlow, hr, hc]
    congr 1
    rw [mul_div_assoc', mul_div_mul_left _ _ hn1.ne']
  rw [h7, freeTime, ← e]
  ring

/-- C134, `diff_coeff = dc`: between two records the particle has used the distance it has come along the flow over the speed, within the
factors `1 ∓ dc/2`, whichever way it took, provided it never went against the flow and stayed where the flow is uniform. -/
theorem C134_band {P0 : PObj ℝ} (hP : DefaultGeometry P0) {P : PObj ℝ} {s : PState ℝ}
    (h : Reach Arith.exact Fun.real (· = P0) Draws (FinSeed Arith.exact) P s) {wd : WalkData ℝ} (hwd : s.walk = some wd)
    {i n m : Nat} (hnm : n ≤ m) {u v V : ℝ} (hun : UniformAlong P0 wd i n m u v V)
    (hfw : ∀ j p q, n ≤ j → j < m → wd.posAt i j = some p → wd.posAt i (j + 1) = some q → 0 ≤ alongFlow u v p q)
    {p q : Int × Int} {x y : ℝ} (hp : wd.posAt i n = some p) (hq : wd.posAt i m = some q) (hx : wd.timeAt i n = some (.fin x))
    (hy : wd.timeAt i m = some (.fin y)) :
    (1 - P0.diffCoeff / 2) * (P0.dx * alongFlow u v p q / V) ≤ y - x ∧ y - x ≤ (1 + P0.diffCoeff / 2) * (P0.dx * alongFlow u v p q / V) := by
  induction m generalizing q y with
  | zero =>
    obtain rfl : n = 0 := by omega
    rw [hp] at hq
    rw [hx] at hy
    cases hq
    cases hy
    simp [alongFlow]
  | succ m ih =>
    rcases Nat.lt_or_ge m n with hlt | hle
    · obtain rfl : n = m + 1 := by omega
      rw [hp] at hq
      rw [hx] at hy
      cases hq
      cases hy
      simp [alongFlow]
    · obtain ⟨r, hr⟩ : ∃ r, wd.posAt i m = some r := posAt_before hq
      obtain ⟨t, ht⟩ : ∃ t, wd.timeAt i m = some t := timeAt_before hy
      obtain ⟨z, y', δ, rfl, hy', hV, hδ, e⟩ := uniform_step hP h hwd hr hq ht hy fun j p h1 h2 => hun j p (by omega) h2
      cases hy'
      obtain ⟨i1, i2⟩ := ih hle (fun j p h1 h2 => hun j p h1 (by omega)) (fun j p q h1 h2 => hfw j p q h1 (by omega)) hr ht
      have h0 := hfw m r q hle (by omega) hr hq
      rw [max_eq_right h0] at e
      have hT : 0 ≤ P0.dx * alongFlow u v r q / V := div_nonneg (mul_nonneg hP.2.2.2.2.le h0) hV.le
      rw [abs_le] at hδ
      have hsum : P0.dx * alongFlow u v p q / V = P0.dx * alongFlow u v p r / V + P0.dx * alongFlow u v r q / V := by
        rw [alongFlow_add u v p r q]
        ring
      rw [hsum]
      constructor <;> nlinarith

/-- C134, at most 2 for `diff_coeff`: also a particle that goes against the flow now and then cannot be faster, up to the factor `1 - dc/2`. -/
theorem C134_atleast {P0 : PObj ℝ} (hP : DefaultGeometry P0) (hdc : P0.diffCoeff ≤ 2) {P : PObj ℝ} {s : PState ℝ}
    (h : Reach Arith.exact Fun.real (· = P0) Draws (FinSeed Arith.exact) P s) {wd : WalkData ℝ} (hwd : s.walk = some wd)
    {i n m : Nat} (hnm : n ≤ m) {u v V : ℝ} (hun : UniformAlong P0 wd i n m u v V)
    {p q : Int × Int} {x y : ℝ} (hp : wd.posAt i n = some p) (hq : wd.posAt i m = some q) (hx : wd.timeAt i n = some (.fin x))
    (hy : wd.timeAt i m = some (.fin y)) : (1 - P0.diffCoeff / 2) * (P0.dx * alongFlow u v p q / V) ≤ y - x := by
  induction m generalizing q y with
  | zero =>
    obtain rfl : n = 0 := by omega
    rw [hp] at hq
    rw [hx] at hy
    cases hq
    cases hy
    simp [alongFlow]
  | succ m ih =>
    rcases Nat.lt_or_ge m n with hlt | hle
    · obtain rfl : n = m + 1 := by omega
      rw [hp] at hq
      rw [hx] at hy
      cases hq
      cases hy
      simp [alongFlow]
    · obtain ⟨r, hr⟩ : ∃ r, wd.posAt i m = some r := posAt_before hq
      obtain ⟨t, ht⟩ : ∃ t, wd.timeAt i m = some t := timeAt_before hy
      obtain ⟨z, y', δ, rfl, hy', hV, hδ, e⟩ := uniform_step hP h hwd hr hq ht hy fun j p h1 h2 => hun j p (by omega) h2
      cases hy'
      have i1 := ih hle (fun j p h1 h2 => hun j p h1 (by omega)) hr ht
      rw [abs_le] at hδ
      have hdx := hP.2.2.2.2
      have hM : P0.dx * alongFlow u v r q / V ≤ P0.dx * max 0 (alongFlow u v r q) / V :=
        div_le_div_of_nonneg_right (mul_le_mul_of_nonneg_left (le_max_right _ _) hdx.le) hV.le
      have hM0 : 0 ≤ P0.dx * max 0 (alongFlow u v r q) / V := div_nonneg (mul_nonneg hdx.le (le_max_left _ _)) hV.le
      have hsum : P0.dx * alongFlow u v p q / V = P0.dx * alongFlow u v p r / V + P0.dx * alongFlow u v r q / V := by
        rw [alongFlow_add u v p r q]
        ring
      rw [hsum]
      have k1 := mul_le_mul_of_nonneg_left hM (by linarith : 0 ≤ 1 - P0.diffCoeff / 2)
      have k2 := mul_le_mul_of_nonneg_right (by linarith : 1 - P0.diffCoeff / 2 ≤ 1 + δ) hM0
      linarith

/-- C134, `diff_coeff = 0`: the time used is the distance along the flow over the speed. -/
theorem C134_exact {P0 : PObj ℝ} (hP : DefaultGeometry P0) (hdc : P0.diffCoeff = 0) {P : PObj ℝ} {s : PState ℝ}
    (h : Reach Arith.exact Fun.real (· = P0) Draws (FinSeed Arith.exact) P s) {wd : WalkData ℝ} (hwd : s.walk = some wd)
    {i n m : Nat} (hnm : n ≤ m) {u v V : ℝ} (hun : UniformAlong P0 wd i n m u v V)
    (hfw : ∀ j p q, n ≤ j → j < m → wd.posAt i j = some p → wd.posAt i (j + 1) = some q → 0 ≤ alongFlow u v p q)
    {p q : Int × Int} {x y : ℝ} (hp : wd.posAt i n = some p) (hq : wd.posAt i m = some q) (hx : wd.timeAt i n = some (.fin x))
    (hy : wd.timeAt i m = some (.fin y)) : y - x = P0.dx * alongFlow u v p q / V := by
  obtain ⟨h1, h2⟩ := C134_band hP h hwd hnm hun hfw hp hq hx hy
  rw [hdc] at h1 h2
  linarith

theorem tau_eq {wd : WalkData ℝ} {i n : Nat} {x : ℝ} (h : wd.timeAt i n = some (.fin x)) : wd.tau i n = x := by
  unfold WalkData.tau
  rw [h]

/-- C134, `diff_coeff = 0`, as in docs/source/examples/example11.rst: the exposure time of a particle that starts in the region and leaves it
once, with record `m` the last one inside, is the distance along the flow to the boundary of the region over the speed - the boundary being
half way between the last cell inside and the first outside. -/
theorem C134_exposure {P0 : PObj ℝ} (hP : DefaultGeometry P0) (hdc : P0.diffCoeff = 0) {P : PObj ℝ} {s : PState ℝ}
    (h : Reach Arith.exact Fun.real (· = P0) Draws (FinSeed Arith.exact) P s) {wd : WalkData ℝ} (hwd : s.walk = some wd)
    {g : Grid Int} (hpr : Proper wd) (hon : OnRaster g.rows g.cols wd) (hb : Binary g) {res : ExposureResult ℝ}
    (hres : exposureTime Arith.exact wd g = .ok res) {i m : Nat} {u v V : ℝ} (hun : UniformAlong P0 wd i 0 (m + 1) u v V)
    (hfw : ∀ j p q, j < m + 1 → wd.posAt i j = some p → wd.posAt i (j + 1) = some q → 0 ≤ alongFlow u v p q)
    (hin : ∀ j, j ≤ m → wd.inRegion g i j) (hout : ∀ j, m < j → j < wd.records i → ¬ wd.inRegion g i j)
    {p q r : Int × Int} (hp : wd.posAt i 0 = some p) (hq : wd.posAt i m = some q) (hr : wd.posAt i (m + 1) = some r)
    {x y z : ℝ} (hx : wd.timeAt i 0 = some (.fin x)) (hy : wd.timeAt i m = some (.fin y)) (hz : wd.timeAt i (m + 1) = some (.fin z)) :
    res.times[i]? = some (.fin (P0.dx * (alongFlow u v p q + alongFlow u v q r / 2) / V)) := by
  have hcount : i < wd.count := by
    unfold WalkData.posAt at hp
    simp only [Option.bind_eq_bind, Option.bind_eq_some_iff] at hp
    obtain ⟨xs, h1, -⟩ := hp
    exact (List.getElem?_eq_some_iff.1 h1).1
  have hrec : m + 1 < wd.records i := by
    unfold WalkData.timeAt at hz
    simp only [Option.bind_eq_bind, Option.bind_eq_some_iff] at hz
    obtain ⟨ts, h1, h2⟩ := hz
    unfold WalkData.records
    rw [h1]
    exact (List.getElem?_eq_some_iff.1 h2).1
  have e1 := C134_exact hP hdc h hwd (Nat.zero_le m) (fun j p h1 h2 => hun j p h1 (by omega)) (fun j p q _ h2 => hfw j p q (by omega)) hp hq hx hy
  have e2 := C134_exact hP hdc h hwd (Nat.le_succ m) (fun j p _ h2 => hun j p (by omega) h2) (fun j p q _ h2 => hfw j p q h2) hq hr hy hz
  rw [times_get hpr hon hb hres hcount]
  congr 2
  unfold WalkData.exposure
  rw [← Finset.sum_subset (Finset.range_subset_range.2 (show m + 1 ≤ wd.records i - 1 by omega)), Finset.sum_range_succ]
  · have full : ∑ n ∈ Finset.range m, (wd.tau i (n + 1) - wd.tau i n) * ((wd.mark g i n + wd.mark g i (n + 1)) / 2) = wd.tau i m - wd.tau i 0 := by
      rw [← Finset.sum_range_sub]
      refine Finset.sum_congr rfl fun n hn => ?_
      have hn := Finset.mem_range.1 hn
      rw [mark_one (hin n (by omega)), mark_one (hin (n + 1) (by omega))]
      norm_num
    rw [full, mark_one (hin m le_rfl), mark_zero (hout (m + 1) (by omega) hrec), tau_eq hx, tau_eq hy, tau_eq hz, e1, e2]
    ring
  · intro n hn hn'
    have h1 := Finset.mem_range.1 hn
    have h2 : ¬ n < m + 1 := fun hh => hn' (Finset.mem_range.2 hh)
    rw [mark_zero (hout n (by omega) (by omega)), mark_zero (hout (n + 1) (by omega) (by omega))]
    simp

/-- Water at `(a,b)` flows down the rows over a surface that falls nowhere, to some wet cell. -/
def FlowsDown (P : PObj ℝ) (a b : Nat) : Prop :=
  (∃ Q, 0 < Q ∧ P.qx.at' a b = .fin Q ∧ P.qy.at' a b = .fin 0) ∧ (∀ c d, Adjacent a b c d → ¬ Below P a b c d) ∧ ∃ c d, Downstream P a b c d

/-- One step of a particle where water flows down the rows: one row further. -/
theorem down_step {P0 : PObj ℝ} (hP : DefaultGeometry P0) (hv : DefaultVectors Arith.exact Fun.real P0) {P : PObj ℝ} {s : PState ℝ}
    (h : Reach Arith.exact Fun.real (· = P0) (NonzeroDraws Arith.exact) (FinSeed Arith.exact) P s) {wd : WalkData ℝ} (hwd : s.walk = some wd)
    {i n a b : Nat} {q : Int × Int} (hp : wd.posAt i n = some ((a : Int), (b : Int))) (hq : wd.posAt i (n + 1) = some q)
    (hin : Interior P0 a b) (hf : FlowsDown P0 a b) : q.1 = (a : Int) + 1 ∧ (b : Int) - 1 ≤ q.2 ∧ q.2 ≤ (b : Int) + 1 := by
  obtain ⟨hB, hw, -, -, hdx⟩ := hP
  obtain ⟨⟨Q, hQ, hx, hy⟩, hflat, hdn⟩ := hf
  obtain ⟨c, d, rfl, hd⟩ := C120_exact hB hw hv (fun k hk => by
    obtain ⟨d, hd, hd0⟩ := hB.good.dist_pos k hk
    rw [hd]
    intro h0
    injection h0 with h0
    exact (mul_pos hd0 hdx).ne' h0) (fun x hx => by
    by_cases ht : P0.theta = 0
    · simp [Fun.real, ht]
    · simp only [Fun.real, ht, if_false, hx, if_true, ne_eq, Fl.fin.injEq]
      exact (Real.rpow_pos_of_pos hx _).ne') (h.monoSd fun _ _ _ _ _ => trivial) hwd hp hq hin hdn
  obtain ⟨hadj, -, -, -, ⟨-, hb⟩ | ⟨-, x, y, h1, h2, h3⟩⟩ := hd
  · exact absurd hb (hflat c d hadj)
  · rw [hx] at h1
    rw [hy] at h2
    cases h1
    cases h2
    have hc : a < c := by
      have : (0 : ℝ) < (c : ℝ) - a := by
        rw [zero_mul, add_zero] at h3
        exact pos_of_mul_pos_right h3 hQ.le
      have : (a : ℝ) < c := by linarith
      exact_mod_cast this
    unfold Adjacent at hadj
    refine ⟨?_, ?_, ?_⟩ <;> simp only <;> omega

/-- No step of a particle where water flows down the rows is against the flow. -/
theorem down_forward {P0 : PObj ℝ} (hP : DefaultGeometry P0) (hv : DefaultVectors Arith.exact Fun.real P0) {P : PObj ℝ} {s : PState ℝ}
    (h : Reach Arith.exact Fun.real (· = P0) (NonzeroDraws Arith.exact) (FinSeed Arith.exact) P s)
    {wd : WalkData ℝ} (hwd : s.walk = some wd) {i n m : Nat} {u v : ℝ} (huv : |v| ≤ u)
    (hcell : ∀ j, n ≤ j → j < m → ∃ a b : Nat, wd.posAt i j = some ((a : Int), (b : Int)) ∧ Interior P0 a b ∧ FlowsDown P0 a b) :
    ∀ j p q, n ≤ j → j < m → wd.posAt i j = some p → wd.posAt i (j + 1) = some q → 0 ≤ alongFlow u v p q := by
  intro j p' q' h1 h2 h3 h4
  obtain ⟨a, b, k1, k2, k3⟩ := hcell j h1 h2
  rw [h3] at k1
  cases k1
  obtain ⟨e1, e2, e3⟩ := down_step hP hv h hwd h3 h4 k2 k3
  unfold alongFlow
  refine div_nonneg ?_ (Real.sqrt_nonneg _)
  rw [e1]
  have e2' : (b : ℝ) - 1 ≤ q'.2 := by exact_mod_cast e2
  have e3' : (q'.2 : ℝ) ≤ (b : ℝ) + 1 := by exact_mod_cast e3
  rw [abs_le] at huv
  push_cast
  rcases le_total 0 v with hv0 | hv0 <;> nlinarith

/-- Where water flows down the rows the row grows by one with every record. -/
theorem down_rows {P0 : PObj ℝ} (hP : DefaultGeometry P0) (hv : DefaultVectors Arith.exact Fun.real P0) {P : PObj ℝ} {s : PState ℝ}
    (h : Reach Arith.exact Fun.real (· = P0) (NonzeroDraws Arith.exact) (FinSeed Arith.exact) P s)
    {wd : WalkData ℝ} (hwd : s.walk = some wd) {i n m : Nat} (hnm : n ≤ m)
    (hcell : ∀ j, n ≤ j → j < m → ∃ a b : Nat, wd.posAt i j = some ((a : Int), (b : Int)) ∧ Interior P0 a b ∧ FlowsDown P0 a b)
    {p q : Int × Int} (hp : wd.posAt i n = some p) (hq : wd.posAt i m = some q) : q.1 = p.1 + ((m : Int) - n) := by
  induction m generalizing q with
  | zero =>
    obtain rfl : n = 0 := by omega
    rw [hp] at hq
    cases hq
    simp
  | succ m ih =>
    rcases Nat.lt_or_ge m n with hlt | hle
    · obtain rfl : n = m + 1 := by omega
      rw [hp] at hq
      cases hq
      simp
    · obtain ⟨a, b, h1, h2, h3⟩ := hcell m hle (by omega)
      have e := ih hle (fun j k1 k2 => hcell j k1 (by omega)) h1
      have e' := (down_step hP hv h hwd h1 hq h2 h3).1
      simp only at e
      push_cast
      omega

/-- C134, a channel flowing down the rows with a flat water surface, as in docs/source/examples/example11.rst, and `diff_coeff = 0`: every move
takes the particle one row further, so the time between two records follows from their number and the change of column, which matters only
as far as the flow has a component across (in the example `v = 1e-8`). -/
theorem C134_channel {P0 : PObj ℝ} (hP : DefaultGeometry P0) (hv : DefaultVectors Arith.exact Fun.real P0) (hdc : P0.diffCoeff = 0)
    {P : PObj ℝ} {s : PState ℝ} (h : Reach Arith.exact Fun.real (· = P0) (NonzeroDraws Arith.exact) (FinSeed Arith.exact) P s)
    {wd : WalkData ℝ} (hwd : s.walk = some wd) {i n m : Nat} (hnm : n ≤ m) {u v V : ℝ} (huv : |v| ≤ u) (hun : UniformAlong P0 wd i n m u v V)
    (hcell : ∀ j, n ≤ j → j < m → ∃ a b : Nat, wd.posAt i j = some ((a : Int), (b : Int)) ∧ Interior P0 a b ∧ FlowsDown P0 a b)
    {p q : Int × Int} {x y : ℝ} (hp : wd.posAt i n = some p) (hq : wd.posAt i m = some q) (hx : wd.timeAt i n = some (.fin x))
    (hy : wd.timeAt i m = some (.fin y)) :
    q.1 = p.1 + ((m : Int) - n) ∧
      y - x = P0.dx * ((u * ((m : ℝ) - n) + v * ((q.2 : ℝ) - p.2)) / Real.sqrt (u ^ 2 + v ^ 2)) / V := by
  have hrow := down_rows hP hv h hwd hnm hcell hp hq
  refine ⟨hrow, ?_⟩
  have e := C134_exact hP hdc (h.monoDraws fun _ hω => hω.1) hwd hnm hun (down_forward hP hv h hwd huv hcell) hp hq hx hy
  unfold alongFlow at e
  have hr : (q.1 : ℝ) - p.1 = (m : ℝ) - n := by
    rw [hrow]
    push_cast
    ring
  rw [e, hr]

/-- C134, the same channel with any `diff_coeff`: the times spread around the distance along the flow over the speed by no more than half the
coefficient (from half to one and a half times for the value 1 of the example). -/
theorem C134_channel_band {P0 : PObj ℝ} (hP : DefaultGeometry P0) (hv : DefaultVectors Arith.exact Fun.real P0)
    {P : PObj ℝ} {s : PState ℝ} (h : Reach Arith.exact Fun.real (· = P0) (NonzeroDraws Arith.exact) (FinSeed Arith.exact) P s)
    {wd : WalkData ℝ} (hwd : s.walk = some wd) {i n m : Nat} (hnm : n ≤ m) {u v V : ℝ} (huv : |v| ≤ u) (hun : UniformAlong P0 wd i n m u v V)
    (hcell : ∀ j, n ≤ j → j < m → ∃ a b : Nat, wd.posAt i j = some ((a : Int), (b : Int)) ∧ Interior P0 a b ∧ FlowsDown P0 a b)
    {p q : Int × Int} {x y : ℝ} (hp : wd.posAt i n = some p) (hq : wd.posAt i m = some q) (hx : wd.timeAt i n = some (.fin x))
    (hy : wd.timeAt i m = some (.fin y)) :
    (1 - P0.diffCoeff / 2) * (P0.dx * alongFlow u v p q / V) ≤ y - x ∧ y - x ≤ (1 + P0.diffCoeff / 2) * (P0.dx * alongFlow u v p q / V) :=
  C134_band hP (h.monoDraws fun _ hω => hω.1) hwd hnm hun (down_forward hP hv h hwd huv hcell) hp hq hx hy

/-- C134, docs/source/examples/example11.rst with `diff_coeff = 0`: a region made of the rows up to `R`, a particle seeded in row `p.1 ≤ R`
that flows down the rows all its walk, `N` records long, and ends beyond row `R`. Its exposure time is the distance of `R - p.1 + 1/2` rows over
the speed (59.5 rows in the example), up to the component of the flow across. -/
theorem C134_channel_exposure {P0 : PObj ℝ} (hP : DefaultGeometry P0) (hv : DefaultVectors Arith.exact Fun.real P0) (hdc : P0.diffCoeff = 0)
    {P : PObj ℝ} {s : PState ℝ} (h : Reach Arith.exact Fun.real (· = P0) (NonzeroDraws Arith.exact) (FinSeed Arith.exact) P s)
    {wd : WalkData ℝ} (hwd : s.walk = some wd) {g : Grid Int} (hpr : Proper wd) (hon : OnRaster g.rows g.cols wd) (hb : Binary g)
    {R : Nat} (hg : ∀ a b, a < g.rows → b < g.cols → (g.at' a b = 1 ↔ a ≤ R)) {res : ExposureResult ℝ}
    (hres : exposureTime Arith.exact wd g = .ok res) {i N : Nat} {u v V : ℝ} (huv : |v| ≤ u) (hN : wd.records i = N + 1)
    (hun : UniformAlong P0 wd i 0 N u v V)
    (hcell : ∀ j, j < N → ∃ a b : Nat, wd.posAt i j = some ((a : Int), (b : Int)) ∧ Interior P0 a b ∧ FlowsDown P0 a b)
    {p z : Int × Int} (hp : wd.posAt i 0 = some p) (hz : wd.posAt i N = some z) (hpR : p.1 ≤ R) (hzR : (R : Int) < z.1) :
    ∃ c d : Int, wd.posAt i (R - p.1.toNat) = some ((R : Int), c) ∧ wd.posAt i (R - p.1.toNat + 1) = some ((R : Int) + 1, d) ∧
      res.times[i]? = some (.fin (P0.dx * ((u * ((R : ℝ) - p.1 + 1 / 2) + v * ((c : ℝ) - p.2 + ((d : ℝ) - c) / 2)) /
        Real.sqrt (u ^ 2 + v ^ 2)) / V)) := by
  have hp0 := (hon _ _ _ hp).1
  have hrow : ∀ j q, j ≤ N → wd.posAt i j = some q → q.1 = p.1 + (j : Int) := by
    intro j q hj hq
    have := down_rows hP hv h hwd (Nat.zero_le j) (fun k _ hk => hcell k (by omega)) hp hq
    simpa using this
  have hzN := hrow N z le_rfl hz
  obtain ⟨m, hm⟩ : ∃ m, m = R - p.1.toNat := ⟨_, rfl⟩
  rw [← hm]
  have hmN : m < N := by omega
  have hex : ∀ j, j ≤ N → ∃ q, wd.posAt i j = some q := by
    have : ∀ k, k ≤ N → ∃ q, wd.posAt i (N - k) = some q := by
      intro k
      induction k with
      | zero => exact fun _ => ⟨z, hz⟩
      | succ k ih =>
        intro hk
        obtain ⟨q, hq⟩ := ih (by omega)
        have e : N - k = N - (k + 1) + 1 := by omega
        rw [e] at hq
        exact posAt_before hq
    intro j hj
    obtain ⟨q, hq⟩ := this (N - j) (by omega)
    rw [show N - (N - j) = j by omega] at hq
    exact ⟨q, hq⟩
  have htime : ∀ j, j ≤ N → ∃ x, wd.timeAt i j = some (.fin x) := by
    intro j hj
    have : ∃ t, wd.timeAt i j = some t := by
      unfold WalkData.records at hN
      cases hT : wd.times[i]? with
      | none => rw [hT] at hN; simp at hN
      | some ts =>
        rw [hT] at hN
        simp only [Option.map_some, Option.getD_some] at hN
        exact ⟨ts[j]'(by omega), by simp [WalkData.timeAt, hT]⟩
    obtain ⟨t, ht⟩ := this
    obtain ⟨x, rfl⟩ := hpr.fin i j t ht
    exact ⟨x, ht⟩
  obtain ⟨q, hq⟩ := hex m (by omega)
  obtain ⟨r, hr⟩ := hex (m + 1) (by omega)
  have hq1 : q.1 = R := by have := hrow m q (by omega) hq; omega
  have hr1 : r.1 = R + 1 := by have := hrow (m + 1) r (by omega) hr; push_cast at this; omega
  obtain ⟨x0, hx⟩ := htime 0 (by omega)
  obtain ⟨x1, hy⟩ := htime m (by omega)
  obtain ⟨x2, hw⟩ := htime (m + 1) (by omega)
  have hreg : ∀ j, j ≤ N → (wd.inRegion g i j ↔ j ≤ m) := by
    intro j hj
    obtain ⟨o, ho⟩ := hex j hj
    obtain ⟨k1, k2, k3, k4⟩ := hon _ _ _ ho
    have hj1 := hrow j o hj ho
    have hiff := hg o.1.toNat o.2.toNat (by omega) (by omega)
    constructor
    · rintro ⟨o', h1, h2⟩
      rw [ho] at h1
      cases h1
      have := hiff.1 h2
      omega
    · intro hjm
      exact ⟨o, ho, hiff.2 (by omega)⟩
  have e := C134_exposure hP hdc (h.monoDraws fun _ hω => hω.1) hwd hpr hon hb hres (i := i) (m := m)
    (fun j o h1 h2 => hun j o h1 (by omega))
    (fun j o o' hj => down_forward hP hv h hwd (n := 0) (m := N) huv (fun k _ hk => hcell k hk) j o o' (Nat.zero_le j) (by omega))
    (fun j hj => (hreg j (by omega)).2 hj) (fun j hj hjN hin => by
      have := (hreg j (by omega)).1 hin
      omega) hp hq hr hx hy hw
  refine ⟨q.2, r.2, by rw [hq, ← hq1], by rw [hr, ← hr1], ?_⟩
  rw [e]
  unfold alongFlow
  have e1 : (q.1 : ℝ) = R := by rw [hq1]; simp
  have e2 : (r.1 : ℝ) = R + 1 := by rw [hr1]; simp
  rw [e1, e2]
  congr 2
  ring

/-! ### A concrete case -/

/-- Uniform flow to the south over a flat water surface without diffusion of travel times. -/
noncomputable def calmChan : Params ℝ := { realChan with diffCoeff := some 0 }

/-- The object built from it. -/
noncomputable def calmObj : PObj ℝ := { realObj with diffCoeff := 0 }

theorem calmObj_init : initParticles Arith.exact Fun.real calmChan = .ok calmObj := by
  have h : initDiff Arith.exact calmChan = 0 := by
    simp [initDiff, calmChan]
  have e : initParticles Arith.exact Fun.real calmChan = .ok { realObj with diffCoeff := initDiff Arith.exact calmChan } := rfl
  rw [e, h]
  rfl

theorem calmObj_built : Built Arith.exact Fun.real calmObj :=
  ⟨calmChan, ⟨realChan_valid.depth, realChan_valid.stage, realChan_valid.topography, realChan_valid.qx, realChan_valid.qy, realChan_valid.u,
    realChan_valid.v, realChan_valid.gamma, realChan_valid.dryDepth, realChan_valid.distances, realChan_valid.ivec, realChan_valid.jvec⟩, calmObj_init⟩

theorem calmObj_steps : StepsNonzero Arith.exact calmObj := realObj_steps

theorem calmObj_std : Standard Fun.real calmObj := ⟨calmObj_built, ⟨rfl, rfl⟩, ⟨rfl, rfl⟩, calmObj_steps⟩

theorem calmObj_enclosed : Enclosed Arith.exact Fun.real 5 5 calmObj := by
  obtain ⟨h1, h2, h3⟩ := C17_default_ring (p := calmChan) rfl rfl rfl rfl calmObj_init
  exact ⟨calmObj_built, rfl, rfl, h1, h2, calmObj_steps, h3⟩

theorem calmObj_moves : ¬ (flowOf Fun.real calmObj).DeadEnd 2 2 := realObj_moves

/-- One particle at (2,2), one call of `run_iteration`. -/
theorem calm_run : ∃ (s : PState ℝ) (wd : WalkData ℝ) (q : Int × Int) (t : Fl ℝ),
    Reach Arith.exact Fun.real (· = calmObj) Draws (FinSeed Arith.exact) calmObj s ∧
    Reach Arith.exact Fun.real (· = calmObj) (NonzeroDraws Arith.exact) (FinSeed Arith.exact) calmObj s ∧
    s.walk = some wd ∧ wd.posAt 0 0 = some (2, 2) ∧ wd.posAt 0 1 = some q ∧ wd.timeAt 0 0 = some (.fin 0) ∧ wd.timeAt 0 1 = some t ∧
    q ≠ (2, 2) ∧ wd.xinds = [[2, q.1]] ∧ wd.yinds = [[2, q.2]] ∧ wd.times = [[.fin 0, t]] := by
  obtain ⟨s0, h0, hw, hnp⟩ : ∃ s0, generateParticles Arith.exact calmObj (fun _ => 1 / 2) (initState Arith.exact Fun.real calmObj 0) (.int 1)
    (.list [.int 2]) (.list [.int 2]) (.int 0) (.str "exact") none = .ok s0 ∧
      (∃ wd, s0.walk = some wd ∧ wd.lists 0 = some ([2], [2], [.fin ((0 : Int) : ℝ)]) ∧ wd.lastPos 0 = some (2, 2)) ∧ s0.np = 1 :=
    ⟨_, rfl, ⟨_, rfl, rfl, rfl⟩, rfl⟩
  obtain ⟨wd, hwd, hl, hlp⟩ := hw
  have hc : genInputCheck (K := ℝ) (.int 1) (.list [.int 2]) (.list [.int 2]) (.int 0) (.str "exact") =
    .ok (1, [2], [2], .fin ((0 : Int) : ℝ), .exact) := rfl
  rw [Int.cast_zero] at hl hc
  have hdraws : Draws (K := ℝ) (fun _ => 1 / 2) := fun _ => by norm_num
  have hnz : NonzeroDraws (K := ℝ) Arith.exact (fun _ => 1 / 2) :=
    ⟨hdraws, fun _ x hx _ => (mul_pos hx (by norm_num : (0 : ℝ) < 1 / 2)).ne'⟩
  have reach : ∀ {Ob : PObj ℝ → Prop} {Sd : PObj ℝ → List Int → List Int → Fl ℝ → Prop}, Ob calmObj → Sd calmObj [2] [2] (.fin 0) →
      Reach Arith.exact Fun.real Ob Draws Sd calmObj s0 := fun hO hS => .generate (.new 0 hO) hdraws hc (by norm_num) hS h0
  obtain ⟨res, hres⟩ := C17_no_crash (reach (Ob := Enclosed Arith.exact Fun.real 5 5) (Sd := InsideSeeds 5 5) calmObj_enclosed
    (by intro x hx y hy; simp at hx hy; subst hx hy; unfold Inside; decide)) (by rw [hwd]; simp) hdraws none 1 (Or.inl rfl)
  have hin : Interior calmObj 2 2 := ⟨by norm_num, by change 2 + 1 < 5; norm_num, by norm_num, by change 2 + 1 < 5; norm_num⟩
  have hedge : ¬ NearEdge calmObj 2 2 := by
    intro he
    obtain ⟨i, j, hi, hj, h1, h2, h3⟩ := he
    have : calmObj.cellType.at' i j = if interiorB 5 5 i j then (if Fl.lt (.fin (1 : ℝ)) (.fin (1 / 10)) then 2 else 0) else -1 := rfl
    rw [this, if_pos (by unfold interiorB; simp; omega)] at h3
    split_ifs at h3
  have hres' : res.state.walk = some res.returned ∧ res.returned.xinds.length = 1 ∧ res.returned.yinds.length = 1 ∧ res.returned.times.length = 1 := by
    obtain ⟨hpe, h1 | ⟨rows, hr⟩⟩ := (reach (Ob := Standard Fun.real) (Sd := AnySeed) calmObj_std trivial).state (fun P h => h.built.good)
    · rw [hwd] at h1; cases h1
    obtain ⟨-, rows', hlen, hret, hwalk, -⟩ := runIteration_inv Arith.exact Fun.real calmObj_built.good hpe hr.1 (Or.inl hr.2) hres
    have h1 : rows'.length = 1 := by rw [hlen, ← hr.2, hnp]
    rw [hret]
    exact ⟨hwalk, by simp [ofRows, h1], by simp [ofRows, h1], by simp [ofRows, h1]⟩
  obtain ⟨q, t, hq, hne⟩ := C66_progress (fun P h => h) (reach (Ob := Standard Fun.real) (Sd := AnySeed) calmObj_std trivial) hnz hres hwd hl hlp
    hin hedge (fun hd => calmObj_moves ((deadEnd_repr calmObj_built.good (represents_flowOf calmObj_built.good) hin).1 hd))
  refine ⟨res.state, res.returned, q, t, .run (reach rfl ⟨0, rfl, rfl⟩) hdraws hres,
    .run (.generate (.new 0 rfl) hnz hc (by norm_num) ⟨0, rfl, rfl⟩ h0) hnz hres, ?_⟩
  · obtain ⟨X, Y, T, hX, hY, hT, rfl, rfl, rfl⟩ : ∃ X Y T, res.returned.xinds[0]? = some X ∧ res.returned.yinds[0]? = some Y ∧ res.returned.times[0]? = some T ∧
        X = [2, q.1] ∧ Y = [2, q.2] ∧ T = [.fin 0, t] := by
      unfold WalkData.lists at hq
      simp only [Option.bind_eq_bind, Option.bind_eq_some_iff, Option.pure_def, Option.some.injEq, Prod.mk.injEq] at hq
      obtain ⟨X, hX, Y, hY, T, hT, e1, e2, e3⟩ := hq
      exact ⟨X, Y, T, hX, hY, hT, e1, e2, e3⟩
    have one : ∀ {α : Type} {l : List α} {a : α}, l.length = 1 → l[0]? = some a → l = [a] := by
      intro α l a h1 h2
      obtain ⟨b, rfl⟩ := List.length_eq_one_iff.1 h1
      simpa using h2
    refine ⟨hres'.1, ?_, ?_, ?_, ?_, hne, one hres'.2.1 hX, one hres'.2.2.1 hY, one hres'.2.2.2 hT⟩
    · simp [WalkData.posAt, hX, hY]
    · simp [WalkData.posAt, hX, hY]
    · simp [WalkData.timeAt, hT]
    · simp [WalkData.timeAt, hT]

theorem calm_u (a b : Nat) : calmObj.u.at' a b = .fin (2 * 1 / (1 * 1 + 1 / 100000000)) := by
  change (fun x : Fl ℝ => if Fl.lt (Fl.abs x) (.fin (1 / 100000000)) then Fl.fin (1 / 100000000) else x)
    (Fl.nanTo0 (Arith.exact.div (.fin (2 * 1)) (.fin (1 * 1 + 1 / 100000000)))) = _
  rw [real_div (by norm_num)]
  exact clamp_big (by rw [abs_of_pos] <;> norm_num)

theorem calm_v (a b : Nat) : calmObj.v.at' a b = .fin (1 / 100000000) := by
  change (fun x : Fl ℝ => if Fl.lt (Fl.abs x) (.fin (1 / 100000000)) then Fl.fin (1 / 100000000) else x)
    (Fl.nanTo0 (Arith.exact.div (.fin (0 * 1)) (.fin (1 * 1 + 1 / 100000000)))) = _
  rw [real_div (by norm_num)]
  exact clamp_small (by norm_num)

theorem calm_stage (a b : Nat) : calmObj.stage.at' a b = .fin 1 := by
  change ((if Fl.eq (.fin (1 : ℝ)) (.fin 0) then Fl.nan else .fin 1) : Fl ℝ) = .fin 1
  rw [if_neg (by simp [Fl.eq])]

theorem calm_interior : Interior calmObj 2 2 :=
  ⟨by norm_num, by change 2 + 1 < 5; norm_num, by norm_num, by change 2 + 1 < 5; norm_num⟩

theorem calm_geometry : DefaultGeometry calmObj := ⟨calmObj_built, ⟨rfl, rfl⟩, rfl, rfl, by change (0 : ℝ) < 10; norm_num⟩

theorem calm_down : FlowsDown calmObj 2 2 := by
  refine ⟨⟨2, by norm_num, rfl, rfl⟩, ?_, 3, 2, by unfold Adjacent; decide, ?_, ⟨1, calm_stage 2 2⟩, ⟨1, calm_stage 3 2⟩,
    .inr ⟨by change (1 / 20 : ℝ) < 1; norm_num, 2, 0, rfl, rfl, by norm_num⟩⟩
  · rintro c d - ⟨e, e', h1, h2, h3⟩
    rw [calm_stage] at h1 h2
    cases h1
    cases h2
    exact absurd h3 (lt_irrefl _)
  · refine ⟨⟨1, rfl, ?_⟩, ?_⟩
    · change (1 / 10 : ℝ) < 1; norm_num
    · have e : calmObj.cellType.at' 3 2 = if Fl.lt (.fin (1 : ℝ)) (.fin (1 / 10)) then 2 else 0 := rfl
      rw [e, if_neg (by norm_num [Fl.lt])]
      norm_num

/-- The step of `calm_run` goes to the row below. -/
theorem calm_south {s : PState ℝ} {wd : WalkData ℝ} {q : Int × Int}
    (h : Reach Arith.exact Fun.real (· = calmObj) (NonzeroDraws Arith.exact) (FinSeed Arith.exact) calmObj s) (hwd : s.walk = some wd)
    (hp : wd.posAt 0 0 = some (2, 2)) (hq : wd.posAt 0 1 = some q) : q = (3, 1) ∨ q = (3, 2) ∨ q = (3, 3) := by
  obtain ⟨h1, h2, h3⟩ := down_step calm_geometry ⟨rfl, rfl⟩ h hwd (a := 2) (b := 2) hp hq calm_interior calm_down
  obtain ⟨c, d⟩ := q
  simp only [Prod.mk.injEq] at h1 h2 h3 ⊢
  omega

/-- The run meets the hypotheses of C134: one step at speed `V`, not against the flow, and the time it takes is as C134_exact says. -/
theorem calm_case : ∃ (s : PState ℝ) (wd : WalkData ℝ) (q : Int × Int) (u v V y : ℝ),
    Reach Arith.exact Fun.real (· = calmObj) Draws (FinSeed Arith.exact) calmObj s ∧ s.walk = some wd ∧ DefaultGeometry calmObj ∧
    calmObj.diffCoeff = 0 ∧ UniformAlong calmObj wd 0 0 1 u v V ∧ 0 < alongFlow u v (2, 2) q ∧ 0 < V ∧
    wd.posAt 0 0 = some (2, 2) ∧ wd.posAt 0 1 = some q ∧ wd.timeAt 0 0 = some (.fin 0) ∧ wd.timeAt 0 1 = some (.fin y) ∧
    y = 10 * alongFlow u v (2, 2) q / V ∧ 0 < y ∧
    (q = (3, 1) ∨ q = (3, 2) ∨ q = (3, 3)) ∧ wd.xinds = [[2, q.1]] ∧ wd.yinds = [[2, q.2]] ∧ wd.times = [[.fin 0, .fin y]] ∧ |v| ≤ u ∧
    Reach Arith.exact Fun.real (· = calmObj) (NonzeroDraws Arith.exact) (FinSeed Arith.exact) calmObj s := by
  obtain ⟨s, wd, q, t, hr, hr', hwd, hp, hq, hx, hy, -, hX, hY, hT⟩ := calm_run
  have hg := calm_geometry
  have hsouth := calm_south hr' hwd hp hq
  obtain ⟨V, hV, hV1⟩ := calmObj_built.fields.vel 2 2 (by change 2 < 5; norm_num) (by change 2 < 5; norm_num)
  have hVc : ∀ a b, calmObj.velocity.at' a b = .fin V := fun a b => hV
  have hV0 : 0 < V := (eps8_pos _).trans_le hV1
  have hf : ∀ p : Int × Int, p = (2, 2) ∨ p = (3, 1) ∨ p = (3, 2) ∨ p = (3, 3) →
      FieldAt calmObj.u p (2 * 1 / (1 * 1 + 1 / 100000000)) ∧ FieldAt calmObj.v p (1 / 100000000) ∧ FieldAt calmObj.velocity p V := by
    have key : ∀ a b : Nat, (∀ g : Grid (Fl ℝ), g.rows = 5 → g.cols = 5 → g.get (a : Int) (b : Int) = .ok (g.at' a b)) →
        FieldAt calmObj.u ((a : Int), (b : Int)) (2 * 1 / (1 * 1 + 1 / 100000000)) ∧ FieldAt calmObj.v ((a : Int), (b : Int)) (1 / 100000000) ∧
          FieldAt calmObj.velocity ((a : Int), (b : Int)) V := by
      intro a b hget
      unfold FieldAt
      exact ⟨by rw [hget _ rfl rfl, calm_u], by rw [hget _ rfl rfl, calm_v], by rw [hget _ rfl rfl, hVc]⟩
    have hget : ∀ a b : Nat, a < 5 → b < 5 → ∀ g : Grid (Fl ℝ), g.rows = 5 → g.cols = 5 → g.get (a : Int) (b : Int) = .ok (g.at' a b) :=
      fun a b ha hb g h1 h2 => by
        unfold Grid.get
        rw [pyIdx_nonneg (by omega) (by omega), pyIdx_nonneg (by omega) (by omega)]
        rfl
    rintro p (rfl | rfl | rfl | rfl)
    · exact key 2 2 (hget 2 2 (by norm_num) (by norm_num))
    · exact key 3 1 (hget 3 1 (by norm_num) (by norm_num))
    · exact key 3 2 (hget 3 2 (by norm_num) (by norm_num))
    · exact key 3 3 (hget 3 3 (by norm_num) (by norm_num))
  have hun : UniformAlong calmObj wd 0 0 1 (2 * 1 / (1 * 1 + 1 / 100000000)) (1 / 100000000) V := by
    intro j p _ hj hpj
    obtain rfl | rfl : j = 0 ∨ j = 1 := by omega
    · rw [hp] at hpj
      cases hpj
      exact hf _ (.inl rfl)
    · rw [hq] at hpj
      cases hpj
      exact hf _ (.inr hsouth)
  have hpos : 0 < alongFlow (2 * 1 / (1 * 1 + 1 / 100000000)) (1 / 100000000) (2, 2) q := by
    unfold alongFlow
    refine div_pos ?_ (Real.sqrt_pos.2 (by norm_num))
    rcases hsouth with rfl | rfl | rfl <;> norm_num
  obtain ⟨x, y, δ, ex, ey, -⟩ := uniform_step hg hr hwd hp hq hx hy hun
  subst ey
  have e := C134_exact hg rfl hr hwd (Nat.zero_le 1) hun (fun j p' q' _ hj h1 h2 => by
    obtain rfl : j = 0 := by omega
    rw [hp] at h1
    rw [hq] at h2
    cases h1
    cases h2
    exact hpos.le) hp hq hx hy
  rw [sub_zero] at e
  have hdx : calmObj.dx = 10 := rfl
  rw [hdx] at e
  exact ⟨s, wd, q, _, _, V, y, hr, hwd, hg, rfl, hun, hpos, hV0, hp, hq, hx, hy, e, by rw [e]; positivity, hsouth, hX, hY, hT, by
    rw [abs_of_pos] <;> norm_num, hr'⟩

/-- C134_atleast applies to it. -/
example : ∃ (s : PState ℝ) (wd : WalkData ℝ) (q : Int × Int) (u v V y : ℝ), s.walk = some wd ∧ 0 < alongFlow u v (2, 2) q ∧ 0 < V ∧
    wd.timeAt 0 1 = some (.fin y) ∧ (1 - calmObj.diffCoeff / 2) * (calmObj.dx * alongFlow u v (2, 2) q / V) ≤ y - 0 := by
  obtain ⟨s, wd, q, u, v, V, y, hr, h2, hg, hdc, h5, h6, h7, h8, h9, h10, h11, -⟩ := calm_case
  exact ⟨s, wd, q, u, v, V, y, h2, h6, h7, h11, C134_atleast hg (by rw [hdc]; norm_num) hr h2 (Nat.zero_le 1) h5 h8 h9 h10 h11⟩

/-- C134_band and C134_exact apply to it. -/
example : ∃ (s : PState ℝ) (wd : WalkData ℝ) (q : Int × Int) (u v V y : ℝ), s.walk = some wd ∧ UniformAlong calmObj wd 0 0 1 u v V ∧
    wd.posAt 0 1 = some q ∧ wd.timeAt 0 1 = some (.fin y) ∧ y = 10 * alongFlow u v (2, 2) q / V ∧ 0 < y := by
  obtain ⟨s, wd, q, u, v, V, y, -, h2, -, -, h5, -, -, -, h9, -, h11, h12, h13, -⟩ := calm_case
  exact ⟨s, wd, q, u, v, V, y, h2, h5, h9, h11, h12, h13⟩

/-- C134_exposure and C134_channel_exposure apply to it with the upper three rows as the region: the particle is exposed for half the step. -/
example : ∃ (s : PState ℝ) (wd : WalkData ℝ) (q : Int × Int) (u v V : ℝ) (res : ExposureResult ℝ),
    s.walk = some wd ∧ exposureTime Arith.exact wd ⟨5, 5, fun i _ => if i ≤ 2 then 1 else 0⟩ = .ok res ∧ 0 < alongFlow u v (2, 2) q ∧ 0 < V ∧
    res.times[0]? = some (.fin (10 * (alongFlow u v (2, 2) (2, 2) + alongFlow u v (2, 2) q / 2) / V)) ∧
    ∃ c d : Int, wd.posAt 0 0 = some (2, c) ∧ wd.posAt 0 1 = some (2 + 1, d) ∧ res.times[0]? = some (.fin (calmObj.dx * ((u * (((2 : Nat) : ℝ) -
      ((2 : Int) : ℝ) + 1 / 2) + v * ((c : ℝ) - ((2 : Int) : ℝ) + ((d : ℝ) - c) / 2)) / Real.sqrt (u ^ 2 + v ^ 2)) / V)) := by
  obtain ⟨s, wd, q, u, v, V, y, hr, hwd, hg, hdc, hun, hpos, hV, hp, hq, hx, hy, -, -, hs, hX, hY, hT, huv, hr'⟩ := calm_case
  have hposAt : ∀ i n p, wd.posAt i n = some p → i = 0 ∧ (n = 0 ∧ p = (2, 2) ∨ n = 1 ∧ p = q) := by
    intro i n p h
    have h' := h
    unfold WalkData.posAt at h
    rw [hX, hY] at h
    match i, n with
    | 0, 0 => rw [hp] at h'; cases h'; simp
    | 0, 1 => rw [hq] at h'; cases h'; simp
    | 0, n + 2 => simp at h
    | i + 1, n => simp at h
  have hproper : Proper wd := by
    refine ⟨by rw [hX, hY]; rfl, by rw [hX, hT]; rfl, ?_, ?_⟩
    · intro i xs ys ts h1 h2 h3
      rw [hX] at h1
      rw [hY] at h2
      rw [hT] at h3
      match i with
      | 0 =>
        simp at h1 h2 h3
        subst h1 h2 h3
        simp
      | i + 1 => simp at h1
    · intro i n t h
      unfold WalkData.timeAt at h
      rw [hT] at h
      match i, n with
      | 0, 0 => simp at h; exact ⟨_, h.symm⟩
      | 0, 1 => simp at h; exact ⟨_, h.symm⟩
      | 0, n + 2 => simp at h
      | i + 1, n => simp at h
  have hon : OnRaster 5 5 wd := by
    intro i n p h
    obtain ⟨-, ⟨-, rfl⟩ | ⟨-, rfl⟩⟩ := hposAt i n p h
    · decide
    · rcases hs with rfl | rfl | rfl <;> decide
  have hb : Binary (⟨5, 5, fun i _ => if i ≤ 2 then 1 else 0⟩ : Grid Int) := by
    intro i j _ _
    by_cases h : i ≤ 2 <;> simp [h]
  obtain ⟨res, hres, -⟩ := C42_formula (g := ⟨5, 5, fun i _ => if i ≤ 2 then 1 else 0⟩) hproper hon hb
  have e := C134_exposure hg hdc hr hwd hproper hon hb hres hun (fun j p' q' hj h1 h2 => by
    obtain rfl : j = 0 := by omega
    rw [hp] at h1
    rw [hq] at h2
    cases h1
    cases h2
    exact hpos.le) (m := 0) (fun j hj => by
      obtain rfl : j = 0 := by omega
      exact ⟨_, hp, rfl⟩) (fun j _ _ hin => by
      obtain ⟨p, h1, h2⟩ := hin
      obtain ⟨-, ⟨h0, -⟩ | ⟨-, rfl⟩⟩ := hposAt _ _ _ h1
      · omega
      · rcases hs with rfl | rfl | rfl <;> exact absurd h2 (by decide)) hp hp hq hx hx hy
  have e' := C134_channel_exposure hg ⟨rfl, rfl⟩ hdc hr' hwd hproper hon hb (R := 2) (fun a b _ _ => by simp) hres (i := 0) (N := 1) huv
    (by simp [WalkData.records, hT]) hun (fun j hj => by
      obtain rfl : j = 0 := by omega
      exact ⟨2, 2, hp, calm_interior, calm_down⟩) hp hq (by norm_num) (by rcases hs with rfl | rfl | rfl <;> norm_num)
  exact ⟨s, wd, q, u, v, V, res, hwd, hres, hpos, hV, e, e'⟩

/-- C134_channel and C134_channel_band apply to it. -/
example : ∃ (s : PState ℝ) (wd : WalkData ℝ) (q : Int × Int) (u v V y : ℝ), s.walk = some wd ∧ 0 < V ∧ |v| ≤ u ∧
    wd.posAt 0 1 = some q ∧ wd.timeAt 0 1 = some (.fin y) ∧ q.1 = 2 + ((1 : Nat) - (0 : Nat) : Int) ∧
    y - 0 = calmObj.dx * ((u * (((1 : Nat) : ℝ) - ((0 : Nat) : ℝ)) + v * ((q.2 : ℝ) - ((2 : Int) : ℝ))) / Real.sqrt (u ^ 2 + v ^ 2)) / V := by
  obtain ⟨s, wd, q, u, v, V, y, -, h2, hg, hdc, h5, -, h7, h8, h9, h10, h11, -, -, -, -, -, -, huv, hr⟩ := calm_case
  obtain ⟨e1, e2⟩ := C134_channel hg ⟨rfl, rfl⟩ hdc hr h2 (Nat.zero_le 1) huv h5 (fun j _ hj => by
    obtain rfl : j = 0 := by omega
    exact ⟨2, 2, h8, calm_interior, calm_down⟩) h8 h9 h10 h11
  exact ⟨s, wd, q, u, v, V, y, h2, h7, huv, h9, h11, e1, e2⟩

end Dorado
