import Verif.Lemmas.Density
import Verif.Lemmas.Plots
import Verif.Props.Accept

/-!
# The differential exposure curve (C77)
-/

set_option linter.unusedSectionVars false

namespace Dorado

variable {K : Type} [Field K] [LinearOrder K] [IsStrictOrderedRing K] [FloorRing K]

/-- The interpolating line is the one specified. -/
theorem lineAt_cdf {l : List K} {expo : List (Fl K)} {n : Nat} {e : K} (hs : l.Pairwise (· ≤ ·)) (hpos : ∀ y ∈ l, 0 < y)
    (hcnt : ∀ t, (l.countP fun y => Fl.le (.fin y) t) = countUpTo Arith.exact e expo t)
    (hmem : ∀ x, x ∈ l.map Fl.fin ↔ x ∈ expo ∧ Counted Arith.exact e x) (hlen : l.length = countAll Arith.exact e expo) :
    LinearCdf expo n e (lineAt l n) := by
  have hc : ∀ x, cntLe l x = countUpTo Arith.exact e expo (.fin x) := fun x => hcnt (.fin x)
  have hm : ∀ y, y ∈ l ↔ .fin y ∈ expo ∧ Counted Arith.exact e (.fin y) := by
    intro y
    rw [← hmem]
    simp
  constructor
  · intro x a b h0 ha hax hamax hb hbc hxb hbmin
    have hbl := (hm b).2 ⟨hb, hbc⟩
    obtain ⟨j, hj, hjb⟩ := List.getElem_of_mem hbl
    have hlt : cntLe l x < l.length := by
      have : ¬ j < cntLe l x := by
        rw [← cntLe_iff hs x hj, hjb]
        exact not_le.2 hxb
      omega
    obtain ⟨h1, h2⟩ := line_nbrs hs h0 hlt
    have hbv : l.getD (cntLe l x) 0 = b := by
      apply le_antisymm
      · rw [getD_at hlt, ← hjb]
        have : cntLe l x ≤ j := by
          by_contra hcj
          exact absurd ((cntLe_iff hs x hj).2 (by omega)) (by rw [hjb]; exact not_le.2 hxb)
        rcases this.eq_or_lt with he | hlt'
        · simp [he]
        · exact List.pairwise_iff_getElem.1 hs _ _ _ _ hlt'
      · rw [getD_at hlt] at h2 ⊢
        obtain ⟨h3, h4⟩ := (hm _).1 (List.getElem_mem hlt)
        exact hbmin _ h3 h4 h2
    have hav : (0 :: l).getD (cntLe l x) 0 = a := by
      apply le_antisymm
      · cases hk : cntLe l x with
        | zero =>
          rcases ha with rfl | ⟨h3, h4⟩
          · simp
          · simpa using (hpos a ((hm a).2 ⟨h3, h4⟩)).le
        | succ k =>
          have hkl : k < l.length := by omega
          rw [getD_at (by simp; omega)]
          simp only [List.getElem_cons_succ]
          obtain ⟨h3, h4⟩ := (hm _).1 (List.getElem_mem hkl)
          exact hamax _ h3 h4 ((cntLe_iff hs x hkl).2 (by omega))
      · rcases ha with rfl | ⟨h3, h4⟩
        · cases hk : cntLe l x with
          | zero => simp
          | succ k =>
            rw [getD_at (by simp; omega)]
            exact (hpos _ (List.getElem_mem (by omega : k < l.length))).le
        · obtain ⟨i, hi, hia⟩ := List.getElem_of_mem ((hm a).2 ⟨h3, h4⟩)
          have hik := (cntLe_iff hs x hi).1 (by rw [hia]; exact hax)
          obtain ⟨k, hk⟩ : ∃ k, cntLe l x = k + 1 := ⟨cntLe l x - 1, by omega⟩
          rw [hk, getD_at (by simp; omega), ← hia]
          simp only [List.getElem_cons_succ]
          rcases (show i ≤ k by omega).eq_or_lt with he | hlt'
          · simp [he]
          · exact List.pairwise_iff_getElem.1 hs _ _ _ _ hlt'
    unfold lineAt
    rw [if_pos hlt, hav, hbv, hc]
  · intro x _ hall
    have : cntLe l x = l.length := by
      unfold cntLe
      rw [List.countP_eq_length]
      intro y hy
      obtain ⟨h3, h4⟩ := (hm y).1 hy
      simpa using hall y h3 h4
    unfold lineAt
    rw [this, if_neg (lt_irrefl _), add_zero, hlen]

/-- The differential curve in exact arithmetic. -/
theorem density_values {n : Nat} (hn : 0 < n) {ends expo : List (Fl K)} {u : Bool} {e : K} (he : (if u then maxTime ends else minTime ends) = .ok (.fin e))
    (h0 : 0 < e) (hlen : expo.length ≤ n) {c : Curve K} (hc : exposureCurve Arith.exact n ends expo u = .ok c) {nbins : Int} (hb : 2 ≤ nbins)
    {sm : List (Fl K) × List (Fl K)} (hsm : smoothCurve Arith.exact c nbins = .ok sm) {td : K} {d : List (Fl K)}
    (hd : densityCurve Arith.exact c sm.1 td = .ok d) :
    ∃ (f : K → K) (N : Nat), nbins = ((N + 1 : Nat) : Int) ∧ 1 ≤ N ∧ LinearCdf expo n e f ∧ (∀ x y, 0 ≤ x → x ≤ y → f x ≤ f y) ∧
      sm.1 = (List.range (N + 1)).map (fun k : Nat => Fl.fin ((k : K) * (e / N))) ∧
      d = (List.range (N + 1)).map fun k : Nat => Fl.fin ((if k = 0 then (f (((1 : Nat) : K) * (e / N)) - f (((0 : Nat) : K) * (e / N))) / (e / N) else
        if k + 1 = N + 1 then (f ((k : K) * (e / N)) - f (((k - 1 : Nat) : K) * (e / N))) / (e / N) else
        (f (((k + 1 : Nat) : K) * (e / N)) - f (((k - 1 : Nat) : K) * (e / N))) / (2 * (e / N))) * td) := by
  have hsd := curve_ok hn he h0.le rfl hlen hc
  obtain ⟨l, h1, h2, h3, h4, h5, hp, h6⟩ := curve_eq (A := Arith.exact) (expo := expo) hn he
  rw [h6] at hc
  cases hc
  have hs := hsd.sorted
  simp only [List.pairwise_map, Fl.le, decide_eq_true_eq] at hs
  obtain ⟨N, hN⟩ : ∃ N : Nat, nbins = ((N + 1 : Nat) : Int) := ⟨(nbins - 1).toNat, by omega⟩
  have hN1 : 1 ≤ N := by omega
  have hNK : (0 : K) < N := by exact_mod_cast hN1
  have hgrid : linspace0 Arith.exact (.fin e) nbins.toNat = (List.range (N + 1)).map fun k : Nat => Fl.fin ((k : K) * (e / N)) := by
    rw [hN, Int.toNat_natCast]
    apply List.ext_getElem?
    intro k
    rcases Nat.lt_or_ge k (N + 1) with hk | hk
    · rw [linspace_get Arith.exact e hk, List.getElem?_map, List.getElem?_range hk]
      simp only [Option.map_some, Option.some.injEq, Fl.fin.injEq]
      split_ifs with h7 h8
      · have : k = N := by omega
        rw [this]
        field_simp
      · omega
      · show (k : K) * (e / ((N + 1 - 1 : Nat) : K)) = _
        rw [Nat.add_sub_cancel]
    · rw [List.getElem?_eq_none (by simpa [linspace0] using hk), List.getElem?_eq_none (by simpa using hk)]
  have hpos : ∀ y ∈ l, 0 < y := fun y hy => lt_trans (by norm_num [Arith.exact]) (h3 y hy).1
  have hlte : ∀ y ∈ l, y < e := by
    intro y hy
    have := (h3 y hy).2
    have h9 : (Arith.exact (K := K)).rnd ((Arith.exact (K := K)).rnd (99 / 100) * e) = 99 / 100 * e := rfl
    rw [h9] at this
    linarith
  unfold smoothCurve at hsm
  rw [if_neg (by omega)] at hsm
  simp only [bind_ok, pure_ok] at hsm
  obtain ⟨zs, -, rfl⟩ := hsm
  refine ⟨lineAt l n, N, hN, hN1, lineAt_cdf h1 hpos h4 h5 h2, fun x y hx hxy => lineAt_mono h1 n hx hxy, hgrid, ?_⟩
  unfold densityCurve at hd
  simp only [bind_ok, pure_ok, listGet_ok] at hd
  obtain ⟨ys, hys, t1, ht1, t0, ht0, rfl⟩ := hd
  rw [hgrid] at hys ht1 ht0
  have hys' : ys = (List.range (N + 1)).map fun k : Nat => Fl.fin (lineAt l n ((k : K) * (e / N))) := by
    rw [mapE_ok (g := fun t => match t with | .fin x => .fin (lineAt l n x) | t => t) (by
      intro t ht
      obtain ⟨k, hk, rfl⟩ := List.mem_map.1 ht
      rw [List.mem_range] at hk
      refine linInterp_curve hs hlte (by positivity) ?_
      have : (k : K) ≤ N := by exact_mod_cast (by omega : k ≤ N)
      rw [← mul_div_assoc, div_le_iff₀ hNK, mul_comm]
      exact mul_le_mul_of_nonneg_left this h0.le)] at hys
    cases hys
    rw [List.map_map]
    rfl
  rw [List.getElem?_map, List.getElem?_range (by omega)] at ht1 ht0
  simp only [Option.map_some, Option.some.injEq] at ht1 ht0
  subst ht1 ht0
  have hstep : e / (N : K) ≠ 0 := (div_pos h0 hNK).ne'
  have hh : (Arith.exact (K := K)).sub (.fin (((1 : Nat) : K) * (e / N))) (.fin (((0 : Nat) : K) * (e / N))) = .fin (e / N) := by
    rw [exact_sub]
    simp
  rw [hh, hys', gradient_get (f := fun k : Nat => lineAt l n ((k : K) * (e / N))) (by omega) hstep, List.map_map]
  apply List.map_congr_left
  intro k _
  rfl

/-- Exact arithmetic: the differential curve shown by `plot_exposure_time` (`density` over `smooth.1`, in units of `timedelta`) is the derivative of the
cumulative curve drawn with straight lines: difference quotients over the neighbouring points, nowhere negative, and the area under it is the fraction of
the particles that are counted. -/
theorem C77_density {wd : WalkData K} (h : AlignedWalk wd) (hT : ProperTimes (Arith.exact (K := K)) wd) {expo : List (Fl K)}
    (hlen : expo.length ≤ wd.xinds.length) {td : K} (htd : 0 < td) {nbins : Int} {u th : Bool} {e : K} (hE : EndOf wd u e) (he : 0 < e)
    {r : ExposurePlot K} (hr : plotExposureTime Arith.exact wd expo td nbins u th = .ok r) :
    ∃ (f : K → K) (xs ds : List K), LinearCdf expo wd.xinds.length e f ∧ r.smooth.1 = xs.map Fl.fin ∧ r.density = ds.map Fl.fin ∧
      (xs.length : Int) = nbins ∧ ds.length = xs.length ∧ (∀ d ∈ ds, 0 ≤ d) ∧
      trapezoid (xs.map (· / td)) ds = countAll Arith.exact e expo / wd.xinds.length ∧
      ∀ (k : Nat) d, ds[k]? = some d → ∃ x y, xs[k - 1]? = some x ∧ xs[min (k + 1) (xs.length - 1)]? = some y ∧ x < y ∧
        d * ((y - x) / td) = f y - f x := by
  obtain ⟨g, hg, -, hc, hsm, -, hb, hd⟩ := plot_inv hr
  obtain ⟨g', hg', -, hn, hts⟩ := lastSlice h
  rw [hg] at hg'
  cases hg'
  have hne : g.ts ≠ [] := by
    intro h0
    rw [h0] at hc
    cases u <;> cases hc
  obtain ⟨e', he', hE', h0, -⟩ := curve_end hT hts hne u
  have hee : e' = e := by
    obtain ⟨i, hi⟩ := hE.1
    obtain ⟨j, hj⟩ := hE'.1
    have h1 := hE.2 _ _ hj
    have h2 := hE'.2 _ _ hi
    cases u
    · exact le_antisymm h2 h1
    · exact le_antisymm h1 h2
  subst hee
  have hpos : 0 < wd.xinds.length := by
    rw [← hn]
    exact List.length_pos_iff.2 hne
  obtain ⟨f, N, hN, hN1, hf, hmono, hxs, hds⟩ := density_values hpos he' he hlen hc hb hsm hd
  have hNK : (0 : K) < N := by exact_mod_cast hN1
  have hh : 0 < e' / (N : K) := div_pos he hNK
  have hle : ∀ a b : Nat, a ≤ b → f ((a : K) * (e' / N)) ≤ f ((b : K) * (e' / N)) := by
    intro a b hab
    have : (a : K) ≤ b := by exact_mod_cast hab
    exact hmono _ _ (by positivity) (by gcongr)
  refine ⟨f, (List.range (N + 1)).map (fun k : Nat => (k : K) * (e' / N)), (List.range (N + 1)).map (fun k : Nat =>
      (if k = 0 then (f (((1 : Nat) : K) * (e' / N)) - f (((0 : Nat) : K) * (e' / N))) / (e' / N) else
        if k + 1 = N + 1 then (f ((k : K) * (e' / N)) - f (((k - 1 : Nat) : K) * (e' / N))) / (e' / N) else
        (f (((k + 1 : Nat) : K) * (e' / N)) - f (((k - 1 : Nat) : K) * (e' / N))) / (2 * (e' / N))) * td), hf, ?_, ?_, ?_, ?_, ?_, ?_, ?_⟩
  · rw [hxs, List.map_map]
    rfl
  · rw [hds, List.map_map]
    rfl
  · simp [hN]
  · simp
  · intro d hd'
    obtain ⟨k, -, rfl⟩ := List.mem_map.1 hd'
    refine mul_nonneg ?_ htd.le
    split_ifs
    · exact div_nonneg (sub_nonneg.2 (hle _ _ (by omega))) hh.le
    · exact div_nonneg (sub_nonneg.2 (hle _ _ (by omega))) hh.le
    · exact div_nonneg (sub_nonneg.2 (hle _ _ (by omega))) (by linarith)
  · rw [List.map_map, trapezoid_range]
    have hlast : f ((N : K) * (e' / N)) = countAll Arith.exact e' expo / wd.xinds.length := by
      have : (N : K) * (e' / N) = e' := by field_simp
      rw [this]
      refine hf.flat e' h0 fun c _ hcc => ?_
      obtain ⟨y, hy, -, hy2⟩ := hcc
      cases hy
      have h9 : (Arith.exact (K := K)).rnd ((Arith.exact (K := K)).rnd (99 / 100) * e') = 99 / 100 * e' := rfl
      rw [h9] at hy2
      linarith
    have hzero : f (((0 : Nat) : K) * (e' / N)) = 0 := by
      have h00 : ((0 : Nat) : K) * (e' / N) = 0 := by simp
      rw [h00]
      by_cases hany : ∃ c, .fin c ∈ expo ∧ Counted Arith.exact e' (.fin c)
      · -- the least counted time
        have hc0 : ∀ c, Counted Arith.exact e' (.fin c) → 0 < c := by
          rintro c ⟨y, hy, hy1, -⟩
          cases hy
          exact lt_trans (by norm_num [Arith.exact]) hy1
        obtain ⟨b, ⟨hb1, hb2⟩, hbmin⟩ : ∃ b, (.fin b ∈ expo ∧ Counted Arith.exact e' (.fin b)) ∧
            ∀ c, .fin c ∈ expo → Counted Arith.exact e' (.fin c) → b ≤ c := by
          obtain ⟨l, h1, h2, h3, h4, h5, -, -⟩ := curve_eq (A := Arith.exact) (expo := expo) hpos he'
          cases l with
          | nil =>
            obtain ⟨c, hc1, hc2⟩ := hany
            exact absurd ((h5 _).2 ⟨hc1, hc2⟩) (by simp)
          | cons b l =>
            refine ⟨b, (h5 _).1 (by simp), fun c hc1 hc2 => ?_⟩
            have := (h5 _).2 ⟨hc1, hc2⟩
            simp only [List.mem_map, Fl.fin.injEq, exists_eq_right] at this
            rcases List.mem_cons.1 this with rfl | hcl
            · exact le_rfl
            · exact (List.pairwise_cons.1 h1).1 c hcl
        have hcount : countUpTo Arith.exact e' expo (.fin 0) = 0 := by
          unfold countUpTo
          rw [List.countP_eq_zero]
          intro x _ hx
          rw [Bool.and_eq_true, decide_eq_true_eq] at hx
          obtain ⟨⟨y, rfl, hy1, -⟩, hx2⟩ := hx
          simp only [Fl.le, decide_eq_true_eq] at hx2
          have : (0 : K) < y := lt_trans (by norm_num [Arith.exact]) hy1
          linarith
        rw [hf.line 0 0 b le_rfl (Or.inl rfl) le_rfl (fun c _ _ h => h) hb1 hb2 (hc0 b hb2) fun c h1 h2 _ => hbmin c h1 h2, hcount]
        simp
      · push Not at hany
        rw [hf.flat 0 le_rfl fun c h1 h2 => absurd h2 (hany c h1)]
        have : countAll Arith.exact e' expo = 0 := by
          unfold countAll
          rw [List.countP_eq_zero]
          intro x hx hx2
          rw [decide_eq_true_eq] at hx2
          obtain ⟨y, rfl, -⟩ := id hx2
          exact hany y hx hx2
        rw [this]
        simp
    rw [← hlast, ← sub_zero (f ((N : K) * (e' / N))), ← hzero, ← gradient_area (fun k : Nat => f ((k : K) * (e' / N))) hN1 hh.ne']
    apply Finset.sum_congr rfl
    intro k _
    have hX : ((((k + 1 : Nat) : K) * (e' / N)) / td - ((k : K) * (e' / N)) / td) = (e' / N) / td := by
      push_cast
      ring
    simp only [Function.comp_def, Nat.add_sub_cancel]
    rw [hX, ← add_mul]
    field_simp
  · intro k d hk
    rw [List.getElem?_map, Option.map_eq_some_iff] at hk
    obtain ⟨k', hk', rfl⟩ := hk
    have hkl : k < N + 1 := by simpa using (List.getElem?_eq_some_iff.1 hk').1
    rw [List.getElem?_range hkl] at hk'
    cases hk'
    refine ⟨((k - 1 : Nat) : K) * (e' / N), ((min (k + 1) N : Nat) : K) * (e' / N), ?_, ?_, ?_, ?_⟩
    · rw [List.getElem?_map, List.getElem?_range (by omega)]
      rfl
    · rw [List.length_map, List.length_range, Nat.add_sub_cancel, List.getElem?_map, List.getElem?_range (by omega)]
      rfl
    · have : ((k - 1 : Nat) : K) < ((min (k + 1) N : Nat) : K) := by exact_mod_cast (by omega : k - 1 < min (k + 1) N)
      gcongr
    · have hne' := hh.ne'
      split_ifs with h1 h2
      · subst h1
        rw [show min (0 + 1) N = 1 by omega]
        simp only [Nat.zero_sub]
        have : ((1 : Nat) : K) * (e' / N) - ((0 : Nat) : K) * (e' / N) = e' / N := by simp
        rw [this]
        generalize e' / (N : K) = s at *
        field_simp
      · have hkN : k = N := by omega
        rw [show min (k + 1) N = k by omega]
        have : ((k : Nat) : K) * (e' / N) - ((k - 1 : Nat) : K) * (e' / N) = e' / N := by
          rw [Nat.cast_sub (by omega)]
          push_cast
          ring
        rw [this]
        generalize e' / (N : K) = s at *
        field_simp
      · rw [show min (k + 1) N = k + 1 by omega]
        have : ((k + 1 : Nat) : K) * (e' / N) - ((k - 1 : Nat) : K) * (e' / N) = 2 * (e' / N) := by
          rw [Nat.cast_sub (by omega)]
          push_cast
          ring
        rw [this]
        generalize e' / (N : K) = s at *
        field_simp

/-- Exposure times of six particles, four of them counted: the area under the curve (time in units of 2) is 4/6. -/
example : ((plotExposureTime Arith.exact curveDemo [.fin 30, .fin 0, .fin 20, .fin (795 / 10), .fin 20, .fin 20] 2 5 false true).toOption.map
      fun r => (r.smooth.1, r.density)) = some ([0, 20, 40, 60, 80].map Fl.fin, [1 / 20, 1 / 30, 1 / 120, 0, 0].map Fl.fin) ∧ EndOf curveDemo false 80 ∧
    countAll Arith.exact 80 [.fin (30 : ℚ), .fin 0, .fin 20, .fin (795 / 10), .fin 20, .fin 20] = 4 ∧
    trapezoid ([(0 : ℚ), 20, 40, 60, 80].map (· / 2)) [1 / 20, 1 / 30, 1 / 120, 0, 0] = 4 / 6 := by
  refine ⟨by decide +kernel, ⟨⟨0, by decide +kernel⟩, ?_⟩, by decide +kernel, by decide +kernel⟩
  intro i x hx
  match i with
  | 0 | 1 | 2 | 3 | 4 | 5 =>
    simp [WalkData.lastTime, curveDemo] at hx
    subst hx
    norm_num
  | k + 6 => simp [WalkData.lastTime, curveDemo] at hx

/-- All particles still at time 0: the times of the smoothed curve do not increase, and no density is a number. -/
example : (plotExposureTime Arith.exact { curveDemo with times := List.replicate 6 [.fin 0, .fin 0] } [.fin 0, .fin 0, .fin 0, .fin 0, .fin 0, .fin 0]
    2 3 false false).toOption.map (fun r => (r.smooth.1, r.density)) = some ([.fin 0, .fin 0, .fin 0], [.nan, .nan, .nan]) := by decide +kernel

end Dorado
