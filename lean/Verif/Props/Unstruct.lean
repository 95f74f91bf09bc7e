import Verif.Lemmas.Unstruct
import Verif.Lemmas.Exposure
import Verif.Spec.Sample
import Mathlib.Data.Rat.Floor
import Mathlib.Algebra.BigOperators.Ring.Finset
import Mathlib.Algebra.BigOperators.Field

/-! # Gridding of scattered data: C47, C48 -/

set_option linter.unusedSectionVars false

namespace Dorado

variable {K : Type} [Field K] [LinearOrder K] [IsStrictOrderedRing K] [FloorRing K] {A : Arith K}

/-- A distance: never negative. -/
def NonnegDist (d : K × K → K × K → K) : Prop := ∀ p q, 0 ≤ d p q

/-! ## C47 -/

/-- Common part: the raw array without boundary. -/
theorem unbounded_eq {nb : Neighbours K} {pts : List (K × K)} {q : List (Fl K)} {cs : K} {k : Nat} {crop : Bool} (hne : pts ≠ [])
    (hcs : 0 < cs) (hl : q.length = pts.length) (hk : k ≠ 0) {V : K × K → Fl K}
    (hV : ∀ p, (if k = 1 then listGet q (nb.nearest p) else idwAt Arith.exact q (nb.query k p)) = .ok (V p)) :
    ∃ res x0 y0, unstruct2grid Arith.exact nb pts q cs k none crop = .ok res ∧ Covers (pts.map (·.1)) cs x0 res.gridded.cols ∧
      Covers (pts.map (·.2)) cs y0 res.gridded.rows ∧ res.interp q = .ok res.gridded ∧
      ∀ r c, r < res.gridded.rows → c < res.gridded.cols →
        res.gridded.at' r c = V (nodeAt x0 y0 cs res.gridded.rows r c) := by
  obtain ⟨nx, x0, ny, y0, xv, yv, cx, cy, hx, hy, e⟩ := unstruct2grid_eq (nb := nb) (inside := none) (crop := crop) hne hcs hl hk
  obtain ⟨g, eg, gr, gc, hg⟩ := gridE_ok (R := ny) (C := nx) (v := fun r c => V (xv c, yv r)) (fun r c _ _ => hV (xv c, yv r))
  have ei : interpFunc Arith.exact nb k none crop nx ny xv yv q = .ok (flipud g) := by
    unfold interpFunc
    rw [eg]
    rfl
  rw [e, ei]
  refine ⟨_, x0, y0, rfl, ?_, ?_, ei, ?_⟩
  · show Covers _ _ _ g.cols
    rw [gc]; exact cx
  · show Covers _ _ _ g.rows
    rw [gr]; exact cy
  · intro r c hr hc
    change r < g.rows at hr
    change c < g.cols at hc
    show g.at' (g.rows - 1 - r) c = V (nodeAt x0 y0 cs g.rows r c)
    rw [gr] at hr ⊢
    rw [gc] at hc
    rw [hg _ _ (by omega) hc, node_flip hx hy hr hc]

theorem knn_lt {d : K × K → K × K → K} {pts : List (K × K)} {k : Nat} {p : K × K} {nn : List (K × Nat)} (h : KNearest d pts k p nn) :
    ∀ e ∈ nn, e.2 < pts.length := by
  intro e he
  obtain ⟨q, hq, -⟩ := h.points e he
  exact (List.getElem?_eq_some_iff.1 hq).1

/-- C47, k > 1: the grid starts at the smallest coordinates, covers all points with the given spacing, and the value at row `r`, column `c`
is the inverse-distance-weighted mean of the data of `k` points nearest to that node. -/
theorem C47_idw {d : K × K → K × K → K} (hd : NonnegDist d) {nb : Neighbours K} {pts : List (K × K)} {q : List K} {cs : K} {k : Nat}
    {crop : Bool} (hs : CorrectSearch d pts k nb) (hne : pts ≠ []) (hcs : 0 < cs) (hl : q.length = pts.length) (hk : 2 ≤ k) :
    ∃ res x0 y0, unstruct2grid Arith.exact nb pts (q.map .fin) cs k none crop = .ok res ∧
      Covers (pts.map (·.1)) cs x0 res.gridded.cols ∧ Covers (pts.map (·.2)) cs y0 res.gridded.rows ∧
      ∀ r c, r < res.gridded.rows → c < res.gridded.cols → ∃ nn v, KNearest d pts k (nodeAt x0 y0 cs res.gridded.rows r c) nn ∧
        res.gridded.at' r c = .fin v ∧ IsIdw (fun i => q.getD i 0) nn v := by
  have hV : ∀ p, ∃ v, idwAt Arith.exact (q.map .fin) (nb.query k p) = .ok (.fin v) ∧ ∃ nn, KNearest d pts k p nn ∧
      IsIdw (fun i => q.getD i 0) nn v := by
    intro p
    obtain ⟨nn, hn, e⟩ := hs.2 (by omega) p
    rw [e]
    obtain ⟨v, ev, hv⟩ := idwAt_idw (data := q) (nn := nn) (fun e he => by
      obtain ⟨pt, -, h⟩ := hn.points e he
      rw [h]
      exact hd _ _) (fun e he => by rw [hl]; exact knn_lt hn e he) (by
      intro h
      have := hn.length
      rw [h] at this
      simp at this
      omega)
    exact ⟨v, ev, nn, hn, hv⟩
  choose V hV1 hV2 using hV
  obtain ⟨res, x0, y0, e, cx, cy, -, hg⟩ := unbounded_eq (nb := nb) (q := q.map .fin) (crop := crop) hne hcs (by simpa using hl)
    (show k ≠ 0 by omega) (V := fun p => .fin (V p)) (fun p => by rw [if_neg (by omega)]; exact hV1 p)
  refine ⟨res, x0, y0, e, cx, cy, fun r c hr hc => ?_⟩
  obtain ⟨nn, hn, hi⟩ := hV2 (nodeAt x0 y0 cs res.gridded.rows r c)
  exact ⟨nn, _, hn, hg r c hr hc, hi⟩

/-- C47, k = 1: the value is the datum of a nearest point (data may be NaN or infinite). -/
theorem C47_nearest {d : K × K → K × K → K} {nb : Neighbours K} {pts : List (K × K)} {q : List (Fl K)} {cs : K} {crop : Bool}
    (hs : CorrectSearch d pts 1 nb) (hne : pts ≠ []) (hcs : 0 < cs) (hl : q.length = pts.length) :
    ∃ res x0 y0, unstruct2grid Arith.exact nb pts q cs 1 none crop = .ok res ∧
      Covers (pts.map (·.1)) cs x0 res.gridded.cols ∧ Covers (pts.map (·.2)) cs y0 res.gridded.rows ∧
      ∀ r c, r < res.gridded.rows → c < res.gridded.cols → ∃ i, IsNearest d pts (nodeAt x0 y0 cs res.gridded.rows r c) i ∧
        q[i]? = some (res.gridded.at' r c) := by
  have hV : ∀ p, ∃ v, listGet q (nb.nearest p) = .ok v ∧ q[nb.nearest p]? = some v := by
    intro p
    obtain ⟨pt, h, -⟩ := hs.1 rfl p
    have hlt : nb.nearest p < q.length := by rw [hl]; exact (List.getElem?_eq_some_iff.1 h).1
    exact ⟨q[nb.nearest p], by simp [listGet, hlt], by simp [hlt]⟩
  choose V hV1 hV2 using hV
  obtain ⟨res, x0, y0, e, cx, cy, -, hg⟩ := unbounded_eq (nb := nb) (q := q) (crop := crop) hne hcs hl (show (1 : Nat) ≠ 0 by omega)
    (V := V) (fun p => by rw [if_pos rfl]; exact hV1 p)
  refine ⟨res, x0, y0, e, cx, cy, fun r c hr hc => ⟨_, hs.1 rfl _, ?_⟩⟩
  rw [hg r c hr hc]
  exact hV2 _

/-- C47: values lie between the smallest and largest datum of the `k` neighbours, so constant data are reproduced. -/
theorem C47_range {d : K × K → K × K → K} (hd : NonnegDist d) {nb : Neighbours K} {pts : List (K × K)} {q : List K} {cs : K} {k : Nat}
    {crop : Bool} (hs : CorrectSearch d pts k nb) (hne : pts ≠ []) (hcs : 0 < cs) (hl : q.length = pts.length) (hk : 2 ≤ k) :
    ∃ res x0 y0, unstruct2grid Arith.exact nb pts (q.map .fin) cs k none crop = .ok res ∧
      ∀ r c, r < res.gridded.rows → c < res.gridded.cols → ∃ v, res.gridded.at' r c = .fin v ∧
        (∃ nn lo hi, KNearest d pts k (nodeAt x0 y0 cs res.gridded.rows r c) nn ∧ lo ∈ nn.map (·.2) ∧ hi ∈ nn.map (·.2) ∧
          q.getD lo 0 ≤ v ∧ v ≤ q.getD hi 0) ∧
        ∀ b, (∀ x ∈ q, x = b) → v = b := by
  obtain ⟨res, x0, y0, e, -, -, hg⟩ := C47_idw hd (crop := crop) hs hne hcs hl hk
  refine ⟨res, x0, y0, e, fun r c hr hc => ?_⟩
  obtain ⟨nn, v, hn, hv, hi⟩ := hg r c hr hc
  obtain ⟨⟨e1, m1, h1⟩, e2, m2, h2⟩ := hi.between
  refine ⟨v, hv, ⟨nn, e1.2, e2.2, hn, List.mem_map_of_mem m1, List.mem_map_of_mem m2, h1, h2⟩, fun b hb => ?_⟩
  have hq : ∀ e ∈ nn, q.getD e.2 0 = b := by
    intro e he
    have hlt : e.2 < q.length := by rw [hl]; exact knn_lt hn e he
    rw [List.getD_eq_getElem?_getD, List.getElem?_eq_getElem hlt]
    exact hb _ (List.getElem_mem _)
  rw [hq e1 m1] at h1
  rw [hq e2 m2] at h2
  exact le_antisymm h2 h1

theorem interp_value {d : K × K → K × K → K} (hd : NonnegDist d) {nb : Neighbours K} {pts : List (K × K)} {k : Nat}
    (hs : CorrectSearch d pts k nb) (hk : 2 ≤ k) (p : K × K) : ∃ w : Nat → K, ∀ q : List K, q.length = pts.length →
      idwAt Arith.exact (q.map .fin) (nb.query k p) = .ok (.fin (∑ i ∈ Finset.range pts.length, w i * q.getD i 0)) := by
  obtain ⟨nn, hn, e⟩ := hs.2 (by omega) p
  have hpos : ∀ e ∈ nn, 0 ≤ e.1 := fun e he => by
    obtain ⟨pt, -, h⟩ := hn.points e he
    rw [h]
    exact hd _ _
  have hne : nn ≠ [] := by
    intro h
    have := hn.length
    rw [h] at this
    simp at this
    omega
  have hS : 0 < (nn.map fun e => 1 / (e.1 + 1 / 10 ^ 100)).sum := by
    apply List.sum_pos
    · intro x hx
      obtain ⟨e, he, rfl⟩ := List.mem_map.1 hx
      have := hpos e he
      positivity
    · simpa using hne
  obtain ⟨S, hSe⟩ : ∃ S, S = (nn.map fun e => 1 / (e.1 + 1 / 10 ^ 100)).sum := ⟨_, rfl⟩
  refine ⟨fun i => ((nn.filter fun e => e.2 == i).map fun e => 1 / (e.1 + 1 / 10 ^ 100)).sum / S, fun q hq => ?_⟩
  rw [e, idwAt_exact hpos (fun e he => by rw [hq]; exact knn_lt hn e he), ← hSe]
  rw [← hSe] at hS
  simp only [Arith.div]
  rw [if_neg hS.ne']
  congr 2
  show _ / S = _
  have key : ∀ l : List (K × Nat), (∀ e ∈ l, e.2 < pts.length) → (l.map fun e => q.getD e.2 0 * (1 / (e.1 + 1 / 10 ^ 100))).sum =
      ∑ i ∈ Finset.range pts.length, ((l.filter fun e => e.2 == i).map fun e => 1 / (e.1 + 1 / 10 ^ 100)).sum * q.getD i 0 := by
    intro l
    induction l with
    | nil => simp
    | cons a l ih =>
      intro hlt
      rw [List.map_cons, List.sum_cons, ih fun e he => hlt e (by simp [he])]
      have : ∀ i, (((a :: l).filter fun e => e.2 == i).map fun e => 1 / (e.1 + 1 / 10 ^ 100)).sum =
          (if i = a.2 then 1 / (a.1 + 1 / 10 ^ 100) else 0) + ((l.filter fun e => e.2 == i).map fun e => 1 / (e.1 + 1 / 10 ^ 100)).sum := by
        intro i
        by_cases h : i = a.2
        · subst h
          simp
        · have : (a.2 == i) = false := by simpa using fun h' => h h'.symm
          simp [this, h]
      simp only [this, add_mul, Finset.sum_add_distrib]
      congr 1
      rw [Finset.sum_eq_single a.2]
      · rw [if_pos rfl, mul_comm]
      · intro b _ hb
        rw [if_neg hb, zero_mul]
      · intro h
        exact absurd (Finset.mem_range.2 (hlt a (by simp))) h
  rw [key nn (knn_lt hn), Finset.sum_div]
  refine Finset.sum_congr rfl fun i _ => ?_
  ring

/-- C47: the returned interpolation function is linear in the data. -/
theorem C47_linear {d : K × K → K × K → K} (hd : NonnegDist d) {nb : Neighbours K} {pts : List (K × K)} {q : List K} {cs : K} {k : Nat}
    {crop : Bool} (hs : CorrectSearch d pts k nb) (hne : pts ≠ []) (hcs : 0 < cs) (hl : q.length = pts.length) (hk : 2 ≤ k) :
    ∃ res, unstruct2grid Arith.exact nb pts (q.map .fin) cs k none crop = .ok res ∧ res.interp (q.map .fin) = .ok res.gridded ∧
      ∀ (a b : K) (f g : Nat → K), ∃ F G H, res.interp ((List.range pts.length).map fun i => .fin (f i)) = .ok F ∧
        res.interp ((List.range pts.length).map fun i => .fin (g i)) = .ok G ∧
        res.interp ((List.range pts.length).map fun i => .fin (a * f i + b * g i)) = .ok H ∧
        ∀ r c, r < res.gridded.rows → c < res.gridded.cols → ∃ x y, F.at' r c = .fin x ∧ G.at' r c = .fin y ∧ H.at' r c = .fin (a * x + b * y) := by
  choose w hw using interp_value hd hs hk
  obtain ⟨nx, x0, ny, y0, xv, yv, cx, cy, hx, hy, e⟩ := unstruct2grid_eq (nb := nb) (q := q.map .fin) (inside := none) (crop := crop) hne hcs
    (by simpa using hl) (show k ≠ 0 by omega)
  have hint : ∀ f : Nat → K, ∃ G, interpFunc Arith.exact nb k none crop nx ny xv yv ((List.range pts.length).map fun i => .fin (f i)) = .ok G ∧
      G.rows = ny ∧ G.cols = nx ∧ ∀ r c, r < ny → c < nx →
        G.at' r c = .fin (∑ i ∈ Finset.range pts.length, w (xv c, yv (ny - 1 - r)) i * f i) := by
    intro f
    obtain ⟨g, eg, gr, gc, hg⟩ := gridE_ok (R := ny) (C := nx)
      (v := fun r c => .fin (∑ i ∈ Finset.range pts.length, w (xv c, yv r) i * f i))
      (f := fun r c => if k = 1 then listGet ((List.range pts.length).map fun i => .fin (f i)) (nb.nearest (xv c, yv r))
        else idwAt Arith.exact ((List.range pts.length).map fun i => .fin (f i)) (nb.query k (xv c, yv r))) (fun r c _ _ => by
        rw [if_neg (by omega)]
        have := hw (xv c, yv r) ((List.range pts.length).map f) (by simp)
        rw [List.map_map] at this
        rw [show (List.range pts.length).map (fun i => Fl.fin (f i)) = (List.range pts.length).map (Fl.fin ∘ f) from rfl, this]
        congr 2
        refine Finset.sum_congr rfl fun i hi => ?_
        congr 1
        simp [List.getD_eq_getElem?_getD, Finset.mem_range.1 hi])
    refine ⟨flipud g, by unfold interpFunc; rw [eg]; rfl, gr, gc, fun r c hr hc => ?_⟩
    show g.at' (g.rows - 1 - r) c = _
    rw [gr, hg _ _ (by omega) hc]
  have hq : q.map Fl.fin = (List.range pts.length).map fun i => .fin (q.getD i 0) := by
    apply List.ext_getElem
    · simp [hl]
    · intro i h1 h2
      have : i < q.length := by simpa using h1
      simp [List.getD_eq_getElem?_getD, this]
  obtain ⟨G0, e0, r0, c0, -⟩ := hint fun i => q.getD i 0
  rw [← hq] at e0
  rw [e, e0]
  refine ⟨_, rfl, e0, fun a b f g => ?_⟩
  obtain ⟨F1, f1, -, -, f4⟩ := hint f
  obtain ⟨G1, g1, -, -, g4⟩ := hint g
  obtain ⟨H1, h1, -, -, h4⟩ := hint fun i => a * f i + b * g i
  refine ⟨F1, G1, H1, f1, g1, h1, fun r c hr hc => ?_⟩
  change r < G0.rows at hr
  change c < G0.cols at hc
  rw [r0] at hr
  rw [c0] at hc
  refine ⟨_, _, f4 r c hr hc, g4 r c hr hc, ?_⟩
  rw [h4 r c hr hc]
  congr 1
  rw [Finset.mul_sum, Finset.mul_sum, ← Finset.sum_add_distrib]
  refine Finset.sum_congr rfl fun i _ => ?_
  ring

/-- Fewer points than neighbours asked for: the search fills up with an index outside the data, and the call raises IndexError. -/
theorem C47_few_points {nb : Neighbours K} {pts : List (K × K)} {q : List K} {cs : K} {k : Nat} {inside : Option (K × K → Bool)} {crop : Bool}
    (hne : pts ≠ []) (hcs : 0 < cs) (hl : q.length = pts.length) (hk : 2 ≤ k)
    (hs : ∀ p, ∃ nn : List (K × Nat), nb.query k p = nn.map (fun (e : K × Nat) => (Fl.fin e.1, e.2)) ++ List.replicate (k - pts.length) (.pinf, pts.length) ∧
      (∀ e ∈ nn, e.2 < pts.length)) (hfew : pts.length < k) :
    unstruct2grid Arith.exact nb pts (q.map .fin) cs k inside crop = .error .indexError := by
  obtain ⟨nx, x0, ny, y0, xv, yv, cx, cy, hx, hy, e⟩ := unstruct2grid_eq (nb := nb) (q := q.map .fin) (inside := inside) (crop := crop) hne hcs
    (by simpa using hl) (show k ≠ 0 by omega)
  have hidw : ∀ p, idwAt Arith.exact (q.map .fin) (nb.query k p) = .error .indexError := by
    intro p
    obtain ⟨nn, hq, hlt⟩ := hs p
    obtain ⟨m, hm⟩ : ∃ m, k - pts.length = m + 1 := ⟨k - pts.length - 1, by omega⟩
    rw [hq, hm]
    unfold idwAt
    rw [foldE_append]
    have hpre : ∀ (l : List (K × Nat)) (s : Fl K × Fl K), (∀ e ∈ l, e.2 < pts.length) →
        ∃ s', foldE (idwStep Arith.exact (q.map .fin)) s (l.map fun (e : K × Nat) => (Fl.fin e.1, e.2)) = .ok s' := by
      intro l
      induction l with
      | nil => exact fun s _ => ⟨s, rfl⟩
      | cons a l ih =>
        intro s hlt
        have h1 : a.2 < q.length := by rw [hl]; exact hlt a (by simp)
        have hg : listGet (q.map Fl.fin) a.2 = .ok (.fin q[a.2]) := by simp [listGet, h1]
        obtain ⟨s', hs'⟩ := ih (Arith.exact.add s.1 (Arith.exact.mul (.fin q[a.2]) (idwWeight Arith.exact (.fin a.1))),
          Arith.exact.add s.2 (idwWeight Arith.exact (.fin a.1))) fun e he => hlt e (by simp [he])
        refine ⟨s', ?_⟩
        rw [List.map_cons, foldE]
        simp only [idwStep, hg, ok_bind, pure_def]
        exact hs'
    obtain ⟨s', hs'⟩ := hpre nn (.fin 0, .fin 0) hlt
    rw [hs', ok_bind, List.replicate_succ, foldE]
    have hg : listGet (q.map Fl.fin) pts.length = .error .indexError := by simp [listGet, hl]
    simp only [idwStep, hg, error_bind]
  rw [e]
  have h0 : 0 < ny := cy.2.1
  have h1 : 0 < nx := cx.2.1
  obtain ⟨ny', rfl⟩ : ∃ m, ny = m + 1 := ⟨ny - 1, by omega⟩
  obtain ⟨nx', rfl⟩ : ∃ m, nx = m + 1 := ⟨nx - 1, by omega⟩
  unfold interpFunc gridE
  simp only [List.range_succ_eq_map, mapE, hidw, if_neg (show k ≠ 1 by omega), error_bind]

/-! ## C48 -/

/-- With a boundary and without cropping, cells outside are NaN and all others as without boundary. -/
theorem C48_outside {nb : Neighbours K} {pts : List (K × K)} {q : List (Fl K)} {cs : K} {k : Nat} {inP : K × K → Bool} {crop : Bool}
    (hcs : 0 < cs) {res0 : Gridding K} (h0 : unstruct2grid Arith.exact nb pts q cs k none crop = .ok res0) :
    ∃ res x0 y0, unstruct2grid Arith.exact nb pts q cs k (some inP) false = .ok res ∧ LeastOf (pts.map (·.1)) x0 ∧ LeastOf (pts.map (·.2)) y0 ∧
      res.gridded.rows = res0.gridded.rows ∧ res.gridded.cols = res0.gridded.cols ∧
      ∀ r c, r < res.gridded.rows → c < res.gridded.cols → res.gridded.at' r c =
        if inP (nodeAt x0 y0 cs res.gridded.rows r c) then res0.gridded.at' r c else .nan := by
  have hl : q.length = pts.length := by
    by_contra h
    unfold unstruct2grid at h0
    rw [if_pos h] at h0
    cases h0
  have hne : pts ≠ [] := by
    rintro rfl
    unfold unstruct2grid at h0
    rw [if_neg (by simpa using hl)] at h0
    simp [gridAxis, pyMaxList] at h0
  have hk : k ≠ 0 := by
    rintro rfl
    obtain ⟨nx, x0, cx, xv, ex, hx⟩ := gridAxis_exact (l := pts.map (·.1)) (by simpa using hne) hcs
    obtain ⟨ny, y0, cy, yv, ey, hy⟩ := gridAxis_exact (l := pts.map (·.2)) (by simpa using hne) hcs
    unfold unstruct2grid at h0
    rw [if_neg (by simpa using hl), ex, ey] at h0
    simp at h0
  obtain ⟨nx, x0, cx, xv, ex, hx⟩ := gridAxis_exact (l := pts.map (·.1)) (by simpa using hne) hcs
  obtain ⟨ny, y0, cy, yv, ey, hy⟩ := gridAxis_exact (l := pts.map (·.2)) (by simpa using hne) hcs
  have key : ∀ inside crop, unstruct2grid Arith.exact nb pts q cs k inside crop =
      (interpFunc Arith.exact nb k inside crop nx ny xv yv q >>= fun g =>
        .ok { interp := interpFunc Arith.exact nb k inside crop nx ny xv yv, gridded := g }) := by
    intro inside crop
    unfold unstruct2grid
    rw [if_neg (by simpa using hl), ex, ey]
    simp only [ok_bind]
    rw [if_neg hk]
    rfl
  rw [key] at h0
  rw [bind_ok] at h0
  obtain ⟨g0, hg0, e0⟩ := h0
  injection e0 with e0
  subst e0
  unfold interpFunc at hg0
  rw [bind_ok] at hg0
  obtain ⟨raw, hraw, e1⟩ := hg0
  simp only [pure_def] at e1
  injection e1 with e1
  subst e1
  obtain ⟨rr, rc, hr⟩ := gridE_inv hraw
  rw [key]
  unfold interpFunc
  rw [hraw]
  simp only [ok_bind, pure_def]
  refine ⟨_, x0, y0, rfl, cx.1, cy.1, rfl, rfl, fun r c hr' hc' => ?_⟩
  simp only [flipud] at hr' hc' ⊢
  simp only [Bool.false_eq_true, if_false] at hr' hc' ⊢
  rw [rr] at hr' ⊢
  rw [rc] at hc'
  rw [node_flip hx hy hr' hc']

/-- Any rounding: cropping removes exactly the rows and columns without any value and keeps the rest in order. -/
theorem C48_crop {nb : Neighbours K} {pts : List (K × K)} {q : List (Fl K)} {cs : K} {k : Nat} {inP : K × K → Bool} {res0 : Gridding K}
    (h0 : unstruct2grid A nb pts q cs k (some inP) false = .ok res0) :
    ∃ res kr kc, unstruct2grid A nb pts q cs k (some inP) true = .ok res ∧ IsSubgrid res0.gridded res.gridded kr kc ∧
      (∀ i, i ∈ kr ↔ RowHasValue res0.gridded i) ∧ ∀ j, j ∈ kc ↔ ColHasValue res0.gridded j := by
  unfold unstruct2grid at h0 ⊢
  by_cases hl : q.length ≠ pts.length
  · rw [if_pos hl] at h0
    cases h0
  rw [if_neg hl] at h0 ⊢
  rw [bind_ok] at h0
  obtain ⟨⟨nx, xv⟩, ex, h0⟩ := h0
  simp only [bind_ok] at h0
  obtain ⟨⟨ny, yv⟩, ey, h0⟩ := h0
  by_cases hk : k = 0
  · rw [if_pos hk] at h0
    cases h0
  rw [if_neg hk, bind_ok] at h0
  obtain ⟨g, hg, e⟩ := h0
  rw [pure_def] at e
  injection e with e
  subst e
  rw [ex]
  simp only [ok_bind, ey]
  rw [if_neg hk]
  unfold interpFunc at hg
  rw [bind_ok] at hg
  obtain ⟨raw, hraw, e1⟩ := hg
  simp only [pure_def, Bool.false_eq_true, if_false] at e1
  injection e1 with e1
  have hcrop : interpFunc A nb k (some inP) true nx ny xv yv q = .ok (cropNan g) := by
    unfold interpFunc
    rw [hraw]
    simp only [ok_bind, pure_def, if_true]
    rw [e1]
  rw [hcrop]
  simp only [ok_bind, pure_def]
  obtain ⟨kr, kc, hs, h1, h2⟩ := cropNan_subgrid g
  exact ⟨_, kr, kc, rfl, hs, h1, h2⟩

/-- If no all-NaN row lies between rows with values, and likewise for columns, the crop only removes border rows and columns: the result is a
block of the uncropped grid. What is missing from the full claim: all-NaN rows or columns in the interior, for which it is false
(`C48_interior_counterexample`). -/
theorem C48_border_partial {nb : Neighbours K} {pts : List (K × K)} {q : List (Fl K)} {cs : K} {k : Nat} {inP : K × K → Bool}
    {res0 : Gridding K} (h0 : unstruct2grid A nb pts q cs k (some inP) false = .ok res0)
    (hrow : ∀ a b c, RowHasValue res0.gridded a → RowHasValue res0.gridded c → a < b → b < c → RowHasValue res0.gridded b)
    (hcol : ∀ a b c, ColHasValue res0.gridded a → ColHasValue res0.gridded c → a < b → b < c → ColHasValue res0.gridded b) :
    ∃ res r0 c0, unstruct2grid A nb pts q cs k (some inP) true = .ok res ∧
      (∀ i j, i < res.gridded.rows → j < res.gridded.cols → res.gridded.at' i j = res0.gridded.at' (r0 + i) (c0 + j)) ∧
      ∀ i j, i < res0.gridded.rows → j < res0.gridded.cols → res0.gridded.at' i j ≠ .nan →
        r0 ≤ i ∧ i < r0 + res.gridded.rows ∧ c0 ≤ j ∧ j < c0 + res.gridded.cols := by
  obtain ⟨res, kr, kc, e, ⟨s1, s2, s3, s4, s5⟩, hr, hc⟩ := C48_crop h0
  have ir := fun i (hi : i < kr.length) => sorted_interval s1 (fun a b c ha hc' => by
    intro h1 h2
    exact (hr b).2 (hrow a b c ((hr a).1 ha) ((hr c).1 hc') h1 h2)) hi
  have ic := fun j (hj : j < kc.length) => sorted_interval s2 (fun a b c ha hc' => by
    intro h1 h2
    exact (hc b).2 (hcol a b c ((hc a).1 ha) ((hc c).1 hc') h1 h2)) hj
  refine ⟨res, kr.getD 0 0, kc.getD 0 0, e, fun i j hi hj => ?_, fun i j hi hj hv => ?_⟩
  · rw [s3] at hi
    rw [s4] at hj
    rw [s5 i j _ _ (List.getElem?_eq_getElem hi) (List.getElem?_eq_getElem hj), ir i hi, ic j hj]
    simp [List.getD_eq_getElem?_getD, show 0 < kr.length by omega, show 0 < kc.length by omega]
  · have m1 : i ∈ kr := (hr i).2 ⟨hi, j, hj, hv⟩
    have m2 : j ∈ kc := (hc j).2 ⟨hj, i, hi, hv⟩
    obtain ⟨a, ha, ea⟩ := List.mem_iff_getElem.1 m1
    obtain ⟨b, hb, eb⟩ := List.mem_iff_getElem.1 m2
    have := ir a ha
    have := ic b hb
    rw [s3, s4]
    simp only [List.getD_eq_getElem?_getD, List.getElem?_eq_getElem (show 0 < kr.length by omega),
      List.getElem?_eq_getElem (show 0 < kc.length by omega), Option.getD_some]
    omega

/-! ## Concrete cases -/

/-- Taxicab distance. -/
def taxi (p q : ℚ × ℚ) : ℚ := |p.1 - q.1| + |p.2 - q.2|

theorem taxi_nonneg : NonnegDist taxi := fun _ _ => add_nonneg (abs_nonneg _) (abs_nonneg _)

/-- Stable insertion by distance. -/
def insNear (e : ℚ × Nat) : List (ℚ × Nat) → List (ℚ × Nat)
  | [] => [e]
  | x :: xs => if e.1 ≤ x.1 then e :: x :: xs else x :: insNear e xs

/-- All points with their distances, nearest first. -/
def byNear (pts : List (ℚ × ℚ)) (p : ℚ × ℚ) : List (ℚ × Nat) :=
  ((pts.zipIdx).map fun e => (taxi p e.1, e.2)).foldr insNear []

/-- Exhaustive neighbour search. -/
def bruteSearch (pts : List (ℚ × ℚ)) : Neighbours ℚ where
  nearest p := ((byNear pts p).map (·.2)).headD 0
  query k p := ((byNear pts p).take k).map (fun e => (Fl.fin e.1, e.2)) ++ List.replicate (k - pts.length) (.pinf, pts.length)

theorem insNear_perm (e : ℚ × Nat) : ∀ l, (insNear e l).Perm (e :: l)
  | [] => .refl _
  | x :: xs => by
    unfold insNear
    split_ifs
    · exact .refl _
    · exact ((insNear_perm e xs).cons x).trans (.swap e x xs)

theorem insNear_sorted (e : ℚ × Nat) : ∀ l : List (ℚ × Nat), l.Pairwise (fun a b => a.1 ≤ b.1) →
    (insNear e l).Pairwise (fun a b => a.1 ≤ b.1)
  | [], _ => by simp [insNear]
  | x :: xs, h => by
    obtain ⟨h1, h2⟩ := List.pairwise_cons.1 h
    unfold insNear
    split_ifs with he
    · refine List.pairwise_cons.2 ⟨fun y hy => ?_, h⟩
      rcases List.mem_cons.1 hy with rfl | hy
      · exact he
      · exact he.trans (h1 y hy)
    · refine List.pairwise_cons.2 ⟨fun y hy => ?_, insNear_sorted e xs h2⟩
      rcases List.mem_cons.1 ((insNear_perm e xs).subset hy) with rfl | hy
      · exact (not_le.1 he).le
      · exact h1 y hy

theorem byNear_perm (pts : List (ℚ × ℚ)) (p : ℚ × ℚ) : (byNear pts p).Perm (pts.zipIdx.map fun e => (taxi p e.1, e.2)) := by
  unfold byNear
  induction (pts.zipIdx.map fun e => (taxi p e.1, e.2)) with
  | nil => exact .refl _
  | cons a l ih => exact (insNear_perm a _).trans (ih.cons a)

theorem byNear_sorted (pts : List (ℚ × ℚ)) (p : ℚ × ℚ) : (byNear pts p).Pairwise (fun a b => a.1 ≤ b.1) := by
  unfold byNear
  induction (pts.zipIdx.map fun e => (taxi p e.1, e.2)) with
  | nil => exact .nil
  | cons a l ih => exact insNear_sorted a _ ih

theorem byNear_mem {pts : List (ℚ × ℚ)} {p : ℚ × ℚ} {e : ℚ × Nat} : e ∈ byNear pts p ↔ ∃ q, pts[e.2]? = some q ∧ e.1 = taxi p q := by
  rw [(byNear_perm pts p).mem_iff, List.mem_map]
  constructor
  · rintro ⟨⟨q, i⟩, h, rfl⟩
    exact ⟨q, by simpa using List.mem_zipIdx_iff_getElem?.1 h, rfl⟩
  · rintro ⟨q, h, h'⟩
    exact ⟨(q, e.2), List.mem_zipIdx_iff_getElem?.2 h, by rw [← h']⟩

/-- The exhaustive search is correct for every point set with at least `k` points: the hypothesis of C47 is met. -/
theorem brute_correct (pts : List (ℚ × ℚ)) {k : Nat} (hk : 1 ≤ k) (hn : k ≤ pts.length) : CorrectSearch taxi pts k (bruteSearch pts) := by
  have hlen : ∀ p, (byNear pts p).length = pts.length := fun p => by simpa using (byNear_perm pts p).length_eq
  constructor
  · rintro rfl p
    have := hlen p
    rcases hb : byNear pts p with _ | ⟨e, l⟩
    · rw [hb] at this
      simp at this
      omega
    · obtain ⟨q, hq, hd⟩ := byNear_mem.1 (show e ∈ byNear pts p by rw [hb]; simp)
      refine ⟨q, by simpa [bruteSearch, hb] using hq, fun q' hq' => ?_⟩
      obtain ⟨i, hi, rfl⟩ := List.mem_iff_getElem.1 hq'
      have hm : (taxi p pts[i], i) ∈ byNear pts p := byNear_mem.2 ⟨_, List.getElem?_eq_getElem hi, rfl⟩
      have hs := byNear_sorted pts p
      rw [hb] at hm hs
      rw [← hd]
      rcases List.mem_cons.1 hm with h | h
      · rw [← h]
      · exact (List.pairwise_cons.1 hs).1 _ h
  · intro _ p
    refine ⟨(byNear pts p).take k, ⟨?_, fun e he => ?_, ?_, fun i q hq hi e he => ?_⟩, ?_⟩
    · rw [List.length_take, hlen]; omega
    · exact byNear_mem.1 (List.mem_of_mem_take he)
    · have h1 : ((byNear pts p).map (·.2)).Nodup := by
        rw [((byNear_perm pts p).map _).nodup_iff, List.map_map]
        have : (pts.zipIdx.map ((fun x : ℚ × Nat => x.2) ∘ fun e => (taxi p e.1, e.2))) = pts.zipIdx.map Prod.snd := rfl
        rw [this, List.zipIdx_map_snd]
        exact List.nodup_range'
      exact List.Nodup.sublist (List.Sublist.map _ (List.take_sublist _ _)) h1
    · have hm : (taxi p q, i) ∈ byNear pts p := byNear_mem.2 ⟨q, hq, rfl⟩
      have hs := byNear_sorted pts p
      rw [← List.take_append_drop k (byNear pts p)] at hm hs
      rcases List.mem_append.1 hm with h | h
      · exact absurd (List.mem_map.2 ⟨_, h, rfl⟩) hi
      · exact (List.pairwise_append.1 hs).2.2 e he _ h
    · simp [bruteSearch, show k - pts.length = 0 by omega]

/-- Four scattered points. -/
def fourPts : List (ℚ × ℚ) := [(0, 0), (3, 1), (1, 4), (5, 3)]

example : CorrectSearch taxi fourPts 2 (bruteSearch fourPts) := brute_correct _ (by decide) (by decide)

/-- Shape and values as a list, for the concrete cases. -/
def gridList (g : Grid (Fl ℚ)) : List (List (Fl ℚ)) := (List.range g.rows).map fun i => (List.range g.cols).map fun j => g.at' i j

def griddedOf (r : Except PyErr (Gridding ℚ)) : Option (List (List (Fl ℚ))) := r.toOption.map fun r => gridList r.gridded

set_option synthInstance.maxSize 1024 in
example : griddedOf (unstruct2grid Arith.exact (bruteSearch fourPts) fourPts [.fin 1, .fin 2, .nan, .fin 4] 2 1 none true) =
    some [[.nan, .nan, .fin 4, .fin 4], [.fin 1, .fin 2, .fin 2, .fin 4], [.fin 1, .fin 1, .fin 2, .fin 2]] := by decide +kernel

example : (griddedOf (unstruct2grid Arith.exact (bruteSearch fourPts) fourPts ([1, 2, 3, 4].map .fin) 2 3 none true)).isSome := by decide +kernel

example : errOf (unstruct2grid Arith.exact (bruteSearch fourPts) fourPts ([1, 2, 3, 4].map .fin) 2 5 none true) = some .indexError := by
  decide +kernel

/-- A boundary that leaves out the middle of the area (a thin U shape in the real code). -/
def uShape (p : ℚ × ℚ) : Bool := p.1 == 0 || p.1 == 4

set_option synthInstance.maxSize 1024 in
example : griddedOf (unstruct2grid Arith.exact (bruteSearch fourPts) fourPts [.fin 1, .fin 2, .nan, .fin 4] 2 1 (some uShape) false) =
    some [[.nan, .nan, .fin 4, .nan], [.fin 1, .nan, .fin 2, .nan], [.fin 1, .nan, .fin 2, .nan]] := by decide +kernel

set_option synthInstance.maxSize 1024 in
example : griddedOf (unstruct2grid Arith.exact (bruteSearch fourPts) fourPts [.fin 1, .fin 2, .nan, .fin 4] 2 1 (some uShape) true) =
    some [[.nan, .fin 4], [.fin 1, .fin 2], [.fin 1, .fin 2]] := by decide +kernel

/-- No block of `g` equals `h`. -/
def noBlock (g h : Grid (Fl ℚ)) : Bool :=
  (List.range (g.rows + 1)).all fun r0 => (List.range (g.cols + 1)).all fun c0 =>
    (List.range h.rows).any fun i => (List.range h.cols).any fun j => h.at' i j != g.at' (r0 + i) (c0 + j)

/-- The full claim of C48 is false: an all-NaN column in the interior is removed as well, so the result is not a block of the uncropped grid
(here its columns 0 and 1 were columns 0 and 2). -/
theorem C48_interior_counterexample : ∃ (pts : List (ℚ × ℚ)) (q : List (Fl ℚ)) (inP : ℚ × ℚ → Bool) (res0 res : Gridding ℚ),
    unstruct2grid Arith.exact (bruteSearch pts) pts q 2 1 (some inP) false = .ok res0 ∧
    unstruct2grid Arith.exact (bruteSearch pts) pts q 2 1 (some inP) true = .ok res ∧
    ¬ ∃ r0 c0, r0 + res.gridded.rows ≤ res0.gridded.rows ∧ c0 + res.gridded.cols ≤ res0.gridded.cols ∧
      ∀ i j, i < res.gridded.rows → j < res.gridded.cols → res.gridded.at' i j = res0.gridded.at' (r0 + i) (c0 + j) := by
  have h : (match unstruct2grid Arith.exact (bruteSearch fourPts) fourPts [.fin 1, .fin 2, .nan, .fin 4] 2 1 (some uShape) false,
      unstruct2grid Arith.exact (bruteSearch fourPts) fourPts [.fin 1, .fin 2, .nan, .fin 4] 2 1 (some uShape) true with
    | .ok r0, .ok r => noBlock r0.gridded r.gridded
    | _, _ => false) = true := by decide +kernel
  rcases h0 : unstruct2grid Arith.exact (bruteSearch fourPts) fourPts [.fin 1, .fin 2, .nan, .fin 4] 2 1 (some uShape) false with _ | res0
  · rw [h0] at h; simp at h
  rcases h1 : unstruct2grid Arith.exact (bruteSearch fourPts) fourPts [.fin 1, .fin 2, .nan, .fin 4] 2 1 (some uShape) true with _ | res
  · rw [h0, h1] at h; simp at h
  rw [h0, h1] at h
  refine ⟨fourPts, _, uShape, res0, res, h0, h1, ?_⟩
  rintro ⟨r0, c0, hr, hc, hb⟩
  simp only [noBlock, List.all_eq_true, List.any_eq_true, List.mem_range, bne_iff_ne] at h
  obtain ⟨i, hi, j, hj, hne⟩ := h r0 (by omega) c0 (by omega)
  exact hne (hb i j hi hj)

end Dorado
