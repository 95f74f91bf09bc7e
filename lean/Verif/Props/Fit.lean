import Verif.Props.Unstruct

/-! # Quantities gridded from the same points fit together: C102 -/

set_option linter.unusedSectionVars false

namespace Dorado

variable {K : Type} [Field K] [LinearOrder K] [IsStrictOrderedRing K] [FloorRing K] {A : Arith K}

/-- The grids have one shape, and each cell either has no value in any of them or values `x`, `y`, `a*x + b*y`. -/
def Combined (a b : K) (F G H : Grid (Fl K)) : Prop :=
  G.rows = F.rows ∧ G.cols = F.cols ∧ H.rows = F.rows ∧ H.cols = F.cols ∧ ∀ r c, r < F.rows → c < F.cols →
    (F.at' r c = .nan ∧ G.at' r c = .nan ∧ H.at' r c = .nan) ∨
      ∃ x y, F.at' r c = .fin x ∧ G.at' r c = .fin y ∧ H.at' r c = .fin (a * x + b * y)

theorem any_range {n : Nat} {p q : Nat → Bool} (h : ∀ i, i < n → p i = q i) : (List.range n).any p = (List.range n).any q := by
  rw [Bool.eq_iff_iff, List.any_eq_true, List.any_eq_true]
  refine exists_congr fun i => and_congr_right fun hi => ?_
  rw [h i (List.mem_range.1 hi)]

/-- Cropping depends on the places of the missing values only. -/
theorem cropNan_like {g h : Grid (Fl K)} (hr : h.rows = g.rows) (hc : h.cols = g.cols)
    (hn : ∀ r c, r < g.rows → c < g.cols → (h.at' r c).isNan = (g.at' r c).isNan) :
    ∃ kr kc, (∀ i, kr i < g.rows ∨ (cropNan g).rows ≤ i) ∧ (∀ j, kc j < g.cols ∨ (cropNan g).cols ≤ j) ∧
      (cropNan h).rows = (cropNan g).rows ∧ (cropNan h).cols = (cropNan g).cols ∧
      kr = (fun i => ((List.range g.rows).filter fun i => (List.range g.cols).any fun j => !(g.at' i j).isNan).getD i 0) ∧
      kc = (fun j => ((List.range g.cols).filter fun j => (List.range g.rows).any fun i => !(g.at' i j).isNan).getD j 0) ∧
      (∀ i j, (cropNan g).at' i j = g.at' (kr i) (kc j)) ∧ ∀ i j, (cropNan h).at' i j = h.at' (kr i) (kc j) := by
  have e1 : ((List.range h.rows).filter fun i => (List.range h.cols).any fun j => !(h.at' i j).isNan) =
      (List.range g.rows).filter fun i => (List.range g.cols).any fun j => !(g.at' i j).isNan := by
    rw [hr, hc]
    refine List.filter_congr fun i hi => any_range fun j hj => ?_
    rw [hn i j (List.mem_range.1 hi) hj]
  have e2 : ((List.range h.cols).filter fun j => (List.range h.rows).any fun i => !(h.at' i j).isNan) =
      (List.range g.cols).filter fun j => (List.range g.rows).any fun i => !(g.at' i j).isNan := by
    rw [hr, hc]
    refine List.filter_congr fun j hj => any_range fun i hi => ?_
    rw [hn i j hi (List.mem_range.1 hj)]
  have inr : ∀ (n : Nat) (p : Nat → Bool) i, ((List.range n).filter p).getD i 0 < n ∨ ((List.range n).filter p).length ≤ i := by
    intro n p i
    rcases Nat.lt_or_ge i ((List.range n).filter p).length with h | h
    · left
      rw [List.getD_eq_getElem?_getD, List.getElem?_eq_getElem h, Option.getD_some]
      exact List.mem_range.1 (List.mem_of_mem_filter (List.getElem_mem h))
    · exact .inr h
  refine ⟨_, _, fun i => inr _ _ i, fun j => inr _ _ j, ?_, ?_, rfl, rfl, fun _ _ => rfl, fun i j => ?_⟩
  · unfold cropNan
    simp only [e1]
  · unfold cropNan
    simp only [e2]
  · unfold cropNan
    simp only [e1, e2]

theorem Combined.crop {a b : K} {F G H : Grid (Fl K)} (h : Combined a b F G H) : Combined a b (cropNan F) (cropNan G) (cropNan H) := by
  obtain ⟨gr, gc, hr, hc, hv⟩ := h
  obtain ⟨kr, kc, k1, k2, k3, k4, k5, k6, k7, k8⟩ := cropNan_like gr gc fun r c h1 h2 => by
    rcases hv r c h1 h2 with ⟨x, y, -⟩ | ⟨_, _, x, y, -⟩ <;> simp only [x, y, Fl.isNan]
  obtain ⟨kr', kc', -, -, k3', k4', k5', k6', -, k8'⟩ := cropNan_like hr hc fun r c h1 h2 => by
    rcases hv r c h1 h2 with ⟨x, -, y⟩ | ⟨_, _, x, -, y⟩ <;> simp only [x, y, Fl.isNan]
  obtain rfl : kr' = kr := k5'.trans k5.symm
  obtain rfl : kc' = kc := k6'.trans k6.symm
  refine ⟨k3, k4, k3', k4', fun i j hi hj => ?_⟩
  rw [k7, k8, k8']
  refine hv _ _ ((k1 i).resolve_right (by omega)) ((k2 j).resolve_right (by omega))

/-- At each location the value is one weighted sum of the data, for any finite data. -/
theorem interp_weights {d : K × K → K × K → K} (hd : NonnegDist d) {nb : Neighbours K} {pts : List (K × K)} {k : Nat}
    (hs : CorrectSearch d pts k nb) (hk : k ≠ 0) (p : K × K) : ∃ w : Nat → K, ∀ f : Nat → K,
      (if k = 1 then listGet ((List.range pts.length).map fun i => .fin (f i)) (nb.nearest p)
        else idwAt Arith.exact ((List.range pts.length).map fun i => .fin (f i)) (nb.query k p)) =
      .ok (.fin (∑ i ∈ Finset.range pts.length, w i * f i)) := by
  by_cases h1 : k = 1
  · obtain ⟨q, hq, -⟩ := hs.1 h1 p
    have hlt : nb.nearest p < pts.length := (List.getElem?_eq_some_iff.1 hq).1
    refine ⟨fun i => if i = nb.nearest p then 1 else 0, fun f => ?_⟩
    rw [if_pos h1, Finset.sum_eq_single (nb.nearest p)]
    · simp [listGet, hlt]
    · intro i _ hi
      simp [hi]
    · intro h
      exact absurd (Finset.mem_range.2 hlt) h
  · obtain ⟨w, hw⟩ := interp_value hd hs (by omega) p
    refine ⟨w, fun f => ?_⟩
    rw [if_neg h1]
    have := hw ((List.range pts.length).map f) (by simp)
    rw [List.map_map] at this
    rw [show (List.range pts.length).map (fun i => Fl.fin (f i)) = (List.range pts.length).map (Fl.fin ∘ f) from rfl, this]
    congr 2
    refine Finset.sum_congr rfl fun i hi => ?_
    congr 1
    simp [List.getD_eq_getElem?_getD, Finset.mem_range.1 hi]

/-- C102: any data without NaN gridded from the same points - whatever the boundary and cropping - come out with one shape and one set of
empty cells, and a combination of two quantities is gridded to the same combination of their grids. -/
theorem C102_fit_partial {d : K × K → K × K → K} (hd : NonnegDist d) {nb : Neighbours K} {pts : List (K × K)} {q : List (Fl K)} {cs : K}
    {k : Nat} {inside : Option (K × K → Bool)} {crop : Bool} (hs : CorrectSearch d pts k nb) (hcs : 0 < cs) {res : Gridding K}
    (h : unstruct2grid Arith.exact nb pts q cs k inside crop = .ok res) (a b : K) (f g : Nat → K) :
    ∃ F G H, res.interp ((List.range pts.length).map fun i => .fin (f i)) = .ok F ∧
      res.interp ((List.range pts.length).map fun i => .fin (g i)) = .ok G ∧
      res.interp ((List.range pts.length).map fun i => .fin (a * f i + b * g i)) = .ok H ∧ Combined a b F G H := by
  have hl : q.length = pts.length := by
    by_contra hne
    unfold unstruct2grid at h
    rw [if_pos hne] at h
    cases h
  have hne : pts ≠ [] := by
    rintro rfl
    unfold unstruct2grid at h
    rw [if_neg (by simpa using hl)] at h
    simp [gridAxis, pyMaxList] at h
  have hk : k ≠ 0 := by
    rintro rfl
    obtain ⟨nx, x0, cx, xv, ex, hx⟩ := gridAxis_exact (l := pts.map (·.1)) (by simpa using hne) hcs
    obtain ⟨ny, y0, cy, yv, ey, hy⟩ := gridAxis_exact (l := pts.map (·.2)) (by simpa using hne) hcs
    unfold unstruct2grid at h
    rw [if_neg (by simpa using hl), ex, ey] at h
    simp at h
  obtain ⟨nx, x0, ny, y0, xv, yv, -, -, -, -, e⟩ := unstruct2grid_eq (nb := nb) (inside := inside) (crop := crop) hne hcs hl hk
  rw [e, bind_ok] at h
  obtain ⟨g0, -, h⟩ := h
  injection h with h
  subst h
  choose w hw using interp_weights hd hs hk
  have raw : ∀ f : Nat → K, ∃ R, gridE ny nx (fun r c =>
      if k = 1 then listGet ((List.range pts.length).map fun i => Fl.fin (f i)) (nb.nearest (xv c, yv r))
        else idwAt Arith.exact ((List.range pts.length).map fun i => Fl.fin (f i)) (nb.query k (xv c, yv r))) = .ok R ∧ R.rows = ny ∧
      R.cols = nx ∧ ∀ r c, r < ny → c < nx → R.at' r c = .fin (∑ i ∈ Finset.range pts.length, w (xv c, yv r) i * f i) :=
    fun f => gridE_ok fun r c _ _ => hw (xv c, yv r) f
  obtain ⟨F, f1, f2, f3, f4⟩ := raw f
  obtain ⟨G, g1, g2, g3, g4⟩ := raw g
  obtain ⟨H, h1, h2, h3, h4⟩ := raw fun i => a * f i + b * g i
  have lin : ∀ p, (∑ i ∈ Finset.range pts.length, w p i * (a * f i + b * g i)) =
      a * (∑ i ∈ Finset.range pts.length, w p i * f i) + b * ∑ i ∈ Finset.range pts.length, w p i * g i := by
    intro p
    rw [Finset.mul_sum, Finset.mul_sum, ← Finset.sum_add_distrib]
    exact Finset.sum_congr rfl fun i _ => by ring
  show ∃ F G H, interpFunc _ _ _ _ _ _ _ _ _ _ = _ ∧ interpFunc _ _ _ _ _ _ _ _ _ _ = _ ∧ interpFunc _ _ _ _ _ _ _ _ _ _ = _ ∧ _
  unfold interpFunc
  rw [f1, g1, h1]
  simp only [ok_bind, pure_def]
  rcases inside with _ | inP
  · refine ⟨_, _, _, rfl, rfl, rfl, g2.trans f2.symm, g3.trans f3.symm, h2.trans f2.symm, h3.trans f3.symm, fun r c hr hc => .inr ?_⟩
    change r < F.rows at hr
    change c < F.cols at hc
    refine ⟨_, ∑ i ∈ Finset.range pts.length, w (xv c, yv (F.rows - 1 - r)) i * g i, f4 _ c (by omega) (by omega), ?_, ?_⟩
    · show G.at' (G.rows - 1 - r) c = _
      rw [g2, f2, g4 _ c (by omega) (by omega)]
    · show H.at' (H.rows - 1 - r) c = _
      rw [h2, f2, h4 _ c (by omega) (by omega), lin]
  · have hm : Combined a b (flipud ⟨F.rows, F.cols, fun r c => if inP (xv c, yv r) then F.at' r c else .nan⟩)
        (flipud ⟨G.rows, G.cols, fun r c => if inP (xv c, yv r) then G.at' r c else .nan⟩)
        (flipud ⟨H.rows, H.cols, fun r c => if inP (xv c, yv r) then H.at' r c else .nan⟩) := by
      refine ⟨g2.trans f2.symm, g3.trans f3.symm, h2.trans f2.symm, h3.trans f3.symm, fun r c hr hc => ?_⟩
      change r < F.rows at hr
      change c < F.cols at hc
      simp only [flipud, g2, f2, h2]
      by_cases hi : inP (xv c, yv (ny - 1 - r)) = true
      · simp only [if_pos hi]
        refine .inr ⟨_, _, f4 _ c (by omega) (by omega), g4 _ c (by omega) (by omega), ?_⟩
        rw [h4 _ c (by omega) (by omega), lin]
      · simp only [if_neg hi]
        exact .inl ⟨trivial, trivial, trivial⟩
    cases crop
    · exact ⟨_, _, _, rfl, rfl, rfl, hm⟩
    · exact ⟨_, _, _, rfl, rfl, rfl, hm.crop⟩

/-- C102, any rounding: the function returned with one quantity grids any other quantity exactly as a call of its own would. -/
theorem C102_reuse {nb : Neighbours K} {pts : List (K × K)} {q q' : List (Fl K)} {cs : K} {k : Nat} {inside : Option (K × K → Bool)}
    {crop : Bool} {res res' : Gridding K} (h : unstruct2grid A nb pts q cs k inside crop = .ok res)
    (h' : unstruct2grid A nb pts q' cs k inside crop = .ok res') : res.interp q' = .ok res'.gridded := by
  unfold unstruct2grid at h h'
  by_cases h1 : q.length ≠ pts.length
  · rw [if_pos h1] at h
    cases h
  by_cases h2 : q'.length ≠ pts.length
  · rw [if_pos h2] at h'
    cases h'
  rw [if_neg h1] at h
  rw [if_neg h2] at h'
  simp only [bind_ok] at h h'
  obtain ⟨⟨nx, xv⟩, ex, ⟨ny, yv⟩, ey, h⟩ := h
  obtain ⟨⟨nx', xv'⟩, ex', ⟨ny', yv'⟩, ey', h'⟩ := h'
  rw [ex] at ex'
  rw [ey] at ey'
  injection ex' with ex'
  injection ey' with ey'
  injection ex' with a1 a2
  injection ey' with b1 b2
  subst a1 a2 b1 b2
  by_cases hk : k = 0
  · rw [if_pos hk] at h
    cases h
  rw [if_neg hk, bind_ok] at h h'
  obtain ⟨g, -, h⟩ := h
  obtain ⟨g', hg', h'⟩ := h'
  injection h with h
  injection h' with h'
  subst h h'
  exact hg'

example : ∃ res, unstruct2grid Arith.exact (bruteSearch fourPts) fourPts ([7, 5, 3, 4].map .fin) 2 2 (some uShape) true = .ok res ∧
    ∃ F G H, res.interp ((List.range fourPts.length).map fun i => .fin ((i : ℚ) + 3)) = .ok F ∧
      res.interp ((List.range fourPts.length).map fun i => .fin ((i : ℚ) * i)) = .ok G ∧
      res.interp ((List.range fourPts.length).map fun i => .fin (1 * ((i : ℚ) + 3) + (-1) * ((i : ℚ) * i))) = .ok H ∧ Combined 1 (-1) F G H := by
  have h : (griddedOf (unstruct2grid Arith.exact (bruteSearch fourPts) fourPts ([7, 5, 3, 4].map .fin) 2 2 (some uShape) true)).isSome := by
    decide +kernel
  rcases e : unstruct2grid Arith.exact (bruteSearch fourPts) fourPts ([7, 5, 3, 4].map .fin) 2 2 (some uShape) true with _ | res
  · rw [e] at h
    cases h
  · exact ⟨res, rfl, C102_fit_partial taxi_nonneg (brute_correct _ (by decide) (by decide)) (by norm_num) e 1 (-1) (fun i => (i : ℚ) + 3)
      fun i => (i : ℚ) * i⟩

/-- The full claim of C102 is false: with a NaN among the data of one quantity, cropping can remove other rows or columns than for a quantity
from the same points without NaN, and the two grids no longer match. -/
theorem C102_nan_counterexample : ∃ (res : Gridding ℚ) (F G : Grid (Fl ℚ)), CorrectSearch taxi fourPts 1 (bruteSearch fourPts) ∧
    unstruct2grid Arith.exact (bruteSearch fourPts) fourPts ([1, 2, 3, 4].map .fin) 2 1 (some fun p => p.1 ≤ 3 / 2) true = .ok res ∧
    res.interp ([1, 2, 3, 4].map .fin) = .ok F ∧ res.interp [.fin 1, .fin 2, .nan, .fin 4] = .ok G ∧ (F.rows, F.cols) ≠ (G.rows, G.cols) := by
  have h : (match unstruct2grid Arith.exact (bruteSearch fourPts) fourPts ([1, 2, 3, 4].map .fin) 2 1 (some fun p => p.1 ≤ 3 / 2) true with
    | .ok r => match r.interp ([1, 2, 3, 4].map .fin), r.interp [.fin 1, .fin 2, .nan, .fin 4] with
      | .ok F, .ok G => (F.rows, F.cols) != (G.rows, G.cols)
      | _, _ => false
    | _ => false) = true := by decide +kernel
  split at h
  · split at h
    · exact ⟨_, _, _, brute_correct _ (by decide) (by decide), by assumption, by assumption, by assumption, by simpa using h⟩
    · cases h
  · cases h

end Dorado
