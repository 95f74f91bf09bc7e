import Verif.Lemmas.Georef
import Verif.Lemmas.Density
import Verif.Props.Slices
import Verif.Props.SharingCases

/-!
# C81: coordinates attached by `ind2coord`

`ind2coord` adds the entries `xcoord` and `ycoord` to the dictionary it is given. Below `w` is the content of the dictionary at the time of the call, and
`w'` the content of its other entries when it is read: the same, or continued by further iterations.
-/

set_option linter.unusedSectionVars false

namespace Dorado

variable {K : Type} [Field K] [LinearOrder K] [IsStrictOrderedRing K] [FloorRing K] {A : Arith K} {F : Fun K A}
variable {Ω : (Nat → K) → Prop} {Sd : PObj K → List Int → List Int → Fl K → Prop}

theorem pyIdx_chosen {n : Nat} {k : Int} {j : Nat} (h : pyIdx n k = .ok j) : chosen n k = j := by
  unfold chosen
  rw [h]

theorem given_single {origin : Fl K × Fl K} {L : Int} {cs : Fl K} {ks : List String} {k : Int} {m : Nat} {r : Row K}
    (h : m = r.xs.length ∨ 0 ≤ k ∧ k < m) (hm : m ≤ r.xs.length) :
    r.given A origin L cs ks k m = [r.single A origin L cs (chosen r.xs.length k) (chosen r.xs.length k)] := by
  unfold Row.given
  rcases h with rfl | ⟨h0, h1⟩
  · unfold chosen
    cases hj : pyIdx r.xs.length k <;> rfl
  · have e1 : pyIdx m k = .ok k.toNat := by unfold pyIdx; rw [if_pos ⟨h0, h1⟩]
    have e2 : pyIdx r.xs.length k = .ok k.toNat := by unfold pyIdx; rw [if_pos ⟨h0, by omega⟩]
    rw [pyIdx_chosen e2, e1, e2]

theorem flatMap_one {α β : Type} (l : List α) (f : α → β) : l.flatMap (fun a => [f a]) = l.map f := List.map_eq_flatMap.symm

/-- Locations and coordinates of the same records. -/
theorem collect_coords (origin : Fl K × Fl K) (L : Int) (cs : Fl K) {ks : List String} (hk : "xcoord" ∉ ks ∧ "ycoord" ∉ ks) (rows : List (Row K)) (c : Row K → Nat) :
    let g := collect (ks ++ ["xcoord", "ycoord"]) (rows.map fun r => r.single A origin L cs (c r) (c r))
    let g0 := sliceRows ks rows (rows.map c)
    CoordsOf A origin L cs g ∧ g.xs = g0.xs ∧ g.ys = g0.ys ∧ g.ts = g0.ts ∧ ∀ var ∈ ks, entry g.opt var = entry g0.opt var := by
  intro g g0
  have hzip : ∀ {β : Type} (f : Row K → Nat → β), List.zipWith f rows (rows.map c) = rows.map fun r => f r (c r) := by
    intro β f
    rw [List.zipWith_map_right, List.zipWith_self]
  have hx : g.xs = rows.map fun r => r.xs.getD (c r) 0 := by
    simp [g, collect, List.flatMap_map, Row.single, flatMap_one]
  have hy : g.ys = rows.map fun r => r.ys.getD (c r) 0 := by
    simp [g, collect, List.flatMap_map, Row.single, flatMap_one]
  have hxc : entry g.opt "xcoord" = rows.map fun r => .num (colCoord A origin.1 cs (r.ys.getD (c r) 0)) := by
    simp only [g]
    rw [collect, entry_dictOf (by simp)]
    simp [List.flatMap_map, Row.single, flatMap_one]
  have hyc : entry g.opt "ycoord" = rows.map fun r => .num (rowCoord A origin.2 L cs (r.xs.getD (c r) 0)) := by
    simp only [g]
    rw [collect, entry_dictOf (by simp)]
    simp [List.flatMap_map, Row.single, flatMap_one]
  refine ⟨⟨by rw [hxc, hy]; simp, by rw [hyc, hx]; simp, fun i c' hi => ?_, fun i r' hi => ?_⟩, ?_, ?_, ?_, ?_⟩
  · rw [hy, List.getElem?_map, Option.map_eq_some_iff] at hi
    obtain ⟨r, hr, rfl⟩ := hi
    rw [hxc, List.getElem?_map, hr]
    rfl
  · rw [hx, List.getElem?_map, Option.map_eq_some_iff] at hi
    obtain ⟨r, hr, rfl⟩ := hi
    rw [hyc, List.getElem?_map, hr]
    rfl
  · simp [g0, hx, sliceRows, hzip]
  · simp [g0, hy, sliceRows, hzip]
  · simp [g, g0, collect, sliceRows, List.flatMap_map, Row.single, flatMap_one, hzip]
  · intro var hv
    have hay : var ≠ "ycoord" := fun e => hk.2 (e ▸ hv)
    have hax : var ≠ "xcoord" := fun e => hk.1 (e ▸ hv)
    simp only [g, g0]
    rw [collect, entry_dictOf (by simp [hv]), sliceRows, entry_dictOf hv]
    simp [List.flatMap_map, Row.single, flatMap_one, hzip, hax, hay]

/-- After `ind2coord`, `get_state` returns the state it returns without coordinates, and with every location its coordinates, if no particle has moved since or
the record asked for existed at the time of the call. Missing from C81: later records and records counted from the end, see `C81_last_partial`
and `C81_misaligned`. -/
theorem C81_state_partial {w w' : WalkData K} (h : AlignedWalk w) (h' : AlignedWalk w') (hc : Continues w w') (hk : NoCoords w')
    (origin : Fl K × Fl K) (size : Int × Int) (cs : Fl K) {k : Int}
    (hrec : ∀ (i : Nat) xs xs', w.xinds[i]? = some xs → w'.xinds[i]? = some xs' → xs = xs' ∨ 0 ≤ k ∧ k < xs.length) :
    ∃ cd g g0, ind2coord A w origin size cs = .ok cd ∧ getState (cd.dict w') k = .ok g ∧ CoordsOf A origin size.1 cs g ∧
      getState w' k = .ok g0 ∧ g.xs = g0.xs ∧ g.ys = g0.ys ∧ g.ts = g0.ts ∧ ∀ var ∈ keys w'.opt, entry g.opt var = entry g0.opt var := by
  obtain ⟨rows, ms, cd, hs⟩ := stale_rows (A := A) h h' hc hk origin size cs
  have hst := hs.state h'.distinct hk k
  have hflat : (List.zipWith (fun m (r : Row K) => r.given A origin size.1 cs (keys w'.opt) k m) ms rows).flatten =
      rows.map fun r => r.single A origin size.1 cs (chosen r.xs.length k) (chosen r.xs.length k) := by
    have e : List.zipWith (fun m (r : Row K) => r.given A origin size.1 cs (keys w'.opt) k m) ms rows =
        rows.map fun r => [r.single A origin size.1 cs (chosen r.xs.length k) (chosen r.xs.length k)] := by
      apply List.ext_getElem?
      intro i
      rw [List.getElem?_zipWith, List.getElem?_map]
      rcases Nat.lt_or_ge i rows.length with hi | hi
      · have him : i < ms.length := by rw [hs.num]; exact hi
        rw [List.getElem?_eq_getElem hi, List.getElem?_eq_getElem him]
        obtain ⟨h0, hm, hx, -⟩ := hs.len i _ _ (List.getElem?_eq_getElem him) (List.getElem?_eq_getElem hi)
        have hx' : w'.xinds[i]? = some rows[i].xs := by rw [hs.now]; simp [ofRows, hi]
        simp only [Option.map_some, Option.some.injEq]
        refine given_single ?_ hm
        rcases hrec i _ _ hx hx' with he | he
        · left
          have := congrArg List.length he
          simp only [List.length_take] at this
          omega
        · right
          simp only [List.length_take] at he
          omega
      · rw [List.getElem?_eq_none hi, List.getElem?_eq_none (by rw [hs.num]; exact hi)]
        rfl
    rw [e, ← List.flatMap_def, flatMap_one]
  rw [hflat] at hst
  have hg0 := getState_rows h'.distinct hs.full k
  rw [← hs.now] at hg0
  obtain ⟨h1, h2, h3, h4, h5⟩ := collect_coords (A := A) origin size.1 cs hk rows fun r => chosen r.xs.length k
  exact ⟨cd, _, _, hs.call, hst, h1, hg0, h2, h3, h4, h5⟩

theorem pyIdx_has {n : Nat} {k : Int} : (∃ j, pyIdx n k = .ok j) ↔ HasRecord n k := by
  unfold pyIdx HasRecord
  constructor
  · rintro ⟨j, hj⟩
    split at hj
    · omega
    · split at hj
      · omega
      · cases hj
  · intro h
    split
    · exact ⟨_, rfl⟩
    · rw [if_pos (by omega)]
      exact ⟨_, rfl⟩

theorem zipWith_pairs {α β γ : Type} (f : α → β → γ) (l : List α) (l' : List β) : List.zipWith f l l' = (l.zip l').map fun p => f p.1 p.2 := by
  rw [List.zip, List.map_zipWith]

theorem chosen_eq (n : Nat) (k : Int) : chosen n k = (if HasRecord n k then (if 0 ≤ k then k else k + n) else (n : Int) - 1).toNat := by
  by_cases h : HasRecord n k
  · obtain ⟨j, hj⟩ := pyIdx_has.2 h
    rw [pyIdx_chosen hj, if_pos h]
    unfold HasRecord at h
    unfold pyIdx at hj
    split at hj
    · injection hj with hj
      rw [if_pos (by omega), hj]
    · rw [if_pos (by omega)] at hj
      injection hj with hj
      rw [if_neg (by omega), hj]
  · rw [if_neg h]
    cases hj : pyIdx n k with
    | ok j => exact absurd (pyIdx_has.1 ⟨j, hj⟩) h
    | error e =>
      unfold chosen
      rw [hj]
      simp only
      omega

theorem shownAt_eq {wd : WalkData K} {i : Nat} {xs ys : List Int} (hx : wd.xinds[i]? = some xs) (hy : wd.yinds[i]? = some ys) (hl : ys.length = xs.length)
    (hn : 0 < xs.length) (k : Int) : wd.shown i k = some (xs.getD (chosen xs.length k) 0, ys.getD (chosen xs.length k) 0) := by
  have hlt := chosen_lt hn k
  unfold WalkData.shown
  rw [hx, hy]
  simp only [Option.bind_eq_bind, Option.bind_some, ← chosen_eq, List.getD_eq_getElem?_getD]
  rw [List.getElem?_eq_getElem hlt, List.getElem?_eq_getElem (by omega)]
  rfl

theorem take_getD {l : List Int} {m j : Nat} (h : j < m) : (l.take m).getD j 0 = l.getD j 0 := by
  rw [List.getD_eq_getElem?_getD, List.getD_eq_getElem?_getD, List.getElem?_take, if_pos h]

theorem colCoord_inj {x0 c : K} (h0 : c ≠ 0) {a b : Int} :
    (Val.num (colCoord Arith.exact (.fin x0) (.fin c) a) : Val K) = .num (colCoord Arith.exact (.fin x0) (.fin c) b) ↔ a = b := by
  unfold colCoord
  rw [exact_mul, exact_mul, exact_add, exact_add]
  constructor
  · intro h
    injection h with h
    injection h with h
    have := mul_right_cancel₀ h0 (add_right_cancel h)
    exact Int.cast_injective this
  · rintro rfl; rfl

theorem rowCoord_inj {y0 c : K} (h0 : c ≠ 0) {L a b : Int} :
    (Val.num (rowCoord Arith.exact (.fin y0) L (.fin c) a) : Val K) = .num (rowCoord Arith.exact (.fin y0) L (.fin c) b) ↔ a = b := by
  unfold rowCoord
  rw [exact_sub, exact_sub, exact_mul, exact_mul, exact_add, exact_add]
  constructor
  · intro h
    injection h with h
    injection h with h
    have := sub_right_injective (mul_right_cancel₀ h0 (add_right_cancel h))
    exact Int.cast_injective this
  · rintro rfl; rfl

/-- What a particle contributes, by cases. -/
theorem given_cases (origin : Fl K × Fl K) (L : Int) (cs : Fl K) (ks : List String) (k : Int) (m : Nat) (r : Row K) :
    r.given A origin L cs ks k m = if HasRecord r.xs.length k ∧ ¬HasRecord m k then
        [r.half ks (chosen r.xs.length k), r.single A origin L cs (r.xs.length - 1) (m - 1)]
      else if ¬HasRecord r.xs.length k then [r.single A origin L cs (r.xs.length - 1) (m - 1)]
      else [r.single A origin L cs (chosen r.xs.length k) (chosen m k)] := by
  unfold Row.given
  cases h1 : pyIdx r.xs.length k with
  | error e =>
    have n1 : ¬HasRecord r.xs.length k := by rw [← pyIdx_has, h1]; simp
    rw [if_neg (by tauto), if_pos n1]
  | ok j =>
    have n1 : HasRecord r.xs.length k := by rw [← pyIdx_has, h1]; simp
    cases h2 : pyIdx m k with
    | error e =>
      have n2 : ¬HasRecord m k := by rw [← pyIdx_has, h2]; simp
      rw [if_pos ⟨n1, n2⟩, pyIdx_chosen h1]
    | ok j' =>
      have n2 : HasRecord m k := by rw [← pyIdx_has, h2]; simp
      rw [if_neg (by tauto), if_neg (by tauto), pyIdx_chosen h1, pyIdx_chosen h2]

theorem given_one {origin : Fl K × Fl K} {L : Int} {cs : Fl K} {ks : List String} {k : Int} {m : Nat} {r : Row K} (hm : m ≤ r.xs.length)
    (h : HasRecord r.xs.length k → HasRecord m k) :
    r.given A origin L cs ks k m = [r.single A origin L cs (chosen r.xs.length k) (chosen m k)] := by
  rw [given_cases, if_neg (by tauto)]
  by_cases h1 : HasRecord r.xs.length k
  · rw [if_neg (by tauto)]
  · have h2 : ¬HasRecord m k := by unfold HasRecord at h1 ⊢; omega
    rw [if_pos h1, chosen_eq, chosen_eq, if_neg h1, if_neg h2]
    congr 2 <;> omega

/-- The state as a function of the particles. -/
theorem Stale.pairs {w w' : WalkData K} {origin : Fl K × Fl K} {size : Int × Int} {cs : Fl K} {rows : List (Row K)} {ms : List Nat} {cd : CoordData K}
    (hs : Stale A w w' origin size cs rows ms cd) :
    w.xinds.zip w'.xinds = (ms.zip rows).map (fun p => (p.2.xs.take p.1, p.2.xs)) ∧ (∀ p ∈ ms.zip rows, 0 < p.1 ∧ p.1 ≤ p.2.xs.length) := by
  have hn : w'.xinds = rows.map (·.xs) := by rw [hs.now]; rfl
  constructor
  · apply List.ext_getElem?
    intro i
    rw [List.getElem?_map]
    rcases Nat.lt_or_ge i rows.length with hi | hi
    · have him : i < ms.length := by rw [hs.num]; exact hi
      obtain ⟨-, -, hx, -⟩ := hs.len i _ _ (List.getElem?_eq_getElem him) (List.getElem?_eq_getElem hi)
      have e1 : (w.xinds.zip w'.xinds)[i]? = some (rows[i].xs.take ms[i], rows[i].xs) := by
        rw [List.getElem?_zip_eq_some]
        exact ⟨hx, by rw [hn, List.getElem?_map, List.getElem?_eq_getElem hi]; rfl⟩
      have e2 : (ms.zip rows)[i]? = some (ms[i], rows[i]) := by
        rw [List.getElem?_zip_eq_some]
        exact ⟨List.getElem?_eq_getElem him, List.getElem?_eq_getElem hi⟩
      rw [e1, e2]
      rfl
    · rw [List.getElem?_eq_none (by simp [hn]; omega), List.getElem?_eq_none (by simp; omega)]
      rfl
  · intro p hp
    obtain ⟨i, hi⟩ := List.mem_iff_getElem?.1 hp
    rw [List.getElem?_zip_eq_some] at hi
    obtain ⟨h1, h2, -⟩ := hs.len i _ _ hi.1 hi.2
    exact ⟨h1, h2⟩

theorem given_lengths {origin : Fl K × Fl K} {L : Int} {cs : Fl K} {ks : List String} (hk : "xcoord" ∉ ks ∧ "ycoord" ∉ ks) (k : Int) (l : List (Nat × Row K)) :
    ((l.map fun p => p.2.given A origin L cs ks k p.1).flatten.flatMap (·.xs)).length =
        l.length + l.countP (fun p => decide (HasRecord p.2.xs.length k ∧ ¬HasRecord p.1 k)) ∧
      ((l.map fun p => p.2.given A origin L cs ks k p.1).flatten.flatMap fun c => c.os "ycoord").length = l.length := by
  induction l with
  | nil => simp
  | cons p l ih =>
    obtain ⟨ih1, ih2⟩ := ih
    rw [List.map_cons, List.flatten_cons, List.flatMap_append, List.flatMap_append, List.length_append, List.length_append, ih1, ih2, List.countP_cons,
      given_cases]
    split
    · rename_i h
      simp [Row.half, Row.single, hk.2, h]
      omega
    · rename_i h
      split
      · simp [Row.single, h]; omega
      · simp [Row.single, h]; omega

theorem Continues.num {w w' : WalkData K} (h : Continues w w') : w.xinds.length = w'.xinds.length := h.xinds.length_eq

/-- In general `get_state` returns one coordinate per particle but two locations for each particle that has the record asked for in its history and not in its coordinates. -/
theorem C81_lengths {w w' : WalkData K} (h : AlignedWalk w) (h' : AlignedWalk w') (hc : Continues w w') (hk : NoCoords w')
    (origin : Fl K × Fl K) (size : Int × Int) (cs : Fl K) (k : Int) :
    ∃ cd g, ind2coord A w origin size cs = .ok cd ∧ getState (cd.dict w') k = .ok g ∧ (entry g.opt "ycoord").length = w'.xinds.length ∧
      g.xs.length = w'.xinds.length + (w.xinds.zip w'.xinds).countP fun p => decide (HasRecord p.2.length k ∧ ¬HasRecord p.1.length k) := by
  obtain ⟨rows, ms, cd, hs⟩ := stale_rows (A := A) h h' hc hk origin size cs
  obtain ⟨hp, hm⟩ := hs.pairs
  have hst := hs.state h'.distinct hk k
  rw [zipWith_pairs] at hst
  obtain ⟨l1, l2⟩ := given_lengths (A := A) (origin := origin) (L := size.1) (cs := cs) hk k (ms.zip rows)
  have hn : w'.xinds.length = (ms.zip rows).length := by rw [hs.now]; simp [ofRows, hs.num]
  refine ⟨cd, _, hs.call, hst, ?_, ?_⟩
  · rw [collect, entry_dictOf (by simp), hn]
    exact l2
  · rw [hn, hp, List.countP_map]
    refine l1.trans ?_
    congr 1
    refine List.countP_congr fun p hpm => ?_
    have := hm p hpm
    simp only [Function.comp_apply, List.length_take, Nat.min_eq_left this.2]

/-- With exact arithmetic the coordinates returned belong to the locations returned if and only if no particle has the record in its history without having it
in its coordinates, and the record shows every particle where the same record showed it when `ind2coord` was called. -/
theorem C81_iff_partial {w w' : WalkData K} (h : AlignedWalk w) (h' : AlignedWalk w') (hc : Continues w w') (hk : NoCoords w')
    (x0 y0 : K) (size : Int × Int) {c : K} (h0 : c ≠ 0) (k : Int) :
    ∃ cd g, ind2coord Arith.exact w (.fin x0, .fin y0) size (.fin c) = .ok cd ∧ getState (cd.dict w') k = .ok g ∧
      (CoordsOf Arith.exact (.fin x0, .fin y0) size.1 (.fin c) g ↔
        (∀ (i : Nat) xs xs', w.xinds[i]? = some xs → w'.xinds[i]? = some xs' → HasRecord xs'.length k → HasRecord xs.length k) ∧
        ∀ i, w.shown i k = w'.shown i k) := by
  obtain ⟨rows, ms, cd, hs⟩ := stale_rows (A := Arith.exact) h h' hc hk (.fin x0, .fin y0) size (.fin c)
  obtain ⟨hp, hm⟩ := hs.pairs
  obtain ⟨cd', g, hcd, hg, hyl, hxl⟩ := C81_lengths (A := Arith.exact) h h' hc hk (.fin x0, .fin y0) size (.fin c) k
  have := hs.call.symm.trans hcd
  injection this with this
  subst this
  refine ⟨cd, g, hcd, hg, ?_⟩
  have hnx : w'.xinds = rows.map (·.xs) := by rw [hs.now]; rfl
  have hny : w'.yinds = rows.map (·.ys) := by rw [hs.now]; rfl
  have hiff : (∀ (i : Nat) xs xs', w.xinds[i]? = some xs → w'.xinds[i]? = some xs' → HasRecord xs'.length k → HasRecord xs.length k) ↔
      g.xs.length = w'.xinds.length := by
    rw [hxl, Nat.add_eq_left, List.countP_eq_zero]
    constructor
    · intro hi p hpm
      obtain ⟨i, hi'⟩ := List.mem_iff_getElem?.1 hpm
      rw [List.getElem?_zip_eq_some] at hi'
      have := hi i _ _ hi'.1 hi'.2
      simpa using this
    · intro hz i xs xs' hx hx' hr
      have := hz (xs, xs') (List.mem_iff_getElem?.2 ⟨i, List.getElem?_zip_eq_some.2 ⟨hx, hx'⟩⟩)
      by_contra hcon
      exact this (by simp [hr, hcon])
  by_cases hone : ∀ (i : Nat) xs xs', w.xinds[i]? = some xs → w'.xinds[i]? = some xs' → HasRecord xs'.length k → HasRecord xs.length k
  swap
  · refine ⟨fun hco => absurd (hiff.2 (hco.ynum.symm.trans hyl)) hone, fun hco => absurd hco.1 hone⟩
  rw [and_iff_right hone]
  have hst := hs.state h'.distinct hk k
  rw [zipWith_pairs, show (ms.zip rows).map (fun (p : Nat × Row K) => p.2.given Arith.exact (.fin x0, .fin y0) size.1 (.fin c) (keys w'.opt) k p.1) =
      (ms.zip rows).map fun (p : Nat × Row K) => [p.2.single Arith.exact (.fin x0, .fin y0) size.1 (.fin c) (chosen p.2.xs.length k) (chosen p.1 k)] from
    List.map_congr_left fun p hpm => by
      obtain ⟨i, hi⟩ := List.mem_iff_getElem?.1 hpm
      rw [List.getElem?_zip_eq_some] at hi
      obtain ⟨-, h2, hx, -⟩ := hs.len i _ _ hi.1 hi.2
      refine given_one h2 fun hr => ?_
      have := hone i _ _ hx (by rw [hnx, List.getElem?_map, hi.2]; rfl) hr
      rwa [List.length_take, Nat.min_eq_left h2] at this,
    ← List.flatMap_def, flatMap_one] at hst
  have := hst.symm.trans hg
  injection this with this
  subst this
  have hx : ∀ i : Nat, (collect (keys w'.opt ++ ["xcoord", "ycoord"]) ((ms.zip rows).map fun (p : Nat × Row K) => p.2.single Arith.exact (.fin x0, .fin y0) size.1 (.fin c)
      (chosen p.2.xs.length k) (chosen p.1 k))).xs[i]? = (ms.zip rows)[i]?.map fun (p : Nat × Row K) => p.2.xs.getD (chosen p.2.xs.length k) 0 := by
    intro i
    simp [collect, List.flatMap_map, Row.single, flatMap_one]
  have hy : ∀ i : Nat, (collect (keys w'.opt ++ ["xcoord", "ycoord"]) ((ms.zip rows).map fun (p : Nat × Row K) => p.2.single Arith.exact (.fin x0, .fin y0) size.1 (.fin c)
      (chosen p.2.xs.length k) (chosen p.1 k))).ys[i]? = (ms.zip rows)[i]?.map fun (p : Nat × Row K) => p.2.ys.getD (chosen p.2.xs.length k) 0 := by
    intro i
    simp [collect, List.flatMap_map, Row.single, flatMap_one]
  have hxc : ∀ i : Nat, (entry (collect (keys w'.opt ++ ["xcoord", "ycoord"]) ((ms.zip rows).map fun (p : Nat × Row K) => p.2.single Arith.exact (.fin x0, .fin y0) size.1 (.fin c)
      (chosen p.2.xs.length k) (chosen p.1 k))).opt "xcoord")[i]? =
      (ms.zip rows)[i]?.map fun (p : Nat × Row K) => .num (colCoord Arith.exact (.fin x0) (.fin c) (p.2.ys.getD (chosen p.1 k) 0)) := by
    intro i
    rw [collect, entry_dictOf (by simp)]
    simp [List.flatMap_map, Row.single, flatMap_one]
  have hyc : ∀ i : Nat, (entry (collect (keys w'.opt ++ ["xcoord", "ycoord"]) ((ms.zip rows).map fun (p : Nat × Row K) => p.2.single Arith.exact (.fin x0, .fin y0) size.1 (.fin c)
      (chosen p.2.xs.length k) (chosen p.1 k))).opt "ycoord")[i]? =
      (ms.zip rows)[i]?.map fun (p : Nat × Row K) => .num (rowCoord Arith.exact (.fin y0) size.1 (.fin c) (p.2.xs.getD (chosen p.1 k) 0)) := by
    intro i
    rw [collect, entry_dictOf (by simp)]
    simp [List.flatMap_map, Row.single, flatMap_one]
  have hsh : ∀ (i : Nat) m r, (ms.zip rows)[i]? = some (m, r) → w.shown i k = some (r.xs.getD (chosen m k) 0, r.ys.getD (chosen m k) 0) ∧
      w'.shown i k = some (r.xs.getD (chosen r.xs.length k) 0, r.ys.getD (chosen r.xs.length k) 0) := by
    intro i m r hi
    rw [List.getElem?_zip_eq_some] at hi
    obtain ⟨h1, h2, hx1, hy1⟩ := hs.len i m r hi.1 hi.2
    have hf := hs.full r (List.mem_of_getElem? hi.2)
    have hl : r.ys.length = r.xs.length := hf.1.1
    refine ⟨?_, shownAt_eq (by rw [hnx, List.getElem?_map, hi.2]; rfl) (by rw [hny, List.getElem?_map, hi.2]; rfl) hl (by omega) k⟩
    have e : (r.xs.take m).length = m := by rw [List.length_take]; omega
    rw [shownAt_eq hx1 hy1 (by rw [List.length_take, List.length_take, hl]) (by omega) k, e, take_getD (chosen_lt h1 k), take_getD (chosen_lt h1 k)]
  constructor
  · intro hco i
    cases hi : (ms.zip rows)[i]? with
    | none =>
      have hlen : rows.length ≤ i := by
        have := List.getElem?_eq_none_iff.1 hi
        simp [hs.num] at this
        exact this
      unfold WalkData.shown
      rw [List.getElem?_eq_none (l := w.xinds) (by rw [hc.num, hnx]; simpa using hlen),
        List.getElem?_eq_none (l := w'.xinds) (by rw [hnx]; simpa using hlen)]
      rfl
    | some p =>
      obtain ⟨m, r⟩ := p
      obtain ⟨e1, e2⟩ := hsh i m r hi
      have c1 := hco.xcoord i _ (by rw [hy, hi]; rfl)
      have c2 := hco.ycoord i _ (by rw [hx, hi]; rfl)
      rw [hxc, hi] at c1
      rw [hyc, hi] at c2
      injection c1 with c1
      injection c2 with c2
      rw [e1, e2, (colCoord_inj h0).1 c1, (rowCoord_inj h0).1 c2]
  · intro hpos
    have hlx : ∀ {β : Type} (f : Nat × Row K → β) (l : List β), (∀ i : Nat, l[i]? = (ms.zip rows)[i]?.map f) → l.length = (ms.zip rows).length := by
      intro β f l hf
      have e : l = (ms.zip rows).map f := List.ext_getElem? fun i => by rw [hf, List.getElem?_map]
      rw [e, List.length_map]
    refine ⟨(hlx _ _ hxc).trans (hlx _ _ hy).symm, (hlx _ _ hyc).trans (hlx _ _ hx).symm, fun i c' hi => ?_, fun i r' hi => ?_⟩
    · rw [hy, Option.map_eq_some_iff] at hi
      obtain ⟨⟨m, r⟩, hi, rfl⟩ := hi
      obtain ⟨e1, e2⟩ := hsh i m r hi
      have e := (e1.symm.trans (hpos i)).trans e2
      injection e with e
      injection e with e3 e4
      rw [hxc, hi, Option.map_some, e4]
      rfl
    · rw [hx, Option.map_eq_some_iff] at hi
      obtain ⟨⟨m, r⟩, hi, rfl⟩ := hi
      obtain ⟨e1, e2⟩ := hsh i m r hi
      have e := (e1.symm.trans (hpos i)).trans e2
      injection e with e
      injection e with e3 e4
      rw [hyc, hi, Option.map_some, e3]
      rfl

/-! ## `get_time_state` -/

/-- A loop that stops at the first bad particle. -/
theorem fold_stop {ks : List String} {f : GotState K → Nat → Except PyErr (GotState K)} {good : Nat → Prop} {e : PyErr} {c : Nat → Row K} {N : Nat}
    (hok : ∀ i, i < N → good i → ∀ gs, f (collect ks gs) i = .ok (collect ks (gs ++ [c i])))
    (hbad : ∀ i, i < N → ¬good i → ∀ gs, f (collect ks gs) i = .error e) : ∀ n, n ≤ N →
    ((∀ i, i < n → good i) → foldE f (collect ks []) (List.range n) = .ok (collect ks ((List.range n).map c))) ∧
    ((∃ i, i < n ∧ ¬good i) → foldE f (collect ks []) (List.range n) = .error e) := by
  intro n
  induction n with
  | zero => intro _; exact ⟨fun _ => rfl, fun ⟨i, h, _⟩ => absurd h (by omega)⟩
  | succ n ih =>
    intro hn
    obtain ⟨ih1, ih2⟩ := ih (by omega)
    rw [List.range_succ, foldE_append]
    constructor
    · intro h
      rw [ih1 fun i hi => h i (by omega), ok_bind]
      simp only [foldE]
      rw [hok n (by omega) (h n (by omega)), ok_bind]
      simp
    · intro h
      by_cases hall : ∀ i, i < n → good i
      · rw [ih1 hall, ok_bind]
        obtain ⟨i, hi, hb⟩ := h
        have : i = n := by
          by_contra hne
          exact hb (hall i (by omega))
        subst this
        simp only [foldE]
        rw [hbad i (by omega) hb]
        rfl
      · push Not at hall
        rw [ih2 hall]
        rfl

theorem FirstNearest.unique {d : Fl K → Fl K} {ts : List (Fl K)} {j j' : Nat} (h : FirstNearest d ts j) (h' : FirstNearest d ts j') : j = j' := by
  obtain ⟨t, ht, hm⟩ := h
  obtain ⟨t', ht', hm'⟩ := h'
  have irr : ∀ {x y : Fl K}, Fl.le x y = true → Fl.lt y x = true → False := by
    intro x y
    cases x <;> cases y <;> simp [Fl.le, Fl.lt]
  rcases lt_trichotomy j j' with hlt | he | hlt
  · exact (irr (hm j' t' ht').1 ((hm' j t ht).2 hlt)).elim
  · exact he
  · exact (irr (hm' j t ht).1 ((hm j' t' ht').2 hlt)).elim

theorem argmin_near {ks : List String} {r : Row K} (hf : r.full ks) {T : Fl K} (hT : ∀ t ∈ r.ts, A.sub t T ≠ .nan) :
    ∃ j, argmin (r.ts.map fun t => Fl.abs (A.sub t T)) = .ok j ∧ j < r.xs.length ∧ FirstNearest (fun t => Fl.abs (A.sub t T)) r.ts j := by
  obtain ⟨⟨h1, h2, h3⟩, h4⟩ := hf
  obtain ⟨j, y, hj, hy, hm⟩ := argmin_spec (l := r.ts.map fun t => Fl.abs (A.sub t T)) (by
    intro x hx
    obtain ⟨t, ht, rfl⟩ := List.mem_map.1 hx
    have := hT t ht
    revert this
    cases A.sub t T <;> simp [Fl.abs]) (by
    intro h0
    rw [List.map_eq_nil_iff] at h0
    rw [h0] at h2
    simp at h2
    omega)
  rw [List.getElem?_map, Option.map_eq_some_iff] at hy
  obtain ⟨tj, htj, rfl⟩ := hy
  refine ⟨j, hj, by rw [← h2]; exact (List.getElem?_eq_some_iff.1 htj).1, tj, htj, fun m t ht => ?_⟩
  exact hm m _ (by rw [List.getElem?_map, ht]; rfl)

theorem pyIdx_nat {n j : Nat} (h : j < n) : pyIdx n (j : Int) = .ok j := by
  unfold pyIdx
  rw [if_pos ⟨by omega, by exact_mod_cast h⟩]
  simp

theorem pyIdx_over {n j : Nat} (h : n ≤ j) : pyIdx n (j : Int) = .error .indexError := by
  unfold pyIdx
  rw [if_neg (by omega), if_neg (by omega)]

theorem coords_time {ks : List String} (hn : ks.Nodup) (hk : "xcoord" ∉ ks ∧ "ycoord" ∉ ks) {rows : List (Row K)} {origin : Fl K × Fl K} {L : Int}
    {cs : Fl K} {i m : Nat} {r : Row K} (hi : rows[i]? = some (r.coords A origin L cs m)) (hf : r.full ks) (hm : m ≤ r.xs.length) {T : Fl K} {j : Nat}
    (hj : argmin (r.ts.map fun t => Fl.abs (A.sub t T)) = .ok j) (hjl : j < r.xs.length) (gs : List (Row K)) :
    timeStateStep A (ofRows (ks ++ ["xcoord", "ycoord"]) rows) T (collect (ks ++ ["xcoord", "ycoord"]) gs) i =
      if j < m then .ok (collect (ks ++ ["xcoord", "ycoord"]) (gs ++ [r.single A origin L cs j j])) else .error .indexError := by
  unfold timeStateStep
  have : listGet (ofRows (ks ++ ["xcoord", "ycoord"]) rows).times i = .ok r.ts := by simp [listGet, ofRows, hi, Row.coords]
  rw [this, ok_bind, hj, ok_bind]
  by_cases h : j < m
  · rw [coords_push hn hk hi hf hm (pyIdx_nat hjl) (pyIdx_nat h), if_pos h]
  · rw [coords_stop hn hk hi hf hm (pyIdx_nat hjl) (pyIdx_over (by omega)), if_neg h]

/-- `get_time_state` never returns a wrong coordinate: if every particle has a coordinate for the record nearest to the time asked for, it returns the state it
returns without coordinates, and with every location its coordinates; otherwise it raises IndexError. -/
theorem C81_time_partial {w w' : WalkData K} (h : AlignedWalk w) (h' : AlignedWalk w') (hc : Continues w w') (hk : NoCoords w')
    (origin : Fl K × Fl K) (size : Int × Int) (cs : Fl K) {T : Fl K} (hT : ∀ ts ∈ w'.times, ∀ t ∈ ts, A.sub t T ≠ .nan) :
    ∃ cd, ind2coord A w origin size cs = .ok cd ∧
      ((∀ (i : Nat) xs ts j, w.xinds[i]? = some xs → w'.times[i]? = some ts → FirstNearest (fun t => Fl.abs (A.sub t T)) ts j → j < xs.length) →
        ∃ g g0, getTimeState A (cd.dict w') T = .ok g ∧ CoordsOf A origin size.1 cs g ∧ getTimeState A w' T = .ok g0 ∧
          g.xs = g0.xs ∧ g.ys = g0.ys ∧ g.ts = g0.ts ∧ ∀ var ∈ keys w'.opt, entry g.opt var = entry g0.opt var) ∧
      ((∃ (i : Nat) (xs : List Int) (ts : List (Fl K)) (j : Nat), w.xinds[i]? = some xs ∧ w'.times[i]? = some ts ∧
          FirstNearest (fun t => Fl.abs (A.sub t T)) ts j ∧ xs.length ≤ j) → getTimeState A (cd.dict w') T = .error .indexError) := by
  obtain ⟨rows, ms, cd, hs⟩ := stale_rows (A := A) h h' hc hk origin size cs
  refine ⟨cd, hs.call, ?_⟩
  have hnt : w'.times = rows.map (·.ts) := by rw [hs.now]; rfl
  have hTr : ∀ r ∈ rows, ∀ t ∈ r.ts, A.sub t T ≠ .nan := fun r hr => hT r.ts (by rw [hnt]; exact List.mem_map.2 ⟨r, hr, rfl⟩)
  obtain ⟨c, hcr, hg0⟩ := getTimeState_rows (A := A) h'.distinct hs.full hTr
  rw [← hs.now] at hg0
  have hrow : ∀ (i : Nat), i < rows.length → ∃ m r, ms[i]? = some m ∧ rows[i]? = some r ∧ 0 < m ∧ m ≤ r.xs.length ∧ w.xinds[i]? = some (r.xs.take m) ∧
      w'.times[i]? = some r.ts ∧ FirstNearest (fun t => Fl.abs (A.sub t T)) r.ts (c r) ∧
      ∀ gs, timeStateStep A (ofRows (keys w'.opt ++ ["xcoord", "ycoord"]) (List.zipWith (Row.coords A origin size.1 cs) ms rows)) T
          (collect (keys w'.opt ++ ["xcoord", "ycoord"]) gs) i =
        if c r < m then .ok (collect (keys w'.opt ++ ["xcoord", "ycoord"]) (gs ++ [r.single A origin size.1 cs (c r) (c r)])) else .error .indexError := by
    intro i hi
    have him : i < ms.length := by rw [hs.num]; exact hi
    have e1 := List.getElem?_eq_getElem him
    have e2 := List.getElem?_eq_getElem hi
    obtain ⟨h1, h2, hx, -⟩ := hs.len i _ _ e1 e2
    have hf := hs.full _ (List.mem_of_getElem? e2)
    obtain ⟨j, hj, hjl, hjn⟩ := argmin_near (A := A) hf (hTr _ (List.mem_of_getElem? e2))
    obtain ⟨-, hcn⟩ := hcr _ (List.mem_of_getElem? e2)
    have := hjn.unique hcn
    subst this
    exact ⟨_, _, e1, e2, h1, h2, hx, by rw [hnt, List.getElem?_map, e2]; rfl, hcn, fun gs =>
      coords_time h'.distinct hk (by rw [List.getElem?_zipWith, e1, e2]) hf h2 hj hjl gs⟩
  have hlen : (List.zipWith (Row.coords A origin size.1 cs) ms rows).length = rows.length := by simp [hs.num]
  have hfold := fold_stop (ks := keys w'.opt ++ ["xcoord", "ycoord"])
    (f := timeStateStep A (ofRows (keys w'.opt ++ ["xcoord", "ycoord"]) (List.zipWith (Row.coords A origin size.1 cs) ms rows)) T)
    (good := fun i => ∀ m r, ms[i]? = some m → rows[i]? = some r → c r < m) (e := .indexError)
    (c := fun i => ((rows[i]?).map fun r => r.single A origin size.1 cs (c r) (c r)).getD ⟨[], [], [], fun _ => []⟩) (N := rows.length)
    (fun i hi hgood gs => by
      obtain ⟨m, r, e1, e2, -, -, -, -, -, hstep⟩ := hrow i hi
      rw [hstep, if_pos (hgood m r e1 e2), e2]
      rfl)
    (fun i hi hbad gs => by
      obtain ⟨m, r, e1, e2, -, -, -, -, -, hstep⟩ := hrow i hi
      rw [hstep, if_neg fun hlt => hbad fun m' r' e1' e2' => by
        rw [e1] at e1'
        rw [e2] at e2'
        cases e1'
        cases e2'
        exact hlt]) rows.length le_rfl
  have hget : getTimeState A (cd.dict w') T =
      foldE (timeStateStep A (ofRows (keys w'.opt ++ ["xcoord", "ycoord"]) (List.zipWith (Row.coords A origin size.1 cs) ms rows)) T)
        (collect (keys w'.opt ++ ["xcoord", "ycoord"]) []) (List.range rows.length) := by
    rw [hs.dict]
    unfold getTimeState
    rw [show emptyState (ofRows (keys w'.opt ++ ["xcoord", "ycoord"]) (List.zipWith (Row.coords A origin size.1 cs) ms rows)) =
      collect (keys w'.opt ++ ["xcoord", "ycoord"]) [] by simp [emptyState, collect, ofRows, dictOf],
      show (ofRows (keys w'.opt ++ ["xcoord", "ycoord"]) (List.zipWith (Row.coords A origin size.1 cs) ms rows)).xinds.length = rows.length by
        simp [ofRows, hs.num]]
  rw [hget]
  constructor
  · intro hall
    have hg := hfold.1 fun i hi m r e1 e2 => by
      obtain ⟨m', r', e1', e2', -, h2, hx, ht, hn, -⟩ := hrow i hi
      rw [e1] at e1'
      rw [e2] at e2'
      cases e1'
      cases e2'
      have := hall i _ _ _ hx ht hn
      rw [List.length_take] at this
      omega
    have he : (List.range rows.length).map (fun i => ((rows[i]?).map fun r => r.single A origin size.1 cs (c r) (c r)).getD ⟨[], [], [], fun _ => []⟩) =
        rows.map fun r => r.single A origin size.1 cs (c r) (c r) := by
      apply List.ext_getElem?
      intro i
      rw [List.getElem?_map, List.getElem?_map]
      rcases Nat.lt_or_ge i rows.length with hi | hi
      · rw [List.getElem?_range hi, List.getElem?_eq_getElem hi]
        simp [hi]
      · rw [List.getElem?_eq_none (by simpa using hi), List.getElem?_eq_none hi]
        rfl
    rw [he] at hg
    obtain ⟨h1, h2, h3, h4, h5⟩ := collect_coords (A := A) origin size.1 cs hk rows c
    exact ⟨_, _, hg, h1, hg0, h2, h3, h4, h5⟩
  · rintro ⟨i, xs, ts, j, hx, ht, hn, hle⟩
    have hi : i < rows.length := by
      have := (List.getElem?_eq_some_iff.1 ht).1
      simpa [hnt] using this
    refine hfold.2 ⟨i, hi, fun hgood => ?_⟩
    obtain ⟨m, r, e1, e2, -, h2, hx', ht', hn', -⟩ := hrow i hi
    rw [hx] at hx'
    rw [ht] at ht'
    cases hx'
    cases ht'
    have := hn.unique hn'
    subst this
    have := hgood m r e1 e2
    rw [List.length_take] at hle
    omega

/-! ## Calling `ind2coord` again; plots -/

theorem Continues.refl (w : WalkData K) : Continues w w :=
  ⟨List.forall₂_refl _, List.forall₂_refl _, List.forall₂_refl _, by
    induction w.opt with
    | nil => exact .nil
    | cons e l ih => exact .cons ⟨rfl, List.forall₂_refl _⟩ ih⟩

theorem dict_twice {w : WalkData K} (hn : (keys w.opt).Nodup) (hk : NoCoords w) (c1 c2 : CoordData K) : c2.dict (c1.dict w) = c2.dict w := by
  unfold CoordData.dict
  congr 1
  rw [dict_eta hn]
  simp only [dictSet_dictOf]
  have e1 : addKey (keys w.opt) "xcoord" = keys w.opt ++ ["xcoord"] := by unfold addKey; rw [if_neg hk.1]
  have e2 : addKey (keys w.opt ++ ["xcoord"]) "ycoord" = keys w.opt ++ ["xcoord"] ++ ["ycoord"] := by
    unfold addKey; rw [if_neg (by simp [hk.2])]
  have e3 : addKey (keys w.opt ++ ["xcoord"] ++ ["ycoord"]) "xcoord" = keys w.opt ++ ["xcoord"] ++ ["ycoord"] := by
    unfold addKey; rw [if_pos (by simp)]
  have e4 : addKey (keys w.opt ++ ["xcoord"] ++ ["ycoord"]) "ycoord" = keys w.opt ++ ["xcoord"] ++ ["ycoord"] := by
    unfold addKey; rw [if_pos (by simp)]
  rw [e1, e2, e3, e4]
  refine dictOf_congr fun a _ => ?_
  by_cases hy : a = "ycoord"
  · simp [hy]
  · by_cases hx : a = "xcoord"
    · simp [hx]
    · simp [hx, hy]

/-- Calling `ind2coord` again on the dictionary brings the coordinates up to date: afterwards `get_state` returns for every record the coordinates of the
locations it returns. -/
theorem C81_again {w w' : WalkData K} (h : AlignedWalk w) (h' : AlignedWalk w') (hc : Continues w w') (hk : NoCoords w')
    (origin origin' : Fl K × Fl K) (size size' : Int × Int) (cs cs' : Fl K) (k : Int) :
    ∃ cd cd' g g0, ind2coord A w origin size cs = .ok cd ∧ ind2coord A (cd.dict w') origin' size' cs' = .ok cd' ∧
      getState (cd'.dict (cd.dict w')) k = .ok g ∧ CoordsOf A origin' size'.1 cs' g ∧
      getState w' k = .ok g0 ∧ g.xs = g0.xs ∧ g.ys = g0.ys ∧ g.ts = g0.ts ∧ ∀ var ∈ keys w'.opt, entry g.opt var = entry g0.opt var := by
  obtain ⟨rows, ms, cd, hs⟩ := stale_rows (A := A) h h' hc hk origin size cs
  obtain ⟨cd', g, g0, h1, h2, h3, h4⟩ := C81_state_partial (A := A) h' h' (Continues.refl w') hk origin' size' cs' (k := k) fun i xs xs' hx hx' =>
    .inl (Option.some.inj (hx.symm.trans hx'))
  refine ⟨cd, { cd' with walk := cd.dict w' }, g, g0, hs.call, ?_, ?_, h3, h4⟩
  · rw [ind2coord_eq h'.ynum] at h1
    injection h1 with h1
    rw [ind2coord_eq (wd := cd.dict w') h'.ynum, ← h1]
    rfl
  · rw [dict_twice h'.distinct hk]
    exact h2

/-- `plot_state` and `plot_exposure_time_thresholds` do not accept a dictionary with coordinates, although they accept the same dictionary without. -/
theorem C81_plots_counterexample {w w' : WalkData K} (h : AlignedWalk w) (h' : AlignedWalk w') (hc : Continues w w') (hk : w'.opt = [])
    (origin : Fl K × Fl K) (size : Int × Int) (cs : Fl K) (k : Int) :
    ∃ cd g0, ind2coord A w origin size cs = .ok cd ∧ getState w' k = .ok g0 ∧ plotState A w' k none = .ok (g0.xs, g0.ys) ∧
      plotState A (cd.dict w') k none = .error .valueError ∧
      ∀ expo timedelta nbins uniform, plotExposureTimeThresholds A (cd.dict w') expo timedelta nbins uniform = .error .valueError := by
  have hk' : NoCoords w' := by simp [NoCoords, hk, keys]
  obtain ⟨rows, ms, cd, hs⟩ := stale_rows (A := A) h h' hc hk' origin size cs
  have hg0 := getState_rows h'.distinct hs.full k
  rw [← hs.now] at hg0
  have hne : ∀ k, ∃ g, getState (cd.dict w') k = .ok g ∧ g.opt ≠ [] := fun k =>
    ⟨_, hs.state h'.distinct hk' k, by simp [collect, dictOf]⟩
  refine ⟨cd, _, hs.call, hg0, ?_, ?_, ?_⟩
  · simp only [plotState, hg0, ok_bind]
    have : (sliceRows (keys w'.opt) rows (rows.map fun r => chosen r.xs.length k)).opt = [] := by simp [sliceRows, dictOf, hk, keys]
    simp only [unpack3, this, if_true, ok_bind]
    rfl
  · obtain ⟨g, hg, ho⟩ := hne k
    simp only [plotState, hg, ok_bind, unpack3, ho, if_false]
    rfl
  · intro expo timedelta nbins uniform
    obtain ⟨g, hg, ho⟩ := hne (-1)
    simp only [plotExposureTimeThresholds, hg, ok_bind, unpack3, ho, if_false]
    rfl

/-! ## In programs -/

theorem SysRun.append {Ob : PObj K → Prop} {as bs : List Act} {S S1 S2 : Sys K} (h : SysRun A F Ob Ω Sd as S S1) (h' : SysRun A F Ob Ω Sd bs S1 S2) :
    SysRun A F Ob Ω Sd (as ++ bs) S S2 := by
  induction h' with
  | refl => rw [List.append_nil]; exact h
  | tail _ hs ih => rw [← List.append_assoc]; exact .tail (ih h) hs

/-- What a program knows about a dictionary it holds, at two times. -/
theorem program_walks {vars : List String} (hv : "xcoord" ∉ vars ∧ "ycoord" ∉ vars) {as bs : List Act} {S S1 : Sys K}
    (h0 : SysRun A F (fun P => Built A F P ∧ P.particleVars = vars) Ω Sd as Sys.start S)
    (h : SysRun A F (fun P => Built A F P ∧ P.particleVars = vars) Ω Sd bs S S1) {d : RefWalk} (hd : d ∈ S.held) :
    AlignedWalk (S.heap.read d) ∧ AlignedWalk (S1.heap.read d) ∧ Continues (S.heap.read d) (S1.heap.read d) ∧ NoCoords (S1.heap.read d) := by
  have key : ∀ {as : List Act} {S : Sys K}, SysRun A F (fun P => Built A F P ∧ P.particleVars = vars) Ω Sd as Sys.start S → d ∈ S.held →
      ∃ rows : List (Row K), S.heap.read d = ofRows ((vars.filter fun v => !isBaseVar v).foldl addKey []) rows ∧
        ∀ r ∈ rows, r.full ((vars.filter fun v => !isBaseVar v).foldl addKey []) := by
    intro as S h hd
    obtain ⟨rows, he, hrows⟩ := h.vars (V := fun _ _ _ => True) (fun P hP => hP.1.good) (fun P hP => keys_of_vars hP.2) (fun _ _ _ _ _ _ _ => trivial)
      (.inl hd)
    exact ⟨rows, he, fun r hr => ⟨(hrows r hr).aligned, (hrows r hr).len⟩⟩
  have hn : ((vars.filter fun v => !isBaseVar v).foldl addKey []).Nodup := foldl_addKey_nodup _ _ List.nodup_nil
  obtain ⟨rows, he, hf⟩ := key h0 hd
  obtain ⟨rows', he', hf'⟩ := key (h0.append h) (h.held_le hd)
  refine ⟨by rw [he]; exact rows_aligned hn hf, by rw [he']; exact rows_aligned hn hf', C64_extends h0 h hd, ?_⟩
  rw [he']
  have hk : ∀ v, v ∉ vars → v ∉ keys (ofRows ((vars.filter fun v => !isBaseVar v).foldl addKey []) rows').opt := by
    intro v hv
    show v ∉ keys (dictOf _ _)
    rw [keys_dictOf, mem_foldl_addKey]
    simp [hv]
  exact ⟨hk _ hv.1, hk _ hv.2⟩

/-- In any program: right after `ind2coord` has been called on a dictionary `d` returned by `run_iteration`, `get_state` returns for every record, counted from
the start or from the end, the state it returns without coordinates, and with every location its coordinates. -/
theorem C81_fresh {vars : List String} (hv : "xcoord" ∉ vars ∧ "ycoord" ∉ vars) {as : List Act} {S : Sys K}
    (h0 : SysRun A F (fun P => Built A F P ∧ P.particleVars = vars) Ω Sd as Sys.start S) {d : RefWalk} (hd : d ∈ S.held)
    (origin : Fl K × Fl K) (size : Int × Int) (cs : Fl K) (k : Int) :
    ∃ cd g g0, ind2coord A (S.heap.read d) origin size cs = .ok cd ∧ getState (cd.dict (S.heap.read d)) k = .ok g ∧ CoordsOf A origin size.1 cs g ∧
      getState (S.heap.read d) k = .ok g0 ∧ g.xs = g0.xs ∧ g.ys = g0.ys ∧ g.ts = g0.ts ∧
      ∀ var ∈ keys (S.heap.read d).opt, entry g.opt var = entry g0.opt var := by
  obtain ⟨h1, h2, h3, h4⟩ := program_walks hv h0 (.refl S) hd
  exact C81_state_partial h1 h2 h3 h4 origin size cs fun i xs xs' hx hx' => .inl (Option.some.inj (hx.symm.trans hx'))

/-- In any program that goes on after the call of `ind2coord` (state `S`) and reads the dictionary later (state `S1`): the same for the records that every particle
had at the time of the call. Missing from C81: see `C81_counterexample`. -/
theorem C81_program_partial {vars : List String} (hv : "xcoord" ∉ vars ∧ "ycoord" ∉ vars) {as bs : List Act} {S S1 : Sys K}
    (h0 : SysRun A F (fun P => Built A F P ∧ P.particleVars = vars) Ω Sd as Sys.start S)
    (h : SysRun A F (fun P => Built A F P ∧ P.particleVars = vars) Ω Sd bs S S1) {d : RefWalk} (hd : d ∈ S.held)
    (origin : Fl K × Fl K) (size : Int × Int) (cs : Fl K) {k : Int}
    (hrec : ∀ (i : Nat) xs, (S.heap.read d).xinds[i]? = some xs → 0 ≤ k ∧ k < xs.length) :
    ∃ cd g g0, ind2coord A (S.heap.read d) origin size cs = .ok cd ∧ getState (cd.dict (S1.heap.read d)) k = .ok g ∧ CoordsOf A origin size.1 cs g ∧
      getState (S1.heap.read d) k = .ok g0 ∧ g.xs = g0.xs ∧ g.ys = g0.ys ∧ g.ts = g0.ts ∧
      ∀ var ∈ keys (S1.heap.read d).opt, entry g.opt var = entry g0.opt var := by
  obtain ⟨h1, h2, h3, h4⟩ := program_walks hv h0 h hd
  exact C81_state_partial h1 h2 h3 h4 origin size cs fun i xs xs' hx _ => .inr (hrec i xs hx)

/-- What `get_state(d, k)` shows after `ind2coord(d)` in one state and further routing to another: rows and `ycoord`. -/
def lateState (S S1 : Sys ℚ) (d : RefWalk) (k : Int) : Option (List Int × List (Val ℚ)) :=
  (ind2coord Arith.exact (S.heap.read d) (.fin 0, .fin 0) (5, 5) (.fin 1)).toOption.bind fun cd =>
    (getState (cd.dict (S1.heap.read d)) k).toOption.map fun g => (g.xs, entry g.opt "ycoord")

theorem lateState_some {S S1 : Sys ℚ} {d : RefWalk} {k : Int} {p : List Int × List (Val ℚ)} (h : lateState S S1 d k = some p) :
    ∃ cd g, ind2coord Arith.exact (S.heap.read d) (.fin 0, .fin 0) (5, 5) (.fin 1) = .ok cd ∧ getState (cd.dict (S1.heap.read d)) k = .ok g ∧
      g.xs = p.1 ∧ entry g.opt "ycoord" = p.2 := by
  unfold lateState at h
  cases hc : ind2coord Arith.exact (S.heap.read d) (.fin 0, .fin 0) (5, 5) (.fin 1) with
  | error e => rw [hc] at h; cases h
  | ok cd =>
    rw [hc] at h
    simp only [Except.toOption, Option.bind_some] at h
    cases hg : getState (cd.dict (S1.heap.read d)) k with
    | error e => rw [hg] at h; cases h
    | ok g =>
      rw [hg] at h
      simp only [Option.map_some, Option.some.injEq] at h
      subst h
      exact ⟨cd, g, rfl, hg, rfl, rfl⟩

/-- `run_iteration`, `ind2coord`, `run_iteration`: the last record of the dictionary shows the particle in row 3 and the coordinate of row 2; record 2 shows two
locations and one coordinate for one particle. -/
theorem C81_counterexample : ∃ (as bs : List Act) (S S1 : Sys ℚ) (d : RefWalk) (cd : CoordData ℚ) (g g2 : GotState ℚ),
    SysRun Arith.exact Fun.toy FullObj (NonzeroDraws Arith.exact) AnySeed as Sys.start S ∧ d ∈ S.held ∧
    SysRun Arith.exact Fun.toy FullObj (NonzeroDraws Arith.exact) AnySeed bs S S1 ∧ bs = [.run 0] ∧
    ind2coord Arith.exact (S.heap.read d) (.fin 0, .fin 0) (5, 5) (.fin 1) = .ok cd ∧
    getState (cd.dict (S1.heap.read d)) (-1) = .ok g ∧ g.xs = [3] ∧ entry g.opt "ycoord" = [.num (.fin 3)] ∧
    ¬CoordsOf Arith.exact (.fin 0, .fin 0) 5 (.fin 1) g ∧
    getState (cd.dict (S1.heap.read d)) 2 = .ok g2 ∧ g2.xs = [3, 3] ∧ entry g2.opt "ycoord" = [.num (.fin 3)] ∧
    ¬CoordsOf Arith.exact (.fin 0, .fin 0) 5 (.fin 1) g2 := by
  obtain ⟨as, a, bs, S, S1, S2, h0, h1, h2, hf⟩ := exec_split (Ob := FullObj) (Ω := NonzeroDraws Arith.exact) (Sd := AnySeed) (ω := fun _ => 1 / 2)
    half_draws (cs := shareA) (c := .run 0 none 10) (cs' := [.run 0 none 10]) (share_ok fullObj fun _ _ _ => trivial).1 trivial (by simp [Cmd.Ok])
    (f := fun _ bs _ S1 S2 => decide (bs = [.run 0] ∧ S1.held.length = 1 ∧
      S1.held.head?.bind (fun d => lateState S1 S2 d (-1)) = some ([3], [.num (.fin 3)]) ∧
      S1.held.head?.bind (fun d => lateState S1 S2 d 2) = some ([3, 3], [.num (.fin 3)]))) (b := true) (by decide +kernel)
  obtain ⟨rfl, -, h4, h5⟩ := of_decide_eq_true hf
  cases hd : S1.held.head? with
  | none => rw [hd] at h4; cases h4
  | some d =>
    rw [hd, Option.bind_some] at h4 h5
    obtain ⟨cd, g, hcd, hg, hx, hy⟩ := lateState_some h4
    obtain ⟨cd', g2, hcd', hg2, hx2, hy2⟩ := lateState_some h5
    rw [hcd] at hcd'
    cases hcd'
    refine ⟨_, _, S1, S2, d, cd, g, g2, .tail h0 h1, List.mem_of_mem_head? hd, h2, rfl, hcd, hg, hx, hy, fun hco => ?_, hg2, hx2, hy2, fun hco => ?_⟩
    · have := hco.ycoord 0 3 (by rw [hx]; rfl)
      rw [hy] at this
      revert this
      decide +kernel
    · have := hco.ynum
      rw [hy2, hx2] at this
      cases this

/-! ## Cases -/

/-- `sliceDemo` before the first particle made its last step. -/
def sliceEarly : WalkData ℚ :=
  { xinds := [[4, 5], [1]], yinds := [[7, 7], [2]], times := [[.fin 0, .fin 10], [.fin 3]]
    opt := [("depth", [[.num (.fin 1), .num (.fin 2)], [.num (.fin 9)]])] }

theorem sliceEarly_aligned : AlignedWalk sliceEarly := by
  have h : sliceEarly = ofRows ["depth"] [⟨[4, 5], [7, 7], [.fin 0, .fin 10], fun _ => [.num (.fin 1), .num (.fin 2)]⟩,
      ⟨[1], [2], [.fin 3], fun _ => [.num (.fin 9)]⟩] := rfl
  rw [h]
  exact rows_aligned (by decide) (by simp [Row.full, Row.aligned])

theorem sliceEarly_continues : Continues sliceEarly sliceDemo where
  xinds := .cons ⟨[6], rfl⟩ (.cons ⟨[], rfl⟩ .nil)
  yinds := .cons ⟨[8], rfl⟩ (.cons ⟨[], rfl⟩ .nil)
  times := .cons ⟨[.fin 25], rfl⟩ (.cons ⟨[], rfl⟩ .nil)
  opt := .cons ⟨rfl, .cons ⟨[.num (.fin 3)], rfl⟩ (.cons ⟨[], rfl⟩ .nil)⟩ .nil

theorem sliceDemo_plain : NoCoords sliceDemo := by
  constructor <;> decide

/-- The dictionary `sliceDemo` with the coordinates computed from `sliceEarly` (cell size 10, origin (100, 0), 20 rows). -/
def sliceLate : WalkData ℚ :=
  { sliceDemo with opt := sliceDemo.opt ++ [("xcoord", [[.num (.fin 170), .num (.fin 170)], [.num (.fin 120)]]),
      ("ycoord", [[.num (.fin 160), .num (.fin 150)], [.num (.fin 190)]])] }

example : (ind2coord Arith.exact sliceEarly (.fin 100, .fin 0) (20, 20) (.fin 10)).toOption.map (fun cd => cd.dict sliceDemo) = some sliceLate := by
  decide +kernel

/-- C81_state_partial: record 0 is right for both particles, and so is record 1, which the second particle does not have and will not get (it has not moved). -/
example : (∀ (i : Nat) xs xs', sliceEarly.xinds[i]? = some xs → sliceDemo.xinds[i]? = some xs' → xs = xs' ∨ (0 : Int) ≤ 1 ∧ (1 : Int) < xs.length) ∧
    (getState sliceLate 1).toOption = some ⟨[5, 1], [7, 2], [.fin 10, .fin 3], [("depth", [.num (.fin 2), .num (.fin 9)]),
      ("xcoord", [.num (.fin 170), .num (.fin 120)]), ("ycoord", [.num (.fin 150), .num (.fin 190)])]⟩ := by
  refine ⟨fun i xs xs' h h' => ?_, by decide +kernel⟩
  match i with
  | 0 => cases h; cases h'; right; decide
  | 1 => cases h; cases h'; left; rfl
  | n + 2 => simp [sliceEarly] at h

/-- C81_lengths: record 2 exists in the history of the first particle only; it is listed twice. -/
example : (getState sliceLate 2).toOption.map (fun g => (g.xs, g.ys, entry g.opt "ycoord")) =
      some ([6, 6, 1], [8, 8, 2], [.num (.fin 150), .num (.fin 190)]) ∧
    (sliceEarly.xinds.zip sliceDemo.xinds).countP (fun p => decide (HasRecord p.2.length 2 ∧ ¬HasRecord p.1.length 2)) = 1 := by
  decide +kernel

/-- C81_iff_partial: the last record shows the first particle elsewhere than at the time of the call, record 0 does not. -/
example : sliceEarly.shown 0 (-1) = some (5, 7) ∧ sliceDemo.shown 0 (-1) = some (6, 8) ∧ sliceEarly.shown 0 0 = some (4, 7) ∧
    sliceDemo.shown 0 0 = some (4, 7) ∧ sliceDemo.shown 1 5 = some (1, 2) := by
  decide +kernel

/-- C81_time_partial: at time 10 both particles have a coordinate, at time 25 the first has none. -/
example : (getTimeState Arith.exact sliceLate (.fin 10)).toOption.map (fun g => (g.xs, entry g.opt "ycoord")) =
      some ([5, 1], [.num (.fin 150), .num (.fin 190)]) ∧ (getTimeState Arith.exact sliceLate (.fin 25)).toOption = none ∧
    ∀ ts ∈ sliceDemo.times, ∀ t ∈ ts, (Arith.exact (K := ℚ)).sub t (.fin 25) ≠ .nan := by
  decide +kernel

/-- C81_again -/
example : (ind2coord Arith.exact sliceLate (.fin 100, .fin 0) (20, 20) (.fin 10)).toOption.bind (fun cd =>
    (getState (cd.dict sliceLate) (-1)).toOption.map fun g => (g.xs, entry g.opt "ycoord")) = some ([6, 1], [.num (.fin 140), .num (.fin 190)]) := by
  decide +kernel

/-- C81_plots_counterexample: one particle, no further variables. -/
example : plotState Arith.exact (⟨[[4, 5]], [[7, 7]], [[.fin 0, .fin 10]], []⟩ : WalkData ℚ) (-1) none = .ok ([5], [7]) ∧
    plotState Arith.exact ((CoordData.mk ⟨[[4, 5]], [[7, 7]], [[.fin 0, .fin 10]], []⟩ [[.fin 7, .fin 7]] [[.fin 1, .fin 0]]).dict
      (⟨[[4, 5]], [[7, 7]], [[.fin 0, .fin 10]], []⟩ : WalkData ℚ)) (-1) none = .error .valueError := ⟨rfl, rfl⟩

example : AlignedWalk (⟨[[4, 5]], [[7, 7]], [[.fin 0, .fin 10]], []⟩ : WalkData ℚ) :=
  rows_aligned (ks := []) (rows := [⟨[4, 5], [7, 7], [.fin 0, .fin 10], fun _ => []⟩]) (by decide) (by simp [Row.full, Row.aligned])

/-- C81_fresh, C81_program_partial: the variables of the object are not called like coordinates; in the program of `C81_counterexample`, records 0 and 1 exist at
the time of the call. -/
example : "xcoord" ∉ (objOf chanFull).particleVars ∧ "ycoord" ∉ (objOf chanFull).particleVars := by decide

example : ∃ (as bs : List Act) (S S1 : Sys ℚ) (d : RefWalk),
    SysRun Arith.exact Fun.toy FullObj (NonzeroDraws Arith.exact) AnySeed as Sys.start S ∧ d ∈ S.held ∧
    SysRun Arith.exact Fun.toy FullObj (NonzeroDraws Arith.exact) AnySeed bs S S1 ∧ (S.heap.read d).xinds = [[1, 2]] ∧
    lateState S S1 d 1 = some ([2], [.num (.fin 3)]) := by
  obtain ⟨as, a, bs, S, S1, S2, h0, h1, h2, hf⟩ := exec_split (Ob := FullObj) (Ω := NonzeroDraws Arith.exact) (Sd := AnySeed) (ω := fun _ => 1 / 2)
    half_draws (cs := shareA) (c := .run 0 none 10) (cs' := [.run 0 none 10]) (share_ok fullObj fun _ _ _ => trivial).1 trivial (by simp [Cmd.Ok])
    (f := fun _ bs _ S1 S2 => decide (S1.held.head?.bind (fun d => lateState S1 S2 d 1) = some ([2], [.num (.fin 3)]) ∧
      S1.held.head?.map (fun d => (S1.heap.read d).xinds) = some [[1, 2]])) (b := true) (by decide +kernel)
  obtain ⟨h4, h5⟩ := of_decide_eq_true hf
  cases hd : S1.held.head? with
  | none => rw [hd] at h4; cases h4
  | some d =>
    rw [hd] at h4 h5
    exact ⟨_, _, S1, S2, d, .tail h0 h1, List.mem_of_mem_head? hd, h2, Option.some.inj h5, h4⟩

end Dorado
