import Verif.Spec.Routines
import Verif.Lemmas.Parallel
import Verif.Lemmas.Nourish

/-! Helper lemmas: slices of walk data. -/

set_option linter.unusedSectionVars false

namespace Dorado

variable {K : Type} [Field K] [LinearOrder K] [IsStrictOrderedRing K] [FloorRing K] {A : Arith K} {F : Fun K A}

/-- Rows whose lists (of the given keys) have the same non-zero length. -/
def Row.full (keys : List String) (r : Row K) : Prop := r.aligned ∧ ∀ k ∈ keys, (r.os k).length = r.xs.length

theorem dict_eta {β : Type} {d : List (String × List β)} (h : (keys d).Nodup) : d = dictOf (keys d) (entry d) := by
  induction d with
  | nil => rfl
  | cons e d ih =>
    obtain ⟨k, l⟩ := e
    simp only [keys, List.map_cons, List.nodup_cons] at h
    conv_lhs => rw [ih h.2]
    unfold dictOf keys
    simp only [List.map_cons, entry, dictGet_cons, if_true, Option.getD_some, List.cons.injEq, true_and]
    apply List.map_congr_left
    intro a ha
    have : k ≠ a := fun he => h.1 (he ▸ ha)
    simp [this]

theorem aligned_rows {wd : WalkData K} (h : AlignedWalk wd) : ∃ rows, wd = ofRows (keys wd.opt) rows ∧ ∀ r ∈ rows, r.full (keys wd.opt) := by
  have hent : ∀ k, k ∈ keys wd.opt → (entry wd.opt k).length = wd.xinds.length := by
    intro k hk
    have : (k, entry wd.opt k) ∈ dictOf (keys wd.opt) (entry wd.opt) := List.mem_map.2 ⟨k, hk, rfl⟩
    rw [← dict_eta h.distinct] at this
    exact h.onum _ this
  refine ⟨(List.range wd.xinds.length).map fun i => ⟨wd.xinds.getD i [], wd.yinds.getD i [], wd.times.getD i [],
    fun k => (entry wd.opt k).getD i []⟩, ?_, ?_⟩
  · have key : ∀ {α : Type} (l : List (List α)), l.length = wd.xinds.length →
        (List.range wd.xinds.length).map (fun i => l.getD i []) = l := by
      intro α l hl
      apply List.ext_getElem?
      intro i
      rw [List.getElem?_map]
      by_cases hi : i < l.length
      · rw [List.getElem?_range (by omega), Option.map_some, List.getD_eq_getElem?_getD, List.getElem?_eq_getElem hi]
        rfl
      · rw [List.getElem?_eq_none (by simpa using by omega), List.getElem?_eq_none (by omega)]
        rfl
    obtain ⟨a, b, c, d⟩ := wd
    simp only [ofRows, List.map_map, Function.comp_def, WalkData.mk.injEq]
    refine ⟨(key _ rfl).symm, (key _ h.ynum).symm, (key _ h.tnum).symm, ?_⟩
    refine (dict_eta h.distinct).trans (dictOf_congr fun k hk => (key _ (hent k hk)).symm)
  · intro r hr
    obtain ⟨i, hi, rfl⟩ := List.mem_map.1 hr
    rw [List.mem_range] at hi
    have hy : i < wd.yinds.length := by rw [h.ynum]; exact hi
    have ht : i < wd.times.length := by rw [h.tnum]; exact hi
    obtain ⟨h1, h2, h3, h4⟩ := h.same i wd.xinds[i] wd.yinds[i] wd.times[i] (by simp [WalkData.lists, hi, hy, ht])
    have e1 : wd.xinds.getD i [] = wd.xinds[i] := by simp [List.getD_eq_getElem?_getD, hi]
    have e2 : wd.yinds.getD i [] = wd.yinds[i] := by simp [List.getD_eq_getElem?_getD, hy]
    have e3 : wd.times.getD i [] = wd.times[i] := by simp [List.getD_eq_getElem?_getD, ht]
    refine ⟨⟨?_, ?_, ?_⟩, fun k hk => ?_⟩
    · simp only [e1, e2]; exact h2
    · simp only [e1, e3]; exact h3
    · simp only [e1]; exact List.length_pos_iff.2 h1
    · have hk' : i < (entry wd.opt k).length := by rw [hent k hk]; exact hi
      have e4 : (entry wd.opt k).getD i [] = (entry wd.opt k)[i] := by simp [List.getD_eq_getElem?_getD, hk']
      simp only [e1, e4]
      refine h4 k _ ?_
      unfold WalkData.optList
      have : dictGet wd.opt k = some (entry wd.opt k) := by
        conv_lhs => rw [dict_eta h.distinct]
        rw [dictGet_dictOf, if_pos hk]
      rw [this]
      exact List.getElem?_eq_getElem hk'

theorem rows_aligned {ks : List String} (hn : ks.Nodup) {rows : List (Row K)} (h : ∀ r ∈ rows, r.full ks) : AlignedWalk (ofRows ks rows) where
  ynum := by simp [ofRows]
  tnum := by simp [ofRows]
  distinct := by show (keys (dictOf ks _)).Nodup; rw [keys_dictOf]; exact hn
  onum := by
    intro e he
    simp only [ofRows, dictOf, List.mem_map] at he
    obtain ⟨k, -, rfl⟩ := he
    simp [ofRows]
  same := by
    intro i xs ys ts hl
    obtain ⟨r, hr, he⟩ := lists_ofRows.1 hl
    cases he
    obtain ⟨⟨h1, h2, h3⟩, h4⟩ := h r (List.mem_of_getElem? hr)
    refine ⟨List.length_pos_iff.1 h3, h1, h2, fun var vs hv => ?_⟩
    obtain ⟨hk, r', hr', rfl⟩ := optList_ofRows.1 hv
    rw [hr] at hr'
    cases hr'
    exact h4 var hk

/-! ## One particle -/

theorem cellAt_row {α : Type} {rows : List (Row K)} {f : Row K → List α} {i : Nat} {r : Row K} (hr : rows[i]? = some r) (k : Int) :
    cellAt (rows.map f) i k = pyGet (f r) k := by
  unfold cellAt
  have : listGet (rows.map f) i = .ok (f r) := by simp [listGet, hr]
  rw [this]
  rfl

theorem pyGet_at {α : Type} {l : List α} {n : Nat} (hn : l.length = n) {k : Int} {j : Nat} (hj : pyIdx n k = .ok j) {a : α} (ha : l[j]? = some a) :
    pyGet l k = .ok a := by
  unfold pyGet
  rw [hn, hj]
  simp [ha]

/-- The values of record `j`. -/
def Row.vals (r : Row K) (j : Nat) (k : String) : Val K := (r.os k).getD j .none

theorem pushOpt_row {ks : List String} {rows : List (Row K)} {i : Nat} {r : Row K} (hr : rows[i]? = some r) (hf : r.full ks) {k : Int} {j : Nat}
    (hj : pyIdx r.xs.length k = .ok j) (hn : ks.Nodup) :
    ∀ (sub done : List String), done ++ sub = ks → ∀ (acc : GotState K) (f : String → List (Val K)),
      acc.opt = dictOf ks (fun a => if a ∈ done then f a ++ [r.vals j a] else f a) →
      pushOpt i k (dictOf sub fun a => rows.map fun r => r.os a) acc =
        ({ acc with opt := dictOf ks fun a => f a ++ [r.vals j a] }, none) := by
  intro sub
  induction sub with
  | nil =>
    intro done hd acc f ha
    rw [List.append_nil] at hd
    subst hd
    simp only [dictOf, List.map_nil, pushOpt, Prod.mk.injEq, and_true]
    obtain ⟨a, b, c, d⟩ := acc
    simp only [GotState.mk.injEq, true_and] at ha ⊢
    rw [ha]
    exact dictOf_congr fun k hk => by simp [hk]
  | cons b sub ih =>
    intro done hd acc f ha
    have hb : b ∈ ks := by rw [← hd]; simp
    have hnb : b ∉ done := by
      rw [← hd, List.nodup_append] at hn
      intro h
      exact hn.2.2 b h b (by simp) rfl
    have hjl : j < (r.os b).length := by rw [hf.2 b hb]; exact pyIdx_lt hj
    have hv : cellAt (rows.map fun r => r.os b) i k = .ok (r.vals j b) := by
      rw [cellAt_row hr, pyGet_at (hf.2 b hb) hj]
      simp [Row.vals, List.getD_eq_getElem?_getD, hjl]
    simp only [dictOf, List.map_cons, pushOpt, hv]
    have hd' : (done ++ [b]) ++ sub = ks := by simpa using hd
    have := ih (done ++ [b]) hd' { acc with opt := dictSet acc.opt b ((dictGet acc.opt b).getD [] ++ [r.vals j b]) } f (by
      simp only [ha, dictGet_dictOf, if_pos hb, Option.getD_some, dictSet_dictOf, addKey]
      apply dictOf_congr
      intro a ha'
      by_cases hab : a = b
      · subst hab; simp [hnb]
      · simp [hab])
    exact this

/-- State collected from the first `n` particles with record numbers `js`. -/
def sliceRows (ks : List String) (rows : List (Row K)) (js : List Nat) : GotState K :=
  { xs := List.zipWith (fun r j => r.xs.getD j 0) rows js
    ys := List.zipWith (fun r j => r.ys.getD j 0) rows js
    ts := List.zipWith (fun r j => r.ts.getD j .nan) rows js
    opt := dictOf ks fun k => List.zipWith (fun r j => r.vals j k) rows js }

theorem pushAll_row {ks : List String} (hn : ks.Nodup) {rows : List (Row K)} {i : Nat} {r : Row K} (hr : rows[i]? = some r) (hf : r.full ks)
    {k : Int} {j : Nat} (hj : pyIdx r.xs.length k = .ok j) {js : List Nat} (hjs : js.length = i) :
    pushAll (ofRows ks rows) i k (sliceRows ks (rows.take i) js) = (sliceRows ks (rows.take (i + 1)) (js ++ [j]), none) := by
  have hil : i < rows.length := (List.getElem?_eq_some_iff.1 hr).1
  have htake : rows.take (i + 1) = rows.take i ++ [r] := by
    rw [List.take_add_one, hr]; rfl
  have hzip : ∀ {β : Type} (g : Row K → Nat → β), List.zipWith g (rows.take (i + 1)) (js ++ [j]) = List.zipWith g (rows.take i) js ++ [g r j] := by
    intro β g
    rw [htake, List.zipWith_append (by rw [List.length_take]; omega)]
    rfl
  have hjl := pyIdx_lt hj
  obtain ⟨⟨h1, h2, h3⟩, h4⟩ := hf
  have hx : cellAt (ofRows ks rows).xinds i k = .ok (r.xs.getD j 0) := by
    show cellAt (rows.map (·.xs)) i k = _
    rw [cellAt_row hr, pyGet_at rfl hj]
    simp [List.getD_eq_getElem?_getD, hjl]
  have hy : cellAt (ofRows ks rows).yinds i k = .ok (r.ys.getD j 0) := by
    show cellAt (rows.map (·.ys)) i k = _
    rw [cellAt_row hr, pyGet_at h1 hj]
    simp [List.getD_eq_getElem?_getD, h1 ▸ hjl]
  have ht : cellAt (ofRows ks rows).times i k = .ok (r.ts.getD j .nan) := by
    show cellAt (rows.map (·.ts)) i k = _
    rw [cellAt_row hr, pyGet_at h2 hj]
    simp [List.getD_eq_getElem?_getD, h2 ▸ hjl]
  unfold pushAll
  simp only [hx, hy, ht]
  have := pushOpt_row hr ⟨⟨h1, h2, h3⟩, h4⟩ hj hn ks [] rfl
    { xs := (sliceRows ks (rows.take i) js).xs ++ [r.xs.getD j 0], ys := (sliceRows ks (rows.take i) js).ys ++ [r.ys.getD j 0],
      ts := (sliceRows ks (rows.take i) js).ts ++ [r.ts.getD j .nan], opt := (sliceRows ks (rows.take i) js).opt }
    (fun k => List.zipWith (fun r j => r.vals j k) (rows.take i) js) (by simp [sliceRows])
  refine this.trans ?_
  simp only [sliceRows, hzip]

theorem pushAll_fail {ks : List String} {rows : List (Row K)} {i : Nat} {r : Row K} (hr : rows[i]? = some r)
    {k : Int} {e : PyErr} (hj : pyIdx r.xs.length k = .error e) (acc : GotState K) :
    pushAll (ofRows ks rows) i k acc = (acc, some e) := by
  have hx : cellAt (ofRows ks rows).xinds i k = .error e := by
    show cellAt (rows.map (·.xs)) i k = _
    rw [cellAt_row hr]
    unfold pyGet
    rw [hj]
  unfold pushAll
  simp only [hx]

/-- Record chosen by `get_state`. -/
def chosen (n : Nat) (k : Int) : Nat := match pyIdx n k with
  | .ok j => j
  | .error _ => n - 1

theorem pyIdx_last {n : Nat} (h : 0 < n) : pyIdx n (-1) = .ok (n - 1) := by
  unfold pyIdx
  rw [if_neg (by omega), if_pos (by omega)]
  congr 1
  omega

theorem stateStep_row {ks : List String} (hn : ks.Nodup) {rows : List (Row K)} {i : Nat} {r : Row K} (hr : rows[i]? = some r) (hf : r.full ks)
    (k : Int) {js : List Nat} (hjs : js.length = i) :
    stateStep (ofRows ks rows) k (sliceRows ks (rows.take i) js) i =
      .ok (sliceRows ks (rows.take (i + 1)) (js ++ [chosen r.xs.length k])) := by
  unfold stateStep chosen
  cases hj : pyIdx r.xs.length k with
  | ok j => simp only [pushAll_row hn hr hf hj hjs]
  | error e => simp only [pushAll_fail hr hj, pushAll_row hn hr hf (pyIdx_last hf.1.2.2) hjs]

theorem fold_slices {ks : List String} {rows : List (Row K)} {f : GotState K → Nat → Except PyErr (GotState K)} {c : Row K → Nat}
    (hf : ∀ (i : Nat) r js, rows[i]? = some r → js.length = i → f (sliceRows ks (rows.take i) js) i = .ok (sliceRows ks (rows.take (i + 1)) (js ++ [c r]))) :
    ∀ n, n ≤ rows.length → foldE f (sliceRows ks (rows.take 0) []) (List.range n) = .ok (sliceRows ks (rows.take n) ((rows.take n).map c)) := by
  intro n
  induction n with
  | zero => intro _; rfl
  | succ n ih =>
    intro hn
    have hr := List.getElem?_eq_getElem (show n < rows.length by omega)
    rw [List.range_succ, foldE_append, ih (by omega), ok_bind]
    simp only [foldE]
    rw [hf n _ _ hr (by simp; omega), ok_bind]
    congr 2
    rw [List.take_add_one, hr, List.map_append]
    rfl

theorem emptyState_rows (ks : List String) (rows : List (Row K)) : emptyState (ofRows ks rows) = sliceRows ks (rows.take 0) [] := by
  simp [emptyState, sliceRows, ofRows, dictOf]

theorem getState_rows {ks : List String} (hn : ks.Nodup) {rows : List (Row K)} (h : ∀ r ∈ rows, r.full ks) (k : Int) :
    getState (ofRows ks rows) k = .ok (sliceRows ks rows (rows.map fun r => chosen r.xs.length k)) := by
  unfold getState
  rw [emptyState_rows, show (ofRows ks rows).xinds.length = rows.length by simp [ofRows]]
  rw [fold_slices (c := fun r => chosen r.xs.length k) (fun i r js hr hjs => stateStep_row hn hr (h r (List.mem_of_getElem? hr)) k hjs) _ le_rfl]
  simp

/-! ## The nearest time -/

theorem Fl.le_refl' {x : Fl K} (h : x ≠ .nan) : Fl.le x x = true := by
  cases x <;> simp_all [Fl.le]

theorem Fl.lt_of_not_le {x y : Fl K} (hx : x ≠ .nan) (hy : y ≠ .nan) (h : ¬ Fl.le x y = true) : Fl.lt y x = true := by
  cases x <;> cases y <;> simp_all [Fl.le, Fl.lt]

theorem Fl.le_of_lt {x y : Fl K} (h : Fl.lt x y = true) : Fl.le x y = true := by
  cases x <;> cases y <;> simp [Fl.le, Fl.lt] at *
  exact _root_.le_of_lt h

theorem Fl.lt_of_lt_of_le {x y z : Fl K} (h : Fl.lt x y = true) (h' : Fl.le y z = true) : Fl.lt x z = true := by
  cases x <;> cases y <;> cases z <;> simp [Fl.le, Fl.lt] at *
  exact _root_.lt_of_lt_of_le h h'

theorem argminGo_spec (l : List (Fl K)) (hl : ∀ x ∈ l, x ≠ .nan) : ∀ (suf pre : List (Fl K)) (mp : Fl K) (best : Nat), pre ++ suf = l → l[best]? = some mp →
    best < pre.length → (∀ (m : Nat) x, pre[m]? = some x → Fl.le mp x = true ∧ (m < best → Fl.lt mp x = true)) →
    ∃ y, l[argminGo mp best pre.length suf]? = some y ∧ ∀ (m : Nat) x, l[m]? = some x → Fl.le y x = true ∧ (m < argminGo mp best pre.length suf → Fl.lt y x = true) := by
  intro suf
  induction suf with
  | nil =>
    intro pre mp best hp hb hbl h
    rw [List.append_nil] at hp
    subst hp
    exact ⟨mp, hb, h⟩
  | cons a suf ih =>
    intro pre mp best hp hb hbl h
    have hmp : mp ≠ .nan := hl mp (List.mem_of_getElem? hb)
    have ha : a ≠ .nan := hl a (by rw [← hp]; simp)
    have hnan : mp.isNan = false := by cases mp <;> simp_all [Fl.isNan]
    have hp' : (pre ++ [a]) ++ suf = l := by simpa using hp
    have hal : l[pre.length]? = some a := by rw [← hp]; simp
    simp only [argminGo, hnan, Bool.false_eq_true, if_false]
    have hlen : (pre ++ [a]).length = pre.length + 1 := by simp
    by_cases hle : Fl.le mp a = true
    · rw [if_pos hle, ← hlen]
      refine ih (pre ++ [a]) mp best hp' hb (by rw [hlen]; omega) fun m x hm => ?_
      by_cases hm' : m < pre.length
      · rw [List.getElem?_append_left hm'] at hm
        exact h m x hm
      · rw [List.getElem?_append_right (by omega)] at hm
        have : m - pre.length = 0 := by
          by_contra hne
          rw [List.getElem?_eq_none (by simp; omega)] at hm
          cases hm
        rw [this] at hm
        simp at hm
        subst hm
        exact ⟨hle, fun hh => absurd hbl (by omega)⟩
    · rw [if_neg hle, ← hlen]
      have hlt : Fl.lt a mp = true := Fl.lt_of_not_le hmp ha hle
      refine ih (pre ++ [a]) a pre.length hp' hal (by rw [hlen]; omega) fun m x hm => ?_
      by_cases hm' : m < pre.length
      · rw [List.getElem?_append_left hm'] at hm
        have : Fl.lt a x = true := Fl.lt_of_lt_of_le hlt (h m x hm).1
        exact ⟨Fl.le_of_lt this, fun _ => this⟩
      · rw [List.getElem?_append_right (by omega)] at hm
        have h0 : m - pre.length = 0 := by
          by_contra hne
          rw [List.getElem?_eq_none (by simp; omega)] at hm
          cases hm
        rw [h0] at hm
        simp at hm
        subst hm
        exact ⟨Fl.le_refl' ha, fun hh => by omega⟩

theorem argmin_spec {l : List (Fl K)} (hl : ∀ x ∈ l, x ≠ .nan) (hne : l ≠ []) :
    ∃ j y, argmin l = .ok j ∧ l[j]? = some y ∧ ∀ (m : Nat) x, l[m]? = some x → Fl.le y x = true ∧ (m < j → Fl.lt y x = true) := by
  cases l with
  | nil => exact absurd rfl hne
  | cons a l =>
    have ha : a ≠ .nan := hl a (by simp)
    obtain ⟨y, h1, h2⟩ := argminGo_spec (a :: l) hl l [a] a 0 (by simp) (by simp) (by simp) (by
      intro m x hm
      cases m with
      | zero =>
        simp at hm
        subst hm
        exact ⟨Fl.le_refl' ha, by omega⟩
      | succ m => simp at hm)
    exact ⟨_, y, rfl, h1, h2⟩

theorem timeStateStep_row {ks : List String} (hn : ks.Nodup) {rows : List (Row K)} {i : Nat} {r : Row K} (hr : rows[i]? = some r) (hf : r.full ks)
    {T : Fl K} {j : Nat} (hj : argmin (r.ts.map fun t => Fl.abs (A.sub t T)) = .ok j) (hjl : j < r.ts.length) {js : List Nat} (hjs : js.length = i) :
    timeStateStep A (ofRows ks rows) T (sliceRows ks (rows.take i) js) i = .ok (sliceRows ks (rows.take (i + 1)) (js ++ [j])) := by
  unfold timeStateStep
  have : listGet (ofRows ks rows).times i = .ok r.ts := by simp [listGet, ofRows, hr]
  rw [this, ok_bind, hj, ok_bind]
  have hp : pyIdx r.xs.length (j : Int) = .ok j := by
    unfold pyIdx
    rw [if_pos ⟨by omega, by rw [← hf.1.2.1]; exact_mod_cast hjl⟩]
    simp
  rw [pushAll_row hn hr hf hp hjs]

/-- Slices of aligned rows. -/
theorem slice_spec {ks : List String} {rows : List (Row K)} (h : ∀ r ∈ rows, r.full ks) {c : Row K → Nat} {sel : List (Fl K) → Nat → Prop}
    (hc : ∀ r ∈ rows, c r < r.xs.length ∧ sel r.ts (c r)) : SliceOf (ofRows ks rows) (sliceRows ks rows (rows.map c)) sel where
  xnum := by simp [sliceRows, ofRows]
  ynum := by simp [sliceRows, ofRows]
  tnum := by simp [sliceRows, ofRows]
  fields := by simp [sliceRows, ofRows, keys_dictOf]
  onum := by
    intro e he
    simp only [sliceRows, dictOf, List.mem_map] at he
    obtain ⟨k, -, rfl⟩ := he
    simp [ofRows]
  pick := by
    intro i xs ys ts hl
    obtain ⟨r, hr, he⟩ := lists_ofRows.1 hl
    cases he
    have hm := List.mem_of_getElem? hr
    obtain ⟨⟨h1, h2, h3⟩, h4⟩ := h r hm
    obtain ⟨hlt, hsel⟩ := hc r hm
    have hz : ∀ {β : Type} (g : Row K → Nat → β), (List.zipWith g rows (rows.map c))[i]? = some (g r (c r)) := by
      intro β g
      rw [List.getElem?_zipWith, List.getElem?_map, hr]
      rfl
    refine ⟨c r, hsel, by rw [h2]; exact hlt, ?_, ?_, ?_, fun var vs hv => ?_⟩
    · simp only [sliceRows, hz, List.getD_eq_getElem?_getD, List.getElem?_eq_getElem hlt, Option.getD_some]
    · simp only [sliceRows, hz, List.getD_eq_getElem?_getD, List.getElem?_eq_getElem (h1.symm ▸ hlt), Option.getD_some]
    · simp only [sliceRows, hz, List.getD_eq_getElem?_getD, List.getElem?_eq_getElem (h2.symm ▸ hlt), Option.getD_some]
    · obtain ⟨hk, r', hr', rfl⟩ := optList_ofRows.1 hv
      rw [hr] at hr'
      cases hr'
      have h5 := h4 var hk
      simp only [sliceRows, entry_dictOf hk, hz, Row.vals, List.getD_eq_getElem?_getD, List.getElem?_eq_getElem (h5.symm ▸ hlt), Option.getD_some]

theorem getTimeState_rows {ks : List String} (hn : ks.Nodup) {rows : List (Row K)} (h : ∀ r ∈ rows, r.full ks) {T : Fl K}
    (hT : ∀ r ∈ rows, ∀ t ∈ r.ts, A.sub t T ≠ .nan) :
    ∃ c : Row K → Nat, (∀ r ∈ rows, c r < r.xs.length ∧ FirstNearest (fun t => Fl.abs (A.sub t T)) r.ts (c r)) ∧
      getTimeState A (ofRows ks rows) T = .ok (sliceRows ks rows (rows.map c)) := by
  have key : ∀ r ∈ rows, ∃ j, argmin (r.ts.map fun t => Fl.abs (A.sub t T)) = .ok j ∧ j < r.xs.length ∧
      FirstNearest (fun t => Fl.abs (A.sub t T)) r.ts j := by
    intro r hr
    obtain ⟨⟨h1, h2, h3⟩, h4⟩ := h r hr
    obtain ⟨j, y, hj, hy, hm⟩ := argmin_spec (l := r.ts.map fun t => Fl.abs (A.sub t T)) (by
      intro x hx
      obtain ⟨t, ht, rfl⟩ := List.mem_map.1 hx
      have := hT r hr t ht
      revert this
      cases A.sub t T <;> simp [Fl.abs]) (by
      intro h0
      rw [List.map_eq_nil_iff] at h0
      rw [h0] at h2
      simp at h2
      omega)
    rw [List.getElem?_map, Option.map_eq_some_iff] at hy
    obtain ⟨tj, htj, rfl⟩ := hy
    refine ⟨j, hj, by rw [← h2]; exact (List.getElem?_eq_some_iff.1 htj).1, tj, htj, fun m t ht => ?_⟩
    exact hm m _ (by rw [List.getElem?_map, ht]; rfl)
  refine ⟨fun r => match argmin (r.ts.map fun t => Fl.abs (A.sub t T)) with
    | .ok j => j
    | .error _ => 0, fun r hr => ?_, ?_⟩
  · obtain ⟨j, hj, h1, h2⟩ := key r hr
    simp only [hj]
    exact ⟨h1, h2⟩
  · unfold getTimeState
    rw [emptyState_rows, show (ofRows ks rows).xinds.length = rows.length by simp [ofRows]]
    rw [fold_slices (c := fun r => match argmin (r.ts.map fun t => Fl.abs (A.sub t T)) with
      | .ok j => j
      | .error _ => 0) (fun i r js hr hjs => ?_) _ le_rfl]
    · simp
    · obtain ⟨j, hj, h1, h2⟩ := key r (List.mem_of_getElem? hr)
      rw [timeStateStep_row hn hr (h r (List.mem_of_getElem? hr)) hj (by rw [(h r (List.mem_of_getElem? hr)).1.2.1]; exact h1) hjs]
      simp only [hj]

theorem chosen_lt {n : Nat} (h : 0 < n) (k : Int) : chosen n k < n := by
  unfold chosen
  split
  · exact pyIdx_lt (by assumption)
  · omega

theorem chosen_spec {n : Nat} (h : 0 < n) (k : Int) : RecordNo n k (chosen n k) := by
  unfold RecordNo chosen pyIdx
  by_cases h1 : 0 ≤ k ∧ k < n
  · simp only [h1, and_self, if_true]
    omega
  · rw [if_neg h1, if_neg h1]
    by_cases h2 : -(n : Int) ≤ k ∧ k < 0
    · rw [if_pos ⟨h2.2, h2.1⟩, if_pos h2]
      simp only
      omega
    · rw [if_neg (by tauto), if_neg h2]
      simp only
      omega

end Dorado
