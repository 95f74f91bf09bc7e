import Verif.Spec.Estimate
import Verif.Lemmas.EmpiricalCdf
import Verif.Lemmas.CropReach
import Verif.Lemmas.Exposure
import Verif.Lemmas.Routines
import Verif.Props.Ensemble
import Verif.Props.Pipeline

/-! Helper lemmas for C113: what `exposure_time` and `get_time_state` return, read off the histories of the particles. -/

set_option linter.unusedSectionVars false

namespace Dorado

open MeasureTheory

/-! ## Readings of a history -/

/-- Region value at entry `n`. -/
def History.reg (g : Grid Int) (h : History ℝ) (n : Nat) : Int :=
  match (h n).1, (h n).2.1 with
  | some x, some y => g.at' x.toNat y.toNat
  | _, _ => 0

/-- Time of entry `n`. -/
def History.tau (h : History ℝ) (n : Nat) : ℝ :=
  match (h n).2.2 with
  | some (.fin x) => x
  | _ => 0

/-- Number of entries. -/
noncomputable def History.len (h : History ℝ) : Nat := sInf {n | (h n).2.2 = none}

/-- Exposure time. -/
noncomputable def History.expo (A : Arith ℝ) (g : Grid Int) (h : History ℝ) : ℝ := expoRec A (h.reg g) h.tau (h.len - 1)

/-- Finite times and positions on a raster. -/
def History.Good (R C : Nat) (h : History ℝ) : Prop := ∀ n, (∀ t, (h n).2.2 = some t → ∃ x, t = .fin x) ∧
  ∀ x y, (h n).1 = some x → (h n).2.1 = some y → 0 ≤ x ∧ x < R ∧ 0 ≤ y ∧ y < C

/-- Entry `j` is the first of those nearest to the time `T`. -/
def History.Nearest (A : Arith ℝ) (T : Fl ℝ) (h : History ℝ) (j : Nat) : Prop :=
  ∃ tj, (h j).2.2 = some tj ∧ ∀ (m : Nat) t, (h m).2.2 = some t →
    Fl.le (Fl.abs (A.sub tj T)) (Fl.abs (A.sub t T)) = true ∧ (m < j → Fl.lt (Fl.abs (A.sub tj T)) (Fl.abs (A.sub t T)) = true)

/-- The cell at the time `T` belongs to `S`. -/
def History.AtTime (A : Arith ℝ) (T : Fl ℝ) (S : Set (Int × Int)) (h : History ℝ) : Prop :=
  ∃ j x y, h.Nearest A T j ∧ (h j).1 = some x ∧ (h j).2.1 = some y ∧ (x, y) ∈ S

theorem measurable_entry (n : Nat) : Measurable fun h : History ℝ => (h n).2.2 := (measurable_snd.comp measurable_snd).comp (measurable_pi_apply n)

theorem measurable_cell (n : Nat) : Measurable fun h : History ℝ => ((h n).1, (h n).2.1) :=
  ((measurable_fst).comp (measurable_pi_apply n)).prodMk ((measurable_fst.comp measurable_snd).comp (measurable_pi_apply n))

theorem measurableSet_none {α : Type} [MeasurableSpace α] : MeasurableSet {o : Option α | o = none} := by
  have : MeasurableSet (some ⁻¹' {o : Option α | o = none}) := by
    have e : some ⁻¹' {o : Option α | o = none} = ∅ := by ext; simp
    rw [e]
    exact MeasurableSet.empty
  exact this

theorem History.reg_measurable (g : Grid Int) (n : Nat) : Measurable fun h : History ℝ => h.reg g n := by
  have : Measurable fun c : Option Int × Option Int => (match c.1, c.2 with
    | some x, some y => g.at' x.toNat y.toNat
    | _, _ => 0 : Int) := Measurable.of_discrete
  exact this.comp (measurable_cell n)

theorem History.tau_measurable (n : Nat) : Measurable fun h : History ℝ => h.tau n := by
  have : Measurable fun o : Option (Fl ℝ) => (match o with
    | some (.fin x) => x
    | _ => 0 : ℝ) := measurable_opt (measurable_fl measurable_id)
  exact this.comp (measurable_entry n)

theorem History.len_measurable : Measurable History.len := by
  refine measurable_to_countable' fun k => ?_
  have hS : ∀ n, MeasurableSet {h : History ℝ | (h n).2.2 = none} := fun n => measurable_entry n measurableSet_none
  have e : History.len ⁻¹' {k} = ({h : History ℝ | (h k).2.2 = none} ∩ ⋂ j : Fin k, {h : History ℝ | (h j).2.2 = none}ᶜ) ∪
      (if k = 0 then ⋂ j, {h : History ℝ | (h j).2.2 = none}ᶜ else ∅) := by
    ext h
    simp only [Set.mem_preimage, Set.mem_singleton_iff, Set.mem_union, Set.mem_inter_iff, Set.mem_ofPred_eq, Set.mem_iInter, Set.mem_compl_iff]
    unfold History.len
    constructor
    · intro hk
      by_cases hne : {n | (h n).2.2 = none}.Nonempty
      · refine .inl ⟨hk ▸ Nat.sInf_mem hne, fun j hj => ?_⟩
        exact Nat.notMem_of_lt_sInf (by rw [hk]; exact j.2) hj
      · rw [Set.not_nonempty_iff_eq_empty] at hne
        rw [hne, Nat.sInf_empty] at hk
        refine .inr ?_
        rw [if_pos hk.symm]
        simp only [Set.mem_iInter, Set.mem_compl_iff, Set.mem_ofPred_eq]
        intro j hj
        have : j ∈ {n | (h n).2.2 = none} := hj
        rw [hne] at this
        exact this
    · rintro (⟨h1, h2⟩ | h1)
      · refine le_antisymm (Nat.sInf_le h1) ?_
        by_contra hc
        have hc := not_le.1 hc
        exact h2 ⟨_, hc⟩ (Nat.sInf_mem (s := {n | (h n).2.2 = none}) ⟨k, h1⟩)
      · split at h1
        · rename_i hk
          simp only [Set.mem_iInter, Set.mem_compl_iff, Set.mem_ofPred_eq] at h1
          have : {n | (h n).2.2 = none} = ∅ := by
            ext n
            simpa using h1 n
          rw [this, Nat.sInf_empty, hk]
        · cases h1
  rw [e]
  refine ((hS k).inter (MeasurableSet.iInter fun j : Fin k => (hS j).compl)).union ?_
  split
  · exact MeasurableSet.iInter fun j => (hS j).compl
  · exact MeasurableSet.empty

theorem expoRec_measurable {A : Arith ℝ} (g : Grid Int) (k : Nat) : Measurable fun h : History ℝ => expoRec A (h.reg g) h.tau k := by
  induction k with
  | zero => exact measurable_const
  | succ k ih =>
    unfold expoRec
    have hr := measurable_rnd (A := A)
    have hd : Measurable fun h : History ℝ => A.rnd (h.tau (k + 1) - h.tau k) :=
      hr.comp ((History.tau_measurable (k + 1)).sub (History.tau_measurable k))
    have hs : ∀ v : Int, MeasurableSet {h : History ℝ | h.reg g (k + 1) + h.reg g k = v} := fun v =>
      ((History.reg_measurable g (k + 1)).add (History.reg_measurable g k)) (measurableSet_singleton v)
    exact Measurable.ite (hs 2) (hr.comp (ih.add hd)) (Measurable.ite (hs 1) (hr.comp (ih.add (hr.comp (hd.const_mul _)))) ih)

theorem History.expo_measurable {A : Arith ℝ} (g : Grid Int) : Measurable (History.expo A g) := by
  have : Measurable fun q : ℕ × History ℝ => expoRec A (q.2.reg g) q.2.tau (q.1 - 1) :=
    measurable_from_prod_countable_right fun n => expoRec_measurable g (n - 1)
  exact this.comp (History.len_measurable.prodMk measurable_id)

theorem History.good_measurable (R C : Nat) : MeasurableSet {h : History ℝ | h.Good R C} := by
  have e : {h : History ℝ | h.Good R C} = ⋂ n, ({h : History ℝ | ∀ t, (h n).2.2 = some t → ∃ x, t = .fin x} ∩
      {h : History ℝ | ∀ x y, (h n).1 = some x → (h n).2.1 = some y → 0 ≤ x ∧ x < R ∧ 0 ≤ y ∧ y < C}) := by
    ext h
    simp [History.Good]
  rw [e]
  refine MeasurableSet.iInter fun n => MeasurableSet.inter ?_ ?_
  · have : MeasurableSet {o : Option (Fl ℝ) | ∀ t, o = some t → ∃ x, t = .fin x} := by
      have : MeasurableSet (Fl.fin ⁻¹' (some ⁻¹' {o : Option (Fl ℝ) | ∀ t, o = some t → ∃ x, t = .fin x})) := by
        have e : Fl.fin ⁻¹' (some ⁻¹' {o : Option (Fl ℝ) | ∀ t, o = some t → ∃ x, t = .fin x}) = Set.univ := by
          ext x
          simp
        rw [e]
        exact MeasurableSet.univ
      exact this
    exact measurable_entry n this
  · have : MeasurableSet {c : Option Int × Option Int | ∀ x y, c.1 = some x → c.2 = some y → 0 ≤ x ∧ x < R ∧ 0 ≤ y ∧ y < C} := MeasurableSet.of_discrete
    exact measurable_cell n this

theorem History.nearest_measurable {A : Arith ℝ} (T : Fl ℝ) (j : Nat) : MeasurableSet {h : History ℝ | h.Nearest A T j} := by
  have hv : ∀ n, Measurable fun h : History ℝ => ((h n).2.2).getD .nan := fun n => by
    have : Measurable fun o : Option (Fl ℝ) => o.getD .nan := measurable_opt measurable_id
    exact this.comp (measurable_entry n)
  have hd : ∀ n, Measurable fun h : History ℝ => Fl.abs (A.sub (((h n).2.2).getD .nan) T) := fun n =>
    Measurable.flAbs (Measurable.flSub (hv n) measurable_const)
  have hS : ∀ n, MeasurableSet {h : History ℝ | (h n).2.2 = none} := fun n => measurable_entry n measurableSet_none
  have e : {h : History ℝ | h.Nearest A T j} = {h : History ℝ | (h j).2.2 = none}ᶜ ∩ ⋂ m, ({h : History ℝ | (h m).2.2 = none} ∪
      ({h : History ℝ | Fl.le (Fl.abs (A.sub (((h j).2.2).getD .nan) T)) (Fl.abs (A.sub (((h m).2.2).getD .nan) T)) = true} ∩
        (if m < j then {h : History ℝ | Fl.lt (Fl.abs (A.sub (((h j).2.2).getD .nan) T)) (Fl.abs (A.sub (((h m).2.2).getD .nan) T)) = true}
          else Set.univ))) := by
    ext h
    simp only [Set.mem_ofPred_eq, Set.mem_inter_iff, Set.mem_compl_iff, Set.mem_iInter, Set.mem_union, History.Nearest]
    constructor
    · rintro ⟨tj, hj, hall⟩
      refine ⟨by simp [hj], fun m => ?_⟩
      cases hm : (h m).2.2 with
      | none => exact .inl rfl
      | some t =>
        obtain ⟨a, b⟩ := hall m t hm
        refine .inr ⟨by simpa [hj] using a, ?_⟩
        split
        · rename_i hlt
          simpa [hj, hm] using b hlt
        · trivial
    · rintro ⟨hj, hall⟩
      obtain ⟨tj, htj⟩ := Option.ne_none_iff_exists'.1 hj
      refine ⟨tj, htj, fun m t hm => ?_⟩
      rcases hall m with h0 | ⟨h1, h2⟩
      · rw [h0] at hm; cases hm
      · refine ⟨by simpa [htj, hm] using h1, fun hlt => ?_⟩
        rw [if_pos hlt] at h2
        simpa [htj, hm] using h2
  rw [e]
  refine (hS j).compl.inter (MeasurableSet.iInter fun m => (hS m).union ((measurableSet_flLe (hd j) (hd m)).inter ?_))
  split
  · exact measurableSet_flLt (hd j) (hd m)
  · exact MeasurableSet.univ

theorem History.atTime_measurable {A : Arith ℝ} (T : Fl ℝ) (S : Set (Int × Int)) : MeasurableSet {h : History ℝ | h.AtTime A T S} := by
  have e : {h : History ℝ | h.AtTime A T S} = ⋃ j, ({h : History ℝ | h.Nearest A T j} ∩
      {h : History ℝ | ((h j).1, (h j).2.1) ∈ {c : Option Int × Option Int | ∃ x y, c.1 = some x ∧ c.2 = some y ∧ (x, y) ∈ S}}) := by
    ext h
    simp only [Set.mem_ofPred_eq, Set.mem_iUnion, Set.mem_inter_iff, History.AtTime]
    constructor
    · rintro ⟨j, x, y, a, b⟩
      exact ⟨j, a, x, y, b⟩
    · rintro ⟨j, a, x, y, b⟩
      exact ⟨j, x, y, a, b⟩
  rw [e]
  exact MeasurableSet.iUnion fun j => (History.nearest_measurable T j).inter (measurable_cell j MeasurableSet.of_discrete)

/-! ## What the functions return -/

variable {A : Arith ℝ} {F : Fun ℝ A} {P : PObj ℝ} {s : PState ℝ} {rows : List (Row ℝ)}

theorem history_len {r : Row ℝ} : History.len (fun n => (r.xs[n]?, r.ys[n]?, r.ts[n]?)) = r.ts.length := by
  unfold History.len
  simp only [List.getElem?_eq_none_iff]
  exact csInf_Ici (a := r.ts.length)

/-- The form of walk data read from good histories. -/
theorem good_proper {ks : List String} (ha : ∀ r ∈ rows, r.aligned) {R C : Nat}
    (hg : ∀ i, i < rows.length → ((ofRows ks rows).history i).Good R C) : Proper (ofRows ks rows) ∧ OnRaster R C (ofRows ks rows) := by
  refine ⟨⟨by simp [ofRows], by simp [ofRows], fun i xs ys ts hx hy ht => ?_, fun i n t ht => ?_⟩, fun i n p hp => ?_⟩
  · simp only [ofRows, List.getElem?_map, Option.map_eq_some_iff] at hx hy ht
    obtain ⟨r, hr, rfl⟩ := hx
    obtain ⟨r1, hr1, rfl⟩ := hy
    obtain ⟨r2, hr2, rfl⟩ := ht
    rw [hr] at hr1 hr2
    cases hr1
    cases hr2
    obtain ⟨a, b, c⟩ := ha r (List.mem_of_getElem? hr)
    exact ⟨b.symm, by omega, by omega⟩
  · have hi : i < rows.length := by
      by_contra hc
      simp [WalkData.timeAt, ofRows, List.getElem?_eq_none (not_lt.1 hc)] at ht
    refine (hg i hi n).1 t ?_
    rw [history_ofRows (List.getElem?_eq_getElem hi)]
    simpa [WalkData.timeAt, ofRows, List.getElem?_eq_getElem hi] using ht
  · have hi : i < rows.length := by
      by_contra hc
      simp [WalkData.posAt, ofRows, List.getElem?_eq_none (not_lt.1 hc)] at hp
    refine (hg i hi n).2 p.1 p.2 ?_ ?_
    all_goals
      rw [history_ofRows (List.getElem?_eq_getElem hi)]
      simp only [WalkData.posAt, ofRows, List.getElem?_map, List.getElem?_eq_getElem hi, Option.map_some, Option.bind_eq_bind, Option.bind_some,
        Option.bind_eq_some_iff, Option.pure_def, Option.some.injEq] at hp
      obtain ⟨x, hx, y, hy, rfl⟩ := hp
    · exact hx
    · exact hy

/-- The exposure times, from the histories. -/
theorem exposures_eq (hs : Sound A F P s rows) (g : Grid Int) (hg : ∀ i, i < rows.length → (historyIn i (.ok s)).Good g.rows g.cols) :
    exposuresIn A g (.ok s) = (List.range rows.length).map fun i => .fin ((historyIn i (.ok s)).expo A g) := by
  have hh : ∀ i, historyIn i (.ok s) = (ofRows (keysOf P) rows).history i := fun i => by
    unfold historyIn
    simp only [hs.has.1]
  obtain ⟨hp, hr⟩ := good_proper (fun r hr => (hs.ok r hr).vars.aligned) fun i hi => hh i ▸ hg i hi
  obtain ⟨res, h1, h2, h3, -⟩ := exposureTime_eq (A := A) hp hr
  unfold exposuresIn
  simp only [hs.has.1, h1]
  have hc : (ofRows (keysOf P) rows).count = rows.length := by simp [WalkData.count, ofRows]
  refine List.ext_getElem? fun i => ?_
  rcases Nat.lt_or_ge i rows.length with hi | hi
  · rw [h3 i (by omega), List.getElem?_map, List.getElem?_range hi]
    simp only [Option.map_some, Option.some.injEq, Fl.fin.injEq]
    have hri := List.getElem?_eq_getElem hi
    have e1 : (ofRows (keysOf P) rows).regVal g i = (historyIn i (.ok s)).reg g := by
      funext n
      rw [hh, history_ofRows hri]
      simp only [WalkData.regVal, WalkData.posAt, ofRows, List.getElem?_map, hri, Option.map_some, Option.bind_eq_bind, Option.bind_some, History.reg]
      cases rows[i].xs[n]? <;> cases rows[i].ys[n]? <;> rfl
    have e2 : (ofRows (keysOf P) rows).tau i = (historyIn i (.ok s)).tau := by
      funext n
      rw [hh, history_ofRows hri]
      simp only [WalkData.tau, WalkData.timeAt, ofRows, List.getElem?_map, hri, Option.map_some, Option.bind_eq_bind, Option.bind_some, History.tau]
      rcases rows[i].ts[n]? with _ | (_ | _ | _ | _) <;> rfl
    have e3 : (ofRows (keysOf P) rows).records i = (historyIn i (.ok s)).len := by
      rw [hh, history_ofRows hri, history_len]
      simp [WalkData.records, ofRows, hri]
    rw [e1, e2, e3]
    rfl
  · rw [List.getElem?_eq_none (by omega), List.getElem?_eq_none (by simpa using hi)]

theorem le_not_lt {a b : Fl ℝ} (h : Fl.le a b = true) : ¬ Fl.lt b a = true := by
  cases a <;> cases b <;> simp_all [Fl.le, Fl.lt]

/-- The cells at a time, from the histories. -/
theorem cellsAt_eq (hs : Sound A F P s rows) {R C : Nat} (hg : ∀ i, i < rows.length → (historyIn i (.ok s)).Good R C) (T : ℝ) :
    ∃ f : Nat → Int × Int, cellsAt A (.fin T) (.ok s) = (List.range rows.length).map f ∧
      ∀ i, i < rows.length → ∀ S, f i ∈ S ↔ (historyIn i (.ok s)).AtTime A (.fin T) S := by
  have hh : ∀ i, historyIn i (.ok s) = (ofRows (keysOf P) rows).history i := fun i => by
    unfold historyIn
    simp only [hs.has.1]
  obtain ⟨c, hc, hgt⟩ := getTimeState_rows (A := A) (T := .fin T) (keysOf_nodup P) (rows := rows)
    (fun r hr => ⟨(hs.ok r hr).vars.aligned, (hs.ok r hr).vars.len⟩) fun r hr t ht => by
      obtain ⟨i, hi⟩ := List.getElem?_of_mem hr
      obtain ⟨n, hn⟩ := List.getElem?_of_mem ht
      have hlt := (List.getElem?_eq_some_iff.1 hi).1
      obtain ⟨x, rfl⟩ := (hg i hlt n).1 t (by rw [hh, history_ofRows hi]; exact hn)
      simp [Arith.sub, Arith.add, Fl.neg]
  let f : Nat → Int × Int := fun i => match rows[i]? with
    | some r => (r.xs.getD (c r) 0, r.ys.getD (c r) 0)
    | none => (0, 0)
  refine ⟨f, ?_, fun i hi S => ?_⟩
  · unfold cellsAt
    simp only [hs.has.1, hgt]
    refine List.ext_getElem? fun i => ?_
    rcases Nat.lt_or_ge i rows.length with hi | hi
    · have hri := List.getElem?_eq_getElem hi
      simp [sliceRows, List.getElem?_zip_eq_some, List.getElem?_zipWith, List.getElem?_map, hri, List.getElem?_range hi, f]
    · rw [List.getElem?_eq_none (by simp [sliceRows]; omega), List.getElem?_eq_none (by simpa using hi)]
  · have hri := List.getElem?_eq_getElem hi
    have hm := List.getElem_mem hi
    obtain ⟨hlt, tj, htj, hnear⟩ := hc _ hm
    obtain ⟨a, b, -⟩ := (hs.ok _ hm).vars.aligned
    rw [hh, history_ofRows hri]
    simp only [f, hri]
    have ex := List.getElem?_eq_getElem hlt
    have ey := List.getElem?_eq_getElem (show c rows[i] < rows[i].ys.length by omega)
    constructor
    · intro hS
      refine ⟨c rows[i], _, _, ⟨tj, htj, hnear⟩, ex, ey, ?_⟩
      simpa [List.getD_eq_getElem?_getD, ex, ey] using hS
    · rintro ⟨j, x, y, ⟨t, ht, hn⟩, hx, hy, hS⟩
      have hj : j = c rows[i] := by
        rcases Nat.lt_trichotomy j (c rows[i]) with h | h | h
        · have h1 := (hnear j t ht).2 h
          have h2 := (hn _ tj htj).1
          exact absurd h1 (le_not_lt h2)
        · exact h
        · have h1 := (hn _ tj htj).2 h
          have h2 := (hnear j t ht).1
          exact absurd h1 (le_not_lt h2)
      subst hj
      simp only at hx hy
      rw [List.getD_eq_getElem?_getD, List.getD_eq_getElem?_getD, hx, hy]
      exact hS

/-! ## Fractions -/

theorem fractionWith_map {α : Type} (p : α → Prop) (N : Nat) (f : Nat → α) :
    fractionWith p ((List.range N).map f) = (∑ i : Fin N, {a | p a}.indicator (fun _ => (1 : ℝ)) (f i)) / N := by
  classical
  unfold fractionWith
  rw [List.length_map, List.length_range]
  congr 1
  rw [List.filter_map, List.length_map]
  have : ∀ n, (((List.range n).filter ((fun a => decide (p a)) ∘ f)).length : ℝ) = ∑ i ∈ Finset.range n, {a | p a}.indicator (fun _ => (1 : ℝ)) (f i) := by
    intro n
    induction n with
    | zero => simp
    | succ n ih =>
      rw [List.range_succ, List.filter_append, List.length_append, Nat.cast_add, ih, Finset.sum_range_succ]
      congr 1
      by_cases h : p (f n) <;> simp [h]
  rw [← Finset.sum_range (fun i => {a | p a}.indicator (fun _ => (1 : ℝ)) (f i)), ← this N]

end Dorado
