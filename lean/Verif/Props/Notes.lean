import Verif.Props.Slices
import Verif.Props.Time
import Verif.Props.Continue

/-! # C95: messages about particles that have not got that far -/

set_option linter.unusedSectionVars false

namespace Dorado

variable {K : Type} [Field K] [LinearOrder K] [IsStrictOrderedRing K] {A : Arith K}

/-! ## The messages as counts -/

theorem pushOpt_err (ii : Nat) (k : Int) (d : List (String × List (List (Val K)))) (acc acc' : GotState K) :
    (pushOpt ii k d acc).2 = (pushOpt ii k d acc').2 := by
  induction d generalizing acc acc' with
  | nil => rfl
  | cons e d ih =>
    unfold pushOpt
    cases cellAt e.2 ii k with
    | error err => rfl
    | ok v => exact ih _ _

/-- Whether a record can be read does not depend on what was collected before. -/
theorem pushAll_err (wd : WalkData K) (ii : Nat) (k : Int) (acc acc' : GotState K) : (pushAll wd ii k acc).2 = (pushAll wd ii k acc').2 := by
  unfold pushAll
  cases cellAt wd.xinds ii k with
  | error err => rfl
  | ok x =>
    cases cellAt wd.yinds ii k with
    | error err => rfl
    | ok y =>
      cases cellAt wd.times ii k with
      | error err => rfl
      | ok t => exact pushOpt_err _ _ _ _ _

theorem stateNote_fold (wd : WalkData K) (k : Int) (l : List Nat) (acc : GotState K) (c : Nat) :
    foldE (stateStepNote wd k) (acc, c) l =
      (foldE (stateStep wd k) acc l).map fun a => (a, c + l.countP fun i => (pushAll wd i k (emptyState wd)).2.isSome) := by
  induction l generalizing acc c with
  | nil => rfl
  | cons i l ih =>
    simp only [foldE, stateStepNote]
    cases stateStep wd k acc i with
    | error e => rfl
    | ok a =>
      simp only [ok_bind, pure_def]
      rw [ih, pushAll_err wd i k acc (emptyState wd), List.countP_cons]
      congr 1
      funext a'
      split_ifs <;> (simp; try omega)

theorem timeNote_fold {wd : WalkData K} {T : Fl K} {l : List Nat} (hl : ∀ i ∈ l, ∃ ts t, wd.times[i]? = some ts ∧ ts.getLast? = some t)
    (acc : GotState K) (ns : List Nat) :
    foldE (timeStateStepNote A wd T) (acc, ns) l =
      (foldE (timeStateStep A wd T) acc l).map fun a => (a, ns ++ l.filter fun i => ((wd.lastTime i).map (Fl.lt · T)).getD false) := by
  induction l generalizing acc ns with
  | nil => simp [foldE, Except.map]
  | cons i l ih =>
    simp only [foldE, timeStateStepNote]
    cases timeStateStep A wd T acc i with
    | error e => rfl
    | ok a =>
      obtain ⟨ts, t, h1, h2⟩ := hl i (by simp)
      have h3 : listGet wd.times i = .ok ts := by simp [listGet, h1]
      have h4 : lastOf ts = .ok t := by
        unfold lastOf
        rw [h2]
      have h5 : wd.lastTime i = some t := by simp [WalkData.lastTime, h1, h2]
      simp only [ok_bind, pure_def, h3, h4]
      rw [ih (fun j hj => hl j (by simp [hj])), List.filter_cons, h5]
      simp only [Option.map_some, Option.getD_some]
      congr 1
      funext a'
      split_ifs <;> simp

/-- A record that exists can be read. -/
theorem pushAll_isSome {wd : WalkData K} [FloorRing K] (ha : AlignedWalk wd) (k : Int) {i : Nat} {xs ys : List Int} {ts : List (Fl K)}
    (hl : wd.lists i = some (xs, ys, ts)) (acc : GotState K) :
    (pushAll wd i k acc).2.isSome = true ↔ ¬ (-(ts.length : Int) ≤ k ∧ k < ts.length) := by
  obtain ⟨rows, he, hrows⟩ := aligned_rows ha
  have hn := ha.distinct
  generalize keys wd.opt = ks at he hrows hn
  subst he
  obtain ⟨r, hr, hrl⟩ := lists_ofRows.1 hl
  cases hrl
  have hf := hrows r (List.mem_of_getElem? hr)
  have hlen : r.ts.length = r.xs.length := hf.1.2.1
  cases hj : pyIdx r.xs.length k with
  | ok j =>
    have hil : i < rows.length := (List.getElem?_eq_some_iff.1 hr).1
    rw [pushAll_err _ _ _ acc (sliceRows ks (rows.take i) (List.replicate i 0)), pushAll_row hn hr hf hj (by simp)]
    simp only [Option.isSome_none, Bool.false_eq_true, false_iff, not_not]
    unfold pyIdx at hj
    split_ifs at hj <;> omega
  | error e =>
    rw [pushAll_fail hr hj]
    simp only [Option.isSome_some, true_iff]
    unfold pyIdx at hj
    split_ifs at hj
    omega

variable [FloorRing K] {F : Fun K A} {Ω : (Nat → K) → Prop} {Sd : PObj K → List Int → List Int → Fl K → Prop}

/-! ## C95 -/

/-- `get_state(wd, k)` on aligned walk data: the message, if there is one, tells the number of particles without record `k` (for which the last
record is returned); there is none if all have it. -/
theorem C95_iteration {wd : WalkData K} (ha : AlignedWalk wd) (k : Int) :
    ∃ g note, getStateNote wd k = .ok (g, note) ∧ getState wd k = .ok g ∧
      (note = none ↔ ∀ ts ∈ wd.times, -(ts.length : Int) ≤ k ∧ k < ts.length) ∧
      ∀ n, note = some n → n = wd.times.countP fun ts => ¬ (-(ts.length : Int) ≤ k ∧ k < ts.length) := by
  obtain ⟨g, hg, -⟩ := C54_slice ha k
  have hcount : (List.range wd.xinds.length).countP (fun i => (pushAll wd i k (emptyState wd)).2.isSome) =
      wd.times.countP fun ts => ¬ (-(ts.length : Int) ≤ k ∧ k < ts.length) := by
    have hmap : wd.times = (List.range wd.xinds.length).map fun i => wd.times.getD i [] := by
      apply List.ext_getElem?
      intro i
      rw [List.getElem?_map]
      by_cases hi : i < wd.times.length
      · rw [List.getElem?_range (by rw [← ha.tnum]; exact hi), Option.map_some, List.getD_eq_getElem?_getD, List.getElem?_eq_getElem hi]
        rfl
      · rw [List.getElem?_eq_none (by omega), List.getElem?_eq_none (by rw [List.length_range, ← ha.tnum]; omega)]
        rfl
    conv_rhs => rw [hmap, List.countP_map]
    refine List.countP_congr fun i hi => ?_
    have hi := List.mem_range.1 hi
    have h1 := ha.ynum
    have h2 := ha.tnum
    have hl : wd.lists i = some (wd.xinds[i], wd.yinds[i]'(by omega), wd.times[i]'(by omega)) := by
      simp [WalkData.lists, hi, show i < wd.yinds.length by omega, show i < wd.times.length by omega]
    rw [pushAll_isSome ha k hl]
    simp only [Function.comp_apply, decide_eq_true_eq, List.getD_eq_getElem?_getD, List.getElem?_eq_getElem (show i < wd.times.length by omega), Option.getD_some]
  have hfold : foldE (stateStep wd k) (emptyState wd) (List.range wd.xinds.length) = .ok g := hg
  refine ⟨g, if 0 < 0 + (List.range wd.xinds.length).countP (fun i => (pushAll wd i k (emptyState wd)).2.isSome) then
    some (0 + (List.range wd.xinds.length).countP fun i => (pushAll wd i k (emptyState wd)).2.isSome) else none, ?_, hg, ?_, ?_⟩
  · unfold getStateNote
    rw [stateNote_fold, hfold]
    rfl
  · simp only [Nat.zero_add, hcount]
    split_ifs with h0
    · simp only [false_iff]
      rw [List.countP_pos_iff] at h0
      obtain ⟨ts, hts, hd⟩ := h0
      exact fun hall => of_decide_eq_true hd (hall ts hts)
    · simp only [true_iff]
      intro ts hts
      by_contra hne
      exact h0 (List.countP_pos_iff.2 ⟨ts, hts, decide_eq_true hne⟩)
  · intro n hn
    simp only [Nat.zero_add, hcount] at hn
    split_ifs at hn
    exact (Option.some.inj hn).symm

/-- After any history of API calls (any rounding that represents -1/2 and -1): `get_time_state(wd, T)` logs a message for exactly the particles all of
whose records are before `T`, in order. -/
theorem C95_time (hh : A.rnd (-(1 / 2)) = -(1 / 2)) (h1 : A.rnd (-1) = -1) {P : PObj K} {s : PState K}
    (h : Reach A F (fun P => Built A F P ∧ P.diffCoeff ≤ 2 ∧ 0 ≤ P.dx) Draws (FinSeed A) P s) {wd : WalkData K} (hw : s.walk = some wd) (T : K) :
    ∃ g notes, getTimeStateNote A wd (.fin T) = .ok (g, notes) ∧ getTimeState A wd (.fin T) = .ok g ∧ notes.Pairwise (· < ·) ∧
      ∀ i, i ∈ notes ↔ i < s.np ∧ ∀ n t, wd.timeAt i n = some (.fin t) → t < T := by
  have hB : Reach A F (Built A F) Draws (FinSeed A) P s := h.mono fun P hP => hP.1
  obtain ⟨f1, m1⟩ := C18_monotone hh h1 h hw
  have ha := (C54_reachable hB hw 0).1
  have hnp : wd.xinds.length = s.np := (C15_aligned hB hw).1
  obtain ⟨g, hg, -⟩ := C55_nearest (A := A) (T := .fin T) ha fun ts hts t ht => by
    obtain ⟨i, hi⟩ := List.mem_iff_getElem?.1 hts
    obtain ⟨n, hn⟩ := List.mem_iff_getElem?.1 ht
    obtain ⟨x, rfl⟩ := f1 i n t (by simp [WalkData.timeAt, hi, hn])
    simp [Arith.sub, Arith.add, Fl.neg]
  have hlast : ∀ i, i < wd.xinds.length → ∃ ts x, wd.times[i]? = some ts ∧ ts.getLast? = some (.fin x) ∧ wd.timeAt i (ts.length - 1) = some (.fin x) := by
    intro i hi
    have h1 := ha.ynum
    have h2 := ha.tnum
    have hl : wd.lists i = some (wd.xinds[i], wd.yinds[i]'(by omega), wd.times[i]'(by omega)) := by
      simp [WalkData.lists, hi, show i < wd.yinds.length by omega, show i < wd.times.length by omega]
    obtain ⟨hne, -, hlen, -⟩ := ha.same i _ _ _ hl
    have hti : wd.times[i]? = some (wd.times[i]'(by omega)) := List.getElem?_eq_getElem _
    generalize wd.times[i]'(by omega) = ts at hlen hti
    have hpos : 0 < ts.length := by rw [hlen]; exact List.length_pos_iff.2 hne
    have ht : wd.timeAt i (ts.length - 1) = some ts[ts.length - 1] := by simp [WalkData.timeAt, hti, hpos]
    obtain ⟨x, hx⟩ := f1 i _ _ ht
    rw [hx] at ht
    exact ⟨ts, x, hti, by rw [List.getLast?_eq_getElem?, List.getElem?_eq_getElem (by omega), hx], ht⟩
  have hfold : foldE (timeStateStep A wd (.fin T)) (emptyState wd) (List.range wd.xinds.length) = .ok g := hg
  refine ⟨g, (List.range wd.xinds.length).filter fun i => ((wd.lastTime i).map (Fl.lt · (.fin T))).getD false, ?_, hg,
    List.Pairwise.filter _ List.pairwise_lt_range, fun i => ?_⟩
  · unfold getTimeStateNote
    rw [timeNote_fold (fun i hi => by
      obtain ⟨ts, x, a, b, -⟩ := hlast i (List.mem_range.1 hi)
      exact ⟨ts, _, a, b⟩), hfold]
    rfl
  · rw [List.mem_filter, List.mem_range, hnp]
    refine and_congr_right fun hi => ?_
    obtain ⟨ts, x, a, b, c⟩ := hlast i (by omega)
    have hlt : wd.lastTime i = some (.fin x) := by simp [WalkData.lastTime, a, b]
    rw [hlt]
    simp only [Option.map_some, Option.getD_some, Fl.lt, decide_eq_true_eq]
    constructor
    · intro hx n t ht
      have hn : n ≤ ts.length - 1 := by
        have : ts[n]? = some (.fin t) := by simpa [WalkData.timeAt, a] using ht
        have := (List.getElem?_eq_some_iff.1 this).1
        omega
      exact lt_of_le_of_lt (m1 i n _ _ _ hn ht c) hx
    · exact fun hall => hall _ _ c

/-- Of the three records and the single one of the sample, iteration 1 is missing for the second particle, iteration 3 for both. -/
example : (getStateNote sliceDemo 0).toOption.map (·.2) = some none ∧ (getStateNote sliceDemo 1).toOption.map (·.2) = some (some 1) ∧
    (getStateNote sliceDemo 3).toOption.map (·.2) = some (some 2) ∧ (getStateNote sliceDemo (-1)).toOption.map (·.2) = some none ∧
    (getStateNote sliceDemo (-2)).toOption.map (·.2) = some (some 1) ∧ AlignedWalk sliceDemo :=
  ⟨by decide +kernel, by decide +kernel, by decide +kernel, by decide +kernel, by decide +kernel, sliceDemo_aligned⟩

set_option synthInstance.maxSize 1024 in
/-- A run in which the second particle stays at its seed: it has not reached time 20, none has reached time 40. -/
example : ∃ s wd, Reach Arith.exact Fun.toy (fun P => Built Arith.exact Fun.toy P ∧ P.diffCoeff ≤ 2 ∧ 0 ≤ P.dx) Draws (FinSeed Arith.exact)
      (objOf chanLong) s ∧ s.walk = some wd ∧ wd.xinds.length = 2 ∧ (getTimeStateNote Arith.exact wd (.fin 0)).toOption.map (·.2) = some [] ∧
    (getTimeStateNote Arith.exact wd (.fin 20)).toOption.map (·.2) = some [1] ∧
    (getTimeStateNote Arith.exact wd (.fin 40)).toOption.map (·.2) = some [0, 1] := by
  obtain ⟨s, wd, hr, hw, hf, -⟩ := demo_walk (p := chanLong) (ω := fun _ => 1 / 2) (n := 2) (xs := [2, 3]) (ys := [2, 1])
    (runs := [(none, 10), (none, 10)]) (Ob := fun P => Built Arith.exact Fun.toy P ∧ P.diffCoeff ≤ 2 ∧ 0 ≤ P.dx) (Ω := Draws)
    (Sd := FinSeed Arith.exact) ⟨chanLong_built, by decide +kernel, by decide +kernel⟩ half_draws.1 ⟨0, rfl, rfl⟩
    (f := fun wd => (wd.xinds.length, (getTimeStateNote Arith.exact wd (.fin 0)).toOption.map (·.2),
      (getTimeStateNote Arith.exact wd (.fin 20)).toOption.map (·.2), (getTimeStateNote Arith.exact wd (.fin 40)).toOption.map (·.2)))
    (b := (2, some [], some [1], some [0, 1])) (by decide +kernel)
  simp only [Prod.mk.injEq] at hf
  exact ⟨s, wd, hr, hw, hf.1, hf.2.1, hf.2.2.1, hf.2.2.2⟩

end Dorado
