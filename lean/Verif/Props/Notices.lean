import Verif.Model.Notices
import Verif.Props.Logging
import Verif.Spec.Sample
import Verif.Lemmas.Init

/-! # C100, C101: what the constructor says about parameters, and who gets to see it -/

set_option linter.unusedSectionVars false

namespace Dorado

variable {K : Type} [Field K] [LinearOrder K] [IsStrictOrderedRing K] {A : Arith K} {F : Fun K A} {fs : String → Option (Fl K)}

/-! ## Vocabulary -/

/-- The number a Python scalar stands for as a float; `fs` reads strings. -/
inductive Stands (A : Arith K) (fs : String → Option (Fl K)) : PyVal K → Fl K → Prop
  | yes : Stands A fs (.bool true) (.fin 1)
  | no : Stands A fs (.bool false) (.fin 0)
  | int (i : Int) : Stands A fs (.int i) (.fin (A.rnd i))
  | float (x : Fl K) : Stands A fs (.flt x) x
  | text {s : String} {x : Fl K} : fs s = some x → Stands A fs (.str s) x

/-- The number given by the user: a scalar, or the only element of an array. -/
def Gives (A : Arith K) (fs : String → Option (Fl K)) (given : Option (PyVal K)) (x : Fl K) : Prop :=
  ∃ v, Stands A fs v x ∧ (given = some v ∨ given = some (.nd [v]))

/-- A parameter is taken from the user and nothing is said, or there is no number, the default is used, and that is said. -/
def Honest (A : Arith K) (fs : String → Option (Fl K)) (given : Option (PyVal K)) (used : Fl K) (dflt : K) (told : Prop) : Prop :=
  (∀ x, Gives A fs given x → used = x ∧ ¬ told) ∧ ((∀ x, ¬ Gives A fs given x) → used = .fin dflt ∧ told)

/-! ## Lemmas -/

theorem scalar_stands {v : PyVal K} {x : Fl K} : scalarFloat A fs v = some x ↔ Stands A fs v x := by
  constructor
  · intro h
    cases v with
    | none => cases h
    | bool b =>
      cases h
      cases b
      · exact .no
      · exact .yes
    | int i =>
      cases h
      exact .int i
    | flt y =>
      cases h
      exact .float _
    | str s => exact .text h
    | list l => cases h
    | nd l => cases h
  · rintro (_ | _ | _ | _ | h)
    · rfl
    · rfl
    · rfl
    · rfl
    · exact h

theorem float_gives {given : Option (PyVal K)} {x : Fl K} : given.bind (pyFloat A fs) = some x ↔ Gives A fs given x := by
  constructor
  · intro h
    cases given with
    | none => cases h
    | some v =>
      simp only [Option.bind_some] at h
      by_cases hv : ∃ w, v = .nd [w]
      · obtain ⟨w, rfl⟩ := hv
        exact ⟨w, scalar_stands.1 h, .inr rfl⟩
      · unfold pyFloat at h
        split at h
        · next w => exact absurd ⟨w, rfl⟩ hv
        · exact ⟨v, scalar_stands.1 h, .inl rfl⟩
  · rintro ⟨v, h, rfl | rfl⟩
    · have := scalar_stands.2 h
      cases h <;> exact this
    · exact scalar_stands.2 h

theorem readFloat_honest (given : Option (PyVal K)) (dflt : K) (n : Notice) :
    Honest A fs given (readFloat A fs given dflt n).1 dflt (Said.info n ∈ (readFloat A fs given dflt n).2) ∧
      ∀ m ∈ (readFloat A fs given dflt n).2, m = .info n := by
  unfold readFloat
  cases h : given.bind (pyFloat A fs) with
  | some x =>
    refine ⟨⟨fun y hy => ?_, fun hn => absurd (float_gives.1 h) (hn x)⟩, by simp⟩
    rw [← float_gives, h] at hy
    cases hy
    simp
  | none =>
    refine ⟨⟨fun y hy => ?_, fun _ => by simp⟩, by simp⟩
    rw [← float_gives, h] at hy
    cases hy

/-- The parameter as a number that can be compared. -/
def Compares (given : Option (PyVal K)) (x : Fl K) : Prop :=
  ∃ v, (given = some v ∨ given = some (.nd [v])) ∧
    (v = .bool true ∧ x = .fin 1 ∨ v = .bool false ∧ x = .fin 0 ∨ (∃ i : Int, v = .int i ∧ x = .fin i) ∨ v = .flt x)

theorem number_compares {given : Option (PyVal K)} {x : Fl K} : given.bind pyNumber = some x ↔ Compares given x := by
  have sc : ∀ v : PyVal K, scalarNumber v = some x ↔
      (v = .bool true ∧ x = .fin 1 ∨ v = .bool false ∧ x = .fin 0 ∨ (∃ i : Int, v = .int i ∧ x = .fin i) ∨ v = .flt x) := by
    intro v
    cases v with
    | bool b => cases b <;> simp [scalarNumber, eq_comm]
    | _ => simp [scalarNumber, eq_comm]
  constructor
  · intro h
    cases given with
    | none => cases h
    | some v =>
      simp only [Option.bind_some] at h
      by_cases hv : ∃ w, v = .nd [w]
      · obtain ⟨w, rfl⟩ := hv
        exact ⟨w, .inr rfl, (sc w).1 h⟩
      · unfold pyNumber at h
        split at h
        · next w => exact absurd ⟨w, rfl⟩ hv
        · exact ⟨v, .inl rfl, (sc v).1 h⟩
  · rintro ⟨v, rfl | rfl, h⟩
    · have := (sc v).2 h
      rcases h with ⟨rfl, -⟩ | ⟨rfl, -⟩ | ⟨i, rfl, -⟩ | rfl <;> exact this
    · exact (sc v).2 h

theorem compares_gives {given : Option (PyVal K)} {x : Fl K} (h : Compares given x) :
    ∃ y, Gives A fs given y ∧ given.bind (pyFloat A fs) = some y := by
  have : ∃ y, Gives A fs given y := by
    obtain ⟨v, hg, h⟩ := h
    rcases h with ⟨rfl, rfl⟩ | ⟨rfl, rfl⟩ | ⟨i, rfl, rfl⟩ | rfl
    · exact ⟨_, _, .yes, hg⟩
    · exact ⟨_, _, .no, hg⟩
    · exact ⟨_, _, .int i, hg⟩
    · exact ⟨_, _, .float x, hg⟩
  obtain ⟨y, hy⟩ := this
  exact ⟨y, hy, float_gives.2 hy⟩

/-- What `readOptions` returns, piece by piece. -/
theorem readOptions_parts {strict : Bool} {s s' : LogState} {p : RawOpts K} {o : Opts K} {said : List Said}
    (h : readOptions A fs strict s p = some (s', o, said)) :
    ¬ (p.verbose.isSome = true ∧ strict = true) ∧ s' = (handleVerbose s p.verbose).1 ∧
    o.theta = (readFloat A fs p.theta 1 .theta).1 ∧ o.gamma = (readFloat A fs p.gamma (A.rnd (1 / 20)) .gamma).1 ∧
    o.diff = (readDiff A fs strict (p.verbose.getD true) p.diff p.steepest).1 ∧ o.dryDepth = p.dryDepth.getD (.flt (.fin (A.rnd (1 / 10)))) ∧
    o.steepest = isTrue p.steepest ∧ o.verbose = p.verbose.getD true ∧
    said = (readFloat A fs p.theta 1 .theta).2 ++ (readFloat A fs p.gamma (A.rnd (1 / 20)) .gamma).2 ++
      (readDiff A fs strict (p.verbose.getD true) p.diff p.steepest).2 ++ (if p.dryDepth.isSome then [] else [.info .dryDepth]) ++
      (if p.cellType then [] else [.info .cellType]) ++ (if isTrue p.steepest then [.info .steepest] else [.info .randomWalk]) ++
      (if p.roi then [.info .roi] else []) := by
  unfold readOptions at h
  by_cases hc : (p.verbose.isSome && strict) = true
  · rw [if_pos hc] at h
    cases h
  rw [if_neg hc] at h
  simp only [Option.some.injEq, Prod.mk.injEq] at h
  obtain ⟨rfl, rfl, rfl⟩ := h
  exact ⟨by simpa using hc, rfl, rfl, rfl, rfl, rfl, rfl, rfl, rfl⟩

/-- The messages about the diffusion coefficient. -/
def aboutDiff : List Said := [.warn .diffNegative, .warn .diffLarge, .info .diffSteepest, .info .diff]

theorem readDiff_about (strict verbose : Bool) (given steepest : Option (PyVal K)) :
    ∀ m ∈ (readDiff A fs strict verbose given steepest).2, m ∈ aboutDiff := by
  have hw : ∀ n l, (n = .diffNegative ∨ n = .diffLarge) → warnIf strict verbose n = some l → ∀ m ∈ l, m ∈ aboutDiff := by
    intro n l hn h
    unfold warnIf at h
    split_ifs at h <;> cases h
    · rcases hn with rfl | rfl <;> simp [aboutDiff]
    · simp
  unfold readDiff
  split
  · next r h =>
    unfold tryDiff at h
    simp only [Option.bind_eq_bind, Option.bind_eq_some_iff] at h
    obtain ⟨v, -, x, -, h⟩ := h
    split_ifs at h
    · simp only [Option.bind_eq_some_iff] at h
      obtain ⟨w, h1, h⟩ := h
      cases h
      exact hw _ _ (.inl rfl) h1
    · simp only [Option.bind_eq_some_iff] at h
      obtain ⟨w, h1, y, -, h⟩ := h
      cases h
      exact hw _ _ (.inr rfl) h1
    · simp only [Option.bind_eq_some_iff] at h
      obtain ⟨y, -, h⟩ := h
      cases h
      simp
  · split_ifs <;> simp [aboutDiff]

theorem isTrue_iff {o : Option (PyVal K)} : isTrue o = true ↔ o = some (.bool true) := by
  unfold isTrue
  split
  · simp
  · next hn => simpa using hn

/-- Which messages belong to which parameter. -/
theorem said_mem {strict : Bool} {s s' : LogState} {p : RawOpts K} {o : Opts K} {said : List Said}
    (h : readOptions A fs strict s p = some (s', o, said)) :
    (Said.info .theta ∈ said ↔ Said.info .theta ∈ (readFloat A fs p.theta 1 .theta).2) ∧
    (Said.info .gamma ∈ said ↔ Said.info .gamma ∈ (readFloat A fs p.gamma (A.rnd (1 / 20)) .gamma).2) ∧
    (∀ m ∈ aboutDiff, m ∈ said ↔ m ∈ (readDiff A fs strict (p.verbose.getD true) p.diff p.steepest).2) ∧
    (Said.info .dryDepth ∈ said ↔ p.dryDepth = none) ∧ (Said.info .cellType ∈ said ↔ p.cellType = false) ∧
    (Said.info .steepest ∈ said ↔ p.steepest = some (.bool true)) ∧ (Said.info .randomWalk ∈ said ↔ p.steepest ≠ some (.bool true)) ∧
    (Said.info .roi ∈ said ↔ p.roi = true) := by
  obtain ⟨-, -, -, -, -, -, -, -, e⟩ := readOptions_parts h
  have h1 := (readFloat_honest (A := A) (fs := fs) p.theta 1 .theta).2
  have h2 := (readFloat_honest (A := A) (fs := fs) p.gamma (A.rnd (1 / 20)) .gamma).2
  have h3 := readDiff_about (A := A) (fs := fs) strict (p.verbose.getD true) p.diff p.steepest
  have ht := isTrue_iff (o := p.steepest)
  generalize (readFloat A fs p.theta 1 .theta).2 = a1 at *
  generalize (readFloat A fs p.gamma (A.rnd (1 / 20)) .gamma).2 = a2 at *
  generalize (readDiff A fs strict (p.verbose.getD true) p.diff p.steepest).2 = a3 at *
  have f1 : ∀ m, m ≠ .info .theta → m ∉ a1 := fun m hm h => hm (h1 m h)
  have f2 : ∀ m, m ≠ .info .gamma → m ∉ a2 := fun m hm h => hm (h2 m h)
  have f3 : ∀ m, m ∉ aboutDiff → m ∉ a3 := fun m hm h => hm (h3 m h)
  have d1 : Said.info .theta ∉ a3 := f3 _ (by decide)
  have d2 : Said.info .gamma ∉ a3 := f3 _ (by decide)
  have d3 : Said.info .dryDepth ∉ a3 := f3 _ (by decide)
  have d4 : Said.info .cellType ∉ a3 := f3 _ (by decide)
  have d5 : Said.info .steepest ∉ a3 := f3 _ (by decide)
  have d6 : Said.info .randomWalk ∉ a3 := f3 _ (by decide)
  have d7 : Said.info .roi ∉ a3 := f3 _ (by decide)
  subst e
  refine ⟨?_, ?_, ?_, ?_, ?_, ?_, ?_, ?_⟩
  · simp only [List.mem_append, f2 (.info .theta) (by decide), d1, or_false]
    grind
  · simp only [List.mem_append, f1 (.info .gamma) (by decide), d2, or_false, false_or]
    grind
  · intro m hm
    have e1 : m ≠ .info .theta := by rintro rfl; revert hm; decide
    have e2 : m ≠ .info .gamma := by rintro rfl; revert hm; decide
    simp only [List.mem_append, f1 m e1, f2 m e2, false_or]
    simp only [aboutDiff, List.mem_cons, List.not_mem_nil, or_false] at hm
    grind
  · simp only [List.mem_append, f1 (.info .dryDepth) (by decide), f2 (.info .dryDepth) (by decide), d3, false_or]
    clear f1 f2 f3 h1 h2 h3
    cases p.dryDepth <;> grind
  · simp only [List.mem_append, f1 (.info .cellType) (by decide), f2 (.info .cellType) (by decide), d4, false_or]
    grind
  · rw [← ht]
    simp only [List.mem_append, f1 (.info .steepest) (by decide), f2 (.info .steepest) (by decide), d5, false_or]
    grind
  · rw [ne_eq, ← ht]
    simp only [List.mem_append, f1 (.info .randomWalk) (by decide), f2 (.info .randomWalk) (by decide), d6, false_or]
    grind
  · simp only [List.mem_append, f1 (.info .roi) (by decide), f2 (.info .roi) (by decide), d7, false_or]
    grind

/-! ## C100 -/

/-- C100: theta and gamma are the numbers given, or there is no number, the default is used, and that is said. A missing wetness threshold, missing cell
types, a region and the routing mode are announced, and nothing but what applies. -/
theorem C100_parameters {strict : Bool} {s s' : LogState} {p : RawOpts K} {o : Opts K} {said : List Said}
    (h : readOptions A fs strict s p = some (s', o, said)) :
    Honest A fs p.theta o.theta 1 (.info .theta ∈ said) ∧ Honest A fs p.gamma o.gamma (A.rnd (1 / 20)) (.info .gamma ∈ said) ∧
    (∀ v, p.dryDepth = some v → o.dryDepth = v ∧ .info .dryDepth ∉ said) ∧
    (p.dryDepth = none → o.dryDepth = .flt (.fin (A.rnd (1 / 10))) ∧ .info .dryDepth ∈ said) ∧
    (Said.info .cellType ∈ said ↔ p.cellType = false) ∧ (Said.info .roi ∈ said ↔ p.roi = true) ∧
    (p.steepest = some (.bool true) → o.steepest = true ∧ .info .steepest ∈ said ∧ .info .randomWalk ∉ said) ∧
    (p.steepest ≠ some (.bool true) → o.steepest = false ∧ .info .steepest ∉ said ∧ .info .randomWalk ∈ said) := by
  obtain ⟨-, -, e1, e2, -, e4, e5, -, -⟩ := readOptions_parts h
  obtain ⟨m1, m2, -, m4, m5, m6, m7, m8⟩ := said_mem h
  rw [m1, m2, m4, m5, m6, m7, m8, e1, e2, e4, e5]
  refine ⟨(readFloat_honest _ _ _).1, (readFloat_honest _ _ _).1, fun v hv => ?_, fun hv => ?_, Iff.rfl, Iff.rfl, fun hv => ?_, fun hv => ?_⟩
  · simp [hv]
  · simp [hv]
  · simp [hv, isTrue]
  · simp only [hv, not_false_eq_true, ne_eq, and_self, and_true]
    rw [← Bool.not_eq_true, isTrue_iff]
    exact hv

/-- What should happen to the diffusion coefficient: a number of 0 or more is used, with a warning from 2 on; a negative one is replaced by 0, with a
warning; without a number there is a default, 0 for steepest descent, which is announced. -/
structure DiffTold (A : Arith K) (fs : String → Option (Fl K)) (given steepest : Option (PyVal K)) (used : Fl K) (said : List Said) : Prop where
  ordinary : ∀ x, Compares given x → Fl.lt x (.fin 0) = false → Fl.le (.fin 2) x = false → Gives A fs given used ∧ ∀ m ∈ aboutDiff, m ∉ said
  large : ∀ x, Compares given x → Fl.le (.fin 2) x = true → Gives A fs given used ∧ Said.warn .diffLarge ∈ said
  negative : ∀ x, Compares given x → Fl.lt x (.fin 0) = true → used = .fin 0 ∧ Said.warn .diffNegative ∈ said
  steep : (∀ x, ¬ Compares given x) → steepest = some (.bool true) → used = .fin 0 ∧ Said.info .diffSteepest ∈ said
  missing : (∀ x, ¬ Compares given x) → steepest ≠ some (.bool true) → used = .fin (A.rnd (1 / 5)) ∧ Said.info .diff ∈ said

theorem tryDiff_none {strict verbose : Bool} {given : Option (PyVal K)} (h : ∀ x, ¬ Compares given x) : tryDiff A fs strict verbose given = none := by
  rcases hc : given.bind pyNumber with _ | x
  · unfold tryDiff
    cases given with
    | none => rfl
    | some v =>
      simp only [Option.bind_some] at hc
      simp [hc]
  · exact absurd (number_compares.1 hc) (h x)

theorem tryDiff_some {strict verbose : Bool} {given : Option (PyVal K)} {x : Fl K} (h : Compares given x) :
    ∃ y, Gives A fs given y ∧ tryDiff A fs strict verbose given = if Fl.lt x (.fin 0) then (warnIf strict verbose .diffNegative).map fun w => (.fin 0, w)
      else if Fl.le (.fin 2) x then (warnIf strict verbose .diffLarge).map fun w => (y, w) else some (y, []) := by
  obtain ⟨y, hy, e⟩ := compares_gives (A := A) (fs := fs) h
  refine ⟨y, hy, ?_⟩
  have hn := number_compares.2 h
  cases given with
  | none => cases hn
  | some v =>
    simp only [Option.bind_some] at hn e
    unfold tryDiff
    simp only [hn, e, Option.bind_eq_bind, Option.bind_some, Option.pure_def]
    split_ifs
    · cases warnIf strict verbose .diffNegative <;> rfl
    · cases warnIf strict verbose .diffLarge <;> rfl
    · rfl

theorem lt_le_two {x : Fl K} (h : Fl.le (.fin 2) x = true) : Fl.lt x (.fin 0) = false := by
  cases x with
  | fin y =>
    simp only [Fl.le, decide_eq_true_eq] at h
    simp only [Fl.lt, decide_eq_false_iff_not, not_lt]
    linarith
  | _ => first | rfl | (simp [Fl.le] at h)

/-- C100, diffusion coefficient, unless `verbose` is False or warnings are exceptions.
Missing: with `verbose=False` negative values are replaced without a word (`C100_silent_counterexample`); with warnings turned into exceptions, negative values and values from 2 on
are replaced by the default (`C100_strict_counterexample`). -/
theorem C100_diff_partial {s s' : LogState} {p : RawOpts K} {o : Opts K} {said : List Said} (hv : p.verbose ≠ some false)
    (h : readOptions A fs false s p = some (s', o, said)) : DiffTold A fs p.diff p.steepest o.diff said := by
  obtain ⟨-, -, -, -, e, -, -, -, -⟩ := readOptions_parts h
  obtain ⟨-, -, m, -⟩ := said_mem h
  have hv' : p.verbose.getD true = true := by
    cases hp : p.verbose with
    | none => rfl
    | some b =>
      cases b
      · exact absurd hp hv
      · rfl
  rw [hv'] at e m
  have hw : ∀ n, warnIf false true n = some [.warn n] := fun _ => rfl
  constructor
  · intro x hx h1 h2
    obtain ⟨y, hy, et⟩ := tryDiff_some (A := A) (fs := fs) (strict := false) (verbose := true) hx
    have er : readDiff A fs false true p.diff p.steepest = (y, []) := by simp [readDiff, et, h1, h2]
    rw [e, er]
    exact ⟨hy, fun k hk => by rw [m k hk, er]; simp⟩
  · intro x hx h2
    obtain ⟨y, hy, et⟩ := tryDiff_some (A := A) (fs := fs) (strict := false) (verbose := true) hx
    have er : readDiff A fs false true p.diff p.steepest = (y, [.warn .diffLarge]) := by simp [readDiff, et, lt_le_two h2, h2, hw]
    rw [e, er]
    exact ⟨hy, by rw [m _ (by decide), er]; simp⟩
  · intro x hx h1
    obtain ⟨y, hy, et⟩ := tryDiff_some (A := A) (fs := fs) (strict := false) (verbose := true) hx
    have er : readDiff A fs false true p.diff p.steepest = (.fin 0, [.warn .diffNegative]) := by simp [readDiff, et, h1, hw]
    rw [e, er]
    exact ⟨rfl, by rw [m _ (by decide), er]; simp⟩
  · intro hx hs
    have er : readDiff A fs false true p.diff p.steepest = (.fin 0, [.info .diffSteepest]) := by simp [readDiff, tryDiff_none hx, hs, isTrue]
    rw [e, er]
    exact ⟨rfl, by rw [m _ (by decide), er]; simp⟩
  · intro hx hs
    have hf : isTrue p.steepest = false := by rw [← Bool.not_eq_true, isTrue_iff]; exact hs
    have er : readDiff A fs false true p.diff p.steepest = (.fin (A.rnd (1 / 5)), [.info .diff]) := by simp [readDiff, tryDiff_none hx, hf]
    rw [e, er]
    exact ⟨rfl, by rw [m _ (by decide), er]; simp⟩

/-- C100, disagreement: with `verbose=False` any negative coefficient becomes 0 and nothing is said about it. -/
theorem C100_silent_counterexample {s s' : LogState} {p : RawOpts K} {o : Opts K} {said : List Said} {x : Fl K} (hv : p.verbose = some false)
    (hx : Compares p.diff x) (h0 : Fl.lt x (.fin 0) = true) (h : readOptions A fs false s p = some (s', o, said)) :
    o.diff = .fin 0 ∧ ∀ m ∈ aboutDiff, m ∉ said := by
  obtain ⟨-, -, -, -, e, -, -, -, -⟩ := readOptions_parts h
  obtain ⟨-, -, m, -⟩ := said_mem h
  rw [hv] at e m
  obtain ⟨y, hy, et⟩ := tryDiff_some (A := A) (fs := fs) (strict := false) (verbose := false) hx
  have er : readDiff A fs false false p.diff p.steepest = (.fin 0, []) := by simp [readDiff, et, h0, warnIf]
  exact ⟨by rw [e]; exact congrArg Prod.fst er, fun k hk => by rw [m k hk]; simp only [Option.getD_some, er]; simp⟩

/-- C100, disagreement: with warnings turned into exceptions, a coefficient of 2 or more, or below 0, is replaced by the default of a missing one. -/
theorem C100_strict_counterexample {s s' : LogState} {p : RawOpts K} {o : Opts K} {said : List Said} {x : Fl K} (hx : Compares p.diff x)
    (h0 : Fl.lt x (.fin 0) = true ∨ Fl.le (.fin 2) x = true) (hs : p.steepest ≠ some (.bool true))
    (h : readOptions A fs true s p = some (s', o, said)) : o.diff = .fin (A.rnd (1 / 5)) ∧ .info .diff ∈ said := by
  obtain ⟨hn, -, -, -, e, -, -, -, -⟩ := readOptions_parts h
  obtain ⟨-, -, m, -⟩ := said_mem h
  have hv : p.verbose = none := by
    cases hp : p.verbose with
    | none => rfl
    | some b => exact absurd ⟨by rw [hp]; rfl, rfl⟩ hn
  have hf : isTrue p.steepest = false := by rw [← Bool.not_eq_true, isTrue_iff]; exact hs
  rw [hv] at e m
  obtain ⟨y, hy, et⟩ := tryDiff_some (A := A) (fs := fs) (strict := true) (verbose := true) hx
  have en : tryDiff A fs true true p.diff = none := by
    rw [et]
    rcases h0 with h0 | h0
    · simp [h0, warnIf]
    · simp [lt_le_two h0, h0, warnIf]
  have er : readDiff A fs true true p.diff p.steepest = (.fin (A.rnd (1 / 5)), [.info .diff]) := by simp [readDiff, en, hf]
  exact ⟨by rw [e]; exact congrArg Prod.fst er, by rw [m _ (by decide)]; simp only [Option.getD_none, er]; simp⟩

/-- Parameters of the constructor model as Python values. -/
def rawOf (p : Params K) : RawOpts K where
  verbose := p.verbose
  theta := p.theta.map fun x => .flt (.fin x)
  gamma := p.gamma.map fun x => .flt (.fin x)
  diff := p.diffCoeff.map fun x => .flt (.fin x)
  dryDepth := p.dryDepth.map fun x => .flt (.fin x)
  cellType := p.cellType.isSome
  steepest := p.steepest.map .bool
  roi := p.roi.isSome

/-- C100: the attributes spoken about are those the object routes with. -/
theorem C100_values {s : LogState} {p : Params K} {P : PObj K} (h : initParticles A F p = .ok P) : ∃ s' o said,
    readOptions A fs false s (rawOf p) = some (s', o, said) ∧ o.theta = .fin P.theta ∧ o.gamma = .fin P.gamma ∧ o.diff = .fin P.diffCoeff ∧
      o.dryDepth = .flt (.fin P.dryDepth) ∧ o.steepest = P.steepest ∧ o.verbose = P.verbose := by
  obtain ⟨⟨s', o, said⟩, e⟩ : ∃ r, readOptions A fs false s (rawOf p) = some r := by
    unfold readOptions
    rw [if_neg (by simp)]
    exact ⟨_, rfl⟩
  refine ⟨s', o, said, e, ?_⟩
  obtain ⟨-, -, e1, e2, e3, e4, e5, e6, -⟩ := readOptions_parts e
  have hP : P.theta = p.theta.getD 1 ∧ P.gamma = p.gamma.getD (A.rnd (1 / 20)) ∧ P.diffCoeff = initDiff A p ∧
      P.dryDepth = p.dryDepth.getD (A.rnd (1 / 10)) ∧ P.steepest = (p.steepest == some true) ∧ P.verbose = p.verbose.getD true := by
    unfold initParticles at h
    simp only [bind_ok] at h
    obtain ⟨_, -, _, -, _, -, ⟨_, _, _, _⟩, -, _, -, _, -, h⟩ := h
    cases h
    exact ⟨rfl, rfl, rfl, rfl, rfl, rfl⟩
  obtain ⟨p1, p2, p3, p4, p5, p6⟩ := hP
  have hst : isTrue (rawOf p).steepest = (p.steepest == some true) := by
    unfold rawOf isTrue
    rcases p.steepest with _ | _ | _ <;> rfl
  rw [e1, e2, e3, e4, e5, e6, p1, p2, p3, p4, p5, p6]
  refine ⟨?_, ?_, ?_, ?_, hst, rfl⟩
  · unfold rawOf readFloat
    cases p.theta <;> rfl
  · unfold rawOf readFloat
    cases p.gamma <;> rfl
  · unfold initDiff readDiff
    rw [hst]
    cases hd : p.diffCoeff with
    | none =>
      have : (rawOf p).diff = none := by simp [rawOf, hd]
      rw [this]
      simp only [tryDiff, Option.bind_eq_bind, Option.bind_none]
      by_cases hs : p.steepest = some true <;> simp [hs]
    | some d =>
      have hc : Compares (rawOf p).diff (.fin d) := ⟨.flt (.fin d), .inl (by simp [rawOf, hd]), .inr (.inr (.inr rfl))⟩
      obtain ⟨y, hy, et⟩ := tryDiff_some (A := A) (fs := fs) (strict := false) (verbose := (rawOf p).verbose.getD true) hc
      have hyd : y = .fin d := by
        obtain ⟨v, hv, hg⟩ := hy
        have : v = .flt (.fin d) := by simpa [rawOf, hd, eq_comm] using hg
        subst this
        cases hv
        rfl
      rw [et, hyd]
      simp only [Fl.lt, Fl.le, warnIf, decide_eq_true_eq, Bool.false_eq_true, if_false]
      split_ifs <;> rfl
  · unfold rawOf
    cases p.dryDepth <;> rfl

/-! ## C101 -/

/-- C101: whatever happened before, a function called with `verbose=True` shows its messages on every handler of the logger, of which there is at least one,
and a function called with `verbose=False` shows none. -/
theorem C101_explicit (root : Int) (calls : List LogCall) (b : Bool) :
    let s := logRun (calls ++ [.verbose (some b)])
    (b = true → delivered root s 20 = s.handlers ∧ s.handlers ≠ []) ∧ (b = false → delivered root s 20 = []) := by
  intro s
  have hs : s = (handleVerbose (logRun calls) (some b)).1 := by
    simp only [s, logRun, List.foldl_append]
    rfl
  obtain ⟨-, -, h⟩ := C61_verbose (logRun calls) (some b)
  obtain ⟨h1, h2, -⟩ := h b rfl
  rw [← hs] at h1 h2
  cases b
  · refine ⟨by simp, fun _ => ?_⟩
    simp [delivered, h1]
  · refine ⟨fun _ => ⟨?_, h2⟩, by simp⟩
    simp [delivered, h1]

/-- C101: so do the messages of the constructor follow `params.verbose`. -/
theorem C101_constructor {strict : Bool} {s s' : LogState} {p : RawOpts K} {o : Opts K} {said : List Said} (root : Int)
    (h : readOptions A fs strict s p = some (s', o, said)) :
    (p.verbose = some true → delivered root s' 20 = s'.handlers ∧ s'.handlers ≠ []) ∧ (p.verbose = some false → delivered root s' 20 = []) ∧
    (p.verbose = none → s' = s) := by
  obtain ⟨-, rfl, -⟩ := readOptions_parts h
  obtain ⟨-, h0, h⟩ := C61_verbose s p.verbose
  refine ⟨fun hv => ?_, fun hv => ?_, h0⟩
  · obtain ⟨h1, h2, -⟩ := h _ hv
    exact ⟨by simp [delivered, h1], h2⟩
  · obtain ⟨h1, -⟩ := h _ hv
    simp [delivered, h1]

theorem sets_unique {c : LogCall} {n m : Int} (hn : Sets c n) (hm : Sets c m) : n = m := by
  cases c with
  | setup l h =>
    obtain ⟨t, rfl, ht⟩ := hn
    obtain ⟨t', e, ht'⟩ := hm
    cases e
    rw [levelTable_attr] at ht ht'
    rw [ht] at ht'
    cases ht'
    rfl
  | verbose v =>
    rcases hn with ⟨rfl, rfl⟩ | ⟨rfl, rfl⟩ <;> rcases hm with ⟨h, rfl⟩ | ⟨h, rfl⟩ <;> first | rfl | cases h
  | userAdd k => exact absurd hn (by simp [Sets])
  | userRemove h => exact absurd hn (by simp [Sets])

/-- C101: without `verbose` messages are shown iff the last level set is not above INFO; before any was set the root logger decides. -/
theorem C101_inherited (root : Int) {calls : List LogCall} {n : Int} (hn : LastLevel calls n) :
    delivered root (logRun (calls ++ [.verbose none])) 20 = delivered root (logRun calls) 20 ∧
    (delivered root (logRun calls) 20 = if (if n = 0 then root else n) ≤ 20 then (logRun calls).handlers else []) := by
  have hl : (logRun calls).level = n := by
    have h2 := C61_level calls
    have key : ∀ {cs : List LogCall} {a : Int}, LastLevel cs a → ∀ {b : Int}, LastLevel cs b → a = b := by
      intro cs a h
      induction h with
      | start =>
        intro b hb
        generalize hc : ([] : List LogCall) = cs at hb
        cases hb with
        | start => rfl
        | sets _ _ => simp at hc
        | keeps _ _ => simp at hc
      | @sets calls c n m hm hs ih =>
        intro b hb
        generalize hc : calls ++ [c] = cs at hb
        cases hb with
        | start => simp at hc
        | @sets calls' c' n' m' _ hs' =>
          obtain ⟨rfl, hcc⟩ := List.append_inj' hc rfl
          cases hcc
          exact sets_unique hs hs'
        | @keeps calls' c' m' _ hk =>
          obtain ⟨rfl, hcc⟩ := List.append_inj' hc rfl
          cases hcc
          exact absurd hs (hk _)
      | @keeps calls c m hm hk ih =>
        intro b hb
        generalize hc : calls ++ [c] = cs at hb
        cases hb with
        | start => simp at hc
        | @sets calls' c' n' m' _ hs' =>
          obtain ⟨rfl, hcc⟩ := List.append_inj' hc rfl
          cases hcc
          exact absurd hs' (hk _)
        | @keeps calls' c' m' hm' _ =>
          obtain ⟨rfl, hcc⟩ := List.append_inj' hc rfl
          cases hcc
          exact ih hm'
    exact key h2 hn
  refine ⟨?_, by simp [delivered, hl]⟩
  simp only [logRun, List.foldl_append]
  rfl

/-- C101, documented default: leaving `verbose` out shows the messages as `verbose=True` does.
Missing: true only if a level of INFO or below was set before; not so right after import, see `C101_default_counterexample`. -/
theorem C101_default_partial (root : Int) {calls : List LogCall} {n : Int} (hn : LastLevel calls n) (h0 : n ≠ 0) (h20 : n ≤ 20) :
    delivered root (logRun (calls ++ [.verbose none])) 20 = (logRun calls).handlers := by
  obtain ⟨h1, h2⟩ := C101_inherited root hn
  rw [h1, h2, if_neg h0, if_pos h20]

/-- C101, disagreement: after import, with the usual root logger, leaving `verbose` out shows nothing, while `verbose=True` does. -/
theorem C101_default_counterexample : delivered 30 (logRun [.verbose none]) 20 = [] ∧ delivered 30 (logRun [.verbose (some true)]) 20 = [.stream 0] := by
  decide +kernel

/-- C101, disagreement: after `unsteady_plots` with at least one step no messages are shown any more, whatever level had been set and whatever `verbose`
was given. -/
theorem C101_unsteady_counterexample (root : Int) (calls : List LogCall) (v : Option Bool) (folder few : Bool) {steps : Nat} (h : 0 < steps) :
    (logRun (calls ++ unsteadyLogCalls v folder few steps)).level = 40 ∧
      delivered root (logRun (calls ++ unsteadyLogCalls v folder few steps ++ [.verbose none])) 20 = [] := by
  obtain ⟨n, rfl⟩ : ∃ n, steps = n + 1 := ⟨steps - 1, by omega⟩
  have hl : (logRun (calls ++ unsteadyLogCalls v folder few (n + 1))).level = 40 := by
    unfold unsteadyLogCalls
    rw [List.replicate_succ', ← List.append_assoc, ← List.append_assoc]
    have h2 := (C61_verbose (logRun (calls ++ ((if folder then [.verbose v] else []) ++ (if few then [.verbose v] else []) ++ List.replicate n (.verbose (some false)))))
      (some false)).2.2 false rfl
    simp only [logRun, List.foldl_append] at h2 ⊢
    exact h2.1
  refine ⟨hl, ?_⟩
  have h3 : logRun (calls ++ unsteadyLogCalls v folder few (n + 1) ++ [.verbose none]) = logRun (calls ++ unsteadyLogCalls v folder few (n + 1)) := by
    simp only [logRun, List.foldl_append]
    rfl
  rw [h3]
  simp [delivered, hl]

/-! ## Concrete cases -/

/-- A user who gives theta as text, gamma as an array of two numbers, a large diffusion coefficient and nothing else. -/
def rawDemo : RawOpts ℚ where
  verbose := none
  theta := some (.str "1.5")
  gamma := some (.nd [.flt (.fin 0), .flt (.fin 1)])
  diff := some (.int 3)
  dryDepth := none
  cellType := false
  steepest := some (.int 1)
  roi := false

/-- Conversion of one text. -/
def readDemo (s : String) : Option (Fl ℚ) := if s = "1.5" then some (.fin (3 / 2)) else none

example : (readOptions Arith.exact readDemo false logInit rawDemo).map (fun r => (r.2.1.theta, r.2.1.gamma, r.2.1.diff, r.2.1.steepest, r.2.2)) =
    some (.fin (3 / 2), .fin (1 / 20), .fin 3, false,
      [.info .gamma, .warn .diffLarge, .info .dryDepth, .info .cellType, .info .randomWalk]) := by decide +kernel

/-- The same with warnings turned into exceptions. -/
example : (readOptions Arith.exact readDemo true logInit rawDemo).map (fun r => (r.2.1.diff, r.2.2)) =
    some (.fin (1 / 5), [.info .gamma, .info .diff, .info .dryDepth, .info .cellType, .info .randomWalk]) := by decide +kernel

/-- A negative coefficient, with and without `verbose=False`. -/
example : (readOptions Arith.exact readDemo false logInit { rawDemo with diff := some (.flt (.fin (-1))), verbose := some false }).map
    (fun r => (r.2.1.diff, r.2.2)) = some (.fin 0, [.info .gamma, .info .dryDepth, .info .cellType, .info .randomWalk]) := by decide +kernel

example : (readOptions Arith.exact readDemo false logInit { rawDemo with diff := some (.flt (.fin (-1))) }).map
    (fun r => (r.2.1.diff, r.2.2)) =
      some (.fin 0, [.info .gamma, .warn .diffNegative, .info .dryDepth, .info .cellType, .info .randomWalk]) := by decide +kernel

/-- A coefficient given as text is not accepted, unlike theta. -/
example : (readOptions Arith.exact readDemo false logInit { rawDemo with diff := some (.str "1.5") }).map (fun r => r.2.1.diff) = some (.fin (1 / 5)) := by
  decide +kernel

example : Gives (K := ℚ) Arith.exact readDemo rawDemo.theta (.fin (3 / 2)) := ⟨_, .text rfl, .inl rfl⟩

example : ∀ x, ¬ Gives (K := ℚ) Arith.exact readDemo rawDemo.gamma x := by
  rintro x ⟨v, hv, h | h⟩
  · cases h
    cases hv
  · cases h

example : ∃ s' o said, readOptions Arith.exact readDemo false logInit rawDemo = some (s', o, said) ∧
    DiffTold Arith.exact readDemo rawDemo.diff rawDemo.steepest o.diff said :=
  ⟨_, _, _, rfl, C100_diff_partial (s := logInit) (by simp [rawDemo]) rfl⟩

example : ∃ s' o said, readOptions Arith.exact readDemo true logInit rawDemo = some (s', o, said) ∧ o.diff = .fin (1 / 5) ∧ .info .diff ∈ said :=
  ⟨_, _, _, rfl, C100_strict_counterexample (A := Arith.exact) (fs := readDemo) (s := logInit) (x := .fin 3) (p := rawDemo)
    ⟨_, .inl rfl, .inr (.inr (.inl ⟨3, rfl, by norm_num⟩))⟩ (.inr (by decide +kernel)) (by simp [rawDemo]) rfl⟩

example : ∃ P, initParticles Arith.exact Fun.toy chan = .ok P ∧ ∃ s' o said, readOptions Arith.exact readDemo false logInit (rawOf chan) = some (s', o, said) ∧
    o.diff = .fin P.diffCoeff := by
  obtain ⟨P, h⟩ : ∃ P, initParticles Arith.exact Fun.toy chan = .ok P := ⟨_, rfl⟩
  obtain ⟨s', o, said, e, -, -, hd, -⟩ := C100_values (fs := readDemo) (s := logInit) h
  exact ⟨P, h, s', o, said, e, hd⟩

/-- INFO chosen by the user, one step of `unsteady_plots`, then a function without `verbose`. -/
example : delivered 30 (logRun [.setup (.str "INFO") none, .verbose none]) 20 = [.stream 0] ∧
    delivered 30 (logRun ([.setup (.str "INFO") none] ++ unsteadyLogCalls (some true) true false 1 ++ [.verbose none])) 20 = [] := by decide +kernel

example : delivered 30 (logRun ([.setup (.str "debug") none] ++ [.verbose none])) 20 = [.stream 0] :=
  (C101_default_partial 30 (n := 10) (.sets (calls := []) (c := .setup (.str "debug") none) .start ⟨"debug", rfl, by decide +kernel⟩) (by decide) (by decide)).trans
    (by decide +kernel)

end Dorado
