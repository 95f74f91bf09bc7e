import Verif.Spec.Sample
import Verif.Spec.Walk
import Mathlib.Data.Rat.Floor

/-! Concrete histories over the rationals used by the `example`s and counterexamples. -/

namespace Dorado

/-- `generate_particles(n, xs, ys, method='exact')` at seed time 0. -/
def demoSeed (P : PObj ℚ) (ω : Nat → ℚ) (s : PState ℚ) (n : Nat) (xs ys : List Int) : Except PyErr (PState ℚ) :=
  generateParticles Arith.exact P ω s (.int n) (.list (xs.map .int)) (.list (ys.map .int)) (.int 0) (.str "exact") none

/-- A list of `run_iteration` calls. -/
def demoRuns (P : PObj ℚ) (ω : Nat → ℚ) : List (Option (Fl ℚ) × Int) → PState ℚ → Except PyErr (PState ℚ)
  | [], s => .ok s
  | (tgt, mi) :: l, s => do
    let r ← runIteration Arith.exact Fun.toy P ω s tgt mi
    demoRuns P ω l r.state

/-- Build, seed, run. -/
def demo (p : Params ℚ) (ω : Nat → ℚ) (n : Nat) (xs ys : List Int) (runs : List (Option (Fl ℚ) × Int)) : Except PyErr (PState ℚ) := do
  let s ← demoSeed (objOf p) ω (initState Arith.exact Fun.toy (objOf p) 0) n xs ys
  demoRuns (objOf p) ω runs s

theorem mapE_int (l : List Int) : mapE (pyInt (K := ℚ)) (l.map .int) = .ok l := by
  induction l with
  | nil => rfl
  | cons a l ih => simp only [List.map_cons, mapE, ih]; rfl

theorem pyList_int (l : List Int) : pyList (K := ℚ) (.list (l.map .int)) = .ok (l.map .int) := by
  unfold pyList
  simp only
  rw [if_neg]
  simp

theorem demo_check (n : Nat) (xs ys : List Int) : genInputCheck (K := ℚ) (.int n) (.list (xs.map .int)) (.list (ys.map .int)) (.int 0)
    (.str "exact") = .ok ((n : Int), xs, ys, .fin 0, .exact) := by
  unfold genInputCheck
  rw [pyList_int, pyList_int]
  simp only [bind, Except.bind, mapE_int]
  simp [pyInt, asTypeError, checkTime, checkMethod, pure, Except.pure]

/-- The states of `demo` are reachable. -/
theorem demo_reach {p : Params ℚ} {Ω : (Nat → ℚ) → Prop} {ω : Nat → ℚ} (hω : Ω ω) {n : Nat} {xs ys : List Int}
    {runs : List (Option (Fl ℚ) × Int)} {s : PState ℚ} {Sd : PObj ℚ → List Int → List Int → Fl ℚ → Prop}
    (hS : Sd (objOf p) xs ys (.fin 0)) (h : demo p ω n xs ys runs = .ok s) :
    Reach Arith.exact Fun.toy (· = objOf p) Ω Sd (objOf p) s := by
  unfold demo at h
  cases h0 : demoSeed (objOf p) ω (initState Arith.exact Fun.toy (objOf p) 0) n xs ys with
  | error e => rw [h0] at h; cases h
  | ok s0 =>
    rw [h0] at h
    change demoRuns (objOf p) ω runs s0 = .ok s at h
    have hr : Reach Arith.exact Fun.toy (· = objOf p) Ω Sd (objOf p) s0 :=
      .generate (.new 0 rfl) hω (demo_check n xs ys) (Int.natCast_nonneg n) hS h0
    clear h0
    induction runs generalizing s0 with
    | nil => cases h; exact hr
    | cons a l ih =>
      obtain ⟨tgt, mi⟩ := a
      unfold demoRuns at h
      cases h1 : runIteration Arith.exact Fun.toy (objOf p) ω s0 tgt mi with
      | error e => rw [h1] at h; cases h
      | ok r =>
        rw [h1] at h
        exact ih _ h (.run hr hω h1)

/-- Read an observation off the final state. -/
theorem demo_obs {α β : Type} {x : Except PyErr α} {f : α → Option β} {b : β} (h : x.toOption.bind f = some b) :
    ∃ a, x = .ok a ∧ f a = some b := by
  cases x with
  | error e => simp [Except.toOption] at h
  | ok a => exact ⟨a, rfl, h⟩

theorem half_draws : NonzeroDraws (K := ℚ) Arith.exact (fun _ => 1 / 2) :=
  ⟨fun _ => by norm_num, fun _ x hx _ => (mul_pos hx (by norm_num : (0 : ℚ) < 1 / 2)).ne'⟩

theorem zero_draws : Draws (K := ℚ) (fun _ => 0) := fun _ => by norm_num

theorem demoRuns_later {P : PObj ℚ} {Ω : (Nat → ℚ) → Prop} {ω : Nat → ℚ} (hω : Ω ω) {Sd : PObj ℚ → List Int → List Int → Fl ℚ → Prop}
    {runs : List (Option (Fl ℚ) × Int)} {s0 s s' : PState ℚ} (h0 : Later Arith.exact Fun.toy Ω Sd P s0 s) (h : demoRuns P ω runs s = .ok s') :
    Later Arith.exact Fun.toy Ω Sd P s0 s' := by
  induction runs generalizing s with
  | nil => cases h; exact h0
  | cons a l ih =>
    obtain ⟨tgt, mi⟩ := a
    unfold demoRuns at h
    cases h1 : runIteration Arith.exact Fun.toy P ω s tgt mi with
    | error e => rw [h1] at h; cases h
    | ok r =>
      rw [h1] at h
      exact ih (.run h0 hω h1) h

/-- Read an observation off the walk data of a reachable state. -/
theorem demo_walk {p : Params ℚ} {Ob : PObj ℚ → Prop} {Ω : (Nat → ℚ) → Prop} {ω : Nat → ℚ} {n : Nat} {xs ys : List Int}
    {runs : List (Option (Fl ℚ) × Int)} {Sd : PObj ℚ → List Int → List Int → Fl ℚ → Prop}
    (hO : Ob (objOf p)) (hω : Ω ω) (hS : Sd (objOf p) xs ys (.fin 0))
    {β : Type} {f : WalkData ℚ → β} {b : β} (h : ((demo p ω n xs ys runs).toOption.bind (·.walk)).map f = some b) :
    ∃ s wd, Reach Arith.exact Fun.toy Ob Ω Sd (objOf p) s ∧ s.walk = some wd ∧ f wd = b ∧ demo p ω n xs ys runs = .ok s := by
  cases hd : demo p ω n xs ys runs with
  | error e => rw [hd] at h; simp [Except.toOption] at h
  | ok s =>
    rw [hd] at h
    simp only [Except.toOption, Option.bind_some, Option.map_eq_some_iff] at h
    obtain ⟨wd, hw, hf⟩ := h
    refine ⟨s, wd, (demo_reach hω hS hd).mono fun P hP => ?_, hw, hf, rfl⟩
    rw [hP]; exact hO

/-- Observations before and after further calls. -/
theorem demo_later {p : Params ℚ} {Ob : PObj ℚ → Prop} {Ω : (Nat → ℚ) → Prop} {ω : Nat → ℚ} {n : Nat} {xs ys : List Int}
    {runs runs' : List (Option (Fl ℚ) × Int)} {Sd : PObj ℚ → List Int → List Int → Fl ℚ → Prop}
    (hO : Ob (objOf p)) (hω : Ω ω) (hS : Sd (objOf p) xs ys (.fin 0))
    {β : Type} {f : WalkData ℚ → β} {b b' : β} (h : ((demo p ω n xs ys runs).toOption.bind (·.walk)).map f = some b)
    (h' : (((demo p ω n xs ys runs).toOption.bind fun s => (demoRuns (objOf p) ω runs' s).toOption).bind (·.walk)).map f = some b') :
    ∃ s s' wd wd', Reach Arith.exact Fun.toy Ob Ω Sd (objOf p) s ∧ Later Arith.exact Fun.toy Ω Sd (objOf p) s s' ∧
      s.walk = some wd ∧ s'.walk = some wd' ∧ f wd = b ∧ f wd' = b' := by
  obtain ⟨s, wd, hr, hw, hf, hd⟩ := demo_walk hO hω hS h
  rw [hd] at h'
  cases hd' : demoRuns (objOf p) ω runs' s with
  | error e => simp [Except.toOption, hd'] at h'
  | ok s' =>
    simp only [Except.toOption, Option.bind_some, hd', Option.map_eq_some_iff] at h'
    obtain ⟨wd', hw', hf'⟩ := h'
    exact ⟨s, s', wd, wd', hr, demoRuns_later hω (.refl s) hd', hw, hw', hf, hf'⟩

/-- A further call of `run_iteration` after `demo`, with an observation of the state before it and of its result. -/
theorem demo_run {p : Params ℚ} {Ob : PObj ℚ → Prop} {Ω : (Nat → ℚ) → Prop} {ω ω' : Nat → ℚ} {n : Nat} {xs ys : List Int}
    {runs : List (Option (Fl ℚ) × Int)} {tgt : Option (Fl ℚ)} {mi : Int} {Sd : PObj ℚ → List Int → List Int → Fl ℚ → Prop}
    (hO : Ob (objOf p)) (hω : Ω ω) (hS : Sd (objOf p) xs ys (.fin 0))
    {β : Type} {f : PState ℚ → RunResult ℚ → β} {b : β}
    (h : ((demo p ω n xs ys runs).toOption.bind fun s =>
      (runIteration Arith.exact Fun.toy (objOf p) ω' s tgt mi).toOption.map (f s)) = some b) :
    ∃ s r, Reach Arith.exact Fun.toy Ob Ω Sd (objOf p) s ∧ runIteration Arith.exact Fun.toy (objOf p) ω' s tgt mi = .ok r ∧ f s r = b := by
  cases hd : demo p ω n xs ys runs with
  | error e => rw [hd] at h; simp [Except.toOption] at h
  | ok s =>
    rw [hd] at h
    cases hr : runIteration Arith.exact Fun.toy (objOf p) ω' s tgt mi with
    | error e => simp [Except.toOption, hr] at h
    | ok r =>
      simp only [Except.toOption, Option.bind_some, hr, Option.map_some, Option.some.injEq] at h
      refine ⟨s, r, (demo_reach hω hS hd).mono fun P hP => ?_, hr, h⟩
      rw [hP]; exact hO

end Dorado
