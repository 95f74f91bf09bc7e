import Verif.Spec.Sharing
import Verif.Spec.Demo

/-! Concrete programs over the rationals with several objects, used by the `example`s and counterexamples on sharing. -/

namespace Dorado

/-- A statement of a concrete program: construct an object, `generate_particles(n, xs, ys, method='exact', previous_walk_data=held[k])`,
`run_iteration`, keep the attribute `walk_data`, `clear_walk_data`. -/
inductive Cmd where
  | new (p : Params ℚ)
  | seed (i n : Nat) (xs ys : List Int) (prev : Option Nat)
  | run (i : Nat) (tgt : Option (Fl ℚ)) (maxIter : Int)
  | look (i : Nat)
  | clear (i : Nat)

/-- The dictionary passed as `previous_walk_data`: `some none` if there is none. -/
def pickHeld (held : List RefWalk) : Option Nat → Option (Option RefWalk)
  | none => some none
  | some k => (held[k]?).map some

/-- Execute one statement. -/
def Cmd.exec (ω : Nat → ℚ) (S : Sys ℚ) : Cmd → Option (Act × Sys ℚ)
  | .new p => some (.new, { S with
      objs := S.objs ++ [(objOf p, { world := (initState Arith.exact Fun.toy (objOf p) 0).world, np := 0, walk := none })] })
  | .seed i n xs ys prev => do
    let (P, s) ← S.objs[i]?
    let pw ← pickHeld S.held prev
    let (h, s') ← (generateRef Arith.exact P ω S.heap s (.int n) (.list (xs.map .int)) (.list (ys.map .int)) (.int 0) (.str "exact") pw).toOption
    return (.generate i pw, { S with heap := h, objs := S.objs.set i (P, s') })
  | .run i tgt mi => do
    let (P, s) ← S.objs[i]?
    let r ← (runRef Arith.exact Fun.toy P ω S.heap s tgt mi).toOption
    return (.run i, { heap := r.heap, objs := S.objs.set i (P, r.state), held := S.held ++ [r.returned] })
  | .look i => do
    let (_, s) ← S.objs[i]?
    let w ← s.walk
    return (.look i, { S with held := S.held ++ [w] })
  | .clear i => do
    let (P, s) ← S.objs[i]?
    return (.clear i, { S with objs := S.objs.set i (P, s.clear) })

/-- Execute a program; every state must pass the check. -/
def execAll (ω : Nat → ℚ) (chk : Sys ℚ → Bool) : List Cmd → Sys ℚ → Option (List Act × Sys ℚ)
  | [], S => some ([], S)
  | c :: cs, S => do
    let (a, S1) ← c.exec ω S
    if chk S1 then
      let (as, S2) ← execAll ω chk cs S1
      return (a :: as, S2)
    else none

variable {Ob : PObj ℚ → Prop} {Ω : (Nat → ℚ) → Prop} {Sd : PObj ℚ → List Int → List Int → Fl ℚ → Prop}

/-- The parameters and seed locations used by a statement are admissible. -/
def Cmd.Ok (Ob : PObj ℚ → Prop) (Sd : PObj ℚ → List Int → List Int → Fl ℚ → Prop) : Cmd → Prop
  | .new p => Ob (objOf p)
  | .seed _ _ xs ys _ => ∀ P, Sd P xs ys (.fin 0)
  | _ => True

theorem exec_step {ω : Nat → ℚ} (hω : Ω ω) {c : Cmd} (hc : c.Ok Ob Sd) {S S' : Sys ℚ} {a : Act} (h : c.exec ω S = some (a, S')) :
    SysStep Arith.exact Fun.toy Ob Ω Sd a S S' := by
  cases c with
  | new p =>
    simp only [Cmd.exec, Option.some.injEq, Prod.mk.injEq] at h
    obtain ⟨rfl, rfl⟩ := h
    exact .new 0 hc
  | seed i n xs ys prev =>
    simp only [Cmd.exec, Option.bind_eq_bind, Option.bind_eq_some_iff, Option.pure_def, Option.some.injEq, Prod.exists, Prod.mk.injEq] at h
    obtain ⟨P, s, hi, pw, hp, h', s', hg, rfl, rfl⟩ := h
    refine .generate hi hω ?_ (demo_check n xs ys) (Int.natCast_nonneg n) (hc P) ?_
    · rintro w rfl
      cases prev with
      | none => simp [pickHeld] at hp
      | some k =>
        simp only [pickHeld, Option.map_eq_some_iff, Option.some.injEq] at hp
        obtain ⟨w', hw', rfl⟩ := hp
        exact List.mem_of_getElem? hw'
    · cases hgg : generateRef Arith.exact P ω S.heap s (.int n) (.list (xs.map .int)) (.list (ys.map .int)) (.int 0) (.str "exact") pw with
      | error e => rw [hgg] at hg; simp [Except.toOption] at hg
      | ok r => rw [hgg] at hg; simp only [Except.toOption, Option.some.injEq] at hg; rw [hg]
  | run i tgt mi =>
    simp only [Cmd.exec, Option.bind_eq_bind, Option.bind_eq_some_iff, Option.pure_def, Option.some.injEq, Prod.exists, Prod.mk.injEq] at h
    obtain ⟨P, s, hi, r, hr, rfl, rfl⟩ := h
    refine .run hi hω (target := tgt) (maxIter := mi) ?_
    cases hgg : runRef Arith.exact Fun.toy P ω S.heap s tgt mi with
    | error e => rw [hgg] at hr; simp [Except.toOption] at hr
    | ok r => rw [hgg] at hr; simp only [Except.toOption, Option.some.injEq] at hr; rw [hr]
  | look i =>
    simp only [Cmd.exec, Option.bind_eq_bind, Option.bind_eq_some_iff, Option.pure_def, Option.some.injEq, Prod.exists, Prod.mk.injEq] at h
    obtain ⟨P, s, hi, w, hw, rfl, rfl⟩ := h
    exact .look hi hw
  | clear i =>
    simp only [Cmd.exec, Option.bind_eq_bind, Option.bind_eq_some_iff, Option.pure_def, Option.some.injEq, Prod.exists, Prod.mk.injEq] at h
    obtain ⟨P, s, hi, rfl, rfl⟩ := h
    exact .clear hi

theorem exec_reach {ω : Nat → ℚ} (hω : Ω ω) {Φ : Sys ℚ → Prop} {chk : Sys ℚ → Bool} (hΦ : ∀ S, chk S = true → Φ S) {cs : List Cmd}
    (hc : ∀ c ∈ cs, c.Ok Ob Sd) {S S' : Sys ℚ} {as : List Act} (h0 : SysReach Arith.exact Fun.toy Φ Ob Ω Sd S)
    (h : execAll ω chk cs S = some (as, S')) : SysReach Arith.exact Fun.toy Φ Ob Ω Sd S' := by
  induction cs generalizing S as with
  | nil =>
    simp only [execAll, Option.some.injEq, Prod.mk.injEq] at h
    rw [← h.2]; exact h0
  | cons c cs ih =>
    simp only [execAll, Option.bind_eq_bind, Option.bind_eq_some_iff, Prod.exists] at h
    obtain ⟨a, S1, h1, h⟩ := h
    by_cases hch : chk S1 = true
    · rw [if_pos hch] at h
      simp only [Option.bind_eq_some_iff, Option.pure_def, Option.some.injEq, Prod.exists, Prod.mk.injEq] at h
      obtain ⟨as', S2, h2, -, rfl⟩ := h
      exact ih (fun c' hc' => hc c' (by simp [hc'])) (.step h0 (exec_step hω (hc c (by simp)) h1) (hΦ _ hch)) h2
    · rw [if_neg hch] at h
      cases h

theorem SysRun.head {A : Arith ℚ} {F : Fun ℚ A} {a : Act} {as : List Act} {S S1 S2 : Sys ℚ} (hs : SysStep A F Ob Ω Sd a S S1)
    (h : SysRun A F Ob Ω Sd as S1 S2) : SysRun A F Ob Ω Sd (a :: as) S S2 := by
  induction h with
  | refl => exact .tail (.refl S) hs
  | tail _ h2 ih => exact .tail (ih hs) h2

theorem exec_run {ω : Nat → ℚ} (hω : Ω ω) {chk : Sys ℚ → Bool} {cs : List Cmd} (hc : ∀ c ∈ cs, c.Ok Ob Sd) {S S' : Sys ℚ} {as : List Act}
    (h : execAll ω chk cs S = some (as, S')) : SysRun Arith.exact Fun.toy Ob Ω Sd as S S' := by
  induction cs generalizing S as with
  | nil =>
    simp only [execAll, Option.some.injEq, Prod.mk.injEq] at h
    obtain ⟨rfl, rfl⟩ := h
    exact .refl S
  | cons c cs ih =>
    simp only [execAll, Option.bind_eq_bind, Option.bind_eq_some_iff, Prod.exists] at h
    obtain ⟨a, S1, h1, h⟩ := h
    by_cases hch : chk S1 = true
    · rw [if_pos hch] at h
      simp only [Option.bind_eq_some_iff, Option.pure_def, Option.some.injEq, Prod.exists, Prod.mk.injEq] at h
      obtain ⟨as', S2, h2, rfl, rfl⟩ := h
      exact .head (exec_step hω (hc c (by simp)) h1) (ih (fun c' hc' => hc c' (by simp [hc'])) h2)
    · rw [if_neg hch] at h
      cases h

/-- Test that no object holds a particle twice. -/
def noTwice (S : Sys ℚ) : Bool := S.objs.all fun o => match o.2.walk with
  | some w => decide w.xinds.Nodup
  | none => true

theorem noTwice_spec {S : Sys ℚ} (h : noTwice S = true) : NoTwice S := by
  intro P s w hm hw
  have := List.all_eq_true.1 h _ hm
  dsimp only at this
  rw [hw] at this
  simpa using this

/-- Observation of the final state of a program. -/
theorem exec_obs {ω : Nat → ℚ} (hω : Ω ω) {cs : List Cmd} (hc : ∀ c ∈ cs, c.Ok Ob Sd) {β : Type} {f : List Act → Sys ℚ → β} {b : β}
    (h : ((execAll ω (fun _ => true) cs Sys.start).map fun r => f r.1 r.2) = some b) :
    ∃ as S, SysRun Arith.exact Fun.toy Ob Ω Sd as Sys.start S ∧ f as S = b := by
  obtain ⟨r, hr, hf⟩ := Option.map_eq_some_iff.1 h
  exact ⟨r.1, r.2, exec_run hω hc hr, hf⟩

/-- The same when no object ever holds a particle twice. -/
theorem exec_obs_reach {ω : Nat → ℚ} (hω : Ω ω) {cs : List Cmd} (hc : ∀ c ∈ cs, c.Ok Ob Sd) {β : Type} {f : Sys ℚ → β} {b : β}
    (h : ((execAll ω noTwice cs Sys.start).map fun r => f r.2) = some b) :
    ∃ S, SysReach Arith.exact Fun.toy NoTwice Ob Ω Sd S ∧ f S = b := by
  obtain ⟨r, hr, hf⟩ := Option.map_eq_some_iff.1 h
  exact ⟨r.2, exec_reach hω (fun _ => noTwice_spec) hc .start hr, hf⟩

/-- Observation of the states around one statement and at the end. -/
theorem exec_split {ω : Nat → ℚ} (hω : Ω ω) {cs cs' : List Cmd} {c : Cmd} (hc : ∀ c ∈ cs, c.Ok Ob Sd) (hc1 : c.Ok Ob Sd)
    (hc' : ∀ c ∈ cs', c.Ok Ob Sd) {β : Type} {f : Act → List Act → Sys ℚ → Sys ℚ → Sys ℚ → β} {b : β}
    (h : ((execAll ω (fun _ => true) cs Sys.start).bind fun r => (c.exec ω r.2).bind fun r1 =>
      (execAll ω (fun _ => true) cs' r1.2).map fun r2 => f r1.1 r2.1 r.2 r1.2 r2.2) = some b) :
    ∃ as a bs S S1 S2, SysRun Arith.exact Fun.toy Ob Ω Sd as Sys.start S ∧ SysStep Arith.exact Fun.toy Ob Ω Sd a S S1 ∧
      SysRun Arith.exact Fun.toy Ob Ω Sd bs S1 S2 ∧ f a bs S S1 S2 = b := by
  obtain ⟨r, hr, h⟩ := Option.bind_eq_some_iff.1 h
  obtain ⟨r1, hr1, h⟩ := Option.bind_eq_some_iff.1 h
  obtain ⟨r2, hr2, h⟩ := Option.map_eq_some_iff.1 h
  exact ⟨r.1, r1.1, r2.1, r.2, r1.2, r2.2, exec_run hω hc hr, exec_step hω hc1 hr1, exec_run hω hc' hr2, h⟩

/-- All kept dictionaries, as seen now. -/
def Sys.dicts (S : Sys ℚ) : List (List (List Int) × List (List Int)) := S.held.map fun d => ((S.heap.read d).xinds, (S.heap.read d).yinds)

/-- The walk data of all objects, as seen now. -/
def Sys.walks (S : Sys ℚ) : List (Option (List (List Int) × List (List Int))) :=
  S.objs.map fun o => o.2.walk.map fun d => ((S.heap.read d).xinds, (S.heap.read d).yinds)

end Dorado
