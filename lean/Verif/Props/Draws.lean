import Verif.Lemmas.Draws
import Verif.Props.Steepest
import Verif.Props.StepperTuples

/-! # C90: how many random numbers the methods consume, and that nothing else of the random stream matters -/

set_option linter.unusedSectionVars false

namespace Dorado

variable {K : Type} [Field K] [LinearOrder K] [IsStrictOrderedRing K] [FloorRing K] {A : Arith K} {F : Fun K A} {ω ω' : Nat → K}

/-- `generate_particles` draws two numbers per new particle with random seeding and none otherwise. -/
theorem C90_generate {P : PObj K} {np xs ys time method : PyVal K} {prev : Option (WalkData K)} {s s' : PState K} {r : Option (WalkData K) × List Nat}
    (h : ApiCall.act A F P ω (.generate np xs ys time method prev) s = (.ok r, s')) :
    ∃ n, particles s'.walk = particles prev + particles s.walk + n ∧
      (method = .str "random" → s'.world.pos = s.world.pos + 2 * n) ∧ (method ≠ .str "random" → s'.world.pos = s.world.pos) := by
  obtain ⟨_, s1, h1, h2⟩ := PyM.inv (m := generateStmt A P ω np xs ys time method prev) h
  cases h2
  exact generateStmt_draws h1

/-- A step of `run_iteration` without target time draws one number for every particle that is not parked in cell (0, 0), and with diffusion one
more for every recorded move. -/
theorem C90_run {P : PObj K} {maxIter : Int} {s s' : PState K} {r : Option (WalkData K) × List Nat} (h : ApiCall.act A F P ω (.run none maxIter) s = (.ok r, s')) :
    ∃ wd g, s.walk = some wd ∧ records s'.walk = records s.walk + g ∧
      s'.world.pos = s.world.pos + ((List.range s'.np).map wd.place).countP (fun p => p ≠ some (0, 0)) + diffDraw P * g := by
  obtain ⟨_, s1, h1, h2⟩ := PyM.inv (m := runStmt A F P ω none maxIter) h
  cases h2
  obtain ⟨wd, g, h3, h4, h5, -⟩ := runStmt_draws h1
  exact ⟨wd, g, h3, h4, h5 rfl⟩

/-- `run_iteration` with a target time draws one number for every recorded move, with diffusion two, and at most one more per particle. -/
theorem C90_target {P : PObj K} {target : Fl K} {maxIter : Int} {s s' : PState K} {r : Option (WalkData K) × List Nat}
    (h : ApiCall.act A F P ω (.run (some target) maxIter) s = (.ok r, s')) :
    ∃ g, records s'.walk = records s.walk + g ∧
      s.world.pos + (1 + diffDraw P) * g ≤ s'.world.pos ∧ s'.world.pos ≤ s.world.pos + (1 + diffDraw P) * g + s'.np := by
  obtain ⟨_, s1, h1, h2⟩ := PyM.inv (m := runStmt A F P ω (some target) maxIter) h
  cases h2
  obtain ⟨wd, g, h3, h4, -, h5⟩ := runStmt_draws h1
  exact ⟨g, h4, h5 (by simp)⟩

/-- No call, not even one that fails, takes numbers back. -/
theorem C90_forward (P : PObj K) (c : ApiCall K) (s : PState K) : s.world.pos ≤ (c.act A F P ω s).2.world.pos :=
  (act_causal (ω' := ω) P c s).1

theorem endPos_cons (pos : Nat) (x : Seen K) (l : List (Seen K)) : endPos pos (x :: l) = endPos x.2.2 l := by
  cases l with
  | nil => rfl
  | cons y l => simp [endPos, List.getLast?_cons]

theorem endPos_le (P : PObj K) (cs : List (ApiCall K)) (s : PState K) : s.world.pos ≤ endPos s.world.pos (transcript A F P ω cs s) := by
  induction cs generalizing s with
  | nil => exact le_refl _
  | cons c cs ih =>
    rw [transcript, endPos_cons]
    exact (C90_forward P c s).trans (ih _)

/-- What is seen of a sequence of calls depends only on the random numbers drawn by it: neither on those drawn before, nor on those that come after. -/
theorem C90_causal (P : PObj K) (cs : List (ApiCall K)) (s : PState K)
    (h : ∀ n, s.world.pos ≤ n → n < endPos s.world.pos (transcript A F P ω cs s) → ω' n = ω n) :
    transcript A F P ω' cs s = transcript A F P ω cs s := by
  induction cs generalizing s with
  | nil => rfl
  | cons c cs ih =>
    rw [transcript, endPos_cons] at h
    have e : c.act A F P ω' s = c.act A F P ω s :=
      (act_causal P c s).2 fun n h1 h2 => h n h1 (h2.trans_le (endPos_le P cs _))
    rw [transcript, transcript, e, ih _ fun n h1 h2 => h n ((C90_forward P c s).trans h1) h2]

/-! ## Samples -/

/-- The positions of the random generator, the numbers of records, and whether the call succeeded, after each call. -/
def drawn (p : Params ℚ) (ω : Nat → ℚ) (cs : List (ApiCall ℚ)) : List (Nat × Nat × Bool) :=
  (transcript Arith.exact Fun.toy (objOf p) ω cs (initState Arith.exact Fun.toy (objOf p) 0)).map fun x => (x.2.2, records x.2.1, x.1.toOption.isSome)

/-- Random and exact seeding, one particle in cell (0, 0), steps, a target-time run and a call that fails for want of start locations. -/
def drawCalls : List (ApiCall ℚ) :=
  [.generate (.int 3) (.list [.int 2]) (.list [.int 2]) (.int 0) (.str "random") none, .run none 10,
   .generate (.int 2) (.list [.int 2, .int 0]) (.list [.int 2, .int 0]) (.int 0) (.str "exact") none, .run (some (.fin 9)) 10, .run none 10,
   .generate (.int 1) (.list [.int 2]) (.list []) (.int 0) (.str "random") none]

/-- C90: two numbers for each random seed, then one for each of the three particles; none for exact seeds; one for the only move on the way to the
target time; one for each particle except that in cell (0, 0); one before the exception. -/
example : drawn chanStill (fun _ => 1 / 2) drawCalls =
    [(6, 3, true), (9, 6, true), (9, 8, true), (10, 9, true), (14, 9, true), (15, 9, false)] ∧ diffDraw (objOf chanStill) = 0 := by decide +kernel

/-- C90: with diffusion one more for each recorded move. -/
example : drawn chan (fun _ => 1 / 2) drawCalls =
    [(6, 3, true), (12, 6, true), (12, 8, true), (14, 9, true), (18, 9, true), (19, 9, false)] ∧ diffDraw (objOf chan) = 1 := by decide +kernel

/-- C90: the stream may continue differently after the nineteen numbers. -/
example : transcript Arith.exact Fun.toy (objOf chan) (fun n => if n < 19 then 1 / 2 else 1 / 3) drawCalls (initState Arith.exact Fun.toy (objOf chan) 0) =
    transcript Arith.exact Fun.toy (objOf chan) (fun _ => 1 / 2) drawCalls (initState Arith.exact Fun.toy (objOf chan) 0) := by
  have e : endPos 0 (transcript Arith.exact Fun.toy (objOf chan) (fun _ => 1 / 2) drawCalls (initState Arith.exact Fun.toy (objOf chan) 0)) = 19 := by
    decide +kernel
  exact C90_causal _ _ _ fun n _ h => if_pos (by rwa [show (initState Arith.exact Fun.toy (objOf chan) 0).world.pos = 0 from rfl, e] at h)

/-- C90: but not after nine of them: the travel times use the later ones. -/
example :
    (transcript Arith.exact Fun.toy (objOf chan) (fun n => if n < 9 then 1 / 2 else 1 / 3) drawCalls (initState Arith.exact Fun.toy (objOf chan) 0)).map (fun x => x.2.1.map (·.times)) ≠
    (transcript Arith.exact Fun.toy (objOf chan) (fun _ => 1 / 2) drawCalls (initState Arith.exact Fun.toy (objOf chan) 0)).map (fun x => x.2.1.map (·.times)) := by
  decide +kernel

end Dorado
