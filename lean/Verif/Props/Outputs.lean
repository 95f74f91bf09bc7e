import Verif.Lemmas.Outputs
import Verif.Spec.Demo

/-! # C92: intermediate targets -/

set_option linter.unusedSectionVars false
set_option synthInstance.maxSize 1024

namespace Dorado

variable {K : Type} [Field K] [LinearOrder K] [IsStrictOrderedRing K] [FloorRing K] {F : Fun K (Arith.exact : Arith K)}

/-- The steps of `Outputs` against a direct walk. -/
theorem outputs_walk {Ob : PObj K → Prop} (hOb : ∀ P, Ob P → Standard F P) {P : PObj K} {ω : Nat → K} (hω : NonzeroDraws Arith.exact ω) {T : K}
    {s : PState K} {rr : RunResult K} (hO : Outputs F P ω T s rr)
    (h : Reach Arith.exact F Ob (NonzeroDraws Arith.exact) (FinSeed Arith.exact) P s) (hn : s.np = 1) {row : Row K}
    (hrow : s.walk = some (ofRows (keysOf P) [row])) (he : 0 ≤ firstEstimate row.ts) {s2 : PState K}
    (h2 : Single Arith.exact F P ω (.fin T) s s2) : some rr.returned = s2.walk := by
  have hG : ∀ P, Ob P → Good P := fun P hP => (hOb P hP).built.good
  induction hO generalizing s2 row with
  | last hr hm =>
    obtain ⟨r0, hrow0, hf⟩ := h.row hG hn hrow
    obtain ⟨e1, -, e3⟩ := runIteration_single hrow0 hf hr hm
    rw [← e1, e3.unique h2]
  | @next s r1 r T1 m1 hT hr ho hrest ih =>
    obtain ⟨r0, hrow0, hf⟩ := h.row hG hn hrow
    obtain ⟨e1, e2, e3⟩ := runIteration_single hrow0 hf hr ho.limit
    have h' := Reach.run h hω hr
    obtain ⟨q, hq, -⟩ := h'.row hG e2 e1
    obtain ⟨a, b, hp, hin, hpl⟩ := ho.place
    have hret : r1.returned = ofRows (keysOf P) [q] := by
      have := e1.symm.trans hq.1
      exact Option.some.inj this
    rw [hret] at hp
    obtain ⟨q', hq', hp⟩ := lastPos_ofRows.1 hp
    cases hq'
    have hlong : q.xs = row.xs ∨ 1 / 10 ≤ firstEstimate q.ts := by
      rcases ho.long with h0 | ⟨xs, ys, ts, h0, h1⟩
      · rw [hret, hrow] at h0
        left
        have : some (q.xs, q.ys, q.ts) = some (row.xs, row.ys, row.ts) := h0
        simp only [Option.some.injEq, Prod.mk.injEq] at this
        exact this.1
      · rw [hret] at h0
        right
        have : some (q.xs, q.ys, q.ts) = some (xs, ys, ts) := h0
        simp only [Option.some.injEq, Prod.mk.injEq] at this
        rw [this.2.2]
        exact h1
    obtain ⟨k1, s3, k2, k3, -⟩ := Single.split hOb h hn hω hT hrow hq.1 he hp hin hpl hlong e3 h2
    rw [← k3]
    exact ih h' e2 hq.1 k1 k2

/-- Exact arithmetic, non-zero draws, an object with one particle at any point of its history. Bringing the particle to `T` in several calls, with
any intermediate targets up to `T`, gives the walk data of the single call with target `T`; provided the intermediate calls end in the ordinary way
(not by the limit, not at a dead end away from edges, not after a last step shorter than 1/10) and none of the others is stopped by its limit. -/
theorem C92_outputs {Ob : PObj K → Prop} (hOb : ∀ P, Ob P → Standard F P) {P : PObj K} {s : PState K}
    (h : Reach Arith.exact F Ob (NonzeroDraws Arith.exact) (FinSeed Arith.exact) P s) (hn : s.np = 1) {ω : Nat → K}
    (hω : NonzeroDraws Arith.exact ω) (he : ∀ xs ys ts, s.walk.bind (·.lists 0) = some (xs, ys, ts) → 0 ≤ firstEstimate ts) {T : K}
    {rr : RunResult K} (hO : Outputs F P ω T s rr) {m : Int} {r : RunResult K}
    (hr : runIteration Arith.exact F P ω s (some (.fin T)) m = .ok r) (hm : Unlimited m s r) : rr.returned = r.returned := by
  have hG : ∀ P, Ob P → Good P := fun P hP => (hOb P hP).built.good
  cases hw : s.walk with
  | none => unfold runIteration at hr; rw [hw] at hr; cases hr
  | some wd =>
    obtain ⟨row, hrow, hf⟩ := h.row hG hn hw
    obtain ⟨e1, -, e3⟩ := runIteration_single hrow hf hr hm
    have := outputs_walk hOb hω hO h hn hrow.1 (he row.xs row.ys row.ts (by rw [hrow.1]; rfl)) e3
    rw [e1] at this
    exact Option.some.inj this

/-- One intermediate target, ending away from edge cells: not only the walk data but the whole object, including its place in the random stream, is
that of the direct call. -/
theorem C92_state {Ob : PObj K → Prop} (hOb : ∀ P, Ob P → Standard F P) {P : PObj K} {s : PState K}
    (h : Reach Arith.exact F Ob (NonzeroDraws Arith.exact) (FinSeed Arith.exact) P s) (hn : s.np = 1) {ω : Nat → K}
    (hω : NonzeroDraws Arith.exact ω) (he : ∀ xs ys ts, s.walk.bind (·.lists 0) = some (xs, ys, ts) → 0 ≤ firstEstimate ts) {T1 T2 : K}
    (hT : T1 ≤ T2) {m1 m2 m : Int} {r1 r2 r : RunResult K} (h1 : runIteration Arith.exact F P ω s (some (.fin T1)) m1 = .ok r1)
    (ho : Ordinary F P m1 s r1) (hedge : ∀ a b : Nat, r1.returned.lastPos 0 = some ((a : Int), (b : Int)) → ¬ NearEdge P a b)
    (h2 : runIteration Arith.exact F P ω r1.state (some (.fin T2)) m2 = .ok r2) (hm2 : Unlimited m2 r1.state r2)
    (hr : runIteration Arith.exact F P ω s (some (.fin T2)) m = .ok r) (hm : Unlimited m s r) : r2.state = r.state := by
  have hG : ∀ P, Ob P → Good P := fun P hP => (hOb P hP).built.good
  cases hw : s.walk with
  | none => unfold runIteration at hr; rw [hw] at hr; cases hr
  | some wd =>
    obtain ⟨row, hrow, hf⟩ := h.row hG hn hw
    obtain ⟨-, -, d3⟩ := runIteration_single hrow hf hr hm
    obtain ⟨e1, e2, e3⟩ := runIteration_single hrow hf h1 ho.limit
    have h' := Reach.run h hω h1
    obtain ⟨q, hq, hqf⟩ := h'.row hG e2 e1
    obtain ⟨-, -, f3⟩ := runIteration_single hq hqf h2 hm2
    obtain ⟨a, b, hp, hin, hpl⟩ := ho.place
    have hne := hedge a b hp
    have hret : r1.returned = ofRows (keysOf P) [q] := by
      have := e1.symm.trans hq.1
      exact Option.some.inj this
    rw [hret] at hp
    obtain ⟨q', hq', hp⟩ := lastPos_ofRows.1 hp
    cases hq'
    have hlong : q.xs = row.xs ∨ 1 / 10 ≤ firstEstimate q.ts := by
      rcases ho.long with h0 | ⟨xs, ys, ts, h0, h1⟩
      · rw [hret, hrow.1] at h0
        left
        have : some (q.xs, q.ys, q.ts) = some (row.xs, row.ys, row.ts) := h0
        simp only [Option.some.injEq, Prod.mk.injEq] at this
        exact this.1
      · rw [hret] at h0
        right
        have : some (q.xs, q.ys, q.ts) = some (xs, ys, ts) := h0
        simp only [Option.some.injEq, Prod.mk.injEq] at this
        rw [this.2.2]
        exact h1
    obtain ⟨-, s3, k2, -, k4⟩ := Single.split hOb h hn hω hT hrow.1 hq.1 (he row.xs row.ys row.ts (by rw [hrow.1]; rfl)) hp hin hpl hlong e3 d3
    rw [f3.unique k2, k4 hne]

/-- The hypotheses: one particle at (1,2); with target 20 it goes to (2,2), from there with target 30 to (3,2), as it does with target 30 at once. -/
example : ∃ (s : PState ℚ) (r1 r2 r : RunResult ℚ),
    Reach Arith.exact Fun.toy (Standard Fun.toy) (NonzeroDraws Arith.exact) (FinSeed Arith.exact) (objOf chanFull) s ∧ s.np = 1 ∧
    NonzeroDraws (K := ℚ) Arith.exact (fun _ => 1 / 2) ∧ (∀ xs ys ts, s.walk.bind (·.lists 0) = some (xs, ys, ts) → 0 ≤ firstEstimate ts) ∧
    runIteration Arith.exact Fun.toy (objOf chanFull) (fun _ => 1 / 2) s (some (.fin 20)) 10 = .ok r1 ∧ Ordinary Fun.toy (objOf chanFull) 10 s r1 ∧
    (∀ a b : Nat, r1.returned.lastPos 0 = some ((a : Int), (b : Int)) → ¬ NearEdge (objOf chanFull) a b) ∧
    runIteration Arith.exact Fun.toy (objOf chanFull) (fun _ => 1 / 2) r1.state (some (.fin 30)) 10 = .ok r2 ∧ Unlimited 10 r1.state r2 ∧
    runIteration Arith.exact Fun.toy (objOf chanFull) (fun _ => 1 / 2) s (some (.fin 30)) 10 = .ok r ∧ Unlimited 10 s r ∧
    r1.returned.lastPos 0 = some (2, 2) ∧ r.returned.lastPos 0 = some (3, 2) ∧ Outputs Fun.toy (objOf chanFull) (fun _ => 1 / 2) 30 s r2 := by
  obtain ⟨s, r1, h, h1, hf⟩ := demo_run (p := chanFull) (Ob := Standard Fun.toy) (ω' := fun _ => 1 / 2) (n := 1) (xs := [1]) (ys := [2])
    (runs := []) (tgt := some (.fin 20)) (mi := 10)
    (f := fun s r => (s.np, [s.walk.bind (·.lists 0), r.returned.lists 0, r.state.walk.bind (·.lists 0),
      (runIteration Arith.exact Fun.toy (objOf chanFull) (fun _ => 1 / 2) r.state (some (.fin 30)) 10).toOption.bind (·.returned.lists 0),
      (runIteration Arith.exact Fun.toy (objOf chanFull) (fun _ => 1 / 2) s (some (.fin 30)) 10).toOption.bind (·.returned.lists 0)],
      r.returned.lastPos 0,
      (runIteration Arith.exact Fun.toy (objOf chanFull) (fun _ => 1 / 2) s (some (.fin 30)) 10).toOption.bind (·.returned.lastPos 0)))
    (b := (1, [some ([1], [2], [.fin 0]), some ([1, 2], [2, 2], [.fin 0, .fin (5670000012600000007 / 360000000000000000)]),
      some ([1, 2], [2, 2], [.fin 0, .fin (5670000012600000007 / 360000000000000000)]),
      some ([1, 2, 3], [2, 2, 2], [.fin 0, .fin (5670000012600000007 / 360000000000000000), .fin (5670000012600000007 / 180000000000000000)]),
      some ([1, 2, 3], [2, 2, 2], [.fin 0, .fin (5670000012600000007 / 360000000000000000), .fin (5670000012600000007 / 180000000000000000)])],
      some (2, 2), some (3, 2))) chanFull_standard half_draws finSeed_zero (by decide +kernel)
  simp only [Prod.mk.injEq, List.cons.injEq] at hf
  obtain ⟨g1, ⟨g2, g3, g4, g7, g8, -⟩, g5, g6⟩ := hf
  cases h2 : runIteration Arith.exact Fun.toy (objOf chanFull) (fun _ => 1 / 2) r1.state (some (.fin 30)) 10 with
  | error e => rw [h2] at g7; simp [Except.toOption] at g7
  | ok r2 =>
    cases h3 : runIteration Arith.exact Fun.toy (objOf chanFull) (fun _ => 1 / 2) s (some (.fin 30)) 10 with
    | error e => rw [h3] at g8; simp [Except.toOption] at g8
    | ok r =>
      rw [h2] at g7
      rw [h3] at g8
      rw [h3] at g6
      simp only [Except.toOption, Option.bind_some] at g6 g7 g8
      have lim : ∀ {s : PState ℚ} {r : RunResult ℚ} {xs ys ts xs' ys' ts'}, s.walk.bind (·.lists 0) = some (xs, ys, ts) →
          r.returned.lists 0 = some (xs', ys', ts') → (xs'.length : Int) < xs.length + max 1 10 → Unlimited 10 s r := by
        intro s r xs ys ts xs' ys' ts' a1 a2 a3 b1 b2 b3 b4 b5 b6 c1 c2
        rw [a1] at c1
        rw [a2] at c2
        cases c1
        cases c2
        exact a3
      have hfree : ¬ NearEdge (objOf chanFull) 2 2 ∧ ¬ (flowOf Fun.toy (objOf chanFull)).DeadEnd 2 2 := by
        have := chanFull_free
        constructor
        · exact fun h0 => this fun a b hab _ => by
            simp only [Prod.mk.injEq] at hab
            obtain ⟨rfl, rfl⟩ : a = 2 ∧ b = 2 := by omega
            exact Or.inl h0
        · exact fun h0 => this fun a b hab _ => by
            simp only [Prod.mk.injEq] at hab
            obtain ⟨rfl, rfl⟩ : a = 2 ∧ b = 2 := by omega
            exact Or.inr h0
      have ho : Ordinary Fun.toy (objOf chanFull) 10 s r1 :=
        ⟨lim g2 g3 (by norm_num), ⟨2, 2, g5, by unfold Interior; decide +kernel, Or.inr hfree.2⟩, Or.inr ⟨_, _, _, g3, by decide +kernel⟩⟩
      refine ⟨s, r1, r2, r, h, g1, half_draws, fun xs ys ts h0 => ?_, h1, ho, fun a b h0 => ?_, h2, lim g4 g7 (by norm_num), h3,
        lim g2 g8 (by norm_num), g5, g6, .next (by norm_num) h1 ho (.last h2 (lim g4 g7 (by norm_num)))⟩
      · rw [g2] at h0
        cases h0
        decide +kernel
      · rw [g5] at h0
        simp only [Option.some.injEq, Prod.mk.injEq] at h0
        obtain ⟨rfl, rfl⟩ : a = 2 ∧ b = 2 := by omega
        exact hfree.1

/-- A last step shorter than 1/10 is rightly excluded: in the channel with small cells the particle goes to cell 2 with target 0.12, and from there on
to cell 3 with the same target; the single call stops at cell 2. -/
theorem C92_short_counterexample : ∃ (s : PState ℚ) (r1 r2 r : RunResult ℚ),
    Reach Arith.exact Fun.toy (Standard Fun.toy) (NonzeroDraws Arith.exact) (FinSeed Arith.exact) (objOf chanShort) s ∧ s.np = 1 ∧
    runIteration Arith.exact Fun.toy (objOf chanShort) (fun _ => 1 / 2) s (some (.fin (12 / 100))) 10 = .ok r1 ∧
    runIteration Arith.exact Fun.toy (objOf chanShort) (fun _ => 1 / 2) r1.state (some (.fin (12 / 100))) 10 = .ok r2 ∧
    runIteration Arith.exact Fun.toy (objOf chanShort) (fun _ => 1 / 2) s (some (.fin (12 / 100))) 10 = .ok r ∧
    r1.returned.lastPos 0 = some (2, 2) ∧ ¬ Trapped Fun.toy (objOf chanShort) (2, 2) ∧
    r2.returned.xinds = [[1, 2, 3]] ∧ r.returned.xinds = [[1, 2]] := by
  obtain ⟨s, r, r', h, -, hr, hr', hp, ht, hs, hx, hx'⟩ := C25_short_step_counterexample
  refine ⟨s, r, r', r, h, ?_, hr, hr', hr, hp, ht, hx', hx⟩
  cases hw : s.walk with
  | none => rw [hw] at hs; cases hs
  | some wd =>
    obtain ⟨-, h0 | ⟨rows, hrow⟩⟩ := h.state fun P hP => hP.built.good
    · rw [hw] at h0; cases h0
    · rw [hrow.1] at hs
      simp only [Option.map_some, ofRows, Option.some.injEq] at hs
      have := congrArg List.length hs
      rw [hrow.2]
      simpa using this

/-- Random numbers of the counterexample with two particles. -/
def twoDraws : Nat → ℚ := fun n => (((5 * n * n + 3 * n + 5) % 7 : Nat) : ℚ) / 8 + 1 / 16

theorem twoDraws_nonzero : NonzeroDraws (K := ℚ) Arith.exact twoDraws := by
  have h : ∀ n, 0 < twoDraws n ∧ twoDraws n < 1 := fun n => by
    unfold twoDraws
    have h1 : (5 * n * n + 3 * n + 5) % 7 < 7 := Nat.mod_lt _ (by norm_num)
    have h2 : (((5 * n * n + 3 * n + 5) % 7 : Nat) : ℚ) ≤ 6 := by exact_mod_cast Nat.lt_succ_iff.1 h1
    have h3 : (0 : ℚ) ≤ (((5 * n * n + 3 * n + 5) % 7 : Nat) : ℚ) := Nat.cast_nonneg _
    constructor <;> linarith
  exact ⟨fun n => ⟨(h n).1.le, (h n).2⟩, fun n x hx _ => (mul_pos hx (h n).1).ne'⟩

/-- With two particles the claim fails: the random numbers are used particle by particle within a call, so an intermediate target changes which
particle gets which. Both calls with target 10 end in the ordinary way, at cell (2,2) after steps of about 15; the walks to 30 differ. -/
theorem C92_two_counterexample : ∃ (s : PState ℚ) (r1 r2 r : RunResult ℚ),
    Reach Arith.exact Fun.toy (Standard Fun.toy) (NonzeroDraws Arith.exact) (FinSeed Arith.exact) (objOf chanFull) s ∧ s.np = 2 ∧
    NonzeroDraws (K := ℚ) Arith.exact twoDraws ∧
    runIteration Arith.exact Fun.toy (objOf chanFull) twoDraws s (some (.fin 10)) 10 = .ok r1 ∧
    runIteration Arith.exact Fun.toy (objOf chanFull) twoDraws r1.state (some (.fin 30)) 10 = .ok r2 ∧
    runIteration Arith.exact Fun.toy (objOf chanFull) twoDraws s (some (.fin 30)) 10 = .ok r ∧
    r1.returned.yinds = [[2, 2], [2, 2]] ∧ r2.returned.yinds = [[2, 2, 3], [2, 2, 2]] ∧ r.returned.yinds = [[2, 2, 2], [2, 3]] := by
  obtain ⟨s, r1, h, h1, hf⟩ := demo_run (p := chanFull) (Ob := Standard Fun.toy) (ω := twoDraws) (ω' := twoDraws) (n := 2) (xs := [1, 1])
    (ys := [2, 2]) (runs := []) (tgt := some (.fin 10)) (mi := 10)
    (f := fun s r => (s.np, r.returned.yinds,
      (runIteration Arith.exact Fun.toy (objOf chanFull) twoDraws r.state (some (.fin 30)) 10).toOption.map (·.returned.yinds),
      (runIteration Arith.exact Fun.toy (objOf chanFull) twoDraws s (some (.fin 30)) 10).toOption.map (·.returned.yinds)))
    (b := (2, [[2, 2], [2, 2]], some [[2, 2, 3], [2, 2, 2]], some [[2, 2, 2], [2, 3]]))
    chanFull_standard twoDraws_nonzero finSeed_zero (by decide +kernel)
  simp only [Prod.mk.injEq] at hf
  obtain ⟨g1, g2, g3, g4⟩ := hf
  cases h2 : runIteration Arith.exact Fun.toy (objOf chanFull) twoDraws r1.state (some (.fin 30)) 10 with
  | error e => rw [h2] at g3; simp [Except.toOption] at g3
  | ok r2 =>
    cases h3 : runIteration Arith.exact Fun.toy (objOf chanFull) twoDraws s (some (.fin 30)) 10 with
    | error e => rw [h3] at g4; simp [Except.toOption] at g4
    | ok r =>
      rw [h2] at g3
      rw [h3] at g4
      simp only [Except.toOption, Option.map_some, Option.some.injEq] at g3 g4
      exact ⟨s, r1, r2, r, h, g1, twoDraws_nonzero, h1, h2, h3, g2, g3, g4⟩

end Dorado
