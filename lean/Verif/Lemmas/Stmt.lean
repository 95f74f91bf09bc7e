import Verif.Lemmas.PyM
import Verif.Lemmas.Seed

/-! Helper lemmas: the statement-level model refines the functional one. -/

set_option linter.unusedSectionVars false

namespace Dorado

variable {K : Type} [Field K] [LinearOrder K] [IsStrictOrderedRing K] [FloorRing K] {A : Arith K}

/-- Same value and same draws, or the same exception with at most draws consumed. -/
def Refines {α : Type} (m : PyM (PState K) α) (s : PState K) (x : Except PyErr (α × Nat)) : Prop :=
  (∀ a pos', x = .ok (a, pos') → m s = (.ok a, s.atPos pos')) ∧ ∀ e, x = .error e → ∃ pos', m s = (.error e, s.atPos pos')

theorem randomSeedsStmt_refines (ω : Nat → K) (locs : List Int) (s : PState K) (n : Nat) :
    Refines (randomSeedsStmt A ω locs n) s (randomSeeds A ω s.world.pos locs n) := by
  unfold randomSeeds
  have key : ∀ (L : List Nat) (s : PState K), Refines (randomSeedsStmt A ω locs L.length) s (mapAcc (fun pos (_ : Nat) => do
      let c ← randomPickSeed A locs (ω pos)
      return (c, pos + 1)) s.world.pos L) := by
    intro L
    induction L with
    | nil => intro s; exact ⟨fun a pos' h => by cases h; rfl, fun e h => by cases h⟩
    | cons b L ih =>
      intro s
      have hrun : randomSeedsStmt A ω locs (b :: L).length s = (do
          PyM.assign fun s => if locs = [] then s else s.atPos (s.world.pos + 1)
          let c ← PyM.lift (randomPickSeed A locs (ω s.world.pos))
          let cs ← randomSeedsStmt A ω locs L.length
          return c :: cs : PyM (PState K) (List Int)) s := PyM.ok_run rfl
      cases hp : randomPickSeed A locs (ω s.world.pos) with
      | error e =>
        refine ⟨fun a pos' h => ?_, fun e' h => ⟨if locs = [] then s.world.pos else s.world.pos + 1, ?_⟩⟩
        · simp only [mapAcc, hp] at h; cases h
        · simp only [mapAcc, hp] at h
          cases h
          rw [hrun, PyM.assign_run, PyM.lift_error hp]
          split <;> rfl
      | ok c =>
        have hne : locs ≠ [] := by
          rintro rfl
          cases hp
        obtain ⟨h1, h2⟩ := ih (s.atPos (s.world.pos + 1))
        refine ⟨fun a pos' h => ?_, fun e h => ?_⟩
        · simp only [mapAcc, bind_ok, pure_ok, Prod.exists, Prod.mk.injEq] at h
          obtain ⟨c', s1, ⟨c'', hc, rfl, rfl⟩, bs, s2, hbs, rfl, rfl⟩ := h
          rw [hp] at hc
          cases hc
          rw [hrun, PyM.assign_run, if_neg hne, PyM.lift_run hp, PyM.ok_run (h1 bs s2 hbs)]
          rfl
        · have : mapAcc (fun pos (_ : Nat) => do
              let c ← randomPickSeed A locs (ω pos)
              return (c, pos + 1)) (s.world.pos + 1) L = .error e := by
            simp only [mapAcc, hp, ok_bind, pure, Except.pure] at h ⊢
            cases hm : mapAcc (fun pos (_ : Nat) => do
              let c ← randomPickSeed A locs (ω pos)
              Except.ok (c, pos + 1)) (s.world.pos + 1) L with
            | error e' =>
              rw [hm] at h
              cases h
              rfl
            | ok v => rw [hm] at h; cases h
          obtain ⟨pos', h3⟩ := h2 e this
          refine ⟨pos', ?_⟩
          rw [hrun, PyM.assign_run, if_neg hne, PyM.lift_run hp, PyM.error_run h3]
          rfl
  have := key (List.range n) s
  rwa [List.length_range] at this

theorem startIndicesStmt_refines (ω : Nat → K) (np : Int) (xs ys : List Int) (m : Method) (s : PState K) :
    Refines (startIndicesStmt A ω np xs ys m) s ((startIndices A ω s.world.pos np xs ys m).map fun r => ((r.1, r.2.1), r.2.2)) := by
  cases m with
  | random =>
    obtain ⟨a1, a2⟩ := randomSeedsStmt_refines (A := A) ω xs s np.toNat
    unfold startIndicesStmt startIndices
    cases e1 : randomSeeds A ω s.world.pos xs np.toNat with
    | error e =>
      obtain ⟨pos', h1⟩ := a2 e e1
      exact ⟨fun _ _ h => (by cases h), fun e' h => (by cases h; exact ⟨pos', PyM.error_run h1⟩)⟩
    | ok r =>
      obtain ⟨x, p1⟩ := r
      have h1 := a1 x p1 e1
      obtain ⟨b1, b2⟩ := randomSeedsStmt_refines (A := A) ω ys (s.atPos p1) np.toNat
      simp only [ok_bind]
      cases e2 : randomSeeds A ω p1 ys np.toNat with
      | error e =>
        obtain ⟨pos', h2⟩ := b2 e e2
        exact ⟨fun _ _ h => (by cases h), fun e' h => (by cases h; exact ⟨pos', by rw [PyM.ok_run h1, PyM.error_run h2]; rfl⟩)⟩
      | ok r =>
        obtain ⟨y, p2⟩ := r
        have h2 := b1 y p2 e2
        refine ⟨fun a pos' h => ?_, fun e' h => by cases h⟩
        cases h
        rw [PyM.ok_run h1, PyM.ok_run h2]
        rfl
  | exact =>
    unfold startIndicesStmt startIndices
    simp only
    split_ifs
    · exact ⟨fun _ _ h => (by cases h), fun e h => (by cases h; exact ⟨s.world.pos, rfl⟩)⟩
    · cases e1 : exactSeeds xs np xs.length with
      | error e => exact ⟨fun _ _ h => (by cases h), fun e h => (by cases h; exact ⟨s.world.pos, rfl⟩)⟩
      | ok x =>
        cases e2 : exactSeeds ys np xs.length with
        | error e => exact ⟨fun _ _ h => (by cases h), fun e h => (by cases h; exact ⟨s.world.pos, rfl⟩)⟩
        | ok y => exact ⟨fun _ _ h => (by cases h; rfl), fun e h => (by cases h)⟩

/-- The statement-level call returns normally in state `s'` if the functional one yields `s'`; otherwise both raise the same
exception and only the random stream may have moved. -/
theorem generateStmt_refines (P : PObj K) (ω : Nat → K) (s : PState K) (np xs ys time method : PyVal K) (prev : Option (WalkData K)) :
    (∀ s', generateParticles A P ω s np xs ys time method prev = .ok s' →
      generateStmt A P ω np xs ys time method prev s = (.ok (), s')) ∧
    ∀ e, generateParticles A P ω s np xs ys time method prev = .error e →
      ∃ pos', generateStmt A P ω np xs ys time method prev s = (.error e, s.atPos pos') := by
  unfold generateParticles generateStmt generateCore newWalk
  cases ec : genInputCheck np xs ys time method with
  | error e => exact ⟨fun _ h => (by cases h), fun e h => (by cases h; exact ⟨s.world.pos, PyM.lift_error rfl⟩)⟩
  | ok args =>
    obtain ⟨n, x, y, t, m⟩ := args
    rw [PyM.lift_run rfl]
    simp only [ok_bind]
    obtain ⟨a1, a2⟩ := startIndicesStmt_refines (A := A) ω n x y m s
    cases es : startIndices A ω s.world.pos n x y m with
    | error e =>
      obtain ⟨pos', h1⟩ := a2 e (by rw [es]; rfl)
      exact ⟨fun _ h => (by cases h), fun e h => (by cases h; exact ⟨pos', PyM.error_run h1⟩)⟩
    | ok r =>
      obtain ⟨sx, sy, pos'⟩ := r
      have h1 := a1 (sx, sy) pos' (by rw [es]; rfl)
      rw [PyM.ok_run h1]
      simp only [ok_bind]
      cases e1 : mapE (fun i => do let a ← listGet sx i; return [a]) (List.range n.toNat) with
      | error e => exact ⟨fun _ h => (by cases h), fun e h => (by cases h; exact ⟨pos', PyM.lift_error rfl⟩)⟩
      | ok nx =>
        rw [PyM.lift_run rfl]
        cases e2 : mapE (fun i => do let a ← listGet sy i; return [a]) (List.range n.toNat) with
        | error e => exact ⟨fun _ h => (by cases h), fun e h => (by cases h; exact ⟨pos', PyM.lift_error rfl⟩)⟩
        | ok ny =>
          rw [PyM.lift_run rfl]
          cases e3 : startVars P (sx.zip sy) P.particleVars [] with
          | error e => exact ⟨fun _ h => (by cases h), fun e h => (by cases h; exact ⟨pos', PyM.lift_error rfl⟩)⟩
          | ok opt =>
            rw [PyM.lift_run rfl]
            exact ⟨fun _ h => (by cases h; rfl), fun e h => (by cases h)⟩

end Dorado
