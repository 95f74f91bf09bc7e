import Verif.Model.RunStmt

/-! Vocabulary shared by the property statements: valid inputs, well-formed objects, draws, call histories. -/

namespace Dorado

variable {K : Type} [Field K] [LinearOrder K]

/-- Well-formed object: common shape, finite fields (stage may be NaN), positive distances, gamma in [0,1], non-negative
dry depth. Guaranteed by the constructor for finite inputs (see `Props/Init.lean`). -/
structure Good (P : PObj K) : Prop where
  stage_rows : P.stage.rows = P.depth.rows
  stage_cols : P.stage.cols = P.depth.cols
  ct_rows : P.cellType.rows = P.depth.rows
  ct_cols : P.cellType.cols = P.depth.cols
  depth_fin : ∀ i j, i < P.depth.rows → j < P.depth.cols → ∃ d, P.depth.at' i j = .fin d
  stage_fin : ∀ i j, i < P.depth.rows → j < P.depth.cols → P.stage.at' i j = .nan ∨ ∃ d, P.stage.at' i j = .fin d
  qx_fin : ∀ i j, i < P.depth.rows → j < P.depth.cols → ∃ d, P.qx.at' i j = .fin d
  qy_fin : ∀ i j, i < P.depth.rows → j < P.depth.cols → ∃ d, P.qy.at' i j = .fin d
  dist_pos : ∀ k, k < 9 → ∃ d, P.distances k = .fin d ∧ 0 < d
  ivec_fin : ∀ k, k < 9 → ∃ d, P.ivec k = .fin d
  jvec_fin : ∀ k, k < 9 → ∃ d, P.jvec k = .fin d
  gamma_nonneg : 0 ≤ P.gamma
  gamma_le : P.gamma ≤ 1
  dry_nonneg : 0 ≤ P.dryDepth

/-- Cell `(i,j)` is an interior cell of the grid. -/
def Interior (P : PObj K) (i j : Nat) : Prop :=
  1 ≤ i ∧ i + 1 < P.depth.rows ∧ 1 ≤ j ∧ j + 1 < P.depth.cols

instance (P : PObj K) (i j : Nat) : Decidable (Interior P i j) := by unfold Interior; infer_instance

/-- Every in-range entry is a finite number or NaN. -/
def Grid.FinOrNan (g : Grid (Fl K)) : Prop :=
  ∀ i j, i < g.rows → j < g.cols → g.at' i j = .nan ∨ ∃ x, g.at' i j = .fin x

/-- Valid input parameters: arrays without infinities (NaN allowed), `gamma` in [0,1], non-negative dry depth; overridden
direction tables are finite with positive distances. Omitted parameters are fine. -/
structure ValidParams (p : Params K) : Prop where
  depth : ∀ g, p.depth = some g → g.FinOrNan
  stage : ∀ g, p.stage = some g → g.FinOrNan
  topography : ∀ g, p.topography = some g → g.FinOrNan
  qx : ∀ g, p.qx = some g → g.FinOrNan
  qy : ∀ g, p.qy = some g → g.FinOrNan
  u : ∀ g, p.u = some g → g.FinOrNan
  v : ∀ g, p.v = some g → g.FinOrNan
  gamma : ∀ x, p.gamma = some x → 0 ≤ x ∧ x ≤ 1
  dryDepth : ∀ x, p.dryDepth = some x → 0 ≤ x
  distances : ∀ t, p.distances = some t → ∀ k, k < 9 → ∃ d, t k = .fin d ∧ 0 < d
  ivec : ∀ t, p.ivec = some t → ∀ k, k < 9 → ∃ d, t k = .fin d
  jvec : ∀ t, p.jvec = some t → ∀ k, k < 9 → ∃ d, t k = .fin d

/-- A stream of uniform draws in [0,1). -/
def Draws (ω : Nat → K) : Prop := ∀ n, 0 ≤ ω n ∧ ω n < 1

/-- `P` is the result of `Particles(params)` for some valid `params`. -/
def Built (A : Arith K) (F : Fun K A) (P : PObj K) : Prop := ∃ p, ValidParams p ∧ initParticles A F p = .ok P

/-- The step tables (row and column offsets of the nine neighbours) were not overridden. -/
def DefaultWalk (P : PObj K) : Prop := P.iwalk = defaultIwalk ∧ P.jwalk = defaultJwalk

section
variable [FloorRing K] (A : Arith K) (F : Fun K A)

/-- States reachable by any history of API calls. Objects satisfy `Ob`, every call uses some stream of draws satisfying `Ω`,
every `generate_particles` request (parsed locations and seed time) satisfies `Sd` and has a non-negative count.
Between calls the random generator may be reset or used by others (`reseed`). A call that raises may be caught and the object used further:
after `run_iteration` it is in the state left behind by the statements executed so far (`failed`); after `generate_particles` only the random
generator has moved (C34, an instance of `reseed`).
`previous_walk_data` may be the walk data of any reachable object with the same tracked variables. -/
inductive Reach (Ob : PObj K → Prop) (Ω : (Nat → K) → Prop) (Sd : PObj K → List Int → List Int → Fl K → Prop) :
    PObj K → PState K → Prop
  | new {P} (pos : Nat) (hP : Ob P) : Reach Ob Ω Sd P (initState A F P pos)
  | generate {P s s' ω np xs ys time method n x y t m} (h : Reach Ob Ω Sd P s) (hω : Ω ω)
      (hc : genInputCheck np xs ys time method = .ok (n, x, y, t, m)) (hn : 0 ≤ n) (hs : Sd P x y t)
      (hg : generateParticles A P ω s np xs ys time method none = .ok s') : Reach Ob Ω Sd P s'
  | continue {P s s' P' s0 prev ω np xs ys time method n x y t m} (h : Reach Ob Ω Sd P s) (h0 : Reach Ob Ω Sd P' s0)
      (hprev : s0.walk = some prev) (hvars : P'.particleVars = P.particleVars) (hω : Ω ω)
      (hc : genInputCheck np xs ys time method = .ok (n, x, y, t, m)) (hn : 0 ≤ n) (hs : Sd P x y t)
      (hg : generateParticles A P ω s np xs ys time method (some prev) = .ok s') : Reach Ob Ω Sd P s'
  | run {P s ω target maxIter res} (h : Reach Ob Ω Sd P s) (hω : Ω ω)
      (hr : runIteration A F P ω s target maxIter = .ok res) : Reach Ob Ω Sd P res.state
  | failed {P s s' ω target maxIter e} (h : Reach Ob Ω Sd P s) (hω : Ω ω)
      (hr : runStmt A F P ω target maxIter s = (.error e, s')) : Reach Ob Ω Sd P s'
  | clear {P s} (h : Reach Ob Ω Sd P s) : Reach Ob Ω Sd P (clearWalkData s)
  | reseed {P s} (pos : Nat) (h : Reach Ob Ω Sd P s) : Reach Ob Ω Sd P { s with world := { s.world with pos := pos } }

variable {A F}

/-- Histories with weaker conditions on the objects. -/
theorem Reach.mono {Ob Ob' : PObj K → Prop} {Ω : (Nat → K) → Prop} {Sd : PObj K → List Int → List Int → Fl K → Prop} {P : PObj K}
    {s : PState K} (h : Reach A F Ob Ω Sd P s) (hO : ∀ P, Ob P → Ob' P) : Reach A F Ob' Ω Sd P s := by
  induction h with
  | new pos hP => exact .new pos (hO _ hP)
  | generate _ hω hc hn hs hg ih => exact .generate ih hω hc hn hs hg
  | «continue» _ _ hprev hvars hω hc hn hs hg ih ih0 => exact .continue ih ih0 hprev hvars hω hc hn hs hg
  | run _ hω hr ih => exact .run ih hω hr
  | failed _ hω hr ih => exact .failed ih hω hr
  | clear _ ih => exact .clear ih
  | reseed pos _ ih => exact .reseed pos ih

end

end Dorado
