import Verif.Spec.Flow

/-! Vocabulary for statements about walk data and draws. -/

namespace Dorado

variable {K : Type} [Field K] [LinearOrder K]

/-- Position recorded as entry `n` of particle `i`. -/
def WalkData.posAt (wd : WalkData K) (i n : Nat) : Option (Int × Int) := do
  let xs ← wd.xinds[i]?
  let ys ← wd.yinds[i]?
  let x ← xs[n]?
  let y ← ys[n]?
  return (x, y)

/-- Travel time recorded as entry `n` of particle `i`. -/
def WalkData.timeAt (wd : WalkData K) (i n : Nat) : Option (Fl K) := do
  let ts ← wd.times[i]?
  ts[n]?

/-- Value of the optional variable `var` recorded as entry `n` of particle `i`. -/
def WalkData.valAt (wd : WalkData K) (var : String) (i n : Nat) : Option (Val K) := do
  let l ← dictGet wd.opt var
  let vs ← l[i]?
  vs[n]?

/-- The histories (rows, columns, times) of particle `i`. -/
def WalkData.lists (wd : WalkData K) (i : Nat) : Option (List Int × List Int × List (Fl K)) := do
  let xs ← wd.xinds[i]?
  let ys ← wd.yinds[i]?
  let ts ← wd.times[i]?
  return (xs, ys, ts)

/-- The history of the optional variable `var` of particle `i`. -/
def WalkData.optList (wd : WalkData K) (var : String) (i : Nat) : Option (List (Val K)) := do
  let l ← dictGet wd.opt var
  l[i]?

/-- The walk data of the first `k` particles. -/
def WalkData.first (k : Nat) (wd : WalkData K) : WalkData K :=
  { xinds := wd.xinds.take k, yinds := wd.yinds.take k, times := wd.times.take k, opt := wd.opt.map fun e => (e.1, e.2.take k) }

/-- The optional variables recorded by an object: the tracked ones other than the three base entries. -/
def OptVar (P : PObj K) (var : String) : Prop := var ∈ P.particleVars ∧ var ≠ "xinds" ∧ var ≠ "yinds" ∧ var ≠ "travel_times"

/-- A draw that stays non-zero when scaled to any positive floating point number. In exact arithmetic: `r ≠ 0`. -/
def NonzeroDraw (A : Arith K) (r : K) : Prop := ∀ x : K, 0 < x → A.rnd x = x → A.rnd (x * r) ≠ 0

/-- A stream of non-zero uniform draws. -/
def NonzeroDraws (A : Arith K) (ω : Nat → K) : Prop := Draws ω ∧ ∀ n, NonzeroDraw A (ω n)

/-- No step has length zero (in exact arithmetic: `dx ≠ 0`, for positive distances). -/
def StepsNonzero (A : Arith K) (P : PObj K) : Prop := ∀ k, k < 9 → A.mul (P.distances k) (.fin P.dx) ≠ .fin 0

/-- The direction vector of the cell itself is zero, as in the default tables. -/
def SelfZero (P : PObj K) : Prop := P.ivec 4 = .fin 0 ∧ P.jvec 4 = .fin 0

/-- Current position of particle `i`. -/
def WalkData.lastPos (wd : WalkData K) (i : Nat) : Option (Int × Int) := do
  let xs ← wd.xinds[i]?
  let ys ← wd.yinds[i]?
  let x ← xs.getLast?
  let y ← ys.getLast?
  return (x, y)

/-- Current travel time of particle `i`. -/
def WalkData.lastTime (wd : WalkData K) (i : Nat) : Option (Fl K) := do
  let ts ← wd.times[i]?
  ts.getLast?

/-- Some cell of the 3×3 window around `(a,b)` is an edge cell (type -1). -/
def NearEdge (P : PObj K) (a b : Nat) : Prop :=
  ∃ i j, i < P.cellType.rows ∧ j < P.cellType.cols ∧ (a ≤ i + 1 ∧ i ≤ a + 1) ∧ (b ≤ j + 1 ∧ j ≤ b + 1) ∧ P.cellType.at' i j = -1

/-- The outer ring of cell types is edge (-1), as in the default. -/
def EdgeRing (P : PObj K) : Prop := ∀ i j, i < P.cellType.rows → j < P.cellType.cols →
  (i = 0 ∨ j = 0 ∨ i + 1 = P.cellType.rows ∨ j + 1 = P.cellType.cols) → P.cellType.at' i j = -1

/-- Interior position of a grid of `R` rows and `C` columns. -/
def Inside (R C : Nat) (p : Int × Int) : Prop := 1 ≤ p.1 ∧ p.1 + 1 < R ∧ 1 ≤ p.2 ∧ p.2 + 1 < C

/-- No step angle is infinite (`math.cos` of an infinity raises ValueError). -/
def AnglesOk (P : PObj K) : Prop := ∀ k, k < 9 → P.angles k = .nan ∨ ∃ x, P.angles k = .fin x

/-- Any seeding request. -/
def AnySeed : PObj K → List Int → List Int → Fl K → Prop := fun _ _ _ _ => True

section
variable [FloorRing K] (A : Arith K) (F : Fun K A)

/-- `s'` is a later state of the same object: any sequence of `run_iteration` calls (returning, or raising and caught) and of
`generate_particles` calls without previous walk data (which only add particles at the end); the random generator may be used by others. -/
inductive Later (Ω : (Nat → K) → Prop) (Sd : PObj K → List Int → List Int → Fl K → Prop) (P : PObj K) : PState K → PState K → Prop
  | refl (s) : Later Ω Sd P s s
  | run {s s1 ω target maxIter res} (h : Later Ω Sd P s s1) (hω : Ω ω)
      (hr : runIteration A F P ω s1 target maxIter = .ok res) : Later Ω Sd P s res.state
  | failed {s s1 s' ω target maxIter e} (h : Later Ω Sd P s s1) (hω : Ω ω)
      (hr : runStmt A F P ω target maxIter s1 = (.error e, s')) : Later Ω Sd P s s'
  | reseed {s s1} (pos : Nat) (h : Later Ω Sd P s s1) : Later Ω Sd P s { s1 with world := { s1.world with pos := pos } }
  | generate {s s1 s' ω np xs ys time method n x y t m} (h : Later Ω Sd P s s1) (hω : Ω ω)
      (hc : genInputCheck np xs ys time method = .ok (n, x, y, t, m)) (hn : 0 ≤ n) (hs : Sd P x y t)
      (hg : generateParticles A P ω s1 np xs ys time method none = .ok s') : Later Ω Sd P s s'

end

end Dorado
