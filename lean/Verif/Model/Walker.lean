import Verif.Base.Py

/-!
# Model of `/repo/dorado/lagrangian_walker.py`
-/

namespace Dorado

variable {K : Type} [Field K] [LinearOrder K]

/-- A numpy array of shape (L, W, 9) as used in lagrangian_walker.py:42-220. -/
abbrev Arr3 (K : Type) := Nat → Nat → Nat → Fl K

/-- Value of a tracked variable in walk data: `None` (particle_track.py:689), a ROI flag 0/1
(lagrangian_walker.py:539) or a grid value (lagrangian_walker.py:545). -/
inductive Val (K : Type) where
  | none
  | flag (b : Int)
  | num (x : Fl K)
  deriving DecidableEq, Repr

/-- Attributes of the `Particles` object (particle_track.py:131-443) that never change after construction.
3×3 tables are functions of the flat index 0..8.  Simplification: theta, gamma, diff_coeff, dry_depth and dx
are finite numbers. -/
structure PObj (K : Type) where
  verbose : Bool
  dx : K
  depth : Grid (Fl K)
  stage : Grid (Fl K)
  qx : Grid (Fl K)
  qy : Grid (Fl K)
  u : Grid (Fl K)
  v : Grid (Fl K)
  velocity : Grid (Fl K)
  velocityAngle : Grid (Fl K)
  theta : K
  gamma : K
  diffCoeff : K
  dryDepth : K
  cellType : Grid Int
  steepest : Bool
  distances : Nat → Fl K
  ivec : Nat → Fl K
  jvec : Nat → Fl K
  iwalk : Nat → Int
  jwalk : Nat → Int
  angles : Nat → Fl K
  roi : Option (Grid (Fl K))
  /-- `tracked_variables` without the three base variables (particle_track.py:431-443) -/
  particleVars : List String

/-- The state the walker mutates: the weight array (written in place by random_pick/steep_descent through a view,
lagrangian_walker.py:427, 455-459) and the position in numpy's global random stream. -/
structure World (K : Type) where
  weight : Arr3 K
  pos : Nat

section seed
variable (A : Arith K)

/-- `random_pick_seed(choices)` with `probs=None` (lagrangian_walker.py:15-39); `r` is the uniform draw.
The unit weights are integers in the code, hence their cumulative sums `1..n` are exact.
`cutoffs[-1]` of an empty array raises IndexError. -/
def randomPickSeed (choices : List Int) (r : K) : Except PyErr Int :=
  match choices.length with
  | 0 => .error .indexError
  | n + 1 => do
    let u ← uniform0 A (.fin ((n + 1 : Nat) : K)) r
    let idx := searchSorted (fun k => Fl.npLt (.fin ((k + 1 : Nat) : K)) u) (n + 1)
    listGet choices idx

end seed

section weights

/-- Row of the cell at flat position `k` of the 3×3 window around row `i` (order NW,N,NE,W,0,E,SW,S,SE),
lagrangian_walker.py:67-75. -/
def winRow (i k : Nat) : Nat := i + k / 3 - 1
/-- Column of the cell at flat position `k` of the window around column `j`, lagrangian_walker.py:67-75. -/
def winCol (j k : Nat) : Nat := j + k % 3 - 1

/-- Interior of an `L×W` array: the target of the slice `[1:-1, 1:-1]` (lagrangian_walker.py:67-75). -/
def interiorB (L W i j : Nat) : Bool := decide (1 ≤ i ∧ i + 1 < L ∧ 1 ≤ j ∧ j + 1 < W)

/-- `big_sliding_window(raster)` (lagrangian_walker.py:42-77): zero array filled on the interior. -/
def bigSlidingWindow (g : Grid (Fl K)) : Arr3 K := fun i j k =>
  if interiorB g.rows g.cols i j then g.at' (winRow i k) (winCol j k) else .fin 0

/-- `big_sliding_window(cell_type)` (lagrangian_walker.py:185). Cell types are small integers, stored exactly. -/
def bigSlidingWindowInt (g : Grid Int) : Nat → Nat → Nat → Int := fun i j k =>
  if interiorB g.rows g.cols i j then g.at' (winRow i k) (winCol j k) else 0

/-- `tile_local_array` (lagrangian_walker.py:80-104). -/
def tileLocal (t : Nat → Fl K) : Arr3 K := fun _ _ k => t k

/-- `tile_domain_array` (lagrangian_walker.py:107-122). -/
def tileDomain {α : Type} (g : Nat → Nat → α) : Nat → Nat → Nat → α := fun i j _ => g i j

/-- `clear_borders` (lagrangian_walker.py:125-146) on an array of shape (L,W,9). -/
def clearBorders (L W : Nat) (w : Arr3 K) : Arr3 K := fun i j k =>
  if i = 0 ∨ j = 0 ∨ i + 1 = L ∨ j + 1 = W then .fin 0 else w i j k

variable (A : Arith K) (F : Fun K A)

/-- `w[w <= 0] = 0` (lagrangian_walker.py:173, 180). -/
def clipPos (w : Arr3 K) : Arr3 K := fun i j k => if Fl.le (w i j k) (.fin 0) then .fin 0 else w i j k

/-- Surface-slope component before masking (lagrangian_walker.py:170-174). -/
def weightSfc0 (P : PObj K) : Arr3 K :=
  let diff : Arr3 K := fun i j k =>
    A.sub (tileDomain P.stage.at' i j k) (bigSlidingWindow P.stage i j k)
  let w : Arr3 K := fun i j k => A.div (diff i j k) (tileLocal P.distances i j k)
  clearBorders P.stage.rows P.stage.cols (clipPos w)

/-- Inertial component before masking (lagrangian_walker.py:177-181). -/
def weightInt0 (P : PObj K) : Arr3 K :=
  let s : Arr3 K := fun i j k =>
    A.add (A.mul (tileDomain P.qx.at' i j k) (tileLocal P.jvec i j k))
      (A.mul (tileDomain P.qy.at' i j k) (tileLocal P.ivec i j k))
  let w : Arr3 K := fun i j k => A.div (s i j k) (tileLocal P.distances i j k)
  clearBorders P.stage.rows P.stage.cols (clipPos w)

/-- The mask `(depth_ind <= dry_depth) | (ct_ind == 2)` (lagrangian_walker.py:184-189, 208). -/
def dryMask (P : PObj K) : Nat → Nat → Nat → Bool := fun i j k =>
  Fl.le (bigSlidingWindow P.depth i j k) (.fin P.dryDepth) || bigSlidingWindowInt P.cellType i j k == 2

/-- `w[mask] = 0` (lagrangian_walker.py:188-189, 208). -/
def maskZero (m : Nat → Nat → Nat → Bool) (w : Arr3 K) : Arr3 K := fun i j k =>
  if m i j k then .fin 0 else w i j k

/-- Normalisation by the nansum over the window where that is positive (lagrangian_walker.py:192-198). -/
def normalise (w : Arr3 K) : Arr3 K := fun i j k =>
  let norm := nansum9 A (w i j)
  if Fl.lt (.fin 0) norm then A.div (w i j k) norm else w i j k

/-- Weights after combining components, depth weighting and second masking (lagrangian_walker.py:188-208). -/
def weightFlow (P : PObj K) : Arr3 K :=
  let sfc := normalise A (maskZero (dryMask P) (weightSfc0 A P))
  let int := normalise A (maskZero (dryMask P) (weightInt0 A P))
  let w : Arr3 K := fun i j k =>
    A.add (A.mul (.fin P.gamma) (sfc i j k)) (A.mul (A.sub (.fin 1) (.fin P.gamma)) (int i j k))
  let w : Arr3 K := fun i j k => A.mul (F.pow (bigSlidingWindow P.depth i j k) P.theta) (w i j k)
  maskZero (dryMask P) w

/-- `make_weight` (lagrangian_walker.py:149-220): dead ends get weight 1 at the deepest cells (210-214),
borders are cleared (217). -/
def makeWeight (P : PObj K) : Arr3 K :=
  let weight := weightFlow A F P
  let depthInd := bigSlidingWindow P.depth
  let w : Arr3 K := fun i j k =>
    if Fl.le (nansum9 A (weight i j)) (.fin 0) && Fl.eq (depthInd i j k) (max9 (depthInd i j)) then .fin 1
    else weight i j k
  clearBorders P.stage.rows P.stage.cols w

end weights

section picks
variable (A : Arith K)

/-- Common tail of `random_pick` and `steep_descent` (lagrangian_walker.py:428-430, 464-465):
cumulative sums, a uniform draw up to the last one, binary search. -/
def pickFrom (p : Nat → Fl K) (r : K) : Except PyErr Nat := do
  let u ← uniform0 A (cumsum A p 8) r
  return searchSorted (fun k => Fl.npLt (cumsum A p k) u) 9

/-- The in-place modification made by `random_pick` (lagrangian_walker.py:427). -/
def zeroNan (p : Nat → Fl K) : Nat → Fl K := fun k => (p k).nanTo0

/-- The in-place modifications made by `steep_descent` (lagrangian_walker.py:453-459). -/
def steepMask (p : Nat → Fl K) : Nat → Fl K :=
  let maxVal := nanmax9 p
  let p1 : Nat → Fl K := fun k => if k = 4 then .fin 0 else p k
  let p2 : Nat → Fl K := fun k => if Fl.lt (p1 k) maxVal then .fin 0 else p1 k
  fun k => (p2 k).nanTo0

/-- `random_pick` (lagrangian_walker.py:409-432): chosen index and the modified array. -/
def randomPick (p : Nat → Fl K) (r : K) : Except PyErr (Nat × (Nat → Fl K)) := do
  let p' := zeroNan p
  let k ← pickFrom A p' r
  return (k, p')

/-- `steep_descent` (lagrangian_walker.py:435-467): chosen index and the modified array. -/
def steepDescent (p : Nat → Fl K) (r : K) : Except PyErr (Nat × (Nat → Fl K)) := do
  let p' := steepMask p
  let k ← pickFrom A p' r
  return (k, p')

/-- Write the nine weights of one cell back into the array (the view `weight[i,j,:]` is mutated,
lagrangian_walker.py:246-248). -/
def setCell (w : Arr3 K) (i j : Nat) (p : Nat → Fl K) : Arr3 K :=
  fun i' j' => if i' = i ∧ j' = j then p else w i' j'

/-- `get_weight` (lagrangian_walker.py:223-250). The weight array has the shape of `stage`. -/
def getWeight (P : PObj K) (ω : Nat → K) (s : World K) (ind : Int × Int) : Except PyErr (Nat × World K) := do
  let i ← pyIdx P.stage.rows ind.1
  let j ← pyIdx P.stage.cols ind.2
  let (k, p') ← if P.steepest then steepDescent A (s.weight i j) (ω s.pos)
                else randomPick A (s.weight i j) (ω s.pos)
  return (k, { weight := setCell s.weight i j p', pos := s.pos + 1 })

/-- `calculate_new_ind` (lagrangian_walker.py:253-282). -/
def calculateNewInd (ind : Int × Int) (newCell : Nat) (iwalk jwalk : Nat → Int) : Except PyErr (Int × Int) := do
  let dj ← flat9 jwalk newCell
  let di ← flat9 iwalk newCell
  return (ind.1 + dj, ind.2 + di)

/-- `step_update` (lagrangian_walker.py:285-311). -/
def stepUpdate (newCell : Nat) (distances : Nat → Fl K) (dx : K) : Except PyErr (Fl K) := do
  let d ← flat9 distances newCell
  return A.mul d (.fin dx)

/-- `check_for_boundary` for one particle (loop body lagrangian_walker.py:399-404): a particle bordering an
edge cell keeps its position. -/
def checkForBoundary1 (newInd curInd : Int × Int) (cellType : Grid Int) : Int × Int :=
  if edgeInWindow cellType curInd.1 curInd.2 then curInd else newInd

/-- `check_for_boundary` (lagrangian_walker.py:369-406). -/
def checkForBoundary (newInds curInds : List (Int × Int)) (cellType : Grid Int) : List (Int × Int) :=
  List.zipWith (fun n c => checkForBoundary1 n c cellType) newInds curInds

variable (F : Fun K A)

/-- `math.cos` : NaN stays NaN, infinities raise ValueError (lagrangian_walker.py:360). -/
def mathCos (x : Fl K) : Except PyErr (Fl K) :=
  match x with
  | .fin y => .ok (.fin (F.cos y))
  | .nan => .ok .nan
  | _ => .error .valueError

/-- `calc_travel_times` (lagrangian_walker.py:314-366); one draw is consumed when the particle moved and
`diff_coeff > 0`. Returns the time and the new stream position. -/
def calcTravelTime (P : PObj K) (ω : Nat → K) (pos : Nat) (newCell : Nat) (ind newInd : Int × Int)
    (dist : Fl K) : Except PyErr (Fl K × Nat) :=
  if ind ≠ newInd then do
    let oldVel ← P.velocity.get ind.1 ind.2
    let newVel ← P.velocity.get newInd.1 newInd.2
    let (diff, pos') := if 0 < P.diffCoeff then
        (A.mul (A.sub (.fin (1 / 2)) (.fin (ω pos))) (.fin P.diffCoeff), pos + 1)
      else (.fin 0, pos)
    let ang ← flat9 P.angles newCell
    let va ← P.velocityAngle.get ind.1 ind.2
    let c ← mathCos A F (A.sub ang va)
    let projected := A.mul dist (Fl.pyMax (.fin 0) c)
    let t := A.mul (A.mul (A.mul (.fin (1 / 2)) projected)
      (A.add (A.div (.fin 1) oldVel) (A.div (.fin 1) newVel))) (A.add (.fin 1) diff)
    return (t, pos')
  else return (.fin 0, pos)

/-- The grid variables that can be sampled (`available_particle_vars`, particle_track.py:421-428). -/
def availVar (P : PObj K) (var : String) : Option (Grid (Fl K)) :=
  if var = "depth" then some P.depth
  else if var = "stage" then some P.stage
  else if var = "qx" then some P.qx
  else if var = "qy" then some P.qy
  else if var = "u" then some P.u
  else if var = "v" then some P.v
  else none

/-- `1 if ROI[x, y] == 1 else 0` (lagrangian_walker.py:539, particle_track.py:565). -/
def roiFlagAt (g : Grid (Fl K)) (xy : Int × Int) : Except PyErr (Val K) := do
  let v ← g.get xy.1 xy.2
  return .flag (if Fl.eq v (.fin 1) then 1 else 0)

/-- `grid[x, y]` as a tracked value (lagrangian_walker.py:545, particle_track.py:569). -/
def sampleAt (g : Grid (Fl K)) (xy : Int × Int) : Except PyErr (Val K) := do
  let v ← g.get xy.1 xy.2
  return .num v

/-- New cell of one particle (lagrangian_walker.py:507-508): particles at (0,0) get cell 4. -/
def newCell1 (P : PObj K) (ω : Nat → K) (s : World K) (ind : Int × Int) : Except PyErr (Nat × World K) :=
  if ind ≠ (0, 0) then getWeight A P ω s ind else .ok (4, s)

/-- Proposed index of one particle (lagrangian_walker.py:510-513). -/
def newInd1 (P : PObj K) (ind : Int × Int) (cell : Nat) : Except PyErr (Int × Int) :=
  if cell ≠ 4 then calculateNewInd ind cell P.iwalk P.jwalk else .ok ind

/-- `new_inds[np.array(dist) == 0] = 0` (lagrangian_walker.py:520). -/
def zeroDist (newInd : Int × Int) (dist : Fl K) : Int × Int :=
  if Fl.eq dist (.fin 0) then (0, 0) else newInd

/-- `updated_optional['roi_flag']`, present whenever a region grid exists (lagrangian_walker.py:538-539). -/
def roiPart (P : PObj K) (newInds : List (Int × Int)) : Except PyErr (List (String × List (Val K))) :=
  match P.roi with
  | some g => do
    let l ← mapE (roiFlagAt g) newInds
    return [("roi_flag", l)]
  | none => .ok []

/-- Entry of one requested variable, nothing if it is not available (lagrangian_walker.py:543-545). -/
def varPart (P : PObj K) (newInds : List (Int × Int)) (var : String) : Except PyErr (List (String × List (Val K))) :=
  match availVar P var with
  | some g => do
    let l ← mapE (sampleAt g) newInds
    return [(var, l)]
  | none => .ok []

/-- Values of the optional variables at the new positions (lagrangian_walker.py:536-545). -/
def updatedOptional (P : PObj K) (vars : List String) (newInds : List (Int × Int)) :
    Except PyErr (List (String × List (Val K))) := do
  let roi ← roiPart P newInds
  let rest ← mapE (varPart P newInds) (vars.filter fun v => !(roi.any fun e => e.1 == v))
  return roi ++ rest.flatten

/-- `particle_stepper` (lagrangian_walker.py:470-547). All cells are drawn first, then all diffusion terms.
`start_optional` only matters through its keys `vars`. Simplification: `times` has as many entries as `curInds`
(both callers guarantee it), so line 531 cannot raise. -/
def particleStepper (P : PObj K) (ω : Nat → K) (s : World K) (curInds : List (Int × Int))
    (times : List (Fl K)) (vars : List String) :
    Except PyErr ((List (Int × Int) × List (Fl K) × List (String × List (Val K))) × World K) := do
  let (cells, s1) ← mapAcc (newCell1 A P ω) s curInds
  let newInds0 ← mapE (fun p => newInd1 P p.1 p.2) (curInds.zip cells)
  let dist ← mapE (fun c => stepUpdate A c P.distances P.dx) cells
  let newInds1 := List.zipWith zeroDist newInds0 dist
  let newInds := checkForBoundary newInds1 curInds P.cellType
  let (temp, pos') ← mapAcc (fun pos q => calcTravelTime A F P ω pos q.1.1 q.1.2 q.2.1 q.2.2)
    s1.pos ((cells.zip curInds).zip (newInds.zip dist))
  let times' := List.zipWith A.add times temp
  let opt ← updatedOptional P vars newInds
  return ((newInds, times', opt), { s1 with pos := pos' })

end picks

end Dorado
