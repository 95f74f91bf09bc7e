import Verif.Base.Fl

/-!
# Python and numpy primitives
-/

namespace Dorado

/-- Exceptions raised by the modelled code (raised explicitly e.g. at particle_track.py:153, 835, 1265; by Python or numpy elsewhere, e.g. the
IndexError caught at routines.py:457). -/
inductive PyErr where
  | indexError
  | valueError
  | typeError
  | keyError
  | zeroDivisionError
  | overflowError
  | assertionError
  | unboundLocalError
  | attributeError
  | osError
  /-- not a Python exception: the model's recursion bound was hit (proved unreachable) -/
  | outOfFuel
  deriving DecidableEq, Repr

/-- A 2-D numpy array (e.g. `params.depth`, particle_track.py:161); only indices `< rows`, `< cols` are meaningful. -/
structure Grid (α : Type) where
  rows : Nat
  cols : Nat
  at' : Nat → Nat → α

namespace Grid
/-- Elementwise operation on an array (numpy ufunc, e.g. particle_track.py:259). -/
def map {α β : Type} (f : α → β) (g : Grid α) : Grid β := ⟨g.rows, g.cols, fun i j => f (g.at' i j)⟩
/-- Elementwise operation on two arrays of the same shape (e.g. particle_track.py:171, 192); shape checks are done by the caller. -/
def zip {α β γ : Type} (f : α → β → γ) (g : Grid α) (h : Grid β) : Grid γ :=
  ⟨g.rows, g.cols, fun i j => f (g.at' i j) (h.at' i j)⟩
/-- `a.shape == b.shape` (particle_track.py:394). -/
def sameShape {α β : Type} (g : Grid α) (h : Grid β) : Bool := g.rows == h.rows && g.cols == h.cols
end Grid

/-- Position addressed by Python/numpy index `i` in a sequence of length `n` (e.g. particle_track.py:738-741, 1016-1017): negative indices count
from the end, anything else outside is an IndexError. -/
def pyIdx (n : Nat) (i : Int) : Except PyErr Nat :=
  if 0 ≤ i ∧ i < n then .ok i.toNat
  else if -(n : Int) ≤ i ∧ i < 0 then .ok (i + n).toNat
  else .error .indexError

/-- `grid[x, y]` (lagrangian_walker.py:349, 545). -/
def Grid.get {α : Type} (g : Grid α) (x y : Int) : Except PyErr α := do
  let i ← pyIdx g.rows x
  let j ← pyIdx g.cols y
  return g.at' i j

/-- Normalised bound of a Python slice (e.g. particle_track.py:738-741): negative values count from the end, then clipped to `[0,n]`. -/
def sliceBound (n : Nat) (a : Int) : Nat :=
  if a < 0 then (a + n).toNat else min a.toNat n

/-- `-1 in cell_type[x-1:x+2, y-1:y+2]` (lagrangian_walker.py:401-402, particle_track.py:738-741). -/
def edgeInWindow (ct : Grid Int) (x y : Int) : Bool :=
  (List.range ct.rows).any fun i => (List.range ct.cols).any fun j =>
    decide (sliceBound ct.rows (x - 1) ≤ i ∧ i < sliceBound ct.rows (x + 2) ∧
      sliceBound ct.cols (y - 1) ≤ j ∧ j < sliceBound ct.cols (y + 2)) && ct.at' i j == -1

/-- `l[i]` on a list with Python index semantics (e.g. routines.py:452). -/
def pyGet {α : Type} (l : List α) (i : Int) : Except PyErr α :=
  match pyIdx l.length i with
  | .ok n => match l[n]? with
    | some a => .ok a
    | none => .error .indexError
  | .error e => .error e

/-- `l[i]` for a non-negative index (e.g. particle_track.py:673). -/
def listGet {α : Type} (l : List α) (i : Nat) : Except PyErr α :=
  match l[i]? with
  | some a => .ok a
  | none => .error .indexError

/-- `l[-1]` (e.g. particle_track.py:673-681). -/
def lastOf {α : Type} (l : List α) : Except PyErr α :=
  match l.getLast? with
  | some a => .ok a
  | none => .error .indexError

/-- List comprehension whose body may raise and has side effects on a state `σ` (e.g. particle_track.py:528-533, which draws random numbers). -/
def mapAcc {α β σ : Type} (f : σ → α → Except PyErr (β × σ)) : σ → List α → Except PyErr (List β × σ)
  | s, [] => .ok ([], s)
  | s, a :: as => do
    let (b, s1) ← f s a
    let (bs, s2) ← mapAcc f s1 as
    return (b :: bs, s2)

/-- List comprehension whose body may raise (e.g. particle_track.py:673-681). -/
def mapE {α β : Type} (f : α → Except PyErr β) : List α → Except PyErr (List β)
  | [] => .ok []
  | a :: as => do
    let b ← f a
    let bs ← mapE f as
    return b :: bs

/-- Binary search of numpy `searchsorted(key)` (side left, npy_binsearch; lagrangian_walker.py:37, 430, 465, routines.py:720, spatial.py:174): `lo`,`hi` are `min_idx`,`max_idx`;
`ltKey m` tells whether element `m` sorts before the key. `fuel` bounds the recursion. -/
def bsearch (ltKey : Nat → Bool) : Nat → Nat → Nat → Nat
  | 0, lo, _ => lo
  | fuel + 1, lo, hi =>
    if lo < hi then
      let mid := lo + (hi - lo) / 2
      if ltKey mid then bsearch ltKey fuel (mid + 1) hi else bsearch ltKey fuel lo mid
    else lo

/-- `arr.searchsorted(key)` for an array of length `n` (lagrangian_walker.py:37, 430, 465). -/
def searchSorted (ltKey : Nat → Bool) (n : Nat) : Nat := bsearch ltKey n 0 n

variable {K : Type} [Field K] [LinearOrder K]

/-- `np.cumsum` (lagrangian_walker.py:428): sequential partial sums. -/
def cumsum (A : Arith K) (p : Nat → Fl K) : Nat → Fl K
  | 0 => p 0
  | k + 1 => A.add (cumsum A p k) (p (k + 1))

/-- `np.random.uniform(0, c)` with underlying draw `r ∈ [0,1)`; non-finite `c` raises OverflowError
(lagrangian_walker.py:37, 430, 465). -/
def uniform0 (A : Arith K) (c : Fl K) (r : K) : Except PyErr (Fl K) :=
  match c with
  | .fin x => .ok (.fin (A.rnd (x * r)))
  | _ => .error .overflowError

/-- numpy pairwise summation of nine contiguous elements (8-way unrolled, then the rest), after NaN→0:
`np.nansum(w, axis=2)` (lagrangian_walker.py:192, 196, 211). -/
def nansum9 (A : Arith K) (p : Nat → Fl K) : Fl K :=
  let q := fun k => (p k).nanTo0
  A.add
    (A.add (A.add (A.add (q 0) (q 1)) (A.add (q 2) (q 3))) (A.add (A.add (q 4) (q 5)) (A.add (q 6) (q 7))))
    (q 8)

/-- `np.max(w, axis=2)` over nine elements (lagrangian_walker.py:212). -/
def max9 (p : Nat → Fl K) : Fl K :=
  (List.range 8).foldl (fun m k => Fl.npMax m (p (k + 1))) (p 0)

/-- `np.nanmax` over nine elements, NaN if all are NaN (lagrangian_walker.py:453). -/
def nanmax9 (p : Nat → Fl K) : Fl K :=
  (List.range 8).foldl (fun m k => Fl.nanMax m (p (k + 1))) (p 0)

/-- Array `.flat[k]` of a 3×3 table (lagrangian_walker.py:280, 309, 360). -/
def flat9 {α : Type} (t : Nat → α) (k : Nat) : Except PyErr α :=
  if k < 9 then .ok (t k) else .error .indexError

end Dorado
