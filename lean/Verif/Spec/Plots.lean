import Verif.Model.Plots

/-! Vocabulary of the drawing properties. -/

namespace Dorado

variable {K : Type} [Field K] [LinearOrder K]

/-- Walk data with one row and one column list per particle, of the same length. -/
def SameRecords (wd : WalkData K) : Prop :=
  wd.yinds.length = wd.xinds.length ∧ ∀ (j : Nat) xs ys, wd.xinds[j]? = some xs → wd.yinds[j]? = some ys → ys.length = xs.length

/-- The point of particle `j` at record `k`, as (column, row). -/
def PointAt (wd : WalkData K) (j k : Nat) (p : Int × Int) : Prop :=
  ∃ xs ys, wd.xinds[j]? = some xs ∧ wd.yinds[j]? = some ys ∧ xs[k]? = some p.2 ∧ ys[k]? = some p.1

/-- Number of records of particle `j`. -/
def recordsOf (wd : WalkData K) (j : Nat) : Nat := ((wd.xinds[j]?).map List.length).getD 0

/-- Particle number `i` as the user writes it means particle `j` of `np`; negative numbers count from the last. -/
def Numbered (np : Nat) (i : Int) (j : Nat) : Prop := j < np ∧ (i = j ∨ i = (j : Int) - np)

/-- Segment `m` (0 is the newest) of the tail of particle `j` in the figure numbered `ii = (q+1)*v`: it leads from one recorded point to the one `v`
records later, `m*v` records before record `ii-1`; beyond the first figure's worth of records the oldest such segment is repeated. The first figure
shows the first two points instead. -/
def TailSegment (wd : WalkData K) (v j q m : Nat) (seg : List (Int × Int)) : Prop :=
  if q = 0 then seg.length = min 2 (recordsOf wd j) ∧ ∀ (k : Nat) p, seg[k]? = some p → PointAt wd j k p
  else ∃ a b pa pb, seg = [pa, pb] ∧ a + v = b ∧ b + 1 = (q + 1 - min m (q - 1)) * v ∧ PointAt wd j a pa ∧ PointAt wd j b pb

/-- One marker per particle, at its first record. -/
def AtStart (wd : WalkData K) (pts : List (Int × Int)) : Prop :=
  pts.length = wd.xinds.length ∧ ∀ (j : Nat) p, pts[j]? = some p → PointAt wd j 0 p

/-- One marker per particle, at its newest record. -/
def AtNewest (wd : WalkData K) (pts : List (Int × Int)) : Prop :=
  pts.length = wd.xinds.length ∧ ∀ (j : Nat) p, pts[j]? = some p → PointAt wd j (recordsOf wd j - 1) p

/-- State and returned walk data after `n` calls of `run_iteration()`. -/
inductive AfterRuns [FloorRing K] (A : Arith K) (F : Fun K A) (P : PObj K) (ω : Nat → K) (s : PState K) : Nat → PState K → Option (WalkData K) → Prop
  | zero : AfterRuns A F P ω s 0 s none
  | succ {n : Nat} {s' : PState K} {w : Option (WalkData K)} {r : RunResult K} (h : AfterRuns A F P ω s n s' w)
      (hr : runIteration A F P ω s' none 10000 = .ok r) : AfterRuns A F P ω s (n + 1) r.state (some r.returned)

end Dorado
