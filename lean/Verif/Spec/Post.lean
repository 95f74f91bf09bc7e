import Verif.Model.Exposure
import Verif.Spec.Walk
import Mathlib.Algebra.BigOperators.Ring.Finset

/-! Vocabulary for statements about post-processing of walk data. -/

namespace Dorado

variable {K : Type} [Field K] [LinearOrder K]

/-- Number of particles of walk data. -/
def WalkData.count (wd : WalkData K) : Nat := wd.xinds.length

/-- Number of records of particle `i`. -/
def WalkData.records (wd : WalkData K) (i : Nat) : Nat := (wd.times[i]?.map List.length).getD 0

/-- Walk data as `run_iteration` returns it: equally many particles in each entry, each with equally many records (at least one), and
finite times. -/
structure Proper (wd : WalkData K) : Prop where
  cols : wd.yinds.length = wd.xinds.length
  times : wd.times.length = wd.xinds.length
  same : ∀ (i : Nat) xs ys ts, wd.xinds[i]? = some xs → wd.yinds[i]? = some ys → wd.times[i]? = some ts →
    xs.length = ts.length ∧ ys.length = ts.length ∧ 1 ≤ ts.length
  fin : ∀ (i n : Nat) t, wd.timeAt i n = some t → ∃ x, t = .fin x

/-- Travel time of record `n` of particle `i`. -/
def WalkData.tau (wd : WalkData K) (i n : Nat) : K :=
  match wd.timeAt i n with
  | some (.fin x) => x
  | _ => 0

/-- Recorded times never decrease. -/
def TimesMono (wd : WalkData K) : Prop := ∀ i n, n + 1 < wd.records i → wd.tau i n ≤ wd.tau i (n + 1)

/-- All recorded positions lie on a raster of `R` rows and `C` columns. -/
def OnRaster (R C : Nat) (wd : WalkData K) : Prop := ∀ i n p, wd.posAt i n = some p → 0 ≤ p.1 ∧ p.1 < R ∧ 0 ≤ p.2 ∧ p.2 < C

/-- A raster of zeros and ones. -/
def Binary (g : Grid Int) : Prop := ∀ i j, i < g.rows → j < g.cols → g.at' i j = 0 ∨ g.at' i j = 1

/-- Record `n` of particle `i` lies in the region. -/
def WalkData.inRegion (wd : WalkData K) (g : Grid Int) (i n : Nat) : Prop :=
  ∃ p, wd.posAt i n = some p ∧ g.at' p.1.toNat p.2.toNat = 1

open Classical in
/-- 1 if record `n` of particle `i` lies in the region, else 0. -/
noncomputable def WalkData.mark (wd : WalkData K) (g : Grid Int) (i n : Nat) : K := if wd.inRegion g i n then 1 else 0

/-- Exposure time by definition: every step contributes its duration times half the number of its end points in the region. -/
noncomputable def WalkData.exposure (wd : WalkData K) (g : Grid Int) (i : Nat) : K :=
  ∑ n ∈ Finset.range (wd.records i - 1), (wd.tau i (n + 1) - wd.tau i n) * ((wd.mark g i n + wd.mark g i (n + 1)) / 2)

/-- Total travel time of particle `i`. -/
def WalkData.duration (wd : WalkData K) (i : Nat) : K := wd.tau i (wd.records i - 1) - wd.tau i 0

/-- Number of records, over all particles, at the cell `c`. -/
def WalkData.visits (wd : WalkData K) (c : Int × Int) : Nat :=
  ∑ p ∈ Finset.range wd.count, ∑ n ∈ Finset.range (wd.records p), if wd.posAt p n = some c then 1 else 0

/-- Number of records at the cell `c` that are neither the first nor the last of their particle. -/
def WalkData.innerVisits (wd : WalkData K) (c : Int × Int) : Nat :=
  ∑ p ∈ Finset.range wd.count, ∑ n ∈ Finset.range (wd.records p - 2), if wd.posAt p (n + 1) = some c then 1 else 0

/-- Residence time at record `n + 1` of particle `p`: half the time from the previous to the next record. -/
def WalkData.residence (wd : WalkData K) (p n : Nat) : K := (wd.tau p (n + 2) - wd.tau p n) / 2

/-- Total residence time of the inner records at the cell `c`. -/
def WalkData.residenceAt (wd : WalkData K) (c : Int × Int) : K :=
  ∑ p ∈ Finset.range wd.count, ∑ n ∈ Finset.range (wd.records p - 2), if wd.posAt p (n + 1) = some c then wd.residence p n else 0

/-- Number of cells of an `R` x `C` raster without any record. -/
def WalkData.unvisited (wd : WalkData K) (R C : Nat) : Nat :=
  ∑ i ∈ Finset.range R, ∑ j ∈ Finset.range C, if wd.visits ((i : Int), (j : Int)) = 0 then 1 else 0

/-- An array of finite non-negative numbers. -/
def NonnegGrid (g : Grid (Fl K)) : Prop := ∀ i j, i < g.rows → j < g.cols → ∃ x, g.at' i j = .fin x ∧ 0 ≤ x

/-- A smoothing operator: keeps the shape, and maps arrays of finite non-negative numbers to such arrays. `none` is no smoothing. -/
def SmoothOK (smooth : Option (Grid (Fl K) → Grid (Fl K))) : Prop :=
  ∀ f, smooth = some f → ∀ g, NonnegGrid g → (f g).rows = g.rows ∧ (f g).cols = g.cols ∧ NonnegGrid (f g)

end Dorado
