import Verif.Spec.Delay
import Verif.Spec.Seed
import Verif.Spec.Post
import Mathlib.MeasureTheory.Constructions.Pi
import Mathlib.MeasureTheory.Measure.Dirac

/-! # Specification of a sample of walks (C104-C106) -/

namespace Dorado

open MeasureTheory Finset

/-- What one particle does in `n` iterations: for each iteration the cell it reaches and the time it takes. -/
abbrev Course (n : Nat) : Type := Fin n → (Int × Int) × ℝ

/-- The next `n` calls of `run_iteration()` take particle `i` through the course `c`. -/
def HasCourse (F : Fun ℝ Arith.exact) (P : PObj ℝ) (ω : Nat → ℝ) (s : PState ℝ) (n i : Nat) (c : Course n) : Prop :=
  ∀ j : Fin n, (∃ s' w wd, AfterRuns Arith.exact F P ω s (j + 1) s' w ∧ s'.walk = some wd ∧ wd.lastPos i = some (c j).1) ∧
    ∃ t, TimeAfter Arith.exact F P ω s j i t ∧ TimeAfter Arith.exact F P ω s (j + 1) i (t + (c j).2)

/-- The cell from which step `j` is made by a particle that starts at `p` and reaches the cells `q`. -/
def prevCell {n : Nat} (p : Int × Int) (q : Fin n → Int × Int) (j : Fin n) : Int × Int := Fin.cons (α := fun _ => Int × Int) p q j.castSucc

/-- A time that is uniform between `x*(1 - D/2)` and `x*(1 + D/2)`. -/
noncomputable def durLaw (D x : ℝ) : Measure ℝ := (volume.restrict (Set.Icc (-(1 / 2)) (1 / 2))).map fun u => x * (1 + u * D)

/-- The law of the course of a particle that starts at `p`: the cells are a Markov chain with the probabilities `moveProb`, the durations are independent
given the cells, and uniform within the factors `1 ∓ diff_coeff/2` of the diffusion-free duration. It does not mention any other particle. -/
noncomputable def courseLaw (F : Fun ℝ Arith.exact) (P : PObj ℝ) (n : Nat) (p : Int × Int) : Measure (Course n) :=
  Measure.sum fun q : Fin n → Int × Int => (∏ j, moveProb (flowOf F P) P (prevCell p q j) (q j)) •
    Measure.pi fun j => (Measure.dirac (q j)).prod (durLaw P.diffCoeff (freeDur F P (prevCell p q j) (q j)))

/-- Random seeding followed by `n` calls of `run_iteration()`, one random stream for everything: particle `i` starts at `c.1` and goes through the course `c.2`. -/
def HasSeeded (F : Fun ℝ Arith.exact) (P : PObj ℝ) (ω : Nat → ℝ) (s : PState ℝ) (N : Nat) (xs ys : List Int) (t : ℝ) (n i : Nat)
    (c : (Int × Int) × Course n) : Prop :=
  ∃ s1 wd, generateParticles Arith.exact P ω s (.int N) (ints xs) (ints ys) (.flt (.fin t)) (.str "random") none = .ok s1 ∧ s1.walk = some wd ∧
    wd.lastPos i = some c.1 ∧ HasCourse F P ω s1 n i c.2

/-- Probability of the cell `p` if its row and its column are chosen independently, every entry of the lists being equally likely. -/
noncomputable def seedProb (xs ys : List Int) (p : Int × Int) : ENNReal :=
  ENNReal.ofReal (xs.count p.1 / xs.length) * ENNReal.ofReal (ys.count p.2 / ys.length)

/-- The law of start cell and course of one randomly seeded particle. -/
noncomputable def seededLaw (F : Fun ℝ Arith.exact) (P : PObj ℝ) (xs ys : List Int) (n : Nat) : Measure ((Int × Int) × Course n) :=
  Measure.sum fun p => seedProb xs ys p • (courseLaw F P n p).map fun c => (p, c)

/-- 1 for cells of the region, 0 for others. -/
noncomputable def cellMark (g : Grid Int) (p : Int × Int) : ℝ := if g.at' p.1.toNat p.2.toNat = 1 then 1 else 0

/-- Exposure time of a particle that starts at `p` and goes through the course `c`: each iteration contributes its duration times half the number of its
end points in the region. -/
noncomputable def Course.exposure {n : Nat} (g : Grid Int) (p : Int × Int) (c : Course n) : ℝ :=
  ∑ j, (c j).2 * ((cellMark g (prevCell p (fun j => (c j).1) j) + cellMark g (c j).1) / 2)

/-- Random seeding, `n` calls of `run_iteration()`, then `exposure_time` for the region `g`: the returned list is `E`. -/
def SeededExposure (F : Fun ℝ Arith.exact) (P : PObj ℝ) (ω : Nat → ℝ) (s : PState ℝ) (N : Nat) (xs ys : List Int) (t : ℝ) (n : Nat) (g : Grid Int)
    (E : Fin N → ℝ) : Prop :=
  ∃ s1 s2 w wd res, generateParticles Arith.exact P ω s (.int N) (ints xs) (ints ys) (.flt (.fin t)) (.str "random") none = .ok s1 ∧
    AfterRuns Arith.exact F P ω s1 n s2 w ∧ s2.walk = some wd ∧ exposureTime Arith.exact wd g = .ok res ∧ res.times = List.ofFn fun i => .fin (E i)

/-- Expected exposure time if the durations are the diffusion-free ones: `seedProb` and `moveProb` are the probabilities of start cell and path. -/
noncomputable def meanExposure (F : Fun ℝ Arith.exact) (P : PObj ℝ) (xs ys : List Int) (n : Nat) (g : Grid Int) : ℝ :=
  ∑' p, (seedProb xs ys p).toReal * ∑' q : Fin n → Int × Int, (∏ j, moveProb (flowOf F P) P (prevCell p q j) (q j)).toReal *
    ∑ j, freeDur F P (prevCell p q j) (q j) * ((cellMark g (prevCell p q j) + cellMark g (q j)) / 2)

end Dorado
