import Mathlib.Algebra.Order.Field.Basic
import Mathlib.Order.Monotone.Basic
import Mathlib.Tactic.Positivity

/-!
# Numbers

`Fl K` : IEEE-like values over an arbitrary ordered field `K`; finite results pass through a rounding
function that is only assumed monotone, idempotent and to fix `0` and `1` (`Arith K`).
Simplifications: finite operations never overflow to infinity, zero is unsigned.
-/

namespace Dorado

/-- Value of a numpy float64 cell (arrays of /repo/dorado, e.g. particle_track.py:161-162, lagrangian_walker.py:170-220):
NaN, an infinity, or a finite number. Simplification: unsigned zero, arbitrary ordered field `K`. -/
inductive Fl (K : Type) where
  | nan
  | ninf
  | pinf
  | fin (x : K)
  deriving DecidableEq, Repr

/-- Rounding of finite results (every float operation in /repo/dorado/lagrangian_walker.py:149-366).
Only these laws are used; `Arith.exact` is exact arithmetic. -/
structure Arith (K : Type) [Field K] [LinearOrder K] where
  rnd : K → K
  mono : ∀ x y, x ≤ y → rnd x ≤ rnd y
  idem : ∀ x, rnd (rnd x) = rnd x
  zero : rnd 0 = 0
  one : rnd 1 = 1
  /-- the literal `1e-100` (particle_track.py:1311) does not round to zero -/
  tiny : 0 < rnd (1 / 10 ^ 100)

variable {K : Type} [Field K] [LinearOrder K]

/-- Exact arithmetic: no rounding (idealisation of the float operations, e.g. lagrangian_walker.py:170-220). -/
def Arith.exact [IsStrictOrderedRing K] : Arith K := ⟨id, fun _ _ h => h, fun _ => rfl, rfl, rfl, by
  show (0 : K) < 1 / 10 ^ 100
  positivity⟩

namespace Fl

/-- The number 0 as a float cell (`np.zeros`, particle_track.py:1099). -/
instance : Zero (Fl K) := ⟨.fin 0⟩

/-- `np.isnan` (lagrangian_walker.py:427, particle_track.py:162). -/
def isNan : Fl K → Bool
  | nan => true
  | _ => false

/-- IEEE `<`, false on NaN (lagrangian_walker.py:457). -/
def lt : Fl K → Fl K → Bool
  | nan, _ => false
  | _, nan => false
  | ninf, ninf => false
  | ninf, _ => true
  | pinf, _ => false
  | fin _, ninf => false
  | fin _, pinf => true
  | fin x, fin y => decide (x < y)

/-- IEEE `<=`, false on NaN (lagrangian_walker.py:173). -/
def le : Fl K → Fl K → Bool
  | nan, _ => false
  | _, nan => false
  | ninf, _ => true
  | _, pinf => true
  | fin x, fin y => decide (x ≤ y)
  | _, _ => false

/-- IEEE `==`, false on NaN (lagrangian_walker.py:212). -/
def eq : Fl K → Fl K → Bool
  | ninf, ninf => true
  | pinf, pinf => true
  | fin x, fin y => decide (x = y)
  | _, _ => false

/-- IEEE unary minus (`-1*params.qy`, particle_track.py:232). -/
def neg : Fl K → Fl K
  | nan => nan
  | ninf => pinf
  | pinf => ninf
  | fin x => fin (-x)

/-- `np.abs` / `abs` (particle_track.py:259, 744). -/
def abs : Fl K → Fl K
  | nan => nan
  | ninf => pinf
  | pinf => pinf
  | fin x => fin (max x (-x))

/-- Python `max(a, b)` on floats: keeps `a` unless `b > a`
(lagrangian_walker.py:360, particle_track.py:764). -/
def pyMax (a b : Fl K) : Fl K := if lt a b then b else a

/-- One step of `np.max`: NaN propagates (lagrangian_walker.py:212). -/
def npMax (a b : Fl K) : Fl K :=
  if isNan a then a else if isNan b then b else if lt a b then b else a

/-- One step of `np.nanmax`: NaN is ignored (lagrangian_walker.py:453). -/
def nanMax (a b : Fl K) : Fl K :=
  if isNan a then b else if isNan b then a else if lt a b then b else a

/-- NaN replaced by zero (`x[np.isnan(x)] = 0`, lagrangian_walker.py:427; also inside `nansum`). -/
def nanTo0 (a : Fl K) : Fl K := if isNan a then fin 0 else a

/-- Ordering used by numpy's sort/searchsorted: NaN is larger than everything
(`cutoffs.searchsorted`, lagrangian_walker.py:430). -/
def npLt (a b : Fl K) : Bool := lt a b || (isNan b && !isNan a)

end Fl

namespace Arith
variable (A : Arith K)
open Fl

/-- Float addition (lagrangian_walker.py:178, 531). -/
def add : Fl K → Fl K → Fl K
  | nan, _ => nan
  | _, nan => nan
  | ninf, pinf => nan
  | pinf, ninf => nan
  | ninf, _ => ninf
  | _, ninf => ninf
  | pinf, _ => pinf
  | _, pinf => pinf
  | fin x, fin y => fin (A.rnd (x + y))

/-- Float subtraction (lagrangian_walker.py:170-171). -/
def sub (a b : Fl K) : Fl K := A.add a (neg b)

/-- Product of an infinity with a finite number (part of float multiplication, e.g. lagrangian_walker.py:170-220). -/
def infMul (x : K) : Fl K := if x = 0 then nan else if 0 < x then pinf else ninf

/-- Float multiplication (lagrangian_walker.py:177, 205, 363). -/
def mul : Fl K → Fl K → Fl K
  | nan, _ => nan
  | _, nan => nan
  | ninf, ninf => pinf
  | ninf, pinf => ninf
  | pinf, ninf => ninf
  | pinf, pinf => pinf
  | pinf, fin x => infMul x
  | fin x, pinf => infMul x
  | ninf, fin x => neg (infMul x)
  | fin x, ninf => neg (infMul x)
  | fin x, fin y => fin (A.rnd (x * y))

/-- numpy float division: no exception, `x/0` is NaN or an infinity of the sign of `x`
(lagrangian_walker.py:172, 194, 363). -/
def div : Fl K → Fl K → Fl K
  | nan, _ => nan
  | _, nan => nan
  | pinf, fin y => if y < 0 then ninf else pinf
  | ninf, fin y => if y < 0 then pinf else ninf
  | pinf, _ => nan
  | ninf, _ => nan
  | fin _, pinf => fin 0
  | fin _, ninf => fin 0
  | fin x, fin y =>
    if y = 0 then (if x = 0 then nan else if 0 < x then pinf else ninf)
    else fin (A.rnd (x / y))

end Arith

/-- Elementary functions used by the code (`**` lagrangian_walker.py:205, `cos` :360, `np.sqrt`
particle_track.py:256, `np.arctan2` :262, `pi` :388) with the few laws that are used.
Instances: `Fun.real` over the reals, `Fun.toy` over the rationals (for examples). -/
structure Fun (K : Type) [Field K] [LinearOrder K] (A : Arith K) where
  /-- `x ** t` -/
  pow : Fl K → K → Fl K
  pow_pos : ∀ x t : K, 0 < x → ∃ y, pow (.fin x) t = .fin y ∧ 0 ≤ y
  pow_zero : ∀ x : K, pow (.fin x) 0 = .fin 1
  cos : K → K
  cos_le : ∀ x, cos x ≤ 1
  le_cos : ∀ x, -1 ≤ cos x
  /-- `np.sqrt` on a finite argument -/
  sqrt : K → K
  sqrt_nonneg : ∀ x, 0 ≤ sqrt x
  sqrt_pos : ∀ x, 0 < x → 0 < sqrt x
  /-- `np.arctan2` on finite arguments -/
  arctan2 : K → K → K
  pi : K

end Dorado
