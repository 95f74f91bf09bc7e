import Verif.Base.Fl
import Mathlib.Analysis.SpecialFunctions.Trigonometric.Basic
import Mathlib.Analysis.SpecialFunctions.Pow.Real
import Mathlib.Analysis.SpecialFunctions.Complex.Arg
import Mathlib.Algebra.Order.Field.Rat

/-! Instances of `Fun`: the real functions, and a rational stand-in used only in `example`s. -/

namespace Dorado

/-- The real elementary functions (used at particle_track.py:256-262, 335-336, 388-390, lagrangian_walker.py:205). `arctan2 y x` is the argument of `x + i y`; powers of negative numbers are defined for
integer exponents only, `0 ** t` is `inf` for negative `t`. -/
noncomputable def Fun.real : Fun ℝ Arith.exact where
  pow a t := match a with
    | .fin x =>
      if t = 0 then .fin 1
      else if 0 < x then .fin (x ^ t)
      else if x = 0 then (if 0 < t then .fin 0 else .pinf)
      else if t = (⌊t⌋ : ℝ) then .fin (x ^ ⌊t⌋) else .nan
    | _ => if t = 0 then .fin 1 else .nan
  pow_pos x t hx := by
    by_cases h : t = 0
    · exact ⟨1, by simp [h], zero_le_one⟩
    · exact ⟨x ^ t, by simp [h, hx], Real.rpow_nonneg hx.le _⟩
  pow_zero x := by simp
  cos := Real.cos
  cos_le := Real.cos_le_one
  le_cos := Real.neg_one_le_cos
  sqrt := Real.sqrt
  sqrt_nonneg := Real.sqrt_nonneg
  sqrt_pos _ h := Real.sqrt_pos.2 h
  arctan2 y x := Complex.arg ⟨x, y⟩
  pi := Real.pi

/-- Rational stand-ins for the functions used at particle_track.py:256-262, 335-336, 388-390, lagrangian_walker.py:205 (`pi = 4`, so angles are multiples of a right half-angle `1`), for executable examples only. -/
def Fun.toy : Fun ℚ Arith.exact where
  pow a t := match a with
    | .fin x => if t = 0 then .fin 1 else if t = 2 then .fin (x * x) else .fin x
    | b => b
  pow_pos x t hx := by
    by_cases h : t = 0
    · exact ⟨1, by simp [h], by decide⟩
    · by_cases h2 : t = 2
      · exact ⟨x * x, by simp [h2], mul_self_nonneg x⟩
      · exact ⟨x, by simp [h, h2], hx.le⟩
  pow_zero x := by simp
  cos x := if x = 0 ∨ x = 8 ∨ x = -8 then 1
    else if x = 1 ∨ x = -1 ∨ x = 7 ∨ x = -7 then 7 / 10
    else if x = 3 ∨ x = -3 ∨ x = 5 ∨ x = -5 then -7 / 10
    else if x = 4 ∨ x = -4 then -1 else 0
  cos_le x := by
    try simp only
    split_ifs <;> norm_num
  le_cos x := by
    try simp only
    split_ifs <;> norm_num
  sqrt x := if x = 2 then 7 / 5 else if x = 1 / 2 then 7 / 10 else max x 0
  sqrt_nonneg x := by
    try simp only
    split_ifs <;> norm_num
  sqrt_pos x h := by
    try simp only
    split_ifs <;> norm_num [h]
  arctan2 y x := if y = 0 ∧ 0 < x then 0 else if y = x ∧ 0 < x then 1 else if x = 0 ∧ 0 < y then 2
    else if y = 0 then 4 else if x = 0 then -2 else if 0 < x then (if 0 < y then 1 else -1) else (if 0 < y then 3 else -3)
  pi := 4

end Dorado
