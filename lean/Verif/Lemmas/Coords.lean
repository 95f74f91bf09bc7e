import Verif.Model.Coords
import Verif.Lemmas.Basic
import Mathlib.Tactic.LinearCombination
import Mathlib.Tactic.Linarith
import Mathlib.Tactic.Ring
import Mathlib.Algebra.Order.Floor.Ring
import Mathlib.Tactic.FieldSimp

/-! Lemmas on rounding to integers and the coordinate transforms. -/

set_option linter.unusedSectionVars false

namespace Dorado

variable {K : Type} [Field K] [LinearOrder K] [IsStrictOrderedRing K] [FloorRing K]

/-- A number closer than one half to an integer rounds to it. -/
theorem roundHalfEven_near {x : K} {n : Int} (h : |x - n| < 1 / 2) : roundHalfEven x = n := by
  rw [abs_lt] at h
  unfold roundHalfEven
  rcases lt_or_ge x (n : K) with hx | hx
  · have hf : ⌊x⌋ = n - 1 := by
      rw [Int.floor_eq_iff]
      push_cast
      constructor <;> linarith
    rw [hf]
    push_cast
    rw [if_neg (by linarith), if_pos (by linarith)]
    omega
  · have hf : ⌊x⌋ = n := by
      rw [Int.floor_eq_iff]
      constructor <;> linarith
    rw [hf, if_pos (by linarith)]

theorem roundHalfEven_int (n : Int) : roundHalfEven (n : K) = n := by
  apply roundHalfEven_near
  simp

/-- Rounding moves a number by at most one half. -/
theorem roundHalfEven_dist (x : K) : |x - roundHalfEven x| ≤ 1 / 2 := by
  have h1 := Int.floor_le x
  have h2 := Int.lt_floor_add_one x
  unfold roundHalfEven
  rw [abs_le]
  split_ifs <;> push_cast <;> constructor <;> linarith

/-- Exactly half-way numbers go to the even neighbour. -/
theorem roundHalfEven_tie (n : Int) : roundHalfEven ((n : K) + 1 / 2) = if n % 2 = 0 then n else n + 1 := by
  have hf : ⌊(n : K) + 1 / 2⌋ = n := by
    rw [Int.floor_eq_iff]
    constructor <;> linarith
  unfold roundHalfEven
  rw [hf, if_neg (by linarith), if_neg (by linarith)]

/-- Lower bound of the rounded value, with ties. -/
theorem le_roundHalfEven {x : K} {n : Int} :
    n ≤ roundHalfEven x ↔ (n : K) - 1 / 2 < x ∨ (x = (n : K) - 1 / 2 ∧ n % 2 = 0) := by
  constructor
  · intro h
    have hd := roundHalfEven_dist x
    rw [abs_le] at hd
    have hn : (n : K) ≤ roundHalfEven x := by exact_mod_cast h
    rcases lt_or_eq_of_le (show (n : K) - 1 / 2 ≤ x by linarith) with h1 | h1
    · exact Or.inl h1
    · right
      refine ⟨h1.symm, ?_⟩
      have := roundHalfEven_tie (K := K) (n - 1)
      push_cast at this
      rw [show (n : K) - 1 + 1 / 2 = x by linarith] at this
      rw [this] at h
      split_ifs at h <;> omega
  · rintro (h | ⟨h, hn⟩)
    · by_contra hc
      have hd := roundHalfEven_dist x
      rw [abs_le] at hd
      have hn : (roundHalfEven x : K) ≤ n - 1 := by
        have : roundHalfEven x ≤ n - 1 := by omega
        exact_mod_cast this
      linarith
    · have := roundHalfEven_tie (K := K) (n - 1)
      push_cast at this
      rw [show (n : K) - 1 + 1 / 2 = x by linarith] at this
      rw [this, if_neg (by omega)]
      omega

theorem pyDiv_fin {A : Arith K} {a b : K} (hb : b ≠ 0) : pyDiv A (.fin a) (.fin b) = .ok (.fin (A.rnd (a / b))) := by
  simp [pyDiv, Fl.eq, hb, Arith.div]

theorem coord2ind1_fin {A : Arith K} {x0 y0 cs x y : K} {L : Int} (hc : cs ≠ 0) :
    coord2ind1 A (.fin x0) (.fin y0) L (.fin cs) (.fin x, .fin y) =
      .ok (L - roundHalfEven (A.rnd (A.rnd (y - y0) / cs)), roundHalfEven (A.rnd (A.rnd (x - x0) / cs))) := by
  unfold coord2ind1
  simp only [Arith.sub, Fl.neg, Arith.add, pyDiv_fin hc, ok_bind, pyRound, ← sub_eq_add_neg]
  rfl

end Dorado
