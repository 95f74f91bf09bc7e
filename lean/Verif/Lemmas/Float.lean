import Verif.Lemmas.Coords
import Mathlib.Data.Int.Log

/-! # Floating point rounding: an instance of the rounding laws

`Arith.float p` rounds to `p` significant bits, nearest, ties to even, with unbounded exponents: IEEE arithmetic with precision `p`
without overflow and underflow (`p = 53` for doubles). -/

set_option linter.unusedSectionVars false

namespace Dorado

variable {K : Type} [Field K] [LinearOrder K] [IsStrictOrderedRing K] [FloorRing K]

theorem roundHalfEven_mono {x y : K} (h : x ≤ y) : roundHalfEven x ≤ roundHalfEven y := by
  rw [le_roundHalfEven]
  rcases le_roundHalfEven.1 (le_refl (roundHalfEven x)) with h1 | ⟨h1, h2⟩
  · exact Or.inl (by linarith)
  · rcases lt_or_eq_of_le h with h3 | h3
    · exact Or.inl (by linarith)
    · exact Or.inr ⟨h3 ▸ h1, h2⟩

/-- Unit in the last place of a number with binary exponent `e`. -/
def ulp (p : Nat) (e : Int) : K := (2 : K) ^ (e - p + 1)

theorem ulp_pos (p : Nat) (e : Int) : 0 < (ulp p e : K) := zpow_pos two_pos _

/-- Rounding of a positive number to `p` bits. -/
def rndPos (p : Nat) (x : K) : K := roundHalfEven (x / ulp p (Int.log 2 x)) * ulp p (Int.log 2 x)

/-- Rounding to `p` bits. -/
def rndFloat (p : Nat) (x : K) : K := if x = 0 then 0 else if 0 < x then rndPos p x else -rndPos p (-x)

theorem log_bounds {x : K} (hx : 0 < x) : (2 : K) ^ (Int.log 2 x) ≤ x ∧ x < (2 : K) ^ (Int.log 2 x + 1) := by
  have h1 := Int.zpow_log_le_self (b := 2) (R := K) one_lt_two hx
  have h2 := Int.lt_zpow_succ_log_self (b := 2) one_lt_two x
  simpa using ⟨h1, h2⟩

theorem scaled_bounds {p : Nat} {x : K} (hp : 1 ≤ p) (hx : 0 < x) :
    ((2 ^ (p - 1) : Int) : K) ≤ x / ulp p (Int.log 2 x) ∧ x / ulp p (Int.log 2 x) < ((2 ^ p : Int) : K) := by
  obtain ⟨h1, h2⟩ := log_bounds hx
  have hu := ulp_pos (K := K) p (Int.log 2 x)
  rw [le_div_iff₀ hu, div_lt_iff₀ hu]
  constructor
  · convert h1 using 1
    unfold ulp
    push_cast
    rw [← zpow_natCast, ← zpow_add₀ two_ne_zero]
    congr 1
    omega
  · convert h2 using 1
    unfold ulp
    push_cast
    rw [← zpow_natCast, ← zpow_add₀ two_ne_zero]
    congr 1
    omega

theorem round_bounds {p : Nat} {x : K} (hp : 1 ≤ p) (hx : 0 < x) :
    2 ^ (p - 1) ≤ roundHalfEven (x / ulp p (Int.log 2 x)) ∧ roundHalfEven (x / ulp p (Int.log 2 x)) ≤ 2 ^ p := by
  obtain ⟨h1, h2⟩ := scaled_bounds hp hx
  have a := roundHalfEven_mono h1
  have b := roundHalfEven_mono h2.le
  rw [roundHalfEven_int] at a b
  exact ⟨a, b⟩

theorem rndPos_bounds {p : Nat} {x : K} (hp : 1 ≤ p) (hx : 0 < x) :
    (2 : K) ^ (Int.log 2 x) ≤ rndPos p x ∧ rndPos p x ≤ (2 : K) ^ (Int.log 2 x + 1) := by
  obtain ⟨h1, h2⟩ := round_bounds hp hx
  have hu := ulp_pos (K := K) p (Int.log 2 x)
  have e1 : (2 : K) ^ (Int.log 2 x) = ((2 ^ (p - 1) : Int) : K) * ulp p (Int.log 2 x) := by
    unfold ulp
    push_cast
    rw [← zpow_natCast, ← zpow_add₀ two_ne_zero]
    congr 1
    omega
  have e2 : (2 : K) ^ (Int.log 2 x + 1) = ((2 ^ p : Int) : K) * ulp p (Int.log 2 x) := by
    unfold ulp
    push_cast
    rw [← zpow_natCast, ← zpow_add₀ two_ne_zero]
    congr 1
    omega
  rw [e1, e2]
  unfold rndPos
  exact ⟨mul_le_mul_of_nonneg_right (by exact_mod_cast h1) hu.le, mul_le_mul_of_nonneg_right (by exact_mod_cast h2) hu.le⟩

theorem rndPos_pos {p : Nat} {x : K} (hp : 1 ≤ p) (hx : 0 < x) : 0 < rndPos p x :=
  lt_of_lt_of_le (zpow_pos two_pos _) (rndPos_bounds hp hx).1

theorem rndPos_mono {p : Nat} {x y : K} (hp : 1 ≤ p) (hx : 0 < x) (h : x ≤ y) : rndPos p x ≤ rndPos p y := by
  have hy := lt_of_lt_of_le hx h
  have hl := Int.log_mono_right (b := 2) hx h
  rcases lt_or_eq_of_le hl with hlt | heq
  · calc rndPos p x ≤ (2 : K) ^ (Int.log 2 x + 1) := (rndPos_bounds hp hx).2
      _ ≤ (2 : K) ^ (Int.log 2 y) := zpow_le_zpow_right₀ one_le_two (by omega)
      _ ≤ _ := (rndPos_bounds hp hy).1
  · unfold rndPos
    rw [← heq]
    have hu := ulp_pos (K := K) p (Int.log 2 x)
    apply mul_le_mul_of_nonneg_right _ hu.le
    exact_mod_cast roundHalfEven_mono (div_le_div_of_nonneg_right h hu.le)

/-- Numbers with at most `p` significant bits are fixed. -/
theorem rndPos_fix {p : Nat} {n : Int} {k : Int} (hp : 1 ≤ p) (hn : 0 < n) (hn2 : n ≤ 2 ^ p) :
    rndPos p ((n : K) * (2 : K) ^ k) = n * (2 : K) ^ k := by
  rcases lt_or_eq_of_le hn2 with hlt | heq
  · have hpos : 0 < (n : K) * (2 : K) ^ k := mul_pos (by exact_mod_cast hn) (zpow_pos two_pos _)
    obtain ⟨e, he⟩ : ∃ e, e = Int.log 2 ((n : K) * (2 : K) ^ k) := ⟨_, rfl⟩
    have hle : e < k + p := by
      have h1 := (log_bounds hpos).1
      rw [← he] at h1
      have h2 : (n : K) * (2 : K) ^ k < (2 : K) ^ (k + p) := by
        rw [zpow_add₀ two_ne_zero, mul_comm]
        apply mul_lt_mul_of_pos_left _ (zpow_pos two_pos _)
        rw [zpow_natCast]
        exact_mod_cast hlt
      have h3 := lt_of_le_of_lt h1 h2
      exact (zpow_lt_zpow_iff_right₀ one_lt_two).1 h3
    unfold rndPos
    rw [← he]
    obtain ⟨m, hm⟩ : ∃ m : Nat, (m : Int) = k - (e - p + 1) := ⟨(k - (e - p + 1)).toNat, by omega⟩
    have hq : (n : K) * (2 : K) ^ k / ulp p e = ((n * 2 ^ m : Int) : K) := by
      unfold ulp
      rw [div_eq_iff (zpow_pos two_pos _).ne']
      push_cast
      rw [mul_assoc, ← zpow_natCast, ← zpow_add₀ two_ne_zero]
      congr 2
      omega
    rw [hq, roundHalfEven_int, ← hq, div_mul_cancel₀ _ (ulp_pos p e).ne']
  · have := rndPos_bounds (K := K) hp (zpow_pos (two_pos : (0 : K) < 2) (k + p))
    have hlog : Int.log 2 ((2 : K) ^ (k + p)) = k + p := by
      have := Int.log_zpow (b := 2) (R := K) one_lt_two (k + p)
      simpa using this
    have e0 : (n : K) * (2 : K) ^ k = (2 : K) ^ (k + p) := by
      rw [heq]
      push_cast
      rw [← zpow_natCast, ← zpow_add₀ two_ne_zero]
      congr 1
      omega
    rw [e0]
    unfold rndPos
    rw [hlog]
    have hq : (2 : K) ^ (k + p) / ulp p (k + p) = ((2 ^ (p - 1) : Int) : K) := by
      unfold ulp
      rw [div_eq_iff (zpow_pos two_pos _).ne']
      push_cast
      rw [← zpow_natCast, ← zpow_add₀ two_ne_zero]
      congr 1
      omega
    rw [hq, roundHalfEven_int, ← hq, div_mul_cancel₀ _ (ulp_pos p (k + p)).ne']

theorem rndPos_idem {p : Nat} {x : K} (hp : 1 ≤ p) (hx : 0 < x) : rndPos p (rndPos p x) = rndPos p x := by
  obtain ⟨h1, h2⟩ := round_bounds hp hx
  have : rndPos p x = (roundHalfEven (x / ulp p (Int.log 2 x)) : K) * (2 : K) ^ (Int.log 2 x - p + 1) := rfl
  rw [this]
  exact rndPos_fix hp (lt_of_lt_of_le (pow_pos two_pos _) h1) h2

theorem rndFloat_pos {p : Nat} {x : K} (hx : 0 < x) : rndFloat p x = rndPos p x := by
  unfold rndFloat
  rw [if_neg hx.ne', if_pos hx]

theorem rndFloat_neg {p : Nat} (x : K) : rndFloat p (-x) = -rndFloat p x := by
  unfold rndFloat
  rcases lt_trichotomy x 0 with h | h | h
  · have h' : 0 < -x := by linarith
    rw [if_neg h'.ne', if_pos h', if_neg h.ne, if_neg h.not_gt, neg_neg]
  · simp [h]
  · have h' : ¬ 0 < -x := by linarith
    rw [if_neg (neg_ne_zero.2 h.ne'), if_neg h', if_neg h.ne', if_pos h, neg_neg]

theorem rndFloat_zero {p : Nat} : rndFloat p (0 : K) = 0 := by simp [rndFloat]

theorem rndFloat_nonneg {p : Nat} {x : K} (hp : 1 ≤ p) (hx : 0 ≤ x) : 0 ≤ rndFloat p x := by
  rcases lt_or_eq_of_le hx with h | h
  · rw [rndFloat_pos h]
    exact (rndPos_pos hp h).le
  · rw [← h, rndFloat_zero]

theorem rndFloat_mono {p : Nat} {x y : K} (hp : 1 ≤ p) (h : x ≤ y) : rndFloat p x ≤ rndFloat p y := by
  rcases lt_or_ge 0 x with hx | hx
  · rw [rndFloat_pos hx, rndFloat_pos (lt_of_lt_of_le hx h)]
    exact rndPos_mono hp hx h
  · have hx' : rndFloat p x ≤ 0 := by
      have := rndFloat_nonneg hp (x := -x) (by linarith)
      rw [rndFloat_neg] at this
      linarith
    rcases le_or_gt 0 y with hy | hy
    · exact hx'.trans (rndFloat_nonneg hp hy)
    · have := rndPos_mono hp (x := -y) (y := -x) (by linarith) (by linarith)
      rw [← rndFloat_pos (by linarith), ← rndFloat_pos (by linarith), rndFloat_neg, rndFloat_neg] at this
      linarith

theorem rndFloat_idem {p : Nat} (hp : 1 ≤ p) (x : K) : rndFloat p (rndFloat p x) = rndFloat p x := by
  have key : ∀ y : K, 0 < y → rndFloat p (rndFloat p y) = rndFloat p y := fun y hy => by
    rw [rndFloat_pos hy, rndFloat_pos (rndPos_pos hp hy), rndPos_idem hp hy]
  rcases lt_trichotomy x 0 with h | h | h
  · have := key (-x) (by linarith)
    rw [rndFloat_neg, rndFloat_neg] at this
    linarith
  · rw [h, rndFloat_zero, rndFloat_zero]
  · exact key x h

theorem rndFloat_int {p : Nat} (hp : 1 ≤ p) {n : Int} (hn : |n| ≤ 2 ^ p) : rndFloat p (n : K) = n := by
  have key : ∀ m : Int, 0 < m → m ≤ 2 ^ p → rndFloat p (m : K) = m := fun m h1 h2 => by
    rw [rndFloat_pos (by exact_mod_cast h1)]
    have := rndPos_fix (K := K) (k := 0) hp h1 h2
    simpa using this
  rw [abs_le] at hn
  rcases lt_trichotomy n 0 with h | h | h
  · have := key (-n) (by omega) (by omega)
    push_cast at this
    rw [rndFloat_neg] at this
    linarith
  · rw [h]
    simp [rndFloat]
  · exact key n h hn.2

/-- Relative error of at most half a unit in the last place. -/
theorem rndFloat_err {p : Nat} (x : K) : |rndFloat p x - x| ≤ (2 : K) ^ (-(p : Int)) * |x| := by
  have key : ∀ y : K, 0 < y → |rndFloat p y - y| ≤ (2 : K) ^ (-(p : Int)) * |y| := fun y hy => by
    rw [rndFloat_pos hy, abs_of_pos hy]
    have hu := ulp_pos (K := K) p (Int.log 2 y)
    have hd := roundHalfEven_dist (y / ulp p (Int.log 2 y))
    have h1 : |rndPos p y - y| = |y / ulp p (Int.log 2 y) - roundHalfEven (y / ulp p (Int.log 2 y))| * ulp p (Int.log 2 y) := by
      rw [abs_sub_comm, ← abs_of_pos hu, ← abs_mul, abs_of_pos hu]
      congr 1
      unfold rndPos
      rw [sub_mul, div_mul_cancel₀ _ hu.ne']
    rw [h1]
    calc _ ≤ 1 / 2 * ulp p (Int.log 2 y) := mul_le_mul_of_nonneg_right hd hu.le
      _ = (2 : K) ^ (-(p : Int)) * (2 : K) ^ (Int.log 2 y) := by
        unfold ulp
        rw [← zpow_add₀ two_ne_zero, zpow_add_one₀ two_ne_zero, neg_add_eq_sub]
        ring
      _ ≤ _ := mul_le_mul_of_nonneg_left (log_bounds hy).1 (zpow_pos two_pos _).le
  rcases lt_trichotomy x 0 with h | h | h
  · have := key (-x) (by linarith)
    rw [rndFloat_neg, abs_neg] at this
    rw [abs_sub_comm]
    convert this using 2
    ring
  · simp [h, rndFloat]
  · exact key x h

/-- Binary floating point arithmetic with `p + 1` significant bits. -/
def Arith.float (p : Nat) : Arith K where
  rnd := rndFloat (p + 1)
  mono _ _ h := rndFloat_mono (by omega) h
  idem := rndFloat_idem (by omega)
  zero := rndFloat_zero
  one := by
    have := rndFloat_int (K := K) (p := p + 1) (by omega) (n := 1) (by
      rw [abs_one]
      exact one_le_pow₀ (by norm_num))
    simpa using this
  tiny := by
    rw [rndFloat_pos (by positivity)]
    exact rndPos_pos (by omega) (by positivity)

/-- Double precision, without overflow and underflow. -/
def Arith.double : Arith K := Arith.float 52

end Dorado
