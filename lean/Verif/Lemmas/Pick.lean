import Verif.Lemmas.Basic
import Verif.Model.Walker

/-! Helper lemmas about cumulative sums and picks. -/

set_option linter.unusedSectionVars false

namespace Dorado

variable {K : Type} [Field K] [LinearOrder K] [IsStrictOrderedRing K] (A : Arith K)

/-- Partial sums of finite numbers with rounding. -/
def csum (x : Nat → K) : Nat → K
  | 0 => x 0
  | k + 1 => A.rnd (csum x k + x (k + 1))

theorem cumsum_fin {p : Nat → Fl K} {x : Nat → K} {n : Nat} (h : ∀ k, k ≤ n → p k = .fin (x k)) :
    ∀ k, k ≤ n → cumsum A p k = .fin (csum A x k) := by
  intro k
  induction k with
  | zero => intro hk; simp [cumsum, csum, h 0 hk]
  | succ k ih => intro hk; simp [cumsum, csum, h (k + 1) hk, ih (by omega), Arith.add]

theorem csum_rep {x : Nat → K} (h0 : A.rnd (x 0) = x 0) : ∀ k, A.rnd (csum A x k) = csum A x k
  | 0 => h0
  | _ + 1 => A.idem _

theorem csum_le_succ {x : Nat → K} (h0 : A.rnd (x 0) = x 0) {k : Nat} (hk : 0 ≤ x (k + 1)) :
    csum A x k ≤ csum A x (k + 1) := by
  simp only [csum]
  calc csum A x k = A.rnd (csum A x k) := (csum_rep A h0 k).symm
    _ ≤ _ := A.mono _ _ (by linarith)

theorem csum_mono {x : Nat → K} (h0 : A.rnd (x 0) = x 0) {n : Nat} (hx : ∀ k, k ≤ n → 0 ≤ x k) {a b : Nat}
    (hab : a ≤ b) (hb : b ≤ n) : csum A x a ≤ csum A x b := by
  induction b with
  | zero => simp at hab; subst hab; exact le_refl _
  | succ b ih =>
    rcases Nat.lt_or_ge a (b + 1) with h | h
    · exact le_trans (ih (by omega) (by omega)) (csum_le_succ A h0 (hx _ hb))
    · have : a = b + 1 := by omega
      subst this; exact le_refl _

theorem csum_ge {x : Nat → K} {n : Nat} (hrep : ∀ k, k ≤ n → A.rnd (x k) = x k) (hx : ∀ k, k ≤ n → 0 ≤ x k) {k : Nat}
    (hk : k ≤ n) : x k ≤ csum A x k := by
  cases k with
  | zero => exact le_refl _
  | succ k =>
    have h0 : 0 ≤ csum A x k :=
      le_trans (hx 0 (by omega)) (csum_mono A (hrep 0 (by omega)) hx (Nat.zero_le k) (by omega))
    simp only [csum]
    calc x (k + 1) = A.rnd (x (k + 1)) := (hrep _ hk).symm
      _ ≤ _ := A.mono _ _ (by linarith)

/-- What the cumulative-sum pick returns for a non-negative finite vector: the first index whose partial sum reaches
the drawn value. -/
theorem pickFrom_spec {p : Nat → Fl K} {x : Nat → K} (hp : ∀ k, k < 9 → p k = .fin (x k))
    (hx : ∀ k, k < 9 → 0 ≤ x k) (h0 : A.rnd (x 0) = x 0) {r : K} (hr1 : r < 1) :
    ∃ k, k < 9 ∧ pickFrom A p r = .ok k ∧ A.rnd (csum A x 8 * r) ≤ csum A x k ∧
      (∀ m, m < k → csum A x m < A.rnd (csum A x 8 * r)) := by
  have hc := cumsum_fin A (p := p) (x := x) (n := 8) (fun k hk => hp k (by omega))
  have hmono : ∀ a b, a ≤ b → b ≤ 8 → csum A x a ≤ csum A x b := fun a b hab hb =>
    csum_mono A h0 (n := 8) (fun k hk => hx k (by omega)) hab hb
  set u := A.rnd (csum A x 8 * r) with hu
  have hle : u ≤ csum A x 8 := by
    have h8 : 0 ≤ csum A x 8 := le_trans (hx 0 (by omega)) (hmono 0 8 (by omega) (by omega))
    calc u = A.rnd (csum A x 8 * r) := rfl
      _ ≤ A.rnd (csum A x 8) := A.mono _ _ (by nlinarith)
      _ = _ := csum_rep A h0 8
  have hkey : ∀ k, k < 9 → (Fl.npLt (cumsum A p k) (.fin u) = true ↔ csum A x k < u) := by
    intro k hk
    simp [hc k (by omega), Fl.npLt, Fl.lt, Fl.isNan]
  have hs := searchSorted_spec (fun k => Fl.npLt (cumsum A p k) (.fin u)) 9 (by
    intro a b hab hb h
    rw [hkey a (by omega)]
    rw [hkey b hb] at h
    exact lt_of_le_of_lt (hmono a b hab (by omega)) h)
  refine ⟨searchSorted (fun k => Fl.npLt (cumsum A p k) (.fin u)) 9, ?_, ?_, ?_, ?_⟩
  · by_contra hcon
    have := hs.2.1 8 (by omega)
    rw [hkey 8 (by omega)] at this
    exact absurd this (not_lt.2 hle)
  · simp [pickFrom, hc 8 (le_refl _), uniform0, ← hu, pure_def]
  · by_contra hcon
    have hlt : searchSorted (fun k => Fl.npLt (cumsum A p k) (.fin u)) 9 < 9 := by
      by_contra hcon
      have := hs.2.1 8 (by omega)
      rw [hkey 8 (by omega)] at this
      exact absurd this (not_lt.2 hle)
    have := hs.2.2 _ (le_refl _) hlt
    rw [← Bool.not_eq_true, hkey _ hlt] at this
    exact this (not_le.1 hcon)
  · intro m hm
    have := hs.2.1 m hm
    rwa [hkey m (by have := hs.1; omega)] at this

theorem pickFrom_lt {p : Nat → Fl K} {x : Nat → K} (hp : ∀ k, k < 9 → p k = .fin (x k))
    (hx : ∀ k, k < 9 → 0 ≤ x k) (h0 : A.rnd (x 0) = x 0) {r : K} (hr1 : r < 1) {k : Nat}
    (h : pickFrom A p r = .ok k) : k < 9 := by
  obtain ⟨k', hk', h1, _⟩ := pickFrom_spec A hp hx h0 hr1
  rw [h1] at h
  cases h
  exact hk'

/-- A non-zero draw picks an index of positive weight. -/
theorem pickFrom_pos {p : Nat → Fl K} {x : Nat → K} (hp : ∀ k, k < 9 → p k = .fin (x k))
    (hx : ∀ k, k < 9 → 0 ≤ x k) (h0 : A.rnd (x 0) = x 0) {r : K} (hr : 0 ≤ r) (hr1 : r < 1)
    (hu : A.rnd (csum A x 8 * r) ≠ 0) {k : Nat} (h : pickFrom A p r = .ok k) : 0 < x k := by
  obtain ⟨k', hk', h1, h2, h3⟩ := pickFrom_spec A hp hx h0 hr1
  rw [h1] at h
  cases h
  have hmono : ∀ a b, a ≤ b → b ≤ 8 → csum A x a ≤ csum A x b := fun a b hab hb =>
    csum_mono A h0 (n := 8) (fun k hk => hx k (by omega)) hab hb
  have h8 : 0 ≤ csum A x 8 := le_trans (hx 0 (by omega)) (hmono 0 8 (by omega) (by omega))
  have hupos : 0 < A.rnd (csum A x 8 * r) := by
    refine lt_of_le_of_ne ?_ (Ne.symm hu)
    rw [← A.zero]
    exact A.mono _ _ (mul_nonneg h8 hr)
  generalize A.rnd (csum A x 8 * r) = u at *
  rcases lt_or_eq_of_le (hx k hk') with hpos | hz
  · exact hpos
  · exfalso
    cases k with
    | zero => simp only [csum] at h2; rw [← hz] at h2; exact absurd hupos (not_lt.2 h2)
    | succ k =>
      have h4 := h3 k (by omega)
      simp only [csum] at h2
      rw [← hz, add_zero, csum_rep A h0 k] at h2
      exact absurd h4 (not_lt.2 h2)

/-- A zero draw picks index 0, whatever its weight. -/
theorem pickFrom_zero {p : Nat → Fl K} {x : Nat → K} (hp : ∀ k, k < 9 → p k = .fin (x k))
    (hx : ∀ k, k < 9 → 0 ≤ x k) (h0 : A.rnd (x 0) = x 0) {r : K} (hr1 : r < 1)
    (hu : A.rnd (csum A x 8 * r) = 0) : pickFrom A p r = .ok 0 := by
  obtain ⟨k', hk', h1, h2, h3⟩ := pickFrom_spec A hp hx h0 hr1
  rw [h1]
  rcases Nat.eq_zero_or_pos k' with h | h
  · rw [h]
  · have := h3 0 h
    rw [hu] at this
    exact absurd this (not_lt.2 (hx 0 (by omega)))

end Dorado
