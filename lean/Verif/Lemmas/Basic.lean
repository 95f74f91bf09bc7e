import Verif.Base.Py
import Mathlib.Tactic.Linarith
import Mathlib.Tactic.Ring
import Mathlib.Tactic.FieldSimp
import Mathlib.Tactic.IntervalCases

/-! Helper lemmas: error monad, lists, binary search. -/

namespace Dorado

theorem bind_ok {ε α β : Type} {x : Except ε α} {f : α → Except ε β} {b : β} :
    (x >>= f) = .ok b ↔ ∃ a, x = .ok a ∧ f a = .ok b := by
  cases x with
  | error e => simp [bind, Except.bind]
  | ok a => simp [bind, Except.bind]

theorem bind_error {ε α β : Type} {x : Except ε α} {f : α → Except ε β} {e : ε} :
    (x >>= f) = .error e ↔ x = .error e ∨ ∃ a, x = .ok a ∧ f a = .error e := by
  cases x with
  | error e => simp [bind, Except.bind]
  | ok a => simp [bind, Except.bind]

@[simp] theorem pure_ok {ε α : Type} {a b : α} : (pure a : Except ε α) = .ok b ↔ a = b := by
  simp [pure, Except.pure]

theorem pure_def {ε α : Type} (a : α) : (pure a : Except ε α) = .ok a := rfl

@[simp] theorem ok_bind {ε α β : Type} (a : α) (f : α → Except ε β) :
    ((Except.ok a : Except ε α) >>= f) = f a := rfl

@[simp] theorem error_bind {ε α β : Type} (e : ε) (f : α → Except ε β) :
    ((Except.error e : Except ε α) >>= f) = .error e := rfl

/-! ## mapE, mapAcc -/

theorem mapE_ok_iff {α β : Type} {f : α → Except PyErr β} {l : List α} {r : List β} :
    mapE f l = .ok r ↔ List.Forall₂ (fun a b => f a = .ok b) l r := by
  induction l generalizing r with
  | nil => simp [mapE]
  | cons a l ih =>
    simp only [mapE, bind_ok, pure_ok]
    constructor
    · rintro ⟨b, hb, bs, hbs, rfl⟩
      exact .cons hb (ih.1 hbs)
    · intro h
      cases h with
      | cons hb hbs => exact ⟨_, hb, _, ih.2 hbs, rfl⟩

theorem mapE_length {α β : Type} {f : α → Except PyErr β} {l : List α} {r : List β}
    (h : mapE f l = .ok r) : r.length = l.length := by
  have := (mapE_ok_iff.1 h).length_eq
  omega

theorem mapE_get {α β : Type} {f : α → Except PyErr β} {l : List α} {r : List β}
    (h : mapE f l = .ok r) {i : Nat} {a : α} (ha : l[i]? = some a) : ∃ b, r[i]? = some b ∧ f a = .ok b := by
  have h2 := mapE_ok_iff.1 h
  clear h
  induction h2 generalizing i with
  | nil => simp at ha
  | cons hb _ ih =>
    cases i with
    | zero => simp at ha; subst ha; exact ⟨_, rfl, hb⟩
    | succ i => simp at ha ⊢; exact ih ha

theorem mapE_get' {α β : Type} {f : α → Except PyErr β} {l : List α} {r : List β}
    (h : mapE f l = .ok r) {i : Nat} {b : β} (hb : r[i]? = some b) : ∃ a, l[i]? = some a ∧ f a = .ok b := by
  have h2 := mapE_ok_iff.1 h
  clear h
  induction h2 generalizing i with
  | nil => simp at hb
  | cons hb' _ ih =>
    cases i with
    | zero => simp at hb; subst hb; exact ⟨_, rfl, hb'⟩
    | succ i => simp at hb ⊢; exact ih hb

theorem mapE_exists {α β : Type} {f : α → Except PyErr β} {l : List α}
    (h : ∀ a ∈ l, ∃ b, f a = .ok b) : ∃ r, mapE f l = .ok r := by
  induction l with
  | nil => exact ⟨[], rfl⟩
  | cons a l ih =>
    obtain ⟨b, hb⟩ := h a (by simp)
    obtain ⟨r, hr⟩ := ih (fun x hx => h x (by simp [hx]))
    exact ⟨b :: r, by simp [mapE, hb, hr, pure_def]⟩

theorem mapE_congr {α β : Type} {f g : α → Except PyErr β} {l : List α}
    (h : ∀ a ∈ l, f a = g a) : mapE f l = mapE g l := by
  induction l with
  | nil => rfl
  | cons a l ih => simp only [mapE]; rw [h a (by simp), ih (fun x hx => h x (by simp [hx]))]

theorem mapE_pure {α β : Type} (f : α → β) (l : List α) :
    mapE (fun a => (.ok (f a) : Except PyErr β)) l = .ok (l.map f) := by
  induction l with
  | nil => rfl
  | cons a l ih => simp [mapE, ih, pure_def]

theorem listGet_ok {α : Type} {l : List α} {i : Nat} {a : α} : listGet l i = .ok a ↔ l[i]? = some a := by
  unfold listGet
  cases h : l[i]? <;> simp

theorem lastOf_ok {α : Type} {l : List α} {a : α} : lastOf l = .ok a ↔ l.getLast? = some a := by
  unfold lastOf
  cases h : l.getLast? <;> simp

/-- Inversion of `mapAcc`: an invariant of the state, and the relation of each output to its input. -/
theorem mapAcc_inv {α β σ : Type} {f : σ → α → Except PyErr (β × σ)} (I : σ → Prop) (R : α → β → Prop)
    (hf : ∀ s a b s', I s → f s a = .ok (b, s') → I s' ∧ R a b)
    {s s' : σ} {l : List α} {r : List β} (hs : I s) (h : mapAcc f s l = .ok (r, s')) :
    I s' ∧ List.Forall₂ R l r := by
  induction l generalizing s r with
  | nil =>
    simp [mapAcc] at h
    obtain ⟨rfl, rfl⟩ := h
    exact ⟨hs, .nil⟩
  | cons a l ih =>
    simp only [mapAcc, bind_ok, pure_ok, Prod.exists, Prod.mk.injEq] at h
    obtain ⟨b, s1, hb, bs, s2, hbs, rfl, rfl⟩ := h
    obtain ⟨h1, h2⟩ := hf _ _ _ _ hs hb
    obtain ⟨h3, h4⟩ := ih h1 hbs
    exact ⟨h3, .cons h2 h4⟩

theorem mapAcc_exists {α β σ : Type} {f : σ → α → Except PyErr (β × σ)} (I : σ → Prop)
    {l : List α} (hf : ∀ s, I s → ∀ a ∈ l, ∃ b s', f s a = .ok (b, s') ∧ I s')
    {s : σ} (hs : I s) : ∃ r s', mapAcc f s l = .ok (r, s') := by
  induction l generalizing s with
  | nil => exact ⟨[], s, rfl⟩
  | cons a l ih =>
    obtain ⟨b, s1, hb, h1⟩ := hf s hs a (by simp)
    obtain ⟨r, s2, hr⟩ := ih (fun s hs x hx => hf s hs x (by simp [hx])) h1
    exact ⟨b :: r, s2, by simp [mapAcc, hb, hr, pure_def]⟩

/-! ## Binary search -/

theorem bsearch_spec (ltKey : Nat → Bool) (n : Nat) (hmono : ∀ a b, a ≤ b → b < n → ltKey b = true → ltKey a = true)
    (fuel lo hi : Nat) (hlh : lo ≤ hi) (hn : hi ≤ n) (hfuel : hi - lo ≤ fuel)
    (hlo : ∀ m, m < lo → ltKey m = true) (hhi : ∀ m, hi ≤ m → m < n → ltKey m = false) :
    let r := bsearch ltKey fuel lo hi
    lo ≤ r ∧ r ≤ hi ∧ (∀ m, m < r → ltKey m = true) ∧ (∀ m, r ≤ m → m < n → ltKey m = false) := by
  induction fuel generalizing lo hi with
  | zero =>
    have : lo = hi := by omega
    subst this
    simp only [bsearch]
    exact ⟨le_refl _, le_refl _, hlo, hhi⟩
  | succ fuel ih =>
    simp only [bsearch]
    by_cases h : lo < hi
    · rw [if_pos h]
      have hm1 : lo + (hi - lo) / 2 < hi := by omega
      by_cases hk : ltKey (lo + (hi - lo) / 2) = true
      · rw [if_pos hk]
        have := ih (lo + (hi - lo) / 2 + 1) hi (by omega) hn (by omega)
          (fun m hm => hmono m _ (by omega) (by omega) hk) hhi
        refine ⟨by omega, this.2.1, this.2.2⟩
      · rw [if_neg hk]
        have hk' : ltKey (lo + (hi - lo) / 2) = false := by simpa using hk
        have := ih lo (lo + (hi - lo) / 2) (by omega) (by omega) (by omega) hlo
          (fun m hm hmn => by
            by_contra hc
            have hc' : ltKey m = true := by simpa using hc
            exact hk (hmono _ m hm hmn hc'))
        exact ⟨this.1, by omega, this.2.2⟩
    · rw [if_neg h]
      have : lo = hi := by omega
      subst this
      exact ⟨le_refl _, le_refl _, hlo, hhi⟩

theorem searchSorted_spec (ltKey : Nat → Bool) (n : Nat)
    (hmono : ∀ a b, a ≤ b → b < n → ltKey b = true → ltKey a = true) :
    let r := searchSorted ltKey n
    r ≤ n ∧ (∀ m, m < r → ltKey m = true) ∧ (∀ m, r ≤ m → m < n → ltKey m = false) := by
  have := bsearch_spec ltKey n hmono n 0 n (by omega) (le_refl _) (by omega) (by omega) (by omega)
  exact ⟨this.2.1, this.2.2⟩

end Dorado
