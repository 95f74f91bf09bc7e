import Verif.Spec.IntText
import Verif.Lemmas.Basic

/-! `int` of a text. -/

set_option linter.unusedSectionVars false

namespace Dorado

theorem digitOf_iff (c : Char) (d : Nat) : DigitOf c d ↔ ('0' ≤ c ∧ c ≤ '9') ∧ d = c.toNat - 48 := by
  constructor
  · intro h
    simp only [DigitOf, List.mem_cons, Prod.mk.injEq, List.not_mem_nil, or_false] at h
    rcases h with ⟨rfl, rfl⟩ | ⟨rfl, rfl⟩ | ⟨rfl, rfl⟩ | ⟨rfl, rfl⟩ | ⟨rfl, rfl⟩ | ⟨rfl, rfl⟩ | ⟨rfl, rfl⟩ | ⟨rfl, rfl⟩ | ⟨rfl, rfl⟩ | ⟨rfl, rfl⟩ <;>
      decide
  · rintro ⟨⟨h1, h2⟩, rfl⟩
    have h1' : 48 ≤ c.toNat := h1
    have h2' : c.toNat ≤ 57 := h2
    have hc : c = Char.ofNat c.toNat := (Char.ofNat_toNat c).symm
    generalize c.toNat = n at *
    subst hc
    unfold DigitOf
    interval_cases n <;> decide

theorem isBlank_iff (c : Char) : isBlank c = true ↔ c ∈ asciiBlanks := by
  constructor
  · intro h
    unfold isBlank at h
    have hc : c = Char.ofNat c.toNat := (Char.ofNat_toNat c).symm
    generalize c.toNat = n at *
    subst hc
    simp only [Bool.or_eq_true, Bool.and_eq_true, decide_eq_true_eq] at h
    rcases h with (rfl | ⟨h1, h2⟩) | ⟨h1, h2⟩
    · decide
    · interval_cases n <;> decide
    · interval_cases n <;> decide
  · intro h
    have : ∀ c ∈ asciiBlanks, isBlank c = true := by decide
    exact this c h

theorem digit_not_blank {c : Char} {d : Nat} (h : DigitOf c d) : isBlank c = false ∧ c ≠ '_' ∧ c ≠ '+' ∧ c ≠ '-' := by
  simp only [DigitOf, List.mem_cons, Prod.mk.injEq, List.not_mem_nil, or_false] at h
  rcases h with ⟨rfl, -⟩ | ⟨rfl, -⟩ | ⟨rfl, -⟩ | ⟨rfl, -⟩ | ⟨rfl, -⟩ | ⟨rfl, -⟩ | ⟨rfl, -⟩ | ⟨rfl, -⟩ | ⟨rfl, -⟩ | ⟨rfl, -⟩ <;> decide

/-- Value of a digit sequence after `n`. -/
def valAfter (n : Nat) (ds : List Nat) : Nat := ds.foldl (fun a d => 10 * a + d) n

theorem valAfter_ofDigits (ds : List Nat) (n : Nat) : valAfter n ds = Nat.ofDigits 10 (ds.reverse ++ [n]) := by
  induction ds generalizing n with
  | nil => simp [valAfter]
  | cons d ds ih =>
    have : valAfter n (d :: ds) = valAfter (10 * n + d) ds := rfl
    rw [this, ih]
    simp only [List.reverse_cons, Nat.ofDigits_append, List.append_assoc, List.length_reverse]
    simp [Nat.ofDigits]
    ring

theorem valAfter_zero (ds : List Nat) : valAfter 0 ds = Nat.ofDigits 10 ds.reverse := by
  rw [valAfter_ofDigits, Nat.ofDigits_append]
  simp [Nat.ofDigits]

theorem digitsVal_digit {c : Char} {d : Nat} (h : DigitOf c d) (cs : List Char) (n : Nat) :
    digitsVal (c :: cs) n = digitsVal cs (10 * n + d) := by
  obtain ⟨h1, rfl⟩ := (digitOf_iff c d).1 h
  have h2 := (digit_not_blank h).2.1
  rw [digitsVal, if_pos h1]
  rintro c' cs' rfl -
  exact h2 rfl

theorem digitsVal_digits {g : List Char} {ds : List Nat} (h : DigitsOf g ds) (cs : List Char) (n : Nat) :
    digitsVal (g ++ cs) n = digitsVal cs (valAfter n ds) := by
  induction h generalizing n with
  | nil => rfl
  | cons h _ ih =>
    rw [List.cons_append, digitsVal_digit h, ih]
    rfl

theorem digitsVal_underscore {c : Char} {d : Nat} (h : DigitOf c d) (cs : List Char) (n : Nat) :
    digitsVal ('_' :: c :: cs) n = digitsVal cs (10 * n + d) := by
  obtain ⟨h1, rfl⟩ := (digitOf_iff c d).1 h
  rw [digitsVal, if_pos h1]

theorem intercalate_cons_cons (g g' : List Char) (gs : List (List Char)) :
    List.intercalate ['_'] (g :: g' :: gs) = g ++ '_' :: List.intercalate ['_'] (g' :: gs) := by
  simp [List.intercalate, List.intersperse]

theorem digitsVal_groups : ∀ (gs : List (List Char)) (dss : List (List Nat)), gs ≠ [] → (∀ g ∈ gs, g ≠ []) → List.Forall₂ DigitsOf gs dss → ∀ n,
    digitsVal (List.intercalate ['_'] gs) n = some (valAfter n dss.flatten)
  | [g], _, _, _, .cons h .nil, n => by
    have := digitsVal_digits h [] n
    simpa [List.intercalate, digitsVal] using this
  | g :: g' :: gs, _, _, h0, .cons (b := ds) (l₂ := dss') h hr, n => by
    have ih := digitsVal_groups (g' :: gs) dss' (by simp) (fun x hx => h0 x (by simp_all)) hr
    rw [intercalate_cons_cons, digitsVal_digits h]
    cases hg : g' with
    | nil => exact absurd hg (h0 g' (by simp))
    | cons c cs =>
      subst hg
      cases hr with
      | @cons _ ds' _ dss'' hd hr' =>
        cases hd with
        | @cons _ d _ _ hc hcs =>
          have h1 : List.intercalate ['_'] ((c :: cs) :: gs) = c :: List.intercalate ['_'] (cs :: gs) := by
            cases gs with
            | nil => simp [List.intercalate]
            | cons x gs => rw [intercalate_cons_cons, intercalate_cons_cons]; rfl
          have h2 := ih (valAfter n ds)
          rw [h1, digitsVal_digit hc] at h2
          rw [h1, digitsVal_underscore hc, h2]
          simp [valAfter]

theorem digitsVal_some : ∀ (cs : List Char) (n m : Nat), digitsVal cs n = some m → ∀ c d, DigitOf c d →
    ∃ (gs : List (List Char)) (dss : List (List Nat)), gs ≠ [] ∧ (∀ g ∈ gs, g ≠ []) ∧ List.Forall₂ DigitsOf gs dss ∧ c :: cs = List.intercalate ['_'] gs := by
  intro cs n
  induction cs, n using digitsVal.induct with
  | case1 n =>
    intro m _ c d hc
    exact ⟨[[c]], [[d]], by simp, by simp, .cons (.cons hc .nil) .nil, by simp [List.intercalate]⟩
  | case2 c' cs' n h ih =>
    intro m hm c d hc
    rw [digitsVal, if_pos h] at hm
    obtain ⟨gs, dss, h1, h2, h3, h4⟩ := ih m hm c' _ ((digitOf_iff _ _).2 ⟨h, rfl⟩)
    match gs, h1 with
    | g :: gs', _ =>
      refine ⟨[c] :: g :: gs', [d] :: dss, by simp, by simpa using h2, .cons (.cons hc .nil) h3, ?_⟩
      rw [intercalate_cons_cons, ← h4]
      rfl
  | case3 c' cs' n h =>
    intro m hm
    rw [digitsVal, if_neg h] at hm
    cases hm
  | case4 c' cs' n hn h ih =>
    intro m hm c d hc
    have hc' : DigitOf c' (c'.toNat - 48) := (digitOf_iff _ _).2 ⟨h, rfl⟩
    rw [digitsVal_digit hc'] at hm
    obtain ⟨gs, dss, h1, h2, h3, h4⟩ := ih m hm c' _ hc'
    match gs, h1 with
    | g :: gs', _ =>
      cases h3 with
      | @cons _ ds _ dss' ha hb =>
        refine ⟨(c :: g) :: gs', (d :: ds) :: dss', by simp, ?_, .cons (.cons hc ha) hb, ?_⟩
        · intro x hx
          rcases List.mem_cons.1 hx with rfl | hx
          · simp
          · exact h2 x (by simp [hx])
        · cases gs' with
          | nil => rw [h4]; simp [List.intercalate]
          | cons x gs => rw [intercalate_cons_cons] at *; rw [h4]; rfl
  | case5 c' cs' n hn h =>
    intro m hm
    rw [digitsVal] at hm
    · rw [if_neg h] at hm; cases hm
    · exact hn

/-- The text left after stripping. -/
theorem strip_eq (pre core post : List Char) (hpre : ∀ c ∈ pre, isBlank c = true) (hpost : ∀ c ∈ post, isBlank c = true) (x y : Char) (t u : List Char)
    (hx : core = x :: t) (hxb : isBlank x = false) (hy : core = u ++ [y]) (hyb : isBlank y = false) :
    ((((pre ++ core ++ post).dropWhile isBlank).reverse.dropWhile isBlank).reverse) = core := by
  have h1 : (pre ++ core ++ post).dropWhile isBlank = core ++ post := by
    rw [List.append_assoc, List.dropWhile_append_of_pos hpre, hx, List.cons_append, List.dropWhile_cons_of_neg (by simp [hxb])]
  rw [h1, List.reverse_append, List.dropWhile_append_of_pos (by simpa using hpost)]
  rw [hy, List.reverse_append, List.reverse_singleton, List.singleton_append, List.dropWhile_cons_of_neg (by simp [hyb])]
  simp

theorem mem_takeWhile_blank {l : List Char} {c : Char} (h : c ∈ l.takeWhile isBlank) : isBlank c = true := by
  induction l with
  | nil => simp at h
  | cons x l ih =>
    rw [List.takeWhile_cons] at h
    split_ifs at h with hx
    · rcases List.mem_cons.1 h with rfl | h
      · exact hx
      · exact ih h
    · simp at h

theorem strip_split (l : List Char) : ∃ pre post, l = pre ++ (((l.dropWhile isBlank).reverse.dropWhile isBlank).reverse) ++ post ∧
    (∀ c ∈ pre, isBlank c = true) ∧ (∀ c ∈ post, isBlank c = true) := by
  refine ⟨l.takeWhile isBlank, ((l.dropWhile isBlank).reverse.takeWhile isBlank).reverse, ?_, fun c hc => mem_takeWhile_blank hc, ?_⟩
  · rw [List.append_assoc, ← List.reverse_append, List.takeWhile_append_dropWhile, List.reverse_reverse, List.takeWhile_append_dropWhile]
  · intro c hc
    rw [List.mem_reverse] at hc
    exact mem_takeWhile_blank hc

theorem groups_ends {gs : List (List Char)} {dss : List (List Nat)} (h0 : gs ≠ []) (h1 : ∀ g ∈ gs, g ≠ []) (h : List.Forall₂ DigitsOf gs dss) :
    (∃ c d t, DigitOf c d ∧ List.intercalate ['_'] gs = c :: t) ∧ ∃ c d t, DigitOf c d ∧ List.intercalate ['_'] gs = t ++ [c] := by
  have hd : ∀ {g : List Char} {ds : List Nat}, DigitsOf g ds → ∀ c ∈ g, ∃ d, DigitOf c d := by
    intro g ds hg
    induction hg with
    | nil => simp
    | cons h _ ih =>
      intro c hc
      rcases List.mem_cons.1 hc with rfl | hc
      · exact ⟨_, h⟩
      · exact ih c hc
  induction h with
  | nil => exact absurd rfl h0
  | @cons g ds gs dss hg hr ih =>
    have hne := h1 g (by simp)
    obtain ⟨c, t, hct⟩ := List.exists_cons_of_ne_nil hne
    obtain ⟨d, hcd⟩ := hd hg c (by simp [hct])
    cases hgs : gs with
    | nil =>
      obtain ⟨u, y, huy⟩ : ∃ u y, g = u ++ [y] := ⟨g.dropLast, g.getLast hne, (List.dropLast_append_getLast hne).symm⟩
      obtain ⟨e, he⟩ := hd hg y (by simp [huy])
      exact ⟨⟨c, d, t, hcd, by simp [List.intercalate, hct]⟩, ⟨y, e, u, he, by simp [List.intercalate, huy]⟩⟩
    | cons g' gs' =>
      obtain ⟨-, y, e, u, he, hu⟩ := ih (by simp [hgs]) (fun x hx => h1 x (by simp [hx]))
      rw [intercalate_cons_cons, ← hgs, hu]
      exact ⟨⟨c, d, _, hcd, by rw [hct]; rfl⟩, ⟨y, e, g ++ '_' :: u, he, by simp⟩⟩

/-- `int` of a text succeeds exactly on the texts that denote an integer. -/
theorem strInt_iff (s : String) (v : Int) : strInt s = some v ↔ IntText s.toList v := by
  constructor
  · intro h
    obtain ⟨pre, post, hs, hpre, hpost⟩ := strip_split s.toList
    unfold strInt at h
    have key : ∀ (sign : List Char) (cs : List Char) (m : Nat) (core : List Char), core = sign ++ cs → (∀ t, cs ≠ '_' :: t) → cs ≠ [] →
        digitsVal cs 0 = some m → s.toList = pre ++ core ++ post →
        ((sign = [] ∨ sign = ['+']) ∧ v = m ∨ sign = ['-'] ∧ v = -(m : Int)) → IntText s.toList v := by
      intro sign cs m core hcore hund hne hval hsplit hv
      obtain ⟨c, cs, rfl⟩ := List.exists_cons_of_ne_nil hne
      have hdig : ∃ d, DigitOf c d := by
        refine ⟨_, (digitOf_iff _ _).2 ⟨?_, rfl⟩⟩
        by_contra hc
        rw [digitsVal, if_neg hc] at hval
        · cases hval
        · rintro c' cs' rfl -
          exact hund _ rfl
      obtain ⟨d, hd⟩ := hdig
      have hval' := hval
      rw [digitsVal_digit hd] at hval
      obtain ⟨gs, dss, h1, h2, h3, h4⟩ := digitsVal_some cs _ m hval c d hd
      refine ⟨pre, post, sign, gs, dss, by rw [hsplit, hcore, h4], fun c hc => (isBlank_iff c).1 (hpre c hc), fun c hc => (isBlank_iff c).1 (hpost c hc),
        h1, h2, h3, ?_⟩
      rw [h4, digitsVal_groups gs dss h1 h2 h3, valAfter_zero] at hval'
      cases hval'
      exact hv
    generalize hcore : ((s.toList.dropWhile isBlank).reverse.dropWhile isBlank).reverse = core at h hs
    split at h
    · cases h
    · cases h
    · cases h
    · rename_i c cs hn
      obtain ⟨m, hm, rfl⟩ := Option.map_eq_some_iff.1 h
      exact key ['-'] (c :: cs) m _ rfl (fun t ht => hn (by simpa using (List.cons.inj ht).1)) (by simp) hm hs (Or.inr ⟨rfl, rfl⟩)
    · rename_i c cs hn
      obtain ⟨m, hm, rfl⟩ := Option.map_eq_some_iff.1 h
      exact key ['+'] (c :: cs) m _ rfl (fun t ht => hn (by simpa using (List.cons.inj ht).1)) (by simp) hm hs (Or.inl ⟨Or.inr rfl, rfl⟩)
    · rename_i c cs _ _ hn _ _
      obtain ⟨m, hm, rfl⟩ := Option.map_eq_some_iff.1 h
      exact key [] (c :: cs) m _ rfl (fun t ht => hn (by simpa using (List.cons.inj ht).1)) (by simp) hm hs (Or.inl ⟨Or.inl rfl, rfl⟩)
    · cases h
  · rintro ⟨pre, post, sign, gs, dss, hs, hpre, hpost, h1, h2, h3, hv⟩
    obtain ⟨⟨c, d, t, hc, ht⟩, y, e, u, hy, hu⟩ := groups_ends h1 h2 h3
    have hval := digitsVal_groups gs dss h1 h2 h3 0
    rw [valAfter_zero] at hval
    obtain ⟨b1, b2, b3, b4⟩ := digit_not_blank hc
    have hstrip : ∀ x t', sign ++ List.intercalate ['_'] gs = x :: t' → isBlank x = false →
        ((s.toList.dropWhile isBlank).reverse.dropWhile isBlank).reverse = sign ++ List.intercalate ['_'] gs := by
      intro x t' hx hxb
      rw [hs]
      exact strip_eq pre _ post (fun c hc => (isBlank_iff c).2 (hpre c hc)) (fun c hc => (isBlank_iff c).2 (hpost c hc)) x y t' (sign ++ u) hx hxb
        (by rw [hu, List.append_assoc]) (digit_not_blank hy).1
    unfold strInt
    rcases hv with ⟨rfl | rfl, rfl⟩ | ⟨rfl, rfl⟩
    · rw [hstrip c t ht b1, List.nil_append, ht]
      rw [ht] at hval
      split <;> simp_all
    · rw [hstrip '+' _ rfl (by decide), ht]
      rw [ht] at hval
      simp only [List.cons_append, List.nil_append]
      rw [hval]
      rfl
    · rw [hstrip '-' _ rfl (by decide), ht]
      rw [ht] at hval
      simp only [List.cons_append, List.nil_append]
      rw [hval]
      rfl

end Dorado
