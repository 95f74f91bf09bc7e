import Verif.Lemmas.IntText
import Verif.Props.Seed

/-!
# What `gen_input_check` accepts (C34)
-/

set_option linter.unusedSectionVars false

namespace Dorado

variable {K : Type} [Field K] [LinearOrder K] [IsStrictOrderedRing K] [FloorRing K] {A : Arith K}

theorem pyInt_iff (v : PyVal K) (i : Int) : pyInt v = .ok i ↔ v.IntValue i := by
  cases v with
  | bool b => simp only [pyInt, PyVal.IntValue, Except.ok.injEq]; exact eq_comm
  | int j => simp only [pyInt, PyVal.IntValue, Except.ok.injEq]; exact eq_comm
  | flt x =>
    cases x with
    | fin x =>
      simp only [pyInt, PyVal.IntValue, Except.ok.injEq]
      by_cases hx : 0 ≤ x
      · rw [if_pos hx, Int.floor_eq_iff]
        exact ⟨fun h => ⟨fun _ => h, fun h' => absurd hx (not_le.2 h')⟩, fun h => h.1 hx⟩
      · rw [if_neg hx, Int.ceil_eq_iff]
        exact ⟨fun h => ⟨fun h' => absurd h' hx, fun _ => h⟩, fun h => h.2 (not_le.1 hx)⟩
    | _ => simp [pyInt, PyVal.IntValue]
  | str s =>
    simp only [pyInt, PyVal.IntValue, ← strInt_iff]
    cases strInt s <;> simp
  | _ => simp [pyInt, PyVal.IntValue]

theorem forall₂_iff {α β : Type} {R S : α → β → Prop} (h : ∀ a b, R a b ↔ S a b) {l : List α} {m : List β} : List.Forall₂ R l m ↔ List.Forall₂ S l m :=
  ⟨fun hl => hl.imp fun a b => (h a b).1, fun hl => hl.imp fun a b => (h a b).2⟩

theorem forall₂_pyInt (l : List (PyVal K)) (vs : List Int) : mapE pyInt l = .ok vs ↔ List.Forall₂ PyVal.IntValue l vs := by
  rw [mapE_ok_iff]
  exact forall₂_iff fun v i => pyInt_iff v i

theorem intText_singleton (c : Char) (v : Int) : IntText [c] v ↔ ∃ d : Nat, DigitOf c d ∧ v = (d : Int) := by
  constructor
  · rintro ⟨pre, post, sign, gs, dss, hs, -, -, h1, h2, h3, hv⟩
    obtain ⟨⟨c', d, t, hc, ht⟩, -⟩ := groups_ends h1 h2 h3
    have hval := digitsVal_groups gs dss h1 h2 h3 0
    rw [ht] at hs
    have hlen := congrArg List.length hs
    simp only [List.length_append, List.length_cons, List.length_nil] at hlen
    obtain rfl : pre = [] := List.eq_nil_of_length_eq_zero (by omega)
    obtain rfl : post = [] := List.eq_nil_of_length_eq_zero (by omega)
    obtain rfl : sign = [] := List.eq_nil_of_length_eq_zero (by omega)
    obtain rfl : t = [] := List.eq_nil_of_length_eq_zero (by omega)
    simp only [List.nil_append, List.append_nil, List.cons.injEq, and_true] at hs
    subst hs
    rw [ht, digitsVal_digit hc, valAfter_zero] at hval
    simp only [digitsVal, mul_zero, zero_add, Option.some.injEq] at hval
    refine ⟨d, hc, ?_⟩
    rcases hv with ⟨-, rfl⟩ | ⟨h, -⟩
    · rw [hval]
    · simp at h
  · rintro ⟨d, hd, rfl⟩
    refine ⟨[], [], [], [[c]], [[d]], by simp [List.intercalate], by simp, by simp, by simp, by simp, .cons (.cons hd .nil) .nil, Or.inl ⟨Or.inl rfl, ?_⟩⟩
    simp

theorem pyList_iff (v : PyVal K) (vs : List Int) : (do let l ← pyList v; mapE pyInt l) = Except.ok vs ↔ v.IntValues vs := by
  cases v with
  | list l =>
    simp only [pyList, PyVal.IntValues]
    split_ifs with h
    · rw [error_bind]
      simp only [List.any_eq_true] at h
      obtain ⟨w, hw, hw'⟩ := h
      refine ⟨fun h => (by cases h), fun h => ?_⟩
      obtain ⟨k, hk⟩ := List.getElem?_of_mem hw
      rw [← forall₂_pyInt] at h
      obtain ⟨i, -, hi⟩ := mapE_get h hk
      cases w <;> simp_all [pyInt]
    · rw [ok_bind]
      exact forall₂_pyInt l vs
  | nd l => exact forall₂_pyInt l vs
  | str s =>
    simp only [pyList, ok_bind, PyVal.IntValues]
    rw [forall₂_pyInt, List.forall₂_map_left_iff]
    refine forall₂_iff fun c v => ?_
    show IntText (String.singleton c).toList v ↔ _
    rw [String.toList_singleton]
    exact intText_singleton c v
  | _ => simp [pyList, PyVal.IntValues, error_bind]

theorem checkTime_iff (v : PyVal K) (t : Fl K) : checkTime v = .ok t ↔ v.TimeValue t := by
  cases v <;> simp [checkTime, PyVal.TimeValue, eq_comm]

theorem checkMethod_iff (v : PyVal K) (m : Method) : checkMethod v = .ok m ↔ v.MethodValue m := by
  cases v with
  | str s =>
    simp only [checkMethod, PyVal.MethodValue]
    split_ifs with h1 h2
    · subst h1
      simp [eq_comm]
    · subst h2
      simp [eq_comm]
    · simp [h1, h2]
  | _ => simp [checkMethod, PyVal.MethodValue]

theorem asTypeError_ok {α : Type} {x : Except PyErr α} {a : α} : asTypeError x = .ok a ↔ x = .ok a := by
  cases x <;> simp [asTypeError]

/-- C34: `gen_input_check` accepts exactly the counts and locations that stand for integers, with numeric times and the two methods, and returns those
integers and that time. -/
theorem C34_input_check (np xs ys time method : PyVal K) (n : Int) (x y : List Int) (t : Fl K) (m : Method) :
    genInputCheck np xs ys time method = .ok (n, x, y, t, m) ↔
      np.IntValue n ∧ xs.IntValues x ∧ ys.IntValues y ∧ time.TimeValue t ∧ method.MethodValue m := by
  rw [← pyInt_iff, ← pyList_iff, ← pyList_iff, ← checkTime_iff, ← checkMethod_iff]
  unfold genInputCheck
  constructor
  · intro h
    obtain ⟨n', h1, h⟩ := bind_ok.1 h
    obtain ⟨x', h2, h⟩ := bind_ok.1 h
    obtain ⟨y', h3, h⟩ := bind_ok.1 h
    obtain ⟨t', h4, h⟩ := bind_ok.1 h
    obtain ⟨m', h5, h⟩ := bind_ok.1 h
    cases h
    exact ⟨asTypeError_ok.1 h1, asTypeError_ok.1 h2, asTypeError_ok.1 h3, h4, h5⟩
  · rintro ⟨h1, h2, h3, h4, h5⟩
    rw [asTypeError_ok.2 h1, asTypeError_ok.2 h2, asTypeError_ok.2 h3, h4, h5]
    rfl

/-- C34: everything else is rejected by `generate_particles`: with TypeError, or with ValueError if only the name of the method is unknown. -/
theorem C34_rejected (P : PObj K) (ω : Nat → K) (s : PState K) (np xs ys time method : PyVal K) (prev : Option (WalkData K)) :
    ((¬ ∃ n, np.IntValue n) ∨ (¬ ∃ x, xs.IntValues x) ∨ (¬ ∃ y, ys.IntValues y) ∨ ¬ time.IsTime ∨ ¬ method.IsStr →
      generateParticles A P ω s np xs ys time method prev = .error .typeError) ∧
    ((∃ n, np.IntValue n) → (∃ x, xs.IntValues x) → (∃ y, ys.IntValues y) → time.IsTime → method.IsStr → ¬ method.IsMethod →
      generateParticles A P ω s np xs ys time method prev = .error .valueError) := by
  have hgen : ∀ e, genInputCheck np xs ys time method = .error e → generateParticles A P ω s np xs ys time method prev = .error e := by
    intro e he
    unfold generateParticles
    rw [he]
    rfl
  have hno : ∀ {α : Type} {x : Except PyErr α} {p : α → Prop}, (∀ a, x = .ok a ↔ p a) → (¬ ∃ a, p a) → asTypeError x = .error .typeError :=
    fun h hn => asTypeError_error fun a ha => hn ⟨a, (h a).1 ha⟩
  constructor
  · intro hbad
    apply hgen
    unfold genInputCheck
    rcases asTypeError_cases (pyInt np) with h1 | ⟨n, h1⟩
    · rw [h1]; rfl
    rcases asTypeError_cases (do let l ← pyList xs; mapE pyInt l) with h2 | ⟨x, h2⟩
    · rw [h1, h2]; rfl
    rcases asTypeError_cases (do let l ← pyList ys; mapE pyInt l) with h3 | ⟨y, h3⟩
    · rw [h1, h2, h3]; rfl
    rcases hbad with a | a | a | a | a
    · rw [hno (pyInt_iff np) a] at h1; cases h1
    · rw [hno (pyList_iff xs) a] at h2; cases h2
    · rw [hno (pyList_iff ys) a] at h3; cases h3
    · rw [h1, h2, h3]
      cases time <;> first | exact absurd trivial a | rfl
    · rw [h1, h2, h3]
      cases method with
      | str m => exact absurd trivial a
      | _ => cases time <;> rfl
  · rintro ⟨n, hn⟩ ⟨x, hx⟩ ⟨y, hy⟩ ht hm hm'
    apply hgen
    have h4 : ∃ t, checkTime time = .ok t := by
      cases time <;> first | exact ⟨_, rfl⟩ | exact absurd ht id
    obtain ⟨t, h4⟩ := h4
    have h5 : checkMethod method = .error .valueError := by
      cases method with
      | str m =>
        unfold PyVal.IsMethod at hm'
        push Not at hm'
        simp only [checkMethod, if_neg hm'.1, if_neg hm'.2]
      | _ => exact absurd hm id
    unfold genInputCheck
    rw [asTypeError_ok.2 ((pyInt_iff np n).2 hn), asTypeError_ok.2 ((pyList_iff xs x).2 hx), asTypeError_ok.2 ((pyList_iff ys y).2 hy), h4, h5]
    rfl

/-- The count `" 1_0"` stands for 10, the locations `"12"` for 1 and 2. -/
example : genInputCheck (K := ℚ) (.str " 1_0\n") (.str "12") (.list [.str "-3", .flt (.fin (5 / 2))]) (.bool true) (.str "exact") =
    .ok (10, [1, 2], [-3, 2], .fin 1, .exact) := by
  rw [C34_input_check]
  refine ⟨(strInt_iff _ _).1 (by decide +kernel), ?_, ?_, rfl, Or.inr ⟨rfl, rfl⟩⟩
  · exact .cons ⟨1, by unfold DigitOf; decide, rfl⟩ (.cons ⟨2, by unfold DigitOf; decide, rfl⟩ .nil)
  · refine .cons ((strInt_iff _ _).1 (by decide +kernel)) (.cons ?_ .nil)
    show (0 ≤ (5 / 2 : ℚ) → _ ∧ _) ∧ _
    norm_num

/-- A count with a fraction given as a text is rejected. -/
example (P : PObj ℚ) (s : PState ℚ) : generateParticles Arith.exact P (fun _ => 1 / 3) s (.str "2.0") (ints [1]) (ints [2]) (.int 0) (.str "exact") none =
    .error .typeError := by
  refine (C34_rejected P _ s _ _ _ _ _ _).1 (Or.inl ?_)
  rintro ⟨n, hn⟩
  have := (strInt_iff "2.0" n).2 hn
  have h2 : strInt "2.0" = none := by decide +kernel
  rw [h2] at this
  cases this

end Dorado
