import Verif.Spec.Json
import Verif.Lemmas.Basic

/-! Reading back what `json.dump` wrote. -/

set_option linter.unusedSectionVars false

namespace Dorado

variable {K : Type} [Field K] [LinearOrder K] [IsStrictOrderedRing K] {A : Arith K} {R : FloatText K}

/-- What follows a value in the text. -/
def Stop (s : List Char) : Prop := s = [] ∨ ∃ c r, s = c :: r ∧ (c = ',' ∨ c = ']' ∨ c = '}')

/-- The text does not go on with a digit. -/
def NoDigit (s : List Char) : Prop := ∀ c r, s = c :: r → c.isDigit = false

theorem Stop.noDigit {s : List Char} (h : Stop s) : NoDigit s := by
  rintro c r rfl
  rcases h with h | ⟨c', r', h, hc⟩
  · cases h
  · cases h
    rcases hc with rfl | rfl | rfl <;> decide

theorem takeDigits_append {d s : List Char} (hd : ∀ c ∈ d, c.isDigit = true) (hs : NoDigit s) : takeDigits (d ++ s) = (d, s) := by
  induction d with
  | nil =>
    cases s with
    | nil => rfl
    | cons c r =>
      have := hs c r rfl
      simp [takeDigits, this]
  | cons a d ih =>
    have ha := hd a (by simp)
    have := ih fun c hc => hd c (by simp [hc])
    simp only [takeDigits, Prod.mk.injEq] at this ⊢
    simp [ha, this.1, this.2]

theorem digit_zero {c : Char} (h : c = '0') : c.isDigit = true := by subst h; rfl

theorem readIntPart_append {ip s : List Char} (hi : PlainInt ip) (hs : NoDigit s) : readIntPart (ip ++ s) = some (ip, s) := by
  obtain ⟨⟨hne, hd⟩, hz⟩ := hi
  cases ip with
  | nil => exact absurd rfl hne
  | cons c d =>
    by_cases hc : c = '0'
    · subst hc
      rcases hz with hz | hz
      · cases hz; rfl
      · simp at hz
    · have hcd := hd c (by simp)
      have := takeDigits_append (s := s) (fun x hx => hd x (List.mem_cons_of_mem _ hx)) hs
      simp [readIntPart, hc, hcd, this]

theorem readFrac_append {fr s : List Char} (hf : fr = [] ∨ ∃ d, fr = '.' :: d ∧ DigitText d) (hs : NoDigit s) (hp : fr = [] → s.head? ≠ some '.') :
    readFrac (fr ++ s) = (fr, s) := by
  rcases hf with rfl | ⟨d, rfl, hd⟩
  · cases s with
    | nil => rfl
    | cons c r =>
      have := hp rfl
      simp only [List.nil_append, List.head?_cons, ne_eq, Option.some.injEq] at this ⊢
      unfold readFrac
      split
      · rename_i h; cases h; exact absurd rfl this
      · rfl
  · have := takeDigits_append (s := s) hd.2 hs
    simp [readFrac, this, hd.1]

theorem readExp_append {ex s : List Char} (he : ex = [] ∨ ∃ es d, ex = 'e' :: (es ++ d) ∧ (es = ['+'] ∨ es = ['-']) ∧ DigitText d) (hs : Stop s) :
    readExp (ex ++ s) = (ex, s) := by
  rcases he with rfl | ⟨es, d, rfl, hes, hd⟩
  · rcases hs with rfl | ⟨c, r, rfl, hc⟩
    · rfl
    · rcases hc with rfl | rfl | rfl <;> rfl
  · have := takeDigits_append (s := s) hd.2 hs.noDigit
    rcases hes with rfl | rfl <;> simp [readExp, this, hd.1]

theorem digit_not {c : Char} (h : c.isDigit = true) : c ≠ '-' ∧ c ≠ '.' ∧ c ≠ 'e' ∧ c ≠ 'n' ∧ c ≠ 'N' ∧ c ≠ 'I' ∧ c ≠ '"' ∧ c ≠ '[' ∧ c ≠ '{' ∧ c ≠ ']' ∧ c ≠ '}' ∧
    c ≠ ' ' ∧ c ≠ '\t' ∧ c ≠ '\n' ∧ c ≠ '\r' := by
  refine ⟨?_, ?_, ?_, ?_, ?_, ?_, ?_, ?_, ?_, ?_, ?_, ?_, ?_, ?_, ?_⟩ <;> (rintro rfl; exact absurd h (by decide))

theorem plainInt_head {ip s : List Char} (hi : PlainInt ip) : (ip ++ s).head? ≠ some '-' := by
  obtain ⟨⟨hne, hd⟩, -⟩ := hi
  cases ip with
  | nil => exact absurd rfl hne
  | cons c d =>
    have := (digit_not (hd c (by simp))).1
    simpa using this

theorem plainInt_digits (n : Nat) : PlainInt (Nat.toDigits 10 n) := by
  refine ⟨⟨Nat.toDigits_ne_nil, fun c hc => Nat.isDigit_of_mem_toDigits (by decide) (by decide) hc⟩, ?_⟩
  induction n using Nat.strong_induction_on with
  | _ n ih =>
    by_cases hn : n < 10
    · rw [Nat.toDigits_of_lt_base hn]
      interval_cases n <;> decide
    · right
      rw [Nat.toDigits_of_base_le (by decide) (by omega)]
      have h1 : 0 < n / 10 := by omega
      rcases ih (n / 10) (by omega) with h | h
      · have := congrArg (fun l => Nat.ofDigitChars 10 l 0) h
        simp only [Nat.ofDigitChars_ten_toDigits] at this
        simp [Nat.ofDigitChars_cons] at this
        omega
      · rw [List.head?_append]
        cases hh : (Nat.toDigits 10 (n / 10)).head? with
        | none => exact absurd (List.head?_eq_none_iff.1 hh) Nat.toDigits_ne_nil
        | some c => rw [hh] at h; simpa using h

theorem readNumber_nat (n : Nat) {s : List Char} (hs : Stop s) : readNumber R (Nat.toDigits 10 n ++ s) = some (.int n, s) := by
  have h1 := plainInt_head (s := s) (plainInt_digits n)
  have h2 := readIntPart_append (plainInt_digits n) hs.noDigit
  have h3 := readFrac_append (fr := []) (Or.inl rfl) hs.noDigit (fun _ => by
    rcases hs with rfl | ⟨c, r, rfl, hc⟩
    · simp
    · rcases hc with rfl | rfl | rfl <;> simp)
  have h4 := readExp_append (ex := []) (Or.inl rfl) hs
  simp only [List.nil_append] at h3 h4
  unfold readNumber
  simp only [h1, if_false, h2, h3, h4]
  simp [Nat.ofDigitChars_ten_toDigits]

theorem readNumber_int (n : Int) {s : List Char} (hs : Stop s) : readNumber R (intText n ++ s) = some (.int n, s) := by
  cases n with
  | ofNat n => exact readNumber_nat n hs
  | negSucc n =>
    have h2 := readIntPart_append (plainInt_digits (n + 1)) hs.noDigit
    have h3 := readFrac_append (fr := []) (Or.inl rfl) hs.noDigit (fun _ => by
      rcases hs with rfl | ⟨c, r, rfl, hc⟩
      · simp
      · rcases hc with rfl | rfl | rfl <;> simp)
    have h4 := readExp_append (ex := []) (Or.inl rfl) hs
    simp only [List.nil_append] at h3 h4
    simp only [intText, readNumber, List.cons_append, List.head?_cons, List.tail_cons, if_true, h2, h3, h4]
    simp [Nat.ofDigitChars_ten_toDigits, Int.negSucc_eq]

theorem readNumber_float {x s : List Char} (hx : FloatShape x) (hs : Stop s) : readNumber R (x ++ s) = some (.flt (.fin (R.value x)), s) := by
  obtain ⟨sg, ip, fr, ex, rfl, hsg, hip, hfr, hex, hsome⟩ := hx
  have h4 := readExp_append hex hs
  have n3 : NoDigit (ex ++ s) := by
    rcases hex with rfl | ⟨es, d, rfl, -, -⟩
    · exact hs.noDigit
    · rintro c r h
      rw [List.cons_append] at h
      cases h
      decide
  have p3 : (ex ++ s).head? ≠ some '.' := by
    rcases hex with rfl | ⟨es, d, rfl, -, -⟩
    · rcases hs with rfl | ⟨c, r, rfl, hc⟩
      · simp
      · rcases hc with rfl | rfl | rfl <;> simp
    · simp
  have h3 := readFrac_append hfr n3 (fun _ => p3)
  have n2 : NoDigit (fr ++ (ex ++ s)) := by
    rcases hfr with rfl | ⟨d, rfl, -⟩
    · exact n3
    · rintro c r h
      rw [List.cons_append] at h
      cases h
      decide
  have h2 := readIntPart_append hip n2
  have h1 := plainInt_head (s := fr ++ (ex ++ s)) hip
  have hne : ¬(fr = [] ∧ ex = []) := by tauto
  rcases hsg with rfl | rfl
  · unfold readNumber
    simp only [List.nil_append, List.append_assoc, h1, if_false, h2, h3, h4, hne]
  · unfold readNumber
    simp only [List.cons_append, List.nil_append, List.append_assoc, List.head?_cons, List.tail_cons, if_true, h2, h3, h4, hne, if_false]

theorem readStr_append (k s : List Char) : readStr (strText k ++ '"' :: s) = .ok (k, s) := by
  induction k with
  | nil => rfl
  | cons c k ih =>
    by_cases hc : c = '"' ∨ c = '\\'
    · simp only [strText, hc, if_true, List.cons_append, readStr, ih]
      rfl
    · simp only [strText, hc, if_false, List.cons_append]
      push Not at hc
      rw [readStr]
      · rw [ih]; rfl
      · simpa using hc.1
      · intro c' s' h
        exact absurd h hc.2

mutual
/-- All numbers in the object are of type `float`. -/
def Doubles (A : Arith K) : JTree K → Prop
  | .flt x => IsDouble A x
  | .list l => DoublesL A l
  | .dict l => DoublesD A l
  | _ => True
/-- All numbers in the items are of type `float`. -/
def DoublesL (A : Arith K) : JList K → Prop
  | .nil => True
  | .cons a l => Doubles A a ∧ DoublesL A l
/-- All numbers in the values are of type `float`. -/
def DoublesD (A : Arith K) : JDict K → Prop
  | .nil => True
  | .cons _ v l => Doubles A v ∧ DoublesD A l
end

/-- First characters of values. -/
def Begins (s : List Char) : Prop :=
  ∃ c r, s = c :: r ∧ c ≠ ']' ∧ c ≠ '}' ∧ c ≠ ' ' ∧ c ≠ '\t' ∧ c ≠ '\n' ∧ c ≠ '\r'

/-- First characters of numbers. -/
def NumBegins (s : List Char) : Prop := ∃ c r, s = c :: r ∧ (c = '-' ∨ c.isDigit = true)

theorem PlainInt.begins {ip : List Char} (h : PlainInt ip) (s : List Char) : ∃ c r, ip ++ s = c :: r ∧ c.isDigit = true := by
  obtain ⟨⟨hne, hd⟩, -⟩ := h
  cases ip with
  | nil => exact absurd rfl hne
  | cons c d => exact ⟨c, d ++ s, rfl, hd c (by simp)⟩

theorem numBegins_int (n : Int) : NumBegins (intText n) := by
  cases n with
  | ofNat n =>
    obtain ⟨c, r, h, hc⟩ := (plainInt_digits n).begins []
    rw [List.append_nil] at h
    exact ⟨c, r, h, .inr hc⟩
  | negSucc n => exact ⟨_, _, rfl, .inl rfl⟩

theorem numBegins_float {x : List Char} (h : FloatShape x) : NumBegins x := by
  obtain ⟨sg, ip, fr, ex, rfl, hsg, hip, -, -, -⟩ := h
  rcases hsg with rfl | rfl
  · obtain ⟨c, r, h, hc⟩ := hip.begins (fr ++ ex)
    exact ⟨c, r, by simpa using h, .inr hc⟩
  · exact ⟨'-', _, rfl, .inl rfl⟩

theorem NumBegins.begins {s : List Char} (h : NumBegins s) : Begins s := by
  obtain ⟨c, r, rfl, hc⟩ := h
  refine ⟨c, r, rfl, ?_⟩
  rcases hc with rfl | hc
  · decide
  · have := digit_not hc
    tauto

theorem NumBegins.append {s : List Char} (h : NumBegins s) (r : List Char) : NumBegins (s ++ r) := by
  obtain ⟨c, r', rfl, hc⟩ := h
  exact ⟨c, r' ++ r, rfl, hc⟩

theorem begins_dump (hR : Faithful A R) {t : JTree K} (h : Doubles A t) : Begins (dumpText R t) := by
  cases t with
  | null => exact ⟨_, _, rfl, by decide⟩
  | int n => exact (numBegins_int n).begins
  | flt x =>
    cases x with
    | nan => exact ⟨_, _, rfl, by decide⟩
    | ninf => exact ⟨_, _, rfl, by decide⟩
    | pinf => exact ⟨_, _, rfl, by decide⟩
    | fin x => exact (numBegins_float (hR x h).1).begins
  | str s => exact ⟨_, _, rfl, by decide⟩
  | list l => cases l <;> exact ⟨_, _, rfl, by decide⟩
  | dict l => cases l <;> exact ⟨_, _, rfl, by decide⟩

theorem Begins.append {s : List Char} (h : Begins s) (r : List Char) : Begins (s ++ r) := by
  obtain ⟨c, r', rfl, hc⟩ := h
  exact ⟨c, r' ++ r, rfl, hc⟩

theorem Begins.skip {s : List Char} (h : Begins s) : skipWs s = s := by
  obtain ⟨c, r, rfl, -, -, h1, h2, h3, h4⟩ := h
  simp [skipWs, h1, h2, h3, h4]

theorem Stop.skip {s : List Char} (h : Stop s) : skipWs s = s := by
  rcases h with rfl | ⟨c, r, rfl, hc⟩
  · rfl
  · rcases hc with rfl | rfl | rfl <;> rfl

theorem stop_items (l : JList K) (s : List Char) : Stop (dumpItems R l ++ s) := by
  cases l with
  | nil => exact .inr ⟨_, _, rfl, .inr (.inl rfl)⟩
  | cons a l => exact .inr ⟨_, _, rfl, .inl rfl⟩

theorem stop_pairs (l : JDict K) (s : List Char) : Stop (dumpPairs R l ++ s) := by
  cases l with
  | nil => exact .inr ⟨_, _, rfl, .inr (.inr rfl)⟩
  | cons k v l => exact .inr ⟨_, _, rfl, .inl rfl⟩

theorem readScalar_num {s r : List Char} {t : JTree K} (h : NumBegins s) (hn : readNumber R s = some (t, r)) : readScalar R s = .ok (t, r) := by
  obtain ⟨c, q, rfl, hc⟩ := h
  have : 'n' ≠ c := by
    rintro rfl
    revert hc
    decide
  simp [readScalar, dropPrefix, this, hn]

theorem readValue_scalar (fuel : Nat) {s : List Char} (h : s.head? ≠ some '"' ∧ s.head? ≠ some '[' ∧ s.head? ≠ some '{') :
    readValue R (fuel + 1) s = readScalar R s := by
  obtain ⟨h1, h2, h3⟩ := h
  rw [readValue]
  · rintro r rfl; exact h1 rfl
  · rintro r rfl; exact h2 rfl
  · rintro r rfl; exact h3 rfl

theorem readValue_num (fuel : Nat) {s r : List Char} {t : JTree K} (h : NumBegins s) (hn : readNumber R s = some (t, r)) :
    readValue R (fuel + 1) s = .ok (t, r) := by
  rw [readValue_scalar, readScalar_num h hn]
  obtain ⟨c, q, rfl, hc⟩ := h
  rcases hc with rfl | hc
  · simp
  · have := digit_not hc
    simp only [List.head?_cons, ne_eq, Option.some.injEq]
    tauto

theorem readNumber_not {c : Char} {s : List Char} (h1 : c.isDigit = false) (h2 : c ≠ '-') : readNumber R (c :: s) = none := by
  have h3 : c ≠ '0' := by rintro rfl; revert h1; decide
  simp [readNumber, readIntPart, h1, h2, h3]

mutual
theorem read_dump (hR : Faithful A R) : ∀ (t : JTree K) (fuel : Nat) (s : List Char), Doubles A t → Stop s → 2 * (dumpText R t).length ≤ fuel →
    readValue R (fuel + 1) (dumpText R t ++ s) = .ok (t, s)
  | .null, fuel, s, _, _, _ => by
    rw [readValue_scalar]
    · rfl
    · simp [dumpText]
  | .int n, fuel, s, _, hs, _ => readValue_num fuel ((numBegins_int n).append s) (readNumber_int n hs)
  | .flt (.fin x), fuel, s, hd, hs, _ => by
    obtain ⟨h1, h2⟩ := hR x hd
    have := readValue_num fuel ((numBegins_float h1).append s) (readNumber_float (R := R) h1 hs)
    rw [h2] at this
    exact this
  | .flt .nan, fuel, s, _, _, _ => by
    rw [readValue_scalar]
    · simp [dumpText, fltText, readScalar, dropPrefix, readNumber_not (R := R) (c := 'N') (by decide) (by decide)]
    · simp [dumpText, fltText]
  | .flt .pinf, fuel, s, _, _, _ => by
    rw [readValue_scalar]
    · simp [dumpText, fltText, readScalar, dropPrefix, readNumber_not (R := R) (c := 'I') (by decide) (by decide)]
    · simp [dumpText, fltText]
  | .flt .ninf, fuel, s, _, _, _ => by
    rw [readValue_scalar]
    · have : readNumber R ('-' :: 'I' :: 'n' :: 'f' :: 'i' :: 'n' :: 'i' :: 't' :: 'y' :: s) = none := by
        simp [readNumber, readIntPart]
      simp [dumpText, fltText, readScalar, dropPrefix, this]
    · simp [dumpText, fltText]
  | .str k, fuel, s, _, _, _ => by
    have := readStr_append k s
    simp only [dumpText, List.cons_append, List.append_assoc, List.nil_append, readValue, this]
    rfl
  | .list .nil, fuel, s, _, _, _ => by
    simp [dumpText, readValue, skipWs]
  | .list (.cons a l), fuel, s, hd, _, hf => by
    have hb := (begins_dump hR (R := R) (t := a) hd.1).append (dumpItems R l ++ s)
    simp only [dumpText, List.length_cons, List.length_append] at hf
    obtain ⟨f, rfl⟩ : ∃ f, fuel = f + 1 := ⟨fuel - 1, by omega⟩
    have := read_items hR l a f s hd.2 hd.1 (fun f' s' h1 h2 => read_dump hR a f' s' hd.1 h1 h2) (by omega)
    have e : readValue R (f + 1 + 1) (dumpText R (.list (.cons a l)) ++ s) =
        (do let r ← readItems R (f + 1) (dumpText R a ++ (dumpItems R l ++ s)); return (.list r.1, r.2)) := by
      simp only [dumpText, List.cons_append, List.append_assoc, readValue, hb.skip]
      obtain ⟨c, r, hc, hn, -⟩ := hb
      rw [hc]
      split
      · rename_i h; cases h; exact absurd rfl hn
      · rfl
    rw [e, this]
    rfl
  | .dict .nil, fuel, s, _, _, _ => by
    simp [dumpText, readValue, skipWs]
  | .dict (.cons k v l), fuel, s, hd, _, hf => by
    simp only [dumpText, List.length_cons, List.length_append] at hf
    obtain ⟨f, rfl⟩ : ∃ f, fuel = f + 1 := ⟨fuel - 1, by omega⟩
    have := read_pairs hR l k v f s hd.2 hd.1 (fun f' s' h1 h2 => read_dump hR v f' s' hd.1 h1 h2) (by omega)
    have e : readValue R (f + 1 + 1) (dumpText R (.dict (.cons k v l)) ++ s) =
        (do let r ← readPairs R (f + 1) ('"' :: (strText k ++ '"' :: ':' :: ' ' :: (dumpText R v ++ (dumpPairs R l ++ s)))); return (.dict r.1, r.2)) := by
      simp [dumpText, readValue, skipWs]
    rw [e, this]
    rfl
theorem read_items (hR : Faithful A R) : ∀ (l : JList K) (a : JTree K) (fuel : Nat) (s : List Char), DoublesL A l → Doubles A a →
    (∀ (f : Nat) (s : List Char), Stop s → 2 * (dumpText R a).length ≤ f → readValue R (f + 1) (dumpText R a ++ s) = .ok (a, s)) →
    2 * ((dumpText R a).length + (dumpItems R l).length) + 1 ≤ fuel →
    readItems R (fuel + 1) (dumpText R a ++ (dumpItems R l ++ s)) = .ok (.cons a l, s)
  | .nil, a, fuel, s, _, _, ih, hf => by
    obtain ⟨f, rfl⟩ : ∃ f, fuel = f + 1 := ⟨fuel - 1, by omega⟩
    have := ih f (dumpItems R .nil ++ s) (stop_items _ _) (by omega)
    simp only [readItems, this, ok_bind, (stop_items (R := R) _ s).skip]
    rfl
  | .cons b l, a, fuel, s, hd, _, ih, hf => by
    simp only [dumpItems, List.length_cons, List.length_append] at hf
    obtain ⟨f, rfl⟩ : ∃ f, fuel = f + 1 := ⟨fuel - 1, by omega⟩
    have h1 := ih f (dumpItems R (.cons b l) ++ s) (stop_items _ _) (by omega)
    have hb := (begins_dump hR (R := R) (t := b) hd.1).append (dumpItems R l ++ s)
    have h2 := read_items hR l b f s hd.2 hd.1 (fun f' s' h1 h2 => read_dump hR b f' s' hd.1 h1 h2) (by omega)
    have e : dumpItems R (.cons b l) ++ s = ',' :: ' ' :: (dumpText R b ++ (dumpItems R l ++ s)) := by simp [dumpItems]
    have hw : skipWs (' ' :: (dumpText R b ++ (dumpItems R l ++ s))) = dumpText R b ++ (dumpItems R l ++ s) := by
      rw [skipWs, if_pos (by simp), hb.skip]
    rw [readItems, h1]
    simp only [ok_bind, (stop_items (R := R) (.cons b l) s).skip]
    simp only [e, hw, h2]
    rfl
theorem read_pairs (hR : Faithful A R) : ∀ (l : JDict K) (k : List Char) (v : JTree K) (fuel : Nat) (s : List Char), DoublesD A l → Doubles A v →
    (∀ (f : Nat) (s : List Char), Stop s → 2 * (dumpText R v).length ≤ f → readValue R (f + 1) (dumpText R v ++ s) = .ok (v, s)) →
    2 * ((dumpText R v).length + (dumpPairs R l).length) + 1 ≤ fuel →
    readPairs R (fuel + 1) ('"' :: (strText k ++ '"' :: ':' :: ' ' :: (dumpText R v ++ (dumpPairs R l ++ s)))) = .ok (.cons k v l, s)
  | .nil, k, v, fuel, s, _, hv, ih, hf => by
    obtain ⟨f, rfl⟩ : ∃ f, fuel = f + 1 := ⟨fuel - 1, by omega⟩
    have h1 := ih f (dumpPairs R .nil ++ s) (stop_pairs _ _) (by omega)
    have hb := (begins_dump hR (R := R) (t := v) hv).append (dumpPairs R .nil ++ s)
    have hw : skipWs (' ' :: (dumpText R v ++ (dumpPairs R .nil ++ s))) = dumpText R v ++ (dumpPairs R .nil ++ s) := by
      rw [skipWs, if_pos (by simp), hb.skip]
    have hc : skipWs (':' :: ' ' :: (dumpText R v ++ (dumpPairs R .nil ++ s))) = ':' :: ' ' :: (dumpText R v ++ (dumpPairs R .nil ++ s)) := rfl
    simp only [readPairs, readStr_append, ok_bind, hc, hw, h1, (stop_pairs (R := R) _ s).skip]
    rfl
  | .cons k' v' l, k, v, fuel, s, hd, hv, ih, hf => by
    simp only [dumpPairs, List.length_cons, List.length_append] at hf
    obtain ⟨f, rfl⟩ : ∃ f, fuel = f + 1 := ⟨fuel - 1, by omega⟩
    have h1 := ih f (dumpPairs R (.cons k' v' l) ++ s) (stop_pairs _ _) (by omega)
    have hb := (begins_dump hR (R := R) (t := v) hv).append (dumpPairs R (.cons k' v' l) ++ s)
    have h2 := read_pairs hR l k' v' f s hd.2 hd.1 (fun f' s' h1 h2 => read_dump hR v' f' s' hd.1 h1 h2) (by omega)
    have e : dumpPairs R (.cons k' v' l) ++ s = ',' :: ' ' :: '"' :: (strText k' ++ '"' :: ':' :: ' ' :: (dumpText R v' ++ (dumpPairs R l ++ s))) := by
      simp [dumpPairs]
    have hw : skipWs (' ' :: (dumpText R v ++ (dumpPairs R (.cons k' v' l) ++ s))) = dumpText R v ++ (dumpPairs R (.cons k' v' l) ++ s) := by
      rw [skipWs, if_pos (by simp), hb.skip]
    have hc : ∀ q, skipWs (':' :: ' ' :: q) = ':' :: ' ' :: q := fun _ => rfl
    have hq : ∀ q, skipWs (' ' :: '"' :: q) = '"' :: q := fun _ => rfl
    simp only [readPairs, readStr_append, ok_bind, hc, hw, h1, (stop_pairs (R := R) (.cons k' v' l) s).skip]
    simp only [e, hq, h2]
    rfl
end

theorem load_dump (hR : Faithful A R) {t : JTree K} (h : Doubles A t) : loadText R (dumpText R t) = .ok t := by
  have := read_dump hR t (2 * (dumpText R t).length + 1) [] h (.inl rfl) (by omega)
  rw [List.append_nil] at this
  unfold loadText
  rw [(begins_dump hR h).skip, this]
  rfl

end Dorado
