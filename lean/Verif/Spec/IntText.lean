import Verif.Spec.Seed
import Mathlib.Data.Nat.Digits.Defs

/-! What Python's `int` and `list` make of a value. -/

namespace Dorado

variable {K : Type} [Field K] [LinearOrder K]

/-- Blank characters within ASCII. -/
def asciiBlanks : List Char := [' ', '\t', '\n', Char.ofNat 11, Char.ofNat 12, '\r', Char.ofNat 28, Char.ofNat 29, Char.ofNat 30, Char.ofNat 31]

/-- The digits with their values. -/
def DigitOf (c : Char) (d : Nat) : Prop := (c, d) ∈ [('0', 0), ('1', 1), ('2', 2), ('3', 3), ('4', 4), ('5', 5), ('6', 6), ('7', 7), ('8', 8), ('9', 9)]

/-- `cs` is a sequence of digits with the given values. -/
def DigitsOf (cs : List Char) (ds : List Nat) : Prop := List.Forall₂ DigitOf cs ds

/-- The text denotes the integer `v` in the way Python writes integers: blanks, a sign, groups of digits separated by single underscores, blanks. -/
def IntText (cs : List Char) (v : Int) : Prop :=
  ∃ (pre post sign : List Char) (groups : List (List Char)) (digits : List (List Nat)),
    cs = pre ++ (sign ++ List.intercalate ['_'] groups) ++ post ∧
    (∀ c ∈ pre, c ∈ asciiBlanks) ∧ (∀ c ∈ post, c ∈ asciiBlanks) ∧
    groups ≠ [] ∧ (∀ g ∈ groups, g ≠ []) ∧ List.Forall₂ DigitsOf groups digits ∧
    ((sign = [] ∨ sign = ['+']) ∧ v = (Nat.ofDigits 10 digits.flatten.reverse : Nat) ∨ sign = ['-'] ∧ v = -(Nat.ofDigits 10 digits.flatten.reverse : Nat))

/-- The integer `int` makes of a value: numbers lose their fraction, texts are read. -/
def PyVal.IntValue : PyVal K → Int → Prop
  | .bool b, v => v = if b then 1 else 0
  | .int i, v => v = i
  | .flt (.fin x), v => (0 ≤ x → (v : K) ≤ x ∧ x < v + 1) ∧ (x < 0 → (v : K) - 1 < x ∧ x ≤ v)
  | .str s, v => IntText s.toList v
  | _, _ => False

/-- The integers a list, an array or the characters of a text stand for. -/
def PyVal.IntValues : PyVal K → List Int → Prop
  | .list l, vs => List.Forall₂ PyVal.IntValue l vs
  | .nd l, vs => List.Forall₂ PyVal.IntValue l vs
  | .str s, vs => List.Forall₂ (fun c (v : Int) => ∃ d : Nat, DigitOf c d ∧ v = (d : Int)) s.toList vs
  | _, _ => False

/-- The time a number stands for. -/
def PyVal.TimeValue : PyVal K → Fl K → Prop
  | .bool b, t => t = .fin (if b then 1 else 0)
  | .int i, t => t = .fin (i : K)
  | .flt x, t => t = x
  | _, _ => False

/-- The seeding method a text names. -/
def PyVal.MethodValue : PyVal K → Method → Prop
  | .str s, m => s = "random" ∧ m = .random ∨ s = "exact" ∧ m = .exact
  | _, _ => False

end Dorado
