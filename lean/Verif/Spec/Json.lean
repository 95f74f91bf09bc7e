import Verif.Model.Json

/-! What a user finds in the data files. -/

namespace Dorado

variable {K : Type} [Field K] [LinearOrder K] [IsStrictOrderedRing K]

/-- A value of type `float`: finite values are representable. -/
def IsDouble (A : Arith K) : Fl K → Prop
  | .fin x => A.rnd x = x
  | _ => True

/-- At least one digit, nothing else. -/
def DigitText (s : List Char) : Prop := s ≠ [] ∧ ∀ c ∈ s, c.isDigit = true

/-- An unsigned integer without leading zeros. -/
def PlainInt (s : List Char) : Prop := DigitText s ∧ (s = ['0'] ∨ s.head? ≠ some '0')

/-- The form of `repr(x)` for a finite float: sign, integer part, and a fractional part or an exponent (`-0.1`, `1e-08`, `1.5e+300`). -/
def FloatShape (s : List Char) : Prop :=
  ∃ sg ip fr ex, s = sg ++ ip ++ fr ++ ex ∧ (sg = [] ∨ sg = ['-']) ∧ PlainInt ip ∧ (fr = [] ∨ ∃ d, fr = '.' :: d ∧ DigitText d) ∧
    (ex = [] ∨ ∃ es d, ex = 'e' :: (es ++ d) ∧ (es = ['+'] ∨ es = ['-']) ∧ DigitText d) ∧ (fr ≠ [] ∨ ex ≠ [])

/-- What Python guarantees of the text of floating point numbers: it has the form above and `float(repr(x)) == x`. -/
def Faithful (A : Arith K) (R : FloatText K) : Prop := ∀ x, A.rnd x = x → FloatShape (R.text x) ∧ R.value (R.text x) = x

/-- The items of a loaded list. -/
def JList.items : JList K → List (JTree K)
  | .nil => []
  | .cons a l => a :: l.items

/-- The items of a loaded dictionary. -/
def JDict.items : JDict K → List (String × JTree K)
  | .nil => []
  | .cons k v l => (String.ofList k, v) :: l.items

/-- The loaded object is the integer `n`. -/
def JTree.IsInt (t : JTree K) (n : Int) : Prop := t = .int n

/-- The loaded object is a number, int or float, equal to `x`. -/
def JTree.IsNum (t : JTree K) (x : Fl K) : Prop := t = .flt x ∨ ∃ n : Int, t = .int n ∧ x = .fin (n : K)

/-- The loaded object is a list of things as given. -/
def JTree.IsListOf {α : Type} (Q : JTree K → α → Prop) (t : JTree K) (l : List α) : Prop := ∃ j, t = .list j ∧ List.Forall₂ Q j.items l

/-- The loaded object is a dictionary with exactly the entries `xinds`, `yinds`, `travel_times` of this walk data: the same particles, each with the
same positions and times. -/
def HoldsWalk (t : JTree K) (wd : WalkData K) : Prop :=
  wd.opt = [] ∧ ∃ d tx ty tt, t = .dict d ∧ d.items = [("xinds", tx), ("yinds", ty), ("travel_times", tt)] ∧
    tx.IsListOf (JTree.IsListOf JTree.IsInt) wd.xinds ∧ ty.IsListOf (JTree.IsListOf JTree.IsInt) wd.yinds ∧
    tt.IsListOf (JTree.IsListOf JTree.IsNum) wd.times

/-- `ints` tells the truth: the seed times it says were given as ints are integers. -/
def IntSeeds (ints : Nat → Bool) (wd : WalkData K) : Prop :=
  ∀ (i : Nat) t ts, wd.times[i]? = some (t :: ts) → ints i = true → ∃ n : Int, t = .fin (n : K)

/-- All travel times are of type `float`. -/
def DoubleTimes (A : Arith K) (wd : WalkData K) : Prop := ∀ ts ∈ wd.times, ∀ t ∈ ts, IsDouble A t

end Dorado
