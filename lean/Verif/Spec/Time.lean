import Verif.Spec.Walk

/-! Vocabulary for statements about travel times. -/

namespace Dorado

variable {K : Type} [Field K] [LinearOrder K]

/-- Seed times are representable finite numbers. -/
def FinSeed (A : Arith K) : PObj K → List Int → List Int → Fl K → Prop := fun _ _ _ t => ∃ x, t = .fin x ∧ A.rnd x = x

/-- Value of a field at a position, `grid[x, y]`. -/
def FieldAt (g : Grid (Fl K)) (p : Int × Int) (x : K) : Prop := g.get p.1 p.2 = .ok (.fin x)

/-- Time to cover the distance `d` in a direction making an angle of cosine `c` with the flow, at the harmonic mean of two speeds. -/
def freeTime (d c vo vn : K) : K := 1 / 2 * (d * max 0 c) * (1 / vo + 1 / vn)

/-- Length of the last recorded step, if there is one. -/
def lastDuration (ts : List (Fl K)) : Option K :=
  match ts.reverse with
  | .fin b :: .fin a :: _ => some (b - a)
  | _ => none

/-- Estimated duration of the next step when a call starts: that of the last recorded one, 1/10 if there is none. -/
def firstEstimate (ts : List (Fl K)) : K := (lastDuration ts).getD (1 / 10)

/-- Estimated duration of the next step after a step of the call: that of the last one, at least 1/10. -/
def laterEstimate (ts : List (Fl K)) : K := max (1 / 10) (firstEstimate ts)

/-- The estimate in use when `n` steps of the call have been taken, starting from the times `ts`. -/
def estimate (ts new : List (Fl K)) (n : Nat) : K := if n = 0 then firstEstimate ts else laterEstimate (ts ++ new.take n)

/-- A particle may stand still at `p`: not an interior cell, next to an edge cell, or a dead end of the flow field. -/
def Trapped {A : Arith K} (F : Fun K A) (P : PObj K) (p : Int × Int) : Prop :=
  ∀ a b : Nat, p = ((a : Int), (b : Int)) → Interior P a b → NearEdge P a b ∨ (flowOf F P).DeadEnd a b

end Dorado
