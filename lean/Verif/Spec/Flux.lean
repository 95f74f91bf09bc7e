import Verif.Model.Flux

/-! Vocabulary for statements about flux-proportional seeding. -/

namespace Dorado

variable {K : Type} [Field K] [LinearOrder K]

/-- A sorting function: returns the indices of its argument in some order of non-decreasing values (ties in any order). -/
def Sorts (argsort : List K → List Nat) : Prop :=
  ∀ l, (argsort l).Perm (List.range l.length) ∧ (argsort l).Pairwise fun i j => l.getD i 0 ≤ l.getD j 0

/-- Ideal number of particles of timestep `i`. -/
def quota (Q : List K) (N : Int) (i : Nat) : K := (N : K) * |Q.getD i 0| / (Q.map fun q => |q|).sum

/-- `x` is the sum of `l` computed by rounded additions in some order and bracketing (numpy sums pairwise). -/
inductive RSum (A : Arith K) : List K → K → Prop
  | nil : RSum A [] 0
  | one (x : K) : RSum A [x] x
  | add {l l' : List K} {x y : K} : l ≠ [] → l' ≠ [] → RSum A l x → RSum A l' y → RSum A (l ++ l') (A.rnd (x + y))
  | perm {l l' : List K} {x : K} : RSum A l x → l.Perm l' → RSum A l' x

/-- Rounding with relative error at most `u`. -/
def RelError (A : Arith K) (u : K) : Prop := ∀ x, |A.rnd x - x| ≤ u * |x|

end Dorado
