import Verif.Model.Georef
import Verif.Spec.Routines
import Verif.Spec.Sharing

/-! Vocabulary of C81. -/

namespace Dorado

variable {K : Type} [Field K] [LinearOrder K]

/-- The coordinates in a state returned by `get_state` belong to the locations in it: particle by particle, column `c` and row `r` lie at
`c·cellsize + x0` and `(L - r)·cellsize + y0` (computed in floating point). -/
structure CoordsOf (A : Arith K) (origin : Fl K × Fl K) (L : Int) (cs : Fl K) (g : GotState K) : Prop where
  xnum : (entry g.opt "xcoord").length = g.ys.length
  ynum : (entry g.opt "ycoord").length = g.xs.length
  xcoord : ∀ (i : Nat) c, g.ys[i]? = some c → (entry g.opt "xcoord")[i]? = some (.num (A.add (A.mul (.fin (A.rnd (c : K))) cs) origin.1))
  ycoord : ∀ (i : Nat) r, g.xs[i]? = some r →
    (entry g.opt "ycoord")[i]? = some (.num (A.add (A.mul (A.sub (.fin (A.rnd (L : K))) (.fin (A.rnd (r : K)))) cs) origin.2))

/-- No variable of the walk data is called like a coordinate. -/
def NoCoords (wd : WalkData K) : Prop := "xcoord" ∉ keys wd.opt ∧ "ycoord" ∉ keys wd.opt

/-- A history of `n` records has a record `k`, counted from the end if `k` is negative. -/
def HasRecord (n : Nat) (k : Int) : Prop := -(n : Int) ≤ k ∧ k < n

instance (n : Nat) (k : Int) : Decidable (HasRecord n k) := inferInstanceAs (Decidable (_ ∧ _))

/-- Location of particle `i` in record `k`, counted from the end if `k` is negative; its last location if it has no record `k`. -/
def WalkData.shown (wd : WalkData K) (i : Nat) (k : Int) : Option (Int × Int) := do
  let xs ← wd.xinds[i]?
  let ys ← wd.yinds[i]?
  let j : Int := if HasRecord xs.length k then (if 0 ≤ k then k else k + xs.length) else xs.length - 1
  let x ← xs[j.toNat]?
  let y ← ys[j.toNat]?
  return (x, y)

end Dorado
