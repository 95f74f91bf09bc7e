import Verif.Spec.Common

/-! What a user sees of one `Particles` object over a sequence of calls. -/

namespace Dorado

variable {K : Type} [Field K] [LinearOrder K]

/-- A call on a `Particles` object. -/
inductive ApiCall (K : Type) where
  | generate (np xs ys time method : PyVal K) (prev : Option (WalkData K))
  | run (target : Option (Fl K)) (maxIter : Int)
  | clear

/-- The call is `generate_particles` with random seeding. -/
def ApiCall.SeedsRandomly : ApiCall K → Prop
  | .generate _ _ _ _ method _ => method = .str "random"
  | _ => False

/-- One call, executed statement by statement: the returned walk data and the particles warned about, or the exception; in either case the object
afterwards. -/
def ApiCall.act [FloorRing K] (A : Arith K) (F : Fun K A) (P : PObj K) (ω : Nat → K) : ApiCall K → PyM (PState K) (Option (WalkData K) × List Nat)
  | .generate np xs ys time method prev => do
    generateStmt A P ω np xs ys time method prev
    return (none, [])
  | .run target maxIter => do
    let r ← runStmt A F P ω target maxIter
    return (some r.1, r.2)
  | .clear => do
    PyM.assign clearWalkData
    return (none, [])

/-- What is seen of a call: the returned walk data and the particles warned about or the exception; the attribute `walk_data` and the position of
the random generator afterwards. -/
abbrev Seen (K : Type) := Except PyErr (Option (WalkData K) × List Nat) × Option (WalkData K) × Nat

/-- What is seen of a sequence of calls. Exceptions are caught and the object is used further, in whatever state it was left. -/
def transcript [FloorRing K] (A : Arith K) (F : Fun K A) (P : PObj K) (ω : Nat → K) : List (ApiCall K) → PState K → List (Seen K)
  | [], _ => []
  | c :: cs, s => ((c.act A F P ω s).1, (c.act A F P ω s).2.walk, (c.act A F P ω s).2.world.pos) :: transcript A F P ω cs (c.act A F P ω s).2

end Dorado
