import Verif.Model.Parallel
import Verif.Spec.Seed
import Verif.Spec.Walk

/-! Vocabulary of the statements about parallel routing. -/

namespace Dorado

variable {K : Type} [Field K] [LinearOrder K]

/-- The entry of a key; nothing if the key is missing. -/
def entry {β : Type} (d : List (String × List β)) (key : String) : List β := (dictGet d key).getD []

/-- Keys of a dictionary. -/
def keys {β : Type} (d : List (String × β)) : List String := d.map (·.1)

/-- The integers of a history. -/
def Hist.toInts : Hist K → List Int
  | .ints l => l
  | _ => []

/-- The times of a history. -/
def Hist.toTimes : Hist K → List (Fl K)
  | .times l => l
  | _ => []

/-- The values of a history. -/
def Hist.toVals : Hist K → List (Val K)
  | .vals l => l
  | _ => []

/-- The lists of particle `i` in a walk data dictionary. -/
def dictLists (d : List (String × List (Hist K))) (i : Nat) : Option (List Int × List Int × List (Fl K)) := do
  let x ← (entry d "xinds")[i]?
  let y ← (entry d "yinds")[i]?
  let t ← (entry d "travel_times")[i]?
  return (x.toInts, y.toInts, t.toTimes)

/-- The recorded values of an optional variable of particle `i` in a walk data dictionary. -/
def dictOpt (d : List (String × List (Hist K))) (var : String) (i : Nat) : Option (List (Val K)) :=
  (entry d var)[i]?.map Hist.toVals

/-- The runs of the workers: start and end position of the generator and walk data of every task. The generator of a worker starts at `gen`
and is only moved by the worker's own tasks. -/
def Chained (gen : Nat → Nat) (sched : List Nat) (runs : List (Nat × Nat × WalkData K)) : Prop :=
  ∀ (t : Nat) w r, sched[t]? = some w → runs[t]? = some r →
    ((∀ t' : Nat, t' < t → sched[t']? ≠ some w) → r.1 = gen w) ∧
    ∀ (t' : Nat) r', t' < t → sched[t']? = some w → runs[t']? = some r' → (∀ m : Nat, t' < m → m < t → sched[m]? ≠ some w) → r.1 = r'.2.1

section
variable (A : Arith K) (F : Fun K A)

/-- `n` successive calls of `run_iteration()`. -/
inductive Iterates (P : PObj K) (ω : Nat → K) : Nat → PState K → PState K → Prop
  | zero (s) : Iterates P ω 0 s s
  | succ {n s r s'} (h : runIteration A F P ω s none 10000 = .ok r) (hs : Iterates P ω n r.state s') : Iterates P ω (n + 1) s s'

/-- `wd` is what a serial program obtains on a copy of the object: `N` particles seeded at random at time 0, then `n` times
`run_iteration()`, with the generator at position `pos` of the stream `ω` in the beginning and at `pos'` in the end. -/
def SerialWalk [FloorRing K] (P : PObj K) (s : PState K) (ω : Nat → K) (pos pos' N n : Nat) (xs ys : List Int) (wd : WalkData K) : Prop :=
  ∃ s1 s2, generateParticles A P ω { s with world := { s.world with pos := pos } } (.int N) (ints xs) (ints ys) (.int 0) (.str "random") none
      = .ok s1 ∧ Iterates A F P ω n s1 s2 ∧ s2.walk = some wd ∧ s2.world.pos = pos'

end

end Dorado
