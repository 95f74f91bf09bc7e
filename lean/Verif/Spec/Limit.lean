import Verif.Spec.Walk

/-! Vocabulary: the iteration limit of target-time calls. -/

namespace Dorado

variable {K : Type} [Field K] [LinearOrder K]

/-- In the target-time call at `s` with limit `m` and result `r`, particle `i` recorded as many new positions as the limit admits (at least one
position is always admitted). -/
def AtLimit (m : Int) (s : PState K) (r : RunResult K) (i : Nat) : Prop := ∃ xs ys ts xs' ys' ts',
  s.walk.bind (·.lists i) = some (xs, ys, ts) ∧ r.returned.lists i = some (xs', ys', ts') ∧ (xs'.length : Int) = xs.length + max 1 m

/-- Everything recorded of particle `i` in `w` is the beginning of what is recorded of it in `w'`. -/
def WalkData.Begins (w w' : WalkData K) (i : Nat) : Prop := ∃ xs ys ts xs' ys' ts',
  w.lists i = some (xs, ys, ts) ∧ w'.lists i = some (xs', ys', ts') ∧ xs <+: xs' ∧ ys <+: ys' ∧ ts <+: ts' ∧
    ∀ var vs, w.optList var i = some vs → ∃ vs', w'.optList var i = some vs' ∧ vs <+: vs'

end Dorado
