import Verif.Spec.Post
import Verif.Spec.Routines

/-! Vocabulary for comparing walk data of a simulation with those after its continuation. -/

namespace Dorado

variable {K : Type} [Field K] [LinearOrder K]

/-- What the particles of `w0` did after it, according to `w`: their records in `w` from the last one of `w0` on. -/
def WalkData.since (w0 w : WalkData K) : WalkData K where
  xinds := List.zipWith (fun a b => b.drop (a.length - 1)) w0.xinds w.xinds
  yinds := List.zipWith (fun a b => b.drop (a.length - 1)) w0.yinds w.yinds
  times := List.zipWith (fun a b => b.drop (a.length - 1)) w0.times w.times
  opt := []

/-- `w` has the particles of `w0` under the same indices, each with lists beginning with those in `w0`. -/
def Extends (w0 w : WalkData K) : Prop :=
  ∀ i xs ys ts, w0.lists i = some (xs, ys, ts) → ∃ xs' ys' ts', w.lists i = some (xs', ys', ts') ∧ xs <+: xs' ∧ ys <+: ys' ∧ ts <+: ts' ∧
    ∀ var vs, w0.optList var i = some vs → ∃ vs', w.optList var i = some vs' ∧ vs <+: vs'

/-- The slices `g` and `g'` agree on particle `i`, in all fields of the walk data `wd`. -/
def SameEntry (wd : WalkData K) (g g' : GotState K) (i : Nat) : Prop :=
  g'.xs[i]? = g.xs[i]? ∧ g'.ys[i]? = g.ys[i]? ∧ g'.ts[i]? = g.ts[i]? ∧ ∀ var ∈ keys wd.opt, (entry g'.opt var)[i]? = (entry g.opt var)[i]?

end Dorado
