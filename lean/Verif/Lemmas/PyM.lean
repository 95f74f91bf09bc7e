import Verif.Model.Stmt

/-! Helper lemmas: running statements. -/

set_option linter.unusedSectionVars false

namespace Dorado

theorem PyM.ok_run {σ α β : Type} {m : PyM σ α} {f : α → PyM σ β} {s s' : σ} {a : α} (h : m s = (.ok a, s')) : (m >>= f) s = f a s' := by
  show PyM.seq m f s = _
  unfold PyM.seq
  rw [h]

theorem PyM.error_run {σ α β : Type} {m : PyM σ α} {f : α → PyM σ β} {s s' : σ} {e : PyErr} (h : m s = (.error e, s')) :
    (m >>= f) s = (.error e, s') := by
  show PyM.seq m f s = _
  unfold PyM.seq
  rw [h]

theorem PyM.assign_run {σ β : Type} {g : σ → σ} {f : Unit → PyM σ β} {s : σ} : (PyM.assign g >>= f) s = f () (g s) := PyM.ok_run rfl

theorem PyM.lift_run {σ α β : Type} {x : Except PyErr α} {f : α → PyM σ β} {s : σ} {a : α} (h : x = .ok a) : (PyM.lift x >>= f) s = f a s :=
  PyM.ok_run (by rw [h]; rfl)

theorem PyM.lift_error {σ α β : Type} {x : Except PyErr α} {f : α → PyM σ β} {s : σ} {e : PyErr} (h : x = .error e) :
    (PyM.lift x >>= f) s = (.error e, s) :=
  PyM.error_run (by rw [h]; rfl)

end Dorado
