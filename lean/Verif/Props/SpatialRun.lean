import Verif.Props.Spatial
import Verif.Props.Pipeline
import Verif.Props.Slices

/-!
# Spatial exposure of routed particles (C56, C58 on reachable states)
-/

set_option linter.unusedSectionVars false

namespace Dorado

variable {K : Type} [Field K] [LinearOrder K] [IsStrictOrderedRing K] [FloorRing K] {A : Arith K} {F : Fun K A}

theorem Reach.optNum {R C : Nat} {P : PObj K} {s : PState K}
    (h : Reach A F (Routed A F R C) Draws (GoodSeeds A R C) P s) {wd : WalkData K} (hwd : s.walk = some wd) : ∀ e ∈ wd.opt, e.2.length = wd.count :=
  (C54_reachable (h.mono fun _ hP => hP.enclosed.built) hwd 0).1.onum

/-- C56 and C58 along every history of calls, for every rounding: both functions accept the walk data of the object with any cell types of the raster, return
one entry per chunk, and no localized time exceeds the system-wide one. -/
theorem C58_reachable (hh : A.rnd (-(1 / 2)) = -(1 / 2)) (h1 : A.rnd (-1) = -1) {P : PObj K} {s : PState K} {ct : Grid Int}
    (h : Reach A F (Routed A F ct.rows ct.cols) Draws (GoodSeeds A ct.rows ct.cols) P s) {wd : WalkData K} (hwd : s.walk = some wd)
    {res : Nat} (hres : 0 < res) :
    ∃ loc sys, localized A wd (ct.rows, ct.cols) ct res = .ok loc ∧ systemwide A wd (ct.rows, ct.cols) ct res = .ok sys ∧
      loc.length = ct.rows / res * (ct.cols / res) ∧ sys.length = ct.rows / res * (ct.cols / res) ∧ List.Forall₂ EntryLe loc sys := by
  obtain ⟨hp, hr, hm, -⟩ := C67_valid hh h1 h hwd
  have ho := h.optNum hwd
  obtain ⟨loc, sys, e1, e2, e3⟩ := C58_localized (A := A) hp ho hm hr hres
  obtain ⟨sys', loc', -, -, f1, f2, -, -, l1, l2, -⟩ := C56_entries_partial (A := A) hp ho hr hres
  rw [e1] at f2
  rw [e2] at f1
  cases f1
  cases f2
  exact ⟨loc, sys, e1, e2, l2, l1, e3⟩

/-- A run meeting the hypotheses: chunks of 2 x 2 cells (the last row and column of chunks take the rest); the region covers the rows from 3 on. -/
example : ∃ s wd, Reach Arith.exact Fun.toy (Routed Arith.exact Fun.toy lowerRegion.rows lowerRegion.cols) Draws (GoodSeeds Arith.exact lowerRegion.rows lowerRegion.cols)
      (objOf chanVars) s ∧ s.walk = some wd ∧ wd.duration 0 ≠ 0 ∧
    systemwide Arith.exact wd (5, 5) lowerRegion 2 = .ok [none, none, some [.fin (wd.duration 0 / 2)], some [.fin (wd.duration 0 / 2)]] := by
  obtain ⟨s, wd, hr, hw, hf, -⟩ := demo_walk (p := chanVars) (ω := fun _ => 1 / 2) (n := 2) (xs := [2, 1]) (ys := [2, 1])
    (runs := [(none, 1), (some (.fin 30), 5), (none, 1)]) (Ob := Routed Arith.exact Fun.toy 5 5) (Ω := Draws) (Sd := GoodSeeds Arith.exact 5 5)
    chanVars_routed half_draws.1
    ⟨fun x hx y hy => by simp at hx hy; rcases hx with rfl | rfl <;> rcases hy with rfl | rfl <;> (unfold Inside; decide), ⟨0, rfl, rfl⟩⟩
    (f := fun wd => (decide (wd.duration 0 ≠ 0),
      decide ((systemwide Arith.exact wd (5, 5) lowerRegion 2) = .ok [none, none, some [.fin (wd.duration 0 / 2)], some [.fin (wd.duration 0 / 2)]])))
    (b := (true, true)) (by decide +kernel)
  simp only [Prod.mk.injEq, decide_eq_true_eq] at hf
  exact ⟨s, wd, hr, hw, hf.1, hf.2⟩

end Dorado
