import Verif.Spec.Tracking
import Verif.Spec.Seed
import Verif.Lemmas.Elsewhere
import Verif.Lemmas.Seed
import Verif.Props.Crop
import Verif.Props.Spread

/-! # Objects that differ in what is tracked only (for C127) -/

set_option linter.unusedSectionVars false

namespace Dorado

section seeding

variable {K : Type} [Field K] [LinearOrder K] [IsStrictOrderedRing K] [FloorRing K] {A : Arith K} {F : Fun K A} {P P' : PObj K} {ω : Nat → K} {s s' : PState K}

/-- Seeding gives the same positions and times whatever is tracked. -/
theorem generate_tracking (Fd : Fields A P') (hv : ∀ var, OptVar P' var → Trackable P' var) (hm : s'.motion = s.motion) {np xs ys time method : PyVal K} {n : Int}
    {x y : List Int} {t : Fl K} {m : Method} (hc : genInputCheck np xs ys time method = .ok (n, x, y, t, m)) (hxy : ∀ a ∈ x, ∀ b ∈ y, OnGrid P' a b) {s1 : PState K}
    (h : generateParticles A P ω s np xs ys time method none = .ok s1) :
    ∃ s1', generateParticles A P' ω s' np xs ys time method none = .ok s1' ∧ s1'.motion = s1.motion := by
  simp only [PState.motion, Prod.mk.injEq] at hm
  obtain ⟨hpos, -, hwalk⟩ := hm
  unfold generateParticles generateCore newWalk at h ⊢
  rw [hc] at h ⊢
  simp only [ok_bind, hpos] at h ⊢
  simp only [bind_ok, pure_ok, Prod.exists, Prod.mk.injEq] at h ⊢
  obtain ⟨w, pos', ⟨sx, sy, pos1, hs, nx, hnx, ny, hny, d, hd, rfl, rfl⟩, rfl⟩ := h
  obtain ⟨d', hd'⟩ := startVars_ok (P := P') (starts := sx.zip sy) (vars := P'.particleVars) (fun v hvm hb => by
    refine startVar_ok Fd (hv v (optVar_iff.2 (mem_keysOf.2 ⟨hvm, hb⟩))) fun q hq => ?_
    obtain ⟨h1, h2⟩ := List.of_mem_zip hq
    obtain ⟨m1, m2⟩ := startIndices_mem A hs
    exact hxy _ (m1 _ h1) _ (m2 _ h2)) []
  refine ⟨_, ⟨_, _, ⟨sx, sy, pos1, hs, nx, hnx, ny, hny, d', hd', rfl, rfl⟩, rfl⟩, ?_⟩
  unfold PState.motion
  cases h1 : s.walk with
  | none =>
    rw [h1] at hwalk
    have h2 : s'.walk = none := by simpa using hwalk
    simp [h2]
  | some w =>
    rw [h1] at hwalk
    obtain ⟨w', h2, h3⟩ := Option.map_eq_some_iff.1 hwalk
    simp only [Prod.mk.injEq] at h3
    simp [h2, prependWalk, h3.1, h3.2.1, h3.2.2]

end seeding

noncomputable section

variable {A : Arith ℝ} {F : Fun ℝ A} {P P' : PObj ℝ} {R C : Nat} {s s' : PState ℝ} {ω : Nat → ℝ}

/-- The two objects differ in messages and in what is tracked only. -/
def SameMotion (P P' : PObj ℝ) : Prop := P' = { P with verbose := P'.verbose, roi := P'.roi, particleVars := P'.particleVars }

theorem SameMotion.moves (h : SameMotion P P') : MovesSame A F (fun _ => True) P P' := by
  unfold SameMotion at h
  rw [h]
  exact ⟨fun _ _ _ => rfl, fun _ _ _ => rfl, fun _ _ _ _ => rfl, fun _ _ => rfl, rfl⟩

theorem matches_lists {rows rows' : List (Row ℝ)} {N : Nat} {st : Fin N → Mach} (h : Matches rows st) (h' : Matches rows' st) {keys keys' : List String} :
    (ofRows keys' rows').xinds = (ofRows keys rows).xinds ∧ (ofRows keys' rows').yinds = (ofRows keys rows).yinds ∧
      (ofRows keys' rows').times = (ofRows keys rows).times := by
  have hl : rows'.length = rows.length := by rw [h.1, h'.1]
  have each : ∀ i (h1 : i < rows.length), (rows'[i]'(by omega)).xs = rows[i].xs ∧ (rows'[i]'(by omega)).ys = rows[i].ys ∧ (rows'[i]'(by omega)).ts = rows[i].ts := by
    intro i hi
    have a := h.2 ⟨i, by rw [← h.1]; exact hi⟩ _ (List.getElem?_eq_getElem hi)
    have b := h'.2 ⟨i, by rw [← h.1]; exact hi⟩ _ (List.getElem?_eq_getElem (by simp only; omega))
    exact ⟨b.xs.trans a.xs.symm, b.ys.trans a.ys.symm, b.ts.trans a.ts.symm⟩
  refine ⟨?_, ?_, ?_⟩
  · exact List.ext_getElem (by simp [ofRows, hl]) fun i h1 h2 => by simpa [ofRows] using (each i (by simpa [ofRows] using h2)).1
  · exact List.ext_getElem (by simp [ofRows, hl]) fun i h1 h2 => by simpa [ofRows] using (each i (by simpa [ofRows] using h2)).2.1
  · exact List.ext_getElem (by simp [ofRows, hl]) fun i h1 h2 => by simpa [ofRows] using (each i (by simpa [ofRows] using h2)).2.2

/-- One call of `run_iteration`. -/
theorem run_tracking (hS : SameMotion P P') (h : Reach A F (Enclosed A F R C) Draws (InsideSeeds R C) P s)
    (h' : Reach A F (Enclosed A F R C) Draws (InsideSeeds R C) P' s') (hm : s'.motion = s.motion) (hω : Draws ω) {target : Option (Fl ℝ)} {maxIter : Int}
    {res : RunResult ℝ} (hr : runIteration A F P ω s target maxIter = .ok res) :
    ∃ res', runIteration A F P' ω s' target maxIter = .ok res' ∧ res'.state.motion = res.state.motion := by
  simp only [PState.motion, Prod.mk.injEq] at hm
  obtain ⟨hpos, hnp, hwalk⟩ := hm
  cases hwd : s.walk with
  | none => simp [runIteration, hwd] at hr
  | some wd =>
    rw [hwd] at hwalk
    obtain ⟨wd', hwd', h3⟩ := Option.map_eq_some_iff.1 hwalk
    simp only [Prod.mk.injEq] at h3
    obtain ⟨hRt, rows, hrows, hs⟩ := Enclosed.sound h hwd
    obtain ⟨hRt', rows', hrows', hs'⟩ := Enclosed.sound h' hwd'
    have hne : target = none ∨ s.np ≠ 0 := by
      cases target with
      | none => exact Or.inl rfl
      | some tgt =>
        right
        intro h0
        have hl : rows = [] := List.length_eq_zero_iff.1 (hs.has.2.symm.trans h0)
        subst hl
        unfold runIteration at hr
        rw [hwd] at hr
        simp only [h0, if_true, hrows, ofRows, List.map_nil, List.length_nil, List.range_zero, bind_ok] at hr
        obtain ⟨_, -, _, -, _, -, _, -, ⟨o, w, l⟩, h5, h6⟩ := hr
        simp only [targetAll, Except.ok.injEq, Prod.mk.injEq] at h5
        obtain ⟨-, -, rfl⟩ := h5
        simp at h6
    obtain ⟨res', hr'⟩ := C17_no_crash h' (by rw [hwd']; simp) hω target maxIter (hne.imp_right fun h0 => by rw [hnp]; exact h0)
    refine ⟨res', hr', ?_⟩
    obtain ⟨st, -, hm, -, -, hcells, -⟩ := crop_machs (r := 0) (c := 0) (⟨by simp, by simp, rfl⟩ : wd.SameRecords 0 0 wd) hrows hrows
      (fun r hr => (hs.ok r hr).vars.aligned) rfl
    have hm' : Matches rows' st := matches_same hrows hrows' h3.1 h3.2.1 h3.2.2 hm
    obtain ⟨r1, k1, k2, k3⟩ := call_feed (c := (target, maxIter)) hRt hs hm hr
    obtain ⟨r1', k1', k2', k3'⟩ := call_feed (c := (target, maxIter)) hRt' hs' hm' hr'
    rw [hpos] at k2' k3'
    have e := deal_same (callOps_same (hS.moves (A := A) (F := F)) (List.finRange wd.xinds.length) (target, maxIter)) ω (x := (st, s.world.pos)) hcells fun _ _ _ => trivial
    rw [e] at k2' k3'
    unfold PState.motion
    rw [k3, k3', k1.has.1, k1'.has.1, k1.has.2, k1'.has.2, k2.1, k2'.1]
    obtain ⟨l1, l2, l3⟩ := matches_lists (keys := keysOf P) (keys' := keysOf P') k2 k2'
    simp [l1, l2, l3]

end

end Dorado
