import Verif.Lemmas.RunStmt

/-! Helper lemmas: row invariants along arbitrary call histories. -/

set_option linter.unusedSectionVars false

namespace Dorado

variable {K : Type} [Field K] [LinearOrder K] [IsStrictOrderedRing K] (A : Arith K) (F : Fun K A)

theorem randomSeeds_mem {ω : Nat → K} {pos pos' : Nat} {locs l : List Int} {n : Nat}
    (h : randomSeeds A ω pos locs n = .ok (l, pos')) : ∀ a ∈ l, a ∈ locs := by
  unfold randomSeeds at h
  have := (mapAcc_inv (fun _ : Nat => True) (fun _ b => b ∈ locs) (fun s a b s' _ hb => ⟨trivial, by
    simp only [bind_ok, pure_ok, Prod.mk.injEq] at hb
    obtain ⟨c, hc, rfl, -⟩ := hb
    unfold randomPickSeed at hc
    split at hc
    · cases hc
    · simp only [bind_ok, listGet_ok] at hc
      obtain ⟨u, -, hu⟩ := hc
      exact List.mem_of_getElem? hu⟩) trivial h).2
  clear h
  generalize List.range n = L at this
  intro a ha
  induction this with
  | nil => cases ha
  | cons hb _ ih =>
    rcases List.mem_cons.1 ha with rfl | ha
    · exact hb
    · exact ih ha

theorem exactSeeds_mem {locs l : List Int} {np : Int} {n : Nat} (h : exactSeeds locs np n = .ok l) :
    ∀ a ∈ l, a ∈ locs := by
  unfold exactSeeds at h
  simp only [bind_ok, pure_ok] at h
  obtain ⟨tail, ht, rfl⟩ := h
  intro a ha
  rw [List.mem_append] at ha
  rcases ha with ha | ha
  · unfold pyRepeat at ha
    obtain ⟨l, hl, hal⟩ := List.mem_flatten.1 ha
    rw [List.eq_of_mem_replicate hl] at hal
    exact hal
  · obtain ⟨i, hi⟩ := List.getElem?_of_mem ha
    obtain ⟨b, -, hb⟩ := mapE_get' ht hi
    rw [listGet_ok] at hb
    exact List.mem_of_getElem? hb

theorem startIndices_mem {ω : Nat → K} {pos pos' : Nat} {np : Int} {xs ys sx sy : List Int} {m : Method}
    (h : startIndices A ω pos np xs ys m = .ok (sx, sy, pos')) : (∀ a ∈ sx, a ∈ xs) ∧ ∀ a ∈ sy, a ∈ ys := by
  cases m with
  | random =>
    simp only [startIndices, bind_ok, pure_ok, Prod.exists, Prod.mk.injEq] at h
    obtain ⟨x, p1, hx, y, p2, hy, rfl, rfl, rfl⟩ := h
    exact ⟨randomSeeds_mem A hx, randomSeeds_mem A hy⟩
  | exact =>
    simp only [startIndices] at h
    split at h
    · cases h
    · simp only [bind_ok, pure_ok, Prod.mk.injEq] at h
      obtain ⟨x, hx, y, hy, rfl, rfl, rfl⟩ := h
      exact ⟨exactSeeds_mem hx, exactSeeds_mem hy⟩

/-- The rows of a state. -/
def HasRows (P : PObj K) (s : PState K) (rows : List (Row K)) : Prop :=
  s.walk = some (ofRows (keysOf P) rows) ∧ s.np = rows.length

variable [FloorRing K]

/-- New rows after `generate_particles`. -/
theorem generate_rows {P : PObj K} {ω : Nat → K} {s s' : PState K} {np xs ys time method : PyVal K}
    {n : Int} {x y : List Int} {t : Fl K} {m : Method} {old prev : List (Row K)} {prevW : Option (WalkData K)}
    (hc : genInputCheck np xs ys time method = .ok (n, x, y, t, m)) (hn : 0 ≤ n)
    (hold : (s.walk = none ∧ old = []) ∨ s.walk = some (ofRows (keysOf P) old))
    (hprev : (prevW = none ∧ prev = []) ∨ prevW = some (ofRows (keysOf P) prev))
    (hg : generateParticles A P ω s np xs ys time method prevW = .ok s') :
    ∃ new : List (Row K), HasRows P s' (prev ++ (old ++ new)) ∧ s'.world.weight = s.world.weight ∧
      new.length = n.toNat ∧
      ∃ sx sy pos', startIndices A ω s.world.pos n x y m = .ok (sx, sy, pos') ∧
      ∀ (i : Nat) (r : Row K), new[i]? = some r → ∃ a b, sx[i]? = some a ∧ sy[i]? = some b ∧ SeedRow P (a, b) t r := by
  unfold generateParticles at hg
  rw [hc] at hg
  simp only [ok_bind] at hg
  unfold generateCore at hg
  simp only [bind_ok, pure_ok, Prod.exists] at hg
  obtain ⟨w0, pos', hw, rfl⟩ := hg
  obtain ⟨k, rfl⟩ := Int.eq_ofNat_of_zero_le hn
  obtain ⟨sx, sy, rows, hs, rfl, hl, -, -, hrows⟩ := newWalk_inv A hw
  refine ⟨rows, ?_, rfl, by simpa using hl, sx, sy, pos', hs, hrows⟩
  rcases hold with ⟨h1, rfl⟩ | h1 <;> rcases hprev with ⟨rfl, rfl⟩ | rfl <;>
    simp only [HasRows, h1, prependWalk_ofRows, List.nil_append, true_and] <;> simp [ofRows]

variable {A F} {Ob : PObj K → Prop} {Ω : (Nat → K) → Prop} {Sd : PObj K → List Int → List Int → Fl K → Prop}

theorem Reach.obj {P : PObj K} {s : PState K} (h : Reach A F Ob Ω Sd P s) : Ob P := by
  induction h with
  | new _ hP => exact hP
  | generate _ _ _ _ _ _ ih => exact ih
  | «continue» _ _ _ _ _ _ _ _ _ ih _ => exact ih
  | run _ _ _ ih => exact ih
  | failed _ _ _ ih => exact ih
  | clear _ ih => exact ih
  | reseed _ _ ih => exact ih

theorem runStmt_none {P : PObj K} {ω : Nat → K} {s : PState K} {target : Option (Fl K)} {maxIter : Int} (h : s.walk = none) :
    runStmt A F P ω target maxIter s = (.error .valueError, s) := by
  unfold runStmt
  rw [PyM.read_run, h]
  rfl

theorem runStmt_needs {P : PObj K} {ω : Nat → K} {s s' : PState K} {target : Option (Fl K)} {maxIter : Int} {e : PyErr}
    (h : runStmt A F P ω target maxIter s = (.error e, s')) (hs : s'.walk ≠ none) : s.walk ≠ none := by
  intro h0
  rw [runStmt_none h0] at h
  cases h
  exact hs h0

/-- Tracked variables are available once particles were generated. -/
theorem Reach.avail {P : PObj K} {s : PState K} (h : Reach A F Ob Ω Sd P s) (hs : s.walk ≠ none) :
    VarsOk P := by
  induction h with
  | new => exact absurd rfl hs
  | generate _ _ _ _ _ hg => exact generate_avail hg
  | «continue» _ _ _ _ _ _ _ _ hg => exact generate_avail hg
  | run _ _ hr ih =>
    refine ih fun h0 => ?_
    unfold runIteration at hr
    rw [h0] at hr
    cases hr
  | failed _ _ hr ih => exact ih (runStmt_needs hr hs)
  | clear => exact absurd rfl hs
  | reseed _ _ ih => exact ih hs

theorem Reach.rows (hG : ∀ P, Ob P → Good P) {Q : Row K → Prop}
    (hseed : ∀ P xs ys t x y r, Ob P → Sd P xs ys t → x ∈ xs → y ∈ ys → SeedRow P (x, y) t r → Q r)
    (hstep : ∀ P ω r r', Ob P → Ω ω → Q r → RowStep A F P ω r r' → Q r')
    {P : PObj K} {s : PState K} (h : Reach A F Ob Ω Sd P s) :
    PickEquiv A F P s.world.weight ∧ (s.walk = none ∨ ∃ rows, HasRows P s rows ∧ ∀ r ∈ rows, Q r) := by
  induction h with
  | new pos hP => exact ⟨PickEquiv.fresh A F _, Or.inl rfl⟩
  | @generate P s s' ω np xs ys time method n x y t m h hω hc hn hs hg ih =>
    obtain ⟨hw, hrow⟩ := ih
    have : ∃ old : List (Row K), ((s.walk = none ∧ old = []) ∨ s.walk = some (ofRows (keysOf P) old)) ∧ ∀ r ∈ old, Q r := by
      rcases hrow with h0 | ⟨rows, ⟨h1, -⟩, h2⟩
      · exact ⟨[], Or.inl ⟨h0, rfl⟩, by simp⟩
      · exact ⟨rows, Or.inr h1, h2⟩
    obtain ⟨old, hold, hQ⟩ := this
    obtain ⟨new, hr, hwe, -, sx, sy, pos', hsi, hnew⟩ := generate_rows A (prev := []) hc hn hold (Or.inl ⟨rfl, rfl⟩) hg
    refine ⟨by rw [hwe]; exact hw, Or.inr ⟨_, hr, ?_⟩⟩
    intro r hmem
    simp only [List.nil_append, List.mem_append] at hmem
    rcases hmem with h1 | h1
    · exact hQ r h1
    · obtain ⟨i, hi⟩ := List.getElem?_of_mem h1
      obtain ⟨a, b, ha, hb, hsr⟩ := hnew i r hi
      have hmm := startIndices_mem A hsi
      exact hseed _ _ _ _ _ _ _ h.obj hs (hmm.1 _ (List.mem_of_getElem? ha)) (hmm.2 _ (List.mem_of_getElem? hb)) hsr
  | @«continue» P s s' P' s0 prevW ω np xs ys time method n x y t m h h0 hprev hvars hω hc hn hs hg ih ih0 =>
    obtain ⟨hw, hrow⟩ := ih
    obtain ⟨-, hrow0⟩ := ih0
    have : ∃ old : List (Row K), ((s.walk = none ∧ old = []) ∨ s.walk = some (ofRows (keysOf P) old)) ∧ ∀ r ∈ old, Q r := by
      rcases hrow with h0 | ⟨rows, ⟨h1, -⟩, h2⟩
      · exact ⟨[], Or.inl ⟨h0, rfl⟩, by simp⟩
      · exact ⟨rows, Or.inr h1, h2⟩
    obtain ⟨old, hold, hQ⟩ := this
    have hkeys : keysOf P' = keysOf P := by unfold keysOf; rw [hvars]
    have : ∃ prev : List (Row K), prevW = ofRows (keysOf P) prev ∧ ∀ r ∈ prev, Q r := by
      rcases hrow0 with h0 | ⟨rows, ⟨h1, -⟩, h2⟩
      · rw [h0] at hprev; cases hprev
      · rw [hprev] at h1
        injection h1 with h1
        exact ⟨rows, by rw [← hkeys]; exact h1, h2⟩
    obtain ⟨prev, rfl, hQ0⟩ := this
    obtain ⟨new, hr, hwe, -, sx, sy, pos', hsi, hnew⟩ := generate_rows A (prev := prev) hc hn hold (Or.inr rfl) hg
    refine ⟨by rw [hwe]; exact hw, Or.inr ⟨_, hr, ?_⟩⟩
    intro r hmem
    simp only [List.mem_append] at hmem
    rcases hmem with h1 | h1 | h1
    · exact hQ0 r h1
    · exact hQ r h1
    · obtain ⟨i, hi⟩ := List.getElem?_of_mem h1
      obtain ⟨a, b, ha, hb, hsr⟩ := hnew i r hi
      have hmm := startIndices_mem A hsi
      exact hseed _ _ _ _ _ _ _ h.obj hs (hmm.1 _ (List.mem_of_getElem? ha)) (hmm.2 _ (List.mem_of_getElem? hb)) hsr
  | @run P s ω target maxIter res h hω hr ih =>
    obtain ⟨hw, hrow⟩ := ih
    rcases hrow with h0 | ⟨rows, ⟨h1, h1'⟩, h2⟩
    · unfold runIteration at hr
      rw [h0] at hr
      cases hr
    · obtain ⟨hw', rows', hl, -, hwalk, hnp, hout⟩ := runIteration_inv A F (hG _ h.obj) hw h1 (Or.inl h1') hr
      refine ⟨hw', Or.inr ⟨rows', ⟨hwalk, by rw [hnp, hl]⟩, ?_⟩⟩
      intro r hmem
      obtain ⟨i, hi⟩ := List.getElem?_of_mem hmem
      have hlt : i < rows.length := by rw [← hl]; exact (List.getElem?_eq_some_iff.1 hi).1
      obtain ⟨r', hr', hsteps⟩ := hout.steps A F (List.getElem?_eq_getElem hlt)
      rw [hi] at hr'
      injection hr' with hr'
      subst hr'
      exact hsteps.inv A F (fun a b ha hb => hstep _ _ _ _ h.obj hω ha hb) (h2 _ (List.getElem_mem hlt))
  | @failed P s s' ω target maxIter e h hω hr ih =>
    obtain ⟨hw, hrow⟩ := ih
    rcases hrow with h0 | ⟨rows, ⟨h1, h1'⟩, h2⟩
    · rw [runStmt_none h0] at hr
      cases hr
      exact ⟨hw, Or.inl h0⟩
    · obtain ⟨a1, a2⟩ := runStmt_spec (A := A) (F := F) (hG _ h.obj) (h.avail (by rw [h1]; exact nofun)) ω target maxIter hw h1 (Or.inl h1')
      cases hrun : runIteration A F P ω s target maxIter with
      | ok res => rw [a1 res hrun] at hr; cases hr
      | error e' =>
        obtain ⟨s1, rows', hs1, hw', hwalk, hnp, hf⟩ := a2 e' hrun
        rw [hs1] at hr
        cases hr
        obtain ⟨hl, hsteps⟩ := hf.steps
        refine ⟨hw', Or.inr ⟨rows', ⟨hwalk, by rw [hnp, hl]⟩, ?_⟩⟩
        intro r hmem
        obtain ⟨i, hi⟩ := List.getElem?_of_mem hmem
        have hlt : i < rows.length := by rw [← hl]; exact (List.getElem?_eq_some_iff.1 hi).1
        obtain ⟨r', hr', hst⟩ := hsteps i _ (List.getElem?_eq_getElem hlt)
        rw [hi] at hr'
        injection hr' with hr'
        subst hr'
        exact hst.inv A F (fun a b ha hb => hstep _ _ _ _ h.obj hω ha hb) (h2 _ (List.getElem_mem hlt))
  | clear h ih => exact ⟨ih.1, Or.inl rfl⟩
  | reseed pos h ih => exact ih

end Dorado
