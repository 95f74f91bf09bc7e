import Verif.Lemmas.Moves

/-! Helper lemmas: histories of one object, tracked variables. -/

set_option linter.unusedSectionVars false

namespace Dorado

variable {K : Type} [Field K] [LinearOrder K] [IsStrictOrderedRing K] [FloorRing K] {A : Arith K} {F : Fun K A}
variable {Ob : PObj K → Prop} {Ω : (Nat → K) → Prop} {Sd : PObj K → List Int → List Int → Fl K → Prop}

/-- All objects in a history track the same variables. -/
theorem Reach.sameVars {P : PObj K} {s : PState K} (h : Reach A F Ob Ω Sd P s) :
    Reach A F (fun P' => Ob P' ∧ P'.particleVars = P.particleVars) Ω Sd P s := by
  induction h with
  | new pos hP => exact .new pos ⟨hP, rfl⟩
  | generate _ hω hc hn hs hg ih => exact .generate ih hω hc hn hs hg
  | @«continue» P s s' P' s0 prev ω np xs ys time method n x y t m _ _ hprev hvars hω hc hn hs hg ih ih0 =>
    rw [hvars] at ih0
    exact .continue ih ih0 hprev hvars hω hc hn hs hg
  | run _ hω hr ih => exact .run ih hω hr
  | failed _ hω hr ih => exact .failed ih hω hr
  | clear _ ih => exact .clear ih
  | reseed pos _ ih => exact .reseed pos ih

/-- Shape of any reachable state. -/
theorem Reach.state (hG : ∀ P, Ob P → Good P) {P : PObj K} {s : PState K} (h : Reach A F Ob Ω Sd P s) :
    PickEquiv A F P s.world.weight ∧ (s.walk = none ∨ ∃ rows, HasRows P s rows) := by
  obtain ⟨h1, h2⟩ := Reach.rows hG (Q := fun _ => True) (fun _ _ _ _ _ _ _ _ _ _ _ _ => trivial) (fun _ _ _ _ _ _ _ _ => trivial) h
  exact ⟨h1, h2.imp_right fun ⟨rows, hr, _⟩ => ⟨rows, hr⟩⟩

theorem Reach.later {P : PObj K} {s s' : PState K} (h : Reach A F Ob Ω Sd P s) (hl : Later A F Ω Sd P s s') :
    Reach A F Ob Ω Sd P s' := by
  induction hl with
  | refl => exact h
  | run _ hω hr ih => exact .run ih hω hr
  | failed _ hω hr ih => exact .failed ih hω hr
  | reseed pos _ ih => exact .reseed pos ih
  | generate _ hω hc hn hs hg ih => exact .generate ih hω hc hn hs hg

/-- Row-wise relation preserved by later calls. -/
theorem Later.rows (hG : ∀ P, Ob P → Good P) {P : PObj K} {s s' : PState K} (h : Reach A F Ob Ω Sd P s)
    (hl : Later A F Ω Sd P s s') {rows : List (Row K)} (hr : HasRows P s rows) {T : Row K → Row K → Prop} (hrefl : ∀ r, T r r)
    (hrun : ∀ ω (r0 r r' : Row K), Ω ω → RowSteps A F P ω r r' → T r0 r → T r0 r') :
    ∃ rows', HasRows P s' rows' ∧ ∀ (i : Nat) (r : Row K), rows[i]? = some r → ∃ r', rows'[i]? = some r' ∧ T r r' := by
  induction hl with
  | refl => exact ⟨rows, hr, fun i r h => ⟨r, h, hrefl r⟩⟩
  | run hl' hω hrn ih =>
    obtain ⟨rows1, hr1, hT⟩ := ih
    have h1 := h.later hl'
    obtain ⟨hw, -⟩ := h1.state hG
    obtain ⟨-, rows', hlen, -, hwalk, hnp, hout⟩ := runIteration_inv A F (hG _ h1.obj) hw hr1.1 (Or.inl hr1.2) hrn
    refine ⟨rows', ⟨hwalk, by rw [hnp, hlen]⟩, fun i r hi => ?_⟩
    obtain ⟨r1, hi1, hT1⟩ := hT i r hi
    obtain ⟨r2, hi2, hst⟩ := hout.steps A F hi1
    exact ⟨r2, hi2, hrun _ r r1 r2 hω hst hT1⟩
  | @failed s1 s' ω target maxIter e hl' hω hrn ih =>
    obtain ⟨rows1, hr1, hT⟩ := ih
    have h1 := h.later hl'
    obtain ⟨hw, -⟩ := h1.state hG
    obtain ⟨a1, a2⟩ := runStmt_spec (A := A) (F := F) (hG _ h1.obj) (h1.avail (by rw [hr1.1]; exact nofun)) ω target maxIter hw hr1.1 (Or.inl hr1.2)
    cases hrun' : runIteration A F P ω s1 target maxIter with
    | ok res => rw [a1 res hrun'] at hrn; cases hrn
    | error e' =>
      obtain ⟨s2, rows', hs2, -, hwalk, hnp, hf⟩ := a2 e' hrun'
      rw [hs2] at hrn
      cases hrn
      obtain ⟨hl, hsteps⟩ := hf.steps
      refine ⟨rows', ⟨hwalk, by rw [hnp, hl]⟩, fun i r hi => ?_⟩
      obtain ⟨r1, hi1, hT1⟩ := hT i r hi
      obtain ⟨r2, hi2, hst⟩ := hsteps i r1 hi1
      exact ⟨r2, hi2, hrun _ r r1 r2 hω hst hT1⟩
  | reseed pos _ ih => exact ih
  | generate hl' hω hc hn hs hg ih =>
    obtain ⟨rows1, hr1, hT⟩ := ih
    obtain ⟨new, hr2, -⟩ := generate_rows A (prev := []) hc hn (Or.inr hr1.1) (Or.inl ⟨rfl, rfl⟩) hg
    refine ⟨_, hr2, fun i r hi => ?_⟩
    obtain ⟨r1, hi1, hT1⟩ := hT i r hi
    refine ⟨r1, ?_, hT1⟩
    simp only [List.nil_append]
    rw [List.getElem?_append_left (List.getElem?_eq_some_iff.1 hi1).1]
    exact hi1

/-! ## Tracked variables -/

/-- Optional lists aligned with the positions, with values related to the positions by `V`. -/
structure VarInv (V : String → Int × Int → Val K → Prop) (keys : List String) (r : Row K) : Prop where
  aligned : r.aligned
  len : ∀ key ∈ keys, (r.os key).length = r.xs.length
  val : ∀ key ∈ keys, ∀ n p t v, r.recAt n p t → (r.os key)[n]? = some v → V key p v

theorem seedRow_vars {P : PObj K} {xy : Int × Int} {t : Fl K} {r : Row K} {V : String → Int × Int → Val K → Prop}
    (hV : ∀ key ∈ keysOf P, ∀ v, VarAt P key xy v → V key xy v) (h : SeedRow P xy t r) : VarInv V (keysOf P) r := by
  obtain ⟨h1, h2, h3, h4⟩ := h
  refine ⟨by simp [Row.aligned, h1, h2, h3], fun key hk => ?_, fun key hk n p t' v hr hv => ?_⟩
  · obtain ⟨v, hv, -⟩ := h4 key hk
    simp [hv, h1]
  · obtain ⟨v', hv', hva⟩ := h4 key hk
    have hlt := r.rec_lt hr
    rw [h1] at hlt
    simp at hlt
    subst hlt
    obtain ⟨a, b, c⟩ := hr
    rw [h1] at a; rw [h2] at b; rw [hv'] at hv
    simp at a b hv
    have : p = xy := Prod.ext a.symm b.symm
    subst this hv
    exact hV key hk _ hva

theorem rowStep_vars {P : PObj K} {ω : Nat → K} {V : String → Int × Int → Val K → Prop}
    (hV : ∀ key ∈ keysOf P, ∀ q v, VarAt P key q v → V key q v) {r r' : Row K} (h : VarInv V (keysOf P) r)
    (hs : RowStep A F P ω r r') : VarInv V (keysOf P) r' := by
  obtain ⟨p, t, q, t', v, hp, ht, hst, hne, hv, rfl⟩ := hs
  refine ⟨r.append_aligned h.aligned _ _ _, fun key hk => ?_, fun key hk n p' t'' v' hr hv' => ?_⟩
  · have := h.len key hk
    simp [Row.append, this]
  · have hl := h.len key hk
    simp only [Row.append, List.getElem?_append] at hv'
    rcases (Row.append_rec h.aligned).1 hr with h1 | ⟨h1, rfl, -⟩
    · have hlt := r.rec_lt h1
      rw [if_pos (by omega)] at hv'
      exact h.val key hk n _ _ _ h1 hv'
    · rw [if_neg (by omega), hl, h1] at hv'
      simp at hv'
      rw [← hv']
      exact hV key hk _ _ (hv key hk)

/-- Tracked variables along every history. -/
theorem Reach.vars (hG : ∀ P, Ob P → Good P) {V : String → Int × Int → Val K → Prop}
    {P : PObj K} {s : PState K} (h : Reach A F Ob Ω Sd P s)
    (hV : ∀ P', Ob P' → P'.particleVars = P.particleVars → ∀ key ∈ keysOf P, ∀ q v, VarAt P' key q v → V key q v)
    {wd : WalkData K} (hwd : s.walk = some wd) :
    ∃ rows, wd = ofRows (keysOf P) rows ∧ s.np = rows.length ∧ ∀ r ∈ rows, VarInv V (keysOf P) r := by
  have hk : ∀ P' : PObj K, P'.particleVars = P.particleVars → keysOf P' = keysOf P := fun P' h => by unfold keysOf; rw [h]
  have := Reach.rows (Q := VarInv V (keysOf P)) (fun P hP => hG P hP.1)
    (fun P' xs ys t x y r hO hS hx hy hr => by
      have := seedRow_vars (V := V) (fun key hkey v hv => hV P' hO.1 hO.2 key (by rw [← hk P' hO.2]; exact hkey) _ v hv) hr
      rwa [hk P' hO.2] at this)
    (fun P' ω r r' hO hΩ hQ hs => by
      rw [← hk P' hO.2] at hQ ⊢
      exact rowStep_vars (fun key hkey q v hv => hV P' hO.1 hO.2 key (by rw [← hk P' hO.2]; exact hkey) q v hv) hQ hs) h.sameVars
  rcases this.2 with h0 | ⟨rows, ⟨h1, h1'⟩, h2⟩
  · rw [h0] at hwd; cases hwd
  · rw [h1] at hwd
    injection hwd with hwd
    exact ⟨rows, hwd.symm, h1', h2⟩

/-- Extensions of a row. -/
structure Row.Prefix (r r' : Row K) : Prop where
  xs : r.xs <+: r'.xs
  ys : r.ys <+: r'.ys
  ts : r.ts <+: r'.ts
  os : ∀ k, r.os k <+: r'.os k

theorem Row.Prefix.refl (r : Row K) : Row.Prefix r r := ⟨List.prefix_refl _, List.prefix_refl _, List.prefix_refl _, fun _ => List.prefix_refl _⟩

theorem Row.Prefix.trans {a b c : Row K} (h : Row.Prefix a b) (h' : Row.Prefix b c) : Row.Prefix a c :=
  ⟨h.xs.trans h'.xs, h.ys.trans h'.ys, h.ts.trans h'.ts, fun k => (h.os k).trans (h'.os k)⟩

theorem RowStep.prefix {P : PObj K} {ω : Nat → K} {r r' : Row K} (h : RowStep A F P ω r r') : Row.Prefix r r' := by
  obtain ⟨p, t, q, t', v, -, -, -, -, -, rfl⟩ := h
  exact ⟨List.prefix_append _ _, List.prefix_append _ _, List.prefix_append _ _, fun _ => List.prefix_append _ _⟩

theorem RowSteps.prefix {P : PObj K} {ω : Nat → K} {r r' : Row K} (h : RowSteps A F P ω r r') : Row.Prefix r r' := by
  induction h with
  | refl => exact .refl _
  | tail _ hs ih => exact ih.trans hs.prefix

theorem StepOf.edge {P : PObj K} {ω : Nat → K} {p q : Int × Int} {t t' : Fl K} (h : StepOf A F P ω p t q t')
    (he : edgeInWindow P.cellType p.1 p.2 = true) : q = p := by
  obtain ⟨k, q0, d, m, m', dt, -, -, -, hq, -, -⟩ := h
  rw [hq]
  unfold checkForBoundary1
  rw [if_pos he]

theorem Row.lastPos_unique {r : Row K} {p q : Int × Int} (hp : r.lastPos p) (hq : r.lastPos q) : p = q :=
  Prod.ext (by have := hp.1.symm.trans hq.1; injection this) (by have := hp.2.symm.trans hq.2; injection this)

/-! ## Observations of rows -/

theorem lists_ofRows {keys : List String} {rows : List (Row K)} {i : Nat} {l : List Int × List Int × List (Fl K)} :
    (ofRows keys rows).lists i = some l ↔ ∃ r, rows[i]? = some r ∧ l = (r.xs, r.ys, r.ts) := by
  unfold WalkData.lists ofRows
  simp only [List.getElem?_map]
  cases h : rows[i]? <;> simp [pure, eq_comm]

theorem optList_ofRows {keys : List String} {rows : List (Row K)} {var : String} {i : Nat} {l : List (Val K)} :
    (ofRows keys rows).optList var i = some l ↔ var ∈ keys ∧ ∃ r, rows[i]? = some r ∧ l = r.os var := by
  unfold WalkData.optList ofRows
  simp only [dictGet_dictOf]
  by_cases hv : var ∈ keys
  · simp only [hv, if_true, true_and, Option.bind_eq_bind, Option.bind_some, List.getElem?_map]
    cases h : rows[i]? <;> simp [eq_comm]
  · simp [hv]

theorem optVar_iff {P : PObj K} {var : String} : OptVar P var ↔ var ∈ keysOf P := by
  rw [mem_keysOf]
  unfold OptVar isBaseVar
  simp only [Bool.or_eq_false_iff, beq_eq_false_iff_ne, and_assoc]

end Dorado
