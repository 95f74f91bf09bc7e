import Verif.Spec.Steepest
import Verif.Lemmas.TimeMap
import Verif.Props.Pick
import Verif.Props.TimeScale

/-! # C89: steepest descent without ties is deterministic -/

set_option linter.unusedSectionVars false

namespace Dorado

variable {K : Type} [Field K] [LinearOrder K] [IsStrictOrderedRing K] [FloorRing K] {A : Arith K} {F : Fun K A}

/-- With nothing to choose from the draw does not matter. -/
theorem pickFrom_idle {p : Nat → Fl K} (hp : ∀ k, k < 9 → p k = .fin 0) (r r' : K) : pickFrom A p r = pickFrom A p r' := by
  have e : ∀ r, pickFrom A p r = pickFrom A (fun _ => .fin 0) r := fun r => pickFrom_congr A hp r
  have h0 : ∀ n, cumsum A (fun _ => (.fin 0 : Fl K)) n = .fin 0 := by
    intro n
    induction n with
    | zero => rfl
    | succ n ih => simp only [cumsum, ih, Arith.add, add_zero, A.zero]
  rw [e, e]
  unfold pickFrom uniform0
  rw [h0 8]
  simp [A.zero]

/-- Without ties all non-zero draws lead to the same choice. -/
theorem steep_pick {p : Nat → Fl K} (hp : ∀ k, k < 9 → NN A (p k))
    (hu : ∀ k k' x, k < 9 → k' < 9 → k ≠ 4 → k' ≠ 4 → 0 < x → (∀ l y, l < 9 → p l = .fin y → y ≤ x) → p k = .fin x → p k' = .fin x → k = k')
    {r r' : K} (hr : 0 ≤ r ∧ r < 1) (hr' : 0 ≤ r' ∧ r' < 1) (hnz : NonzeroDraw A r) (hnz' : NonzeroDraw A r') :
    pickFrom A (steepMask p) r = pickFrom A (steepMask p) r' := by
  rcases nanmax9_spec A hp with ⟨h1, h2⟩ | ⟨m, h1, h2, h3, k0, hk0, hk0'⟩
  · exact pickFrom_idle (fun k hk => steepMask_allNan h2 h1 hk) _ _
  · rcases h2.eq_or_lt with h0 | h0
    · refine pickFrom_idle (fun k hk => ?_) _ _
      rw [steepMask_eq A hp h1 h3 hk, ← h0]
      split <;> rfl
    · by_cases hat : ∃ k, k < 9 ∧ k ≠ 4 ∧ p k = .fin m
      · obtain ⟨k, q, hk, hk4, hkm, e⟩ := C11_picks_maximum hp h0 h3 hat hr hnz
        obtain ⟨k', q', hk', hk4', hkm', e'⟩ := C11_picks_maximum hp h0 h3 hat hr' hnz'
        obtain rfl := hu k k' m hk hk' hk4 hk4' h0 h3 hkm hkm'
        unfold steepDescent at e e'
        simp only [bind_ok, pure_ok, Prod.mk.injEq] at e e'
        obtain ⟨a, ha, rfl, -⟩ := e
        obtain ⟨b, hb, hb', -⟩ := e'
        rw [ha, hb, hb']
      · refine pickFrom_idle (fun k hk => ?_) _ _
        rw [steepMask_eq A hp h1 h3 hk, if_neg fun h => hat ⟨k, hk, h⟩]

theorem steep_alike {P : PObj K} (G : Good P) (hst : P.steepest = true) (hn : NoTies A F P) {ω ω' : Nat → K} (hω : NonzeroDraws A ω)
    (hω' : NonzeroDraws A ω') : PickAlike A F ω ω' P P := by
  intro i j n hi hj
  unfold maskOf
  rw [hst, if_pos rfl]
  exact steep_pick (fun k hk => fresh_NN A F G hi hj hk) (fun k k' x => hn i j k k' x hi hj) (hω.1 n) (hω'.1 n) (hω.2 n) (hω'.2 n)

theorem steep_routes {P : PObj K} (G : Good P) {ω ω' : Nat → K} (hp : PickAlike A F ω ω' P P) {T D : Fl K → Fl K → Prop}
    (h0 : D (.fin 0) (.fin 0)) (hD : (∀ x y, D x y) ∨ (¬ 0 < P.diffCoeff ∧ ∀ x, D x x))
    (hT : ∀ t t' d d', T t t' → D d d' → T (A.add t d) (A.add t' d')) : Routes A F ω ω' (TwinW A F P P) T Eq D P P where
  pos _ _ h := h.2.2
  move _ _ _ h := ⟨h.1, h.2.1, rfl⟩
  pick := (Twin.self G).pick hp
  iwalk := rfl
  jwalk := rfl
  edges := rfl
  vars := rfl
  roi := rfl
  verbose := rfl
  avail _ _ := rfl
  dist c := RelE.eq _
  zero _ _ h := by rw [h]
  time cell a b d d' h := by
    subst h
    refine travelTimeStmt_rel (E := Eq) (V := Eq) (G := Eq) (C := Eq) (fun _ _ h => h.2.2) (fun _ _ _ h => ⟨h.1, h.2.1, rfl⟩) (fun _ _ => RelE.eq _)
      rfl rfl (fun _ _ => RelE.eq _) (fun _ _ _ h => by rw [h]; exact RelE.eq _) h0 ?_ cell a b rfl
    intro d d' v v' w w' c c' diff diff' h1 h2 h3 h4 h5
    rcases hD with hD | ⟨hd, hD⟩
    · exact hD _ _
    · rw [h1, h2, h3, h4, h5 (.inr hd)]
      exact hD _
  add := hT

theorem Reach.twin {P0 : PObj K} {Ω : (Nat → K) → Prop} {Sd : PObj K → List Int → List Int → Fl K → Prop} {P : PObj K} {s : PState K}
    (h : Reach A F (· = P0) Ω Sd P s) (G : Good P) {T : Fl K → Fl K → Prop} (hT : ∀ t, T t t) : FutRel (TwinW A F P P) T s s := by
  have hP : P = P0 := h.obj
  subst hP
  obtain ⟨hpe, -⟩ := Reach.rows (Q := fun _ => True) (fun P hP => by subst hP; exact G)
    (fun _ _ _ _ _ _ _ _ _ _ _ _ => trivial) (fun _ _ _ _ _ _ _ _ => trivial) h
  refine ⟨⟨hpe, hpe, rfl⟩, ?_, .inr rfl⟩
  cases s.walk with
  | none => trivial
  | some w => exact ⟨rfl, rfl, forall₂_refl (fun l => forall₂_refl hT l) _, rfl⟩

/-- Steepest descent without ties and without diffusion: whatever the non-zero random numbers are, everything seen of a sequence of calls without
random seeding is the same, exceptions, travel times and target-time runs included. Any rounding. -/
theorem C89_deterministic {P0 : PObj K} (hB : Built A F P0) (hst : P0.steepest = true) (hn : NoTies A F P0) (hd : ¬ 0 < P0.diffCoeff)
    {Ω : (Nat → K) → Prop} {Sd : PObj K → List Int → List Int → Fl K → Prop} {P : PObj K} {s : PState K} (h : Reach A F (· = P0) Ω Sd P s)
    {ω ω' : Nat → K} (hω : NonzeroDraws A ω) (hω' : NonzeroDraws A ω') (cs : List (ApiCall K)) (hcs : ∀ c ∈ cs, ¬ c.SeedsRandomly) :
    transcript A F P ω' cs s = transcript A F P ω cs s := by
  have G := hB.good
  have hP : P = P0 := h.obj
  subst hP
  have H := (steep_routes G (steep_alike G hst hn hω hω') (T := Eq) (D := Eq) rfl (.inr ⟨hd, fun _ => rfl⟩)
    (fun _ _ _ _ h1 h2 => by rw [h1, h2])).alike
  refine (seenRel_eq (H.transcript ?_ (h.twin G fun _ => rfl))).symm
  induction cs with
  | nil => exact .nil
  | cons c cs ih =>
    refine .cons ?_ (ih fun d hd => hcs d (by simp [hd]))
    have h0 := callRel_refl A ω c
    have h1 := hcs c (by simp)
    cases c with
    | generate np xs ys time method prev =>
      obtain ⟨a1, a2, a3, a4, a5, -, a7⟩ := h0
      exact ⟨a1, a2, a3, a4, a5, .inr (checkMethod_random h1), a7⟩
    | run => exact h0
    | clear => exact h0

/-- With diffusion, and without target times, at least everything except the travel times is the same. -/
theorem C89_positions {P0 : PObj K} (hB : Built A F P0) (hst : P0.steepest = true) (hn : NoTies A F P0)
    {Ω : (Nat → K) → Prop} {Sd : PObj K → List Int → List Int → Fl K → Prop} {P : PObj K} {s : PState K} (h : Reach A F (· = P0) Ω Sd P s)
    {ω ω' : Nat → K} (hω : NonzeroDraws A ω) (hω' : NonzeroDraws A ω') (cs : List (ApiCall K)) (hcs : ∀ c ∈ cs, ¬ c.SeedsRandomly ∧ c.NoTarget) :
    (transcript A F P ω' cs s).map Seen.untimed = (transcript A F P ω cs s).map Seen.untimed := by
  have G := hB.good
  have hP : P = P0 := h.obj
  subst hP
  have H := (steep_routes G (steep_alike G hst hn hω hω') (T := fun _ _ => True) (D := fun _ _ => True) trivial (.inl fun _ _ => trivial)
    (fun _ _ _ _ _ _ => trivial)).alike
  exact untimed_eq (H.transcript (callRel_untimed (fun c hc => (hcs c hc).2) fun c hc => .inr (hcs c hc).1) (h.twin G fun _ => trivial))

/-- Two walks that are at the same place continue alike, whichever particles of whichever objects with the same parameters they belong to, whenever
they get there: place by place, as far as both are recorded. -/
theorem C89_same_path {P0 : PObj K} (hB : Built A F P0) (hst : P0.steepest = true) (hn : NoTies A F P0)
    {s s' : PState K} (h : Reach A F (· = P0) (NonzeroDraws A) AnySeed P0 s) (h' : Reach A F (· = P0) (NonzeroDraws A) AnySeed P0 s')
    {wd wd' : WalkData K} (hwd : s.walk = some wd) (hwd' : s'.walk = some wd') {i n i' n' : Nat} (h0 : wd.posAt i n = wd'.posAt i' n')
    (m : Nat) (hm : (wd.posAt i (n + m)).isSome) (hm' : (wd'.posAt i' (n' + m)).isSome) : wd.posAt i (n + m) = wd'.posAt i' (n' + m) := by
  have G := hB.good
  have key : ∀ {s : PState K}, Reach A F (· = P0) (NonzeroDraws A) AnySeed P0 s → ∀ {wd : WalkData K}, s.walk = some wd → ∀ {i n : Nat} {p q : Int × Int},
      wd.posAt i n = some p → wd.posAt i (n + 1) = some q → ∃ ω t t', NonzeroDraws A ω ∧ StepOf A F P0 ω p t q t' := by
    intro s h wd hwd i n p q hp hq
    obtain ⟨rows, rfl, -, hrows⟩ := Reach.walk (I := fun _ _ => True)
      (R := fun p t q t' => ∃ ω, NonzeroDraws A ω ∧ StepOf A F P0 ω p t q t')
      (fun P hP => by subst hP; exact G) (fun _ _ _ _ _ _ _ _ _ _ => trivial)
      (fun P ω p t q t' hP hω _ hs _ => ⟨trivial, ω, hω, by subst hP; exact hs⟩) h hwd
    obtain ⟨r, hr, hx, hy⟩ := posAt_ofRows.1 hp
    obtain ⟨r', hr', hx', hy'⟩ := posAt_ofRows.1 hq
    rw [hr] at hr'
    cases hr'
    have hI := hrows r (List.mem_of_getElem? hr)
    obtain ⟨t, -, hrec⟩ := rec_of_pos hI.aligned hx hy
    obtain ⟨t', -, hrec'⟩ := rec_of_pos hI.aligned hx' hy'
    obtain ⟨-, ω, hω, hs⟩ := hI.pairs n _ _ _ _ hrec hrec'
    exact ⟨ω, t, t', hω, hs⟩
  have back : ∀ {wd : WalkData K} {i n : Nat}, (wd.posAt i (n + 1)).isSome → (wd.posAt i n).isSome := by
    intro wd i n h
    unfold WalkData.posAt at h ⊢
    cases hx : wd.xinds[i]? with
    | none => rw [hx] at h; simp at h
    | some xs =>
      cases hy : wd.yinds[i]? with
      | none => rw [hx, hy] at h; simp at h
      | some ys =>
        rw [hx, hy] at h
        simp only [Option.bind_eq_bind, Option.bind_some] at h ⊢
        have h1 : n + 1 < xs.length := by
          by_contra hc
          rw [List.getElem?_eq_none (by omega)] at h
          simp at h
        have h2 : n + 1 < ys.length := by
          by_contra hc
          rw [List.getElem?_eq_none (l := ys) (by omega)] at h
          simp at h
        rw [List.getElem?_eq_getElem (show n < xs.length by omega), List.getElem?_eq_getElem (show n < ys.length by omega)]
        rfl
  induction m with
  | zero => exact h0
  | succ m ih =>
    have e := ih (back hm) (back hm')
    obtain ⟨p, hp⟩ := Option.isSome_iff_exists.1 (back hm)
    obtain ⟨q, hq⟩ := Option.isSome_iff_exists.1 hm
    obtain ⟨q', hq'⟩ := Option.isSome_iff_exists.1 hm'
    obtain ⟨ω, t, t', hω, k, q0, d, -, -, -, hc, hq0, hd, rfl, -, -⟩ := key h hwd hp hq
    have hp' : wd'.posAt i' (n' + m) = some p := by rw [← e]; exact hp
    obtain ⟨ω', u, u', hω', k', q0', d', -, -, -, hc', hq0', hd', rfl, -, -⟩ := key h' hwd' hp' hq'
    have hk : k = k' := by
      rcases hc with ⟨g, g'⟩ | ⟨g, x, a, b, h1, h2, h3⟩
      · rcases hc' with ⟨f, f'⟩ | ⟨f, -⟩
        · rw [g', f']
        · exact (f g).elim
      · rcases hc' with ⟨f, f'⟩ | ⟨f, x', a', b', f1, f2, f3⟩
        · exact (g f).elim
        · rw [h1] at f1
          rw [h2] at f2
          cases f1
          cases f2
          unfold maskOf at h3 f3
          rw [hst, if_pos rfl] at h3 f3
          rw [steep_pick (fun k hk => fresh_NN A F G (pyIdx_lt h1) (pyIdx_lt h2) hk) (fun k k' x => hn a b k k' x (pyIdx_lt h1) (pyIdx_lt h2))
            (hω.1 x) (hω'.1 x') (hω.2 x) (hω'.2 x'), f3] at h3
          exact (Except.ok.inj h3).symm
    subst hk
    rw [hq0] at hq0'
    rw [hd] at hd'
    cases hq0'
    cases hd'
    rw [hq, hq']

/-! ## Concrete cases -/

/-- The open channel with steepest descent and a wet cell in place of the island. -/
def chanSteep : Params ℚ := { chanOpen with
  steepest := some true
  depth := some (gridOf [
    [some 1, some 1, some 1, some 1, some 1],
    [some 1, some 2, some 3, some 2, some 1],
    [some 1, some 2, some 3, some 2, some 1],
    [some 1, some 1, some 3, some 2, some 1],
    [some 1, some 1, some 1, some 1, some 1]]) }

theorem chanSteep_built : Built Arith.exact Fun.toy (objOf chanSteep) :=
  ⟨chanSteep, { chan_valid with depth := fun g hg => by cases hg; exact gridOf_finOrNan _ }, rfl⟩

theorem chanSteep_noTies : NoTies Arith.exact Fun.toy (objOf chanSteep) := by
  have key : ∀ i : Fin 5, ∀ j : Fin 5, ∀ k : Fin 9, ∀ k' : Fin 9, (makeWeight Arith.exact Fun.toy (objOf chanSteep) i j k =
      makeWeight Arith.exact Fun.toy (objOf chanSteep) i j k' ∧ k ≠ k') → makeWeight Arith.exact Fun.toy (objOf chanSteep) i j k ≠ .fin 0 →
      ∃ l : Fin 9, (match makeWeight Arith.exact Fun.toy (objOf chanSteep) i j k, makeWeight Arith.exact Fun.toy (objOf chanSteep) i j l with
        | .fin x, .fin y => decide (x < y)
        | _, _ => false) = true := by
    decide +kernel
  intro i j k k' x hi hj hk hk' _ _ hx hmax h1 h2
  by_contra hne
  obtain ⟨l, hl⟩ := key ⟨i, hi⟩ ⟨j, hj⟩ ⟨k, hk⟩ ⟨k', hk'⟩ ⟨by simp only [h1, h2], by simpa using hne⟩ (by simpa [h1] using hx.ne')
  simp only [h1] at hl
  split at hl
  · rename_i x' y hx' h
    cases hx'
    have h3 := hmax l y l.2 h
    have h4 : x < y := by simpa using hl
    exact absurd h4 (not_lt.2 h3)
  · cases hl

theorem small_draws : NonzeroDraws (K := ℚ) Arith.exact (fun n => 1 / (n + 2)) := by
  refine ⟨fun n => ⟨by positivity, ?_⟩, fun n x hx _ => (mul_pos hx (by positivity : (0 : ℚ) < 1 / (n + 2))).ne'⟩
  rw [div_lt_one (by positivity)]
  linarith [(Nat.cast_nonneg n : (0 : ℚ) ≤ n)]

/-- Three particles, two steps, then a target time. -/
def steepCalls : List (ApiCall ℚ) :=
  [.generate (.int 3) (.list [.int 1, .int 1, .int 2]) (.list [.int 1, .int 2, .int 2]) (.int 0) (.str "exact") none, .run none 10, .run none 10,
   .run (some (.fin 100)) 10]

/-- C89: the hypotheses hold, and the particles do move: the second one follows the third. -/
example : (objOf chanSteep).steepest = true ∧ ¬ 0 < (objOf chanSteep).diffCoeff ∧ (∀ c ∈ steepCalls, ¬ c.SeedsRandomly) ∧
    (transcript Arith.exact Fun.toy (objOf chanSteep) (fun _ => 1 / 2) steepCalls (initState Arith.exact Fun.toy (objOf chanSteep) 0)).map
      (fun x => x.2.1.map fun w => w.xinds.zip w.yinds) =
    [some [([1], [1]), ([1], [2]), ([2], [2])], some [([1, 2], [1, 1]), ([1, 2], [2, 2]), ([2, 3], [2, 2])],
     some [([1, 2, 3], [1, 1, 2]), ([1, 2, 3], [2, 2, 2]), ([2, 3], [2, 2])], some [([1, 2, 3], [1, 1, 2]), ([1, 2, 3], [2, 2, 2]), ([2, 3], [2, 2])]] := by
  refine ⟨rfl, by decide +kernel, ?_, by decide +kernel⟩
  simp [steepCalls, ApiCall.SeedsRandomly]

/-- The island kept, no boundary: the two deepest neighbours of the island tie. -/
def chanTie : Params ℚ := { chanOpen with steepest := some true, cellType := some ⟨5, 5, fun _ _ => 0⟩ }

/-- Without the hypothesis `NoTies` the claim fails: a particle on the island leaves it in a direction that depends on the random number. -/
theorem C89_ties_counterexample : Built Arith.exact Fun.toy (objOf chanTie) ∧ (objOf chanTie).steepest = true ∧
    NonzeroDraws (K := ℚ) Arith.exact (fun _ => 1 / 4) ∧ NonzeroDraws (K := ℚ) Arith.exact (fun _ => 3 / 4) ∧
    ∃ cs : List (ApiCall ℚ), (∀ c ∈ cs, ¬ c.SeedsRandomly) ∧
    (transcript Arith.exact Fun.toy (objOf chanTie) (fun _ => 1 / 4) cs (initState Arith.exact Fun.toy (objOf chanTie) 0)).map
      (fun x => x.2.1.map fun w => w.xinds.zip w.yinds) ≠
    (transcript Arith.exact Fun.toy (objOf chanTie) (fun _ => 3 / 4) cs (initState Arith.exact Fun.toy (objOf chanTie) 0)).map
      (fun x => x.2.1.map fun w => w.xinds.zip w.yinds) := by
  refine ⟨⟨chanTie, { chan_valid with }, rfl⟩, rfl, ⟨fun _ => by norm_num, fun _ x hx _ => (mul_pos hx (by norm_num)).ne'⟩,
    ⟨fun _ => by norm_num, fun _ x hx _ => (mul_pos hx (by norm_num)).ne'⟩,
    [.generate (.int 1) (.list [.int 3]) (.list [.int 1]) (.int 0) (.str "exact") none, .run none 10], ?_, by decide +kernel⟩
  simp [ApiCall.SeedsRandomly]

end Dorado
