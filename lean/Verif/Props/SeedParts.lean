import Verif.Lemmas.Alike
import Verif.Lemmas.Plots
import Verif.Props.Seed
import Verif.Props.StepperTuples

/-! # C131: seeding in several calls is seeding at once -/

set_option linter.unusedSectionVars false
set_option synthInstance.maxSize 1024

namespace Dorado

variable {K : Type} [Field K] [LinearOrder K] [IsStrictOrderedRing K] [FloorRing K] {A : Arith K} {F : Fun K A}

theorem mapE_append_iff {α β : Type} {f : α → Except PyErr β} {l l' : List α} {r : List β} :
    mapE f (l ++ l') = .ok r ↔ ∃ a b, mapE f l = .ok a ∧ mapE f l' = .ok b ∧ r = a ++ b := by
  constructor
  · intro h
    rw [mapE_ok_iff] at h
    have h1 := List.forall₂_take (l.length) h
    have h2 := List.forall₂_drop (l.length) h
    rw [List.take_left] at h1
    rw [List.drop_left] at h2
    exact ⟨_, _, mapE_ok_iff.2 h1, mapE_ok_iff.2 h2, (List.take_append_drop _ _).symm⟩
  · rintro ⟨a, b, h1, h2, rfl⟩
    exact mapE_ok_iff.2 (forall₂_append (mapE_ok_iff.1 h1) (mapE_ok_iff.1 h2))

theorem startVar_append {P : PObj K} {var : String} {a b : List (Int × Int)} {l : List (List (Val K))} :
    startVar P var (a ++ b) = .ok l ↔ ∃ l1 l2, startVar P var a = .ok l1 ∧ startVar P var b = .ok l2 ∧ l = l1 ++ l2 := by
  unfold startVar
  cases P.roi with
  | none =>
    cases availVar P var with
    | none => simp
    | some h => exact mapE_append_iff
  | some g =>
    simp only
    split_ifs with h0
    · exact mapE_append_iff
    · cases availVar P var with
      | none => simp
      | some h => exact mapE_append_iff

theorem dictOf_eq {β : Type} {ks ks' : List String} {f f' : String → β} (h : dictOf ks f = dictOf ks' f') : ks' = ks ∧ ∀ k ∈ ks, f' k = f k := by
  unfold dictOf at h
  have e : ks' = ks := by
    have := congrArg (List.map Prod.fst) h
    simpa [List.map_map, Function.comp_def] using this.symm
  subst e
  refine ⟨rfl, fun k hk => ?_⟩
  have := List.map_inj_left.1 h k hk
  simpa using this.symm

theorem startVars_append {P : PObj K} {a b : List (Int × Int)} (vars : List String) :
    ∀ (ks : List String) (f g : String → List (List (Val K))) (d : List (String × List (List (Val K)))),
      startVars P (a ++ b) vars (dictOf ks fun k => f k ++ g k) = .ok d ↔
        ∃ (ks' : List String) (f' g' : String → List (List (Val K))), startVars P a vars (dictOf ks f) = .ok (dictOf ks' f') ∧
          startVars P b vars (dictOf ks g) = .ok (dictOf ks' g') ∧ d = dictOf ks' fun k => f' k ++ g' k := by
  induction vars with
  | nil =>
    intro ks f g d
    simp only [startVars, Except.ok.injEq]
    constructor
    · rintro rfl
      exact ⟨ks, f, g, rfl, rfl, rfl⟩
    · rintro ⟨ks', f', g', h1, h2, rfl⟩
      obtain ⟨rfl, e1⟩ := dictOf_eq h1
      obtain ⟨-, e2⟩ := dictOf_eq h2
      unfold dictOf
      refine List.map_congr_left fun k hk => ?_
      simp only [e1 k hk, e2 k hk]
  | cons v vars ih =>
    intro ks f g d
    simp only [startVars]
    split_ifs with hb
    · exact ih ks f g d
    · simp only [bind_ok]
      constructor
      · rintro ⟨l, hl, h⟩
        obtain ⟨l1, l2, h1, h2, rfl⟩ := startVar_append.1 hl
        rw [dictSet_dictOf] at h
        have e : (fun a => if a = v then l1 ++ l2 else f a ++ g a) = fun a => (if a = v then l1 else f a) ++ if a = v then l2 else g a := by
          funext a
          split_ifs <;> rfl
        rw [e] at h
        obtain ⟨ks', f', g', i1, i2, i3⟩ := (ih _ _ _ d).1 h
        exact ⟨ks', f', g', ⟨l1, h1, by rw [dictSet_dictOf]; exact i1⟩, ⟨l2, h2, by rw [dictSet_dictOf]; exact i2⟩, i3⟩
      · rintro ⟨ks', f', g', ⟨l1, h1, i1⟩, ⟨l2, h2, i2⟩, i3⟩
        refine ⟨l1 ++ l2, startVar_append.2 ⟨l1, l2, h1, h2, rfl⟩, ?_⟩
        rw [dictSet_dictOf] at i1 i2 ⊢
        have e : (fun a => if a = v then l1 ++ l2 else f a ++ g a) = fun a => (if a = v then l1 else f a) ++ if a = v then l2 else g a := by
          funext a
          split_ifs <;> rfl
        rw [e]
        exact (ih _ _ _ d).2 ⟨ks', f', g', i1, i2, i3⟩

theorem exactSeeds_all {l : List Int} (n : Nat) (hn : n ≠ 0) : exactSeeds l (n : Int) n = .ok l := by
  unfold exactSeeds
  have h1 : ((n : Int) / (n : Int)) = 1 := Int.ediv_self (by omega)
  simp [mapE, h1, pyRepeat, pure, Except.pure, bind, Except.bind]

theorem wrap_all (l : List Int) : mapE (fun i => do let a ← listGet l i; return [a]) (List.range l.length) = .ok (l.map fun a => [a]) := by
  rw [mapE_ok (g := fun i => [l.getD i 0])]
  · congr 1
    refine List.ext_getElem (by simp) fun i h1 h2 => ?_
    simp at h1
    simp [h1]
  · intro i hi
    have := List.mem_range.1 hi
    rw [listGet_ok.2 (List.getElem?_eq_getElem this)]
    simp [this, pure, Except.pure, bind, Except.bind]

/-- Seeding one particle at every listed location. -/
theorem newWalk_exact {P : PObj K} {ω : Nat → K} {pos : Nat} {xs ys : List Int} (hne : xs ≠ []) (hl : ys.length = xs.length) {t : Fl K} {r : WalkData K × Nat} :
    newWalk A P ω pos (xs.length : Int) xs ys t .exact = .ok r ↔ ∃ d, startVars P (xs.zip ys) P.particleVars [] = .ok d ∧
      r = ({ xinds := xs.map fun a => [a], yinds := ys.map fun a => [a], times := List.replicate xs.length [t], opt := d }, pos) := by
  have h0 : xs.length ≠ 0 := fun h => hne (List.length_eq_zero_iff.1 h)
  have e : (List.range xs.length).map (fun _ => [t]) = List.replicate xs.length [t] := by simp
  have hy := wrap_all ys
  rw [hl] at hy
  have hs : startIndices A ω pos (xs.length : Int) xs ys .exact = .ok (xs, ys, pos) := by
    unfold startIndices
    simp only [if_neg h0, exactSeeds_all _ h0, ok_bind]
    rfl
  unfold newWalk
  rw [hs]
  simp only [ok_bind, Int.toNat_natCast, wrap_all xs, hy, e, bind_ok, pure_ok]
  constructor
  · rintro ⟨d, hd, rfl⟩
    exact ⟨d, hd, rfl⟩
  · rintro ⟨d, hd, rfl⟩
    exact ⟨d, hd, rfl⟩

theorem prepend_opt {old w : WalkData K} {ks : List String} {f : String → List (List (Val K))} (h : w.opt = dictOf ks f) :
    (prependWalk old w).opt = dictOf ks fun k => old.optOf k ++ f k := by
  unfold prependWalk
  simp only
  rw [h]
  unfold dictOf
  rw [List.map_map]
  apply List.map_congr_left
  intro k hk
  simp only [Function.comp, WalkData.optOf]
  cases dictGet old.opt k <;> simp

theorem optOf_dict {w : WalkData K} {ks : List String} {f : String → List (List (Val K))} (h : w.opt = dictOf ks f) {k : String} (hk : k ∈ ks) : w.optOf k = f k := by
  unfold WalkData.optOf
  rw [h, dictGet_dictOf, if_pos hk]
  rfl

/-- Data that exists already is put in front. -/
def preOld (old : Option (WalkData K)) (w : WalkData K) : WalkData K :=
  match old with
  | some o => prependWalk o w
  | none => w

theorem generate_exact {P : PObj K} {ω : Nat → K} {s s' : PState K} {xs ys : List Int} {t : Fl K} {prev : Option (WalkData K)} (hne : xs ≠ []) (hl : ys.length = xs.length) :
    generateParticles A P ω s (.int xs.length) (ints xs) (ints ys) (.flt t) (.str "exact") prev = .ok s' ↔
      ∃ d, startVars P (xs.zip ys) P.particleVars [] = .ok d ∧ ∃ w, w = (WalkData.mk (xs.map fun a => [a]) (ys.map fun a => [a]) (List.replicate xs.length [t]) d) ∧
        s' = { world := s.world, np := (preOld prev (preOld s.walk w)).xinds.length, walk := some (preOld prev (preOld s.walk w)) } := by
  unfold generateParticles
  rw [check_ints]
  simp only [String.reduceEq, if_false, if_true, ok_bind]
  unfold generateCore
  simp only [bind_ok, pure_ok, newWalk_exact hne hl]
  constructor
  · rintro ⟨_, ⟨d, hd, rfl⟩, rfl⟩
    refine ⟨d, hd, _, rfl, ?_⟩
    cases s.walk <;> cases prev <;> rfl
  · rintro ⟨d, hd, w, rfl, rfl⟩
    refine ⟨_, ⟨d, hd, rfl⟩, ?_⟩
    cases s.walk <;> cases prev <;> rfl

/-- Putting old data in front of two portions one after the other. -/
theorem preOld_parts {w1 w2 : WalkData K} {ks : List String} {f g : String → List (List (Val K))} (h1 : w1.opt = dictOf ks f) (h2 : w2.opt = dictOf ks g)
    (old : Option (WalkData K)) : prependWalk (preOld old w1) w2 =
      preOld old { xinds := w1.xinds ++ w2.xinds, yinds := w1.yinds ++ w2.yinds, times := w1.times ++ w2.times, opt := dictOf ks fun k => f k ++ g k } := by
  have ext : ∀ a b : WalkData K, a.xinds = b.xinds → a.yinds = b.yinds → a.times = b.times → a.opt = b.opt → a = b := by
    rintro ⟨_, _, _, _⟩ ⟨_, _, _, _⟩ rfl rfl rfl rfl
    rfl
  cases old with
  | none =>
    refine ext _ _ rfl rfl rfl ?_
    rw [prepend_opt h2]
    exact dictOf_congr fun k hk => by simp only [preOld, optOf_dict h1 hk]
  | some o =>
    refine ext _ _ (by simp [preOld, prependWalk]) (by simp [preOld, prependWalk]) (by simp [preOld, prependWalk]) ?_
    rw [prepend_opt h2]
    show _ = (prependWalk o _).opt
    rw [prepend_opt rfl]
    exact dictOf_congr fun k hk => by simp only [preOld, optOf_dict (prepend_opt h1) hk, List.append_assoc]

/-- Exact seeding, any rounding, any state of the object, any previous data: one call with the locations of two lists leaves the object exactly as two calls, one for each list,
do (walk data with tracked variables, number of particles, place in the random stream, weights), and it is rejected exactly if one of the two is. -/
theorem C131_parts {P : PObj K} {ω : Nat → K} {s s' : PState K} {xs ys xs' ys' : List Int} {t : Fl K} {prev : Option (WalkData K)} (hne : xs ≠ []) (hne' : xs' ≠ [])
    (hl : ys.length = xs.length) (hl' : ys'.length = xs'.length) :
    generateParticles A P ω s (.int (xs ++ xs').length) (ints (xs ++ xs')) (ints (ys ++ ys')) (.flt t) (.str "exact") prev = .ok s' ↔
      ∃ s1, generateParticles A P ω s (.int xs.length) (ints xs) (ints ys) (.flt t) (.str "exact") none = .ok s1 ∧
        generateParticles A P ω s1 (.int xs'.length) (ints xs') (ints ys') (.flt t) (.str "exact") prev = .ok s' := by
  rw [generate_exact (by simp [hne]) (by simp [hl, hl'])]
  simp only [generate_exact hne hl, generate_exact hne' hl']
  have hz : (xs ++ xs').zip (ys ++ ys') = xs.zip ys ++ xs'.zip ys' := List.zip_append hl.symm
  have key := fun d => startVars_append (P := P) (a := xs.zip ys) (b := xs'.zip ys') P.particleVars [] (fun _ => []) (fun _ => []) d
  rw [hz]
  have e : ∀ (ks : List String) (f g : String → List (List (Val K))),
      preOld (some (preOld s.walk { xinds := xs.map fun a => [a], yinds := ys.map fun a => [a], times := List.replicate xs.length [t], opt := dictOf ks f }))
        { xinds := xs'.map fun a => [a], yinds := ys'.map fun a => [a], times := List.replicate xs'.length [t], opt := dictOf ks g } =
      preOld s.walk (WalkData.mk ((xs ++ xs').map fun a => [a]) ((ys ++ ys').map fun a => [a]) (List.replicate (xs ++ xs').length [t])
        (dictOf ks fun k => f k ++ g k)) := by
    intro ks f g
    refine (preOld_parts rfl rfl s.walk).trans ?_
    simp only [List.map_append, List.length_append, List.replicate_add]
  constructor
  · rintro ⟨d, hd, w, rfl, rfl⟩
    obtain ⟨ks, f, g, h1, h2, rfl⟩ := (key d).1 hd
    refine ⟨_, ⟨_, h1, _, rfl, rfl⟩, _, h2, _, rfl, ?_⟩
    simp only [preOld] at e
    simp only [preOld, e]
  · rintro ⟨s1, ⟨d1, h1, _, rfl, rfl⟩, d2, h2, _, rfl, rfl⟩
    obtain ⟨f, rfl, -⟩ := startVars_inv P.particleVars [] (fun _ => []) (by simp) h1
    obtain ⟨g, rfl, -⟩ := startVars_inv P.particleVars [] (fun _ => []) (by simp) h2
    refine ⟨_, (key _).2 ⟨_, f, g, h1, h2, rfl⟩, _, rfl, ?_⟩
    simp only [preOld] at e
    simp only [preOld, e]

/-- A number of particles that is a multiple of the number of locations is the same as listing the locations as often. -/
theorem generate_repeat {P : PObj K} {ω : Nat → K} {s : PState K} {xs ys : List Int} {t : Fl K} {prev : Option (WalkData K)} (hne : xs ≠ []) {k : Nat} (hk : k ≠ 0) :
    generateParticles A P ω s (.int (k * xs.length : Nat)) (ints xs) (ints ys) (.flt t) (.str "exact") prev =
      generateParticles A P ω s (.int (pyRepeat xs k).length) (ints (pyRepeat xs k)) (ints (pyRepeat ys k)) (.flt t) (.str "exact") prev := by
  have h0 : xs.length ≠ 0 := fun h => hne (List.length_eq_zero_iff.1 h)
  have hlen : (pyRepeat xs k).length = k * xs.length := by simp [pyRepeat]
  have hl0 : (pyRepeat xs k).length ≠ 0 := by rw [hlen]; exact Nat.mul_ne_zero hk h0
  have hrep : ∀ l : List Int, exactSeeds l ((k * xs.length : Nat) : Int) xs.length = .ok (pyRepeat l k) := by
    intro l
    unfold exactSeeds
    have h1 : (((k * xs.length : Nat) : Int) / (xs.length : Int)) = k := by
      push_cast
      exact Int.mul_ediv_cancel _ (by omega)
    have h2 : (((k * xs.length : Nat) : Int) % (xs.length : Int)) = 0 := by
      push_cast
      exact Int.mul_emod_left _ _
    rw [h1, h2]
    simp [mapE, pure, Except.pure, bind, Except.bind]
  have hs : startIndices A ω s.world.pos ((k * xs.length : Nat) : Int) xs ys .exact =
      startIndices A ω s.world.pos ((pyRepeat xs k).length : Int) (pyRepeat xs k) (pyRepeat ys k) .exact := by
    unfold startIndices
    simp only [if_neg h0, if_neg hl0, hrep, exactSeeds_all _ hl0]
  unfold generateParticles
  rw [check_ints, check_ints]
  simp only [String.reduceEq, if_false, if_true, ok_bind]
  unfold generateCore newWalk
  rw [hs, hlen]

/-- A call for `k + 1` particles per location is a call for `k` per location followed by one for one per location. -/
theorem C131_repeat {P : PObj K} {ω : Nat → K} {s s' : PState K} {xs ys : List Int} {t : Fl K} {prev : Option (WalkData K)} (hne : xs ≠ [])
    (hl : ys.length = xs.length) {k : Nat} (hk : k ≠ 0) :
    generateParticles A P ω s (.int ((k + 1) * xs.length : Nat)) (ints xs) (ints ys) (.flt t) (.str "exact") prev = .ok s' ↔
      ∃ s1, generateParticles A P ω s (.int (k * xs.length : Nat)) (ints xs) (ints ys) (.flt t) (.str "exact") none = .ok s1 ∧
        generateParticles A P ω s1 (.int xs.length) (ints xs) (ints ys) (.flt t) (.str "exact") prev = .ok s' := by
  have h1 : ∀ l : List Int, pyRepeat l ((k + 1 : Nat) : Int) = pyRepeat l k ++ l := by
    intro l
    simp only [pyRepeat, Int.toNat_natCast, List.replicate_succ', List.flatten_append, List.flatten_cons, List.flatten_nil, List.append_nil]
  have hn : pyRepeat xs k ≠ [] := by
    intro h
    have := congrArg List.length h
    simp [pyRepeat] at this
    rcases this with h | h
    · exact hk h
    · exact hne h
  rw [generate_repeat hne (by omega), h1, h1, generate_repeat hne hk]
  exact C131_parts hn hne (by simp [pyRepeat, hl]) hl

/-- Random numbers 3/4 and 1/4 by turns. -/
def swingDraws (n : Nat) : ℚ := if n % 2 = 0 then 3 / 4 else 1 / 4

/-- Walks after seeding calls, each with number of particles and locations. -/
def seedCalls (method : String) (calls : List (Nat × List Int × List Int)) : Except PyErr (PState ℚ) :=
  foldE (fun s c => generateParticles Arith.exact (objOf chanVars) swingDraws s (.int c.1) (ints c.2.1) (ints c.2.2) (.flt (.fin 3)) (.str method) none)
    (initState Arith.exact Fun.toy (objOf chanVars) 0) calls

/-- What is compared of the walks. -/
def seedView (r : Except PyErr (PState ℚ)) : Option (List (List Int) × List (List Int) × Option (List (List (Fl ℚ)))) :=
  (r.toOption.bind (·.walk)).map fun wd => (wd.xinds, wd.yinds, (dictGet wd.opt "depth").map fun l => l.map fun m => m.map fun
    | .num x => x
    | _ => .nan)

/-- Random seeding with given random numbers is different in two calls and in one, because a call draws all rows first and then all columns. (The law is the same, C105.) -/
theorem C131_random_counterexample : Draws swingDraws ∧ Built Arith.exact Fun.toy (objOf chanVars) ∧
    seedView (seedCalls "random" [(1, [1, 2], [1, 2]), (1, [1, 2], [1, 2])]) = some ([[2], [2]], [[1], [1]], some [[.fin 2], [.fin 2]]) ∧
    seedView (seedCalls "random" [(2, [1, 2], [1, 2])]) = some ([[2], [1]], [[2], [1]], some [[.fin 3], [.fin 2]]) := by
  refine ⟨fun n => ?_, chanVars_built, by decide +kernel, by decide +kernel⟩
  unfold swingDraws
  split <;> norm_num

/-- C131: three locations in one call and in two, with a tracked variable. -/
example : ∃ s', seedCalls "exact" [(3, [1, 2, 3], [2, 2, 1])] = .ok s' ∧ seedCalls "exact" [(2, [1, 2], [2, 2]), (1, [3], [1])] = .ok s' ∧
    seedView (.ok s') = some ([[1], [2], [3]], [[2], [2], [1]], some [[.fin 3], [.fin 3], [.fin 0]]) := by
  have h : seedView (seedCalls "exact" [(3, [1, 2, 3], [2, 2, 1])]) =
      some ([[1], [2], [3]], [[2], [2], [1]], some [[.fin 3], [.fin 3], [.fin 0]]) := by decide +kernel
  cases hs : seedCalls "exact" [(3, [1, 2, 3], [2, 2, 1])] with
  | error e => rw [hs] at h; cases h
  | ok s' =>
    rw [hs] at h
    refine ⟨s', rfl, ?_, h⟩
    simp only [seedCalls, foldE, bind_ok, Except.ok.injEq, exists_eq_right] at hs ⊢
    exact (C131_parts (xs := [1, 2]) (ys := [2, 2]) (xs' := [3]) (ys' := [1]) (by simp) (by simp) rfl rfl).1 hs

/-- C131: two particles per location in one call and in two. -/
example : ∃ s', seedCalls "exact" [(4, [1, 2], [2, 1])] = .ok s' ∧ seedCalls "exact" [(2, [1, 2], [2, 1]), (2, [1, 2], [2, 1])] = .ok s' ∧
    seedView (.ok s') = some ([[1], [2], [1], [2]], [[2], [1], [2], [1]], some [[.fin 3], [.fin 2], [.fin 3], [.fin 2]]) := by
  have h : seedView (seedCalls "exact" [(4, [1, 2], [2, 1])]) =
      some ([[1], [2], [1], [2]], [[2], [1], [2], [1]], some [[.fin 3], [.fin 2], [.fin 3], [.fin 2]]) := by decide +kernel
  cases hs : seedCalls "exact" [(4, [1, 2], [2, 1])] with
  | error e => rw [hs] at h; cases h
  | ok s' =>
    rw [hs] at h
    refine ⟨s', rfl, ?_, h⟩
    simp only [seedCalls, foldE, bind_ok, Except.ok.injEq, exists_eq_right] at hs ⊢
    exact (C131_repeat (xs := [1, 2]) (ys := [2, 1]) (k := 1) (by simp) rfl (by simp)).1 hs

end Dorado
