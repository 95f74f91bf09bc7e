import Verif.Lemmas.Safe
import Verif.Spec.Seed

/-! Helper lemmas: `generate_particles`. -/

set_option linter.unusedSectionVars false

namespace Dorado

variable {K : Type} [Field K] [LinearOrder K] [IsStrictOrderedRing K] [FloorRing K] {A : Arith K} {F : Fun K A}

theorem availVar_eq_fieldOf (P : PObj K) (var : String) : availVar P var = fieldOf P var := by
  unfold availVar
  split_ifs <;> first | (subst_vars; rfl) | (unfold fieldOf; split <;> simp_all)

/-! ## Input check -/

theorem mapE_pyInt (l : List Int) : mapE (pyInt (K := K)) (l.map .int) = .ok l := by
  induction l with
  | nil => rfl
  | cons a l ih => simp only [List.map_cons, mapE, ih]; rfl

theorem pyList_ints (l : List Int) : pyList (K := K) (ints l) = .ok (l.map .int) := by
  unfold pyList ints
  simp only
  rw [if_neg]
  simp

theorem check_ints (N : Int) (xs ys : List Int) (t : Fl K) (m : String) : genInputCheck (.int N) (ints xs) (ints ys) (.flt t) (.str m) =
    (if m = "random" then .ok (N, xs, ys, t, .random) else if m = "exact" then .ok (N, xs, ys, t, .exact) else .error .valueError) := by
  unfold genInputCheck
  rw [pyList_ints, pyList_ints]
  simp only [bind, Except.bind, mapE_pyInt, pyInt, asTypeError, checkTime, checkMethod, pure, Except.pure]
  split_ifs <;> rfl

/-! ## Start positions -/

theorem randomPickSeed_spec {l : List Int} (hl : l ≠ []) (hn : A.rnd (l.length : K) = l.length) {r : K} (_hr0 : 0 ≤ r) (hr1 : r < 1) :
    ∃ k a, l[k]? = some a ∧ randomPickSeed A l r = .ok a ∧ A.rnd (l.length * r) ≤ (k + 1 : Nat) ∧
      ∀ m : Nat, m < k → ((m + 1 : Nat) : K) < A.rnd (l.length * r) := by
  cases hlen : l.length with
  | zero => exact absurd (List.length_eq_zero_iff.1 hlen) hl
  | succ n =>
    rw [hlen] at hn
    unfold randomPickSeed
    rw [hlen]
    simp only [uniform0, ok_bind]
    have hs := searchSorted_spec (fun k => Fl.npLt (.fin ((k + 1 : Nat) : K)) (.fin (A.rnd (((n + 1 : Nat) : K) * r)))) (n + 1) (by
      intro a b hab _ hb
      simp only [Fl.npLt, Fl.lt, Fl.isNan, Bool.false_and, Bool.or_false, decide_eq_true_eq] at hb ⊢
      refine lt_of_le_of_lt ?_ hb
      exact_mod_cast (by omega : a + 1 ≤ b + 1))
    simp only [Fl.npLt, Fl.lt, Fl.isNan, Bool.false_and, Bool.or_false, decide_eq_true_eq, decide_eq_false_iff_not, not_lt] at hs
    obtain ⟨h1, h2, h3⟩ := hs
    set k := searchSorted (fun k => decide (((k + 1 : Nat) : K) < A.rnd (((n + 1 : Nat) : K) * r))) (n + 1) with hk
    have hkn : k < n + 1 := by
      by_contra hcon
      have h4 := h2 n (by omega)
      have h5 : A.rnd (((n + 1 : Nat) : K) * r) ≤ A.rnd ((n + 1 : Nat) : K) := by
        apply A.mono
        have : (0 : K) ≤ ((n + 1 : Nat) : K) := Nat.cast_nonneg _
        nlinarith
      rw [hn] at h5
      exact absurd h4 (not_lt.2 h5)
    have hget := List.getElem?_eq_getElem (by omega : k < l.length)
    refine ⟨k, l[k]'(by omega), hget, ?_, h3 k le_rfl hkn, h2⟩
    have : searchSorted (fun k => Fl.npLt (.fin ((k + 1 : Nat) : K)) (.fin (A.rnd (((n + 1 : Nat) : K) * r)))) (n + 1) = k := by
      rw [hk]
      congr 1
      funext m
      simp [Fl.npLt, Fl.lt, Fl.isNan]
    rw [this]
    exact listGet_ok.2 hget

theorem randomSeeds_get {ω : Nat → K} {pos pos' : Nat} {locs l : List Int} {n : Nat} (h : randomSeeds A ω pos locs n = .ok (l, pos')) :
    pos' = pos + n ∧ ∀ i, i < n → ∃ a, l[i]? = some a ∧ randomPickSeed A locs (ω (pos + i)) = .ok a := by
  unfold randomSeeds at h
  have key : ∀ (L : List Nat) (pos pos' : Nat) (l : List Int), mapAcc (fun pos (_ : Nat) => do
      let c ← randomPickSeed A locs (ω pos)
      return (c, pos + 1)) pos L = .ok (l, pos') →
      pos' = pos + L.length ∧ ∀ i, i < L.length → ∃ a, l[i]? = some a ∧ randomPickSeed A locs (ω (pos + i)) = .ok a := by
    intro L
    induction L with
    | nil =>
      intro pos pos' l h
      simp [mapAcc] at h
      exact ⟨by simp [h.2], fun i hi => by simp at hi⟩
    | cons b L ih =>
      intro pos pos' l h
      simp only [mapAcc, bind_ok, pure_ok, Prod.exists, Prod.mk.injEq] at h
      obtain ⟨c, s1, ⟨c', hc, rfl, rfl⟩, bs, s2, hbs, rfl, rfl⟩ := h
      obtain ⟨h1, h2⟩ := ih _ _ _ hbs
      refine ⟨by rw [h1]; simp; omega, fun i hi => ?_⟩
      rcases i with - | i
      · exact ⟨c', rfl, hc⟩
      · simp only [List.length_cons] at hi
        obtain ⟨a, ha, ha'⟩ := h2 i (by omega)
        exact ⟨a, by simpa using ha, by rw [show pos + (i + 1) = pos + 1 + i by omega]; exact ha'⟩
  have := key _ _ _ _ h
  simpa using this

theorem randomSeeds_ok {ω : Nat → K} (hω : Draws ω) {locs : List Int} (hl : locs ≠ []) (hn : A.rnd (locs.length : K) = locs.length)
    (pos n : Nat) : ∃ l pos', randomSeeds A ω pos locs n = .ok (l, pos') := by
  unfold randomSeeds
  refine mapAcc_exists (fun _ => True) (fun s _ a _ => ?_) trivial
  obtain ⟨k, b, -, hb, -⟩ := randomPickSeed_spec hl hn (hω s).1 (hω s).2
  exact ⟨b, s + 1, by rw [hb]; rfl, trivial⟩

theorem pyRepeat_get {α : Type} (l : List α) (q i : Nat) (hi : i < q * l.length) : (pyRepeat l (q : Int))[i]? = l[i % l.length]? := by
  unfold pyRepeat
  rw [Int.toNat_natCast]
  induction q generalizing i with
  | zero => simp at hi
  | succ q ih =>
    rw [List.replicate_succ, List.flatten_cons]
    rcases Nat.lt_or_ge i l.length with h | h
    · rw [List.getElem?_append_left h, Nat.mod_eq_of_lt h]
    · rw [List.getElem?_append_right h, ih _ (by rw [Nat.succ_mul] at hi; omega), ← Nat.mod_eq_sub_mod h]

theorem exactSeeds_get {locs l : List Int} {N : Nat} (h : exactSeeds locs (N : Int) locs.length = .ok l) {i : Nat} (hi : i < N) :
    l[i]? = locs[i % locs.length]? := by
  unfold exactSeeds at h
  simp only [bind_ok, pure_ok] at h
  obtain ⟨tail, ht, rfl⟩ := h
  have e1 : (N : Int) / (locs.length : Int) = ((N / locs.length : Nat) : Int) := by simp
  have e2 : ((N : Int) % (locs.length : Int)).toNat = N % locs.length := by
    rw [← Int.natCast_emod]; exact Int.toNat_natCast _
  rw [e1]
  rw [e2] at ht
  have hlen : (pyRepeat locs ((N / locs.length : Nat) : Int)).length = N / locs.length * locs.length := by
    unfold pyRepeat
    rw [Int.toNat_natCast]
    simp
  rcases Nat.lt_or_ge i (N / locs.length * locs.length) with h | h
  · rw [List.getElem?_append_left (by omega), pyRepeat_get _ _ _ h]
  · rw [List.getElem?_append_right (by omega), hlen]
    have hdm := Nat.div_add_mod N locs.length
    rw [mul_comm] at hdm
    have hlt : i - N / locs.length * locs.length < N % locs.length := by omega
    have hb : (List.range (N % locs.length))[i - N / locs.length * locs.length]? = some (i - N / locs.length * locs.length) :=
      List.getElem?_range hlt
    obtain ⟨b, hb1, hb2⟩ := mapE_get ht hb
    rw [listGet_ok] at hb2
    rw [hb1, ← hb2]
    have hl0 : 0 < locs.length := by
      by_contra hcon
      have : locs.length = 0 := by omega
      have := List.length_eq_zero_iff.1 this
      subst this
      simp at hb2
    have hlt2 := Nat.mod_lt N hl0
    congr 1
    have : i = (i - N / locs.length * locs.length) + locs.length * (N / locs.length) := by rw [mul_comm locs.length]; omega
    conv_rhs => rw [this]
    rw [Nat.add_mul_mod_self_left, Nat.mod_eq_of_lt (by omega)]

theorem exactSeeds_ok {locs : List Int} (hl : locs ≠ []) (N : Nat) : ∃ l, exactSeeds locs (N : Int) locs.length = .ok l := by
  have hpos : 0 < locs.length := List.length_pos_iff.2 hl
  have e2 : ((N : Int) % (locs.length : Int)).toNat = N % locs.length := by
    rw [← Int.natCast_emod]; exact Int.toNat_natCast _
  obtain ⟨tail, ht⟩ := mapE_exists (f := fun i => listGet locs i) (l := List.range (N % locs.length)) fun i hi => by
    have := List.mem_range.1 hi
    have := Nat.mod_lt N hpos
    exact ⟨_, listGet_ok.2 (List.getElem?_eq_getElem (by omega))⟩
  unfold exactSeeds
  rw [e2, ht]
  exact ⟨_, rfl⟩

/-! ## The whole call -/

theorem generate_inv {P : PObj K} {ω : Nat → K} {s s' : PState K} {N : Nat} {xs ys : List Int} {t : Fl K} {method : String}
    {prev : Option (WalkData K)} (h : generateParticles A P ω s (.int N) (ints xs) (ints ys) (.flt t) (.str method) prev = .ok s') :
    ∃ (m : Method) (sx sy : List Int) (pos' : Nat) (rows : List (Row K)), (method = "random" ∧ m = .random ∨ method = "exact" ∧ m = .exact) ∧
      startIndices A ω s.world.pos (N : Int) xs ys m = .ok (sx, sy, pos') ∧ rows.length = N ∧
      (∀ (i : Nat) (r : Row K), rows[i]? = some r → ∃ x y, sx[i]? = some x ∧ sy[i]? = some y ∧ SeedRow P (x, y) t r) ∧
      ∃ wd, s'.walk = some wd ∧ s'.np = wd.xinds.length ∧
        wd.xinds = held prev (·.xinds) ++ held s.walk (·.xinds) ++ rows.map (·.xs) ∧
        wd.yinds = held prev (·.yinds) ++ held s.walk (·.yinds) ++ rows.map (·.ys) ∧
        wd.times = held prev (·.times) ++ held s.walk (·.times) ++ rows.map (·.ts) ∧
        ∀ var ∈ keysOf P, dictGet wd.opt var = some (held prev (WalkData.optOf var) ++ held s.walk (WalkData.optOf var) ++
          rows.map fun r => r.os var) := by
  unfold generateParticles at h
  rw [check_ints] at h
  have hm : ∃ m, (method = "random" ∧ m = .random ∨ method = "exact" ∧ m = .exact) ∧
      generateCore A P ω s (N : Int) xs ys t m prev = .ok s' := by
    split_ifs at h with h1 h2
    · exact ⟨.random, Or.inl ⟨h1, rfl⟩, h⟩
    · exact ⟨.exact, Or.inr ⟨h2, rfl⟩, h⟩
    · cases h
  obtain ⟨m, hm, h⟩ := hm
  unfold generateCore at h
  simp only [bind_ok, pure_ok, Prod.exists] at h
  obtain ⟨w0, pos', hw, rfl⟩ := h
  obtain ⟨sx, sy, rows, hs, rfl, hl, -, -, hrows⟩ := newWalk_inv A hw
  have hpre : ∀ (old w : WalkData K) (f : String → List (List (Val K))), w.opt = dictOf (keysOf P) f →
      (prependWalk old w).opt = dictOf (keysOf P) fun k => old.optOf k ++ f k := by
    intro old w f hw
    unfold prependWalk
    simp only
    rw [hw]
    unfold dictOf
    rw [List.map_map]
    apply List.map_congr_left
    intro k hk
    simp only [Function.comp, WalkData.optOf]
    cases dictGet old.opt k <;> simp
  have h0 : (ofRows (keysOf P) rows).opt = dictOf (keysOf P) fun k => rows.map fun r => r.os k := rfl
  refine ⟨m, sx, sy, pos', rows, hm, hs, hl, hrows, _, rfl, rfl, ?_⟩
  cases hsw : s.walk with
  | none =>
    cases prev with
    | none =>
      refine ⟨rfl, rfl, rfl, fun var hvar => ?_⟩
      simp only [h0, dictGet_dictOf, if_pos hvar, held, List.nil_append]
    | some o =>
      refine ⟨?_, ?_, ?_, fun var hvar => ?_⟩
      · simp [held, prependWalk, ofRows]
      · simp [held, prependWalk, ofRows]
      · simp [held, prependWalk, ofRows]
      · simp only [hpre _ _ _ h0, dictGet_dictOf, if_pos hvar, held, List.append_nil]
  | some w =>
    cases prev with
    | none =>
      refine ⟨?_, ?_, ?_, fun var hvar => ?_⟩
      · simp [held, prependWalk, ofRows]
      · simp [held, prependWalk, ofRows]
      · simp [held, prependWalk, ofRows]
      · simp only [hpre _ _ _ h0, dictGet_dictOf, if_pos hvar, held, List.nil_append]
    | some o =>
      refine ⟨?_, ?_, ?_, fun var hvar => ?_⟩
      · simp [held, prependWalk, ofRows]
      · simp [held, prependWalk, ofRows]
      · simp [held, prependWalk, ofRows]
      · simp only [hpre _ _ _ (hpre _ _ _ h0), dictGet_dictOf, if_pos hvar, held, List.append_assoc]

theorem OnGrid.get {α : Type} {P : PObj K} {g : Grid α} (hr : g.rows = P.depth.rows) (hc : g.cols = P.depth.cols) {x y : Int} (h : OnGrid P x y) :
    ∃ a, g.get x y = .ok a := by
  obtain ⟨h1, h2, h3, h4⟩ := h
  unfold Grid.get
  rw [pyIdx_nonneg (by omega) (by omega), pyIdx_nonneg (by omega) (by omega)]
  exact ⟨_, rfl⟩

theorem startVar_ok {P : PObj K} (Fd : Fields A P) {var : String} (hv : Trackable P var) {starts : List (Int × Int)}
    (hs : ∀ q ∈ starts, OnGrid P q.1 q.2) : ∃ l, startVar P var starts = .ok l := by
  have hroi : ∀ g, P.roi = some g → ∃ l, mapE (fun xy => do let v ← roiFlagAt g xy; return [v]) starts = .ok l := fun g hg =>
    mapE_exists fun q hq => by
      obtain ⟨a, ha⟩ := (hs q hq).get (Fd.roi g hg).1 (Fd.roi g hg).2
      unfold roiFlagAt
      rw [ha]
      exact ⟨_, rfl⟩
  have hgrid : ∀ g, availVar P var = some g → ∃ l, mapE (fun xy => do let v ← sampleAt g xy; return [v]) starts = .ok l := fun g hg =>
    mapE_exists fun q hq => by
      obtain ⟨a, ha⟩ := (hs q hq).get (availVar_shape Fd hg).1 (availVar_shape Fd hg).2
      unfold sampleAt
      rw [ha]
      exact ⟨_, rfl⟩
  unfold startVar
  rcases hv with ⟨g, hg⟩ | ⟨rfl, g, hg⟩
  · rw [← availVar_eq_fieldOf] at hg
    cases hr : P.roi with
    | none => simp only [hg]; exact hgrid g hg
    | some g' =>
      simp only [hg]
      split_ifs
      · exact hroi g' hr
      · exact hgrid g hg
  · rw [hg]
    simp only [if_true]
    exact hroi g hg

theorem startVars_ok {P : PObj K} {starts : List (Int × Int)} {vars : List String} (h : ∀ v ∈ vars, isBaseVar v = false → ∃ l, startVar P v starts = .ok l)
    (d : List (String × List (List (Val K)))) : ∃ d', startVars P starts vars d = .ok d' := by
  induction vars generalizing d with
  | nil => exact ⟨d, rfl⟩
  | cons v vars ih =>
    unfold startVars
    split_ifs with hb
    · exact ih (fun w hw => h w (by simp [hw])) d
    · obtain ⟨l, hl⟩ := h v (by simp) (by simpa using hb)
      rw [hl]
      exact ih (fun w hw => h w (by simp [hw])) _

theorem generate_ok {P : PObj K} (Fd : Fields A P) (hv : ∀ var, OptVar P var → Trackable P var) {ω : Nat → K} {s : PState K} {N : Nat} {xs ys : List Int}
    (hxy : ∀ x ∈ xs, ∀ y ∈ ys, OnGrid P x y) {t : Fl K} {method : String} {m : Method} {prev : Option (WalkData K)}
    (hm : method = "random" ∧ m = .random ∨ method = "exact" ∧ m = .exact) {sx sy : List Int} {pos' : Nat}
    (hs : startIndices A ω s.world.pos (N : Int) xs ys m = .ok (sx, sy, pos')) (hy : N ≤ sy.length) :
    ∃ s', generateParticles A P ω s (.int N) (ints xs) (ints ys) (.flt t) (.str method) prev = .ok s' := by
  have hx := startIndices_length A hs
  have wrap : ∀ l : List Int, N ≤ l.length → ∃ r, mapE (fun i => do let a ← listGet l i; return [a]) (List.range N) = .ok r := fun l hl =>
    mapE_exists fun i hi => by
      have := List.mem_range.1 hi
      rw [listGet_ok.2 (List.getElem?_eq_getElem (by omega))]
      exact ⟨_, rfl⟩
  obtain ⟨nx, hnx⟩ := wrap sx (by omega)
  obtain ⟨ny, hny⟩ := wrap sy hy
  obtain ⟨d, hd⟩ := startVars_ok (P := P) (starts := sx.zip sy) (vars := P.particleVars) (fun v hvm hb => by
    refine startVar_ok Fd (hv v (optVar_iff.2 (mem_keysOf.2 ⟨hvm, hb⟩))) fun q hq => ?_
    obtain ⟨h1, h2⟩ := List.of_mem_zip hq
    obtain ⟨m1, m2⟩ := startIndices_mem A hs
    exact hxy _ (m1 _ h1) _ (m2 _ h2)) []
  have hw : ∃ w, newWalk A P ω s.world.pos (N : Int) xs ys t m = .ok (w, pos') := by
    unfold newWalk
    rw [hs]
    simp only [ok_bind, Int.toNat_natCast, hnx, hny, hd]
    exact ⟨_, rfl⟩
  obtain ⟨w, hw⟩ := hw
  have hc : genInputCheck (.int N) (ints xs) (ints ys) (.flt t) (.str method) = .ok ((N : Int), xs, ys, t, m) := by
    rw [check_ints]
    rcases hm with ⟨rfl, rfl⟩ | ⟨rfl, rfl⟩
    · rfl
    · rfl
  unfold generateParticles generateCore
  rw [hc]
  simp only [ok_bind, hw]
  exact ⟨_, rfl⟩

theorem held_length {α : Type} {P : PObj K} {o : Option (WalkData K)} {f : WalkData K → List α} (h : ∀ w, o = some w → Sized P w)
    (hf : ∀ w, Sized P w → (f w).length = w.xinds.length) : (held o f).length = count o := by
  unfold count
  cases o with
  | none => rfl
  | some w => exact hf w (h w rfl)

theorem generate_new {P : PObj K} {ω : Nat → K} {s s' : PState K} {N : Nat} {xs ys : List Int} {t : Fl K} {method : String}
    {prev : Option (WalkData K)} (hp : ∀ w, prev = some w → Sized P w) (hw : ∀ w, s.walk = some w → Sized P w)
    (h : generateParticles A P ω s (.int N) (ints xs) (ints ys) (.flt t) (.str method) prev = .ok s') :
    ∃ (m : Method) (sx sy : List Int) (pos' : Nat), (method = "random" ∧ m = .random ∨ method = "exact" ∧ m = .exact) ∧
      startIndices A ω s.world.pos (N : Int) xs ys m = .ok (sx, sy, pos') ∧
      ∃ wd, s'.walk = some wd ∧ wd.xinds.length = count prev + count s.walk + N ∧
        ∀ i, i < N → ∃ x y, sx[i]? = some x ∧ sy[i]? = some y ∧ wd.lists (count prev + count s.walk + i) = some ([x], [y], [t]) ∧
          ∀ var, OptVar P var → ∃ v, wd.optList var (count prev + count s.walk + i) = some [v] := by
  obtain ⟨m, sx, sy, pos', rows, hm, hs, hl, hrows, wd, hwd, -, e1, e2, e3, e4⟩ := generate_inv h
  have get : ∀ {α : Type} (f : WalkData K → List α) (g : Row K → α) (_ : ∀ w, Sized P w → (f w).length = w.xinds.length)
      (i : Nat) (r : Row K), rows[i]? = some r →
      (held prev f ++ held s.walk f ++ rows.map g)[count prev + count s.walk + i]? = some (g r) := by
    intro α f g hf i r hr
    have l1 := held_length hp hf
    have l2 := held_length hw hf
    rw [List.getElem?_append_right (by rw [List.length_append]; omega), List.length_append, l1, l2,
      Nat.add_sub_cancel_left, List.getElem?_map, hr]
    rfl
  refine ⟨m, sx, sy, pos', hm, hs, wd, hwd, ?_, fun i hi => ?_⟩
  · rw [e1]
    simp only [List.length_append, List.length_map, hl]
    rfl
  · have hr := List.getElem?_eq_getElem (by omega : i < rows.length)
    obtain ⟨x, y, hx, hy, r1, r2, r3, r4⟩ := hrows i _ hr
    refine ⟨x, y, hx, hy, ?_, fun var hvar => ?_⟩
    · unfold WalkData.lists
      rw [e1, e2, e3, get _ _ (fun _ _ => rfl) i _ hr, get _ _ (fun _ h => h.ys) i _ hr, get _ _ (fun _ h => h.ts) i _ hr, r1, r2, r3]
      rfl
    · obtain ⟨v, hv, -⟩ := r4 var (optVar_iff.1 hvar)
      refine ⟨v, ?_⟩
      unfold WalkData.optList
      rw [e4 var (optVar_iff.1 hvar)]
      simp only [bind, Option.bind]
      rw [get _ (fun r => r.os var) (fun _ h => h.opt var hvar) i _ hr, hv]

/-- Walk data of reachable objects is rectangular. -/
theorem Reach.sized {Ob : PObj K → Prop} {Ω : (Nat → K) → Prop} {Sd : PObj K → List Int → List Int → Fl K → Prop}
    (hG : ∀ P, Ob P → Good P) {P P' : PObj K} (hv : P'.particleVars = P.particleVars) {s : PState K}
    (h : Reach A F Ob Ω Sd P' s) {wd : WalkData K} (hwd : s.walk = some wd) : Sized P wd := by
  rcases (h.state hG).2 with h0 | ⟨rows, h1, -⟩
  · rw [h0] at hwd; cases hwd
  · rw [h1] at hwd
    cases hwd
    refine ⟨by simp [ofRows], by simp [ofRows], fun var hvar => ?_⟩
    have hk : var ∈ keysOf P' := optVar_iff.1 (by unfold OptVar at hvar ⊢; rwa [hv])
    unfold WalkData.optOf
    have : dictGet (ofRows (keysOf P') rows).opt var = some (rows.map fun r => r.os var) := by
      show dictGet (dictOf _ _) _ = _
      rw [dictGet_dictOf, if_pos hk]
    rw [this]
    simp [ofRows]

end Dorado
