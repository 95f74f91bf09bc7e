import Verif.Spec.Parallel
import Verif.Lemmas.Hist
import Verif.Lemmas.Seed

/-! Helper lemmas: combination of worker results. -/

set_option linter.unusedSectionVars false

namespace Dorado

variable {K : Type} [Field K] [LinearOrder K] [IsStrictOrderedRing K] [FloorRing K] {A : Arith K} {F : Fun K A}

theorem extendKey_dictOf {β : Type} {ks : List String} {f : String → List β} {k : String} (hk : k ∈ ks) (l : List β) :
    extendKey (dictOf ks f) (k, l) = .ok (dictOf ks fun a => if a = k then f a ++ l else f a) := by
  unfold extendKey
  simp only [dictGet_dictOf, hk, if_true, dictSet_dictOf, addKey]
  congr 2
  funext a
  by_cases h : a = k
  · simp [h]
  · simp [h]

theorem dictGet_cons {β : Type} (k : String) (l : β) (r : List (String × β)) (a : String) :
    dictGet ((k, l) :: r) a = if k = a then some l else dictGet r a := by
  unfold dictGet
  by_cases h : k = a
  · simp [h]
  · have : (k == a) = false := by simp [h]
    simp [this, h]

theorem dictGet_none {β : Type} {d : List (String × β)} {k : String} (h : k ∉ keys d) : dictGet d k = none := by
  induction d with
  | nil => rfl
  | cons e d ih =>
    obtain ⟨a, b⟩ := e
    simp only [keys, List.map_cons, List.mem_cons, not_or] at h
    rw [dictGet_cons, if_neg (fun he => h.1 he.symm)]
    exact ih h.2

theorem extend_all {β : Type} {ks : List String} {r : List (String × List β)} (hnd : (keys r).Nodup) (hsub : ∀ k ∈ keys r, k ∈ ks)
    (f : String → List β) : foldE extendKey (dictOf ks f) r = .ok (dictOf ks fun a => f a ++ entry r a) := by
  induction r generalizing f with
  | nil =>
    simp only [foldE]
    congr 2
    funext a
    simp [entry, dictGet]
  | cons e r ih =>
    obtain ⟨k, l⟩ := e
    simp only [keys, List.map_cons, List.nodup_cons] at hnd
    simp only [foldE, extendKey_dictOf (hsub k (by simp [keys])), ok_bind]
    rw [ih hnd.2 (fun a ha => hsub a (by simp only [keys, List.map_cons, List.mem_cons]; exact Or.inr ha))]
    congr 2
    funext a
    unfold entry
    rw [dictGet_cons]
    by_cases h : k = a
    · subst h
      simp [dictGet_none hnd.1]
    · simp [h, Ne.symm h]

theorem combine_fold {β : Type} {ks : List String} {rs : List (List (String × List β))}
    (h : ∀ r ∈ rs, (keys r).Nodup ∧ ∀ k ∈ keys r, k ∈ ks) (f : String → List β) :
    foldE (fun acc r => foldE extendKey acc r) (dictOf ks f) rs = .ok (dictOf ks fun a => f a ++ (rs.map fun r => entry r a).flatten) := by
  induction rs generalizing f with
  | nil => simp [foldE]
  | cons r rs ih =>
    simp only [foldE, extend_all (h r (by simp)).1 (h r (by simp)).2, ok_bind]
    rw [ih fun r hr => h r (by simp [hr])]
    simp

theorem combine_ok {β : Type} {r0 : List (String × List β)} {rs : List (List (String × List β))}
    (h : ∀ r ∈ r0 :: rs, (keys r).Nodup ∧ ∀ k ∈ keys r, k ∈ keys r0) :
    combineResult (r0 :: rs) = .ok (dictOf (keys r0) fun a => ((r0 :: rs).map fun r => entry r a).flatten) := by
  simp only [combineResult]
  have e : (r0.map fun e => (e.1, ([] : List β))) = dictOf (keys r0) fun _ => [] := by simp [dictOf, keys, Function.comp_def]
  rw [e, combine_fold h]
  simp

theorem keys_dictOf {β : Type} (ks : List String) (f : String → β) : keys (dictOf ks f) = ks := by
  simp [keys, dictOf, Function.comp_def]

theorem flatten_getElem? {β : Type} (L : List (List β)) {w k : Nat} {l : List β} (hw : L[w]? = some l) (hk : k < l.length) :
    L.flatten[((L.take w).map List.length).sum + k]? = l[k]? := by
  induction L generalizing w with
  | nil => simp at hw
  | cons a L ih =>
    cases w with
    | zero =>
      simp at hw
      subst hw
      simp [List.getElem?_append_left hk]
    | succ w =>
      simp only [List.getElem?_cons_succ] at hw
      simp only [List.take_succ_cons, List.map_cons, List.sum_cons, List.flatten_cons]
      rw [List.getElem?_append_right (by omega), ← ih hw]
      congr 1
      omega

/-! ## Walk data as a dictionary -/

/-- The keys of the dictionary. -/
def allKeys (P : PObj K) : List String := ["xinds", "yinds", "travel_times"] ++ keysOf P

/-- The entries of the dictionary. -/
def rowHist (r : Row K) (k : String) : Hist K :=
  if k = "xinds" then .ints r.xs else if k = "yinds" then .ints r.ys else if k = "travel_times" then .times r.ts else .vals (r.os k)

theorem keysOf_base {P : PObj K} {k : String} (h : k ∈ keysOf P) : k ≠ "xinds" ∧ k ≠ "yinds" ∧ k ≠ "travel_times" := by
  have := optVar_iff.2 h
  unfold OptVar at this
  tauto

theorem allKeys_nodup (P : PObj K) : (allKeys P).Nodup := by
  unfold allKeys
  rw [List.nodup_append]
  refine ⟨by decide, keysOf_nodup P, fun a ha b hb => ?_⟩
  obtain ⟨h1, h2, h3⟩ := keysOf_base hb
  rintro rfl
  simp at ha
  tauto

theorem walkDict_ofRows (P : PObj K) (rows : List (Row K)) :
    walkDict (ofRows (keysOf P) rows) = dictOf (allKeys P) fun k => rows.map fun r => rowHist r k := by
  unfold walkDict ofRows allKeys dictOf
  simp only [List.map_append, List.map_map, Function.comp_def]
  congr 1
  apply List.map_congr_left
  intro k hk
  obtain ⟨h1, h2, h3⟩ := keysOf_base hk
  simp [rowHist, h1, h2, h3]

theorem entry_dictOf {β : Type} {ks : List String} {f : String → List β} {k : String} (h : k ∈ ks) : entry (dictOf ks f) k = f k := by
  simp [entry, dictGet_dictOf, h]

theorem combine_rows (P : PObj K) {blocks : List (List (Row K))} (h : blocks ≠ []) :
    combineResult (blocks.map fun b => walkDict (ofRows (keysOf P) b)) = .ok (walkDict (ofRows (keysOf P) blocks.flatten)) := by
  obtain ⟨b, bs, rfl⟩ := List.exists_cons_of_ne_nil h
  simp only [walkDict_ofRows, List.map_cons]
  rw [combine_ok]
  · rw [keys_dictOf]
    congr 1
    unfold dictOf
    apply List.map_congr_left
    intro k hk
    have e : ∀ (b : List (Row K)), entry (dictOf (allKeys P) fun k => b.map fun r => rowHist r k) k = b.map fun r => rowHist r k :=
      fun b => entry_dictOf hk
    unfold dictOf at e
    simp [e, Function.comp_def, List.map_flatten]
  · intro r hr
    have : keys r = allKeys P := by
      simp only [List.mem_cons, List.mem_map] at hr
      rcases hr with rfl | ⟨b, -, rfl⟩ <;> exact keys_dictOf _ _
    rw [this, keys_dictOf]
    exact ⟨allKeys_nodup P, fun _ h => h⟩

theorem dictLists_ofRows (P : PObj K) (rows : List (Row K)) (i : Nat) :
    dictLists (walkDict (ofRows (keysOf P) rows)) i = (ofRows (keysOf P) rows).lists i := by
  rw [walkDict_ofRows]
  unfold dictLists
  rw [entry_dictOf (by simp [allKeys]), entry_dictOf (by simp [allKeys]), entry_dictOf (by simp [allKeys])]
  unfold WalkData.lists ofRows
  simp only [List.getElem?_map]
  cases h : rows[i]? <;> simp [rowHist, Hist.toInts, Hist.toTimes]

theorem dictOpt_ofRows (P : PObj K) (rows : List (Row K)) {var : String} (hv : OptVar P var) (i : Nat) :
    dictOpt (walkDict (ofRows (keysOf P) rows)) var i = (ofRows (keysOf P) rows).optList var i := by
  have hk := optVar_iff.1 hv
  obtain ⟨h1, h2, h3⟩ := keysOf_base hk
  rw [walkDict_ofRows]
  unfold dictOpt
  rw [entry_dictOf (by simp [allKeys, hk])]
  unfold WalkData.optList ofRows
  simp only [dictGet_dictOf, hk, if_true, Option.bind_eq_bind, Option.bind_some, List.getElem?_map]
  cases h : rows[i]? <;> simp [rowHist, Hist.toVals, h1, h2, h3]

/-! ## Runs of one worker -/

theorem generate_time0 (P : PObj K) (ω : Nat → K) (s : PState K) (np xs ys m : PyVal K) (prev : Option (WalkData K)) :
    generateParticles A P ω s np xs ys (.int 0) m prev = generateParticles A P ω s np xs ys (.flt (.fin 0)) m prev := by
  unfold generateParticles
  have : (genInputCheck np xs ys (.int 0) m : Except PyErr _) = genInputCheck np xs ys (.flt (.fin 0)) m := by
    unfold genInputCheck
    simp [checkTime]
  rw [this]

theorem check_zero (N : Int) (xs ys : List Int) :
    genInputCheck (K := K) (.int N) (ints xs) (ints ys) (.int 0) (.str "random") = .ok (N, xs, ys, .fin 0, .random) := by
  have : (genInputCheck (K := K) (.int N) (ints xs) (ints ys) (.int 0) (.str "random") : Except PyErr _) =
      genInputCheck (.int N) (ints xs) (ints ys) (.flt (.fin 0)) (.str "random") := by
    unfold genInputCheck
    simp [checkTime]
  rw [this, check_ints, if_pos rfl]

theorem routeN_iff {P : PObj K} {ω : Nat → K} {n : Nat} {s s' : PState K} {w w' : Option (WalkData K)} (h : routeN A F P ω n s w = .ok (w', s')) :
    Iterates A F P ω n s s' := by
  induction n generalizing s w with
  | zero =>
    simp only [routeN, Except.ok.injEq, Prod.mk.injEq] at h
    rw [h.2]
    exact .zero _
  | succ n ih =>
    simp only [routeN, bind_ok] at h
    obtain ⟨r, hr, h⟩ := h
    exact .succ hr (ih h)

theorem Iterates.reach {Ob : PObj K → Prop} {Ω : (Nat → K) → Prop} {Sd : PObj K → List Int → List Int → Fl K → Prop} {P : PObj K} {ω : Nat → K}
    (hω : Ω ω) {n : Nat} {s s' : PState K} (h : Iterates A F P ω n s s') (hr : Reach A F Ob Ω Sd P s) : Reach A F Ob Ω Sd P s' := by
  induction h with
  | zero => exact hr
  | succ h _ ih => exact ih (.run hr hω h)

theorem Iterates.snoc {P : PObj K} {ω : Nat → K} {n : Nat} {s s' : PState K} (h : Iterates A F P ω n s s') {r : RunResult K}
    (hr : runIteration A F P ω s' none 10000 = .ok r) : Iterates A F P ω (n + 1) s r.state := by
  induction h with
  | zero => exact .succ hr (.zero _)
  | succ h0 _ ih => exact .succ h0 (ih hr)

theorem Iterates.later {Ω : (Nat → K) → Prop} {Sd : PObj K → List Int → List Int → Fl K → Prop} {P : PObj K} {ω : Nat → K}
    (hω : Ω ω) {n : Nat} {s s' : PState K} (h : Iterates A F P ω n s s') : ∀ s0, Later A F Ω Sd P s0 s → Later A F Ω Sd P s0 s' := by
  induction h with
  | zero => exact fun _ h => h
  | succ h _ ih => exact fun s0 h0 => ih s0 (.run h0 hω h)

theorem routeN_walk {Ob : PObj K → Prop} {Ω : (Nat → K) → Prop} {Sd : PObj K → List Int → List Int → Fl K → Prop} (hG : ∀ P, Ob P → Good P)
    {P : PObj K} {ω : Nat → K} (hω : Ω ω) {n : Nat} {s s' : PState K} {w : Option (WalkData K)} {w' : WalkData K} (hr : Reach A F Ob Ω Sd P s)
    (hs : s.walk ≠ none) (hw : ∀ a, w = some a → s.walk = some a) (h : routeN A F P ω n s w = .ok (some w', s')) : s'.walk = some w' := by
  induction n generalizing s w with
  | zero =>
    simp only [routeN, Except.ok.injEq, Prod.mk.injEq] at h
    rw [← h.2]
    exact hw _ h.1
  | succ n ih =>
    simp only [routeN, bind_ok] at h
    obtain ⟨r, hrun, h⟩ := h
    obtain ⟨hpe, h0 | ⟨rows, hrows⟩⟩ := hr.state hG
    · exact absurd h0 hs
    obtain ⟨-, rows', -, hret, hwk, -, -, -⟩ := runIteration_inv A F (hG _ hr.obj) hpe hrows.1 (Or.inl hrows.2) hrun
    refine ih (.run hr hω hrun) (by rw [hwk]; simp) (fun a ha => ?_) h
    cases ha
    rw [hwk, hret]

theorem Chained.cons {gen : Nat → Nat} {w : Nat} {sched : List Nat} {runs : List (Nat × Nat × WalkData K)} {p : Nat} {wd : WalkData K}
    (h : Chained (fun v => if v = w then p else gen v) sched runs) : Chained gen (w :: sched) ((gen w, p, wd) :: runs) := by
  intro t v r hv hr
  cases t with
  | zero =>
    simp only [List.getElem?_cons_zero, Option.some.injEq] at hv hr
    subst hv hr
    exact ⟨fun _ => rfl, fun t' _ h0 => by omega⟩
  | succ t =>
    simp only [List.getElem?_cons_succ] at hv hr
    obtain ⟨h1, h2⟩ := h t v r hv hr
    simp only at h1
    refine ⟨fun hno => ?_, fun t' r' ht hv' hr' hno => ?_⟩
    · have hne := hno 0 (by omega)
      simp only [List.getElem?_cons_zero, ne_eq, Option.some.injEq] at hne
      rw [h1 fun t' ht he => hno (t' + 1) (by omega) (by simpa using he), if_neg fun e => hne e.symm]
    · cases t' with
      | zero =>
        simp only [List.getElem?_cons_zero, Option.some.injEq] at hv' hr'
        subst hv' hr'
        rw [h1 fun m hm he => hno (m + 1) (by omega) (by omega) (by simpa using he), if_pos rfl]
      | succ t' =>
        simp only [List.getElem?_cons_succ] at hv' hr'
        exact h2 t' r' (by omega) hv' hr' fun m h1 h2 he => hno (m + 1) (by omega) (by omega) (by simpa using he)

theorem HasRows.pos {P : PObj K} {s : PState K} {rows : List (Row K)} (h : HasRows P s rows) : s.walk ≠ none := by
  rw [h.1]; simp

section
variable {Ob : PObj K → Prop} {Ω : (Nat → K) → Prop} {Sd : PObj K → List Int → List Int → Fl K → Prop}

theorem Iterates.rows (hG : ∀ P, Ob P → Good P) {P : PObj K} {ω : Nat → K} (hω : Ω ω) {n : Nat} {s s' : PState K}
    (h : Iterates A F P ω n s s') (hr : Reach A F Ob Ω Sd P s) {rows : List (Row K)} (hs : HasRows P s rows) :
    ∃ rows', HasRows P s' rows' ∧ rows'.length = rows.length := by
  induction h generalizing rows with
  | zero => exact ⟨rows, hs, rfl⟩
  | succ hrun _ ih =>
    obtain ⟨hpe, -⟩ := hr.state hG
    obtain ⟨-, rows', hl, hret, hwk, hn, -⟩ := runIteration_inv A F (hG _ hr.obj) hpe hs.1 (Or.inl hs.2) hrun
    obtain ⟨rows2, h2, hl2⟩ := ih (.run hr hω hrun) (rows := rows') ⟨hwk, by rw [hn, hl]⟩
    exact ⟨rows2, h2, by rw [hl2, hl]⟩

theorem runIter_inv (hG : ∀ P, Ob P → Good P) {P : PObj K} {s : PState K} (hr : Reach A F Ob Ω Sd P s) (hwalk : s.walk = none) {ω : Nat → K} (hω : Ω ω)
    {pos : Nat} {numIter : Int} {N : Nat} {xs ys : List Int} (hS : Sd P xs ys (.fin 0)) {wd : WalkData K} {pos' : Nat}
    (h : runIter A F P ω { s with world := { s.world with pos := pos } } numIter (.int N) (ints xs) (ints ys) = .ok (wd, pos')) :
    1 ≤ numIter ∧ SerialWalk A F P s ω pos pos' N numIter.toNat xs ys wd ∧ ∃ rows, wd = ofRows (keysOf P) rows ∧ rows.length = N := by
  unfold runIter at h
  simp only [bind_ok, Prod.exists] at h
  obtain ⟨s1, hg, w, s2, hn, h⟩ := h
  have hr1 : Reach A F Ob Ω Sd P s1 := .generate (.reseed pos hr) hω (check_zero N xs ys) (by omega) hS hg
  have hwd : w = some wd ∧ s2.world.pos = pos' := by
    cases w with
    | none => simp at h
    | some w => simpa using h
  obtain ⟨rfl, rfl⟩ := hwd
  rw [generate_time0] at hg
  obtain ⟨m, sx, sy, p1, -, -, wd1, hw1, hl1, -⟩ := generate_new (by simp) (by simp [hwalk]) hg
  rw [← generate_time0] at hg
  have hne : s1.walk ≠ none := by rw [hw1]; simp
  have hit := routeN_iff hn
  have hw2 := routeN_walk hG hω hr1 hne (by simp) hn
  refine ⟨?_, ⟨s1, s2, hg, hit, hw2, rfl⟩, ?_⟩
  · by_contra hc
    have : numIter.toNat = 0 := by omega
    rw [this] at hn
    simp [routeN] at hn
  · obtain ⟨-, h0 | ⟨rows, hrows⟩⟩ := hr1.state hG
    · exact absurd h0 hne
    obtain ⟨rows', h', hl⟩ := hit.rows hG hω hr1 hrows
    have e := h'.1
    rw [hw2] at e
    simp only [Option.some.injEq] at e
    refine ⟨rows', e, ?_⟩
    have e1 := hrows.1
    rw [hw1] at e1
    simp only [Option.some.injEq] at e1
    rw [e1] at hl1
    simp [ofRows, count, held, hwalk] at hl1
    omega

theorem tasks_inv (hG : ∀ P, Ob P → Good P) {P : PObj K} {s : PState K} (hr : Reach A F Ob Ω Sd P s) (hwalk : s.walk = none)
    {ω : Nat → Nat → K} {numIter : Int} {N : Nat} {xs ys : List Int} (hS : Sd P xs ys (.fin 0)) {sched : List Nat} (hω : ∀ w ∈ sched, Ω (ω w))
    {gen gen' : Nat → Nat} {wds : List (WalkData K)}
    (h : mapAcc (parTask A F P s ω numIter (.int N) (ints xs) (ints ys)) gen sched = .ok (wds, gen')) :
    (sched ≠ [] → 1 ≤ numIter) ∧ ∃ (runs : List (Nat × Nat × WalkData K)) (blocks : List (List (Row K))), runs.length = sched.length ∧
      runs.map (fun r => r.2.2) = wds ∧
      wds = blocks.map (ofRows (keysOf P)) ∧ (∀ b ∈ blocks, b.length = N) ∧ Chained gen sched runs ∧
      ∀ (t : Nat) w r, sched[t]? = some w → runs[t]? = some r → SerialWalk A F P s (ω w) r.1 r.2.1 N numIter.toNat xs ys r.2.2 := by
  induction sched generalizing gen wds with
  | nil =>
    simp only [mapAcc, Except.ok.injEq, Prod.mk.injEq] at h
    obtain ⟨rfl, -⟩ := h
    exact ⟨by simp, [], [], rfl, rfl, rfl, by simp, fun t w r h => by simp at h, fun t w r h => by simp at h⟩
  | cons w sched ih =>
    simp only [mapAcc, bind_ok, pure_ok, Prod.exists, Prod.mk.injEq] at h
    obtain ⟨wd, gen1, h1, wds', gen2, h2, rfl, rfl⟩ := h
    unfold parTask at h1
    simp only [bind_ok, pure_ok, Prod.exists, Prod.mk.injEq] at h1
    obtain ⟨wd1, p', h1, rfl, rfl⟩ := h1
    obtain ⟨hn, hser, rows, hrows, hlen⟩ := runIter_inv hG hr hwalk (hω w (by simp)) hS h1
    obtain ⟨-, runs, blocks, e1, e2, e3, e4, e5, e6⟩ := ih (fun w hw => hω w (by simp [hw])) h2
    refine ⟨fun _ => hn, (gen w, p', wd1) :: runs, rows :: blocks, by simp [e1], by simp [e2], by simp [← e3, hrows], ?_, e5.cons, ?_⟩
    · intro b hb
      rcases List.mem_cons.1 hb with rfl | hb
      · exact hlen
      · exact e4 b hb
    · intro t v r hv hr
      cases t with
      | zero =>
        simp only [List.getElem?_cons_zero, Option.some.injEq] at hv hr
        subst hv hr
        exact hser
      | succ t =>
        simp only [List.getElem?_cons_succ] at hv hr
        exact e6 t v r hv hr

theorem Iterates.unique {P : PObj K} {ω : Nat → K} {n : Nat} {s a b : PState K} (ha : Iterates A F P ω n s a) (hb : Iterates A F P ω n s b) :
    a = b := by
  induction ha generalizing b with
  | zero => cases hb; rfl
  | succ h _ ih =>
    cases hb with
    | succ h' hb =>
      rw [h] at h'
      cases h'
      exact ih hb

theorem SerialWalk.unique {P : PObj K} {s : PState K} {ω : Nat → K} {pos p p' N n : Nat} {xs ys : List Int} {wd wd' : WalkData K}
    (h : SerialWalk A F P s ω pos p N n xs ys wd) (h' : SerialWalk A F P s ω pos p' N n xs ys wd') : wd = wd' := by
  obtain ⟨s1, s2, hg, hi, hw, -⟩ := h
  obtain ⟨s1', s2', hg', hi', hw', -⟩ := h'
  rw [hg] at hg'
  cases hg'
  rw [hi.unique hi', hw'] at hw
  exact (Option.some.inj hw).symm

/-- Position in blocks of equal length. -/
theorem flatten_block {β : Type} {N : Nat} (L : List (List β)) (hL : ∀ l ∈ L, l.length = N) {t k : Nat} {l : List β} (ht : L[t]? = some l) (hk : k < N) :
    L.flatten[t * N + k]? = l[k]? := by
  have hl := hL l (List.mem_of_getElem? ht)
  have htl : t < L.length := (List.getElem?_eq_some_iff.1 ht).1
  have e : ((L.take t).map List.length).sum = t * N := by
    have : (L.take t).map List.length = List.replicate t N := by
      apply List.ext_getElem
      · simp; omega
      · intro i h1 h2
        simp at h1
        simp [hL _ (List.getElem_mem (by omega : i < L.length))]
    rw [this]; simp
  rw [← e]
  exact flatten_getElem? L ht (by omega)

theorem flatten_size {β : Type} {N : Nat} (L : List (List β)) (hL : ∀ l ∈ L, l.length = N) : L.flatten.length = L.length * N := by
  induction L with
  | nil => simp
  | cons a L ih =>
    simp only [List.flatten_cons, List.length_append, List.length_cons]
    rw [ih fun l hl => hL l (by simp [hl]), hL a (by simp)]
    ring

theorem parallel_inv (hG : ∀ P, Ob P → Good P) {P : PObj K} {s : PState K} (hr : Reach A F Ob Ω Sd P s) (hwalk : s.walk = none)
    {ω : Nat → Nat → K} {numIter : Int} {N : Nat} {xs ys : List Int} (hS : Sd P xs ys (.fin 0)) {sched : List Nat} (hω : ∀ w ∈ sched, Ω (ω w))
    {gen : Nat → Nat} {d : List (String × List (Hist K))}
    (h : parallelRouting A F P s ω gen sched numIter (.int N) (ints xs) (ints ys) = .ok d) :
    1 ≤ numIter ∧ ∃ (runs : List (Nat × Nat × WalkData K)) (blocks : List (List (Row K))), runs.length = sched.length ∧ Chained gen sched runs ∧
      runs.map (fun r => r.2.2) = blocks.map (ofRows (keysOf P)) ∧ (∀ b ∈ blocks, b.length = N) ∧
      d = walkDict (ofRows (keysOf P) blocks.flatten) ∧
      ∀ (t : Nat) w r, sched[t]? = some w → runs[t]? = some r → SerialWalk A F P s (ω w) r.1 r.2.1 N numIter.toNat xs ys r.2.2 := by
  unfold parallelRouting at h
  by_cases h0 : sched = []
  · rw [if_pos h0] at h; cases h
  rw [if_neg h0] at h
  simp only [bind_ok, Prod.exists] at h
  obtain ⟨wds, gen', h, hc⟩ := h
  obtain ⟨hn, runs, blocks, e1, e2, rfl, e4, e5, e6⟩ := tasks_inv hG hr hwalk hS hω h
  refine ⟨hn h0, runs, blocks, e1, e5, e2, e4, ?_, e6⟩
  rw [List.map_map, Function.comp_def, combine_rows] at hc
  · exact (Except.ok.inj hc).symm
  · rintro rfl
    have : runs.length = 0 := by simpa using congrArg List.length e2
    exact h0 (List.length_eq_zero_iff.1 (by omega))

end

end Dorado
