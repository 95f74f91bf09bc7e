import Verif.Lemmas.Parallel
import Verif.Props.History
import Verif.Props.Safety
import Verif.Props.Seed

/-! # C51-C53: parallel routing -/

set_option linter.unusedSectionVars false

namespace Dorado

variable {K : Type} [Field K] [LinearOrder K] [IsStrictOrderedRing K] [FloorRing K] {A : Arith K} {F : Fun K A}

/-! ## C51 -/

/-- The keys of the first worker are kept in their order, and every entry is the concatenation of the workers' entries in order. A key that a
later worker does not have contributes nothing. -/
theorem C51_concatenates {β : Type} {r0 : List (String × List β)} {rs : List (List (String × List β))}
    (h : ∀ r ∈ r0 :: rs, (keys r).Nodup ∧ ∀ k ∈ keys r, k ∈ keys r0) :
    ∃ d, combineResult (r0 :: rs) = .ok d ∧ keys d = keys r0 ∧ ∀ key, entry d key = ((r0 :: rs).map fun r => entry r key).flatten := by
  refine ⟨_, combine_ok h, keys_dictOf _ _, fun key => ?_⟩
  by_cases hk : key ∈ keys r0
  · exact entry_dictOf hk
  · rw [show entry (dictOf (keys r0) _) key = [] by simp [entry, dictGet_dictOf, hk]]
    symm
    rw [List.flatten_eq_nil_iff]
    intro l hl
    obtain ⟨r, hr, rfl⟩ := List.mem_map.1 hl
    simp [entry, dictGet_none fun hc => hk ((h r hr).2 key hc)]

/-- Particle `k` of worker `w` appears at the same position in every field: after the particles of the earlier workers. -/
theorem C51_position {β : Type} {rs : List (List (String × List β))} {d : List (String × List β)} (hd : combineResult rs = .ok d)
    {r0 : List (String × List β)} (h0 : rs[0]? = some r0) (hk : ∀ r ∈ rs, (keys r).Nodup ∧ ∀ key, key ∈ keys r ↔ key ∈ keys r0)
    {n : List Nat} (hn : n.length = rs.length) (hr : ∀ (w : Nat) r m, rs[w]? = some r → n[w]? = some m → ∀ key ∈ keys r, (entry r key).length = m)
    {w : Nat} {r : List (String × List β)} (hw : rs[w]? = some r) {m : Nat} (hm : n[w]? = some m) {k : Nat} (hkm : k < m) :
    ∀ key ∈ keys r0, (entry d key)[(n.take w).sum + k]? = (entry r key)[k]? := by
  intro key hkey
  cases rs with
  | nil => simp at h0
  | cons a rs =>
    simp only [List.getElem?_cons_zero, Option.some.injEq] at h0
    subst h0
    obtain ⟨d', hd', -, he⟩ := C51_concatenates (r0 := a) (rs := rs) fun r hr => ⟨(hk r hr).1, fun k hk' => ((hk r hr).2 k).1 hk'⟩
    rw [hd] at hd'
    cases hd'
    rw [he]
    have hlen : ((((a :: rs).map fun r => entry r key).take w).map List.length) = n.take w := by
      apply List.ext_getElem?
      intro i
      by_cases hi : i < w
      · simp only [List.getElem?_map, List.getElem?_take_of_lt hi]
        cases hri : (a :: rs)[i]? with
        | none =>
          have := List.getElem?_eq_none_iff.1 hri
          simp only [Option.map_none]
          rw [eq_comm, List.getElem?_eq_none_iff]
          omega
        | some ri =>
          have hil := (List.getElem?_eq_some_iff.1 hri).1
          have hni := List.getElem?_eq_getElem (show i < n.length by omega)
          rw [hni]
          simp only [Option.map_some, Option.some.injEq]
          exact hr i ri _ hri hni key (((hk ri (List.mem_of_getElem? hri)).2 key).2 hkey)
      · rw [List.getElem?_eq_none (by simp; omega), List.getElem?_eq_none (by simp; omega)]
    rw [← hlen]
    apply flatten_getElem?
    · rw [List.getElem?_map, hw]; rfl
    · rw [hr w r m hw hm key (((hk r (List.mem_of_getElem? hw)).2 key).2 hkey)]
      exact hkm

/-- A key that only a later worker has raises KeyError. -/
theorem C51_new_key {β : Type} {r0 : List (String × List β)} (h0 : (keys r0).Nodup) {r : List (String × List β)}
    {key : String} (hkey : key ∈ keys r) (hnew : key ∉ keys r0) (rs : List (List (String × List β))) :
    combineResult (r0 :: r :: rs) = .error .keyError := by
  have e : (r0.map fun e => (e.1, ([] : List β))) = dictOf (keys r0) fun _ => [] := by simp [dictOf, keys, Function.comp_def]
  have hfail : ∀ (r : List (String × List β)) (f : String → List β), key ∈ keys r → foldE extendKey (dictOf (keys r0) f) r = .error .keyError := by
    intro r
    induction r with
    | nil => intro f h; simp [keys] at h
    | cons e r ih =>
      intro f h
      obtain ⟨k, l⟩ := e
      by_cases hk : k ∈ keys r0
      · simp only [foldE, extendKey_dictOf hk, ok_bind]
        apply ih
        simp only [keys, List.map_cons, List.mem_cons] at h
        rcases h with rfl | h
        · exact absurd hk hnew
        · exact h
      · simp [foldE, extendKey, dictGet_dictOf, hk]
  simp only [combineResult, e, foldE]
  rw [extend_all h0 fun _ h => h, ok_bind, hfail r _ hkey]
  rfl

/-- Three workers with one, two and no particles; the keys of a later worker come in another order. -/
example : combineResult [[("xinds", [1]), ("yinds", [2])], [("yinds", [4, 6]), ("xinds", [3, 5])], [("xinds", []), ("yinds", [])]] =
    .ok [("xinds", [1, 3, 5]), ("yinds", [2, 4, 6])] := by decide

/-- A worker with an additional key. -/
example : combineResult [[("xinds", [1])], [("xinds", [2]), ("depth", [3])]] = .error .keyError :=
  C51_new_key (key := "depth") (by decide) (by decide) (by decide) []

/-! ## C52 -/

section
variable {Ob : PObj K → Prop} {Ω : (Nat → K) → Prop} {Sd : PObj K → List Int → List Int → Fl K → Prop}

/-- Any rounding, any schedule, any random streams: the result has `num_cores * Np_tracer` entries in every field, and block `t` of `Np_tracer`
particles is what a serial run gives with the stream of the worker that executed task `t`. The other workers have no influence: a worker's
generator is only moved by its own tasks. -/
theorem C52_blocks (hB : ∀ P, Ob P → Built A F P) {P : PObj K} {s : PState K} (h : Reach A F Ob Ω Sd P s) (hwalk : s.walk = none)
    {ω : Nat → Nat → K} {numIter : Int} {N : Nat} {xs ys : List Int} (hS : Sd P xs ys (.fin 0)) {sched : List Nat} (hω : ∀ w ∈ sched, Ω (ω w))
    {gen : Nat → Nat} {d : List (String × List (Hist K))}
    (hp : parallelRouting A F P s ω gen sched numIter (.int N) (ints xs) (ints ys) = .ok d) :
    1 ≤ numIter ∧ (∀ key, key ∈ keys d ↔ key ∈ ["xinds", "yinds", "travel_times"] ∨ OptVar P key) ∧
    (∀ key ∈ keys d, (entry d key).length = sched.length * N) ∧
    ∃ runs : List (Nat × Nat × WalkData K), runs.length = sched.length ∧ Chained gen sched runs ∧
      ∀ (t : Nat) w r, sched[t]? = some w → runs[t]? = some r → SerialWalk A F P s (ω w) r.1 r.2.1 N numIter.toNat xs ys r.2.2 ∧
        ∀ k, k < N → dictLists d (t * N + k) = r.2.2.lists k ∧ ∀ var, OptVar P var → dictOpt d var (t * N + k) = r.2.2.optList var k := by
  obtain ⟨hn, runs, blocks, e1, e2, e3, e4, rfl, e6⟩ := parallel_inv (fun P hP => (hB P hP).good) h hwalk hS hω hp
  have hbl : blocks.length = sched.length := by
    have := congrArg List.length e3
    simp at this
    omega
  refine ⟨hn, fun key => ?_, fun key hkey => ?_, runs, e1, e2, fun t w r hw hr => ⟨e6 t w r hw hr, fun k hk => ?_⟩⟩
  · rw [walkDict_ofRows, keys_dictOf, allKeys, List.mem_append, optVar_iff]
  · rw [walkDict_ofRows, keys_dictOf] at hkey
    rw [walkDict_ofRows, entry_dictOf hkey, List.length_map, flatten_size _ e4, hbl]
  · have hrt := congrArg (fun l => l[t]?) e3
    simp only [List.getElem?_map, hr, Option.map_some] at hrt
    cases hb : blocks[t]? with
    | none => rw [hb] at hrt; simp at hrt
    | some b =>
      rw [hb] at hrt
      simp only [Option.map_some, Option.some.injEq] at hrt
      have hrow := flatten_block blocks e4 hb hk
      refine ⟨?_, fun var hv => ?_⟩
      · rw [dictLists_ofRows, hrt]
        apply Option.ext
        intro l
        rw [lists_ofRows, lists_ofRows, hrow]
      · rw [dictOpt_ofRows P _ hv, hrt]
        apply Option.ext
        intro l
        rw [optList_ofRows, optList_ofRows, hrow]

/-- Every particle of the result is a complete walk: it starts at a seed at time 0, has at most `num_iter` further records, all its lists have the
same length, and consecutive positions are neighbours. -/
theorem C52_walks (hB : ∀ P, Ob P → Built A F P ∧ DefaultWalk P ∧ StepsNonzero A P) {P : PObj K} {s : PState K} (h : Reach A F Ob Ω Sd P s)
    (hwalk : s.walk = none) {ω : Nat → Nat → K} {numIter : Int} {N : Nat} {xs ys : List Int} (hS : Sd P xs ys (.fin 0)) {sched : List Nat}
    (hω : ∀ w ∈ sched, Ω (ω w)) {gen : Nat → Nat} {d : List (String × List (Hist K))}
    (hp : parallelRouting A F P s ω gen sched numIter (.int N) (ints xs) (ints ys) = .ok d) {i : Nat} (hi : i < sched.length * N) :
    ∃ x y t, dictLists d i = some (x, y, t) ∧ y.length = x.length ∧ t.length = x.length ∧
      (∀ var, OptVar P var → ∃ v, dictOpt d var i = some v ∧ v.length = x.length) ∧
      (∃ a ∈ xs, ∃ b ∈ ys, x[0]? = some a ∧ y[0]? = some b ∧ t[0]? = some (.fin 0)) ∧ (x.length : Int) ≤ numIter + 1 ∧
      ∀ (n : Nat) a a' b b', x[n]? = some a → x[n + 1]? = some a' → y[n]? = some b → y[n + 1]? = some b' → |a' - a| ≤ 1 ∧ |b' - b| ≤ 1 := by
  have hN : 0 < N := Nat.pos_of_ne_zero (by rintro rfl; simp at hi)
  obtain ⟨hn, -, -, runs, e1, -, e3⟩ := C52_blocks (fun P hP => (hB P hP).1) h hwalk hS hω hp
  have ht : i / N < sched.length := Nat.div_lt_of_lt_mul (by rwa [Nat.mul_comm])
  have hk : i % N < N := Nat.mod_lt _ hN
  have hdiv : i / N * N + i % N = i := by rw [Nat.mul_comm]; exact Nat.div_add_mod i N
  generalize i / N = t at ht hdiv
  generalize i % N = k at hk hdiv
  subst hdiv
  have hw := List.getElem?_eq_getElem ht
  have hr := List.getElem?_eq_getElem (show t < runs.length by omega)
  obtain ⟨⟨s1, s2, hg, hit, hw2, -⟩, e4⟩ := e3 t _ _ hw hr
  obtain ⟨e5, e6⟩ := e4 k hk
  have hω' : Ω (ω sched[t]) := hω _ (List.getElem_mem ht)
  have hr0 := Reach.reseed runs[t].1 h
  have hr1 : Reach A F Ob Ω Sd P s1 := .generate hr0 hω' (check_zero N xs ys) (by omega) hS hg
  have hr2 := hit.reach hω' hr1
  rw [generate_time0] at hg
  obtain ⟨m, sx, sy, p1, hm, hst, wd1, hw1, hl1, hseed⟩ := generate_new (by simp) (by simp [hwalk]) hg
  obtain ⟨x0, y0, hx0, hy0, hl0, -⟩ := hseed k hk
  simp only [count, held, hwalk, List.length_nil, Nat.zero_add] at hl0 hl1
  -- number of records
  have hcount : ∀ (n : Nat) (a b : PState K), Iterates A F P (ω sched[t]) n a b → Reach A F Ob Ω Sd P a → ∀ wa wb, a.walk = some wa → b.walk = some wb →
      ∀ x y t, wa.lists k = some (x, y, t) → ∃ x' y' t', wb.lists k = some (x', y', t') ∧ x <+: x' ∧ y <+: y' ∧ t <+: t' ∧ x'.length ≤ x.length + n := by
    intro n a b hab
    induction hab with
    | zero s =>
      intro _ wa wb ha hb x y t hx
      rw [ha] at hb
      cases hb
      exact ⟨x, y, t, hx, List.prefix_rfl, List.prefix_rfl, List.prefix_rfl, by omega⟩
    | succ hrun _ ih =>
      intro hra wa wb ha hb x y t hx
      obtain ⟨hret, hstep⟩ := C22_one_step (hra.mono fun P hP => (hB P hP).1) hrun ha
      rcases hstep k x y t hx with ⟨hsame, -⟩ | ⟨q, t1, hnew, -⟩
      · obtain ⟨x', y', t', h1, h2, h3, h4, h5⟩ := ih (.run hra hω' hrun) _ _ hret hb _ _ _ hsame
        exact ⟨x', y', t', h1, h2, h3, h4, by omega⟩
      · obtain ⟨x', y', t', h1, h2, h3, h4, h5⟩ := ih (.run hra hω' hrun) _ _ hret hb _ _ _ hnew
        refine ⟨x', y', t', h1, (List.prefix_append _ _).trans h2, (List.prefix_append _ _).trans h3, (List.prefix_append _ _).trans h4, ?_⟩
        simp at h5
        omega
  obtain ⟨x, y, tt, hl2, px, py, pt, hlen⟩ := hcount _ _ _ hit hr1 _ _ hw1 hw2 _ _ _ hl0
  obtain ⟨a1, -, -, -, halign⟩ := C15_aligned (hr2.mono fun P hP => (hB P hP).1) hw2
  have hks : k < s2.np := by
    rw [← a1]
    have := hl2
    unfold WalkData.lists at this
    simp only [Option.bind_eq_bind, Option.bind_eq_some_iff] at this
    obtain ⟨l, hl, -⟩ := this
    exact (List.getElem?_eq_some_iff.1 hl).1
  obtain ⟨x', y', t', hl3, -, b1, b2, b3⟩ := halign k hks
  rw [hl2] at hl3
  cases hl3
  have hfst : ∀ {α : Type} {a : α} {l : List α}, [a] <+: l → l[0]? = some a := by
    intro α a l h
    obtain ⟨r, rfl⟩ := h
    rfl
  obtain ⟨m1, m2⟩ := startIndices_mem A hst
  have hmem : x0 ∈ xs ∧ y0 ∈ ys := ⟨m1 _ (List.mem_of_getElem? hx0), m2 _ (List.mem_of_getElem? hy0)⟩
  refine ⟨x, y, tt, by rw [e5, hl2], b1, b2, fun var hv => ?_, ⟨x0, hmem.1, y0, hmem.2, hfst px, hfst py, hfst pt⟩, ?_, ?_⟩
  · obtain ⟨v, hv1, hv2⟩ := b3 var hv
    exact ⟨v, by rw [e6 var hv, hv1], hv2⟩
  · simp at hlen
    omega
  · intro n a a' b b' ha ha' hb hb'
    have hpos : ∀ n a b, x[n]? = some a → y[n]? = some b → runs[t].2.2.posAt k n = some (a, b) := by
      intro n a b ha hb
      unfold WalkData.posAt
      have := hl2
      unfold WalkData.lists at this
      simp only [Option.bind_eq_bind, Option.bind_eq_some_iff] at this
      obtain ⟨l1, h1, l2, h2, l3, h3, e⟩ := this
      simp only [pure, Option.some.injEq, Prod.mk.injEq] at e
      obtain ⟨rfl, rfl, rfl⟩ := e
      simp [h1, h2, ha, hb, pure]
    have := C14_connected (hr2.mono hB) hw2 (hpos n a b ha hb) (hpos (n + 1) a' b' ha' hb')
    exact this

/-- Draws in [0,1), enclosed grid, interior seeds, known tracked variables: parallel routing succeeds for every schedule. -/
theorem C52_succeeds {R C : Nat} {P : PObj K} {s : PState K} (h : Reach A F (Enclosed A F R C) Draws (InsideSeeds R C) P s) (hwalk : s.walk = none)
    (hv : ∀ var, OptVar P var → Trackable P var) {ω : Nat → Nat → K} {sched : List Nat} (hω : ∀ w ∈ sched, Draws (ω w)) (hs : sched ≠ [])
    {numIter : Int} (hn : 1 ≤ numIter) (N : Nat) {xs ys : List Int} (hnx : xs ≠ []) (hny : ys ≠ []) (hrx : A.rnd (xs.length : K) = xs.length)
    (hry : A.rnd (ys.length : K) = ys.length) (hxy : ∀ x ∈ xs, ∀ y ∈ ys, Inside R C (x, y)) (gen : Nat → Nat) :
    ∃ d, parallelRouting A F P s ω gen sched numIter (.int N) (ints xs) (ints ys) = .ok d := by
  have hO := h.obj
  have hon : ∀ x ∈ xs, ∀ y ∈ ys, OnGrid P x y := fun x hx y hy => by
    have := hxy x hx y hy
    unfold OnGrid
    unfold Inside at this
    rw [hO.rows, hO.cols]
    omega
  have hroute : ∀ (ω : Nat → K), Draws ω → ∀ (n : Nat) (s1 : PState K) (w : Option (WalkData K)),
      Reach A F (Enclosed A F R C) Draws (InsideSeeds R C) P s1 → s1.walk ≠ none → (n ≠ 0 ∨ w ≠ none) →
      ∃ w' s2, routeN A F P ω n s1 w = .ok (some w', s2) := by
    intro ω hω n
    induction n with
    | zero =>
      intro s1 w _ _ hnw
      obtain ⟨a, rfl⟩ := Option.ne_none_iff_exists'.1 (hnw.resolve_left (by simp))
      exact ⟨a, s1, rfl⟩
    | succ n ih =>
      intro s1 w hr1 hw1 _
      obtain ⟨res, hres⟩ := C17_no_crash hr1 hw1 hω none 10000 (Or.inl rfl)
      have hw2 : res.state.walk ≠ none := by
        obtain ⟨wd, hwd⟩ := Option.ne_none_iff_exists'.1 hw1
        rw [(C22_one_step (hr1.mono fun P hP => hP.built) hres hwd).1]
        simp
      obtain ⟨w', s2, h2⟩ := ih res.state (some res.returned) (.run hr1 hω hres) hw2 (Or.inr (by simp))
      exact ⟨w', s2, by simp only [routeN, hres, ok_bind, h2]⟩
  have htask : ∀ gen, True → ∀ w ∈ sched, ∃ b gen', parTask A F P s ω numIter (.int N) (ints xs) (ints ys) gen w = .ok (b, gen') ∧ True := by
    intro gen _ w hw
    obtain ⟨s1, hg⟩ := C31_succeeds hO.built hv (hω w hw) { s with world := { s.world with pos := gen w } } N hnx hny hrx hry hon (.fin 0) none
    have hw1 : s1.walk ≠ none := by
      obtain ⟨m, sx, sy, p1, -, -, wd1, hw1, -⟩ := generate_new (by simp) (by simp [hwalk]) hg
      rw [hw1]; simp
    rw [← generate_time0] at hg
    have hr1 : Reach A F (Enclosed A F R C) Draws (InsideSeeds R C) P s1 :=
      .generate (.reseed (gen w) h) (hω w hw) (check_zero N xs ys) (by omega) hxy hg
    obtain ⟨w', s2, h2⟩ := hroute (ω w) (hω w hw) numIter.toNat s1 none hr1 hw1 (Or.inl (by omega))
    exact ⟨w', fun v => if v = w then s2.world.pos else gen v, by simp only [parTask, runIter, hg, ok_bind, h2, pure_def], trivial⟩
  obtain ⟨wds, gen', hm⟩ := mapAcc_exists (fun _ => True) htask (s := gen) trivial
  obtain ⟨-, runs, blocks, e1, e2, rfl, -⟩ := tasks_inv (fun P hP => hP.built.good) h hwalk hxy hω hm
  have hb : blocks ≠ [] := by
    rintro rfl
    have : runs.length = 0 := by simpa using congrArg List.length e2
    exact hs (List.length_eq_zero_iff.1 (by omega))
  refine ⟨walkDict (ofRows (keysOf P) blocks.flatten), ?_⟩
  · unfold parallelRouting
    rw [if_neg hs, hm, ok_bind]
    simp only [List.map_map, Function.comp_def]
    exact combine_rows P hb

/-- `num_iter <= 0`: no walk data is ever assigned (UnboundLocalError), unless the seeding fails. -/
theorem C52_no_iterations {P : PObj K} {s : PState K} {ω : Nat → Nat → K} {w : Nat} {sched : List Nat} {numIter : Int} (hn : numIter ≤ 0)
    {gen : Nat → Nat} {np xs ys : PyVal K}
    (hg : ∃ s1, generateParticles A P (ω w) { s with world := { s.world with pos := gen w } } np xs ys (.int 0) (.str "random") none = .ok s1) :
    parallelRouting A F P s ω gen (w :: sched) numIter np xs ys = .error .unboundLocalError := by
  obtain ⟨s1, hg⟩ := hg
  have : numIter.toNat = 0 := by omega
  simp [parallelRouting, mapAcc, parTask, runIter, hg, this, routeN]

/-! ## C53 -/

/-- The property is false: with workers that inherit the generator of the parent process (fork) and execute one task each, every block of
particles is a copy of the first one. -/
theorem C53_fork_copies (hB : ∀ P, Ob P → Built A F P) {P : PObj K} {s : PState K} (h : Reach A F Ob Ω Sd P s) (hwalk : s.walk = none)
    {ω0 : Nat → K} (hω : Ω ω0) (p0 : Nat) {numIter : Int} {N : Nat} {xs ys : List Int} (hS : Sd P xs ys (.fin 0)) {sched : List Nat}
    (hnd : sched.Nodup) {d : List (String × List (Hist K))}
    (hp : parallelRouting A F P s (fun _ => ω0) (fun _ => p0) sched numIter (.int N) (ints xs) (ints ys) = .ok d) {t k : Nat}
    (ht : t < sched.length) (hk : k < N) :
    dictLists d (t * N + k) = dictLists d k ∧ ∀ var, OptVar P var → dictOpt d var (t * N + k) = dictOpt d var k := by
  obtain ⟨-, -, -, runs, e1, e2, e3⟩ := C52_blocks hB h hwalk hS (fun _ _ => hω) hp
  have hrun : ∀ t (ht : t < sched.length), SerialWalk A F P s ω0 p0 (runs[t]'(by omega)).2.1 N numIter.toNat xs ys (runs[t]'(by omega)).2.2 := by
    intro t ht
    have h1 := List.getElem?_eq_getElem ht
    have h2 := List.getElem?_eq_getElem (show t < runs.length by omega)
    have h3 := (e2 t _ _ h1 h2).1 fun t' ht' he => by
      rw [List.getElem?_eq_getElem (show t' < sched.length by omega), Option.some.injEq] at he
      have := (List.Nodup.getElem_inj_iff hnd).1 he
      omega
    have h4 := (e3 t _ _ h1 h2).1
    rwa [h3] at h4
  have h0 : 0 < sched.length := by omega
  have hw : ∀ t (ht : t < sched.length), sched[t]? = some sched[t] ∧ runs[t]? = some (runs[t]'(by omega)) := fun t ht =>
    ⟨List.getElem?_eq_getElem ht, List.getElem?_eq_getElem (by omega)⟩
  have eq := (hrun t ht).unique (hrun 0 h0)
  obtain ⟨a1, a2⟩ := (e3 t _ _ (hw t ht).1 (hw t ht).2).2 k hk
  obtain ⟨b1, b2⟩ := (e3 0 _ _ (hw 0 h0).1 (hw 0 h0).2).2 k hk
  simp only [Nat.zero_mul, Nat.zero_add] at b1 b2
  exact ⟨by rw [a1, b1, eq], fun var hv => by rw [a2 var hv, b2 var hv, eq]⟩

/-- Full statement: different tasks use different random numbers. True only for tasks executed one after the other by the same worker: the second one
continues in the stream where the first one stopped. -/
theorem C53_same_worker_partial (hB : ∀ P, Ob P → Built A F P) {P : PObj K} {s : PState K} (h : Reach A F Ob Ω Sd P s) (hwalk : s.walk = none)
    {ω : Nat → Nat → K} {numIter : Int} {N : Nat} {xs ys : List Int} (hS : Sd P xs ys (.fin 0)) {sched : List Nat} (hω : ∀ w ∈ sched, Ω (ω w))
    {gen : Nat → Nat} {d : List (String × List (Hist K))}
    (hp : parallelRouting A F P s ω gen sched numIter (.int N) (ints xs) (ints ys) = .ok d) {t t' w : Nat} (htt : t < t')
    (ht : sched[t]? = some w) (ht' : sched[t']? = some w) (hno : ∀ m, t < m → m < t' → sched[m]? ≠ some w) :
    ∃ p q r wd wd', SerialWalk A F P s (ω w) p q N numIter.toNat xs ys wd ∧ SerialWalk A F P s (ω w) q r N numIter.toNat xs ys wd' ∧
      ∀ k, k < N → dictLists d (t * N + k) = wd.lists k ∧ dictLists d (t' * N + k) = wd'.lists k := by
  obtain ⟨-, -, -, runs, e1, e2, e3⟩ := C52_blocks hB h hwalk hS hω hp
  have h1 := List.getElem?_eq_getElem (show t < runs.length by have := (List.getElem?_eq_some_iff.1 ht).1; omega)
  have h2 := List.getElem?_eq_getElem (show t' < runs.length by have := (List.getElem?_eq_some_iff.1 ht').1; omega)
  have h3 := (e2 t' w _ ht' h2).2 t _ htt ht h1 hno
  obtain ⟨a1, a2⟩ := e3 t w _ ht h1
  obtain ⟨b1, b2⟩ := e3 t' w _ ht' h2
  rw [h3] at b1
  exact ⟨_, _, _, _, _, a1, b1, fun k hk => ⟨(a2 k hk).1, (b2 k hk).1⟩⟩

end

/-! ## Examples -/

/-- Two streams of draws. -/
def twoStreams : Nat → Nat → ℚ := fun w n => if w = 0 then (if n * n % 7 < 2 then 1 / 2 else 1 / 5) else if n % 2 = 0 then 9 / 10 else 1 / 3

theorem twoStreams_draws (w : Nat) : Draws (twoStreams w) := by
  intro n
  unfold twoStreams
  split_ifs <;> norm_num

/-- `parallel_routing` on the sample object with tracked variables: two particles per task, two iterations. -/
def parDemo (ω : Nat → Nat → ℚ) (sched : List Nat) : Except PyErr (List (String × List (Hist ℚ))) :=
  parallelRouting Arith.exact Fun.toy (objOf chanFull) (initState Arith.exact Fun.toy (objOf chanFull) 0) ω (fun _ => 0) sched 2 (.int (2 : Nat))
    (ints [1, 2]) (ints [1, 2])

/-- Positions of the four particles, and the number of recorded region flags. -/
def parObs (d : List (String × List (Hist ℚ))) : List (Option (List Int × List Int) × Option Nat) :=
  (List.range 4).map fun i => ((dictLists d i).map fun l => (l.1, l.2.1), (dictOpt d "roi_flag" i).map List.length)

/-- C52: two workers with different streams; one particle of the second worker stops early. The object is freshly constructed. -/
example : (parDemo twoStreams [0, 1]).toOption.map parObs = some [(some ([1, 2, 3], [1, 1, 2]), some 3), (some ([1, 2, 3], [1, 1, 0]), some 3),
      (some ([2, 3], [2, 3]), some 2), (some ([1, 2, 3], [1, 1, 2]), some 3)] ∧
    Reach Arith.exact Fun.toy (Built Arith.exact Fun.toy) Draws AnySeed (objOf chanFull) (initState Arith.exact Fun.toy (objOf chanFull) 0) ∧
    (initState Arith.exact Fun.toy (objOf chanFull) 0).walk = none :=
  ⟨by decide +kernel, .new 0 chanFull_built, rfl⟩

theorem chanVars_trackable : ∀ var, OptVar (objOf chanVars) var → Trackable (objOf chanVars) var := by
  intro var h
  have : var ∈ ["depth", "u", "roi_flag"] := h.1
  simp only [List.mem_cons, List.not_mem_nil, or_false] at this
  rcases this with rfl | rfl | rfl
  · exact Or.inl ⟨_, rfl⟩
  · exact Or.inl ⟨_, rfl⟩
  · exact Or.inr ⟨rfl, _, rfl⟩

/-- C52: success on the enclosed sample grid. -/
example : ∃ d, parallelRouting Arith.exact Fun.toy (objOf chanVars) (initState Arith.exact Fun.toy (objOf chanVars) 0) twoStreams (fun _ => 0) [0, 1, 0]
    3 (.int (2 : Nat)) (ints [1, 2]) (ints [1, 2, 3]) = .ok d :=
  C52_succeeds (.new 0 chanVars_enclosed) rfl chanVars_trackable (fun w _ => twoStreams_draws w) (by simp) (by norm_num) 2 (by simp) (by simp) rfl rfl
    (fun x hx y hy => by
      simp at hx hy
      rcases hx with rfl | rfl <;> rcases hy with rfl | rfl | rfl <;> (unfold Inside; decide)) _

/-- C52: `num_iter = 0`. -/
example : errOf (parallelRouting Arith.exact Fun.toy (objOf chanFull) (initState Arith.exact Fun.toy (objOf chanFull) 0) twoStreams (fun _ => 0)
    [0, 1] 0 (.int (2 : Nat)) (ints [1, 2]) (ints [1, 2])) = some .unboundLocalError := by decide +kernel

/-- C53: inherited generators give two identical blocks; a single worker executing both tasks does not. -/
theorem C53_counterexample : (parDemo (fun _ => twoStreams 0) [0, 1]).toOption.map parObs =
      some [(some ([1, 2, 3], [1, 1, 2]), some 3), (some ([1, 2, 3], [1, 1, 0]), some 3),
        (some ([1, 2, 3], [1, 1, 2]), some 3), (some ([1, 2, 3], [1, 1, 0]), some 3)] ∧
    (parDemo (fun _ => twoStreams 0) [0, 0]).toOption.map parObs ≠ (parDemo (fun _ => twoStreams 0) [0, 1]).toOption.map parObs := by
  constructor
  · decide +kernel
  · decide +kernel

end Dorado
