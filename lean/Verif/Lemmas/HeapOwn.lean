import Verif.Lemmas.HeapRows

/-! Helper lemmas: programs whose objects do not share particles are programs with walk data by value. -/

set_option linter.unusedSectionVars false

namespace Dorado

variable {K : Type} [Field K] [LinearOrder K] [IsStrictOrderedRing K] [FloorRing K] {A : Arith K} {F : Fun K A}

theorem WalkData.ext' {a b : WalkData K} (h1 : a.xinds = b.xinds) (h2 : a.yinds = b.yinds) (h3 : a.times = b.times) (h4 : a.opt = b.opt) :
    a = b := by
  cases a
  cases b
  simp only at h1 h2 h3 h4
  rw [h1, h2, h3, h4]

theorem dictGet_map {β γ : Type} (d : List (String × β)) (f : String → β → γ) (k : String) :
    dictGet (d.map fun e => (e.1, f e.1 e.2)) k = (dictGet d k).map (f k) := by
  unfold dictGet
  induction d with
  | nil => rfl
  | cons e d ih =>
    by_cases h : e.1 = k
    · subst h; simp
    · have hb : (e.1 == k) = false := by simpa using h
      simp only [List.map_cons, List.find?_cons, hb]
      exact ih

theorem read_prepend (h : Heap K) (a b : RefWalk) : h.read (prependRef a b) = prependWalk (h.read a) (h.read b) := by
  apply WalkData.ext'
  · exact List.map_append
  · exact List.map_append
  · exact List.map_append
  · show (b.opt.map _).map _ = (b.opt.map _).map _
    rw [List.map_map, List.map_map]
    apply List.map_congr_left
    intro e he
    simp only [Function.comp]
    have : dictGet (h.read a).opt e.1 = (dictGet a.opt e.1).map fun l => l.map (h.vs e.1) :=
      dictGet_map a.opt (fun k l => l.map (h.vs k)) e.1
    rw [this]
    cases dictGet a.opt e.1 with
    | none => rfl
    | some l => simp

theorem read_alloc (h : Heap K) (keys : List String) (rows : List (Row K)) :
    (h.alloc (ofRows keys rows)).1.read (refRows keys (List.range' h.next rows.length)) = ofRows keys rows := by
  have hl : ∀ {α : Type} (f : Row K → List α) (g : Nat → List α),
      (List.range' h.next rows.length).map (place h.next (rows.map f) g) = rows.map f := by
    intro α f g
    have := map_place h.next (rows.map f) g
    rwa [List.length_map] at this
  apply WalkData.ext'
  · exact hl _ _
  · exact hl _ _
  · exact hl _ _
  · rw [read_opt (ks := keys) (f := fun _ => List.range' h.next rows.length) _ rfl]
    apply dictOf_congr
    intro k hk
    have : (h.alloc (ofRows keys rows)).1.vs k = place h.next (rows.map fun r => r.os k) (h.vs k) := by
      show (match dictGet (dictOf keys fun k => rows.map fun r : Row K => r.os k) k with
       | some l => place h.next l (h.vs k)
       | none => h.vs k) = _
      rw [dictGet_dictOf, if_pos hk]
    rw [this]
    exact hl _ _

theorem read_old (h : Heap K) (w0 : WalkData K) {w : RefWalk} (hw : Lock w) (hb : Bound w h.next) : (h.alloc w0).1.read w = h.read w := by
  have hl : ∀ {α : Type} (l : List Nat) (r : List (List α)) (g : Nat → List α), (∀ a ∈ l, a < h.next) →
      l.map (place h.next r g) = l.map g := by
    intro α l r g hl
    exact List.map_congr_left fun a ha => place_lt _ _ (hl a ha)
  apply WalkData.ext'
  · exact hl _ _ _ hb.base
  · exact hl _ _ _ (by rw [hw.1]; exact hb.base)
  · exact hl _ _ _ (by rw [hw.2]; exact hb.base)
  · apply List.map_congr_left
    intro e he
    simp only [Prod.mk.injEq, true_and]
    show e.2.map (match dictGet w0.opt e.1 with
       | some l => place h.next l (h.vs e.1)
       | none => h.vs e.1) = _
    cases dictGet w0.opt e.1 with
    | none => rfl
    | some l => exact hl _ _ _ (hb.opt e he)

/-- Walk data prepended when present. -/
def preVal (o : Option (WalkData K)) (d : WalkData K) : WalkData K :=
  match o with
  | some old => prependWalk old d
  | none => d

/-- `generate_particles` by reference is `generate_particles` by value. -/
theorem gen_read {P : PObj K} {ω : Nat → K} {h h' : Heap K} {s s' : RefState K} {np xs ys time method : PyVal K}
    {n : Int} {x y : List Int} {t : Fl K} {m : Method} {prev : Option RefWalk}
    (hs : ∀ w, s.walk = some w → Lock w ∧ Bound w h.next) (hp : ∀ w, prev = some w → Lock w ∧ Bound w h.next)
    (hc : genInputCheck np xs ys time method = .ok (n, x, y, t, m)) (hn : 0 ≤ n)
    (hg : generateRef A P ω h s np xs ys time method prev = .ok (h', s')) :
    generateParticles A P ω (s.read h) np xs ys time method (prev.map h.read) = .ok (s'.read h') := by
  obtain ⟨rows, pos', hnew, rfl, hworld, hwalk, hnp, -, -⟩ := generateRef_inv hc hn hg
  unfold generateParticles
  rw [hc]
  simp only [ok_bind]
  unfold generateCore
  have hw : (s.read h).world.pos = s.world.pos := rfl
  rw [hw, hnew]
  simp only [ok_bind]
  set h1 := (h.alloc (ofRows (keysOf P) rows)).1 with hh1
  set r0 := refRows (keysOf P) (List.range' h.next rows.length) with hr0
  have e0 : h1.read r0 = ofRows (keysOf P) rows := read_alloc _ _ _
  have e1 : preVal (s.read h).walk (ofRows (keysOf P) rows) = h1.read (preOpt s.walk r0) := by
    show preVal (s.walk.map h.read) _ = _
    cases hsw : s.walk with
    | none => exact e0.symm
    | some w =>
      show prependWalk (h.read w) _ = h1.read (prependRef w r0)
      rw [read_prepend, e0, hh1, read_old h _ (hs w hsw).1 (hs w hsw).2]
  have e2 : preVal (prev.map h.read) (h1.read (preOpt s.walk r0)) = h1.read (preOpt prev (preOpt s.walk r0)) := by
    cases prev with
    | none => rfl
    | some w =>
      show prependWalk (h.read w) _ = h1.read (prependRef w _)
      rw [read_prepend]
      congr 1
      exact (read_old h _ (hp w rfl).1 (hp w rfl).2).symm
  change Except.ok (PState.mk _ (preVal (prev.map h.read) (preVal (s.read h).walk (ofRows (keysOf P) rows))).xinds.length
    (some (preVal (prev.map h.read) (preVal (s.read h).walk (ofRows (keysOf P) rows))))) = _
  rw [e1, e2]
  show Except.ok _ = Except.ok _
  congr 1
  unfold RefState.read
  rw [hworld, hwalk, hnp]
  simp [Heap.read]

section own
variable {Ob : PObj K → Prop} {Ω : (Nat → K) → Prop} {Sd : PObj K → List Int → List Int → Fl K → Prop}

/-- No particle is referred to twice by the objects of a program, and their states are reachable by value. -/
structure OwnInv (A : Arith K) (F : Fun K A) (Ob : PObj K → Prop) (Ω : (Nat → K) → Prop) (Sd : PObj K → List Int → List Int → Fl K → Prop)
    (S : Sys K) : Prop where
  inv : SysInv S
  uni : ∀ P s w, (P, s) ∈ S.objs → s.walk = some w → w = refRows (keysOf P) w.xinds
  nodup : ∀ P s w, (P, s) ∈ S.objs → s.walk = some w → w.xinds.Nodup
  disj : ∀ (i j : Nat) P s w P' s' w', i ≠ j → S.objs[i]? = some (P, s) → S.objs[j]? = some (P', s') → s.walk = some w → s'.walk = some w' →
    w.xinds.Disjoint w'.xinds
  reach : ∀ P s, (P, s) ∈ S.objs → Reach A F Ob Ω Sd P (s.read S.heap)

theorem read_congr {P : PObj K} {h h' : Heap K} {s : RefState K} (hu : ∀ w, s.walk = some w → w = refRows (keysOf P) w.xinds)
    (hr : ∀ w, s.walk = some w → ∀ a ∈ w.xinds, RowEq (keysOf P) (h'.row a) (h.row a)) : s.read h' = s.read h := by
  unfold RefState.read
  cases hw : s.walk with
  | none => rfl
  | some w =>
    simp only [Option.map_some, PState.mk.injEq, Option.some.injEq, true_and]
    rw [hu w hw, read_refRows, read_refRows]
    exact ofRows_congr fun a ha => hr w hw a ha

theorem alloc_row_eq (h : Heap K) (w : WalkData K) {a : Nat} (ha : a < h.next) : (h.alloc w).1.row a = h.row a := by
  unfold Heap.row
  have hx : (h.alloc w).1.xs a = h.xs a := place_lt _ _ ha
  have hy : (h.alloc w).1.ys a = h.ys a := place_lt _ _ ha
  have ht : (h.alloc w).1.ts a = h.ts a := place_lt _ _ ha
  have hv : ∀ k, (h.alloc w).1.vs k a = h.vs k a := by
    intro k
    show (match dictGet w.opt k with
       | some l => place h.next l (h.vs k)
       | none => h.vs k) a = _
    cases dictGet w.opt k with
    | none => rfl
    | some l => exact place_lt _ _ ha
  rw [hx, hy, ht]
  simp only [hv]

theorem OwnInv.put {S S' : Sys K} {i : Nat} {P : PObj K} {s s' : RefState K} (hi : OwnInv A F Ob Ω Sd S) (hinv : SysInv S')
    (hobjs : S'.objs = S.objs.set i (P, s')) (hget : S.objs[i]? = some (P, s))
    (hw : ∀ w, s'.walk = some w → w = refRows (keysOf P) w.xinds ∧ w.xinds.Nodup ∧
      ∀ (j : Nat) P' s'' w', j ≠ i → S.objs[j]? = some (P', s'') → s''.walk = some w' → w.xinds.Disjoint w'.xinds)
    (hframe : ∀ (j : Nat) P' s'' w', j ≠ i → S.objs[j]? = some (P', s'') → s''.walk = some w' → ∀ a ∈ w'.xinds, S'.heap.row a = S.heap.row a)
    (hreach : Reach A F Ob Ω Sd P (s'.read S'.heap)) : OwnInv A F Ob Ω Sd S' := by
  have hlt : i < S.objs.length := (List.getElem?_eq_some_iff.1 hget).1
  have hcase : ∀ (j : Nat) P' s'', S'.objs[j]? = some (P', s'') → (j = i ∧ P' = P ∧ s'' = s') ∨ (j ≠ i ∧ S.objs[j]? = some (P', s'')) := by
    intro j P' s'' hj
    rw [hobjs, List.getElem?_set] at hj
    by_cases hij : i = j
    · rw [if_pos hij, if_pos hlt, Option.some.injEq, Prod.mk.injEq] at hj
      exact Or.inl ⟨hij.symm, hj.1.symm, hj.2.symm⟩
    · rw [if_neg hij] at hj
      exact Or.inr ⟨fun h => hij h.symm, hj⟩
  refine ⟨hinv, ?_, ?_, ?_, ?_⟩
  · intro P' s'' w hm hw'
    obtain ⟨j, hj⟩ := List.getElem?_of_mem hm
    rcases hcase j _ _ hj with ⟨-, rfl, rfl⟩ | ⟨-, h⟩
    · exact (hw w hw').1
    · exact hi.uni _ _ _ (List.mem_of_getElem? h) hw'
  · intro P' s'' w hm hw'
    obtain ⟨j, hj⟩ := List.getElem?_of_mem hm
    rcases hcase j _ _ hj with ⟨-, rfl, rfl⟩ | ⟨-, h⟩
    · exact (hw w hw').2.1
    · exact hi.nodup _ _ _ (List.mem_of_getElem? h) hw'
  · intro j k P1 s1 w1 P2 s2 w2 hjk h1 h2 hw1 hw2
    rcases hcase j _ _ h1 with ⟨rfl, rfl, rfl⟩ | ⟨hj, h1⟩
    · rcases hcase k _ _ h2 with ⟨rfl, -, -⟩ | ⟨hk, h2⟩
      · exact absurd rfl hjk
      · exact (hw w1 hw1).2.2 k _ _ _ hk h2 hw2
    · rcases hcase k _ _ h2 with ⟨rfl, rfl, rfl⟩ | ⟨hk, h2⟩
      · exact ((hw w2 hw2).2.2 j _ _ _ hj h1 hw1).symm
      · exact hi.disj j k _ _ _ _ _ _ hjk h1 h2 hw1 hw2
  · intro P' s'' hm
    obtain ⟨j, hj⟩ := List.getElem?_of_mem hm
    rcases hcase j _ _ hj with ⟨-, rfl, rfl⟩ | ⟨hj', h⟩
    · exact hreach
    · have hm' := List.mem_of_getElem? h
      rw [read_congr (h := S.heap) (fun w hw => hi.uni _ _ _ hm' hw)]
      · exact hi.reach _ _ hm'
      · intro w hw a ha
        rw [hframe j _ _ _ hj' h hw a ha]
        exact ⟨rfl, rfl, rfl, fun _ _ => rfl⟩

theorem preOpt_xinds (o : Option RefWalk) (w : RefWalk) : (preOpt o w).xinds = (match o with | some d => d.xinds | none => []) ++ w.xinds := by
  cases o <;> rfl

theorem OwnInv.gen {S : Sys K} {i : Nat} {P : PObj K} {s s' : RefState K} {prev : Option RefWalk} {ω : Nat → K} {np xs ys time method : PyVal K}
    {n : Int} {x y : List Int} {t : Fl K} {m : Method} {h' : Heap K} (hi : OwnInv A F Ob Ω Sd S) (hget : S.objs[i]? = some (P, s)) (hω : Ω ω)
    (hprev : ∀ d, prev = some d → d = refRows (keysOf P) d.xinds ∧ d.xinds.Nodup ∧ Bound d S.heap.next ∧
      (∀ (j : Nat) P' s'' w', S.objs[j]? = some (P', s'') → s''.walk = some w' → d.xinds.Disjoint w'.xinds) ∧
      ∃ P' s0, Reach A F Ob Ω Sd P' s0 ∧ s0.walk = some (S.heap.read d) ∧ P'.particleVars = P.particleVars)
    (hc : genInputCheck np xs ys time method = .ok (n, x, y, t, m)) (hn : 0 ≤ n) (hs : Sd P x y t)
    (hg : generateRef A P ω S.heap s np xs ys time method prev = .ok (h', s'))
    (hinv : SysInv { S with heap := h', objs := S.objs.set i (P, s') }) :
    OwnInv A F Ob Ω Sd { S with heap := h', objs := S.objs.set i (P, s') } := by
  have hm0 := List.mem_of_getElem? hget
  have hread := gen_read (A := A) (P := P) (ω := ω) (h := S.heap) (s := s) (prev := prev)
    (fun w hw => ⟨(hi.inv.objs _ _ hm0).lock w hw, (hi.inv.objs _ _ hm0).bound w hw⟩)
    (fun d hd => ⟨by rw [(hprev d hd).1]; exact ⟨rfl, rfl⟩, (hprev d hd).2.2.1⟩) hc hn hg
  have hreach : Reach A F Ob Ω Sd P (s'.read h') := by
    cases hpv : prev with
    | none => rw [hpv] at hread; exact .generate (hi.reach _ _ hm0) hω hc hn hs hread
    | some d =>
      obtain ⟨-, -, -, -, P', s0, hr0, hs0, hv⟩ := hprev d hpv
      rw [hpv] at hread
      exact .continue (hi.reach _ _ hm0) hr0 hs0 hv hω hc hn hs hread
  obtain ⟨rows, pos', -, rfl, hworld, hwalk, hnp, hrl, hnew⟩ := generateRef_inv hc hn hg
  refine hi.put (s' := s') hinv rfl hget ?_ ?_ hreach
  · intro w hw
    rw [hwalk, Option.some.injEq] at hw
    subst hw
    obtain ⟨l1, hl1⟩ := preOpt_refRows (o := s.walk) (keys := keysOf P) (fun w hw => hi.uni _ _ _ hm0 hw) (List.range' S.heap.next rows.length)
    obtain ⟨l2, hl2⟩ := preOpt_refRows (o := prev) (keys := keysOf P) (fun w hw => (hprev w hw).1) l1
    refine ⟨by rw [hl1, hl2]; rfl, ?_, ?_⟩
    · rw [preOpt_xinds, preOpt_xinds]
      have hlate : ∀ a ∈ (refRows (keysOf P) (List.range' S.heap.next rows.length)).xinds, S.heap.next ≤ a := by
        intro a ha
        exact (List.mem_range'_1.1 ha).1
      rw [List.nodup_append', List.nodup_append']
      refine ⟨?_, ⟨?_, List.nodup_range', ?_⟩, ?_⟩
      · cases hpv : prev with
        | none => exact List.nodup_nil
        | some d => exact (hprev d hpv).2.1
      · cases hsw : s.walk with
        | none => exact List.nodup_nil
        | some w => exact hi.nodup _ _ _ hm0 hsw
      · cases hsw : s.walk with
        | none => exact List.disjoint_nil_left _
        | some w =>
          intro a ha hb
          have := ((hi.inv.objs _ _ hm0).bound w hsw).base a ha
          have := hlate a hb
          omega
      · cases hpv : prev with
        | none => exact List.disjoint_nil_left _
        | some d =>
          intro a ha hb
          rcases List.mem_append.1 hb with hb | hb
          · cases hsw : s.walk with
            | none => rw [hsw] at hb; cases hb
            | some w =>
              rw [hsw] at hb
              exact (hprev d hpv).2.2.2.1 i _ _ _ hget hsw ha hb
          · have := (hprev d hpv).2.2.1.base a ha
            have := hlate a hb
            omega
    · intro j P' s'' w' hji hj hw' a ha hb
      have hbd := ((hi.inv.objs _ _ (List.mem_of_getElem? hj)).bound w' hw').base a hb
      rw [preOpt_xinds, preOpt_xinds] at ha
      rcases List.mem_append.1 ha with ha | ha
      · cases hpv : prev with
        | none => rw [hpv] at ha; cases ha
        | some d =>
          rw [hpv] at ha
          exact (hprev d hpv).2.2.2.1 j _ _ _ hj hw' ha hb
      · rcases List.mem_append.1 ha with ha | ha
        · cases hsw : s.walk with
          | none => rw [hsw] at ha; cases ha
          | some w =>
            rw [hsw] at ha
            exact hi.disj j i _ _ _ _ _ _ hji hj hget hw' hsw hb ha
        · have := (List.mem_range'_1.1 ha).1
          omega
  · intro j P' s'' w' hji hj hw' a ha
    exact alloc_row_eq _ _ (((hi.inv.objs _ _ (List.mem_of_getElem? hj)).bound w' hw').base a ha)

theorem OwnInv.clear {S : Sys K} {i : Nat} {P : PObj K} {s : RefState K} (hi : OwnInv A F Ob Ω Sd S) (hget : S.objs[i]? = some (P, s)) :
    OwnInv A F Ob Ω Sd { S with objs := S.objs.set i (P, s.clear) } := by
  have hinv := (SysStep.inv (A := A) (F := F) (Ob := Ob) (Ω := Ω) (Sd := Sd) hi.inv (.clear hget)).1
  refine hi.put hinv rfl hget ?_ ?_ (.clear (hi.reach _ _ (List.mem_of_getElem? hget)))
  · intro w hw; cases hw
  · intros; rfl

theorem OwnInv.step {S S' : Sys K} {a : Act} (hi : OwnInv A F Ob Ω Sd S) (hs : SysStep A F Ob Ω Sd a S S') (ha : ∀ i d, a ≠ .generate i (some d)) :
    OwnInv A F Ob Ω Sd S' := by
  have hinv := (hs.inv hi.inv).1
  cases hs with
  | @new _ P pos hP =>
    have hcase : ∀ (j : Nat) P' s'', (S.objs ++ [(P, { world := (initState A F P pos).world, np := 0, walk := none })])[j]? = some (P', s'') →
        (P' = P ∧ s'' = { world := (initState A F P pos).world, np := 0, walk := none }) ∨ S.objs[j]? = some (P', s'') := by
      intro j P' s'' hj
      rcases Nat.lt_or_ge j S.objs.length with hlt | hge
      · rw [List.getElem?_append_left hlt] at hj
        exact Or.inr hj
      · rw [List.getElem?_append_right hge] at hj
        have := List.mem_of_getElem? hj
        rw [List.mem_singleton, Prod.mk.injEq] at this
        exact Or.inl this
    refine ⟨hinv, ?_, ?_, ?_, ?_⟩
    · intro P' s'' w hm hw
      obtain ⟨j, hj⟩ := List.getElem?_of_mem hm
      rcases hcase j _ _ hj with ⟨rfl, rfl⟩ | h
      · cases hw
      · exact hi.uni _ _ _ (List.mem_of_getElem? h) hw
    · intro P' s'' w hm hw
      obtain ⟨j, hj⟩ := List.getElem?_of_mem hm
      rcases hcase j _ _ hj with ⟨rfl, rfl⟩ | h
      · cases hw
      · exact hi.nodup _ _ _ (List.mem_of_getElem? h) hw
    · intro j k P1 s1 w1 P2 s2 w2 hjk h1 h2 hw1 hw2
      rcases hcase j _ _ h1 with ⟨rfl, rfl⟩ | h1
      · cases hw1
      · rcases hcase k _ _ h2 with ⟨rfl, rfl⟩ | h2
        · cases hw2
        · exact hi.disj j k _ _ _ _ _ _ hjk h1 h2 hw1 hw2
    · intro P' s'' hm
      obtain ⟨j, hj⟩ := List.getElem?_of_mem hm
      rcases hcase j _ _ hj with ⟨rfl, rfl⟩ | h
      · exact .new pos hP
      · exact hi.reach _ _ (List.mem_of_getElem? h)
  | @generate _ i P s prev ω np xs ys time method n x y t m h' s' hi' hω hprev hc hn hsd hg =>
    refine hi.gen hi' hω ?_ hc hn hsd hg hinv
    intro d hd
    exact absurd (by rw [hd]) (ha i d)
  | @run _ i P s ω target maxIter r hi' hω hr =>
    have hm0 := List.mem_of_getElem? hi'
    cases hw : s.walk with
    | none => unfold runRef at hr; rw [hw] at hr; cases hr
    | some w =>
      have hwu := hi.uni _ _ _ hm0 hw
      have hnd := hi.nodup _ _ _ hm0 hw
      have hopt : w.opt = dictOf (keysOf P) fun _ => w.xinds := by
        conv_lhs => rw [hwu]
        rfl
      obtain ⟨hret, hwalk, ⟨hnext, hframe⟩, -⟩ := runRef_rel (frame_app w (keysOf P) w.xinds hwu) hw hopt hr
      have hsep : ∀ w', s.walk = some w' → Sep (keysOf P) (fun _ => w.xinds) w' := by
        intro w' hw'
        rw [hw, Option.some.injEq] at hw'
        subst hw'
        refine ⟨hnd, ?_, ?_, hopt, fun _ _ => hnd⟩
        · rw [hwu]; exact hnd
        · rw [hwu]; exact hnd
      have hrun := run_read (A := A) (F := F) (P := P) (ω := ω) (h := S.heap) (target := target) (maxIter := maxIter) hsep
      rw [hr] at hrun
      have hrun' : runIteration A F P ω (s.read S.heap) target maxIter = .ok r.read := hrun
      refine hi.put hinv rfl hi' ?_ ?_ (.run (hi.reach _ _ hm0) hω hrun')
      · intro w' hw'
        rw [hwalk, Option.some.injEq] at hw'
        subst hw'
        exact ⟨hwu, hnd, fun j P' s'' w' hji hj hw' => hi.disj i j _ _ _ _ _ _ (fun h => hji h.symm) hi' hj hw hw'⟩
      · intro j P' s'' w' hji hj hw' a haw
        exact hframe a fun haw' => hi.disj i j _ _ _ _ _ _ (fun h => hji h.symm) hi' hj hw hw' haw' haw
  | @look _ i P s w hi' hw => exact ⟨hinv, hi.uni, hi.nodup, hi.disj, hi.reach⟩
  | @clear _ i P s hi' => exact hi.clear hi'
  | @reseed _ i P s pos hi' =>
    have hm0 := List.mem_of_getElem? hi'
    refine hi.put hinv rfl hi' ?_ ?_ (.reseed pos (hi.reach _ _ hm0))
    · intro w hw
      exact ⟨hi.uni _ _ _ hm0 hw, hi.nodup _ _ _ hm0 hw, fun j P' s'' w' hji hj hw' => hi.disj i j _ _ _ _ _ _ (fun h => hji h.symm) hi' hj hw hw'⟩
    · intros; rfl

theorem OwnInv.handover {S S1 S2 : Sys K} {i j : Nat} {P' : PObj K} {s' : RefState K} {d : RefWalk} (hi : OwnInv A F Ob Ω Sd S) (hij : i ≠ j)
    (hj : S.objs[j]? = some (P', s')) (hd : s'.walk = some d) (hv : ∀ P s, S.objs[i]? = some (P, s) → P'.particleVars = P.particleVars)
    (h1 : SysStep A F Ob Ω Sd (.generate i (some d)) S S1) (h2 : SysStep A F Ob Ω Sd (.clear j) S1 S2) : OwnInv A F Ob Ω Sd S2 := by
  have hinv := (h2.inv (h1.inv hi.inv).1).1
  cases h1 with
  | @generate _ _ P s prev ω np xs ys time method n x y t m h' s1 hi' hω hprev hc hn hsd hg =>
    cases h2 with
    | @clear _ _ P2 s2 hj2 =>
      have hj3 : S.objs[j]? = some (P2, s2) := by
        have := hj2
        simp only at this
        rwa [List.getElem?_set_ne hij] at this
      rw [hj, Option.some.injEq, Prod.mk.injEq] at hj3
      obtain ⟨rfl, rfl⟩ := hj3
      have hcl := hi.clear hj
      have hset : (S.objs.set i (P, s1)).set j (P', s'.clear) = (S.objs.set j (P', s'.clear)).set i (P, s1) := List.set_comm _ _ hij
      simp only [hset] at hinv ⊢
      have hm0 := List.mem_of_getElem? hj
      have hk : keysOf P' = keysOf P := by unfold keysOf; rw [hv _ _ hi']
      have hi2 : (S.objs.set j (P', s'.clear))[i]? = some (P, s) := by
        rw [List.getElem?_set_ne (fun h => hij h.symm)]
        exact hi'
      refine hcl.gen (S := { S with objs := S.objs.set j (P', s'.clear) }) hi2 hω ?_ hc hn hsd hg hinv
      intro d' hd'
      rw [Option.some.injEq] at hd'
      subst hd'
      refine ⟨hk ▸ hi.uni _ _ _ hm0 hd, hi.nodup _ _ _ hm0 hd, (hi.inv.objs _ _ hm0).bound _ hd, ?_, P', s'.read S.heap, hi.reach _ _ hm0, ?_, hv _ _ hi'⟩
      · intro k P3 s3 w3 hk3 hw3
        simp only at hk3
        by_cases hkj : k = j
        · subst hkj
          rw [List.getElem?_set_self (List.getElem?_eq_some_iff.1 hj).1, Option.some.injEq, Prod.mk.injEq] at hk3
          obtain ⟨rfl, rfl⟩ := hk3
          cases hw3
        · rw [List.getElem?_set_ne (fun h => hkj h.symm)] at hk3
          exact hi.disj j k _ _ _ _ _ _ (fun h => hkj h.symm) hj hk3 hd hw3
      · show s'.walk.map S.heap.read = _
        rw [hd]
        rfl

theorem OwnReach.inv {S : Sys K} (h : OwnReach A F Ob Ω Sd S) : OwnInv A F Ob Ω Sd S := by
  induction h with
  | start => exact ⟨SysInv.start, by simp [Sys.start], by simp [Sys.start], by simp [Sys.start], by simp [Sys.start]⟩
  | step _ hs ha ih => exact ih.step hs ha
  | handover _ hij hj hd hv h1 h2 ih => exact ih.handover hij hj hd hv h1 h2

end own

end Dorado
