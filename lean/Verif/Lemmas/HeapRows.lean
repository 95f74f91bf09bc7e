import Verif.Lemmas.HeapRun
import Verif.Lemmas.Records
import Verif.Lemmas.Hist

/-! Helper lemmas: histories of single particles in programs with shared walk data. -/

set_option linter.unusedSectionVars false

namespace Dorado

variable {K : Type} [Field K] [LinearOrder K] [IsStrictOrderedRing K] [FloorRing K] {A : Arith K} {F : Fun K A}

/-- History of the particle at an address. -/
def Heap.row (h : Heap K) (a : Nat) : Row K := { xs := h.xs a, ys := h.ys a, ts := h.ts a, os := fun k => h.vs k a }

/-- Rows with the same content as far as the variables `keys` are concerned. -/
structure RowEq (keys : List String) (r r' : Row K) : Prop where
  xs : r.xs = r'.xs
  ys : r.ys = r'.ys
  ts : r.ts = r'.ts
  os : ∀ k ∈ keys, r.os k = r'.os k

theorem read_refRows (h : Heap K) (keys : List String) (l : List Nat) : h.read (refRows keys l) = ofRows keys (l.map h.row) := by
  unfold Heap.read refRows ofRows dictOf Heap.row
  simp [Function.comp_def]

theorem ofRows_congr {keys : List String} {l : List Nat} {f g : Nat → Row K} (h : ∀ a ∈ l, RowEq keys (f a) (g a)) :
    ofRows keys (l.map f) = ofRows keys (l.map g) := by
  unfold ofRows
  simp only [List.map_map, WalkData.mk.injEq]
  refine ⟨List.map_congr_left fun a ha => (h a ha).xs, List.map_congr_left fun a ha => (h a ha).ys,
    List.map_congr_left fun a ha => (h a ha).ts, ?_⟩
  exact dictOf_congr fun k hk => List.map_congr_left fun a ha => (h a ha).os k hk

theorem dictOf_inj {β : Type} {ks : List String} {f g : String → β} (h : dictOf ks f = dictOf ks g) {k : String} (hk : k ∈ ks) : f k = g k := by
  have h1 := dictGet_dictOf ks f k
  rw [h, dictGet_dictOf, if_pos hk, if_pos hk] at h1
  injection h1 with h1
  exact h1.symm

theorem ofRows_get {keys : List String} {r1 r2 : List (Row K)} (h : ofRows keys r1 = ofRows keys r2) {i : Nat} {a b : Row K}
    (ha : r1[i]? = some a) (hb : r2[i]? = some b) : RowEq keys a b := by
  unfold ofRows at h
  simp only [WalkData.mk.injEq] at h
  obtain ⟨h1, h2, h3, h4⟩ := h
  have get : ∀ {α : Type} {f : Row K → α}, r1.map f = r2.map f → f a = f b := by
    intro α f hf
    have := congrArg (fun l => l[i]?) hf
    simpa [List.getElem?_map, ha, hb] using this
  exact ⟨get h1, get h2, get h3, fun k hk => get (f := fun r => r.os k) (dictOf_inj h4 hk)⟩

theorem refRows_prepend (keys : List String) (a b : List Nat) : prependRef (refRows keys a) (refRows keys b) = refRows keys (a ++ b) := by
  unfold prependRef refRows
  simp only [RefWalk.mk.injEq, true_and]
  have hg : ∀ k ∈ keys, dictGet (dictOf keys fun _ => a) k = some a := fun k hk => by rw [dictGet_dictOf, if_pos hk]
  generalize dictOf keys (fun _ => a) = d at hg
  unfold dictOf
  rw [List.map_map]
  apply List.map_congr_left
  intro k hk
  simp only [Function.comp]
  rw [hg k hk]

/-- Routing touches only the particles of the object. -/
theorem frame_app (w : RefWalk) (keys : List String) (l : List Nat) (hw : w = refRows keys l) :
    AppRel (K := K) w (fun h h' => h'.next = h.next ∧ ∀ a ∉ l, h'.row a = h.row a) := by
  subst hw
  refine ⟨fun h => ⟨rfl, fun a _ => rfl⟩, ?_, ?_⟩
  · rintro a b c ⟨h1, h2⟩ ⟨h3, h4⟩
    exact ⟨h3.trans h1, fun x hx => (h4 x hx).trans (h2 x hx)⟩
  · intro h ii pos t vals
    refine ⟨rfl, fun a ha => ?_⟩
    have key : ∀ {α : Type} (f : Nat → List α) (v : α), appendAt f l[ii]? v a = f a := by
      intro α f v
      cases hl : l[ii]? with
      | none => rfl
      | some b =>
        have : a ≠ b := fun hab => ha (hab ▸ List.mem_of_getElem? hl)
        simp [appendAt, this]
    have hx : (h.append (refRows keys l) ii pos t vals).xs a = h.xs a := key _ _
    have hy : (h.append (refRows keys l) ii pos t vals).ys a = h.ys a := key _ _
    have ht : (h.append (refRows keys l) ii pos t vals).ts a = h.ts a := key _ _
    have hv : ∀ k, (h.append (refRows keys l) ii pos t vals).vs k a = h.vs k a := by
      intro k
      show (match dictGet (dictOf keys fun _ => l) k, dictGet vals k with
        | some l, some v => appendAt (h.vs k) l[ii]? v
        | _, _ => h.vs k) a = h.vs k a
      rw [dictGet_dictOf]
      by_cases hk : k ∈ keys
      · rw [if_pos hk]
        cases dictGet vals k with
        | none => rfl
        | some v => exact key _ _
      · rw [if_neg hk]
    unfold Heap.row
    rw [hx, hy, ht]
    simp only [hv]

theorem alloc_row_old (h : Heap K) (keys : List String) (rows : List (Row K)) {a : Nat} (ha : a < h.next) :
    RowEq keys (h.row a) ((h.alloc (ofRows keys rows)).1.row a) := by
  refine ⟨(place_lt _ _ ha).symm, (place_lt _ _ ha).symm, (place_lt _ _ ha).symm, fun k hk => ?_⟩
  show h.vs k a = (match dictGet (dictOf keys fun k => rows.map fun r : Row K => r.os k) k with
       | some l => place h.next l (h.vs k)
       | none => h.vs k) a
  rw [dictGet_dictOf, if_pos hk]
  exact (place_lt _ _ ha).symm

theorem alloc_row_new (h : Heap K) (keys : List String) (rows : List (Row K)) {i : Nat} {r : Row K} (hr : rows[i]? = some r) :
    RowEq keys r ((h.alloc (ofRows keys rows)).1.row (h.next + i)) := by
  have g : ∀ {α : Type} (f : Row K → α), (rows.map f)[i]? = some (f r) := fun f => by rw [List.getElem?_map, hr]; rfl
  refine ⟨(place_add (g (·.xs))).symm, (place_add (g (·.ys))).symm, (place_add (g (·.ts))).symm, fun k hk => ?_⟩
  show r.os k = (match dictGet (dictOf keys fun k => rows.map fun r : Row K => r.os k) k with
       | some l => place h.next l (h.vs k)
       | none => h.vs k) (h.next + i)
  rw [dictGet_dictOf, if_pos hk]
  exact (place_add (g fun r => r.os k)).symm

section sys
variable {Ob : PObj K → Prop} {Ω : (Nat → K) → Prop} {Sd : PObj K → List Int → List Int → Fl K → Prop}

/-- What holds along every history of a program in which no object holds a particle twice: all dictionaries refer to complete particles, and
every particle satisfies `Q`. -/
structure RowsInv (A : Arith K) (F : Fun K A) (Ob : PObj K → Prop) (keys : List String) (Q : Row K → Prop) (S : Sys K) : Prop where
  inv : SysInv S
  ob : ∀ P s, (P, s) ∈ S.objs → Ob P
  pick : ∀ P s, (P, s) ∈ S.objs → PickEquiv A F P s.world.weight
  uni : ∀ P s w, (P, s) ∈ S.objs → s.walk = some w → w = refRows keys w.xinds
  held : ∀ d ∈ S.held, d = refRows keys d.xinds
  rows : ∀ a < S.heap.next, ∃ r, Q r ∧ RowEq keys r (S.heap.row a)

theorem RowEq.trans {keys : List String} {a b c : Row K} (h : RowEq keys a b) (h' : RowEq keys b c) : RowEq keys a c :=
  ⟨h.xs.trans h'.xs, h.ys.trans h'.ys, h.ts.trans h'.ts, fun k hk => (h.os k hk).trans (h'.os k hk)⟩

theorem preOpt_refRows {keys : List String} {o : Option RefWalk} (ho : ∀ w, o = some w → w = refRows keys w.xinds) (l : List Nat) :
    ∃ l', preOpt o (refRows keys l) = refRows keys l' := by
  cases o with
  | none => exact ⟨l, rfl⟩
  | some w =>
    refine ⟨w.xinds ++ l, ?_⟩
    show prependRef w _ = _
    conv_lhs => rw [ho w rfl]
    exact refRows_prepend _ _ _

theorem SysStep.rows (hG : ∀ P, Ob P → Good P) {keys : List String} (hk : ∀ P, Ob P → keysOf P = keys) {Q : Row K → Prop}
    (hseed : ∀ P xs ys t x y r, Ob P → Sd P xs ys t → x ∈ xs → y ∈ ys → SeedRow P (x, y) t r → Q r)
    (hstep : ∀ P ω r r', Ob P → Ω ω → Q r → RowStep A F P ω r r' → Q r')
    {a : Act} {S S' : Sys K} (h2 : NoTwice S) (hi : RowsInv A F Ob keys Q S) (hs : SysStep A F Ob Ω Sd a S S') : RowsInv A F Ob keys Q S' := by
  have hinv := (hs.inv hi.inv).1
  cases hs with
  | @new _ P pos hP =>
    refine ⟨hinv, ?_, ?_, ?_, hi.held, hi.rows⟩
    · intro P' s' hm
      rcases List.mem_append.1 hm with hm | hm
      · exact hi.ob _ _ hm
      · simp only [List.mem_singleton, Prod.mk.injEq] at hm
        obtain ⟨rfl, rfl⟩ := hm
        exact hP
    · intro P' s' hm
      rcases List.mem_append.1 hm with hm | hm
      · exact hi.pick _ _ hm
      · simp only [List.mem_singleton, Prod.mk.injEq] at hm
        obtain ⟨rfl, rfl⟩ := hm
        exact PickEquiv.fresh A F _
    · intro P' s' w hm hw
      rcases List.mem_append.1 hm with hm | hm
      · exact hi.uni _ _ _ hm hw
      · simp only [List.mem_singleton, Prod.mk.injEq] at hm
        obtain ⟨rfl, rfl⟩ := hm
        cases hw
  | @generate _ i P s prev ω np xs ys time method n x y t m h' s' hi' hω hprev hc hn hsd hg =>
    have hm0 := List.mem_of_getElem? hi'
    obtain ⟨rows, pos', -, rfl, hworld, hwalk, hnp, hrl, hnew⟩ := generateRef_inv hc hn hg
    have hkP := hk P (hi.ob _ _ hm0)
    rw [hkP] at hwalk hinv ⊢
    refine ⟨hinv, ?_, ?_, ?_, hi.held, ?_⟩
    · intro P' s'' hm
      rcases mem_set_cases hm with hm | hm
      · rw [Prod.mk.injEq] at hm
        obtain ⟨rfl, rfl⟩ := hm
        exact hi.ob _ _ hm0
      · exact hi.ob _ _ hm
    · intro P' s'' hm
      rcases mem_set_cases hm with hm | hm
      · rw [Prod.mk.injEq] at hm
        obtain ⟨rfl, rfl⟩ := hm
        rw [hworld]
        exact hi.pick _ _ hm0
      · exact hi.pick _ _ hm
    · intro P' s'' w hm hw
      rcases mem_set_cases hm with hm | hm
      · rw [Prod.mk.injEq] at hm
        obtain ⟨rfl, rfl⟩ := hm
        rw [hwalk, Option.some.injEq] at hw
        obtain ⟨l1, hl1⟩ := preOpt_refRows (o := s.walk) (keys := keys) (fun w hw => hi.uni _ _ _ hm0 hw) (List.range' S.heap.next rows.length)
        rw [hl1] at hw
        obtain ⟨l2, hl2⟩ := preOpt_refRows (o := prev) (keys := keys) (fun w hw => hi.held _ (hprev w hw)) l1
        rw [hl2] at hw
        subst hw
        rfl
      · exact hi.uni _ _ _ hm hw
    · intro a ha
      have ha' : a < S.heap.next + rows.length := by rw [← alloc_next S.heap keys rows]; exact ha
      rcases Nat.lt_or_ge a S.heap.next with hlt | hge
      · obtain ⟨r, hr, hre⟩ := hi.rows a hlt
        exact ⟨r, hr, hre.trans (alloc_row_old _ _ _ hlt)⟩
      · obtain ⟨i', rfl⟩ := Nat.exists_eq_add_of_le hge
        have hir : rows[i']? = some (rows[i']'(by omega)) := List.getElem?_eq_getElem _
        obtain ⟨b, hb, c, hc', hsr⟩ := hnew _ (List.mem_of_getElem? hir)
        exact ⟨_, hseed P _ _ _ _ _ _ (hi.ob _ _ hm0) hsd hb hc' hsr, alloc_row_new _ _ _ hir⟩
  | @run _ i P s ω target maxIter r hi' hω hr =>
    have hm0 := List.mem_of_getElem? hi'
    have hO := hi.ob _ _ hm0
    have hkP := hk P hO
    cases hw : s.walk with
    | none => unfold runRef at hr; rw [hw] at hr; cases hr
    | some w =>
      have hwu := hi.uni _ _ _ hm0 hw
      have hnd : w.xinds.Nodup := h2 _ _ _ hm0 hw
      have hnp := (hi.inv.objs _ _ hm0).np w hw
      have hbd := (hi.inv.objs _ _ hm0).bound w hw
      set l := w.xinds with hl
      have hopt : w.opt = dictOf (keysOf P) fun _ => l := by rw [hwu, hkP]; rfl
      obtain ⟨hret, hwalk, ⟨hnext, hframe⟩, -⟩ := runRef_rel (frame_app w keys l hwu) hw hopt hr
      have hsep : ∀ w', s.walk = some w' → Sep (keysOf P) (fun _ => l) w' := by
        intro w' hw'
        rw [hw, Option.some.injEq] at hw'
        subst hw'
        refine ⟨hnd, ?_, ?_, hopt, fun _ _ => hnd⟩
        · rw [hwu]; exact hnd
        · rw [hwu]; exact hnd
      have hrun := run_read (A := A) (F := F) (P := P) (ω := ω) (h := S.heap) (target := target) (maxIter := maxIter) hsep
      rw [hr] at hrun
      have hrun' : runIteration A F P ω (s.read S.heap) target maxIter = .ok r.read := hrun
      have hex : ∀ a, ∃ q, a < S.heap.next → Q q ∧ RowEq keys q (S.heap.row a) := by
        intro a
        by_cases ha : a < S.heap.next
        · obtain ⟨q, hq⟩ := hi.rows a ha
          exact ⟨q, fun _ => hq⟩
        · exact ⟨S.heap.row a, fun h => absurd h ha⟩
      choose g hg using hex
      have hread : (s.read S.heap).walk = some (ofRows (keysOf P) (l.map g)) := by
        show s.walk.map S.heap.read = _
        rw [hw, Option.map_some, hwu, read_refRows, hkP]
        rw [ofRows_congr (f := g) (g := S.heap.row) fun a ha => (hg a (hbd.base a ha)).2]
      obtain ⟨hpick, rows', hrl, hret', -, -, hout⟩ := runIteration_inv A F (hG P hO) (hi.pick _ _ hm0) hread
        (Or.inl (by rw [List.length_map]; exact hnp)) hrun'
      have hret2 : ofRows keys rows' = ofRows keys (l.map r.heap.row) := by
        rw [← read_refRows, ← hwu]
        have : r.read.returned = r.heap.read w := by show r.heap.read r.returned = _; rw [hret]
        rw [← this, hret', hkP]
      refine ⟨hinv, ?_, ?_, ?_, ?_, ?_⟩
      · intro P' s'' hm
        rcases mem_set_cases hm with hm | hm
        · rw [Prod.mk.injEq] at hm
          obtain ⟨rfl, rfl⟩ := hm
          exact hO
        · exact hi.ob _ _ hm
      · intro P' s'' hm
        rcases mem_set_cases hm with hm | hm
        · rw [Prod.mk.injEq] at hm
          obtain ⟨rfl, rfl⟩ := hm
          exact hpick
        · exact hi.pick _ _ hm
      · intro P' s'' w' hm hw'
        rcases mem_set_cases hm with hm | hm
        · rw [Prod.mk.injEq] at hm
          obtain ⟨rfl, rfl⟩ := hm
          rw [hwalk, Option.some.injEq] at hw'
          subst hw'
          exact hwu
        · exact hi.uni _ _ _ hm hw'
      · intro d hd
        rcases List.mem_append.1 hd with hd | hd
        · exact hi.held d hd
        · simp only [List.mem_singleton] at hd
          subst hd
          rw [hret]
          exact hwu
      · intro a ha
        have ha' : a < S.heap.next := by rw [← hnext]; exact ha
        by_cases hal : a ∈ l
        · obtain ⟨j, hj⟩ := List.getElem?_of_mem hal
          have hgj : (l.map g)[j]? = some (g a) := by rw [List.getElem?_map, hj]; rfl
          obtain ⟨r', hr', hst⟩ := hout.steps A F hgj
          refine ⟨r', hst.inv A F (fun r r' hq hs => hstep P ω r r' hO hω hq hs) (hg a ha').1, ?_⟩
          exact ofRows_get hret2 hr' (by rw [List.getElem?_map, hj]; rfl)
        · obtain ⟨q, hq, hqe⟩ := hi.rows a ha'
          refine ⟨q, hq, ?_⟩
          show RowEq keys q (r.heap.row a)
          rw [hframe a hal]
          exact hqe
  | @look _ i P s w hi' hw =>
    refine ⟨hinv, hi.ob, hi.pick, hi.uni, ?_, hi.rows⟩
    intro d hd
    rcases List.mem_append.1 hd with hd | hd
    · exact hi.held d hd
    · simp only [List.mem_singleton] at hd
      subst hd
      exact hi.uni _ _ _ (List.mem_of_getElem? hi') hw
  | @clear _ i P s hi' =>
    have hm0 := List.mem_of_getElem? hi'
    refine ⟨hinv, ?_, ?_, ?_, hi.held, hi.rows⟩
    · intro P' s'' hm
      rcases mem_set_cases hm with hm | hm
      · rw [Prod.mk.injEq] at hm
        obtain ⟨rfl, rfl⟩ := hm
        exact hi.ob _ _ hm0
      · exact hi.ob _ _ hm
    · intro P' s'' hm
      rcases mem_set_cases hm with hm | hm
      · rw [Prod.mk.injEq] at hm
        obtain ⟨rfl, rfl⟩ := hm
        exact (hi.pick _ _ hm0 :)
      · exact hi.pick _ _ hm
    · intro P' s'' w hm hw
      rcases mem_set_cases hm with hm | hm
      · rw [Prod.mk.injEq] at hm
        obtain ⟨rfl, rfl⟩ := hm
        cases hw
      · exact hi.uni _ _ _ hm hw
  | @reseed _ i P s pos hi' =>
    have hm0 := List.mem_of_getElem? hi'
    refine ⟨hinv, ?_, ?_, ?_, hi.held, hi.rows⟩
    · intro P' s'' hm
      rcases mem_set_cases hm with hm | hm
      · rw [Prod.mk.injEq] at hm
        obtain ⟨rfl, rfl⟩ := hm
        exact hi.ob _ _ hm0
      · exact hi.ob _ _ hm
    · intro P' s'' hm
      rcases mem_set_cases hm with hm | hm
      · rw [Prod.mk.injEq] at hm
        obtain ⟨rfl, rfl⟩ := hm
        exact (hi.pick _ _ hm0 :)
      · exact hi.pick _ _ hm
    · intro P' s'' w hm hw
      rcases mem_set_cases hm with hm | hm
      · rw [Prod.mk.injEq] at hm
        obtain ⟨rfl, rfl⟩ := hm
        exact hi.uni _ _ _ hm0 hw
      · exact hi.uni _ _ _ hm hw

theorem SysReach.noTwice {S : Sys K} (h : SysReach A F NoTwice Ob Ω Sd S) : NoTwice S := by
  cases h with
  | start => intro P s w hm; simp [Sys.start] at hm
  | step _ _ hΦ => exact hΦ

theorem SysReach.rows (hG : ∀ P, Ob P → Good P) {keys : List String} (hk : ∀ P, Ob P → keysOf P = keys) {Q : Row K → Prop}
    (hseed : ∀ P xs ys t x y r, Ob P → Sd P xs ys t → x ∈ xs → y ∈ ys → SeedRow P (x, y) t r → Q r)
    (hstep : ∀ P ω r r', Ob P → Ω ω → Q r → RowStep A F P ω r r' → Q r')
    {S : Sys K} (h : SysReach A F NoTwice Ob Ω Sd S) : RowsInv A F Ob keys Q S := by
  induction h with
  | start => exact ⟨SysInv.start, by simp [Sys.start], by simp [Sys.start], by simp [Sys.start], by simp [Sys.start], by simp [Sys.start, Heap.empty]⟩
  | step h hs _ ih => exact hs.rows hG hk hseed hstep h.noTwice ih

theorem RowsInv.read {keys : List String} {Q : Row K → Prop} {S : Sys K} (h : RowsInv A F Ob keys Q S) {d : RefWalk} (hd : S.Sees d) :
    ∃ rows, S.heap.read d = ofRows keys rows ∧ ∀ r ∈ rows, Q r := by
  have hu : d = refRows keys d.xinds ∧ ∀ a ∈ d.xinds, a < S.heap.next := by
    rcases hd with hd | ⟨P, s, hm, hw⟩
    · exact ⟨h.held d hd, (h.inv.held d hd).2.base⟩
    · exact ⟨h.uni _ _ _ hm hw, ((h.inv.objs _ _ hm).bound _ hw).base⟩
  have hex : ∀ a, ∃ q, a < S.heap.next → Q q ∧ RowEq keys q (S.heap.row a) := by
    intro a
    by_cases ha : a < S.heap.next
    · obtain ⟨q, hq⟩ := h.rows a ha
      exact ⟨q, fun _ => hq⟩
    · exact ⟨S.heap.row a, fun h => absurd h ha⟩
  choose g hg using hex
  refine ⟨d.xinds.map g, ?_, ?_⟩
  · conv_lhs => rw [hu.1]
    rw [read_refRows]
    exact (ofRows_congr fun a ha => (hg a (hu.2 a ha)).2).symm
  · intro r hr
    obtain ⟨a, ha, rfl⟩ := List.mem_map.1 hr
    exact (hg a (hu.2 a ha)).1

/-- Record invariants hold for every dictionary, however particles are shared. -/
theorem SysReach.walk (hG : ∀ P, Ob P → Good P) {vars : List String} (hk : ∀ P, Ob P → P.particleVars = vars)
    {I : Int × Int → Fl K → Prop} {R : Int × Int → Fl K → Int × Int → Fl K → Prop}
    (hseed : ∀ P xs ys t x y, Ob P → Sd P xs ys t → x ∈ xs → y ∈ ys → I (x, y) t)
    (hstep : ∀ P ω p t q t', Ob P → Ω ω → I p t → StepOf A F P ω p t q t' → q ≠ p → I q t' ∧ R p t q t')
    {S : Sys K} (h : SysReach A F NoTwice Ob Ω Sd S) {d : RefWalk} (hd : S.Sees d) :
    ∃ keys rows, S.heap.read d = ofRows keys rows ∧ ∀ r ∈ rows, RowInv I R r := by
  have := SysReach.rows hG (keys := (vars.filter fun v => !isBaseVar v).foldl addKey []) (fun P hP => by unfold keysOf; rw [hk P hP])
    (Q := RowInv I R) (fun P xs ys t x y r hO hS hx hy hr => seedRow_inv hr (hseed P xs ys t x y hO hS hx hy))
    (fun P ω r r' hO hΩ hQ hs => rowStep_inv (fun p t q t' => hstep P ω p t q t' hO hΩ) hQ hs) h
  obtain ⟨rows, h1, h2⟩ := this.read hd
  exact ⟨_, rows, h1, h2⟩

/-- The same for the values of the tracked variables. -/
theorem SysReach.vars (hG : ∀ P, Ob P → Good P) {keys : List String} (hk : ∀ P, Ob P → keysOf P = keys) {V : String → Int × Int → Val K → Prop}
    (hV : ∀ P, Ob P → ∀ key ∈ keys, ∀ q v, VarAt P key q v → V key q v)
    {S : Sys K} (h : SysReach A F NoTwice Ob Ω Sd S) {d : RefWalk} (hd : S.Sees d) :
    ∃ rows, S.heap.read d = ofRows keys rows ∧ ∀ r ∈ rows, VarInv V keys r := by
  have := SysReach.rows hG hk (Q := VarInv V keys)
    (fun P xs ys t x y r hO hS hx hy hr => by
      have := seedRow_vars (V := V) (fun key hkey v hv => hV P hO key (by rw [← hk P hO]; exact hkey) _ v hv) hr
      rwa [hk P hO] at this)
    (fun P ω r r' hO hΩ hQ hs => by
      rw [← hk P hO] at hQ ⊢
      exact rowStep_vars (fun key hkey q v hv => hV P hO key (by rw [← hk P hO]; exact hkey) q v hv) hQ hs) h
  exact this.read hd

/-! ## Programs in which all objects track the same variables -/

/-- Every dictionary refers to complete particles. -/
structure UniInv (keys : List String) (S : Sys K) : Prop where
  objs : ∀ P s w, (P, s) ∈ S.objs → s.walk = some w → w = refRows keys w.xinds
  held : ∀ d ∈ S.held, d = refRows keys d.xinds
  ob : ∀ P s, (P, s) ∈ S.objs → keysOf P = keys

theorem SysStep.uni {keys : List String} (hk : ∀ P, Ob P → keysOf P = keys) {a : Act} {S S' : Sys K} (hi : UniInv keys S)
    (hs : SysStep A F Ob Ω Sd a S S') : UniInv keys S' := by
  cases hs with
  | @new _ P pos hP =>
    refine ⟨?_, hi.held, ?_⟩
    · intro P' s' w hm hw
      rcases List.mem_append.1 hm with hm | hm
      · exact hi.objs _ _ _ hm hw
      · simp only [List.mem_singleton, Prod.mk.injEq] at hm
        obtain ⟨rfl, rfl⟩ := hm
        cases hw
    · intro P' s' hm
      rcases List.mem_append.1 hm with hm | hm
      · exact hi.ob _ _ hm
      · simp only [List.mem_singleton, Prod.mk.injEq] at hm
        obtain ⟨rfl, rfl⟩ := hm
        exact hk _ hP
  | @generate _ i P s prev ω np xs ys time method n x y t m h' s' hi' hω hprev hc hn hsd hg =>
    have hm0 := List.mem_of_getElem? hi'
    obtain ⟨rows, pos', -, rfl, hworld, hwalk, hnp, hrl, hnew⟩ := generateRef_inv hc hn hg
    rw [hi.ob _ _ hm0] at hwalk
    refine ⟨?_, hi.held, ?_⟩
    · intro P' s'' w hm hw
      rcases mem_set_cases hm with hm | hm
      · rw [Prod.mk.injEq] at hm
        obtain ⟨rfl, rfl⟩ := hm
        rw [hwalk, Option.some.injEq] at hw
        obtain ⟨l1, hl1⟩ := preOpt_refRows (o := s.walk) (keys := keys) (fun w hw => hi.objs _ _ _ hm0 hw) (List.range' S.heap.next rows.length)
        rw [hl1] at hw
        obtain ⟨l2, hl2⟩ := preOpt_refRows (o := prev) (keys := keys) (fun w hw => hi.held _ (hprev w hw)) l1
        rw [hl2] at hw
        subst hw
        rfl
      · exact hi.objs _ _ _ hm hw
    · intro P' s'' hm
      rcases mem_set_cases hm with hm | hm
      · rw [Prod.mk.injEq] at hm
        obtain ⟨rfl, rfl⟩ := hm
        exact hi.ob _ _ hm0
      · exact hi.ob _ _ hm
  | @run _ i P s ω target maxIter r hi' hω hr =>
    have hm0 := List.mem_of_getElem? hi'
    cases hw : s.walk with
    | none => unfold runRef at hr; rw [hw] at hr; cases hr
    | some w =>
      have hwu := hi.objs _ _ _ hm0 hw
      have hopt : w.opt = dictOf (keysOf P) fun _ => w.xinds := by
        conv_lhs => rw [hwu]
        rw [hi.ob _ _ hm0]
        rfl
      obtain ⟨hret, hwalk, -⟩ := runRef_same hw hopt hr
      refine ⟨?_, ?_, ?_⟩
      · intro P' s'' w' hm hw'
        rcases mem_set_cases hm with hm | hm
        · rw [Prod.mk.injEq] at hm
          obtain ⟨rfl, rfl⟩ := hm
          rw [hwalk, Option.some.injEq] at hw'
          subst hw'
          exact hwu
        · exact hi.objs _ _ _ hm hw'
      · intro d hd
        rcases List.mem_append.1 hd with hd | hd
        · exact hi.held d hd
        · simp only [List.mem_singleton] at hd
          subst hd
          rw [hret]
          exact hwu
      · intro P' s'' hm
        rcases mem_set_cases hm with hm | hm
        · rw [Prod.mk.injEq] at hm
          obtain ⟨rfl, rfl⟩ := hm
          exact hi.ob _ _ hm0
        · exact hi.ob _ _ hm
  | @look _ i P s w hi' hw =>
    refine ⟨hi.objs, ?_, hi.ob⟩
    intro d hd
    rcases List.mem_append.1 hd with hd | hd
    · exact hi.held d hd
    · simp only [List.mem_singleton] at hd
      subst hd
      exact hi.objs _ _ _ (List.mem_of_getElem? hi') hw
  | @clear _ i P s hi' =>
    refine ⟨?_, hi.held, ?_⟩
    · intro P' s'' w hm hw
      rcases mem_set_cases hm with hm | hm
      · rw [Prod.mk.injEq] at hm
        obtain ⟨rfl, rfl⟩ := hm
        cases hw
      · exact hi.objs _ _ _ hm hw
    · intro P' s'' hm
      rcases mem_set_cases hm with hm | hm
      · rw [Prod.mk.injEq] at hm
        obtain ⟨rfl, rfl⟩ := hm
        exact hi.ob _ _ (List.mem_of_getElem? hi')
      · exact hi.ob _ _ hm
  | @reseed _ i P s pos hi' =>
    have hm0 := List.mem_of_getElem? hi'
    refine ⟨?_, hi.held, ?_⟩
    · intro P' s'' w hm hw
      rcases mem_set_cases hm with hm | hm
      · rw [Prod.mk.injEq] at hm
        obtain ⟨rfl, rfl⟩ := hm
        exact hi.objs _ _ _ hm0 hw
      · exact hi.objs _ _ _ hm hw
    · intro P' s'' hm
      rcases mem_set_cases hm with hm | hm
      · rw [Prod.mk.injEq] at hm
        obtain ⟨rfl, rfl⟩ := hm
        exact hi.ob _ _ hm0
      · exact hi.ob _ _ hm

theorem UniInv.start (keys : List String) : UniInv keys (Sys.start : Sys K) := ⟨by simp [Sys.start], by simp [Sys.start], by simp [Sys.start]⟩

theorem SysRun.uni {keys : List String} (hk : ∀ P, Ob P → keysOf P = keys) {as : List Act} {S S' : Sys K} (hi : UniInv keys S)
    (h : SysRun A F Ob Ω Sd as S S') : UniInv keys S' := by
  induction h with
  | refl => exact hi
  | tail _ hs ih => exact hs.uni hk (ih hi)

theorem Contains.showsVar {h : Heap K} {keys : List String} {w d : RefWalk} {k : Nat} (hw : w = refRows keys w.xinds) (hd : d = refRows keys d.xinds)
    (hc : Contains w d k) (var : String) : ShowsVar h d w var k := by
  obtain ⟨pre, post, hx, rfl⟩ := hc
  intro l hl
  rw [hd, read_refRows] at hl
  have hl' : dictGet (dictOf keys fun k => (d.xinds.map h.row).map fun r => r.os k) var = some l := hl
  rw [dictGet_dictOf] at hl'
  by_cases hv : var ∈ keys
  · rw [if_pos hv, Option.some.injEq] at hl'
    refine ⟨w.xinds.map fun a => h.vs var a, ?_, ?_⟩
    · conv_lhs => rw [hw, read_refRows]
      show dictGet (dictOf keys fun k => (w.xinds.map h.row).map fun r => r.os k) var = _
      rw [dictGet_dictOf, if_pos hv, List.map_map]
      rfl
    · intro j hj
      subst hl'
      rw [List.map_map] at hj ⊢
      rw [hx, List.map_append, List.map_append, List.append_assoc, List.getElem?_append_right (by simp)]
      simp only [List.length_map, Nat.add_sub_cancel_left]
      rw [List.getElem?_append_left (by simpa using hj)]
      rfl
  · rw [if_neg hv] at hl'
    cases hl'

/-- Only `generate_particles` and `clear_walk_data` change which lists an object refers to. -/
theorem SysStep.fixed {a : Act} {S S' : Sys K} (hi : SysInv S) (hs : SysStep A F Ob Ω Sd a S S') {i : Nat} {P : PObj K} {s : RefState K}
    {w : RefWalk} (hc : a ≠ .clear i) (hg : ∀ p, a ≠ .generate i p) (ho : S.objs[i]? = some (P, s)) (hw : s.walk = some w) :
    ∃ s', S'.objs[i]? = some (P, s') ∧ s'.walk = some w := by
  have hlt : i < S.objs.length := (List.getElem?_eq_some_iff.1 ho).1
  cases hs with
  | @new _ P' pos hP => exact ⟨s, by simp only; rw [List.getElem?_append_left hlt]; exact ho, hw⟩
  | @generate _ j P' s' prev ω np xs ys time method n x y t m h' s'' hi' hω hprev hcc hn hsd hgg =>
    refine ⟨s, ?_, hw⟩
    have : j ≠ i := fun h => hg prev (by rw [h])
    simp only
    rw [List.getElem?_set_ne this]
    exact ho
  | @run _ j P' s' ω target maxIter r hj hω hr =>
    by_cases hji : j = i
    · subst hji
      rw [ho, Option.some.injEq, Prod.mk.injEq] at hj
      obtain ⟨rfl, rfl⟩ := hj
      obtain ⟨f, hf⟩ := (hi.objs _ _ (List.mem_of_getElem? ho)).keys w hw
      obtain ⟨-, hwalk, -⟩ := runRef_same hw hf hr
      exact ⟨r.state, by simp only; rw [List.getElem?_set_self hlt], hwalk⟩
    · exact ⟨s, by simp only; rw [List.getElem?_set_ne hji]; exact ho, hw⟩
  | look => exact ⟨s, ho, hw⟩
  | @clear _ j P' s' hj =>
    have : j ≠ i := fun h => hc (by rw [h])
    exact ⟨s, by simp only; rw [List.getElem?_set_ne this]; exact ho, hw⟩
  | @reseed _ j P' s' pos hj =>
    by_cases hji : j = i
    · subst hji
      rw [ho, Option.some.injEq, Prod.mk.injEq] at hj
      obtain ⟨rfl, rfl⟩ := hj
      exact ⟨{ s with world := { s.world with pos := pos } }, by simp only; rw [List.getElem?_set_self hlt], hw⟩
    · exact ⟨s, by simp only; rw [List.getElem?_set_ne hji]; exact ho, hw⟩

theorem SysRun.fixed {as : List Act} {S S' : Sys K} (hi : SysInv S) (hs : SysRun A F Ob Ω Sd as S S') {i : Nat} {P : PObj K} {s : RefState K}
    {w : RefWalk} (hc : Act.clear i ∉ as) (hg : ∀ p, Act.generate i p ∉ as) (ho : S.objs[i]? = some (P, s)) (hw : s.walk = some w) :
    ∃ s', S'.objs[i]? = some (P, s') ∧ s'.walk = some w := by
  induction hs with
  | refl => exact ⟨s, ho, hw⟩
  | tail h1 h2 ih =>
    simp only [List.mem_append, not_or, List.mem_singleton] at hc hg
    obtain ⟨s', ho', hw'⟩ := ih hi hc.1 (fun p => (hg p).1) ho
    exact h2.fixed (h1.inv hi).1 (fun h => hc.2 h.symm) (fun p h => (hg p).2 h.symm) ho' hw'

end sys

end Dorado
