import Verif.Lemmas.HeapRows

/-! Helper lemmas: what holds in programs that share walk data in any way, including particles held twice by one object. -/

set_option linter.unusedSectionVars false

namespace Dorado

variable {K : Type} [Field K] [LinearOrder K] [IsStrictOrderedRing K] [FloorRing K] {A : Arith K} {F : Fun K A}

/-- Every particle satisfies `Q`. -/
def GoodHeap (keys : List String) (Q : Row K → Prop) (h : Heap K) : Prop := ∀ a < h.next, ∃ r, Q r ∧ RowEq keys r (h.row a)

/-- `Q` survives a record obtained by a step from any earlier record. -/
structure Grows (A : Arith K) (F : Fun K A) (P : PObj K) (ω : Nat → K) (Q : Row K → Prop) : Prop where
  al : ∀ r, Q r → r.aligned
  grow : ∀ r n p t q t' v, Q r → r.recAt n p t → StepOf A F P ω p t q t' → q ≠ p → (∀ key ∈ keysOf P, VarAt P key q (v key)) →
    Q (r.append q t' v)

theorem RowEq.record {keys : List String} {r r' : Row K} (h : RowEq keys r r') {n : Nat} {p : Int × Int} {t : Fl K} (hr : r'.recAt n p t) :
    r.recAt n p t := by
  unfold Row.recAt at hr ⊢
  rw [h.xs, h.ys, h.ts]
  exact hr

theorem prefix_get {α : Type} {l m : List α} (h : l <+: m) {n : Nat} {a : α} (ha : l[n]? = some a) : m[n]? = some a := by
  obtain ⟨t, rfl⟩ := h
  rw [List.getElem?_append_left (List.getElem?_eq_some_iff.1 ha).1]
  exact ha

theorem HLe.record {h h' : Heap K} (hl : HLe h h') {a : Nat} (ha : a < h.next) {n : Nat} {p : Int × Int} {t : Fl K} (hr : (h.row a).recAt n p t) :
    (h'.row a).recAt n p t :=
  ⟨prefix_get (hl.xs a ha) hr.1, prefix_get (hl.ys a ha) hr.2.1, prefix_get (hl.ts a ha) hr.2.2⟩

theorem append_row (h : Heap K) (keys : List String) {l : List Nat} {ii a : Nat} (hl : l[ii]? = some a) (q : Int × Int) (t : Fl K) (v : String → Val K) :
    RowEq keys ((h.row a).append q t v) ((h.append (refRows keys l) ii q t (dictOf keys v)).row a) := by
  have key : ∀ {α : Type} (f : Nat → List α) (u : α), appendAt f l[ii]? u a = f a ++ [u] := by
    intro α f u
    rw [hl]
    simp [appendAt]
  refine ⟨(key _ _).symm, (key _ _).symm, (key _ _).symm, fun k hk => ?_⟩
  show h.vs k a ++ [v k] = (match dictGet (dictOf keys fun _ => l) k, dictGet (dictOf keys v) k with
        | some l, some v => appendAt (h.vs k) l[ii]? v
        | _, _ => h.vs k) a
  rw [dictGet_dictOf, dictGet_dictOf, if_pos hk, if_pos hk]
  exact (key _ _).symm

theorem RowEq.append {keys : List String} {r r' : Row K} (h : RowEq keys r r') (q : Int × Int) (t : Fl K) (v : String → Val K) :
    RowEq keys (r.append q t v) (r'.append q t v) := by
  refine ⟨?_, ?_, ?_, fun k hk => ?_⟩
  · show r.xs ++ _ = r'.xs ++ _; rw [h.xs]
  · show r.ys ++ _ = r'.ys ++ _; rw [h.ys]
  · show r.ts ++ _ = r'.ts ++ _; rw [h.ts]
  · show r.os k ++ _ = r'.os k ++ _; rw [h.os k hk]

section run
variable {P : PObj K} {ω : Nat → K} {Q : Row K → Prop}

theorem append_good (hQ : Grows A F P ω Q) {h : Heap K} {l : List Nat} {ii a n : Nat} (hl : l[ii]? = some a) (ha : a < h.next)
    (hg : GoodHeap (keysOf P) Q h) {p q : Int × Int} {t t' : Fl K} {v : String → Val K} (hr : (h.row a).recAt n p t) (hs : StepOf A F P ω p t q t')
    (hne : q ≠ p) (hv : ∀ key ∈ keysOf P, VarAt P key q (v key)) :
    GoodHeap (keysOf P) Q (h.append (refRows (keysOf P) l) ii q t' (dictOf (keysOf P) v)) := by
  intro b hb
  by_cases hba : b = a
  · subst hba
    obtain ⟨r, h1, h2⟩ := hg b ha
    exact ⟨_, hQ.grow r n p t q t' v h1 (h2.record hr) hs hne hv, (h2.append q t' v).trans (append_row h _ hl q t' v)⟩
  · obtain ⟨r, h1, h2⟩ := hg b hb
    refine ⟨r, h1, ?_⟩
    have key : ∀ {α : Type} (f : Nat → List α) (u : α), appendAt f l[ii]? u b = f b := by
      intro α f u
      rw [hl]
      simp [appendAt, hba]
    refine ⟨h2.xs.trans (key _ _).symm, h2.ys.trans (key _ _).symm, h2.ts.trans (key _ _).symm, fun k hk => ?_⟩
    refine (h2.os k hk).trans ?_
    show h.vs k b = (match dictGet (dictOf (keysOf P) fun _ => l) k, dictGet (dictOf (keysOf P) v) k with
          | some l, some v => appendAt (h.vs k) l[ii]? v
          | _, _ => h.vs k) b
    rw [dictGet_dictOf, dictGet_dictOf, if_pos hk, if_pos hk]
    exact (key _ _).symm

theorem storeRef_good (hQ : Grows A F P ω Q) {l : List Nat} {starts news : List (Int × Int)} {st times : List (Fl K)} {upd : List (String × List (Val K))}
    (hstep : ∀ (i : Nat) (p : Int × Int) (t : Fl K), starts[i]? = some p → st[i]? = some t →
      ∃ q t', news[i]? = some q ∧ times[i]? = some t' ∧ StepOf A F P ω p t q t')
    (hupd : ∀ (var : String) (l : List (Val K)) (i : Nat) (q : Int × Int), dictGet upd var = some l → news[i]? = some q → ∃ v, l[i]? = some v ∧ VarAt P var q v)
    {is : List Nat} {h h' : Heap K} (hg : GoodHeap (keysOf P) Q h) (hl : ∀ a ∈ l, a < h.next)
    (hrec : ∀ ii ∈ is, ∃ a n p t, l[ii]? = some a ∧ starts[ii]? = some p ∧ st[ii]? = some t ∧ (h.row a).recAt n p t)
    (he : storeRef starts news times upd (keysOf P) (refRows (keysOf P) l) is h = .ok h') : GoodHeap (keysOf P) Q h' := by
  induction is generalizing h with
  | nil => cases he; exact hg
  | cons ii is ih =>
    simp only [storeRef, bind_ok, listGet_ok] at he
    obtain ⟨q, hq, p, hp, he⟩ := he
    obtain ⟨a, n, p', t, ha, hp', ht, hr⟩ := hrec ii (by simp)
    rw [hp] at hp'
    cases hp'
    split at he
    · rename_i hne
      simp only [bind_ok, listGet_ok] at he
      obtain ⟨t', ht', vals, hvals, he⟩ := he
      obtain ⟨v, rfl, hv⟩ := pickOpt_inv hvals
      obtain ⟨q', t'', hq', ht'', hso⟩ := hstep ii p t hp ht
      rw [hq] at hq'; cases hq'
      rw [ht'] at ht''; cases ht''
      have hva : ∀ key ∈ keysOf P, VarAt P key q (v key) := by
        intro key hkey
        obtain ⟨l', hl', hl''⟩ := hv key hkey
        obtain ⟨u, hu, hu'⟩ := hupd key l' ii q hl' hq
        rw [hl''] at hu
        cases hu
        exact hu'
      have han : a < h.next := hl a (List.mem_of_getElem? ha)
      refine ih (append_good hQ ha han hg hr hso hne hva) hl ?_ he
      intro jj hjj
      obtain ⟨b, m, p1, t1, hb, hp1, ht1, hr1⟩ := hrec jj (by simp [hjj])
      exact ⟨b, m, p1, t1, hb, hp1, ht1, (append_le h _ ii q t' _).record (hl b (List.mem_of_getElem? hb)) hr1⟩
    · exact ih hg hl (fun jj hjj => hrec jj (by simp [hjj])) he

theorem lastAt_map {α : Type} {f : Nat → List α} {l : List Nat} {ii : Nat} {x : α} (h : lastAt (l.map f) ii = .ok x) :
    ∃ a, l[ii]? = some a ∧ (f a).getLast? = some x := by
  unfold lastAt at h
  simp only [bind_ok, listGet_ok] at h
  obtain ⟨row, hrow, h⟩ := h
  rw [List.getElem?_map, Option.map_eq_some_iff] at hrow
  obtain ⟨a, ha, rfl⟩ := hrow
  refine ⟨a, ha, ?_⟩
  unfold lastOf at h
  cases hg : (f a).getLast? with
  | none => rw [hg] at h; cases h
  | some y => rw [hg] at h; cases h; rfl

/-- The last entries of a particle form a record. -/
theorem last_recAt {keys : List String} (hal : ∀ r, Q r → r.aligned) {h : Heap K} (hg : GoodHeap keys Q h) {a : Nat} (ha : a < h.next) {x y : Int} {t : Fl K}
    (hx : (h.xs a).getLast? = some x) (hy : (h.ys a).getLast? = some y) (ht : (h.ts a).getLast? = some t) :
    ∃ n, (h.row a).recAt n (x, y) t := by
  obtain ⟨r, h1, h2⟩ := hg a ha
  have hal' : (h.row a).aligned := by
    have := hal r h1
    unfold Row.aligned at this ⊢
    rw [← h2.xs, ← h2.ys, ← h2.ts]
    exact this
  exact ⟨_, Row.last_rec hal' (p := (x, y)) ⟨hx, hy⟩ ht⟩

theorem loopRef_good (G : Good P) (hQ : Grows A F P ω Q) {l : List Nat} {target : Fl K} {maxIter : Int} {ii : Nat} (fuel : Nat)
    {h h' : Heap K} {s s' : World K} {est : Fl K} {count : Int} {b : Bool} (hw : PickEquiv A F P s.weight)
    (hg : GoodHeap (keysOf P) Q h) (hl : ∀ a ∈ l, a < h.next)
    (he : loopRef A F P ω target maxIter (keysOf P) (refRows (keysOf P) l) ii fuel h s est count = .ok (h', s', b)) :
    GoodHeap (keysOf P) Q h' ∧ PickEquiv A F P s'.weight := by
  induction fuel generalizing h s est count with
  | zero =>
    unfold loopRef at he
    simp only [bind_ok] at he
    obtain ⟨t, ht, he⟩ := he
    split at he
    · cases he
    · simp only [pure_ok, Prod.mk.injEq] at he
      obtain ⟨rfl, rfl, -⟩ := he
      exact ⟨hg, hw⟩
  | succ fuel ih =>
    unfold loopRef at he
    simp only [bind_ok] at he
    obtain ⟨t, ht, he⟩ := he
    split at he
    · simp only [bind_ok] at he
      obtain ⟨x, hx, y, hy, ⟨⟨news, times, upd⟩, s1⟩, hst, he⟩ := he
      obtain ⟨a, ha, ht⟩ := lastAt_map (l := l) ht
      obtain ⟨a1, ha1, hx⟩ := lastAt_map (l := l) hx
      obtain ⟨a2, ha2, hy⟩ := lastAt_map (l := l) hy
      rw [ha] at ha1 ha2
      cases ha1
      cases ha2
      have han := hl a (List.mem_of_getElem? ha)
      obtain ⟨n, hrec⟩ := last_recAt hQ.al hg han hx hy ht
      obtain ⟨hw1, hlen, hstep, hopt⟩ := particleStepper_inv A F G hw hst
      obtain ⟨q, t1, hq, ht1, hso⟩ := hstep 0 (x, y) t rfl rfl
      simp only [listGet_ok] at he
      obtain ⟨q', hq', he⟩ := he
      rw [hq] at hq'
      cases hq'
      split at he
      · rename_i hne
        simp only [bind_ok, listGet_ok] at he
        obtain ⟨t1', ht1', vals, hvals, he⟩ := he
        rw [ht1] at ht1'
        cases ht1'
        obtain ⟨v, rfl, hv⟩ := pickOpt_inv hvals
        have hva : ∀ key ∈ keysOf P, VarAt P key q (v key) := by
          intro key hkey
          obtain ⟨l', hl', hl''⟩ := hv key hkey
          obtain ⟨u, hu, hu'⟩ := hopt key l' 0 q hl' hq
          rw [hl''] at hu
          cases hu
          exact hu'
        have hg1 := append_good hQ ha han hg hrec hso hne hva
        split at he
        · simp only [pure_ok, Prod.mk.injEq] at he
          obtain ⟨rfl, rfl, -⟩ := he
          exact ⟨hg1, hw1⟩
        · exact ih hw1 hg1 hl he
      · simp only [pure_ok, Prod.mk.injEq] at he
        obtain ⟨rfl, rfl, -⟩ := he
        exact ⟨hg, hw1⟩
    · simp only [pure_ok, Prod.mk.injEq] at he
      obtain ⟨rfl, rfl, -⟩ := he
      exact ⟨hg, hw⟩

theorem oneRef_good (G : Good P) (hQ : Grows A F P ω Q) {l : List Nat} {target : Fl K} {maxIter : Int} {ii : Nat}
    {h h' : Heap K} {s s' : World K} {b : Bool} (hw : PickEquiv A F P s.weight)
    (hg : GoodHeap (keysOf P) Q h) (hl : ∀ a ∈ l, a < h.next)
    (he : oneRef A F P ω target maxIter (keysOf P) (refRows (keysOf P) l) h s ii = .ok (h', s', b)) :
    GoodHeap (keysOf P) Q h' ∧ PickEquiv A F P s'.weight := by
  unfold oneRef at he
  simp only [bind_ok] at he
  obtain ⟨ts, -, x, -, y, -, he⟩ := he
  split at he
  · simp only [pure_ok, Prod.mk.injEq] at he
    obtain ⟨rfl, rfl, -⟩ := he
    exact ⟨hg, hw⟩
  · exact loopRef_good G hQ _ hw hg hl he

theorem allRef_good (G : Good P) (hQ : Grows A F P ω Q) {l : List Nat} {target : Fl K} {maxIter : Int} {is : List Nat}
    {h h' : Heap K} {s s' : World K} {wn wn' : Option (List Nat)} (hw : PickEquiv A F P s.weight)
    (hg : GoodHeap (keysOf P) Q h) (hl : ∀ a ∈ l, a < h.next)
    (he : allRef A F P ω target maxIter (keysOf P) (refRows (keysOf P) l) is h s wn = .ok (h', s', wn')) :
    GoodHeap (keysOf P) Q h' ∧ PickEquiv A F P s'.weight := by
  induction is generalizing h s wn with
  | nil =>
    simp only [allRef, Except.ok.injEq, Prod.mk.injEq] at he
    obtain ⟨rfl, rfl, -⟩ := he
    exact ⟨hg, hw⟩
  | cons ii is ih =>
    simp only [allRef, bind_ok] at he
    obtain ⟨⟨h1, s1, b⟩, h1e, he⟩ := he
    obtain ⟨hg1, hw1⟩ := oneRef_good G hQ hw hg hl h1e
    have hn : h1.next = h.next := (oneRef_rel (HLe0.app _) h1e).2
    exact ih hw1 hg1 (by rw [hn]; exact hl) he

theorem runRef_good (G : Good P) (hQ : Grows A F P ω Q) {h : Heap K} {s : RefState K} {target : Option (Fl K)} {maxIter : Int} {r : RefResult K}
    {l : List Nat} (hwalk : s.walk = some (refRows (keysOf P) l)) (hnp : s.np = l.length) (hw : PickEquiv A F P s.world.weight)
    (hg : GoodHeap (keysOf P) Q h) (hl : ∀ a ∈ l, a < h.next)
    (hr : runRef A F P ω h s target maxIter = .ok r) : GoodHeap (keysOf P) Q r.heap ∧ PickEquiv A F P r.state.world.weight := by
  unfold runRef at hr
  rw [hwalk] at hr
  dsimp only at hr
  have hnp' : (if s.np = 0 then (refRows (keysOf P) l).xinds.length else s.np) = l.length := by
    split
    · rfl
    · exact hnp
  have hopt : (refRows (keysOf P) l).opt = dictOf (keysOf P) fun _ => l := rfl
  rw [hnp', optionalRef_eq (P := P) (np := l.length) hopt h] at hr
  simp only [bind_ok] at hr
  obtain ⟨sx, hsx, sy, hsy, st, hst, -, -, hr⟩ := hr
  have hkeys : ((refRows (keysOf P) l).opt).map (fun x => x.1) = keysOf P := by
    show (dictOf (keysOf P) _).map _ = _
    unfold dictOf; rw [List.map_map]; simp [Function.comp_def]
  rw [hkeys] at hr
  cases target with
  | none =>
    simp only [bind_ok] at hr
    obtain ⟨⟨⟨news, times, upd⟩, w1⟩, hstep, h1, hstore, hr⟩ := hr
    simp only [pure_ok] at hr
    subst hr
    obtain ⟨hw1, hlen, hst1, hupd⟩ := particleStepper_inv A F G hw hstep
    refine ⟨storeRef_good hQ hst1 hupd hg hl ?_ hstore, hw1⟩
    intro ii hii
    have hi : ii < l.length := by simpa using hii
    have hrange : (List.range l.length)[ii]? = some ii := List.getElem?_range hi
    obtain ⟨x, hx, hx'⟩ := mapE_get hsx hrange
    obtain ⟨y, hy, hy'⟩ := mapE_get hsy hrange
    obtain ⟨t, ht, ht'⟩ := mapE_get hst hrange
    obtain ⟨a, ha, hx'⟩ := lastAt_map (l := l) hx'
    obtain ⟨a1, ha1, hy'⟩ := lastAt_map (l := l) hy'
    obtain ⟨a2, ha2, ht'⟩ := lastAt_map (l := l) ht'
    rw [ha] at ha1 ha2
    cases ha1
    cases ha2
    obtain ⟨n, hrec⟩ := last_recAt hQ.al hg (hl a (List.mem_of_getElem? ha)) hx' hy' ht'
    exact ⟨a, n, (x, y), t, ha, by rw [List.getElem?_zip_eq_some]; exact ⟨hx, hy⟩, ht, hrec⟩
  | some tgt =>
    simp only [bind_ok] at hr
    obtain ⟨⟨h1, w1, warn⟩, hall, hr⟩ := hr
    obtain ⟨hg1, hw1⟩ := allRef_good G hQ hw hg hl hall
    cases warn with
    | none => cases hr
    | some lw =>
      simp only [pure_ok] at hr
      subst hr
      exact ⟨hg1, hw1⟩

end run

section sys
variable {Ob : PObj K → Prop} {Ω : (Nat → K) → Prop} {Sd : PObj K → List Int → List Int → Fl K → Prop}

/-- What holds along every program in which all objects track the same variables. -/
structure AnyInv (A : Arith K) (F : Fun K A) (Ob : PObj K → Prop) (keys : List String) (Q : Row K → Prop) (S : Sys K) : Prop where
  inv : SysInv S
  uni : UniInv keys S
  ob : ∀ P s, (P, s) ∈ S.objs → Ob P
  pick : ∀ P s, (P, s) ∈ S.objs → PickEquiv A F P s.world.weight
  rows : GoodHeap keys Q S.heap

theorem SysStep.any (hG : ∀ P, Ob P → Good P) {keys : List String} (hk : ∀ P, Ob P → keysOf P = keys) {Q : Row K → Prop}
    (hseed : ∀ P xs ys t x y r, Ob P → Sd P xs ys t → x ∈ xs → y ∈ ys → SeedRow P (x, y) t r → Q r)
    (hstep : ∀ P ω, Ob P → Ω ω → Grows A F P ω Q)
    {a : Act} {S S' : Sys K} (hi : AnyInv A F Ob keys Q S) (hs : SysStep A F Ob Ω Sd a S S') : AnyInv A F Ob keys Q S' := by
  have hinv := (hs.inv hi.inv).1
  have huni := hs.uni hk hi.uni
  have hset : ∀ {i : Nat} {P : PObj K} {s s' : RefState K}, S.objs[i]? = some (P, s) → (PickEquiv A F P s.world.weight → PickEquiv A F P s'.world.weight) →
      ∀ P' s'', (P', s'') ∈ S.objs.set i (P, s') → Ob P' ∧ PickEquiv A F P' s''.world.weight := by
    intro i P s s' hi' hp P' s'' hm
    have hm0 := List.mem_of_getElem? hi'
    rcases mem_set_cases hm with hm | hm
    · rw [Prod.mk.injEq] at hm
      obtain ⟨rfl, rfl⟩ := hm
      exact ⟨hi.ob _ _ hm0, hp (hi.pick _ _ hm0)⟩
    · exact ⟨hi.ob _ _ hm, hi.pick _ _ hm⟩
  cases hs with
  | @new _ P pos hP =>
    have hnew : ∀ P' s', (P', s') ∈ S.objs ++ [(P, { world := (initState A F P pos).world, np := 0, walk := none })] →
        Ob P' ∧ PickEquiv A F P' s'.world.weight := by
      intro P' s' hm
      rcases List.mem_append.1 hm with hm | hm
      · exact ⟨hi.ob _ _ hm, hi.pick _ _ hm⟩
      · simp only [List.mem_singleton, Prod.mk.injEq] at hm
        obtain ⟨rfl, rfl⟩ := hm
        exact ⟨hP, PickEquiv.fresh A F _⟩
    exact ⟨hinv, huni, fun P' s' hm => (hnew P' s' hm).1, fun P' s' hm => (hnew P' s' hm).2, hi.rows⟩
  | @generate _ i P s prev ω np xs ys time method n x y t m h' s' hi' hω hprev hc hn hsd hg =>
    have hm0 := List.mem_of_getElem? hi'
    obtain ⟨rows, pos', -, rfl, hworld, hwalk, hnp, hrl, hnew⟩ := generateRef_inv hc hn hg
    have hall := hset (s' := s') hi' (fun h => by rw [hworld]; exact h)
    rw [hk P (hi.ob _ _ hm0)] at hinv huni ⊢
    refine ⟨hinv, huni, fun P' s'' hm => (hall P' s'' hm).1, fun P' s'' hm => (hall P' s'' hm).2, ?_⟩
    intro a ha
    have ha' : a < S.heap.next + rows.length := by rw [← alloc_next S.heap keys rows]; exact ha
    rcases Nat.lt_or_ge a S.heap.next with hlt | hge
    · obtain ⟨r, hr, hre⟩ := hi.rows a hlt
      exact ⟨r, hr, hre.trans (alloc_row_old _ _ _ hlt)⟩
    · obtain ⟨i', rfl⟩ := Nat.exists_eq_add_of_le hge
      have hir : rows[i']? = some (rows[i']'(by omega)) := List.getElem?_eq_getElem _
      obtain ⟨b, hb, c, hc', hsr⟩ := hnew _ (List.mem_of_getElem? hir)
      exact ⟨_, hseed P _ _ _ _ _ _ (hi.ob _ _ hm0) hsd hb hc' hsr, alloc_row_new _ _ _ hir⟩
  | @run _ i P s ω target maxIter r hi' hω hr =>
    have hm0 := List.mem_of_getElem? hi'
    have hO := hi.ob _ _ hm0
    cases hw : s.walk with
    | none => unfold runRef at hr; rw [hw] at hr; cases hr
    | some w =>
      have hwu := hi.uni.objs _ _ _ hm0 hw
      have hwk : s.walk = some (refRows (keysOf P) w.xinds) := by rw [hw, hk P hO, ← hwu]
      have hrows : GoodHeap (keysOf P) Q S.heap := by rw [hk P hO]; exact hi.rows
      obtain ⟨h1, h2⟩ := runRef_good (hG P hO) (hstep P ω hO hω) hwk ((hi.inv.objs _ _ hm0).np w hw) (hi.pick _ _ hm0) hrows
        ((hi.inv.objs _ _ hm0).bound w hw).base hr
      have hall := hset (s' := r.state) hi' (fun _ => h2)
      rw [hk P hO] at h1
      exact ⟨hinv, huni, fun P' s'' hm => (hall P' s'' hm).1, fun P' s'' hm => (hall P' s'' hm).2, h1⟩
  | @look _ i P s w hi' hw => exact ⟨hinv, huni, hi.ob, hi.pick, hi.rows⟩
  | @clear _ i P s hi' =>
    have hall := hset (s' := s.clear) hi' (fun h => h)
    exact ⟨hinv, huni, fun P' s'' hm => (hall P' s'' hm).1, fun P' s'' hm => (hall P' s'' hm).2, hi.rows⟩
  | @reseed _ i P s pos hi' =>
    have hall := hset (s' := { s with world := { s.world with pos := pos } }) hi' (fun h => h)
    exact ⟨hinv, huni, fun P' s'' hm => (hall P' s'' hm).1, fun P' s'' hm => (hall P' s'' hm).2, hi.rows⟩

theorem SysRun.any (hG : ∀ P, Ob P → Good P) {keys : List String} (hk : ∀ P, Ob P → keysOf P = keys) {Q : Row K → Prop}
    (hseed : ∀ P xs ys t x y r, Ob P → Sd P xs ys t → x ∈ xs → y ∈ ys → SeedRow P (x, y) t r → Q r)
    (hstep : ∀ P ω, Ob P → Ω ω → Grows A F P ω Q)
    {as : List Act} {S S' : Sys K} (hi : AnyInv A F Ob keys Q S) (hs : SysRun A F Ob Ω Sd as S S') : AnyInv A F Ob keys Q S' := by
  induction hs with
  | refl => exact hi
  | tail _ h2 ih => exact h2.any hG hk hseed hstep (ih hi)

theorem AnyInv.start {keys : List String} {Q : Row K → Prop} : AnyInv A F Ob keys Q (Sys.start : Sys K) :=
  ⟨SysInv.start, UniInv.start _, by simp [Sys.start], by simp [Sys.start], by simp [GoodHeap, Sys.start, Heap.empty]⟩

theorem AnyInv.read {keys : List String} {Q : Row K → Prop} {S : Sys K} (h : AnyInv A F Ob keys Q S) {d : RefWalk} (hd : S.Sees d) :
    ∃ rows, S.heap.read d = ofRows keys rows ∧ ∀ r ∈ rows, Q r :=
  RowsInv.read (A := A) (F := F) ⟨h.inv, h.ob, h.pick, h.uni.objs, h.uni.held, h.rows⟩ hd

end sys

end Dorado
