import Verif.Spec.Sharing
import Verif.Lemmas.Hist

/-! Helper lemmas: walk data by reference. -/

set_option linter.unusedSectionVars false

namespace Dorado

variable {K : Type} [Field K] [LinearOrder K] [IsStrictOrderedRing K] [FloorRing K] {A : Arith K} {F : Fun K A}

/-! ## Heaps only grow -/

/-- Every list in use before is still there, possibly extended. -/
structure HLe (h h' : Heap K) : Prop where
  next : h.next ≤ h'.next
  xs : ∀ a < h.next, h.xs a <+: h'.xs a
  ys : ∀ a < h.next, h.ys a <+: h'.ys a
  ts : ∀ a < h.next, h.ts a <+: h'.ts a
  vs : ∀ var, ∀ a < h.next, h.vs var a <+: h'.vs var a

theorem HLe.refl (h : Heap K) : HLe h h :=
  ⟨le_rfl, fun _ _ => List.prefix_refl _, fun _ _ => List.prefix_refl _, fun _ _ => List.prefix_refl _, fun _ _ _ => List.prefix_refl _⟩

theorem HLe.trans {a b c : Heap K} (h : HLe a b) (h' : HLe b c) : HLe a c :=
  ⟨h.next.trans h'.next, fun x hx => (h.xs x hx).trans (h'.xs x (hx.trans_le h.next)), fun x hx => (h.ys x hx).trans (h'.ys x (hx.trans_le h.next)),
    fun x hx => (h.ts x hx).trans (h'.ts x (hx.trans_le h.next)), fun v x hx => (h.vs v x hx).trans (h'.vs v x (hx.trans_le h.next))⟩

theorem place_lt {α : Type} {n a : Nat} (l : List (List α)) (f : Nat → List α) (h : a < n) : place n l f a = f a := by
  unfold place
  rw [if_neg (by omega)]

theorem place_add {α : Type} {n : Nat} {l : List (List α)} {f : Nat → List α} {i : Nat} {r : List α} (h : l[i]? = some r) :
    place n l f (n + i) = r := by
  unfold place
  rw [if_pos (by omega), Nat.add_sub_cancel_left, h]
  rfl

theorem map_place {α : Type} (n : Nat) (l : List (List α)) (f : Nat → List α) : (List.range' n l.length).map (place n l f) = l := by
  apply List.ext_getElem?
  intro i
  rw [List.getElem?_map]
  rcases Nat.lt_or_ge i l.length with hi | hi
  · rw [List.getElem?_range' hi, List.getElem?_eq_getElem hi]
    simp only [Option.map_some, Option.some.injEq, Nat.one_mul]
    exact place_add (List.getElem?_eq_getElem hi)
  · rw [List.getElem?_eq_none (by simpa using hi), List.getElem?_eq_none hi]
    rfl

theorem alloc_le (h : Heap K) (w : WalkData K) : HLe h (h.alloc w).1 := by
  refine ⟨Nat.le_add_right _ _, ?_, ?_, ?_, ?_⟩
  · intro a ha; show _ <+: place _ _ _ a; rw [place_lt _ _ ha]
  · intro a ha; show _ <+: place _ _ _ a; rw [place_lt _ _ ha]
  · intro a ha; show _ <+: place _ _ _ a; rw [place_lt _ _ ha]
  · intro var a ha
    show _ <+: (match dictGet w.opt var with
       | some l => place h.next l (h.vs var)
       | none => h.vs var) a
    cases dictGet w.opt var with
    | none => exact List.prefix_refl _
    | some l =>
      show _ <+: place _ _ _ a
      rw [place_lt _ _ ha]

theorem appendAt_prefix {α : Type} (f : Nat → List α) (o : Option Nat) (v : α) (a : Nat) : f a <+: appendAt f o v a := by
  cases o with
  | none => exact List.prefix_refl _
  | some b =>
    show _ <+: if a = b then f b ++ [v] else f a
    split
    · rename_i h; subst h; exact List.prefix_append _ _
    · exact List.prefix_refl _

theorem append_le (h : Heap K) (w : RefWalk) (ii : Nat) (pos : Int × Int) (t : Fl K) (vals : List (String × Val K)) :
    HLe h (h.append w ii pos t vals) := by
  refine ⟨le_rfl, fun a _ => appendAt_prefix _ _ _ _, fun a _ => appendAt_prefix _ _ _ _, fun a _ => appendAt_prefix _ _ _ _, ?_⟩
  intro var a _
  show _ <+: (match dictGet w.opt var, dictGet vals var with
      | some l, some v => appendAt (h.vs var) l[ii]? v
      | _, _ => h.vs var) a
  cases dictGet w.opt var <;> cases dictGet vals var <;> first | exact List.prefix_refl _ | exact appendAt_prefix _ _ _ _

theorem append_next (h : Heap K) (w : RefWalk) (ii : Nat) (pos : Int × Int) (t : Fl K) (vals : List (String × Val K)) :
    (h.append w ii pos t vals).next = h.next := rfl

/-- `HLe` without new addresses. -/
def HLe0 (h h' : Heap K) : Prop := HLe h h' ∧ h'.next = h.next

theorem HLe0.trans {a b c : Heap K} (h : HLe0 a b) (h' : HLe0 b c) : HLe0 a c := ⟨h.1.trans h'.1, h'.2.trans h.2⟩

/-- A relation that holds between the heap before and after appending a record to a particle of `w`, and is reflexive and transitive. -/
structure AppRel (w : RefWalk) (R : Heap K → Heap K → Prop) : Prop where
  refl : ∀ h, R h h
  trans : ∀ {a b c}, R a b → R b c → R a c
  append : ∀ h ii pos t vals, R h (h.append w ii pos t vals)

theorem HLe0.app (w : RefWalk) : AppRel (K := K) w HLe0 :=
  ⟨fun h => ⟨HLe.refl h, rfl⟩, fun h1 h2 => h1.trans h2, fun _ _ _ _ _ => ⟨append_le _ _ _ _ _ _, rfl⟩⟩

theorem storeRef_rel {w : RefWalk} {R : Heap K → Heap K → Prop} (hR : AppRel w R)
    {starts news : List (Int × Int)} {times : List (Fl K)} {upd : List (String × List (Val K))} {keys : List String}
    {is : List Nat} {h h' : Heap K} (he : storeRef starts news times upd keys w is h = .ok h') : R h h' := by
  induction is generalizing h with
  | nil => cases he; exact hR.refl _
  | cons ii is ih =>
    simp only [storeRef, bind_ok] at he
    obtain ⟨n, -, s, -, he⟩ := he
    by_cases hns : n ≠ s
    · rw [if_pos hns] at he
      simp only [bind_ok] at he
      obtain ⟨t, -, vals, -, he⟩ := he
      exact hR.trans (hR.append _ _ _ _ _) (ih he)
    · rw [if_neg hns] at he
      exact ih he

theorem loopRef_rel {w : RefWalk} {R : Heap K → Heap K → Prop} (hR : AppRel w R)
    {P : PObj K} {ω : Nat → K} {target : Fl K} {maxIter : Int} {keys : List String} {ii : Nat} (fuel : Nat)
    {h h' : Heap K} {s s' : World K} {est : Fl K} {count : Int} {b : Bool}
    (he : loopRef A F P ω target maxIter keys w ii fuel h s est count = .ok (h', s', b)) : R h h' := by
  induction fuel generalizing h s est count with
  | zero =>
    unfold loopRef at he
    simp only [bind_ok] at he
    obtain ⟨t, -, he⟩ := he
    split at he
    · cases he
    · simp only [pure_ok, Prod.mk.injEq] at he
      obtain ⟨rfl, -, -⟩ := he
      exact hR.refl _
  | succ fuel ih =>
    unfold loopRef at he
    simp only [bind_ok] at he
    obtain ⟨t, -, he⟩ := he
    split at he
    · simp only [bind_ok] at he
      obtain ⟨x, -, y, -, ⟨⟨news, times, upd⟩, s1⟩, -, n, -, he⟩ := he
      by_cases hn : n ≠ (x, y)
      · rw [if_pos hn] at he
        simp only [bind_ok] at he
        obtain ⟨t1, -, vals, -, he⟩ := he
        by_cases hc : count + 1 > maxIter
        · rw [if_pos hc] at he
          simp only [pure_ok, Prod.mk.injEq] at he
          obtain ⟨rfl, -, -⟩ := he
          exact hR.append _ _ _ _ _
        · rw [if_neg hc] at he
          exact hR.trans (hR.append _ _ _ _ _) (ih he)
      · rw [if_neg hn] at he
        simp only [pure_ok, Prod.mk.injEq] at he
        obtain ⟨rfl, -, -⟩ := he
        exact hR.refl _
    · simp only [pure_ok, Prod.mk.injEq] at he
      obtain ⟨rfl, -, -⟩ := he
      exact hR.refl _

theorem oneRef_rel {w : RefWalk} {R : Heap K → Heap K → Prop} (hR : AppRel w R)
    {P : PObj K} {ω : Nat → K} {target : Fl K} {maxIter : Int} {keys : List String} {ii : Nat}
    {h h' : Heap K} {s s' : World K} {b : Bool} (he : oneRef A F P ω target maxIter keys w h s ii = .ok (h', s', b)) : R h h' := by
  unfold oneRef at he
  simp only [bind_ok] at he
  obtain ⟨ts, -, x, -, y, -, he⟩ := he
  split at he
  · simp only [pure_ok, Prod.mk.injEq] at he
    obtain ⟨rfl, -, -⟩ := he
    exact hR.refl _
  · exact loopRef_rel hR _ he

theorem allRef_rel {w : RefWalk} {R : Heap K → Heap K → Prop} (hR : AppRel w R)
    {P : PObj K} {ω : Nat → K} {target : Fl K} {maxIter : Int} {keys : List String} {is : List Nat}
    {h h' : Heap K} {s s' : World K} {wn wn' : Option (List Nat)}
    (he : allRef A F P ω target maxIter keys w is h s wn = .ok (h', s', wn')) : R h h' := by
  induction is generalizing h s wn with
  | nil =>
    simp only [allRef, Except.ok.injEq, Prod.mk.injEq] at he
    obtain ⟨rfl, -, -⟩ := he
    exact hR.refl _
  | cons ii is ih =>
    simp only [allRef, bind_ok, Prod.exists] at he
    obtain ⟨h1, s1, hit, h2, he⟩ := he
    exact hR.trans (oneRef_rel hR h2) (ih he)

/-! ## Dictionaries of reachable objects -/

/-- The three base entries refer to the same particles. -/
def Lock (w : RefWalk) : Prop := w.yinds = w.xinds ∧ w.times = w.xinds

/-- All addresses are in use. -/
structure Bound (w : RefWalk) (n : Nat) : Prop where
  base : ∀ a ∈ w.xinds, a < n
  opt : ∀ e ∈ w.opt, ∀ a ∈ e.2, a < n

theorem Bound.mono {w : RefWalk} {n m : Nat} (h : Bound w n) (hm : n ≤ m) : Bound w m :=
  ⟨fun a ha => (h.base a ha).trans_le hm, fun e he a ha => (h.opt e he a ha).trans_le hm⟩

theorem optionalRef_eq {P : PObj K} {np : Nat} {w : RefWalk} {f : String → List Nat} (hw : w.opt = dictOf (keysOf P) f) (h : Heap K) :
    optionalRef P np w h = (w.opt, h) := by
  have hget : ∀ var ∈ keysOf P, dictGet w.opt var = some (f var) := by
    intro var hvar
    rw [hw, dictGet_dictOf, if_pos hvar]
  have key : ∀ (l ks : List String), (∀ a ∈ l, a ∈ keysOf P) →
      l.foldl (optRef np w) (dictOf ks f, h) = (dictOf (l.foldl addKey ks) f, h) := by
    intro l
    induction l with
    | nil => intro ks _; rfl
    | cons a l ih =>
      intro ks hl
      simp only [List.foldl_cons]
      have : optRef np w (dictOf ks f, h) a = (dictOf (addKey ks a) f, h) := by
        unfold optRef
        rw [hget a (hl a (by simp))]
        simp only [dictSet_dictOf, Prod.mk.injEq, and_true]
        exact dictOf_congr fun k _ => by by_cases hk : k = a <;> simp [hk]
      rw [this]
      exact ih _ fun b hb => hl b (by simp [hb])
  unfold optionalRef
  rw [hw]
  exact key (P.particleVars.filter fun v => !isBaseVar v) [] (fun a ha => by rw [mem_keysOf]; simpa using ha)

/-- `run_iteration` on an object whose walk data have the tracked variables: nothing is copied. -/
theorem runRef_rel {R : Heap K → Heap K → Prop} {P : PObj K} {ω : Nat → K} {h : Heap K} {s : RefState K} {target : Option (Fl K)} {maxIter : Int} {r : RefResult K}
    {w : RefWalk} (hR : AppRel w R) {f : String → List Nat} (hw : s.walk = some w) (hf : w.opt = dictOf (keysOf P) f)
    (hr : runRef A F P ω h s target maxIter = .ok r) :
    r.returned = w ∧ r.state.walk = some w ∧ R h r.heap ∧ r.state.np = if s.np = 0 then w.xinds.length else s.np := by
  unfold runRef at hr
  rw [hw] at hr
  dsimp only at hr
  have he : ({ xinds := w.xinds, yinds := w.yinds, times := w.times, opt := w.opt } : RefWalk) = w := rfl
  rw [optionalRef_eq hf] at hr
  simp only [bind_ok] at hr
  obtain ⟨sx, -, sy, -, st, -, -, -, hr⟩ := hr
  cases target with
  | none =>
    simp only [bind_ok, pure_ok, Prod.exists] at hr
    obtain ⟨news, times, upd, w1, -, h1, hst, rfl⟩ := hr
    exact ⟨rfl, rfl, storeRef_rel hR hst, rfl⟩
  | some tgt =>
    simp only [bind_ok, Prod.exists] at hr
    obtain ⟨h1, w1, warn, hall, hr⟩ := hr
    cases warn with
    | none => cases hr
    | some l =>
      simp only [pure_ok] at hr
      subst hr
      exact ⟨rfl, rfl, allRef_rel hR hall, rfl⟩

theorem runRef_same {P : PObj K} {ω : Nat → K} {h : Heap K} {s : RefState K} {target : Option (Fl K)} {maxIter : Int} {r : RefResult K}
    {w : RefWalk} {f : String → List Nat} (hw : s.walk = some w) (hf : w.opt = dictOf (keysOf P) f)
    (hr : runRef A F P ω h s target maxIter = .ok r) :
    r.returned = w ∧ r.state.walk = some w ∧ HLe0 h r.heap ∧ r.state.np = if s.np = 0 then w.xinds.length else s.np :=
  runRef_rel (HLe0.app w) hw hf hr

/-- References for particles `l` and variables `keys`. -/
def refRows (keys : List String) (l : List Nat) : RefWalk := { xinds := l, yinds := l, times := l, opt := dictOf keys fun _ => l }

theorem alloc_rows (h : Heap K) (keys : List String) (rows : List (Row K)) :
    (h.alloc (ofRows keys rows)).2 = refRows keys (List.range' h.next rows.length) := by
  unfold Heap.alloc refRows ofRows dictOf
  simp [Function.comp_def]

theorem walkSize_rows (keys : List String) (rows : List (Row K)) : walkSize (ofRows keys rows) = rows.length := by
  unfold walkSize ofRows dictOf
  simp only [List.length_map, max_self]
  rw [List.foldl_map]
  have : ∀ l : List String, l.foldl (fun n _ => max n rows.length) rows.length = rows.length := by
    intro l
    induction l with
    | nil => rfl
    | cons a l ih => simp [ih]
  simpa using this keys

/-- `previous_walk_data` or `self.walk_data`, if any, in front. -/
def preOpt (o : Option RefWalk) (w : RefWalk) : RefWalk :=
  match o with
  | some old => prependRef old w
  | none => w

theorem generateRef_inv {P : PObj K} {ω : Nat → K} {h h' : Heap K} {s s' : RefState K} {np xs ys time method : PyVal K}
    {n : Int} {x y : List Int} {t : Fl K} {m : Method} {prev : Option RefWalk}
    (hc : genInputCheck np xs ys time method = .ok (n, x, y, t, m)) (hn : 0 ≤ n)
    (hg : generateRef A P ω h s np xs ys time method prev = .ok (h', s')) :
    ∃ rows pos', newWalk A P ω s.world.pos n x y t m = .ok (ofRows (keysOf P) rows, pos') ∧ h' = (h.alloc (ofRows (keysOf P) rows)).1 ∧
      s'.world = { s.world with pos := pos' } ∧
      s'.walk = some (preOpt prev (preOpt s.walk (refRows (keysOf P) (List.range' h.next rows.length)))) ∧
      s'.np = (preOpt prev (preOpt s.walk (refRows (keysOf P) (List.range' h.next rows.length)))).xinds.length ∧
      rows.length = n.toNat ∧
      ∀ r ∈ rows, ∃ a ∈ x, ∃ b ∈ y, SeedRow P (a, b) t r := by
  unfold generateRef at hg
  rw [hc] at hg
  simp only [ok_bind, bind_ok, pure_ok, Prod.exists] at hg
  obtain ⟨w0, pos', hw, hg⟩ := hg
  obtain ⟨k, rfl⟩ := Int.eq_ofNat_of_zero_le hn
  obtain ⟨sx, sy, rows, hs, rfl, hl, -, -, hrows⟩ := newWalk_inv A hw
  rw [Prod.mk.injEq] at hg
  obtain ⟨rfl, rfl⟩ := hg
  refine ⟨rows, pos', hw, rfl, rfl, ?_, ?_, by simpa using hl, ?_⟩
  · rw [alloc_rows]; rfl
  · rw [alloc_rows]; rfl
  · intro r hr
    obtain ⟨i, hi⟩ := List.getElem?_of_mem hr
    obtain ⟨a, b, ha, hb, hsr⟩ := hrows i r hi
    have hmm := startIndices_mem A hs
    exact ⟨a, hmm.1 _ (List.mem_of_getElem? ha), b, hmm.2 _ (List.mem_of_getElem? hb), hsr⟩

/-! ## Invariant of programs -/

/-- What holds of every object of a program. -/
structure ObjInv (P : PObj K) (s : RefState K) (n : Nat) : Prop where
  lock : ∀ w, s.walk = some w → Lock w
  keys : ∀ w, s.walk = some w → ∃ f, w.opt = dictOf (keysOf P) f
  bound : ∀ w, s.walk = some w → Bound w n
  np : ∀ w, s.walk = some w → s.np = w.xinds.length

theorem ObjInv.mono {P : PObj K} {s : RefState K} {n m : Nat} (h : ObjInv P s n) (hm : n ≤ m) : ObjInv P s m :=
  ⟨h.lock, h.keys, fun w hw => (h.bound w hw).mono hm, h.np⟩

/-- Invariant of programs. -/
structure SysInv (S : Sys K) : Prop where
  objs : ∀ P s, (P, s) ∈ S.objs → ObjInv P s S.heap.next
  held : ∀ d ∈ S.held, Lock d ∧ Bound d S.heap.next

theorem dictGet_mem {β : Type} {d : List (String × β)} {k : String} {v : β} (h : dictGet d k = some v) : (k, v) ∈ d := by
  unfold dictGet at h
  rw [Option.map_eq_some_iff] at h
  obtain ⟨⟨a, b⟩, hf, rfl⟩ := h
  have h1 := List.find?_some hf
  have h2 := List.mem_of_find?_eq_some hf
  simp only [beq_iff_eq] at h1
  subst h1
  exact h2

theorem prepend_lock {a b : RefWalk} (ha : Lock a) (hb : Lock b) : Lock (prependRef a b) :=
  ⟨by show a.yinds ++ b.yinds = a.xinds ++ b.xinds; rw [ha.1, hb.1], by show a.times ++ b.times = a.xinds ++ b.xinds; rw [ha.2, hb.2]⟩

theorem prepend_bound {a b : RefWalk} {n : Nat} (ha : Bound a n) (hb : Bound b n) : Bound (prependRef a b) n := by
  constructor
  · intro x hx
    rcases List.mem_append.1 hx with h | h
    · exact ha.base x h
    · exact hb.base x h
  · intro e he x hx
    obtain ⟨e', he', rfl⟩ := List.mem_map.1 he
    cases hd : dictGet a.opt e'.1 with
    | none => rw [hd] at hx; exact hb.opt e' he' x hx
    | some l =>
      rw [hd] at hx
      rcases List.mem_append.1 hx with h | h
      · exact ha.opt _ (dictGet_mem hd) x h
      · exact hb.opt e' he' x h

theorem prepend_keys {a b : RefWalk} {ks : List String} {f : String → List Nat} (hb : b.opt = dictOf ks f) :
    ∃ g, (prependRef a b).opt = dictOf ks g := by
  refine ⟨fun k => match dictGet a.opt k with
    | some l => l ++ f k
    | none => f k, ?_⟩
  show (b.opt.map fun e => _) = _
  rw [hb]
  unfold dictOf
  rw [List.map_map]
  apply List.map_congr_left
  intro k _
  simp only [Function.comp]
  cases dictGet a.opt k <;> rfl

theorem refRows_inv (keys : List String) {l : List Nat} {n : Nat} (h : ∀ a ∈ l, a < n) : Lock (refRows keys l) ∧ Bound (refRows keys l) n := by
  refine ⟨⟨rfl, rfl⟩, h, ?_⟩
  intro e he a ha
  obtain ⟨k, -, rfl⟩ := List.mem_map.1 he
  exact h a ha

theorem alloc_next (h : Heap K) (keys : List String) (rows : List (Row K)) :
    (h.alloc (ofRows keys rows)).1.next = h.next + rows.length := by
  show h.next + walkSize _ = _
  rw [walkSize_rows]

theorem mem_set_cases {α : Type} {l : List α} {i : Nat} {a b : α} (h : b ∈ l.set i a) : b = a ∨ b ∈ l := by
  rcases List.mem_or_eq_of_mem_set h with h | h
  · exact Or.inr h
  · exact Or.inl h

section sys
variable {Ob : PObj K → Prop} {Ω : (Nat → K) → Prop} {Sd : PObj K → List Int → List Int → Fl K → Prop}

theorem SysStep.inv {a : Act} {S S' : Sys K} (hi : SysInv S) (hs : SysStep A F Ob Ω Sd a S S') : SysInv S' ∧ HLe S.heap S'.heap := by
  cases hs with
  | @new _ P pos hP =>
    refine ⟨⟨?_, hi.held⟩, HLe.refl _⟩
    intro P' s' hm
    rcases List.mem_append.1 hm with hm | hm
    · exact hi.objs _ _ hm
    · simp only [List.mem_singleton, Prod.mk.injEq] at hm
      obtain ⟨rfl, rfl⟩ := hm
      constructor <;> (intro w hw; cases hw)
  | @generate _ i P s prev ω np xs ys time method n x y t m h' s' hi' hω hprev hc hn hsd hg =>
    obtain ⟨rows, pos', -, rfl, hworld, hwalk, hnp, -, -⟩ := generateRef_inv hc hn hg
    have hle := alloc_le S.heap (ofRows (keysOf P) rows)
    have ho := hi.objs _ _ (List.mem_of_getElem? hi')
    have hnx := alloc_next S.heap (keysOf P) rows
    have h0 := refRows_inv (keysOf P) (l := List.range' S.heap.next rows.length) (n := S.heap.next + rows.length) (fun a ha => by
      rw [List.mem_range'_1] at ha; omega)
    refine ⟨⟨?_, fun d hd => ⟨(hi.held d hd).1, (hi.held d hd).2.mono hle.next⟩⟩, hle⟩
    intro P' t' hm
    rcases mem_set_cases hm with hm | hm
    · rw [Prod.mk.injEq] at hm
      obtain ⟨rfl, rfl⟩ := hm
      have h1 : Lock (preOpt s.walk (refRows (keysOf P') (List.range' S.heap.next rows.length))) ∧
          Bound (preOpt s.walk (refRows (keysOf P') (List.range' S.heap.next rows.length))) (S.heap.next + rows.length) ∧
          ∃ f, (preOpt s.walk (refRows (keysOf P') (List.range' S.heap.next rows.length))).opt = dictOf (keysOf P') f := by
        cases hw : s.walk with
        | none => exact ⟨h0.1, h0.2, _, rfl⟩
        | some w => exact ⟨prepend_lock (ho.lock w hw) h0.1, prepend_bound ((ho.bound w hw).mono (Nat.le_add_right _ _)) h0.2, prepend_keys rfl⟩
      have h2 : Lock (preOpt prev (preOpt s.walk (refRows (keysOf P') (List.range' S.heap.next rows.length)))) ∧
          Bound (preOpt prev (preOpt s.walk (refRows (keysOf P') (List.range' S.heap.next rows.length)))) (S.heap.next + rows.length) ∧
          ∃ f, (preOpt prev (preOpt s.walk (refRows (keysOf P') (List.range' S.heap.next rows.length)))).opt = dictOf (keysOf P') f := by
        cases hp : prev with
        | none => exact h1
        | some w =>
          have hh := hi.held w (hprev w hp)
          obtain ⟨f, hf⟩ := h1.2.2
          exact ⟨prepend_lock hh.1 h1.1, prepend_bound (hh.2.mono (Nat.le_add_right _ _)) h1.2.1, prepend_keys hf⟩
      constructor
      · intro w hw; rw [hwalk, Option.some.injEq] at hw; subst hw; exact h2.1
      · intro w hw; rw [hwalk, Option.some.injEq] at hw; subst hw; exact h2.2.2
      · intro w hw; rw [hwalk, Option.some.injEq] at hw; subst hw; rw [hnx]; exact h2.2.1
      · intro w hw; rw [hwalk, Option.some.injEq] at hw; subst hw; exact hnp
    · exact (hi.objs _ _ hm).mono hle.next
  | @run _ i P s ω target maxIter r hi' hω hr =>
    have ho := hi.objs _ _ (List.mem_of_getElem? hi')
    cases hw : s.walk with
    | none => unfold runRef at hr; rw [hw] at hr; cases hr
    | some w =>
      obtain ⟨f, hf⟩ := ho.keys w hw
      obtain ⟨h1, h2, h3, h4⟩ := runRef_same hw hf hr
      have hnx : r.heap.next = S.heap.next := h3.2
      refine ⟨⟨?_, ?_⟩, h3.1⟩
      · intro P' t' hm
        show ObjInv P' t' r.heap.next
        rw [hnx]
        rcases mem_set_cases hm with hm | hm
        · rw [Prod.mk.injEq] at hm
          obtain ⟨rfl, rfl⟩ := hm
          constructor
          · intro w' hw'; rw [h2, Option.some.injEq] at hw'; subst hw'; exact ho.lock _ hw
          · intro w' hw'; rw [h2, Option.some.injEq] at hw'; subst hw'; exact ⟨f, hf⟩
          · intro w' hw'; rw [h2, Option.some.injEq] at hw'; subst hw'; exact ho.bound _ hw
          · intro w' hw'
            rw [h2, Option.some.injEq] at hw'
            subst hw'
            rw [h4, ho.np _ hw]
            split
            · rfl
            · rfl
        · exact hi.objs _ _ hm
      · intro d hd
        show Lock d ∧ Bound d r.heap.next
        rw [hnx]
        rcases List.mem_append.1 hd with hd | hd
        · exact hi.held d hd
        · simp only [List.mem_singleton] at hd
          subst hd
          rw [h1]
          exact ⟨ho.lock _ hw, ho.bound _ hw⟩
  | @look _ i P s w hi' hw =>
    have ho := hi.objs _ _ (List.mem_of_getElem? hi')
    refine ⟨⟨hi.objs, ?_⟩, HLe.refl _⟩
    intro d hd
    rcases List.mem_append.1 hd with hd | hd
    · exact hi.held d hd
    · simp only [List.mem_singleton] at hd
      subst hd
      exact ⟨ho.lock _ hw, ho.bound _ hw⟩
  | @clear _ i P s hi' =>
    refine ⟨⟨?_, hi.held⟩, HLe.refl _⟩
    intro P' t' hm
    rcases mem_set_cases hm with hm | hm
    · rw [Prod.mk.injEq] at hm
      obtain ⟨rfl, rfl⟩ := hm
      constructor <;> (intro w hw; cases hw)
    · exact hi.objs _ _ hm
  | @reseed _ i P s pos hi' =>
    have ho := hi.objs _ _ (List.mem_of_getElem? hi')
    refine ⟨⟨?_, hi.held⟩, HLe.refl _⟩
    intro P' t' hm
    rcases mem_set_cases hm with hm | hm
    · rw [Prod.mk.injEq] at hm
      obtain ⟨rfl, rfl⟩ := hm
      exact ⟨ho.lock, ho.keys, ho.bound, ho.np⟩
    · exact hi.objs _ _ hm

theorem SysInv.start : SysInv (Sys.start : Sys K) := ⟨by simp [Sys.start], by simp [Sys.start]⟩

theorem SysRun.inv {as : List Act} {S S' : Sys K} (hi : SysInv S) (h : SysRun A F Ob Ω Sd as S S') : SysInv S' ∧ HLe S.heap S'.heap := by
  induction h with
  | refl => exact ⟨hi, HLe.refl _⟩
  | tail _ hs ih => exact ⟨(hs.inv (ih hi).1).1, (ih hi).2.trans (hs.inv (ih hi).1).2⟩

/-! ## Containment -/

/-- The particles of `d` are those of `w` from position `k` on. -/
def Contains (w d : RefWalk) (k : Nat) : Prop := ∃ pre post, w.xinds = pre ++ d.xinds ++ post ∧ pre.length = k

theorem Contains.refl (w : RefWalk) : Contains w w 0 := ⟨[], [], by simp, rfl⟩

theorem Contains.prepend {w d old : RefWalk} {k : Nat} (h : Contains w d k) : Contains (prependRef old w) d (old.xinds.length + k) := by
  obtain ⟨pre, post, hw, rfl⟩ := h
  exact ⟨old.xinds ++ pre, post, by show old.xinds ++ w.xinds = _; rw [hw]; simp, by simp⟩

theorem Contains.left {w d old : RefWalk} {k : Nat} (h : Contains old d k) : Contains (prependRef old w) d k := by
  obtain ⟨pre, post, hw, rfl⟩ := h
  exact ⟨pre, post ++ w.xinds, by show old.xinds ++ w.xinds = _; rw [hw]; simp, rfl⟩

theorem Contains.preOpt {w d : RefWalk} {k : Nat} (h : Contains w d k) (o : Option RefWalk) : ∃ k', Contains (preOpt o w) d k' := by
  cases o with
  | none => exact ⟨k, h⟩
  | some old => exact ⟨_, h.prepend⟩

theorem SysStep.keeps {a : Act} {S S' : Sys K} (hi : SysInv S) (hs : SysStep A F Ob Ω Sd a S S') {i : Nat} {P : PObj K} {s : RefState K}
    {w d : RefWalk} {k : Nat} (ha : a ≠ .clear i) (ho : S.objs[i]? = some (P, s)) (hw : s.walk = some w) (hd : Contains w d k) :
    ∃ s' w' k', S'.objs[i]? = some (P, s') ∧ s'.walk = some w' ∧ Contains w' d k' := by
  have hlt : i < S.objs.length := (List.getElem?_eq_some_iff.1 ho).1
  have same : ∀ (j : Nat) (P' : PObj K) (s' : RefState K), S.objs[j]? = some (P', s') → ∀ s'' : RefState K,
      (S.objs.set j (P', s''))[i]? = if i = j then some (P, s'') else some (P, s) := by
    intro j P' s' hj s''
    rw [List.getElem?_set]
    by_cases hij : j = i
    · subst hij
      rw [ho, Option.some.injEq, Prod.mk.injEq] at hj
      obtain ⟨rfl, rfl⟩ := hj
      simp [hlt]
    · rw [if_neg hij, if_neg (Ne.symm hij), ho]
  cases hs with
  | @new _ P' pos hP => exact ⟨s, w, k, by rw [List.getElem?_append_left hlt]; exact ho, hw, hd⟩
  | @generate _ j P' s0 prev ω np xs ys time method n x y t m h' s' hj hω hprev hc hn hsd hg =>
    dsimp only
    rw [same j P' s0 hj]
    by_cases hij : i = j
    · subst hij
      rw [ho, Option.some.injEq, Prod.mk.injEq] at hj
      obtain ⟨rfl, rfl⟩ := hj
      obtain ⟨rows, pos', -, rfl, hworld, hwalk, hnp, -, -⟩ := generateRef_inv hc hn hg
      rw [if_pos rfl]
      have h1 : Contains (preOpt s.walk (refRows (keysOf P) (List.range' S.heap.next rows.length))) d k := by
        rw [hw]; exact hd.left
      obtain ⟨k', hk'⟩ := h1.preOpt prev
      exact ⟨s', _, k', rfl, hwalk, hk'⟩
    · rw [if_neg hij]
      exact ⟨s, w, k, rfl, hw, hd⟩
  | @run _ j P' s0 ω target maxIter r hj hω hr =>
    dsimp only
    rw [same j P' s0 hj]
    by_cases hij : i = j
    · subst hij
      rw [ho, Option.some.injEq, Prod.mk.injEq] at hj
      obtain ⟨rfl, rfl⟩ := hj
      obtain ⟨f, hf⟩ := (hi.objs _ _ (List.mem_of_getElem? ho)).keys w hw
      obtain ⟨-, h2, -, -⟩ := runRef_same hw hf hr
      rw [if_pos rfl]
      exact ⟨_, w, k, rfl, h2, hd⟩
    · rw [if_neg hij]
      exact ⟨s, w, k, rfl, hw, hd⟩
  | look hj hw' => exact ⟨s, w, k, ho, hw, hd⟩
  | @clear _ j P' s0 hj =>
    dsimp only
    rw [same j P' s0 hj, if_neg (fun h => ha (by rw [h]))]
    exact ⟨s, w, k, rfl, hw, hd⟩
  | @reseed _ j P' s0 pos hj =>
    dsimp only
    rw [same j P' s0 hj]
    by_cases hij : i = j
    · subst hij
      rw [ho, Option.some.injEq, Prod.mk.injEq] at hj
      obtain ⟨rfl, rfl⟩ := hj
      rw [if_pos rfl]
      exact ⟨_, w, k, rfl, hw, hd⟩
    · rw [if_neg hij]
      exact ⟨s, w, k, rfl, hw, hd⟩

theorem SysRun.keeps {as : List Act} {S S' : Sys K} (hi : SysInv S) (hs : SysRun A F Ob Ω Sd as S S') {i : Nat} {P : PObj K} {s : RefState K}
    {w d : RefWalk} {k : Nat} (ha : Act.clear i ∉ as) (ho : S.objs[i]? = some (P, s)) (hw : s.walk = some w) (hd : Contains w d k) :
    ∃ s' w' k', S'.objs[i]? = some (P, s') ∧ s'.walk = some w' ∧ Contains w' d k' := by
  induction hs with
  | refl => exact ⟨s, w, k, ho, hw, hd⟩
  | tail h1 h2 ih =>
    rw [List.mem_append, not_or] at ha
    obtain ⟨s1, w1, k1, ho1, hw1, hd1⟩ := ih hi ha.1 ho
    exact h2.keeps (h1.inv hi).1 (fun he => ha.2 (by simp [he])) ho1 hw1 hd1

theorem Contains.shows {h : Heap K} {w d : RefWalk} {k : Nat} (hw : Lock w) (hd : Lock d) (hc : Contains w d k) : Shows h d w k := by
  obtain ⟨pre, post, hx, rfl⟩ := hc
  have key : ∀ {α : Type} (f : Nat → List α) (j : Nat), j < (d.xinds.map f).length → (w.xinds.map f)[pre.length + j]? = (d.xinds.map f)[j]? := by
    intro α f j hj
    rw [hx, List.map_append, List.map_append, List.append_assoc, List.getElem?_append_right (by simp)]
    simp only [List.length_map, Nat.add_sub_cancel_left]
    rw [List.getElem?_append_left hj]
  refine ⟨fun j hj => key _ j hj, fun j hj => ?_, fun j hj => ?_⟩
  · show (w.yinds.map h.ys)[_]? = (d.yinds.map h.ys)[j]?
    have hj' : j < (d.yinds.map h.ys).length := hj
    rw [hd.1] at hj' ⊢
    rw [hw.1]
    exact key _ j hj'
  · show (w.times.map h.ts)[_]? = (d.times.map h.ts)[j]?
    have hj' : j < (d.times.map h.ts).length := hj
    rw [hd.2] at hj' ⊢
    rw [hw.2]
    exact key _ j hj'

theorem HLe.continues {h h' : Heap K} {w : RefWalk} (hl : HLe h h') (hw : Lock w) (hb : Bound w h.next) : Continues (h.read w) (h'.read w) := by
  have key : ∀ {α : Type} (f g : Nat → List α) (l : List Nat), (∀ a ∈ l, f a <+: g a) → List.Forall₂ List.IsPrefix (l.map f) (l.map g) := by
    intro α f g l hfg
    induction l with
    | nil => exact .nil
    | cons a l ih => exact .cons (hfg a (by simp)) (ih fun b hb => hfg b (by simp [hb]))
  refine ⟨key _ _ _ fun a ha => hl.xs a (hb.base a ha), key _ _ _ fun a ha => hl.ys a (hb.base a (hw.1 ▸ ha)),
    key _ _ _ fun a ha => hl.ts a (hb.base a (hw.2 ▸ ha)), ?_⟩
  show List.Forall₂ _ (w.opt.map fun e => (e.1, e.2.map (h.vs e.1))) (w.opt.map fun e => (e.1, e.2.map (h'.vs e.1)))
  have hopt := hb.opt
  revert hopt
  generalize w.opt = d
  intro hopt
  induction d with
  | nil => exact .nil
  | cons e d ih => exact .cons ⟨rfl, key _ _ _ fun a ha => hl.vs _ a (hopt e (by simp) a ha)⟩ (ih fun e' he' => hopt e' (by simp [he']))

end sys

end Dorado
