import Verif.Lemmas.HeapAny
import Verif.Lemmas.Safe

/-! Helper lemmas: `run_iteration` succeeds on interior particles, however they are shared. -/

set_option linter.unusedSectionVars false

namespace Dorado

variable {K : Type} [Field K] [LinearOrder K] [IsStrictOrderedRing K] [FloorRing K] {A : Arith K} {F : Fun K A}

/-- Aligned row all of whose positions are interior. -/
structure SafeRow (keys : List String) (R C : Nat) (r : Row K) : Prop where
  vars : VarInv (fun _ _ _ => True) keys r
  inside : ∀ n p t, r.recAt n p t → Inside R C p

theorem VarInv.grow {keys : List String} {V : String → Int × Int → Val K → Prop} {r : Row K} (h : VarInv V keys r) {q : Int × Int} {t' : Fl K}
    {v : String → Val K} (hv : ∀ key ∈ keys, V key q (v key)) : VarInv V keys (r.append q t' v) := by
  refine ⟨r.append_aligned h.aligned _ _ _, fun key hk => ?_, fun key hk n p' t'' v' hr hv' => ?_⟩
  · have := h.len key hk
    simp [Row.append, this]
  · have hl := h.len key hk
    simp only [Row.append, List.getElem?_append] at hv'
    rcases (Row.append_rec h.aligned).1 hr with h1 | ⟨h1, rfl, -⟩
    · have hlt := r.rec_lt h1
      rw [if_pos (by omega)] at hv'
      exact h.val key hk n _ _ _ h1 hv'
    · rw [if_neg (by omega), hl, h1] at hv'
      simp at hv'
      rw [← hv']
      exact hv key hk

theorem SafeRow.grows {P : PObj K} (G : Good P) (hW : DefaultWalk P) (hz : StepsNonzero A P) (hring : EdgeRing P) {ω : Nat → K} (keys : List String) :
    Grows A F P ω (SafeRow keys P.depth.rows P.depth.cols) := by
  refine ⟨fun r h => h.vars.aligned, fun r n p t q t' v h hrec hs hne hv => ⟨h.vars.grow fun _ _ => trivial, fun m p' t'' hm => ?_⟩⟩
  rcases (Row.append_rec h.vars.aligned).1 hm with hm | ⟨-, rfl, -⟩
  · exact h.inside _ _ _ hm
  · obtain ⟨k, q0, d, m, m', dt, -, hq0, hd, rfl, -, -⟩ := hs
    exact dest_inside G hW hz hring (h.inside _ _ _ hrec) hq0 hd

theorem GoodHeap.last {keys : List String} {R C : Nat} {h : Heap K} (hg : GoodHeap keys (SafeRow keys R C) h) {a : Nat} (ha : a < h.next) :
    ∃ p t, (h.xs a).getLast? = some p.1 ∧ (h.ys a).getLast? = some p.2 ∧ (h.ts a).getLast? = some t ∧ Inside R C p ∧
      ∀ k ∈ keys, h.vs k a ≠ [] := by
  obtain ⟨r, h1, h2⟩ := hg a ha
  obtain ⟨e1, e2, e3⟩ := h1.vars.aligned
  have hx : r.xs ≠ [] := List.ne_nil_of_length_pos e3
  have hy : r.ys ≠ [] := List.ne_nil_of_length_pos (by omega)
  have ht : r.ts ≠ [] := List.ne_nil_of_length_pos (by omega)
  have hp : r.lastPos (r.xs.getLast hx, r.ys.getLast hy) := ⟨List.getLast?_eq_some_getLast hx, List.getLast?_eq_some_getLast hy⟩
  have hr := Row.last_rec h1.vars.aligned hp (List.getLast?_eq_some_getLast ht)
  refine ⟨_, _, (congrArg List.getLast? h2.xs).symm.trans hp.1, (congrArg List.getLast? h2.ys).symm.trans hp.2,
    (congrArg List.getLast? h2.ts).symm.trans (List.getLast?_eq_some_getLast ht), h1.inside _ _ _ hr, fun k hk h0 => ?_⟩
  have h5 := h1.vars.len k hk
  have h6 : r.os k = [] := (h2.os k hk).trans h0
  rw [h6] at h5
  simp at h5
  omega

theorem lastAt_of {α : Type} {f : Nat → List α} {l : List Nat} {ii a : Nat} {x : α} (hl : l[ii]? = some a) (hx : (f a).getLast? = some x) :
    lastAt (l.map f) ii = .ok x := by
  unfold lastAt
  simp only [bind_ok, listGet_ok, lastOf_ok, List.getElem?_map]
  exact ⟨f a, by simp [hl], hx⟩

theorem storeRef_total {starts news : List (Int × Int)} {times : List (Fl K)} {upd : List (String × List (Val K))}
    {keys : List String} {w : RefWalk} (is : List Nat) (h : ∀ i ∈ is, (∃ a, news[i]? = some a) ∧ (∃ a, starts[i]? = some a) ∧ (∃ a, times[i]? = some a) ∧
      ∀ key ∈ keys, ∃ l v, dictGet upd key = some l ∧ l[i]? = some v) (hp : Heap K) :
    ∃ out, storeRef starts news times upd keys w is hp = .ok out := by
  induction is generalizing hp with
  | nil => exact ⟨hp, rfl⟩
  | cons a is ih =>
    obtain ⟨⟨q, hq⟩, ⟨p, hp'⟩, ⟨t, ht⟩, hv⟩ := h a (by simp)
    obtain ⟨vals, hvals⟩ := pickOpt_total hv
    unfold storeRef
    rw [listGet_ok.2 hq, listGet_ok.2 hp']
    simp only [ok_bind]
    split
    · rw [listGet_ok.2 ht, hvals]
      simp only [ok_bind]
      exact ih (fun i hi => h i (by simp [hi])) _
    · exact ih (fun i hi => h i (by simp [hi])) _

theorem loopRef_total {P : PObj K} (R : Routable A P) {ω : Nat → K} (hω : Draws ω) {target : Fl K} {maxIter : Int} {ii : Nat} (fuel : Nat)
    {l : List Nat} {h : Heap K} {s : World K} {est : Fl K} {count : Int} (hw : PickEquiv A F P s.weight) {a : Nat} (ha : l[ii]? = some a)
    (hl : ∀ a ∈ l, a < h.next) (hg : GoodHeap (keysOf P) (SafeRow (keysOf P) P.depth.rows P.depth.cols) h)
    (hf : 1 ≤ fuel) (hc : maxIter + 2 ≤ fuel + count) :
    ∃ res, loopRef A F P ω target maxIter (keysOf P) (refRows (keysOf P) l) ii fuel h s est count = .ok res := by
  induction fuel generalizing h s est count with
  | zero => omega
  | succ fuel ih =>
    have han := hl a (List.mem_of_getElem? ha)
    obtain ⟨p, t, hx, hy, ht, hin, -⟩ := hg.last han
    unfold loopRef
    rw [show lastAt (h.read (refRows (keysOf P) l)).times ii = .ok t from lastAt_of ha ht]
    simp only [ok_bind]
    split
    · rw [show lastAt (h.read (refRows (keysOf P) l)).xinds ii = .ok p.1 from lastAt_of ha hx]
      simp only [ok_bind]
      rw [show lastAt (h.read (refRows (keysOf P) l)).yinds ii = .ok p.2 from lastAt_of ha hy]
      simp only [ok_bind]
      obtain ⟨news, times, upd, s1, hst, hupd⟩ := particleStepper_total (F := F) R hω hw (cur := [(p.1, p.2)]) (by simpa using hin) [t] (keysOf P)
        (fun _ h => h)
      rw [hst]
      simp only [ok_bind]
      obtain ⟨hw1, hlen, hstep, hopt⟩ := particleStepper_inv A F R.fields.good hw hst
      obtain ⟨q, t1, hq, ht1, hso⟩ := hstep 0 (p.1, p.2) t rfl rfl
      rw [listGet_ok.2 hq]
      simp only [ok_bind]
      by_cases hqp : q = (p.1, p.2)
      · simp only [hqp, ne_eq, not_true, if_false]
        exact ⟨_, rfl⟩
      · simp only [ne_eq, hqp, not_false_eq_true, if_true]
        rw [listGet_ok.2 ht1]
        simp only [ok_bind]
        obtain ⟨vals, hvals⟩ := pickOpt_total (upd := upd) (keys := keysOf P) (k := 0) (fun key hk => by
          obtain ⟨l, hl⟩ := hupd key hk
          obtain ⟨v, hv, -⟩ := hopt key l 0 q hl hq
          exact ⟨l, v, hl, hv⟩)
        rw [hvals]
        simp only [ok_bind]
        split
        · exact ⟨_, rfl⟩
        · obtain ⟨v, rfl, hv⟩ := pickOpt_inv hvals
          obtain ⟨n, hrec⟩ := last_recAt (Q := SafeRow (keysOf P) P.depth.rows P.depth.cols) (fun r h => h.vars.aligned) hg han hx hy ht
          refine ih hw1 (by exact hl) ?_ (by omega) (by push_cast at hc; omega)
          refine append_good (A := A) (F := F) (ω := ω) (SafeRow.grows R.fields.good R.walk R.steps R.ring _) ha han hg hrec hso hqp fun key hkey => ?_
          obtain ⟨l, hl, hl'⟩ := hv key hkey
          obtain ⟨w, hw2, hw3⟩ := hopt key l 0 q hl hq
          rw [hl'] at hw2
          injection hw2 with hw2
          rw [hw2]; exact hw3
    · exact ⟨_, rfl⟩

theorem oneRef_total {P : PObj K} (R : Routable A P) {ω : Nat → K} (hω : Draws ω) {target : Fl K} {maxIter : Int} {ii : Nat}
    {l : List Nat} {h : Heap K} {s : World K} (hw : PickEquiv A F P s.weight) {a : Nat} (ha : l[ii]? = some a)
    (hl : ∀ a ∈ l, a < h.next) (hg : GoodHeap (keysOf P) (SafeRow (keysOf P) P.depth.rows P.depth.cols) h) :
    ∃ res, oneRef A F P ω target maxIter (keysOf P) (refRows (keysOf P) l) h s ii = .ok res := by
  obtain ⟨p, t, hx, hy, ht, hin, -⟩ := hg.last (hl a (List.mem_of_getElem? ha))
  unfold oneRef
  have hts : listGet (h.read (refRows (keysOf P) l)).times ii = .ok (h.ts a) := by
    rw [listGet_ok]
    show (l.map _)[ii]? = _
    rw [List.getElem?_map, ha]; rfl
  rw [hts]
  simp only [ok_bind]
  rw [show lastAt (h.read (refRows (keysOf P) l)).xinds ii = .ok p.1 from lastAt_of ha hx]
  simp only [ok_bind]
  rw [show lastAt (h.read (refRows (keysOf P) l)).yinds ii = .ok p.2 from lastAt_of ha hy]
  simp only [ok_bind]
  split
  · exact ⟨_, rfl⟩
  · exact loopRef_total R hω _ hw ha hl hg (by omega) (by push_cast; omega)

theorem allRef_total {P : PObj K} (R : Routable A P) {ω : Nat → K} (hω : Draws ω) {target : Fl K} {maxIter : Int} (is : List Nat)
    {l : List Nat} {h : Heap K} {s : World K} (hw : PickEquiv A F P s.weight) (hi : ∀ i ∈ is, i < l.length)
    (hl : ∀ a ∈ l, a < h.next) (hg : GoodHeap (keysOf P) (SafeRow (keysOf P) P.depth.rows P.depth.cols) h) (w : Option (List Nat)) :
    ∃ out s' w', allRef A F P ω target maxIter (keysOf P) (refRows (keysOf P) l) is h s w = .ok (out, s', w') ∧
      (w' = none → is = [] ∧ w = none) := by
  induction is generalizing h s w with
  | nil => exact ⟨_, _, _, rfl, fun h => ⟨rfl, h⟩⟩
  | cons a is ih =>
    have ha := List.getElem?_eq_getElem (hi a (by simp))
    obtain ⟨⟨out, s1, hit⟩, h1⟩ := oneRef_total (F := F) R hω (target := target) (maxIter := maxIter) hw ha hl hg
    obtain ⟨hg1, hw1⟩ := oneRef_good R.fields.good (SafeRow.grows R.fields.good R.walk R.steps R.ring _) hw hg hl h1
    have hn : out.next = h.next := (oneRef_rel (HLe0.app _) h1).2
    unfold allRef
    rw [h1]
    simp only [ok_bind]
    obtain ⟨out2, s2, w2, h2, h3⟩ := ih hw1 (fun i hi' => hi i (by simp [hi'])) (by rw [hn]; exact hl) hg1 (some (if hit then [a] else []))
    refine ⟨out2, s2, w2, h2, fun h => ?_⟩
    cases (h3 h).2

/-- `run_iteration` succeeds. -/
theorem runRef_total {P : PObj K} (R : Routable A P) {ω : Nat → K} (hω : Draws ω) {h : Heap K} {s : RefState K} {l : List Nat}
    {target : Option (Fl K)} {maxIter : Int} (hw : PickEquiv A F P s.world.weight) (hwalk : s.walk = some (refRows (keysOf P) l)) (hnp : s.np = l.length)
    (hl : ∀ a ∈ l, a < h.next) (hg : GoodHeap (keysOf P) (SafeRow (keysOf P) P.depth.rows P.depth.cols) h) (ht : target = none ∨ l ≠ []) :
    ∃ res, runRef A F P ω h s target maxIter = .ok res := by
  unfold runRef
  rw [hwalk]
  dsimp only
  have hnp' : (if s.np = 0 then (refRows (keysOf P) l).xinds.length else s.np) = l.length := by
    split
    · rfl
    · exact hnp
  have hopt : (refRows (keysOf P) l).opt = dictOf (keysOf P) fun _ => l := rfl
  rw [hnp', optionalRef_eq (P := P) (np := l.length) hopt h]
  have hget : ∀ i ∈ List.range l.length, ∃ a, l[i]? = some a ∧ a < h.next := fun i hi => by
    have hi : i < l.length := by simpa using hi
    exact ⟨_, List.getElem?_eq_getElem hi, hl _ (List.getElem_mem hi)⟩
  obtain ⟨sx, hsx⟩ := mapE_exists (f := lastAt (h.read (refRows (keysOf P) l)).xinds) (l := List.range l.length) fun i hi => by
    obtain ⟨a, ha, han⟩ := hget i hi
    obtain ⟨p, t, hx, hy, ht, hin, -⟩ := hg.last han
    exact ⟨_, lastAt_of ha hx⟩
  obtain ⟨sy, hsy⟩ := mapE_exists (f := lastAt (h.read (refRows (keysOf P) l)).yinds) (l := List.range l.length) fun i hi => by
    obtain ⟨a, ha, han⟩ := hget i hi
    obtain ⟨p, t, hx, hy, ht, hin, -⟩ := hg.last han
    exact ⟨_, lastAt_of ha hy⟩
  obtain ⟨st, hst⟩ := mapE_exists (f := lastAt (h.read (refRows (keysOf P) l)).times) (l := List.range l.length) fun i hi => by
    obtain ⟨a, ha, han⟩ := hget i hi
    obtain ⟨p, t, hx, hy, ht, hin, -⟩ := hg.last han
    exact ⟨_, lastAt_of ha ht⟩
  obtain ⟨so, hso⟩ := mapE_exists (f := fun e : String × List (List (Val K)) => mapE (lastAt e.2) (List.range l.length))
      (l := (h.read (refRows (keysOf P) l)).opt) fun e he => by
    obtain ⟨e', he', rfl⟩ := List.mem_map.1 he
    obtain ⟨k, hk, rfl⟩ := List.mem_map.1 he'
    refine mapE_exists fun i hi => ?_
    obtain ⟨a, ha, han⟩ := hget i hi
    obtain ⟨p, t, hx, hy, ht, hin, hne⟩ := hg.last han
    exact ⟨_, lastAt_of ha (List.getLast?_eq_some_getLast (hne k hk))⟩
  rw [hsx, hsy, hst]
  simp only [ok_bind]
  rw [show (h.read { refRows (keysOf P) l with opt := (refRows (keysOf P) l).opt }).opt = (h.read (refRows (keysOf P) l)).opt from rfl, hso]
  simp only [ok_bind]
  have hkeys : ((refRows (keysOf P) l).opt).map (fun x => x.1) = keysOf P := by
    show (dictOf (keysOf P) _).map _ = _
    unfold dictOf; rw [List.map_map]; simp [Function.comp_def]
  rw [hkeys]
  have hlx := mapE_length hsx
  have hly := mapE_length hsy
  have hlt := mapE_length hst
  cases target with
  | none =>
    simp only
    have hcur : ∀ p ∈ sx.zip sy, Inside P.depth.rows P.depth.cols p := by
      intro p hp
      obtain ⟨i, hi⟩ := List.getElem?_of_mem hp
      rw [List.getElem?_zip_eq_some] at hi
      obtain ⟨a, ha, ha'⟩ := mapE_get' hsx hi.1
      obtain ⟨b, hb, hb'⟩ := mapE_get' hsy hi.2
      rw [ha] at hb
      cases hb
      obtain ⟨r, hr, hx⟩ := lastAt_map (l := l) ha'
      obtain ⟨r2, hr2, hy⟩ := lastAt_map (l := l) hb'
      rw [hr] at hr2
      cases hr2
      obtain ⟨p', t, hx', hy', -, hin, -⟩ := hg.last (hl r (List.mem_of_getElem? hr))
      rw [hx] at hx'
      rw [hy] at hy'
      injection hx' with hx'
      injection hy' with hy'
      rw [show p = p' from Prod.ext hx' hy']
      exact hin
    obtain ⟨news, times, upd, s1, hstep, hupd⟩ := particleStepper_total (F := F) R hω hw hcur st (keysOf P) (fun _ h => h)
    obtain ⟨hw1, hlen, hst1, hopt⟩ := particleStepper_inv A F R.fields.good hw hstep
    rw [hstep]
    simp only [ok_bind]
    obtain ⟨out, hout⟩ := storeRef_total (starts := sx.zip sy) (news := news) (times := times) (upd := upd) (keys := keysOf P) (w := refRows (keysOf P) l)
      (List.range l.length) (fun i hi => by
        have hi' : i < l.length := by simpa using hi
        have hp : ∃ p, (sx.zip sy)[i]? = some p := ⟨_, List.getElem?_eq_getElem (by simp [List.length_zip]; simp at hlx hly; omega)⟩
        have ht : ∃ t, st[i]? = some t := ⟨_, List.getElem?_eq_getElem (by simp at hlt; omega)⟩
        obtain ⟨p, hp⟩ := hp
        obtain ⟨t, ht⟩ := ht
        obtain ⟨q, t1, hq, ht1, -⟩ := hst1 i p t hp ht
        refine ⟨⟨q, hq⟩, ⟨p, hp⟩, ⟨t1, ht1⟩, fun key hk => ?_⟩
        obtain ⟨l, hl⟩ := hupd key hk
        obtain ⟨v, hv, -⟩ := hopt key l i q hl hq
        exact ⟨l, v, hl, hv⟩) h
    rw [hout]
    exact ⟨_, rfl⟩
  | some tgt =>
    simp only
    obtain ⟨out, s1, w, hall, hwn⟩ := allRef_total (F := F) R hω (target := tgt) (maxIter := maxIter) (List.range l.length) hw
      (fun i hi => by simpa using hi) hl hg none
    rw [hall]
    simp only [ok_bind]
    cases w with
    | none =>
      have := (hwn rfl).1
      rcases ht with h | h
      · cases h
      · exact absurd (by simpa using this) h
    | some l => exact ⟨_, rfl⟩

section sys
variable {Ob : PObj K → Prop} {Ω : (Nat → K) → Prop} {Sd : PObj K → List Int → List Int → Fl K → Prop}

/-- Tracked variables are available to objects that have walk data. -/
def AvailInv (S : Sys K) : Prop := ∀ P s w, (P, s) ∈ S.objs → s.walk = some w → VarsOk P

theorem SysStep.avail {a : Act} {S S' : Sys K} (hi : AvailInv S) (hs : SysStep A F Ob Ω Sd a S S') : AvailInv S' := by
  intro P' s' w hm hw
  cases hs with
  | @new _ P pos hP =>
    rcases List.mem_append.1 hm with hm | hm
    · exact hi _ _ _ hm hw
    · simp only [List.mem_singleton, Prod.mk.injEq] at hm
      obtain ⟨rfl, rfl⟩ := hm
      cases hw
  | @generate _ i P s prev ω np xs ys time method n x y t m h' s'' hi' hω hprev hc hn hsd hg =>
    rcases mem_set_cases hm with hm | hm
    · rw [Prod.mk.injEq] at hm
      obtain ⟨rfl, rfl⟩ := hm
      obtain ⟨rows, pos', hnew, -⟩ := generateRef_inv hc hn hg
      exact newWalk_avail hnew
    · exact hi _ _ _ hm hw
  | @run _ i P s ω target maxIter r hi' hω hr =>
    rcases mem_set_cases hm with hm | hm
    · rw [Prod.mk.injEq] at hm
      obtain ⟨rfl, rfl⟩ := hm
      cases hw0 : s.walk with
      | none => unfold runRef at hr; rw [hw0] at hr; cases hr
      | some w0 => exact hi _ _ _ (List.mem_of_getElem? hi') hw0
    · exact hi _ _ _ hm hw
  | look => exact hi _ _ _ hm hw
  | @clear _ i P s hi' =>
    rcases mem_set_cases hm with hm | hm
    · rw [Prod.mk.injEq] at hm
      obtain ⟨rfl, rfl⟩ := hm
      cases hw
    · exact hi _ _ _ hm hw
  | @reseed _ i P s pos hi' =>
    rcases mem_set_cases hm with hm | hm
    · rw [Prod.mk.injEq] at hm
      obtain ⟨rfl, rfl⟩ := hm
      exact hi _ _ _ (List.mem_of_getElem? hi') hw
    · exact hi _ _ _ hm hw

theorem SysRun.avail {as : List Act} {S S' : Sys K} (hi : AvailInv S) (hs : SysRun A F Ob Ω Sd as S S') : AvailInv S' := by
  induction hs with
  | refl => exact hi
  | tail _ h2 ih => exact h2.avail (ih hi)

end sys

end Dorado
