import Verif.Lemmas.Heap

/-! Helper lemmas: without a particle held twice, routing by reference is routing by value. -/

set_option linter.unusedSectionVars false

namespace Dorado

variable {K : Type} [Field K] [LinearOrder K] [IsStrictOrderedRing K] [FloorRing K] {A : Arith K} {F : Fun K A}

/-- No list object occurs twice in the dictionary. -/
structure Sep (ks : List String) (f : String → List Nat) (w : RefWalk) : Prop where
  xs : w.xinds.Nodup
  ys : w.yinds.Nodup
  ts : w.times.Nodup
  opt : w.opt = dictOf ks f
  vs : ∀ k ∈ ks, (f k).Nodup

theorem map_appendAt {α : Type} {l : List Nat} (hl : l.Nodup) (f : Nat → List α) (ii : Nat) (v : α) :
    l.map (appendAt f l[ii]? v) = (l.map f).modify ii (· ++ [v]) := by
  apply List.ext_getElem?
  intro n
  rw [List.getElem?_map, List.getElem?_modify, List.getElem?_map]
  cases hn : l[n]? with
  | none => rfl
  | some a =>
    simp only [Option.map_some, Option.map_eq_map, Option.some.injEq]
    by_cases hin : ii = n
    · subst hin
      rw [hn, if_pos rfl]
      simp [appendAt]
    · rw [if_neg hin]
      cases hi : l[ii]? with
      | none => rfl
      | some b =>
        have hne : a ≠ b := by
          rintro rfl
          obtain ⟨h1, h1'⟩ := List.getElem?_eq_some_iff.1 hn
          obtain ⟨h2, h2'⟩ := List.getElem?_eq_some_iff.1 hi
          exact hin ((hl.getElem_inj_iff).1 (h2'.trans h1'.symm))
        simp [appendAt, hne]

theorem read_opt {ks : List String} {f : String → List Nat} {w : RefWalk} (h : Heap K) (hw : w.opt = dictOf ks f) :
    (h.read w).opt = dictOf ks fun k => (f k).map (h.vs k) := by
  show w.opt.map _ = _
  rw [hw]
  unfold dictOf
  rw [List.map_map]
  rfl

theorem append_read {ks : List String} {f : String → List Nat} {w : RefWalk} (hw : Sep ks f w) (h : Heap K) (ii : Nat) (pos : Int × Int) (t : Fl K)
    (vals : List (String × Val K)) : (h.append w ii pos t vals).read w = appendRec (h.read w) ii pos t vals := by
  have hx : (h.append w ii pos t vals).xs = appendAt h.xs w.xinds[ii]? pos.1 := rfl
  have hy : (h.append w ii pos t vals).ys = appendAt h.ys w.yinds[ii]? pos.2 := rfl
  have ht : (h.append w ii pos t vals).ts = appendAt h.ts w.times[ii]? t := rfl
  have e1 : ((h.append w ii pos t vals).read w).xinds = (appendRec (h.read w) ii pos t vals).xinds := by
    show w.xinds.map _ = _
    rw [hx, map_appendAt hw.xs]; rfl
  have e2 : ((h.append w ii pos t vals).read w).yinds = (appendRec (h.read w) ii pos t vals).yinds := by
    show w.yinds.map _ = _
    rw [hy, map_appendAt hw.ys]; rfl
  have e3 : ((h.append w ii pos t vals).read w).times = (appendRec (h.read w) ii pos t vals).times := by
    show w.times.map _ = _
    rw [ht, map_appendAt hw.ts]; rfl
  have e4 : ((h.append w ii pos t vals).read w).opt = (appendRec (h.read w) ii pos t vals).opt := by
    rw [read_opt _ hw.opt]
    show _ = (h.read w).opt.map _
    rw [read_opt _ hw.opt]
    unfold dictOf
    rw [List.map_map]
    apply List.map_congr_left
    intro k hk
    have hv : (h.append w ii pos t vals).vs k = match dictGet w.opt k, dictGet vals k with
      | some l, some v => appendAt (h.vs k) l[ii]? v
      | _, _ => h.vs k := rfl
    have hg : dictGet w.opt k = some (f k) := by rw [hw.opt, dictGet_dictOf, if_pos hk]
    simp only [Function.comp]
    rw [hv, hg]
    cases dictGet vals k with
    | none => rfl
    | some v =>
      dsimp only
      rw [map_appendAt (hw.vs k hk)]
  cases h1 : (h.append w ii pos t vals).read w
  cases h2 : appendRec (h.read w) ii pos t vals
  rw [h1, h2] at e1 e2 e3 e4
  simp only at e1 e2 e3 e4
  rw [e1, e2, e3, e4]

/-- Value of a successful call under a function. -/
def onOk {ε α β : Type} (f : α → β) : Except ε α → Except ε β
  | .ok a => .ok (f a)
  | .error e => .error e

theorem onOk_bind {ε α β γ : Type} (f : β → γ) (x : Except ε α) (g : α → Except ε β) :
    onOk f (x >>= g) = x >>= fun a => onOk f (g a) := by
  cases x <;> rfl

theorem bind_onOk {ε α β γ : Type} (f : α → β) (x : Except ε α) (g : β → Except ε γ) : onOk f x >>= g = x >>= fun a => g (f a) := by
  cases x <;> rfl

theorem store_read {ks : List String} {f : String → List Nat} {w : RefWalk} (hw : Sep ks f w)
    {starts news : List (Int × Int)} {times : List (Fl K)} {upd : List (String × List (Val K))} {keys : List String}
    (is : List Nat) (h : Heap K) :
    storeSteps starts news times upd keys is (h.read w) = onOk (fun h => h.read w) (storeRef starts news times upd keys w is h) := by
  induction is generalizing h with
  | nil => rfl
  | cons ii is ih =>
    simp only [storeSteps, storeRef, onOk_bind]
    congr 1; funext n; congr 1; funext s
    by_cases hns : n ≠ s
    · rw [if_pos hns, if_pos hns, onOk_bind]
      congr 1; funext t
      rw [onOk_bind]
      congr 1; funext vals
      rw [← append_read hw]
      exact ih _
    · rw [if_neg hns, if_neg hns]
      exact ih h

theorem loop_read {ks : List String} {f : String → List Nat} {w : RefWalk} (hw : Sep ks f w) {P : PObj K} {ω : Nat → K} {target : Fl K}
    {maxIter : Int} {keys : List String} {ii : Nat} (fuel : Nat) (h : Heap K) (s : World K) (est : Fl K) (count : Int) :
    targetLoop A F P ω target maxIter keys ii fuel (h.read w) s est count =
      onOk (fun r => (r.1.read w, r.2.1, r.2.2)) (loopRef A F P ω target maxIter keys w ii fuel h s est count) := by
  induction fuel generalizing h s est count with
  | zero =>
    unfold targetLoop loopRef
    rw [onOk_bind]
    congr 1; funext t
    split <;> rfl
  | succ fuel ih =>
    unfold targetLoop loopRef
    rw [onOk_bind]
    congr 1; funext t
    split
    · simp only [onOk_bind]
      congr 1; funext x; congr 1; funext y; congr 1; funext p; congr 1; funext n
      split
      · rw [onOk_bind]
        congr 1; funext t1
        rw [onOk_bind]
        congr 1; funext vals
        rw [← append_read hw]
        split
        · rfl
        · exact ih _ _ _ _
      · rfl
    · rfl

theorem one_read {ks : List String} {f : String → List Nat} {w : RefWalk} (hw : Sep ks f w) {P : PObj K} {ω : Nat → K} {target : Fl K}
    {maxIter : Int} {keys : List String} (ii : Nat) (h : Heap K) (s : World K) :
    targetOne A F P ω target maxIter keys (h.read w) s ii =
      onOk (fun r => (r.1.read w, r.2.1, r.2.2)) (oneRef A F P ω target maxIter keys w h s ii) := by
  unfold targetOne oneRef
  simp only [onOk_bind]
  congr 1; funext ts; congr 1; funext x; congr 1; funext y
  split
  · rfl
  · exact loop_read hw _ _ _ _ _

theorem all_read {ks : List String} {f : String → List Nat} {w : RefWalk} (hw : Sep ks f w) {P : PObj K} {ω : Nat → K} {target : Fl K}
    {maxIter : Int} {keys : List String} (is : List Nat) (h : Heap K) (s : World K) (wn : Option (List Nat)) :
    targetAll A F P ω target maxIter keys is (h.read w) s wn =
      onOk (fun r => (r.1.read w, r.2.1, r.2.2)) (allRef A F P ω target maxIter keys w is h s wn) := by
  induction is generalizing h s wn with
  | nil => rfl
  | cons ii is ih =>
    simp only [targetAll, allRef]
    rw [one_read hw, bind_onOk, onOk_bind]
    congr 1; funext r
    exact ih _ _ _

theorem optionalVars_same {P : PObj K} {f : String → List (List (Val K))} {wd : WalkData K} (h : wd.opt = dictOf (keysOf P) f) (n : Nat) :
    optionalVars P n wd = wd.opt := by
  have hget : ∀ var ∈ keysOf P, (match dictGet wd.opt var with
      | some l => l
      | none => List.replicate n [Val.none]) = f var := by
    intro var hvar
    rw [h, dictGet_dictOf, if_pos hvar]
  have key : ∀ (l ks : List String), (∀ a ∈ l, a ∈ keysOf P) →
      l.foldl (fun d var => dictSet d var (match dictGet wd.opt var with
        | some l => l
        | none => List.replicate n [Val.none])) (dictOf ks f) = dictOf (l.foldl addKey ks) f := by
    intro l
    induction l with
    | nil => intro ks _; rfl
    | cons a l ih =>
      intro ks h
      simp only [List.foldl_cons]
      rw [hget a (h a (by simp)), dictSet_dictOf]
      have : dictOf (addKey ks a) (fun b => if b = a then f a else f b) = dictOf (addKey ks a) f :=
        dictOf_congr fun k _ => by by_cases hk : k = a <;> simp [hk]
      rw [this]
      exact ih _ fun b hb => h b (by simp [hb])
  have := key (P.particleVars.filter fun v => !isBaseVar v) [] (fun a ha => by
    rw [mem_keysOf]; simpa using ha)
  rw [h]
  exact this

theorem mergeOpt_dictOf (ks : List String) (f g : String → List (List (Val K))) : mergeOpt (dictOf ks f) (dictOf ks g) = dictOf ks g := by
  unfold mergeOpt
  have hg : ∀ k ∈ ks, dictGet (dictOf ks g) k = some (g k) := fun k hk => by rw [dictGet_dictOf, if_pos hk]
  have key : ∀ (d : List (String × List (List (Val K)))) (ks' : List String), (∀ k ∈ ks', dictGet d k = some (g k)) → ((dictOf ks' f).map fun e => match dictGet d e.1 with
      | some l => (e.1, l)
      | none => e) = dictOf ks' g := by
    intro d ks' h
    unfold dictOf
    rw [List.map_map]
    apply List.map_congr_left
    intro k hk
    simp only [Function.comp]
    rw [h k hk]
  exact key _ ks hg

/-- The result as a reader sees it right after the call. -/
def RefResult.read (r : RefResult K) : RunResult K :=
  { returned := r.heap.read r.returned, state := r.state.read r.heap, warned := r.warned }

/-- `run_iteration` by reference is `run_iteration` by value as long as no particle is held twice. -/
theorem run_read {P : PObj K} {ω : Nat → K} {h : Heap K} {s : RefState K} {target : Option (Fl K)} {maxIter : Int} {f : String → List Nat}
    (hs : ∀ w, s.walk = some w → Sep (keysOf P) f w) :
    runIteration A F P ω (s.read h) target maxIter = onOk RefResult.read (runRef A F P ω h s target maxIter) := by
  unfold runIteration runRef
  show (match s.walk.map h.read with | none => _ | some wd0 => _) = _
  cases hw : s.walk with
  | none => rfl
  | some w =>
    have hsep := hs w hw
    dsimp only [Option.map_some]
    rw [optionalRef_eq hsep.opt]
    have hopt : ∀ n, optionalVars P n (h.read w) = (h.read w).opt := optionalVars_same (read_opt h hsep.opt)
    have hnp : (s.read h).np = s.np := rfl
    have hlen : (h.read w).xinds.length = w.xinds.length := by simp [Heap.read]
    have hkeys : ((h.read w).opt).map (fun e => e.1) = w.opt.map fun e => e.1 := by
      show (w.opt.map _).map _ = _
      rw [List.map_map]; rfl
    simp only [onOk_bind, hopt, hnp, hlen, hkeys]
    congr 1; funext sx; congr 1; funext sy; congr 1; funext st; congr 1; funext u
    cases target with
    | none =>
      dsimp only
      rw [onOk_bind]
      congr 1; funext p
      rw [onOk_bind]
      have := store_read hsep (starts := sx.zip sy) (news := p.1.1) (times := p.1.2.1) (upd := p.1.2.2) (keys := w.opt.map fun e => e.1)
        (List.range (if s.np = 0 then w.xinds.length else s.np)) h
      have hself : ({ xinds := (h.read w).xinds, yinds := (h.read w).yinds, times := (h.read w).times, opt := (h.read w).opt } : WalkData K) = h.read w := rfl
      rw [hself, this, bind_onOk]
      congr 1; funext h1
      have hm : mergeOpt (h.read w).opt (h1.read w).opt = (h1.read w).opt := by
        rw [read_opt h hsep.opt, read_opt h1 hsep.opt, mergeOpt_dictOf]
      rw [hm]
      rfl
    | some tgt =>
      dsimp only
      rw [onOk_bind]
      have := all_read (A := A) (F := F) hsep (P := P) (ω := ω) (target := tgt) (maxIter := maxIter) (keys := w.opt.map fun e => e.1)
        (List.range (if s.np = 0 then w.xinds.length else s.np)) h s.world none
      have hself : ({ xinds := (h.read w).xinds, yinds := (h.read w).yinds, times := (h.read w).times, opt := (h.read w).opt } : WalkData K) = h.read w := rfl
      have hw' : (s.read h).world = s.world := rfl
      rw [hself, hw', this, bind_onOk]
      congr 1; funext r
      obtain ⟨h1, w1, warn⟩ := r
      cases warn <;> rfl

end Dorado
