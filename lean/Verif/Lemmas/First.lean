import Verif.Lemmas.Hist

/-! The target-time loop over the first particles only looks at these. -/

set_option linter.unusedSectionVars false

namespace Dorado

variable {K : Type} [Field K] [LinearOrder K] [IsStrictOrderedRing K] [FloorRing K] {A : Arith K} {F : Fun K A}

theorem listGet_take {α : Type} {l : List α} {m i : Nat} (h : i < m) : listGet (l.take m) i = listGet l i := by
  unfold listGet
  rw [List.getElem?_take, if_pos h]

theorem lastAt_take {α : Type} {l : List (List α)} {m i : Nat} (h : i < m) : lastAt (l.take m) i = lastAt l i := by
  unfold lastAt
  rw [listGet_take h]

theorem modify_take {α : Type} (f : α → α) (l : List α) (m i : Nat) : (l.take m).modify i f = (l.modify i f).take m := by
  apply List.ext_getElem?
  intro n
  simp only [List.getElem?_modify, List.getElem?_take]
  split <;> split <;> simp

theorem appendRec_first (wd : WalkData K) (m ii : Nat) (q : Int × Int) (t : Fl K) (vals : List (String × Val K)) :
    appendRec (wd.first m) ii q t vals = (appendRec wd ii q t vals).first m := by
  unfold appendRec WalkData.first
  simp only [modify_take, List.map_map]
  congr 1
  apply List.map_congr_left
  intro e _
  simp only [Function.comp]
  cases dictGet vals e.1 with
  | none => rfl
  | some v => simp only [modify_take]

/-- Restrict the walk data of a result. -/
def firstRes {α : Type} (m : Nat) (x : WalkData K × α) : WalkData K × α := (x.1.first m, x.2)

theorem targetLoop_first {P : PObj K} (ω : Nat → K) (target : Fl K) (maxIter : Int) (keys : List String) {ii m : Nat} (h : ii < m) (fuel : Nat)
    (wd : WalkData K) (w : World K) (est : Fl K) (count : Int) :
    targetLoop A F P ω target maxIter keys ii fuel (wd.first m) w est count =
      (targetLoop A F P ω target maxIter keys ii fuel wd w est count).map (firstRes m) := by
  induction fuel generalizing wd w est count with
  | zero =>
    unfold targetLoop
    have ht : lastAt (wd.first m).times ii = lastAt wd.times ii := lastAt_take h
    rw [ht]
    cases lastAt wd.times ii with
    | error e => rfl
    | ok t =>
      simp only [ok_bind]
      split <;> rfl
  | succ fuel ih =>
    unfold targetLoop
    have ht : lastAt (wd.first m).times ii = lastAt wd.times ii := lastAt_take h
    have hx : lastAt (wd.first m).xinds ii = lastAt wd.xinds ii := lastAt_take h
    have hy : lastAt (wd.first m).yinds ii = lastAt wd.yinds ii := lastAt_take h
    rw [ht, hx, hy]
    cases lastAt wd.times ii with
    | error e => rfl
    | ok t =>
      simp only [ok_bind]
      split
      · cases lastAt wd.xinds ii with
        | error e => rfl
        | ok x =>
        simp only [ok_bind]
        cases lastAt wd.yinds ii with
        | error e => rfl
        | ok y =>
        simp only [ok_bind]
        cases particleStepper A F P ω w [(x, y)] [t] keys with
        | error e => rfl
        | ok r =>
        obtain ⟨⟨news, times, upd⟩, s1⟩ := r
        simp only [ok_bind]
        cases listGet news 0 with
        | error e => rfl
        | ok n =>
        simp only [ok_bind]
        split
        · cases listGet times 0 with
          | error e => rfl
          | ok t1 =>
          simp only [ok_bind]
          cases pickOpt upd keys 0 with
          | error e => rfl
          | ok vals =>
          simp only [ok_bind]
          split
          · rw [appendRec_first]; rfl
          · rw [appendRec_first, ih]
        · rfl
      · rfl

theorem targetAll_first {P : PObj K} (ω : Nat → K) (target : Fl K) (maxIter : Int) (keys : List String) {m : Nat} (is : List Nat) (h : ∀ i ∈ is, i < m)
    (wd : WalkData K) (w : World K) (w0 : Option (List Nat)) :
    targetAll A F P ω target maxIter keys is (wd.first m) w w0 = (targetAll A F P ω target maxIter keys is wd w w0).map (firstRes m) := by
  induction is generalizing wd w w0 with
  | nil => rfl
  | cons a is ih =>
    have ho : targetOne A F P ω target maxIter keys (wd.first m) w a = (targetOne A F P ω target maxIter keys wd w a).map (firstRes m) := by
      unfold targetOne
      have ha := h a (by simp)
      have ht : listGet (wd.first m).times a = listGet wd.times a := listGet_take ha
      have hx : lastAt (wd.first m).xinds a = lastAt wd.xinds a := lastAt_take ha
      have hy : lastAt (wd.first m).yinds a = lastAt wd.yinds a := lastAt_take ha
      rw [ht, hx, hy]
      cases listGet wd.times a with
      | error e => rfl
      | ok ts =>
      simp only [ok_bind]
      cases lastAt wd.xinds a with
      | error e => rfl
      | ok x =>
      simp only [ok_bind]
      cases lastAt wd.yinds a with
      | error e => rfl
      | ok y =>
      simp only [ok_bind]
      split
      · rfl
      · exact targetLoop_first ω target maxIter keys ha _ _ _ _ _
    unfold targetAll
    rw [ho]
    cases targetOne A F P ω target maxIter keys wd w a with
    | error e => rfl
    | ok r =>
      obtain ⟨wd1, w1, hit⟩ := r
      exact ih (fun i hi => h i (by simp [hi])) wd1 w1 _

theorem first_ofRows (keys : List String) (rows : List (Row K)) (m : Nat) : (ofRows keys rows).first m = ofRows keys (rows.take m) := by
  unfold WalkData.first ofRows dictOf
  simp only [List.map_take, List.map_map]
  rfl

/-- A target-time call from the loop over the particles. -/
theorem runIteration_target {P : PObj K} {ω : Nat → K} {s : PState K} {rows : List (Row K)} {target : Fl K} {maxIter : Int}
    (hr : HasRows P s rows) (hne : ∀ r ∈ rows, r.xs ≠ [] ∧ r.ys ≠ [] ∧ r.ts ≠ [] ∧ ∀ key ∈ keysOf P, r.os key ≠ [])
    {out : WalkData K} {w1 : World K} {l : List Nat}
    (h : targetAll A F P ω target maxIter (keysOf P) (List.range rows.length) (ofRows (keysOf P) rows) s.world none = .ok (out, w1, some l)) :
    runIteration A F P ω s (some target) maxIter = .ok { returned := out, state := { world := w1, np := rows.length, walk := some out }
                                                         warned := if P.verbose then l else [] } := by
  unfold runIteration
  rw [hr.1]
  simp only
  have hnp' : (if s.np = 0 then (ofRows (keysOf P) rows).xinds.length else s.np) = rows.length := by
    rw [hr.2]
    split
    · simp [ofRows]
    · rfl
  rw [hnp']
  simp only [optionalVars_ofRows]
  have hget : ∀ {β : Type} (f : Row K → List β), (∀ r ∈ rows, f r ≠ []) → ∃ l, mapE (lastAt (rows.map f)) (List.range rows.length) = .ok l :=
    fun f hf => mapE_exists fun i hi => by
      have hi : i < rows.length := by simpa using hi
      exact ⟨_, lastAt_ofRows' (f := f) (List.getElem?_eq_getElem hi) (List.getLast?_eq_some_getLast (hf _ (List.getElem_mem hi)))⟩
  obtain ⟨sx, hsx⟩ := hget (fun r => r.xs) fun r hr => (hne r hr).1
  obtain ⟨sy, hsy⟩ := hget (fun r => r.ys) fun r hr => (hne r hr).2.1
  obtain ⟨st, hst⟩ := hget (fun r => r.ts) fun r hr => (hne r hr).2.2.1
  obtain ⟨so, hso⟩ := mapE_exists (f := fun e : String × List (List (Val K)) => mapE (lastAt e.2) (List.range rows.length))
      (l := dictOf (keysOf P) fun k => rows.map fun r => r.os k) fun e he => by
    unfold dictOf at he
    obtain ⟨k, hk, rfl⟩ := List.mem_map.1 he
    exact hget (fun r => r.os k) fun r hr => (hne r hr).2.2.2 k hk
  have hkeys : (dictOf (keysOf P) fun k => rows.map fun r => r.os k).map (fun x => x.1) = keysOf P := by
    unfold dictOf; rw [List.map_map]; simp [Function.comp_def]
  change mapE (lastAt (ofRows (keysOf P) rows).xinds) _ = _ at hsx
  change mapE (lastAt (ofRows (keysOf P) rows).yinds) _ = _ at hsy
  change mapE (lastAt (ofRows (keysOf P) rows).times) _ = _ at hst
  rw [hsx, hsy, hst]
  simp only [ok_bind]
  rw [hso]
  simp only [ok_bind]
  rw [hkeys]
  have hwd : WalkData.mk (ofRows (keysOf P) rows).xinds (ofRows (keysOf P) rows).yinds
      (ofRows (keysOf P) rows).times (dictOf (keysOf P) fun k => rows.map fun r => r.os k) = ofRows (keysOf P) rows := rfl
  rw [hwd, h]
  rfl

end Dorado
