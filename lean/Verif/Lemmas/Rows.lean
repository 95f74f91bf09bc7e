import Verif.Lemmas.Step

/-! Helper lemmas: walk data as a list of rows (one per particle). -/

set_option linter.unusedSectionVars false

namespace Dorado

variable {K : Type} [Field K] [LinearOrder K] [IsStrictOrderedRing K]

/-- History of one particle. -/
structure Row (K : Type) where
  xs : List Int
  ys : List Int
  ts : List (Fl K)
  os : String → List (Val K)

/-- Row with one more record. -/
def Row.append (r : Row K) (q : Int × Int) (t : Fl K) (v : String → Val K) : Row K :=
  { xs := r.xs ++ [q.1], ys := r.ys ++ [q.2], ts := r.ts ++ [t], os := fun k => r.os k ++ [v k] }

/-- Dictionary with keys `ks` and values `f`. -/
def dictOf {β : Type} (ks : List String) (f : String → β) : List (String × β) := ks.map fun k => (k, f k)

/-- Walk data made of rows. -/
def ofRows (keys : List String) (rows : List (Row K)) : WalkData K :=
  { xinds := rows.map (·.xs), yinds := rows.map (·.ys), times := rows.map (·.ts)
    opt := dictOf keys fun k => rows.map fun r => r.os k }

/-- Keys in order of first insertion. -/
def addKey (ks : List String) (k : String) : List String := if k ∈ ks then ks else ks ++ [k]

/-- Keys of the optional variables of an object. -/
def keysOf (P : PObj K) : List String := (P.particleVars.filter fun v => !isBaseVar v).foldl addKey []

theorem addKey_nodup {ks : List String} (h : ks.Nodup) (k : String) : (addKey ks k).Nodup := by
  unfold addKey
  split
  · exact h
  · rename_i hk
    rw [List.nodup_append]
    refine ⟨h, by simp, ?_⟩
    intro a ha b hb
    simp at hb
    subst hb
    rintro rfl
    exact hk ha

theorem foldl_addKey_nodup (l ks : List String) (h : ks.Nodup) : (l.foldl addKey ks).Nodup := by
  induction l generalizing ks with
  | nil => exact h
  | cons a l ih => exact ih _ (addKey_nodup h a)

theorem keysOf_nodup (P : PObj K) : (keysOf P).Nodup := foldl_addKey_nodup _ _ List.nodup_nil

theorem mem_addKey {ks : List String} {a k : String} : a ∈ addKey ks k ↔ a ∈ ks ∨ a = k := by
  unfold addKey
  split
  · rename_i hk
    constructor
    · exact Or.inl
    · rintro (h | rfl)
      · exact h
      · exact hk
  · simp

theorem mem_foldl_addKey {l ks : List String} {a : String} : a ∈ l.foldl addKey ks ↔ a ∈ ks ∨ a ∈ l := by
  induction l generalizing ks with
  | nil => simp
  | cons b l ih => rw [List.foldl_cons, ih, mem_addKey]; simp [or_assoc]

theorem mem_keysOf {P : PObj K} {a : String} : a ∈ keysOf P ↔ a ∈ P.particleVars ∧ isBaseVar a = false := by
  unfold keysOf
  rw [mem_foldl_addKey]
  simp

theorem dictGet_dictOf {β : Type} (ks : List String) (f : String → β) (k : String) :
    dictGet (dictOf ks f) k = if k ∈ ks then some (f k) else none := by
  unfold dictGet dictOf
  induction ks with
  | nil => simp
  | cons a ks ih =>
    by_cases h : a = k
    · subst h; simp
    · have hb : (a == k) = false := by simpa using h
      simp only [List.map_cons, List.find?_cons, hb]
      rw [ih]
      simp [Ne.symm h]

theorem dictSet_dictOf {β : Type} (ks : List String) (f : String → β) (k : String) (v : β) :
    dictSet (dictOf ks f) k v = dictOf (addKey ks k) (fun a => if a = k then v else f a) := by
  unfold dictSet addKey
  have hany : (dictOf ks f).any (fun e => e.1 == k) = decide (k ∈ ks) := by
    unfold dictOf
    induction ks with
    | nil => simp
    | cons a ks ih =>
      simp only [List.map_cons, List.any_cons, ih, List.mem_cons]
      by_cases h : a = k
      · simp [h]
      · have hb : (a == k) = false := by simpa using h
        simp [hb, Ne.symm h]
  rw [hany]
  by_cases h : k ∈ ks
  · simp only [h, decide_true, if_true]
    unfold dictOf
    rw [List.map_map]
    apply List.map_congr_left
    intro a _
    by_cases ha : a = k
    · simp [ha]
    · have hb : (a == k) = false := by simpa using ha
      simp [ha]
  · simp only [h, decide_false, if_false, Bool.false_eq_true]
    unfold dictOf
    rw [List.map_append]
    congr 1
    · apply List.map_congr_left
      intro a ha
      have : a ≠ k := fun hh => h (hh ▸ ha)
      simp [this]
    · simp

theorem dictOf_congr {β : Type} {ks : List String} {f g : String → β} (h : ∀ k ∈ ks, f k = g k) :
    dictOf ks f = dictOf ks g := by
  unfold dictOf
  exact List.map_congr_left fun k hk => by rw [h k hk]

/-- `optionalVars` on walk data made of rows with the right keys. -/
theorem optionalVars_ofRows (P : PObj K) (n : Nat) (rows : List (Row K)) :
    optionalVars P n (ofRows (keysOf P) rows) = dictOf (keysOf P) fun k => rows.map fun r => r.os k := by
  set f : String → List (List (Val K)) := fun k => rows.map fun r => r.os k with hf
  have hget : ∀ var ∈ keysOf P, (match dictGet (ofRows (keysOf P) rows).opt var with
      | some l => l
      | none => List.replicate n [Val.none]) = f var := by
    intro var hvar
    have : dictGet (ofRows (keysOf P) rows).opt var = some (f var) := by
      show dictGet (dictOf (keysOf P) f) var = _
      rw [dictGet_dictOf, if_pos hvar]
    rw [this]
  have key : ∀ (l ks : List String), (∀ a ∈ l, a ∈ keysOf P) →
      l.foldl (fun d var => dictSet d var (match dictGet (ofRows (keysOf P) rows).opt var with
        | some l => l
        | none => List.replicate n [Val.none])) (dictOf ks f) = dictOf (l.foldl addKey ks) f := by
    intro l
    induction l with
    | nil => intro ks _; rfl
    | cons a l ih =>
      intro ks h
      simp only [List.foldl_cons]
      rw [hget a (h a (by simp)), dictSet_dictOf]
      have : dictOf (addKey ks a) (fun b => if b = a then f a else f b) = dictOf (addKey ks a) f :=
        dictOf_congr fun k _ => by by_cases hk : k = a <;> simp [hk]
      rw [this]
      exact ih _ fun b hb => h b (by simp [hb])
  have := key (P.particleVars.filter fun v => !isBaseVar v) [] (fun a ha => by
    rw [mem_keysOf]; simpa using ha)
  exact this

theorem map_modify_comm {α β : Type} (l : List α) (i : Nat) (f : α → β) (g : α → α) (h : β → β)
    (hfg : ∀ a, f (g a) = h (f a)) : (l.map f).modify i h = (l.modify i g).map f := by
  apply List.ext_getElem?
  intro n
  simp only [List.getElem?_modify, List.getElem?_map]
  cases l[n]? with
  | none => rfl
  | some a =>
    by_cases hi : i = n
    · simp [hi, hfg]
    · simp [hi]

theorem appendRec_ofRows {keys : List String} (rows : List (Row K)) (ii : Nat) (q : Int × Int) (t : Fl K)
    (v : String → Val K) :
    appendRec (ofRows keys rows) ii q t (dictOf keys v) = ofRows keys (rows.modify ii fun r => r.append q t v) := by
  unfold appendRec ofRows
  simp only [WalkData.mk.injEq]
  refine ⟨map_modify_comm _ _ _ _ _ fun _ => rfl, map_modify_comm _ _ _ _ _ fun _ => rfl,
    map_modify_comm _ _ _ _ _ fun _ => rfl, ?_⟩
  have hg : ∀ k ∈ keys, dictGet (dictOf keys v) k = some (v k) := fun k hk => by
    rw [dictGet_dictOf, if_pos hk]
  generalize dictOf keys v = dv at hg
  unfold dictOf
  rw [List.map_map]
  apply List.map_congr_left
  intro k hk
  simp only [Function.comp]
  rw [hg k hk]
  simp only [Prod.mk.injEq, true_and]
  exact map_modify_comm _ _ _ _ _ fun _ => rfl

theorem pickOpt_inv {upd : List (String × List (Val K))} {keys : List String} {k : Nat} {vals : List (String × Val K)}
    (h : pickOpt upd keys k = .ok vals) :
    ∃ v : String → Val K, vals = dictOf keys v ∧ ∀ key ∈ keys, ∃ l, dictGet upd key = some l ∧ l[k]? = some (v key) := by
  refine ⟨fun key => match dictGet upd key with
    | some l => match l[k]? with
      | some a => a
      | none => .none
    | none => .none, ?_, ?_⟩
  · unfold pickOpt at h
    rw [mapE_ok_iff] at h
    induction h with
    | nil => rfl
    | cons h1 _ ih =>
      rename_i a b l1 l2 _
      unfold dictOf
      rw [List.map_cons]
      congr 1
      cases hd : dictGet upd a with
      | none => rw [hd] at h1; cases h1
      | some l =>
        rw [hd] at h1
        simp only [bind_ok, pure_ok, listGet_ok] at h1
        obtain ⟨w, hw, rfl⟩ := h1
        simp [hd, hw]
  · intro key hkey
    unfold pickOpt at h
    obtain ⟨n, hn⟩ := List.getElem?_of_mem hkey
    obtain ⟨b, hb, hb'⟩ := mapE_get h hn
    cases hd : dictGet upd key with
    | none => rw [hd] at hb'; cases hb'
    | some l =>
      rw [hd] at hb'
      simp only [bind_ok, pure_ok, listGet_ok] at hb'
      obtain ⟨w, hw, rfl⟩ := hb'
      exact ⟨l, rfl, by simp [hd, hw]⟩

theorem prependWalk_ofRows (keys : List String) (r1 r2 : List (Row K)) :
    prependWalk (ofRows keys r1) (ofRows keys r2) = ofRows keys (r1 ++ r2) := by
  unfold prependWalk
  have hg : ∀ k ∈ keys, dictGet (ofRows keys r1).opt k = some (r1.map fun r => r.os k) := fun k hk => by
    show dictGet (dictOf keys _) k = _
    rw [dictGet_dictOf, if_pos hk]
  generalize hd : (ofRows keys r1).opt = dv at hg
  unfold ofRows
  simp only [List.map_append, WalkData.mk.injEq, true_and]
  unfold dictOf
  rw [List.map_map]
  apply List.map_congr_left
  intro k hk
  simp only [Function.comp]
  rw [hg k hk]

theorem lastAt_ofRows {α : Type} {rows : List (Row K)} {f : Row K → List α} {i : Nat} {a : α}
    (h : lastAt (rows.map f) i = .ok a) : ∃ r, rows[i]? = some r ∧ (f r).getLast? = some a := by
  unfold lastAt at h
  simp only [bind_ok, listGet_ok, lastOf_ok, List.getElem?_map, Option.map_eq_some_iff] at h
  obtain ⟨l, ⟨r, hr, rfl⟩, hl⟩ := h
  exact ⟨r, hr, hl⟩

theorem lastAt_ofRows' {α : Type} {rows : List (Row K)} {f : Row K → List α} {i : Nat} {r : Row K} {a : α}
    (hr : rows[i]? = some r) (h : (f r).getLast? = some a) : lastAt (rows.map f) i = .ok a := by
  unfold lastAt
  simp only [bind_ok, listGet_ok, lastOf_ok, List.getElem?_map]
  exact ⟨f r, by simp [hr], h⟩

/-! ## New particles -/

theorem startVars_inv {P : PObj K} {starts : List (Int × Int)} (vars ks : List String)
    (f : String → List (List (Val K))) (hf : ∀ k ∈ ks, startVar P k starts = .ok (f k))
    {d : List (String × List (List (Val K)))} (h : startVars P starts vars (dictOf ks f) = .ok d) :
    ∃ g : String → List (List (Val K)), d = dictOf ((vars.filter fun v => !isBaseVar v).foldl addKey ks) g ∧
      ∀ k ∈ (vars.filter fun v => !isBaseVar v).foldl addKey ks, startVar P k starts = .ok (g k) := by
  induction vars generalizing ks f with
  | nil =>
    simp only [startVars, Except.ok.injEq] at h
    exact ⟨f, h.symm, hf⟩
  | cons a vars ih =>
    simp only [startVars] at h
    by_cases hb : isBaseVar a = true
    · rw [if_pos hb] at h
      have := ih ks f hf h
      simpa [hb] using this
    · rw [if_neg hb] at h
      simp only [bind_ok] at h
      obtain ⟨l, hl, h⟩ := h
      rw [dictSet_dictOf] at h
      have := ih (addKey ks a) _ (fun k hk => by
        by_cases hka : k = a
        · subst hka; simpa using hl
        · simp only [hka, if_false]
          exact hf k ((mem_addKey.1 hk).resolve_right hka)) h
      simpa [hb] using this

theorem startVar_get {P : PObj K} {var : String} {starts : List (Int × Int)} {l : List (List (Val K))}
    (h : startVar P var starts = .ok l) : l.length = starts.length ∧
      ∀ (i : Nat) (xy : Int × Int), starts[i]? = some xy → ∃ v, l[i]? = some [v] ∧ VarAt P var xy v := by
  unfold startVar at h
  cases hr : P.roi with
  | some g =>
    rw [hr] at h
    simp only at h
    by_cases hv : var = "roi_flag"
    · rw [if_pos hv] at h
      refine ⟨mapE_length h, fun i xy hxy => ?_⟩
      obtain ⟨b, hb, hb'⟩ := mapE_get h hxy
      simp only [bind_ok, pure_ok] at hb'
      obtain ⟨v, hv', rfl⟩ := hb'
      exact ⟨v, hb, Or.inl ⟨hv, g, hr, hv'⟩⟩
    · rw [if_neg hv] at h
      cases hav : availVar P var with
      | none => rw [hav] at h; cases h
      | some gr =>
        rw [hav] at h
        simp only at h
        refine ⟨mapE_length h, fun i xy hxy => ?_⟩
        obtain ⟨b, hb, hb'⟩ := mapE_get h hxy
        simp only [bind_ok, pure_ok] at hb'
        obtain ⟨v, hv', rfl⟩ := hb'
        exact ⟨v, hb, Or.inr ⟨by simp [hv], gr, hav, hv'⟩⟩
  | none =>
    rw [hr] at h
    cases hav : availVar P var with
    | none => rw [hav] at h; cases h
    | some gr =>
      rw [hav] at h
      simp only at h
      refine ⟨mapE_length h, fun i xy hxy => ?_⟩
      obtain ⟨b, hb, hb'⟩ := mapE_get h hxy
      simp only [bind_ok, pure_ok] at hb'
      obtain ⟨v, hv', rfl⟩ := hb'
      exact ⟨v, hb, Or.inr ⟨by simp [hr], gr, hav, hv'⟩⟩

end Dorado
