import Verif.Spec.Georef
import Verif.Lemmas.Routines

/-! Helper lemmas: `get_state` on dictionaries with entries of different lengths. -/

set_option linter.unusedSectionVars false

namespace Dorado

variable {K : Type} [Field K] [LinearOrder K] [IsStrictOrderedRing K] [FloorRing K] {A : Arith K} {F : Fun K A}

/-- State made of what the particles contribute. -/
def collect (ks : List String) (cs : List (Row K)) : GotState K :=
  { xs := cs.flatMap (·.xs), ys := cs.flatMap (·.ys), ts := cs.flatMap (·.ts), opt := dictOf ks fun a => cs.flatMap fun c => c.os a }

theorem dictSet_mem {β : Type} {ks : List String} {b : String} (hb : b ∈ ks) (f : String → β) (v : β) :
    dictSet (dictOf ks f) b v = dictOf ks fun a => if a = b then v else f a := by
  rw [dictSet_dictOf]
  unfold addKey
  rw [if_pos hb]

theorem pushOpt_ok {ks : List String} {rows : List (Row K)} {i : Nat} {k : Int} {v : String → Val K} :
    ∀ (sub : List String), sub.Nodup → (∀ a ∈ sub, a ∈ ks) → (∀ a ∈ sub, cellAt (rows.map fun r => r.os a) i k = .ok (v a)) →
      ∀ (x : List Int) (y : List Int) (t : List (Fl K)) (f : String → List (Val K)),
      pushOpt i k (dictOf sub fun a => rows.map fun r => r.os a) ⟨x, y, t, dictOf ks f⟩ =
        (⟨x, y, t, dictOf ks fun a => if a ∈ sub then f a ++ [v a] else f a⟩, none) := by
  intro sub
  induction sub with
  | nil => intro _ _ _ x y t f; simp [dictOf, pushOpt]
  | cons b sub ih =>
    intro hn hk hv x y t f
    rw [List.nodup_cons] at hn
    have hb := hk b (by simp)
    simp only [dictOf, List.map_cons, pushOpt, hv b (by simp)]
    have e : dictSet (ks.map fun k => (k, f k)) b ((dictGet (ks.map fun k => (k, f k)) b).getD [] ++ [v b]) =
        dictOf ks fun a => if a = b then f b ++ [v b] else f a := by
      show dictSet (dictOf ks f) b ((dictGet (dictOf ks f) b).getD [] ++ [v b]) = _
      rw [dictGet_dictOf, if_pos hb, Option.getD_some, dictSet_mem hb]
    rw [e]
    have := ih hn.2 (fun a ha => hk a (by simp [ha])) (fun a ha => hv a (by simp [ha])) x y t fun a => if a = b then f b ++ [v b] else f a
    refine this.trans ?_
    simp only [Prod.mk.injEq, and_true, GotState.mk.injEq, true_and]
    refine dictOf_congr fun a ha => ?_
    by_cases hab : a = b
    · subst hab; simp [hn.1]
    · simp [hab]

theorem pushOpt_append {i : Nat} {k : Int} (s1 s2 : List (String × List (List (Val K)))) (acc : GotState K) :
    pushOpt i k (s1 ++ s2) acc = match pushOpt i k s1 acc with
      | (acc1, none) => pushOpt i k s2 acc1
      | (acc1, some e) => (acc1, some e) := by
  induction s1 generalizing acc with
  | nil => rfl
  | cons e s1 ih =>
    simp only [List.cons_append, pushOpt]
    cases cellAt e.2 i k with
    | error err => rfl
    | ok v => exact ih _

theorem pushAll_ok {ks : List String} (hn : ks.Nodup) {rows : List (Row K)} {i : Nat} {k : Int} {x y : Int} {t : Fl K} {v : String → Val K}
    (hx : cellAt (rows.map (·.xs)) i k = .ok x) (hy : cellAt (rows.map (·.ys)) i k = .ok y) (ht : cellAt (rows.map (·.ts)) i k = .ok t)
    (hv : ∀ a ∈ ks, cellAt (rows.map fun r => r.os a) i k = .ok (v a)) (cs : List (Row K)) :
    pushAll (ofRows ks rows) i k (collect ks cs) = (collect ks (cs ++ [⟨[x], [y], [t], fun a => [v a]⟩]), none) := by
  have hx' : cellAt (ofRows ks rows).xinds i k = .ok x := hx
  have hy' : cellAt (ofRows ks rows).yinds i k = .ok y := hy
  have ht' : cellAt (ofRows ks rows).times i k = .ok t := ht
  unfold pushAll
  simp only [hx', hy', ht']
  refine (pushOpt_ok ks hn (fun _ h => h) hv _ _ _ fun a => cs.flatMap fun c => c.os a).trans ?_
  simp only [collect, List.flatMap_append, List.flatMap_cons, List.flatMap_nil, List.append_nil, Prod.mk.injEq, and_true, GotState.mk.injEq, true_and]
  exact dictOf_congr fun a ha => by simp [ha]

theorem pushAll_stop {s1 s2 : List String} {b : String} (hn : (s1 ++ b :: s2).Nodup) {rows : List (Row K)} {i : Nat} {k : Int} {x y : Int} {t : Fl K}
    {v : String → Val K} {e : PyErr}
    (hx : cellAt (rows.map (·.xs)) i k = .ok x) (hy : cellAt (rows.map (·.ys)) i k = .ok y) (ht : cellAt (rows.map (·.ts)) i k = .ok t)
    (hv : ∀ a ∈ s1, cellAt (rows.map fun r => r.os a) i k = .ok (v a)) (hb : cellAt (rows.map fun r => r.os b) i k = .error e) (cs : List (Row K)) :
    pushAll (ofRows (s1 ++ b :: s2) rows) i k (collect (s1 ++ b :: s2) cs) =
      (collect (s1 ++ b :: s2) (cs ++ [⟨[x], [y], [t], fun a => if a ∈ s1 then [v a] else []⟩]), some e) := by
  have hx' : cellAt (ofRows (s1 ++ b :: s2) rows).xinds i k = .ok x := hx
  have hy' : cellAt (ofRows (s1 ++ b :: s2) rows).yinds i k = .ok y := hy
  have ht' : cellAt (ofRows (s1 ++ b :: s2) rows).times i k = .ok t := ht
  unfold pushAll
  simp only [hx', hy', ht']
  have ho : (ofRows (s1 ++ b :: s2) rows).opt = dictOf s1 (fun a => rows.map fun r => r.os a) ++ dictOf (b :: s2) fun a => rows.map fun r => r.os a := by
    simp [ofRows, dictOf]
  rw [ho, pushOpt_append]
  rw [show (collect (s1 ++ b :: s2) cs).opt = dictOf (s1 ++ b :: s2) fun a => cs.flatMap fun c => c.os a from rfl]
  rw [pushOpt_ok s1 (List.nodup_append.1 hn).1 (fun a ha => by simp [ha]) hv]
  simp only [dictOf, List.map_cons, pushOpt, hb, Prod.mk.injEq, and_true]
  simp only [collect, List.flatMap_append, List.flatMap_cons, List.flatMap_nil, List.append_nil, GotState.mk.injEq, true_and]
  refine dictOf_congr fun a ha => ?_
  split <;> simp_all

/-- `get_state` collects what the particles contribute. -/
theorem getState_collect {ks : List String} {rows : List (Row K)} {k : Int} {c : Nat → List (Row K)}
    (h : ∀ i, i < rows.length → ∀ cs, stateStep (ofRows ks rows) k (collect ks cs) i = .ok (collect ks (cs ++ c i))) :
    getState (ofRows ks rows) k = .ok (collect ks ((List.range rows.length).flatMap c)) := by
  unfold getState
  have h0 : emptyState (ofRows ks rows) = collect ks [] := by simp [emptyState, collect, ofRows, dictOf]
  rw [h0, show (ofRows ks rows).xinds.length = rows.length by simp [ofRows]]
  have : ∀ n, n ≤ rows.length → foldE (stateStep (ofRows ks rows) k) (collect ks []) (List.range n) = .ok (collect ks ((List.range n).flatMap c)) := by
    intro n
    induction n with
    | zero => intro _; rfl
    | succ n ih =>
      intro hn
      rw [List.range_succ, foldE_append, ih (by omega), ok_bind]
      simp only [foldE]
      rw [h n (by omega), ok_bind]
      simp
  exact this _ le_rfl

/-! ## Rows with coordinates -/

section
variable (A)

/-- Row `r` with the coordinates of its first `m` records. -/
def Row.coords (origin : Fl K × Fl K) (L : Int) (cs : Fl K) (m : Nat) (r : Row K) : Row K :=
  { r with os := fun a => if a = "ycoord" then (r.xs.take m).map fun j => .num (rowCoord A origin.2 L cs j)
      else if a = "xcoord" then (r.ys.take m).map fun j => .num (colCoord A origin.1 cs j) else r.os a }

end

theorem ind2coord_eq {wd : WalkData K} (hy : wd.yinds.length = wd.xinds.length) (origin : Fl K × Fl K) (size : Int × Int) (cs : Fl K) :
    ind2coord A wd origin size cs = .ok { walk := wd, xcoord := wd.yinds.map fun l => l.map (colCoord A origin.1 cs)
                                          ycoord := wd.xinds.map fun l => l.map (rowCoord A origin.2 size.1 cs) } := by
  have h1 : mapE (fun i => do
      let xs ← listGet wd.xinds i
      return xs.map (rowCoord A origin.2 size.1 cs)) (List.range wd.xinds.length) = .ok (wd.xinds.map fun l => l.map (rowCoord A origin.2 size.1 cs)) := by
    rw [mapE_ok_iff]
    refine List.forall₂_iff_get.2 ⟨by simp, fun i h1 h2 => ?_⟩
    simp only [List.get_eq_getElem, List.getElem_range, List.getElem_map]
    rw [bind_ok]
    exact ⟨wd.xinds[i]'(by simpa using h2), listGet_ok.2 (by simp), rfl⟩
  have h2 : mapE (fun i => do
      let ys ← listGet wd.yinds i
      return ys.map (colCoord A origin.1 cs)) (List.range wd.xinds.length) = .ok (wd.yinds.map fun l => l.map (colCoord A origin.1 cs)) := by
    rw [mapE_ok_iff, ← hy]
    refine List.forall₂_iff_get.2 ⟨by simp, fun i h1 h2 => ?_⟩
    simp only [List.get_eq_getElem, List.getElem_range, List.getElem_map]
    rw [bind_ok]
    exact ⟨wd.yinds[i]'(by simpa using h2), listGet_ok.2 (by simp), rfl⟩
  unfold ind2coord
  rw [h1, ok_bind, h2, ok_bind]
  rfl

/-- The dictionary with coordinates, as rows: `ms` are the numbers of records at the time of `ind2coord`. -/
theorem dict_rows {ks : List String} (hk : "xcoord" ∉ ks ∧ "ycoord" ∉ ks) {rows : List (Row K)} {ms : List Nat} (hl : ms.length = rows.length)
    (origin : Fl K × Fl K) (size : Int × Int) (cs : Fl K) {w : WalkData K}
    (hx : w.xinds = List.zipWith (fun m r => r.xs.take m) ms rows) (hy : w.yinds = List.zipWith (fun m r => r.ys.take m) ms rows) :
    ∃ cd, ind2coord A w origin size cs = .ok cd ∧
      cd.dict (ofRows ks rows) = ofRows (ks ++ ["xcoord", "ycoord"]) (List.zipWith (Row.coords A origin size.1 cs) ms rows) := by
  refine ⟨_, ind2coord_eq (by rw [hx, hy]; simp) origin size cs, ?_⟩
  have key : ∀ {α : Type} (f : Row K → α), rows.map f = List.zipWith (fun (_ : Nat) r => f r) ms rows := by
    intro α f
    apply List.ext_getElem?
    intro i
    rw [List.getElem?_map, List.getElem?_zipWith]
    rcases Nat.lt_or_ge i rows.length with h | h
    · rw [List.getElem?_eq_getElem h, List.getElem?_eq_getElem (by omega)]; rfl
    · rw [List.getElem?_eq_none h, List.getElem?_eq_none (by omega)]; rfl
  have e1 : addKey ks "xcoord" = ks ++ ["xcoord"] := by unfold addKey; rw [if_neg hk.1]
  have e2 : addKey (ks ++ ["xcoord"]) "ycoord" = ks ++ ["xcoord", "ycoord"] := by
    unfold addKey
    rw [if_neg (by simp [hk.2])]
    simp
  unfold CoordData.dict
  simp only [ofRows, dictSet_dictOf, e1, e2, List.map_zipWith, Row.coords, WalkData.mk.injEq]
  refine ⟨key _, key _, key _, dictOf_congr fun a ha => ?_⟩
  by_cases hay : a = "ycoord"
  · simp [hay, hx, List.map_zipWith, Function.comp_def]
  · by_cases hax : a = "xcoord"
    · simp [hax, hy, List.map_zipWith, Function.comp_def]
    · simp only [hay, hax, if_false]
      exact key _

/-- What a particle with `m` coordinates contributes if record `j` is taken of its history and record `j'` of its coordinates. -/
def Row.single (A : Arith K) (origin : Fl K × Fl K) (L : Int) (cs : Fl K) (r : Row K) (j j' : Nat) : Row K :=
  { xs := [r.xs.getD j 0], ys := [r.ys.getD j 0], ts := [r.ts.getD j .nan]
    os := fun a => if a = "ycoord" then [.num (rowCoord A origin.2 L cs (r.xs.getD j' 0))]
      else if a = "xcoord" then [.num (colCoord A origin.1 cs (r.ys.getD j' 0))] else [r.vals j a] }

/-- What it contributes before the missing coordinate raises. -/
def Row.half (ks : List String) (r : Row K) (j : Nat) : Row K :=
  { xs := [r.xs.getD j 0], ys := [r.ys.getD j 0], ts := [r.ts.getD j .nan], os := fun a => if a ∈ ks then [r.vals j a] else [] }

/-- Contribution of a particle with `m` coordinates to `get_state(k)`. -/
def Row.given (A : Arith K) (origin : Fl K × Fl K) (L : Int) (cs : Fl K) (ks : List String) (k : Int) (m : Nat) (r : Row K) : List (Row K) :=
  match pyIdx r.xs.length k, pyIdx m k with
  | .ok j, .ok j' => [r.single A origin L cs j j']
  | .error _, _ => [r.single A origin L cs (r.xs.length - 1) (m - 1)]
  | .ok j, .error _ => [r.half ks j, r.single A origin L cs (r.xs.length - 1) (m - 1)]

theorem pyGet_getD {α : Type} {l : List α} {n : Nat} (hn : l.length = n) {k : Int} {j : Nat} (hj : pyIdx n k = .ok j) (d : α) :
    pyGet l k = .ok (l.getD j d) := by
  have hlt := pyIdx_lt hj
  rw [pyGet_at hn hj (a := l.getD j d)]
  simp [List.getD_eq_getElem?_getD, hn ▸ hlt]

theorem pyGet_take {α β : Type} {l : List α} {m : Nat} (hm : m ≤ l.length) (f : α → β) {k : Int} {j : Nat} (hj : pyIdx m k = .ok j) (d : α) :
    pyGet ((l.take m).map f) k = .ok (f (l.getD j d)) := by
  have hlt := pyIdx_lt hj
  rw [pyGet_at (by simp; exact hm) hj]
  have : j < l.length := by omega
  simp [List.getD_eq_getElem?_getD, hlt, this]

theorem coords_push {ks : List String} (hn : ks.Nodup) (hk : "xcoord" ∉ ks ∧ "ycoord" ∉ ks) {rows : List (Row K)} {origin : Fl K × Fl K} {L : Int}
    {cs : Fl K} {i m : Nat} {r : Row K} (hi : rows[i]? = some (r.coords A origin L cs m)) (hf : r.full ks) (hm : m ≤ r.xs.length) {k : Int} {j j' : Nat}
    (hj : pyIdx r.xs.length k = .ok j) (hj' : pyIdx m k = .ok j') (gs : List (Row K)) :
    pushAll (ofRows (ks ++ ["xcoord", "ycoord"]) rows) i k (collect (ks ++ ["xcoord", "ycoord"]) gs) =
      (collect (ks ++ ["xcoord", "ycoord"]) (gs ++ [r.single A origin L cs j j']), none) := by
  obtain ⟨⟨h1, h2, h3⟩, h4⟩ := hf
  have hn' : (ks ++ ["xcoord", "ycoord"]).Nodup := by
    rw [List.nodup_append]
    refine ⟨hn, by decide, fun a ha b hb => ?_⟩
    simp only [List.mem_cons, List.not_mem_nil, or_false] at hb
    rintro rfl
    rcases hb with rfl | rfl
    · exact hk.1 ha
    · exact hk.2 ha
  have := pushAll_ok (rows := rows) (i := i) (k := k) (x := r.xs.getD j 0) (y := r.ys.getD j 0) (t := r.ts.getD j .nan)
    (v := fun a => if a = "ycoord" then .num (rowCoord A origin.2 L cs (r.xs.getD j' 0))
      else if a = "xcoord" then .num (colCoord A origin.1 cs (r.ys.getD j' 0)) else r.vals j a) hn'
    (by rw [cellAt_row hi]; exact pyGet_getD rfl hj 0) (by rw [cellAt_row hi]; exact pyGet_getD h1 hj 0)
    (by rw [cellAt_row hi]; exact pyGet_getD h2 hj .nan) (fun a ha => by
      rw [cellAt_row (f := fun r => r.os a) hi]
      simp only [Row.coords]
      by_cases hay : a = "ycoord"
      · simp only [hay, if_true]
        exact pyGet_take hm _ hj' 0
      · by_cases hax : a = "xcoord"
        · simp only [hax, if_true]
          exact pyGet_take (by omega) _ hj' 0
        · have hak : a ∈ ks := by simpa [hay, hax] using ha
          simp only [hay, hax, if_false]
          exact pyGet_getD (h4 a hak) hj .none) gs
  rw [this]
  congr 3
  unfold Row.single
  congr 2
  funext a
  split
  · rfl
  · split <;> rfl

theorem coords_stop {ks : List String} (hn : ks.Nodup) (hk : "xcoord" ∉ ks ∧ "ycoord" ∉ ks) {rows : List (Row K)} {origin : Fl K × Fl K} {L : Int}
    {cs : Fl K} {i m : Nat} {r : Row K} (hi : rows[i]? = some (r.coords A origin L cs m)) (hf : r.full ks) (hm : m ≤ r.xs.length) {k : Int} {j : Nat}
    (hj : pyIdx r.xs.length k = .ok j) {e : PyErr} (hj' : pyIdx m k = .error e) (gs : List (Row K)) :
    pushAll (ofRows (ks ++ ["xcoord", "ycoord"]) rows) i k (collect (ks ++ ["xcoord", "ycoord"]) gs) =
      (collect (ks ++ ["xcoord", "ycoord"]) (gs ++ [r.half ks j]), some e) := by
  obtain ⟨⟨h1, h2, h3⟩, h4⟩ := hf
  have hn' : (ks ++ "xcoord" :: ["ycoord"]).Nodup := by
    rw [List.nodup_append]
    refine ⟨hn, by decide, fun a ha b hb => ?_⟩
    simp only [List.mem_cons, List.not_mem_nil, or_false] at hb
    rintro rfl
    rcases hb with rfl | rfl
    · exact hk.1 ha
    · exact hk.2 ha
  exact pushAll_stop (rows := rows) (i := i) (k := k) (x := r.xs.getD j 0) (y := r.ys.getD j 0) (t := r.ts.getD j .nan)
    (v := fun a => r.vals j a) hn'
    (by rw [cellAt_row hi]; exact pyGet_getD rfl hj 0) (by rw [cellAt_row hi]; exact pyGet_getD h1 hj 0)
    (by rw [cellAt_row hi]; exact pyGet_getD h2 hj .nan) (fun a ha => by
      rw [cellAt_row (f := fun r => r.os a) hi]
      have hay : a ≠ "ycoord" := fun h => hk.2 (h ▸ ha)
      have hax : a ≠ "xcoord" := fun h => hk.1 (h ▸ ha)
      simp only [Row.coords, hay, hax, if_false]
      exact pyGet_getD (h4 a ha) hj .none) (by
      rw [cellAt_row (f := fun r => r.os "xcoord") hi]
      simp only [Row.coords, if_true, if_neg (show ¬ "xcoord" = "ycoord" by decide)]
      unfold pyGet
      rw [show ((r.ys.take m).map fun j => Val.num (colCoord A origin.1 cs j)).length = m by simp; omega, hj']) gs

theorem coords_step {ks : List String} (hn : ks.Nodup) (hk : "xcoord" ∉ ks ∧ "ycoord" ∉ ks) {rows : List (Row K)} {origin : Fl K × Fl K} {L : Int}
    {cs : Fl K} {i m : Nat} {r : Row K} (hi : rows[i]? = some (r.coords A origin L cs m)) (hf : r.full ks) (h0 : 0 < m) (hm : m ≤ r.xs.length) (k : Int)
    (gs : List (Row K)) :
    stateStep (ofRows (ks ++ ["xcoord", "ycoord"]) rows) k (collect (ks ++ ["xcoord", "ycoord"]) gs) i =
      .ok (collect (ks ++ ["xcoord", "ycoord"]) (gs ++ r.given A origin L cs ks k m)) := by
  have hlast := fun gs => coords_push hn hk hi hf hm (pyIdx_last hf.1.2.2) (pyIdx_last h0) gs
  unfold stateStep Row.given
  cases hj : pyIdx r.xs.length k with
  | ok j =>
    cases hj' : pyIdx m k with
    | ok j' => simp only [coords_push hn hk hi hf hm hj hj']
    | error e => simp only [coords_stop hn hk hi hf hm hj hj', hlast, List.append_assoc, List.cons_append, List.nil_append]
  | error e =>
    have hfail : pushAll (ofRows (ks ++ ["xcoord", "ycoord"]) rows) i k (collect (ks ++ ["xcoord", "ycoord"]) gs) =
        (collect (ks ++ ["xcoord", "ycoord"]) gs, some e) := pushAll_fail hi hj _
    simp only [hfail, hlast]

theorem prefix_take {α : Type} {l l' : List α} (h : l <+: l') : l = l'.take l.length := (List.prefix_iff_eq_take.1 h)

/-- The dictionary at a later time, as rows. -/
structure Stale (A : Arith K) (w w' : WalkData K) (origin : Fl K × Fl K) (size : Int × Int) (cs : Fl K) (rows : List (Row K)) (ms : List Nat)
    (cd : CoordData K) : Prop where
  now : w' = ofRows (keys w'.opt) rows
  full : ∀ r ∈ rows, r.full (keys w'.opt)
  num : ms.length = rows.length
  len : ∀ (i : Nat) m r, ms[i]? = some m → rows[i]? = some r → 0 < m ∧ m ≤ r.xs.length ∧ w.xinds[i]? = some (r.xs.take m) ∧
    w.yinds[i]? = some (r.ys.take m)
  call : ind2coord A w origin size cs = .ok cd
  dict : cd.dict w' = ofRows (keys w'.opt ++ ["xcoord", "ycoord"]) (List.zipWith (Row.coords A origin size.1 cs) ms rows)

theorem stale_rows {w w' : WalkData K} (h : AlignedWalk w) (h' : AlignedWalk w') (hc : Continues w w') (hk : NoCoords w') (origin : Fl K × Fl K)
    (size : Int × Int) (cs : Fl K) : ∃ rows ms cd, Stale A w w' origin size cs rows ms cd := by
  obtain ⟨rows, he, hrows⟩ := aligned_rows h'
  have hxl := hc.xinds.length_eq
  have hrl : rows.length = w.xinds.length := by rw [hxl, he]; simp [ofRows]
  have hpt : ∀ (i : Nat) (hi : i < w.xinds.length), ∃ ys ts r, w.yinds[i]? = some ys ∧ w.times[i]? = some ts ∧ rows[i]? = some r ∧
      w.xinds[i] ≠ [] ∧ ys.length = w.xinds[i].length ∧ w.xinds[i] = r.xs.take w.xinds[i].length ∧ ys = r.ys.take w.xinds[i].length ∧
      w.xinds[i].length ≤ r.xs.length := by
    intro i hi
    have hiy : i < w.yinds.length := by rw [h.ynum]; exact hi
    have hit : i < w.times.length := by rw [h.tnum]; exact hi
    have hir : i < rows.length := by omega
    obtain ⟨h1, h2, -⟩ := h.same i w.xinds[i] w.yinds[i] w.times[i] (by simp [WalkData.lists, hi, hiy, hit])
    have px : w.xinds[i] <+: rows[i].xs := by
      have := hc.xinds.get hi (by omega)
      have e : w'.xinds = rows.map (·.xs) := by rw [he]; rfl
      simpa [e] using this
    have py : w.yinds[i] <+: rows[i].ys := by
      have := hc.yinds.get hiy (by rw [← hc.yinds.length_eq]; exact hiy)
      have e : w'.yinds = rows.map (·.ys) := by rw [he]; rfl
      simpa [e] using this
    refine ⟨w.yinds[i], w.times[i], rows[i], List.getElem?_eq_getElem _, List.getElem?_eq_getElem _, List.getElem?_eq_getElem _, h1, h2, prefix_take px,
      ?_, px.length_le⟩
    rw [← h2]
    exact prefix_take py
  have hms : (w.xinds.map List.length).length = rows.length := by simp [hrl]
  have hzx : w.xinds = List.zipWith (fun m (r : Row K) => r.xs.take m) (w.xinds.map List.length) rows := by
    apply List.ext_getElem?
    intro i
    rw [List.getElem?_zipWith, List.getElem?_map]
    rcases Nat.lt_or_ge i w.xinds.length with hi | hi
    · obtain ⟨ys, ts, r, -, -, hr, -, -, hx, -⟩ := hpt i hi
      rw [List.getElem?_eq_getElem hi, hr]
      simp only [Option.map_some, Option.some.injEq]
      exact hx
    · rw [List.getElem?_eq_none hi]; rfl
  have hzy : w.yinds = List.zipWith (fun m (r : Row K) => r.ys.take m) (w.xinds.map List.length) rows := by
    apply List.ext_getElem?
    intro i
    rw [List.getElem?_zipWith, List.getElem?_map]
    rcases Nat.lt_or_ge i w.xinds.length with hi | hi
    · obtain ⟨ys, ts, r, hy, -, hr, -, -, -, hyt, -⟩ := hpt i hi
      rw [List.getElem?_eq_getElem hi, hr, hy]
      simp only [Option.map_some, Option.some.injEq]
      exact hyt
    · rw [List.getElem?_eq_none hi, List.getElem?_eq_none (by rw [h.ynum]; exact hi)]; rfl
  obtain ⟨cd, hcd, hd⟩ := dict_rows (A := A) hk hms origin size cs hzx hzy
  refine ⟨rows, w.xinds.map List.length, cd, he, hrows, hms, fun i m r hm hr => ?_, hcd, ?_⟩
  · rw [List.getElem?_map, Option.map_eq_some_iff] at hm
    obtain ⟨xs, hxs, rfl⟩ := hm
    obtain ⟨hi, rfl⟩ := List.getElem?_eq_some_iff.1 hxs
    obtain ⟨ys, ts, r', hy, -, hr', hne, -, hx, hyt, hle⟩ := hpt i hi
    rw [hr] at hr'
    cases hr'
    exact ⟨List.length_pos_iff.2 hne, hle, by rw [List.getElem?_eq_getElem hi, ← hx], by rw [hy, ← hyt]⟩
  · rw [← he] at hd
    exact hd

theorem Stale.state {w w' : WalkData K} {origin : Fl K × Fl K} {size : Int × Int} {cs : Fl K} {rows : List (Row K)} {ms : List Nat} {cd : CoordData K}
    (h : Stale A w w' origin size cs rows ms cd) (hn : (keys w'.opt).Nodup) (hk : NoCoords w') (k : Int) :
    getState (cd.dict w') k = .ok (collect (keys w'.opt ++ ["xcoord", "ycoord"])
      (List.zipWith (fun m (r : Row K) => r.given A origin size.1 cs (keys w'.opt) k m) ms rows).flatten) := by
  rw [h.dict]
  have hl := h.num
  rw [getState_collect (c := fun i => (List.zipWith (fun m (r : Row K) => r.given A origin size.1 cs (keys w'.opt) k m) ms rows).getD i [])]
  · congr 2
    have hlen : (List.zipWith (Row.coords A origin size.1 cs) ms rows).length =
        (List.zipWith (fun m (r : Row K) => r.given A origin size.1 cs (keys w'.opt) k m) ms rows).length := by simp
    rw [hlen, List.flatMap_def]
    congr 1
    apply List.ext_getElem?
    intro i
    rw [List.getElem?_map]
    rcases Nat.lt_or_ge i (List.zipWith (fun m (r : Row K) => r.given A origin size.1 cs (keys w'.opt) k m) ms rows).length with hi | hi
    · rw [List.getElem?_range hi, List.getElem?_eq_getElem hi]
      rw [Option.map_some, List.getD_eq_getElem?_getD, List.getElem?_eq_getElem hi]
      rfl
    · rw [List.getElem?_eq_none (by simpa using hi), List.getElem?_eq_none hi]; rfl
  · intro i hi gs
    have him : i < ms.length := by simp at hi; omega
    have hir : i < rows.length := by omega
    obtain ⟨h0, hm, -⟩ := h.len i _ _ (List.getElem?_eq_getElem him) (List.getElem?_eq_getElem hir)
    have hg : (List.zipWith (Row.coords A origin size.1 cs) ms rows)[i]? = some (rows[i].coords A origin size.1 cs ms[i]) := by
      rw [List.getElem?_zipWith, List.getElem?_eq_getElem him, List.getElem?_eq_getElem hir]
    rw [coords_step hn hk hg (h.full _ (List.getElem_mem _)) h0 hm k gs]
    congr 3
    rw [List.getD_eq_getElem?_getD, List.getElem?_zipWith, List.getElem?_eq_getElem him, List.getElem?_eq_getElem hir]
    rfl

end Dorado
