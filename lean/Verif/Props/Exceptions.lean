import Verif.Lemmas.First
import Verif.Props.History
import Verif.Props.Api

/-! # C88: `run_iteration` interrupted by an exception -/

set_option linter.unusedSectionVars false

namespace Dorado

variable {K : Type} [Field K] [LinearOrder K] [IsStrictOrderedRing K] [FloorRing K] {A : Arith K} {F : Fun K A}
variable {Ω : (Nat → K) → Prop} {Sd : PObj K → List Int → List Int → Fl K → Prop}

/-- What a call of `run_iteration` leaves behind, with the rows of the walk data. -/
theorem runStmt_error {P : PObj K} {s s' : PState K} (h : Reach A F (Built A F) Ω Sd P s) {wd : WalkData K} (hwd : s.walk = some wd)
    {ω : Nat → K} {target : Option (Fl K)} {maxIter : Int} {e : PyErr} (hr : runStmt A F P ω target maxIter s = (.error e, s')) :
    ∃ rows rows', wd = ofRows (keysOf P) rows ∧ s.np = rows.length ∧ PickEquiv A F P s.world.weight ∧ PickEquiv A F P s'.world.weight ∧
      s'.walk = some (ofRows (keysOf P) rows') ∧ s'.np = rows.length ∧ FailedRows A F P ω target maxIter s.world rows rows' ∧
      ∀ r ∈ rows, r.xs ≠ [] ∧ r.ys ≠ [] ∧ r.ts ≠ [] ∧ ∀ key ∈ keysOf P, r.os key ≠ [] := by
  obtain ⟨hpe, -⟩ := h.state fun P hP => hP.good
  obtain ⟨rows, rfl, hnp, hrows⟩ := Reach.vars (V := fun _ _ _ => True) (fun P hP => hP.good) h (fun _ _ _ _ _ _ _ _ => trivial) hwd
  obtain ⟨a1, a2⟩ := runStmt_spec (A := A) (F := F) h.obj.good (h.avail (by rw [hwd]; exact nofun)) ω target maxIter hpe hwd (Or.inl hnp)
  cases hrun : runIteration A F P ω s target maxIter with
  | ok res => rw [a1 res hrun] at hr; cases hr
  | error e' =>
    obtain ⟨s2, rows', hs2, hpe', hwalk, hnp', hf⟩ := a2 e' hrun
    rw [hs2] at hr
    cases hr
    refine ⟨rows, rows', rfl, hnp, hpe, hpe', hwalk, hnp', hf, fun r hr => ?_⟩
    obtain ⟨⟨h1, h2, h3⟩, hl, -⟩ := hrows r hr
    refine ⟨fun h0 => ?_, fun h0 => ?_, fun h0 => ?_, fun key hk h0 => ?_⟩
    · rw [h0] at h3; simp at h3
    · rw [h0] at h1; simp at h1; omega
    · rw [h0] at h2; simp at h2; omega
    · have := hl key hk
      rw [h0] at this; simp at this; omega

/-- The statement-level account of `run_iteration` raises and returns exactly what the functional account does, and leaves the same object when
it returns. Any rounding, any history. -/
theorem C88_agrees {P : PObj K} {s : PState K} (h : Reach A F (Built A F) Ω Sd P s) (ω : Nat → K) (target : Option (Fl K)) (maxIter : Int) :
    (runStmt A F P ω target maxIter s).1 = (runIteration A F P ω s target maxIter).map (fun r => (r.returned, r.warned)) ∧
    ∀ res, runIteration A F P ω s target maxIter = .ok res → (runStmt A F P ω target maxIter s).2 = res.state := by
  obtain ⟨hpe, h0 | ⟨rows, hrows⟩⟩ := h.state fun P hP => hP.good
  · have h1 : runIteration A F P ω s target maxIter = .error .valueError := by unfold runIteration; rw [h0]
    have h2 : runStmt A F P ω target maxIter s = (.error .valueError, s) := by unfold runStmt; rw [PyM.read_run, h0]; rfl
    rw [h1, h2]
    exact ⟨rfl, fun _ h => by cases h⟩
  · obtain ⟨a1, a2⟩ := runStmt_spec (A := A) (F := F) h.obj.good (h.avail (by rw [hrows.1]; exact nofun)) ω target maxIter hpe hrows.1 (Or.inl hrows.2)
    cases hrun : runIteration A F P ω s target maxIter with
    | ok res => rw [a1 res hrun]; exact ⟨rfl, fun _ h => by cases h; rfl⟩
    | error e =>
      obtain ⟨s2, -, hs2, -⟩ := a2 e hrun
      rw [hs2]
      exact ⟨rfl, fun _ h => by cases h⟩

/-- Without target time a call that raises changes nothing but the position of the random stream: walk data and particle count are the old
ones, and every later sequence of calls shows what it would have shown had the call not been made (with that many draws skipped). Any rounding,
any history, both modes. -/
theorem C88_steady {P : PObj K} {s s' : PState K} (h : Reach A F (Built A F) Ω Sd P s) {ω : Nat → K} {maxIter : Int} {e : PyErr}
    (hr : runStmt A F P ω none maxIter s = (.error e, s')) :
    s'.walk = s.walk ∧ s'.np = s.np ∧
    ∀ (ω' : Nat → K) (cs : List (ApiCall K)), transcript A F P ω' cs s' = transcript A F P ω' cs { s with world := { s.world with pos := s'.world.pos } } := by
  rcases hwd : s.walk with _ | wd
  · have h2 : runStmt A F P ω none maxIter s = (.error .valueError, s) := by unfold runStmt; rw [PyM.read_run, hwd]; rfl
    rw [h2] at hr
    cases hr
    exact ⟨hwd, rfl, fun _ _ => by rw [← hwd]⟩
  · obtain ⟨rows, rows', rfl, hnp, hpe, hpe', hwalk, hnp', hf | ⟨tgt, k, -, -, -, ht, -⟩, -⟩ := runStmt_error h hwd hr
    · subst hf
      refine ⟨hwalk, by rw [hnp', hnp], fun ω' cs => ?_⟩
      rw [← hwd]
      exact SameFuture.transcript (s := s') (s' := { s with world := { s.world with pos := s'.world.pos } }) h.obj.good
        ⟨⟨hpe', hpe, rfl⟩, hwalk.trans hwd.symm, .inr (hnp'.trans hnp.symm)⟩ ω' cs
    · cases ht

/-- With a target time a call that raises has reached some particle `k`: the walk data of the particles before `k` are exactly those that the call
would have produced for these particles alone; the particles after `k` are untouched; particle `k` has its old records and possibly more. (With no
particles at all nothing changes.) Any rounding, any history, both modes. -/
theorem C88_target {P : PObj K} {s s' : PState K} (h : Reach A F (Built A F) Ω Sd P s) {wd : WalkData K} (hwd : s.walk = some wd) {ω : Nat → K}
    {target : Fl K} {maxIter : Int} {e : PyErr} (hr : runStmt A F P ω (some target) maxIter s = (.error e, s')) :
    ∃ wd', s'.walk = some wd' ∧ s'.np = s.np ∧ (wd' = wd ∨ ∃ k, k < s.np ∧
      (k = 0 ∨ ∃ res, runIteration A F P ω { s with np := k, walk := some (wd.first k) } (some target) maxIter = .ok res ∧
        res.state.walk = some (wd'.first k)) ∧
      ∀ i, k < i → wd'.lists i = wd.lists i ∧ ∀ var, wd'.optList var i = wd.optList var i) := by
  obtain ⟨rows, rows', rfl, hnp, hpe, hpe', hwalk, hnp', hf | ⟨tgt, k, rows1, w1, warn, ht, hk, hdone, ⟨hl1, hd1⟩, hl', hp, hpk⟩, hne⟩ :=
    runStmt_error h hwd hr
  · subst hf
    exact ⟨_, hwalk, by rw [hnp', hnp], Or.inl rfl⟩
  cases ht
  refine ⟨_, hwalk, by rw [hnp', hnp], Or.inr ⟨k, by omega, ?_, fun i hi => ?_⟩⟩
  · by_cases hk0 : k = 0
    · exact Or.inl hk0
    right
    have hlen : (rows.take k).length = k := by simp; omega
    have hfirst := targetAll_first (A := A) (F := F) (P := P) ω target maxIter (keysOf P) (m := k) (List.range k) (fun i hi => by simpa using hi)
      (ofRows (keysOf P) rows) s.world none
    rw [hdone] at hfirst
    simp only [first_ofRows, Except.map, firstRes] at hfirst
    obtain ⟨-, rows2, hits, -, -, -, hwarn⟩ := targetAll_inv A F h.obj.good (List.range k) List.nodup_range hpe hdone
    have hw : ∃ l, warn = some l := by
      rw [List.getLast?_range, if_neg hk0] at hwarn
      exact ⟨_, hwarn⟩
    obtain ⟨l, rfl⟩ := hw
    rw [first_ofRows, first_ofRows]
    refine ⟨_, runIteration_target (s := { s with np := k, walk := some (ofRows (keysOf P) (rows.take k)) }) (rows := rows.take k) ⟨rfl, hlen.symm⟩
      (fun r hr => hne r (List.mem_of_mem_take hr)) (by rw [hlen]; exact hfirst), ?_⟩
    have : rows'.take k = rows1.take k := by
      apply List.ext_getElem?
      intro n
      simp only [List.getElem?_take]
      split
      · exact hp n (by omega)
      · rfl
    simp only [this]
  · have hri : rows'[i]? = rows[i]? := by
      rw [hp i (by omega)]
      cases hr0 : rows[i]? with
      | none =>
        rw [List.getElem?_eq_none_iff] at hr0 ⊢
        omega
      | some r =>
        obtain ⟨r1, hr1, h1, -⟩ := hd1 i r hr0
        rw [hr1, h1 (by simp; omega)]
    refine ⟨?_, fun var => ?_⟩
    · apply Option.ext
      intro l
      rw [lists_ofRows, lists_ofRows, hri]
    · apply Option.ext
      intro l
      rw [optList_ofRows, optList_ofRows, hri]

/-- A call that raises never leaves half a record: afterwards every particle still has position, time and variable lists of one common non-zero
length, and each extends the list before the call. Any rounding, any history. -/
theorem C88_records {P : PObj K} {s s' : PState K} (h : Reach A F (Built A F) Ω Sd P s) {wd : WalkData K} (hwd : s.walk = some wd) {ω : Nat → K}
    (hω : Ω ω) {target : Option (Fl K)} {maxIter : Int} {e : PyErr} (hr : runStmt A F P ω target maxIter s = (.error e, s')) :
    ∃ wd', s'.walk = some wd' ∧ ∀ i xs ys ts, wd.lists i = some (xs, ys, ts) → ∃ xs' ys' ts', wd'.lists i = some (xs', ys', ts') ∧
      xs <+: xs' ∧ ys <+: ys' ∧ ts <+: ts' ∧ xs' ≠ [] ∧ ys'.length = xs'.length ∧ ts'.length = xs'.length ∧
      ∀ var, OptVar P var → ∃ vs vs', wd.optList var i = some vs ∧ wd'.optList var i = some vs' ∧ vs <+: vs' ∧ vs'.length = xs'.length := by
  obtain ⟨wd', hwd', hpre⟩ := C21_append_only h (.failed (.refl s) hω hr) hwd
  have hnp : s'.np = s.np := by
    obtain ⟨rows, rows', -, hnp, -, -, -, hnp', -⟩ := runStmt_error h hwd hr
    rw [hnp', hnp]
  obtain ⟨hl, -, -, -, hal⟩ := C15_aligned h hwd
  obtain ⟨-, -, -, -, hal'⟩ := C15_aligned (h.failed hω hr) hwd'
  refine ⟨wd', hwd', fun i xs ys ts hi => ?_⟩
  obtain ⟨xs', ys', ts', hi', p1, p2, p3, pv⟩ := hpre i xs ys ts hi
  have hlt : i < s.np := by
    unfold WalkData.lists at hi
    cases hx : wd.xinds[i]? with
    | none => rw [hx] at hi; cases hi
    | some x =>
      have := (List.getElem?_eq_some_iff.1 hx).1
      omega
  obtain ⟨xs0, ys0, ts0, hi0, -, -, -, hv0⟩ := hal i hlt
  obtain ⟨xs1, ys1, ts1, hi1, n1, n2, n3, hv1⟩ := hal' i (by omega)
  rw [hi'] at hi1
  cases hi1
  refine ⟨xs', ys', ts', hi', p1, p2, p3, n1, n2, n3, fun var hv => ?_⟩
  obtain ⟨vs, hvs, -⟩ := hv0 var hv
  obtain ⟨vs', hvs', hlv⟩ := hv1 var hv
  obtain ⟨vs2, hvs2, hp2⟩ := pv var vs hvs
  rw [hvs'] at hvs2
  cases hvs2
  exact ⟨vs, vs', hvs, hvs', hp2, hlv⟩

/-! Three particles, the second one seeded outside the grid (nothing checks that): a call with target time moves the first one, then raises
IndexError; a call without target time raises before anything is recorded. -/

/-- What is seen of a call of `run_iteration` and of the object after it. -/
def seenCall (p : Params ℚ) (target : Option (Fl ℚ)) (s : PState ℚ) : Option PyErr × Option (List (List Int)) × Nat :=
  let r := runStmt Arith.exact Fun.toy (objOf p) (fun _ => 1 / 2) target 10 s
  ((match r.1 with | .ok _ => none | .error e => some e), r.2.walk.map (·.xinds), r.2.world.pos)

theorem seen_raises {p : Params ℚ} {n : Nat} {xs ys : List Int} {target : Option (Fl ℚ)} {e : PyErr} {x0 x : List (List Int)} {m : Nat}
    (hB : Built Arith.exact Fun.toy (objOf p))
    (h : ((demo p (fun _ => 1 / 2) n xs ys []).toOption.map fun s => (s.walk.map (·.xinds), seenCall p target s)) = some (some x0, some e, some x, m)) :
    ∃ s wd s' wd', Reach Arith.exact Fun.toy (Built Arith.exact Fun.toy) (NonzeroDraws Arith.exact) AnySeed (objOf p) s ∧ s.walk = some wd ∧
      wd.xinds = x0 ∧ runStmt Arith.exact Fun.toy (objOf p) (fun _ => 1 / 2) target 10 s = (.error e, s') ∧ s'.walk = some wd' ∧ wd'.xinds = x ∧
      s'.world.pos = m := by
  cases hd : demo p (fun _ => 1 / 2) n xs ys [] with
  | error e => rw [hd] at h; simp [Except.toOption] at h
  | ok s =>
    rw [hd] at h
    simp only [Except.toOption, Option.map_some, Option.some.injEq, Prod.mk.injEq, seenCall, Option.map_eq_some_iff] at h
    obtain ⟨⟨wd, hwd, hx⟩, he, ⟨wd', hwd', hx'⟩, hm⟩ := h
    refine ⟨s, wd, _, wd', (demo_reach half_draws trivial hd).mono fun P hP => ?_, hwd, hx, Prod.ext ?_ rfl, hwd', hx', hm⟩
    · rw [hP]; exact hB
    · generalize (runStmt Arith.exact Fun.toy (objOf p) (fun _ => 1 / 2) target 10 s).1 = r at he
      cases r with
      | ok a => cases he
      | error e' => simp only [Option.some.injEq] at he; rw [he]

example : ∃ s wd s' wd', Reach Arith.exact Fun.toy (Built Arith.exact Fun.toy) (NonzeroDraws Arith.exact) AnySeed (objOf chan) s ∧ s.walk = some wd ∧
    wd.xinds = [[2], [9], [2]] ∧ runStmt Arith.exact Fun.toy (objOf chan) (fun _ => 1 / 2) (some (.fin 10)) 10 s = (.error .indexError, s') ∧
    s'.walk = some wd' ∧ wd'.xinds = [[2, 3], [9], [2]] ∧ s'.world.pos = 2 :=
  seen_raises (p := chan) (n := 3) (xs := [2, 9, 2]) (ys := [2, 9, 2]) chan_built (by decide +kernel)

example : ∃ s wd s' wd', Reach Arith.exact Fun.toy (Built Arith.exact Fun.toy) (NonzeroDraws Arith.exact) AnySeed (objOf chan) s ∧ s.walk = some wd ∧
    wd.xinds = [[2], [9], [2]] ∧ runStmt Arith.exact Fun.toy (objOf chan) (fun _ => 1 / 2) none 10 s = (.error .indexError, s') ∧
    s'.walk = some wd' ∧ wd'.xinds = [[2], [9], [2]] ∧ s'.world.pos = 1 :=
  seen_raises (p := chan) (n := 3) (xs := [2, 9, 2]) (ys := [2, 9, 2]) chan_built (by decide +kernel)

end Dorado
