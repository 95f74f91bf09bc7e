import Verif.Lemmas.HeapOwn
import Verif.Lemmas.HeapSafe
import Verif.Spec.SharingDemo
import Verif.Props.Safety
import Verif.Props.Time
import Verif.Props.History

/-! # C64: walk data is shared, not copied; C14, C15, C17, C18, C22 when it is -/

set_option linter.unusedSectionVars false

namespace Dorado

variable {K : Type} [Field K] [LinearOrder K] [IsStrictOrderedRing K] [FloorRing K] {A : Arith K} {F : Fun K A}
variable {Ob : PObj K → Prop} {Ω : (Nat → K) → Prop} {Sd : PObj K → List Int → List Int → Fl K → Prop}

/-- The step `run_iteration` returns the walk data of the object. -/
theorem SysStep.ran {S S1 : Sys K} {i : Nat} (hi : SysInv S) (hs : SysStep A F Ob Ω Sd (.run i) S S1) :
    ∃ d P s, S1.held = S.held ++ [d] ∧ S1.objs[i]? = some (P, s) ∧ s.walk = some d := by
  cases hs with
  | @run _ _ P s ω target maxIter r hi' hω hr =>
    have hm0 := List.mem_of_getElem? hi'
    cases hw : s.walk with
    | none => unfold runRef at hr; rw [hw] at hr; cases hr
    | some w =>
      obtain ⟨f, hf⟩ := (hi.objs _ _ hm0).keys w hw
      obtain ⟨hret, hwalk, -⟩ := runRef_same hw hf hr
      refine ⟨w, P, r.state, by simp only [hret], ?_, hwalk⟩
      simp only
      rw [List.getElem?_set_self (List.getElem?_eq_some_iff.1 hi').1]

/-- The step `generate_particles(…, previous_walk_data=d)` puts the particles of `d` first. -/
theorem SysStep.continued {S S1 : Sys K} {i : Nat} {d : RefWalk} (hs : SysStep A F Ob Ω Sd (.generate i (some d)) S S1) :
    d ∈ S.held ∧ ∃ P s w, S1.objs[i]? = some (P, s) ∧ s.walk = some w ∧ Contains w d 0 := by
  cases hs with
  | @generate _ _ P s prev ω np xs ys time method n x y t m h' s' hi' hω hprev hc hn hsd hg =>
    obtain ⟨rows, pos', -, rfl, hworld, hwalk, -⟩ := generateRef_inv hc hn hg
    refine ⟨hprev d rfl, P, s', _, ?_, hwalk, (Contains.refl d).left⟩
    simp only
    rw [List.getElem?_set_self (List.getElem?_eq_some_iff.1 hi').1]

theorem SysStep.held_le {a : Act} {S S' : Sys K} (hs : SysStep A F Ob Ω Sd a S S') {d : RefWalk} (hd : d ∈ S.held) : d ∈ S'.held := by
  cases hs with
  | run => exact List.mem_append_left _ hd
  | look => exact List.mem_append_left _ hd
  | _ => exact hd

theorem SysRun.held_le {as : List Act} {S S' : Sys K} (h : SysRun A F Ob Ω Sd as S S') {d : RefWalk} (hd : d ∈ S.held) : d ∈ S'.held := by
  induction h with
  | refl => exact hd
  | tail _ hs ih => exact hs.held_le (ih hd)

/-- Times in a row with non-decreasing neighbours are non-decreasing. -/
theorem times_mono {I : Int × Int → Fl K → Prop} {r : Row K} (hI : RowInv I (fun _ t _ t' => ∃ x y, t = .fin x ∧ t' = .fin y ∧ x ≤ y) r)
    {n m : Nat} {x y : K} (hnm : n ≤ m) (hx : r.ts[n]? = some (.fin x)) (hy : r.ts[m]? = some (.fin y)) : x ≤ y := by
  induction m, hnm using Nat.le_induction generalizing y with
  | base =>
    rw [hx] at hy
    injection hy with hy
    injection hy with hy
    exact hy.le
  | succ m hnm ih =>
    have hm : m + 1 < r.xs.length := by rw [← hI.aligned.2.1]; exact (List.getElem?_eq_some_iff.1 hy).1
    have hys := hI.aligned.1
    have hts := hI.aligned.2.1
    obtain ⟨-, a, b, ha, hb, hab⟩ := hI.pairs m (r.xs[m], r.ys[m]) r.ts[m] (r.xs[m + 1], r.ys[m + 1]) (.fin y)
      ⟨List.getElem?_eq_getElem _, List.getElem?_eq_getElem _, List.getElem?_eq_getElem _⟩
      ⟨List.getElem?_eq_getElem _, List.getElem?_eq_getElem _, hy⟩
    injection hb with hb
    subst hb
    exact le_trans (ih (by rw [← ha]; exact List.getElem?_eq_getElem _)) hab

/-! ## C64 -/

/-- In any program, the dictionary `d` returned by a call of `run_iteration` on object `i` shows at any later time exactly the lists the object
itself shows for these particles, unless `clear_walk_data` has been called on the object. -/
theorem C64_returned {as bs : List Act} {S S1 S2 : Sys K} {i : Nat} (h0 : SysRun A F Ob Ω Sd as Sys.start S)
    (hr : SysStep A F Ob Ω Sd (.run i) S S1) (h2 : SysRun A F Ob Ω Sd bs S1 S2) (hc : Act.clear i ∉ bs) :
    ∃ d P s w k, S1.held = S.held ++ [d] ∧ S2.objs[i]? = some (P, s) ∧ s.walk = some w ∧ Shows S2.heap d w k := by
  have hi := (h0.inv SysInv.start).1
  have hi1 := (hr.inv hi).1
  have hi2 := (h2.inv hi1).1
  obtain ⟨d, P, s, hh, ho, hw⟩ := hr.ran hi
  obtain ⟨s', w', k, ho', hw', hcon⟩ := h2.keeps hi1 hc ho hw (Contains.refl d)
  have hd : d ∈ S2.held := h2.held_le (by rw [hh]; simp)
  exact ⟨d, P, s', w', k, hh, ho', hw', hcon.shows ((hi2.objs _ _ (List.mem_of_getElem? ho')).lock _ hw') (hi2.held d hd).1⟩

/-- The same for every tracked variable, when all objects of the program track the same ones. -/
theorem C64_returned_variables {vars : List String} (hO : ∀ P, Ob P → P.particleVars = vars) {as bs : List Act} {S S1 S2 : Sys K} {i : Nat}
    (h0 : SysRun A F Ob Ω Sd as Sys.start S)
    (hr : SysStep A F Ob Ω Sd (.run i) S S1) (h2 : SysRun A F Ob Ω Sd bs S1 S2) (hc : Act.clear i ∉ bs) :
    ∃ d P s w k, S1.held = S.held ++ [d] ∧ S2.objs[i]? = some (P, s) ∧ s.walk = some w ∧ Shows S2.heap d w k ∧
      ∀ var, ShowsVar S2.heap d w var k := by
  have hk : ∀ P, Ob P → keysOf P = (vars.filter fun v => !isBaseVar v).foldl addKey [] := fun P hP => by unfold keysOf; rw [hO P hP]
  have hi := (h0.inv SysInv.start).1
  have hi1 := (hr.inv hi).1
  have hi2 := (h2.inv hi1).1
  have hu2 := h2.uni hk (hr.uni hk (h0.uni hk (UniInv.start _)))
  obtain ⟨d, P, s, hh, ho, hw⟩ := hr.ran hi
  obtain ⟨s', w', k, ho', hw', hcon⟩ := h2.keeps hi1 hc ho hw (Contains.refl d)
  have hd : d ∈ S2.held := h2.held_le (by rw [hh]; simp)
  exact ⟨d, P, s', w', k, hh, ho', hw', hcon.shows ((hi2.objs _ _ (List.mem_of_getElem? ho')).lock _ hw') (hi2.held d hd).1,
    fun var => hcon.showsVar (hu2.objs _ _ _ (List.mem_of_getElem? ho') hw') (hu2.held d hd) var⟩

/-- As long as only `run_iteration` is called on the object, reading the returned dictionary is reading the object's walk data. -/
theorem C64_live {as bs : List Act} {S S1 S2 : Sys K} {i : Nat} (h0 : SysRun A F Ob Ω Sd as Sys.start S)
    (hr : SysStep A F Ob Ω Sd (.run i) S S1) (h2 : SysRun A F Ob Ω Sd bs S1 S2) (hc : Act.clear i ∉ bs) (hg : ∀ p, Act.generate i p ∉ bs) :
    ∃ d P s, S1.held = S.held ++ [d] ∧ S2.objs[i]? = some (P, s) ∧ (s.read S2.heap).walk = some (S2.heap.read d) := by
  have hi := (h0.inv SysInv.start).1
  obtain ⟨d, P, s, hh, ho, hw⟩ := hr.ran hi
  obtain ⟨s', ho', hw'⟩ := h2.fixed (hr.inv hi).1 hc hg ho hw
  exact ⟨d, P, s', hh, ho', by show s'.walk.map _ = _; rw [hw']; rfl⟩

/-- In any program, a dictionary `d` passed as `previous_walk_data` to object `i` shows at any later time exactly the lists that object shows
for these particles, unless `clear_walk_data` has been called on the object; right after the call they are the object's first particles. -/
theorem C64_previous {as bs : List Act} {S S1 S2 : Sys K} {i : Nat} {d : RefWalk} (h0 : SysRun A F Ob Ω Sd as Sys.start S)
    (hr : SysStep A F Ob Ω Sd (.generate i (some d)) S S1) (h2 : SysRun A F Ob Ω Sd bs S1 S2) (hc : Act.clear i ∉ bs) :
    (∃ P s w, S1.objs[i]? = some (P, s) ∧ s.walk = some w ∧ Shows S1.heap d w 0) ∧
    ∃ P s w k, S2.objs[i]? = some (P, s) ∧ s.walk = some w ∧ Shows S2.heap d w k := by
  have hi := (h0.inv SysInv.start).1
  have hi1 := (hr.inv hi).1
  have hi2 := (h2.inv hi1).1
  obtain ⟨hd, P, s, w, ho, hw, hcon⟩ := hr.continued
  have hd1 := (hi1.held d (hr.held_le hd)).1
  refine ⟨⟨P, s, w, ho, hw, hcon.shows ((hi1.objs _ _ (List.mem_of_getElem? ho)).lock _ hw) hd1⟩, ?_⟩
  obtain ⟨s', w', k, ho', hw', hcon'⟩ := h2.keeps hi1 hc ho hw hcon
  exact ⟨P, s', w', k, ho', hw', hcon'.shows ((hi2.objs _ _ (List.mem_of_getElem? ho')).lock _ hw') hd1⟩

/-- The same for every tracked variable, when all objects of the program track the same ones. -/
theorem C64_previous_variables {vars : List String} (hO : ∀ P, Ob P → P.particleVars = vars) {as bs : List Act} {S S1 S2 : Sys K} {i : Nat}
    {d : RefWalk} (h0 : SysRun A F Ob Ω Sd as Sys.start S)
    (hr : SysStep A F Ob Ω Sd (.generate i (some d)) S S1) (h2 : SysRun A F Ob Ω Sd bs S1 S2) (hc : Act.clear i ∉ bs) :
    ∃ P s w k, S2.objs[i]? = some (P, s) ∧ s.walk = some w ∧ Shows S2.heap d w k ∧ ∀ var, ShowsVar S2.heap d w var k := by
  have hk : ∀ P, Ob P → keysOf P = (vars.filter fun v => !isBaseVar v).foldl addKey [] := fun P hP => by unfold keysOf; rw [hO P hP]
  have hi := (h0.inv SysInv.start).1
  have hi1 := (hr.inv hi).1
  have hi2 := (h2.inv hi1).1
  have hu2 := h2.uni hk (hr.uni hk (h0.uni hk (UniInv.start _)))
  obtain ⟨hd, P, s, w, ho, hw, hcon⟩ := hr.continued
  obtain ⟨s', w', k, ho', hw', hcon'⟩ := h2.keeps hi1 hc ho hw hcon
  have hd2 := h2.held_le (hr.held_le hd)
  exact ⟨P, s', w', k, ho', hw', hcon'.shows ((hi2.objs _ _ (List.mem_of_getElem? ho')).lock _ hw') (hi2.held d hd2).1,
    fun var => hcon'.showsVar (hu2.objs _ _ _ (List.mem_of_getElem? ho') hw') (hu2.held d hd2) var⟩

/-- Two objects that have been given the same dictionary as `previous_walk_data` show the same lists for its particles at any later time,
whichever of them is routed. -/
theorem C64_both {as bs cs : List Act} {S S1 S2 S3 S4 : Sys K} {i j : Nat} {d : RefWalk} (h0 : SysRun A F Ob Ω Sd as Sys.start S)
    (hi1 : SysStep A F Ob Ω Sd (.generate i (some d)) S S1) (h12 : SysRun A F Ob Ω Sd bs S1 S2)
    (hj1 : SysStep A F Ob Ω Sd (.generate j (some d)) S2 S3) (h34 : SysRun A F Ob Ω Sd cs S3 S4)
    (hci : Act.clear i ∉ bs ++ cs) (hcj : Act.clear j ∉ cs) :
    ∃ P s w k P' s' w' k', S4.objs[i]? = some (P, s) ∧ s.walk = some w ∧ S4.objs[j]? = some (P', s') ∧ s'.walk = some w' ∧
      ∀ n < (S4.heap.read d).xinds.length, (S4.heap.read w).xinds[k + n]? = (S4.heap.read w').xinds[k' + n]? ∧
        (S4.heap.read w).yinds[k + n]? = (S4.heap.read w').yinds[k' + n]? ∧ (S4.heap.read w).times[k + n]? = (S4.heap.read w').times[k' + n]? := by
  rw [List.mem_append, not_or] at hci
  have hrun : ∀ {xs ys : List Act} {X Y Z : Sys K}, SysRun A F Ob Ω Sd xs X Y → SysRun A F Ob Ω Sd ys Y Z → SysRun A F Ob Ω Sd (xs ++ ys) X Z := by
    intro xs ys X Y Z h h'
    induction h' with
    | refl => rw [List.append_nil]; exact h
    | tail _ h2 ih => rw [← List.append_assoc]; exact .tail (ih h) h2
  obtain ⟨-, P, s, w, k, ho, hw, hs⟩ := C64_previous h0 hi1 (hrun (.tail h12 hj1) h34)
    (by simp only [List.mem_append, List.mem_singleton, not_or]; exact ⟨⟨hci.1, by simp⟩, hci.2⟩)
  obtain ⟨-, P', s', w', k', ho', hw', hs'⟩ := C64_previous (hrun (.tail h0 hi1) h12) hj1 h34 hcj
  have hd : d ∈ S4.held := h34.held_le (hj1.held_le hj1.continued.1)
  have hl := ((h34.inv ((hj1.inv ((h12.inv (hi1.inv (h0.inv SysInv.start).1).1).1)).1)).1.held d hd).1
  refine ⟨P, s, w, k, P', s', w', k', ho, hw, ho', hw', fun n hn => ?_⟩
  have hy : n < (S4.heap.read d).yinds.length := by
    show n < (d.yinds.map _).length
    rw [hl.1]; simpa [Heap.read] using hn
  have ht : n < (S4.heap.read d).times.length := by
    show n < (d.times.map _).length
    rw [hl.2]; simpa [Heap.read] using hn
  exact ⟨(hs.xinds n hn).trans (hs'.xinds n hn).symm, (hs.yinds n hy).trans (hs'.yinds n hy).symm, (hs.times n ht).trans (hs'.times n ht).symm⟩

/-- Whatever happens, a dictionary the program holds never loses a particle or a record: its lists are only extended at the end. -/
theorem C64_extends {as bs : List Act} {S S1 : Sys K} (h0 : SysRun A F Ob Ω Sd as Sys.start S) (h : SysRun A F Ob Ω Sd bs S S1) {d : RefWalk}
    (hd : d ∈ S.held) : Continues (S.heap.read d) (S1.heap.read d) := by
  have hi := (h0.inv SysInv.start).1
  exact (h.inv hi).2.continues (hi.held d hd).1 (hi.held d hd).2

/-- Programs that use `previous_walk_data` only to hand over the particles of one object to another behave as if walk data were copied: the state
of every object is one of the states of the histories to which the theorems on single objects apply. -/
theorem C64_separate {S : Sys K} (h : OwnReach A F Ob Ω Sd S) {P : PObj K} {s : RefState K} (ho : (P, s) ∈ S.objs) :
    Reach A F Ob Ω Sd P (s.read S.heap) := h.inv.reach P s ho

/-! ## C15, C17, C18, C28, C29 in all programs

Any number of objects, any use of `previous_walk_data`, including walk data handed to the object it came from. -/

/-- The tracked variables other than positions and times, in dictionary order. -/
theorem keys_of_vars {P : PObj K} {vars : List String} (h : P.particleVars = vars) : keysOf P = (vars.filter fun v => !isBaseVar v).foldl addKey [] := by
  unfold keysOf; rw [h]

theorem mem_keys_of_vars {vars : List String} {var : String} (hv : var ∈ vars) (hb : isBaseVar var = false) :
    var ∈ (vars.filter fun v => !isBaseVar v).foldl addKey [] := by
  rw [mem_foldl_addKey]
  exact Or.inr (List.mem_filter.2 ⟨hv, by simp [hb]⟩)

theorem SysRun.vars (hG : ∀ P, Ob P → Good P) {keys : List String} (hk : ∀ P, Ob P → keysOf P = keys) {V : String → Int × Int → Val K → Prop}
    (hV : ∀ P, Ob P → ∀ key ∈ keys, ∀ q v, VarAt P key q v → V key q v)
    {as : List Act} {S : Sys K} (h : SysRun A F Ob Ω Sd as Sys.start S) {d : RefWalk} (hd : S.Sees d) :
    ∃ rows, S.heap.read d = ofRows keys rows ∧ ∀ r ∈ rows, VarInv V keys r := by
  have hi := h.any (keys := keys) (Q := VarInv V keys) hG hk (fun P xs ys t x y r hO hS hx hy hr => by
      rw [← hk P hO]
      exact seedRow_vars (fun key hkey v hv => hV P hO key (by rw [← hk P hO]; exact hkey) _ v hv) hr)
    (fun P ω hO _ => ⟨fun r h => h.aligned, fun r n p t q t' v h _ _ _ hv => h.grow fun key hkey =>
      hV P hO key hkey _ _ (hv key (by rw [hk P hO]; exact hkey))⟩) AnyInv.start
  exact hi.read hd

/-- Every dictionary shows aligned non-empty lists, one per particle, for positions, times and every tracked variable. -/
theorem C15_shared_aligned {vars : List String} {as : List Act} {S : Sys K} (h : SysRun A F (fun P => Built A F P ∧ P.particleVars = vars) Ω Sd as Sys.start S)
    {d : RefWalk} (hd : S.Sees d) :
    (S.heap.read d).yinds.length = (S.heap.read d).xinds.length ∧ (S.heap.read d).times.length = (S.heap.read d).xinds.length ∧
    (∀ var ∈ vars, isBaseVar var = false → ∃ l, dictGet (S.heap.read d).opt var = some l ∧ l.length = (S.heap.read d).xinds.length) ∧
    ∀ i, i < (S.heap.read d).xinds.length → ∃ xs ys ts, (S.heap.read d).lists i = some (xs, ys, ts) ∧ xs ≠ [] ∧ ys.length = xs.length ∧
      ts.length = xs.length ∧
      ∀ var ∈ vars, isBaseVar var = false → ∃ vs, (S.heap.read d).optList var i = some vs ∧ vs.length = xs.length := by
  obtain ⟨rows, he, hrows⟩ := h.vars (V := fun _ _ _ => True) (fun P hP => hP.1.good) (fun P hP => keys_of_vars hP.2) (fun _ _ _ _ _ _ _ => trivial) hd
  rw [he]
  refine ⟨by simp [ofRows], by simp [ofRows], fun var hv hb => ?_, fun i hi => ?_⟩
  · refine ⟨rows.map fun r => r.os var, ?_, by simp [ofRows]⟩
    show dictGet (dictOf _ _) var = _
    rw [dictGet_dictOf, if_pos (mem_keys_of_vars hv hb)]
  · have hi' : i < rows.length := by simpa [ofRows] using hi
    have hr := List.getElem?_eq_getElem hi'
    have hI := hrows _ (List.mem_of_getElem? hr)
    refine ⟨_, _, _, lists_ofRows.2 ⟨_, hr, rfl⟩, List.ne_nil_of_length_pos hI.aligned.2.2, hI.aligned.1, hI.aligned.2.1, fun var hv hb => ?_⟩
    exact ⟨_, optList_ofRows.2 ⟨mem_keys_of_vars hv hb, _, hr, rfl⟩, hI.len var (mem_keys_of_vars hv hb)⟩

/-- The invariant of C17. -/
theorem Enclosed.any {R C : Nat} {vars : List String} {as : List Act} {S : Sys K}
    (h : SysRun A F (fun P => Enclosed A F R C P ∧ P.particleVars = vars) Draws (InsideSeeds R C) as Sys.start S) :
    AnyInv A F (fun P => Enclosed A F R C P ∧ P.particleVars = vars) ((vars.filter fun v => !isBaseVar v).foldl addKey [])
      (SafeRow ((vars.filter fun v => !isBaseVar v).foldl addKey []) R C) S :=
  h.any (fun P hP => hP.1.built.good) (fun P hP => keys_of_vars hP.2)
    (fun P xs ys t x y r hO hS hx hy hr => ⟨by
      rw [← keys_of_vars hO.2]
      exact seedRow_vars (fun _ _ _ _ => trivial) hr, fun n p t' hrec => by
        obtain ⟨h1, h2, -⟩ := hr
        obtain ⟨hx', hy', -⟩ := hrec
        rw [h1] at hx'
        rw [h2] at hy'
        have hp : p = (x, y) := by
          cases n with
          | zero =>
            simp only [List.getElem?_cons_zero, Option.some.injEq] at hx' hy'
            exact Prod.ext hx'.symm hy'.symm
          | succ n => simp at hx'
        rw [hp]
        exact hS x hx y hy⟩)
    (fun P ω hO _ => by
      have := SafeRow.grows (A := A) (F := F) (ω := ω) hO.1.built.good hO.1.walk hO.1.steps hO.1.ring ((vars.filter fun v => !isBaseVar v).foldl addKey [])
      rwa [hO.1.rows, hO.1.cols] at this) AnyInv.start

/-- Every position in every dictionary is interior. -/
theorem C17_shared_inside {R C : Nat} {vars : List String} {as : List Act} {S : Sys K}
    (h : SysRun A F (fun P => Enclosed A F R C P ∧ P.particleVars = vars) Draws (InsideSeeds R C) as Sys.start S) {d : RefWalk} (hd : S.Sees d)
    {i n : Nat} {p : Int × Int} (hp : (S.heap.read d).posAt i n = some p) : Inside R C p := by
  obtain ⟨rows, he, hrows⟩ := (Enclosed.any h).read hd
  rw [he] at hp
  obtain ⟨r, hri, hx, hy⟩ := posAt_ofRows.1 hp
  have hI := hrows r (List.mem_of_getElem? hri)
  obtain ⟨t, -, hrec⟩ := rec_of_pos hI.vars.aligned hx hy
  exact hI.inside n p t hrec

/-- `run_iteration` raises no exception on any object that has walk data (with a target: at least one particle). -/
theorem C17_shared_no_crash {R C : Nat} {vars : List String} {as : List Act} {S : Sys K}
    (h : SysRun A F (fun P => Enclosed A F R C P ∧ P.particleVars = vars) Draws (InsideSeeds R C) as Sys.start S)
    {P : PObj K} {s : RefState K} (ho : (P, s) ∈ S.objs) {w : RefWalk} (hw : s.walk = some w) {ω : Nat → K} (hω : Draws ω)
    (target : Option (Fl K)) (maxIter : Int) (ht : target = none ∨ (S.heap.read w).xinds ≠ []) :
    ∃ res, runRef A F P ω S.heap s target maxIter = .ok res := by
  have hi := Enclosed.any h
  obtain ⟨hO, hv⟩ := hi.ob P s ho
  have hk := keys_of_vars hv
  have hR : Routable A P := ⟨hO.built.fields, hO.walk, hO.steps, hO.ring, hO.angles,
    h.avail (fun _ _ _ hm => by simp [Sys.start] at hm) P s w ho hw⟩
  have hu := hi.uni.objs P s w ho hw
  rw [← hk] at hu
  refine runRef_total hR hω (hi.pick P s ho) (l := w.xinds) (by rw [hw, ← hu]) ((hi.inv.objs P s ho).np w hw) ((hi.inv.objs P s ho).bound w hw).base ?_
    (ht.imp_right fun h0 h1 => h0 (by show w.xinds.map _ = []; rw [h1]; rfl))
  rw [hk, hO.rows, hO.cols]
  exact hi.rows

/-- Rows with finite times, none before the first. -/
structure TimeRow (A : Arith K) (r : Row K) : Prop where
  aligned : r.aligned
  fin : ∀ (n : Nat) t, r.ts[n]? = some t → ∃ x0 x, r.ts[0]? = some (Fl.fin x0) ∧ t = Fl.fin x ∧ x0 ≤ x ∧ A.rnd x = x

/-- Travel times in every dictionary are finite and not before the seed time. (That they do not decrease is not true in all programs:
`C18_shared_partial`, `C18_twice_counterexample`.) -/
theorem C18_shared_finite (hh : A.rnd (-(1 / 2)) = -(1 / 2)) (h1 : A.rnd (-1) = -1) {vars : List String} {as : List Act} {S : Sys K}
    (h : SysRun A F (fun P => Built A F P ∧ P.diffCoeff ≤ 2 ∧ 0 ≤ P.dx ∧ P.particleVars = vars) Draws (FinSeed A) as Sys.start S)
    {d : RefWalk} (hd : S.Sees d) {i n : Nat} {t : Fl K} (ht : (S.heap.read d).timeAt i n = some t) :
    ∃ x0 x, (S.heap.read d).timeAt i 0 = some (.fin x0) ∧ t = .fin x ∧ x0 ≤ x := by
  have hi := h.any (keys := (vars.filter fun v => !isBaseVar v).foldl addKey []) (Q := TimeRow A)
    (fun P hP => hP.1.good) (fun P hP => keys_of_vars hP.2.2.2) (fun P xs ys t x y r hO hS hx hy hr => by
      obtain ⟨z, rfl, hz⟩ := hS
      obtain ⟨h1, h2, h3, -⟩ := hr
      refine ⟨by simp [Row.aligned, h1, h2, h3], fun n t ht => ?_⟩
      rw [h3] at ht ⊢
      cases n with
      | zero =>
        simp only [List.getElem?_cons_zero, Option.some.injEq] at ht
        exact ⟨z, z, rfl, ht.symm, le_rfl, hz⟩
      | succ n => simp at ht)
    (fun P ω hP hω => ⟨fun r h => h.aligned, fun r n p t q t' v hQ hrec hs hne _ => by
      refine ⟨r.append_aligned hQ.aligned _ _ _, fun m t1 ht1 => ?_⟩
      obtain ⟨x0, x, hx0, rfl, hxx, hx⟩ := hQ.fin n t hrec.2.2
      have h0 : (r.append q t' v).ts[0]? = some (.fin x0) := by
        show (r.ts ++ [t'])[0]? = _
        rw [List.getElem?_append_left (List.getElem?_eq_some_iff.1 hx0).1, hx0]
      rw [h0]
      change (r.ts ++ [t'])[m]? = some t1 at ht1
      rw [List.getElem?_append] at ht1
      split at ht1
      · obtain ⟨y0, y, hy0, rest⟩ := hQ.fin m t1 ht1
        rw [hx0] at hy0
        injection hy0 with hy0
        injection hy0 with hy0
        exact ⟨x0, y, rfl, hy0 ▸ rest⟩
      · have hm : t1 = t' := by
          rw [List.getElem?_singleton] at ht1
          split at ht1
          · injection ht1 with ht1; exact ht1.symm
          · cases ht1
        subst hm
        obtain ⟨k, q0, d, m, m', dt, -, -, hd, -, htt, rfl⟩ := hs
        obtain ⟨D, rfl, hD⟩ := dist_nonneg_of hP.1.good hP.2.2.1 hd
        obtain ⟨i, j, i', j', vo, vn, va, c, diff, hp⟩ := calcTravelTime_inv hP.1.fields (Ne.symm hne) htt
        obtain ⟨y, rfl, hy⟩ := hp.nonneg hω hP.2.1 hh h1 hD
        refine ⟨x0, _, rfl, rfl, ?_, A.idem _⟩
        refine hxx.trans ?_
        conv_lhs => rw [← hx]
        exact A.mono _ _ (by linarith)⟩) AnyInv.start
  obtain ⟨rows, he, hrows⟩ := hi.read hd
  rw [he] at ht ⊢
  obtain ⟨r, hr, ht⟩ := timeAt_ofRows.1 ht
  obtain ⟨x0, x, h0, hx, hxx, -⟩ := (hrows r (List.mem_of_getElem? hr)).fin n t ht
  exact ⟨x0, x, timeAt_ofRows.2 ⟨r, hr, h0⟩, hx, hxx⟩

/-- All objects have the same grid for `var` and track the same variables: record `n` of `var` in every dictionary is the grid value at
recorded position `n`. -/
theorem C28_shared {vars : List String} {var : String} (hvar : var ∈ vars) (hb : isBaseVar var = false) {g : Grid (Fl K)} {as : List Act} {S : Sys K}
    (h : SysRun A F (fun P => Built A F P ∧ fieldOf P var = some g ∧ P.particleVars = vars) Ω Sd as Sys.start S) {d : RefWalk} (hd : S.Sees d)
    {i n : Nat} {p : Int × Int} (hp : (S.heap.read d).posAt i n = some p) :
    ∃ x, g.get p.1 p.2 = .ok x ∧ (S.heap.read d).valAt var i n = some (.num x) := by
  obtain ⟨rows, he, hrows⟩ := h.vars (V := fun key p v => key = var → ∃ x, g.get p.1 p.2 = .ok x ∧ v = .num x) (fun P hP => hP.1.good)
    (fun P hP => keys_of_vars hP.2.2) (fun P hP key _ q v hv e => by
      subst e
      have hroi : key ≠ "roi_flag" := by rintro rfl; have := hP.2.1; simp [fieldOf] at this
      rcases hv with ⟨h1, -⟩ | ⟨-, g', hg', hs⟩
      · exact absurd h1 hroi
      · rw [availVar_eq_fieldOf, hP.2.1] at hg'
        cases hg'
        unfold sampleAt at hs
        simp only [bind_ok, pure_ok] at hs
        obtain ⟨x, hx, rfl⟩ := hs
        exact ⟨x, hx, rfl⟩) hd
  rw [he] at hp ⊢
  obtain ⟨r, hri, hx, hy⟩ := posAt_ofRows.1 hp
  have hv := hrows r (List.mem_of_getElem? hri)
  have hopt := mem_keys_of_vars hvar hb
  obtain ⟨t, ht, hrec⟩ := rec_of_pos hv.aligned hx hy
  have hn : n < (r.os var).length := by rw [hv.len var hopt]; exact (List.getElem?_eq_some_iff.1 hx).1
  have hval := List.getElem?_eq_getElem hn
  obtain ⟨x, hx1, hx2⟩ := hv.val var hopt n p t _ hrec hval rfl
  exact ⟨x, hx1, valAt_ofRows.2 ⟨hopt, r, hri, by rw [hval, hx2]⟩⟩

/-- Missing for the full claim of C29: objects with other regions or without the flag. All objects have the region grid `g` and track the same
variables: every record in every dictionary has a flag, and it is 1 iff `g` is 1 at the recorded position. -/
theorem C29_shared_partial {vars : List String} (hvar : "roi_flag" ∈ vars) {g : Grid (Fl K)} {as : List Act} {S : Sys K}
    (h : SysRun A F (fun P => Built A F P ∧ P.roi = some g ∧ P.particleVars = vars) Ω Sd as Sys.start S) {d : RefWalk} (hd : S.Sees d)
    {i n : Nat} {p : Int × Int} (hp : (S.heap.read d).posAt i n = some p) :
    ∃ x b, g.get p.1 p.2 = .ok x ∧ (S.heap.read d).valAt "roi_flag" i n = some (.flag b) ∧ ((b = 1 ∧ x = .fin 1) ∨ (b = 0 ∧ x ≠ .fin 1)) := by
  obtain ⟨rows, he, hrows⟩ := h.vars
    (V := fun key p v => key = "roi_flag" → ∃ x b, g.get p.1 p.2 = .ok x ∧ v = .flag b ∧ ((b = 1 ∧ x = .fin 1) ∨ (b = 0 ∧ x ≠ .fin 1)))
    (fun P hP => hP.1.good) (fun P hP => keys_of_vars hP.2.2) (fun P hP key _ q v hv e => by
      subst e
      rcases hv with ⟨-, g', hg', hs⟩ | ⟨h1, -⟩
      · rw [hP.2.1] at hg'
        cases hg'
        unfold roiFlagAt at hs
        simp only [bind_ok, pure_ok] at hs
        obtain ⟨x, hx, rfl⟩ := hs
        refine ⟨x, _, hx, rfl, ?_⟩
        cases x with
        | fin y => by_cases hy : y = 1 <;> simp [Fl.eq, hy]
        | nan => right; simp [Fl.eq]
        | pinf => right; simp [Fl.eq]
        | ninf => right; simp [Fl.eq]
      · exact absurd ⟨rfl, by rw [hP.2.1]; rfl⟩ h1) hd
  rw [he] at hp ⊢
  obtain ⟨r, hri, hx, hy⟩ := posAt_ofRows.1 hp
  have hv := hrows r (List.mem_of_getElem? hri)
  have hopt := mem_keys_of_vars hvar (show isBaseVar "roi_flag" = false by decide)
  obtain ⟨t, ht, hrec⟩ := rec_of_pos hv.aligned hx hy
  have hn : n < (r.os "roi_flag").length := by rw [hv.len _ hopt]; exact (List.getElem?_eq_some_iff.1 hx).1
  have hval := List.getElem?_eq_getElem hn
  obtain ⟨x, b, hx1, hx2, hx3⟩ := hv.val _ hopt n p t _ hrec hval rfl
  exact ⟨x, b, hx1, valAt_ofRows.2 ⟨hopt, r, hri, by rw [hval, hx2]⟩, hx3⟩

/-! ## C14, C15, C18, C22 when no object holds a particle twice

Particles may be held by any number of objects and dictionaries. Excluded are only programs in which one object holds the same particle twice,
i.e. in which walk data an object already holds is passed to it as `previous_walk_data`. Missing from the full statements: those programs, for
which the claims are false (`*_twice_counterexample` below). -/

/-- Every dictionary the program can look at shows connected paths. -/
theorem C14_shared_partial {vars : List String} {S : Sys K}
    (h : SysReach A F NoTwice (fun P => Built A F P ∧ DefaultWalk P ∧ StepsNonzero A P ∧ P.particleVars = vars) Ω Sd S) {d : RefWalk} (hd : S.Sees d)
    {i n : Nat} {p q : Int × Int} (hp : (S.heap.read d).posAt i n = some p) (hq : (S.heap.read d).posAt i (n + 1) = some q) :
    |q.1 - p.1| ≤ 1 ∧ |q.2 - p.2| ≤ 1 := by
  obtain ⟨keys, rows, he, hrows⟩ := SysReach.walk (I := fun _ _ => True)
    (R := fun p _ q _ => |q.1 - p.1| ≤ 1 ∧ |q.2 - p.2| ≤ 1)
    (fun P hP => hP.1.good) (fun P hP => hP.2.2.2) (fun _ _ _ _ _ _ _ _ _ _ => trivial)
    (fun P ω p t q t' hP hω _ hs hne => ⟨trivial, by
      obtain ⟨i, j, k, r, hm⟩ := hs.move hP.2.2.1 hne
      rw [hm.dest, hP.2.1.1, hP.2.1.2]
      have hk := hm.lt
      have : k = 0 ∨ k = 1 ∨ k = 2 ∨ k = 3 ∨ k = 4 ∨ k = 5 ∨ k = 6 ∨ k = 7 ∨ k = 8 := by omega
      rcases this with rfl | rfl | rfl | rfl | rfl | rfl | rfl | rfl | rfl <;> simp [defaultIwalk, defaultJwalk]⟩) h hd
  rw [he] at hp hq
  obtain ⟨r, hr, hx, hy⟩ := posAt_ofRows.1 hp
  obtain ⟨r', hr', hx', hy'⟩ := posAt_ofRows.1 hq
  rw [hr] at hr'
  cases hr'
  have hI := hrows r (List.mem_of_getElem? hr)
  obtain ⟨t, -, hrec⟩ := rec_of_pos hI.aligned hx hy
  obtain ⟨t', -, hrec'⟩ := rec_of_pos hI.aligned hx' hy'
  exact (hI.pairs n _ _ _ _ hrec hrec').2

/-- No dictionary repeats a position in consecutive records. -/
theorem C15_shared_no_repeat_partial {vars : List String} {S : Sys K}
    (h : SysReach A F NoTwice (fun P => Built A F P ∧ P.particleVars = vars) Ω Sd S) {d : RefWalk} (hd : S.Sees d)
    {i n : Nat} {p q : Int × Int} (hp : (S.heap.read d).posAt i n = some p) (hq : (S.heap.read d).posAt i (n + 1) = some q) : q ≠ p := by
  obtain ⟨keys, rows, he, hrows⟩ := SysReach.walk (I := fun _ _ => True) (R := fun _ _ _ _ => True)
    (fun P hP => hP.1.good) (fun P hP => hP.2) (fun _ _ _ _ _ _ _ _ _ _ => trivial) (fun _ _ _ _ _ _ _ _ _ _ _ => ⟨trivial, trivial⟩) h hd
  rw [he] at hp hq
  obtain ⟨r, hr, hx, hy⟩ := posAt_ofRows.1 hp
  obtain ⟨r', hr', hx', hy'⟩ := posAt_ofRows.1 hq
  rw [hr] at hr'
  cases hr'
  have hI := hrows r (List.mem_of_getElem? hr)
  obtain ⟨t, -, hrec⟩ := rec_of_pos hI.aligned hx hy
  obtain ⟨t', -, hrec'⟩ := rec_of_pos hI.aligned hx' hy'
  exact (hI.pairs n _ _ _ _ hrec hrec').1

/-- Every dictionary shows finite non-decreasing travel times. -/
theorem C18_shared_partial (hh : A.rnd (-(1 / 2)) = -(1 / 2)) (h1 : A.rnd (-1) = -1) {vars : List String} {S : Sys K}
    (h : SysReach A F NoTwice (fun P => Built A F P ∧ P.diffCoeff ≤ 2 ∧ 0 ≤ P.dx ∧ P.particleVars = vars) Draws (FinSeed A) S)
    {d : RefWalk} (hd : S.Sees d) :
    (∀ i n t, (S.heap.read d).timeAt i n = some t → ∃ x, t = .fin x) ∧
    ∀ i n m x y, n ≤ m → (S.heap.read d).timeAt i n = some (.fin x) → (S.heap.read d).timeAt i m = some (.fin y) → x ≤ y := by
  obtain ⟨keys, rows, he, hrows⟩ := SysReach.walk (I := fun _ t => ∃ x, t = .fin x ∧ A.rnd x = x)
    (R := fun _ t _ t' => ∃ x y, t = .fin x ∧ t' = .fin y ∧ x ≤ y)
    (fun P hP => hP.1.good) (fun P hP => hP.2.2.2) (fun _ _ _ _ _ _ _ hS _ _ => hS)
    (fun P ω p t q t' hP hω hI hs hne => by
      obtain ⟨x, rfl, hx⟩ := hI
      obtain ⟨k, q0, d, m, m', dt, -, -, hd, -, ht, rfl⟩ := hs
      obtain ⟨D, rfl, hD⟩ := dist_nonneg_of hP.1.good hP.2.2.1 hd
      obtain ⟨i, j, i', j', vo, vn, va, c, diff, hp⟩ := calcTravelTime_inv hP.1.fields (Ne.symm hne) ht
      obtain ⟨y, rfl, hy⟩ := hp.nonneg hω hP.2.1 hh h1 hD
      refine ⟨⟨_, rfl, A.idem _⟩, x, _, rfl, rfl, ?_⟩
      conv_lhs => rw [← hx]
      exact A.mono _ _ (by linarith)) h hd
  rw [he]
  refine ⟨fun i n t ht => ?_, fun i n m x y hnm hx hy => ?_⟩
  · obtain ⟨r, hr, ht⟩ := timeAt_ofRows.1 ht
    have hI := hrows r (List.mem_of_getElem? hr)
    have hn : n < r.xs.length := by rw [← hI.aligned.2.1]; exact (List.getElem?_eq_some_iff.1 ht).1
    obtain ⟨x, hx, -⟩ := hI.recs n (r.xs[n], r.ys[n]'(by rw [hI.aligned.1]; exact hn)) t
      ⟨List.getElem?_eq_getElem _, List.getElem?_eq_getElem _, ht⟩
    exact ⟨x, hx⟩
  · obtain ⟨r, hr, hx⟩ := timeAt_ofRows.1 hx
    obtain ⟨r', hr', hy⟩ := timeAt_ofRows.1 hy
    rw [hr] at hr'
    cases hr'
    have hI := hrows r (List.mem_of_getElem? hr)
    exact times_mono hI hnm hx hy

/-- `run_iteration()` on object `i`: each of the object's particles keeps its lists or gets one further entry with a new position. -/
theorem C22_shared_partial {vars : List String} {S : Sys K} (h : SysReach A F NoTwice (fun P => Built A F P ∧ P.particleVars = vars) Ω Sd S)
    {P : PObj K} {s : RefState K} (ho : (P, s) ∈ S.objs) {w : RefWalk} (hw : s.walk = some w) {ω : Nat → K} {maxIter : Int} {res : RefResult K}
    (hrun : runRef A F P ω S.heap s none maxIter = .ok res) : OneStep P (S.heap.read w) res.read := by
  have hr := SysReach.rows (fun P hP => hP.1.good) (fun P hP => keys_of_vars hP.2) (Q := fun _ => True) (fun _ _ _ _ _ _ _ _ _ _ _ _ => trivial)
    (fun _ _ _ _ _ _ _ _ => trivial) h
  have hk := keys_of_vars (hr.ob P s ho).2
  obtain ⟨rows, he, -⟩ := hr.read (Or.inr ⟨P, s, ho, hw⟩)
  rw [← hk] at he
  have hu := hr.uni P s w ho hw
  have hsep : ∀ w', s.walk = some w' → Sep (keysOf P) (fun _ => w.xinds) w' := by
    intro w' hw'
    rw [hw] at hw'
    cases hw'
    have hn : w.xinds.Nodup := by
      have : NoTwice S := by
        cases h with
        | start => intro P s w hm; simp [Sys.start] at hm
        | step _ _ hΦ => exact hΦ
      exact this P s w ho hw
    rw [hu, ← hk]
    exact ⟨hn, hn, hn, rfl, fun _ _ => hn⟩
  have := run_read (A := A) (F := F) (ω := ω) (h := S.heap) (target := none) (maxIter := maxIter) hsep
  rw [hrun] at this
  rw [he]
  refine oneStep_rows (hr.ob P s ho).1.good (hr.pick P s ho) ⟨?_, ?_⟩ this
  · show s.walk.map _ = _
    rw [hw, ← he]; rfl
  · show s.np = _
    rw [(hr.inv.objs P s ho).np w hw]
    have := congrArg (fun x => x.xinds.length) he
    simpa [Heap.read, ofRows] using this

end Dorado
