import Verif.Spec.Pool
import Verif.Spec.Routines
import Verif.Lemmas.Routines
import Verif.Lemmas.Nourish
import Verif.Lemmas.Curve

/-! Helper lemmas: loops over particles whose steps commute. -/

set_option linter.unusedSectionVars false

namespace Dorado

variable {K : Type} [Field K] [LinearOrder K] [IsStrictOrderedRing K] {A : Arith K}

/-! ## Loops over rows -/

theorem foldE_rows {ρ σ : Type} {f : σ → Nat → Except PyErr σ} {G : σ → ρ → Except PyErr σ} {rows : List ρ}
    (h : ∀ (i : Nat) r, rows[i]? = some r → ∀ s, f s i = G s r) (s : σ) : foldE f s (List.range rows.length) = foldE G s rows := by
  have key : ∀ k, k ≤ rows.length → foldE f s (List.range k) = foldE G s (rows.take k) := by
    intro k
    induction k with
    | zero => intro _; simp [foldE]
    | succ k ih =>
      intro hk
      have hr : rows[k]? = some rows[k] := List.getElem?_eq_getElem (by omega)
      rw [List.range_succ, List.take_add_one, hr, foldE_append, foldE_append, ih (by omega)]
      congr 1
      funext s'
      simp [foldE, h k _ hr]
  have := key rows.length le_rfl
  rwa [List.take_length] at this

/-- Two steps of a loop that may be exchanged. -/
def Comm {σ : Type} (f g : σ → Except PyErr σ) : Prop := ∀ s, (f s >>= g) = (g s >>= f)

theorem Comm.symm {σ : Type} {f g : σ → Except PyErr σ} (h : Comm f g) : Comm g f := fun s => (h s).symm

theorem Comm.fold {σ α : Type} {f : σ → Except PyErr σ} {g : σ → α → Except PyErr σ} {l : List α} (h : ∀ a ∈ l, Comm f (g · a)) :
    Comm f (fun s => foldE g s l) := by
  induction l with
  | nil =>
    intro s
    show (f s >>= fun s => .ok s) = f s
    cases f s <;> rfl
  | cons a l ih =>
    intro s
    have h1 := h a (by simp) s
    have h2 := ih fun b hb => h b (by simp [hb])
    simp only [foldE]
    calc (f s >>= fun s => g s a >>= fun s' => foldE g s' l) = (f s >>= (g · a)) >>= fun s' => foldE g s' l := by
            cases f s <;> rfl
      _ = (g s a >>= f) >>= fun s' => foldE g s' l := by rw [h1]
      _ = g s a >>= fun s1 => (f s1 >>= fun s' => foldE g s' l) := by cases g s a <;> rfl
      _ = g s a >>= fun s1 => (foldE g s1 l >>= f) := by congr 1; funext s1; exact h2 s1
      _ = (g s a >>= fun s' => foldE g s' l) >>= f := by cases g s a <;> rfl

theorem foldE_perm {σ α : Type} {f : σ → α → Except PyErr σ} {l l' : List α} (hp : l.Perm l')
    (h : ∀ a ∈ l, ∀ b ∈ l, Comm (f · a) (f · b)) (s : σ) : foldE f s l = foldE f s l' := by
  induction hp generalizing s with
  | nil => rfl
  | cons a _ ih =>
    simp only [foldE]
    congr 1
    funext s'
    exact ih (fun b hb c hc => h b (by simp [hb]) c (by simp [hc])) s'
  | swap a b l =>
    simp only [foldE]
    have := h b (by simp) a (by simp) s
    calc (f s b >>= fun s' => f s' a >>= fun s' => foldE f s' l) = (f s b >>= (f · a)) >>= fun s' => foldE f s' l := by cases f s b <;> rfl
      _ = (f s a >>= (f · b)) >>= fun s' => foldE f s' l := by rw [this]
      _ = _ := by cases f s a <;> rfl
  | trans h1 _ ih1 ih2 =>
    rw [ih1 h s, ih2 (fun a ha b hb => h a (h1.mem_iff.2 ha) b (h1.mem_iff.2 hb)) s]

/-! ## Adding to cells -/

theorem idx_cases (n : Nat) (i : Int) : pyIdx n i = .error .indexError ∨ ∃ k, pyIdx n i = .ok k := by
  unfold pyIdx
  split_ifs
  · exact .inr ⟨_, rfl⟩
  · exact .inr ⟨_, rfl⟩
  · exact .inl rfl

theorem addAt_rows {g g' : Grid (Fl K)} {x y : Int} {v : Fl K} (h : addAt A g x y v = .ok g') : g'.rows = g.rows ∧ g'.cols = g.cols := by
  unfold addAt at h
  simp only [bind_ok] at h
  obtain ⟨i, -, j, -, h⟩ := h
  cases h
  exact ⟨rfl, rfl⟩

/-- Adding may be exchanged if sums do not depend on the order. -/
theorem addAt_comm {x y x' y' : Int} {v v' : Fl K} (hv : ∀ w, A.add (A.add w v) v' = A.add (A.add w v') v) :
    Comm (fun g => addAt A g x y v) (fun g => addAt A g x' y' v') := by
  intro g
  unfold addAt
  rcases idx_cases g.rows x with hi | ⟨i, hi⟩ <;> rcases idx_cases g.cols y with hj | ⟨j, hj⟩ <;>
    rcases idx_cases g.rows x' with hi' | ⟨i', hi'⟩ <;> rcases idx_cases g.cols y' with hj' | ⟨j', hj'⟩ <;>
    simp only [hi, hj, hi', hj', ok_bind, error_bind, pure_def]
  congr 2
  funext a b
  by_cases h1 : a = i ∧ b = j <;> by_cases h2 : a = i' ∧ b = j'
  · rw [if_pos h2, if_pos h1, if_pos h1, if_pos h2, hv]
  · rw [if_neg h2, if_pos h1, if_pos h1, if_neg h2]
  · rw [if_pos h2, if_neg h1, if_neg h1, if_pos h2]
  · rw [if_neg h2, if_neg h1, if_neg h1, if_neg h2]

/-- Errors of a step are always IndexError. -/
def OnlyIndex {σ : Type} (f : σ → Except PyErr σ) : Prop := ∀ s e, f s = .error e → e = .indexError

theorem addAt_only {x y : Int} {v : Fl K} : OnlyIndex fun g => addAt A g x y v := by
  intro g e h
  unfold addAt at h
  rcases idx_cases g.rows x with hi | ⟨i, hi⟩ <;> rcases idx_cases g.cols y with hj | ⟨j, hj⟩ <;>
    simp only [hi, hj, ok_bind, error_bind, pure_def] at h <;> cases h <;> rfl

/-- Two steps on the parts of a pair. -/
def both {σ τ : Type} (f : σ → Except PyErr σ) (g : τ → Except PyErr τ) (s : σ × τ) : Except PyErr (σ × τ) :=
  f s.1 >>= fun a => g s.2 >>= fun b => .ok (a, b)

theorem both_bind {σ τ : Type} {f f' : σ → Except PyErr σ} {g g' : τ → Except PyErr τ} (hf : OnlyIndex f') (hg : OnlyIndex g) (s : σ × τ) :
    (both f g s >>= both f' g') = ((f s.1 >>= f') >>= fun a => (g s.2 >>= g') >>= fun b => .ok (a, b)) := by
  unfold both
  rcases h1 : f s.1 with e | a
  · rfl
  · rcases h2 : g s.2 with e | b
    · simp only [ok_bind, error_bind]
      rcases h3 : f' a with e' | a'
      · rw [hf _ _ h3, hg _ _ h2]; rfl
      · rfl
    · rfl

theorem both_comm {σ τ : Type} {f f' : σ → Except PyErr σ} {g g' : τ → Except PyErr τ} (hf : OnlyIndex f) (hf' : OnlyIndex f')
    (hg : OnlyIndex g) (hg' : OnlyIndex g') (h1 : Comm f f') (h2 : Comm g g') : Comm (both f g) (both f' g') := by
  intro s
  rw [both_bind hf' hg, both_bind hf hg', h1 s.1, h2 s.2]

theorem exact_add_swap (w v v' : Fl K) : Arith.exact.add (Arith.exact.add w v) v' = Arith.exact.add (Arith.exact.add w v') v := by
  cases w <;> cases v <;> cases v' <;> simp [Arith.add, Arith.exact]
  ring

/-! ## Rows chosen -/

theorem select_rows (ks : List String) (rows : List (Row K)) (l : List Nat) :
    (ofRows ks rows).select l = ofRows ks (l.filterMap (rows[·]?)) := by
  unfold WalkData.select ofRows dictOf
  simp only [List.getElem?_map, List.map_filterMap, List.map_map, Function.comp_def]

theorem range_getElem? {α : Type} (l : List α) : (List.range l.length).filterMap (l[·]?) = l := by
  induction l using List.reverseRecOn with
  | nil => rfl
  | append_singleton l a ih =>
    rw [List.length_append, List.length_singleton, List.range_succ, List.filterMap_append]
    have : (List.range l.length).filterMap ((l ++ [a])[·]?) = (List.range l.length).filterMap (l[·]?) := by
      apply List.filterMap_congr
      intro i hi
      rw [List.getElem?_append_left (List.mem_range.1 hi)]
    rw [this, ih]
    simp

theorem perm_rows {α : Type} {rows : List α} {l : List Nat} (h : l.Perm (List.range rows.length)) : (l.filterMap (rows[·]?)).Perm rows := by
  have := h.filterMap (rows[·]?)
  rwa [range_getElem?] at this

theorem get_select {α : Type} {rows : List α} {l : List Nat} (h : ∀ i ∈ l, i < rows.length) (k : Nat) :
    (l.filterMap (rows[·]?))[k]? = l[k]?.bind (rows[·]?) := by
  induction l generalizing k with
  | nil => simp
  | cons a l ih =>
    have ha : rows[a]? = some (rows[a]'(h a (by simp))) := List.getElem?_eq_getElem (h a (by simp))
    rw [List.filterMap_cons, ha]
    cases k with
    | zero => simp
    | succ k => simpa using ih (fun i hi => h i (by simp [hi])) k

/-! ## Visit counts and times -/

theorem visitFreq_rows (ks : List String) {rows : List (Row K)} (size : Nat × Nat) :
    visitFreq A (ofRows ks rows) size =
      foldE (fun g r => foldE (countStep A r.xs r.ys) g (List.range r.xs.length)) (zerosGrid size) rows := by
  unfold visitFreq
  rw [show (ofRows ks rows).xinds.length = rows.length by simp [ofRows]]
  apply foldE_rows
  intro i r hr s
  simp [countParticle, ofRows, listGet, hr]

theorem countStep_comm {r r' : Row K} (h : r.aligned) (h' : r'.aligned) :
    Comm (fun g => foldE (countStep A r.xs r.ys) g (List.range r.xs.length)) (fun g => foldE (countStep A r'.xs r'.ys) g (List.range r'.xs.length)) := by
  have step : ∀ {r : Row K}, r.aligned → ∀ i ∈ List.range r.xs.length, ∃ x y, ∀ g, countStep A r.xs r.ys g i = addAt A g x y (.fin 1) := by
    intro r h i hi
    have hi := List.mem_range.1 hi
    exact ⟨r.xs[i], r.ys[i]'(by rw [h.1]; exact hi), fun g => by simp [countStep, listGet, hi, h.1]⟩
  refine Comm.fold fun b hb => Comm.symm (Comm.fold fun a ha => ?_)
  obtain ⟨x, y, e⟩ := step h a ha
  obtain ⟨x', y', e'⟩ := step h' b hb
  intro g
  simp only [e, e']
  exact addAt_comm (fun w => rfl) g

theorem visitFreq_perm (ks : List String) {rows rows' : List (Row K)} (hp : rows.Perm rows') (h : ∀ r ∈ rows, r.aligned) (size : Nat × Nat) :
    visitFreq A (ofRows ks rows) size = visitFreq A (ofRows ks rows') size := by
  rw [visitFreq_rows, visitFreq_rows]
  exact foldE_perm hp (fun a ha b hb => countStep_comm (h a ha) (h b hb)) _

theorem timeSums_rows (ks : List String) {rows : List (Row K)} (st : Grid (Fl K) × Grid (Fl K)) :
    foldE (timeParticle A (ofRows ks rows)) st (List.range (ofRows ks rows).xinds.length) =
      foldE (fun st r => foldE (timeStep A r.xs r.ys r.ts) st (List.range' 1 (r.xs.length - 2))) st rows := by
  rw [show (ofRows ks rows).xinds.length = rows.length by simp [ofRows]]
  apply foldE_rows
  intro i r hr s
  simp [timeParticle, ofRows, listGet, hr]

theorem timeStep_comm {r r' : Row K} (h : r.aligned) (h' : r'.aligned) :
    Comm (fun st => foldE (timeStep Arith.exact r.xs r.ys r.ts) st (List.range' 1 (r.xs.length - 2)))
      (fun st => foldE (timeStep Arith.exact r'.xs r'.ys r'.ts) st (List.range' 1 (r'.xs.length - 2))) := by
  have step : ∀ {r : Row K}, r.aligned → ∀ i ∈ List.range' 1 (r.xs.length - 2), ∃ x y v, ∀ st, timeStep Arith.exact r.xs r.ys r.ts st i =
      both (fun g => addAt Arith.exact g x y (.fin 1)) (fun g => addAt Arith.exact g x y v) st := by
    intro r h i hi
    obtain ⟨h1, h2⟩ := List.mem_range'_1.1 hi
    obtain ⟨hy, ht, -⟩ := h
    have a1 : i < r.xs.length := by omega
    have a2 : i < r.ys.length := by omega
    have a3 : i < r.ts.length := by omega
    have a4 : i - 1 < r.ts.length := by omega
    have a5 : i + 1 < r.ts.length := by omega
    refine ⟨r.xs[i], r.ys[i], Arith.exact.mul (.fin (1 / 2)) (Arith.exact.add (Arith.exact.sub r.ts[i] r.ts[i - 1])
      (Arith.exact.sub r.ts[i + 1] r.ts[i])), fun st => ?_⟩
    simp only [timeStep, listGet, List.getElem?_eq_getElem a1, List.getElem?_eq_getElem a2, List.getElem?_eq_getElem a3,
      List.getElem?_eq_getElem a4, List.getElem?_eq_getElem a5, ok_bind, both]
    rfl
  refine Comm.fold fun b hb => Comm.symm (Comm.fold fun a ha => ?_)
  obtain ⟨x, y, v, e⟩ := step h a ha
  obtain ⟨x', y', v', e'⟩ := step h' b hb
  intro g
  simp only [e, e']
  exact both_comm addAt_only addAt_only addAt_only addAt_only (addAt_comm fun w => rfl) (addAt_comm fun w => exact_add_swap w _ _) g

theorem meanTime_perm (ks : List String) {rows rows' : List (Row K)} (hp : rows.Perm rows') (h : ∀ r ∈ rows, r.aligned) (size : Nat × Nat) :
    meanTime Arith.exact (ofRows ks rows) size = meanTime Arith.exact (ofRows ks rows') size := by
  unfold meanTime
  rw [timeSums_rows, timeSums_rows, foldE_perm hp (fun a ha b hb => timeStep_comm (h a ha) (h b hb)) _]

/-! ## Curves -/

variable [FloorRing K]

theorem shown_perm {expo expo' : List (Fl K)} (h : expo.Perm expo') (e : K) :
    sortFl (shownTimes A expo (.fin e)) = sortFl (shownTimes A expo' (.fin e)) ∧
      (shownTimes A expo (.fin e)).length = (shownTimes A expo' (.fin e)).length := by
  obtain ⟨l, h1, h2, -, h3, -, -, -, h4⟩ := shown_sorted (A := A) expo e
  obtain ⟨l', h1', h2', -, h3', -, -, -, h4'⟩ := shown_sorted (A := A) expo' e
  have hp : (l.map Fl.fin).Perm (l'.map Fl.fin) := (h4.trans (h.filter _)).trans h4'.symm
  have hp' : l.Perm l' := (List.map_perm_map_iff (fun a b hab => by cases hab; rfl)).1 hp
  have : l = l' := List.Perm.eq_of_pairwise (fun a b _ _ => le_antisymm) h2 h2' hp'
  subst this
  exact ⟨by rw [h1, h1'], by rw [h3, h3']⟩

theorem endTime_perm {ends ends' : List (Fl K)} (hp : ends.Perm ends') (hf : ∀ t ∈ ends, ∃ x, t = .fin x) (u : Bool) :
    (if u then maxTime ends else minTime ends) = (if u then maxTime ends' else minTime ends') := by
  by_cases hne : ends = []
  · subst hne
    rw [hp.nil_eq]
  have hne' : ends' ≠ [] := fun h0 => hne (by subst h0; exact hp.eq_nil)
  obtain ⟨e, h1, h2, h3⟩ := endTime_ok hne hf u
  obtain ⟨e', h1', h2', h3'⟩ := endTime_ok hne' (fun t ht => hf t (hp.mem_iff.2 ht)) u
  rw [h1, h1']
  have a := h3 e' (hp.mem_iff.2 h2')
  have b := h3' e (hp.mem_iff.1 h2)
  cases u
  · simp only [Bool.false_eq_true, if_false] at a b; rw [le_antisymm a b]
  · simp only [if_true] at a b; rw [le_antisymm a b]

theorem exposureCurve_perm {ends ends' expo expo' : List (Fl K)} (hp : ends.Perm ends') (hf : ∀ t ∈ ends, ∃ x, t = .fin x)
    (hx : expo.Perm expo') (np : Nat) (u : Bool) : exposureCurve A np ends expo u = exposureCurve A np ends' expo' u := by
  have key := endTime_perm hp hf u
  have e1 : ∀ (ends expo : List (Fl K)), exposureCurve A np ends expo u = ((if u then maxTime ends else minTime ends) >>= fun e => .ok
      { times := .fin 0 :: sortFl (shownTimes A expo e) ++ [e]
        fracs := (List.range ((shownTimes A expo e).length + 1)).map (fun (k : Nat) => A.div (.fin (A.rnd (k : K))) (.fin (A.rnd (np : K)))) ++
          [A.div (.fin (A.rnd ((shownTimes A expo e).length : K))) (.fin (A.rnd (np : K)))]
        endTime := e }) := by
    intro ends expo
    cases u <;> rfl
  rw [e1, e1, ← key]
  by_cases hne : ends = []
  · subst hne
    cases u <;> rfl
  · obtain ⟨e, h1, -⟩ := endTime_ok hne hf u
    obtain ⟨a, b⟩ := shown_perm (A := A) hx e
    rw [h1]
    simp only [ok_bind, a, b]

end Dorado
