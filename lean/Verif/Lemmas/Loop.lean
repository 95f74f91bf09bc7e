import Verif.Lemmas.Hist
import Verif.Lemmas.Time
import Verif.Lemmas.Total
import Verif.Spec.Time

/-! Helper lemmas: the loop of `run_iteration(target_time)`. -/

set_option linter.unusedSectionVars false

namespace Dorado

variable {K : Type} [Field K] [LinearOrder K] [IsStrictOrderedRing K] {A : Arith K} {F : Fun K A}

theorem initEst_append {ts : List (Fl K)} {t t' : Fl K} (h : ts.getLast? = some t) : initEst A (ts ++ [t']) = A.sub t' t := by
  obtain ⟨l, rfl⟩ := List.getLast?_eq_some_iff.1 h
  simp [initEst]

/-- Estimate after `m` steps, as computed. -/
def estAt (A : Arith K) (est : Fl K) (ts new : List (Fl K)) (m : Nat) : Fl K :=
  if m = 0 then est else Fl.pyMax (.fin (A.rnd (1 / 10))) (initEst A (ts ++ new.take m))

theorem LoopRun.spec {P : PObj K} {ω : Nat → K} {target : Fl K} {maxIter : Int} {r r' : Row K} {est est' : Fl K}
    {c : Int} {e : Exit} {n : Nat} (h : LoopRun A F P ω target maxIter r est c r' est' e n) :
    ∃ new : List (Fl K), r'.ts = r.ts ++ new ∧ new.length = n ∧ r.ts ≠ [] ∧
      (e = .reached → ∃ t, r'.ts.getLast? = some t ∧ ¬ loopCond A target t (estAt A est r.ts new n)) ∧
      (e = .still → RowStill A F P ω r') ∧ (e = .limit ↔ 1 ≤ n ∧ maxIter < c + n) ∧
      ∀ m, m < n → ∃ t, r'.ts[r.ts.length - 1 + m]? = some t ∧ loopCond A target t (estAt A est r.ts new m) := by
  induction h with
  | @reached r est c t ht hc =>
    exact ⟨[], by simp, rfl, (by rintro h0; rw [h0] at ht; cases ht), fun _ => ⟨t, ht, by simpa [estAt] using hc⟩, by simp, by simp, by simp⟩
  | @still r est c t ht hc hs =>
    exact ⟨[], by simp, rfl, (by rintro h0; rw [h0] at ht; cases ht), by simp, fun _ => hs, by simp, by simp⟩
  | @limit r est c t r' t' ht hc hs ht' hl =>
    obtain ⟨p, t0, q, t1, v, -, -, -, -, -, rfl⟩ := hs
    refine ⟨[t1], rfl, rfl, (by rintro h0; rw [h0] at ht; cases ht), by simp, by simp, by simp; omega, fun m hm => ?_⟩
    obtain rfl : m = 0 := by omega
    refine ⟨t, ?_, by simpa [estAt] using hc⟩
    have := getLast?_eq_getElem?' ht
    have hlt := (List.getElem?_eq_some_iff.1 this).1
    simp only [Row.append, Nat.add_zero]
    rw [List.getElem?_append_left hlt, this]
  | @more r est c t r1 t1 r'' est'' e n ht hc hs ht' hl hrest ih =>
    obtain ⟨p, t0, q, t2, v, -, -, -, -, -, rfl⟩ := hs
    obtain ⟨new, h1, h2, h3, h4, h5, h6, h7⟩ := ih
    have ht2 : t2 = t1 := by simpa [Row.append] using ht'
    subst ht2
    have hlast := getLast?_eq_getElem?' ht
    have hlt := (List.getElem?_eq_some_iff.1 hlast).1
    have hest : ∀ m, estAt A (Fl.pyMax (.fin (A.rnd (1 / 10))) (A.sub t2 t)) (r.ts ++ [t2]) new m = estAt A est r.ts (t2 :: new) (m + 1) := by
      intro m
      unfold estAt
      rw [if_neg (by omega : m + 1 ≠ 0)]
      by_cases hm : m = 0
      · subst hm
        rw [if_pos rfl]
        congr 1
        rw [← initEst_append ht]
        simp
      · rw [if_neg hm]
        congr 2
        simp
    simp only [Row.append] at h1 h4 h5 h6 h7
    refine ⟨t2 :: new, by rw [h1]; simp, by simp [h2], (by rintro h0; rw [h0] at ht; cases ht), fun he => ?_, h5, ?_, fun m hm => ?_⟩
    · obtain ⟨t', ha, hb⟩ := h4 he
      exact ⟨t', ha, by rw [← hest]; exact hb⟩
    · rw [h6]
      constructor
      · rintro ⟨ha, hb⟩; exact ⟨by omega, by push_cast; omega⟩
      · rintro ⟨ha, hb⟩; push_cast at hb; exact ⟨by omega, by omega⟩
    · cases m with
      | zero =>
        refine ⟨t, ?_, by simpa [estAt] using hc⟩
        simp only [Nat.add_zero]
        rw [h1, List.append_assoc, List.getElem?_append_left hlt, hlast]
      | succ m =>
        obtain ⟨t', ha, hb⟩ := h7 m (by omega)
        refine ⟨t', ?_, by rw [← hest]; exact hb⟩
        rw [← ha]
        congr 1
        simp
        omega

/-- A step that leaves a particle in place happens at an edge or a dead end. -/
theorem StepOf.trapped {P : PObj K} (G : Good P) (hw : DefaultWalk P) (hS : SelfZero P) (hz : StepsNonzero A P) {ω : Nat → K}
    (hω : NonzeroDraws A ω) {a b : Nat} (hin : Interior P a b) {t t' : Fl K}
    (h : StepOf A F P ω ((a : Int), (b : Int)) t ((a : Int), (b : Int)) t') : NearEdge P a b ∨ NoFlowWeight A F P a b := by
  by_cases he : NearEdge P a b
  · exact Or.inl he
  by_cases hd : NoFlowWeight A F P a b
  · exact Or.inr hd
  exfalso
  obtain ⟨k, n, hk, hpick, hq⟩ := h.dest G hw hz hin he
  have hi : a < P.stage.rows := by have := G.stage_rows; have := hin.2.1; omega
  have hj : b < P.stage.cols := by have := G.stage_cols; have := hin.2.2.2; omega
  obtain ⟨x, hx1, -, hx0⟩ := pick_positive G hi hj (hω.1 n).1 (hω.1 n).2 (hω.2 n)
    (mask_some_pos G hin (fun _ => flow_self_ok G hS hin hd)) hpick
  have h4 : k = 4 := by
    simp only [Prod.mk.injEq, Nat.cast_inj] at hq
    unfold Flow.nr Flow.nc at hq
    have := hin.1
    have := hin.2.2.1
    omega
  subst h4
  have := weightFlow_self (A := A) (F := F) G hS hin
  rw [makeWeight_flow A F G hin hd] at hx1
  rw [hx1] at this
  simp [Fl.nanTo0, Fl.isNan] at this
  exact hx0.ne' this

/-! ## Exact arithmetic with finite times -/

theorem loopCond_exact {T x e : K} : loopCond Arith.exact (.fin T) (.fin x) (.fin e) ↔ |x + e - T| ≤ |x - T| := by
  unfold loopCond
  simp [Arith.sub, Arith.add, Fl.neg, Fl.abs, Fl.le, Arith.exact, abs_eq_max_neg, sub_eq_add_neg]

/-- All times are finite. -/
def FinTimes (ts : List (Fl K)) : Prop := ∀ t ∈ ts, ∃ x, t = .fin x

theorem initEst_exact {ts : List (Fl K)} (h : FinTimes ts) : initEst Arith.exact ts = .fin (firstEstimate ts) := by
  unfold initEst firstEstimate lastDuration
  have h' : ∀ t ∈ ts.reverse, ∃ x, t = .fin x := fun t ht => h t (List.mem_reverse.1 ht)
  generalize ts.reverse = l at h'
  match l, h' with
  | [], _ => rfl
  | [t], h' =>
    obtain ⟨x, rfl⟩ := h' t (by simp)
    rfl
  | t :: t' :: l, h' =>
    obtain ⟨x, rfl⟩ := h' t (by simp)
    obtain ⟨y, rfl⟩ := h' t' (by simp)
    simp [Arith.sub, Arith.add, Fl.neg, Arith.exact, sub_eq_add_neg]

theorem estAt_exact {ts new : List (Fl K)} (h : FinTimes (ts ++ new)) (m : Nat) :
    estAt Arith.exact (initEst Arith.exact ts) ts new m = .fin (estimate ts new m) := by
  unfold estAt estimate
  split
  · exact initEst_exact fun t ht => h t (List.mem_append_left _ ht)
  · rw [initEst_exact]
    · unfold laterEstimate Fl.pyMax
      simp only [Fl.lt, decide_eq_true_eq]
      split
      · rw [max_eq_right (le_of_lt ‹_›)]
      · rw [max_eq_left (not_lt.1 ‹_›)]
        rfl
    · intro t ht
      rcases List.mem_append.1 ht with h1 | h1
      · exact h t (List.mem_append_left _ h1)
      · exact h t (List.mem_append_right _ (List.mem_of_mem_take h1))

variable [FloorRing K]

/-- Times stay finite along every history. -/
theorem Reach.finTimes {Ob : PObj K → Prop} {Ω : (Nat → K) → Prop} (hOb : ∀ P, Ob P → Built A F P) {P : PObj K} {s : PState K}
    (h : Reach A F Ob Ω (FinSeed A) P s) {wd : WalkData K} (hwd : s.walk = some wd) :
    ∃ rows, wd = ofRows (keysOf P) rows ∧ s.np = rows.length ∧ ∀ r ∈ rows, r.aligned ∧ FinTimes r.ts := by
  obtain ⟨rows, hr, hnp, hrows⟩ := Reach.walk (I := fun _ t => ∃ x, t = .fin x) (R := fun _ _ _ _ => True)
    (fun P hP => (hOb P hP).good) (fun _ _ _ _ _ _ _ hS _ _ => hS.imp fun _ h => h.1)
    (fun P ω p t q t' hP hω hI hs hne => by
      obtain ⟨x, rfl⟩ := hI
      obtain ⟨k, q0, d, m, m', dt, -, -, hd, -, ht, rfl⟩ := hs
      have : ∃ D, d = .fin D := by
        unfold stepUpdate flat9 at hd
        simp only [bind_ok, pure_ok] at hd
        obtain ⟨a, ha, rfl⟩ := hd
        split at ha
        · rename_i hk
          injection ha with ha
          obtain ⟨y, hy, -⟩ := (hOb P hP).good.dist_pos k hk
          rw [← ha, hy]
          exact ⟨_, rfl⟩
        · cases ha
      obtain ⟨D, rfl⟩ := this
      obtain ⟨i, j, i', j', vo, vn, va, c, diff, hp⟩ := calcTravelTime_inv (hOb P hP).fields (Ne.symm hne) ht
      rw [hp.eq]
      exact ⟨⟨_, rfl⟩, trivial⟩) h hwd
  refine ⟨rows, hr, hnp, fun r hmem => ⟨(hrows r hmem).aligned, fun t ht => ?_⟩⟩
  obtain ⟨n, hn, rfl⟩ := List.getElem_of_mem ht
  have hI := hrows r hmem
  have h2 := hI.aligned.2.1
  have h1 := hI.aligned.1
  exact hI.recs n (r.xs[n], r.ys[n]) r.ts[n] ⟨List.getElem?_eq_getElem _, List.getElem?_eq_getElem _, List.getElem?_eq_getElem _⟩

end Dorado
