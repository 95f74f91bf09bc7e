import Verif.Lemmas.Run

/-! Helper lemmas: tracked variables are available once particles were generated. -/

set_option linter.unusedSectionVars false

namespace Dorado

variable {K : Type} [Field K] [LinearOrder K] [IsStrictOrderedRing K] {A : Arith K} {F : Fun K A}

/-- Every tracked variable can be sampled. -/
def VarsOk (P : PObj K) : Prop := ∀ key ∈ keysOf P, (key = "roi_flag" ∧ P.roi.isSome) ∨ (availVar P key).isSome

theorem dictGet_append {β : Type} (a b : List (String × β)) (k : String) :
    dictGet (a ++ b) k = (dictGet a k).or (dictGet b k) := by
  unfold dictGet
  rw [List.find?_append]
  cases List.find? (fun e => e.1 == k) a <;> simp

theorem dictGet_isSome_of_mem {β : Type} {d : List (String × β)} {k : String} {v : β} (h : (k, v) ∈ d) : ∃ w, dictGet d k = some w := by
  unfold dictGet
  cases hf : d.find? (fun e => e.1 == k) with
  | none =>
    rw [List.find?_eq_none] at hf
    have := hf _ h
    simp at this
  | some e => exact ⟨e.2, rfl⟩

/-- All requested variables are provided. -/
theorem updatedOptional_has {P : PObj K} (hV : VarsOk P) {vars : List String} (hvars : ∀ v ∈ vars, v ∈ keysOf P) {news : List (Int × Int)}
    {upd : List (String × List (Val K))} (h : updatedOptional P vars news = .ok upd) {v : String} (hv : v ∈ vars) :
    ∃ l, dictGet upd v = some l := by
  unfold updatedOptional at h
  simp only [bind_ok, pure_ok] at h
  obtain ⟨rp, hrp, rest, hrest, rfl⟩ := h
  rw [dictGet_append]
  cases hg : dictGet rp v with
  | some l => exact ⟨l, rfl⟩
  | none =>
    simp only [Option.none_or]
    have hnot : (rp.any fun e => e.1 == v) = false := by
      unfold dictGet at hg
      simp only [Option.map_eq_none_iff, List.find?_eq_none] at hg
      simpa using hg
    have hmem : v ∈ vars.filter fun v => !(rp.any fun e => e.1 == v) := by
      simp only [List.mem_filter, hv, true_and, hnot, Bool.not_false]
    have hav : (availVar P v).isSome := by
      rcases hV v (hvars v hv) with ⟨rfl, hr⟩ | h
      · obtain ⟨g, hr⟩ := Option.isSome_iff_exists.1 hr
        unfold roiPart at hrp
        rw [hr] at hrp
        simp only [bind_ok, pure_ok] at hrp
        obtain ⟨l, -, rfl⟩ := hrp
        simp at hnot
      · exact h
    obtain ⟨n, hn⟩ := List.getElem?_of_mem hmem
    obtain ⟨b, hb, hb'⟩ := mapE_get hrest hn
    unfold varPart at hb'
    obtain ⟨g, hg'⟩ := Option.isSome_iff_exists.1 hav
    rw [hg'] at hb'
    simp only [bind_ok, pure_ok] at hb'
    obtain ⟨l, -, rfl⟩ := hb'
    exact dictGet_isSome_of_mem (v := l) (List.mem_flatten.2 ⟨_, List.mem_of_getElem? hb, by simp⟩)

theorem pickOpt_total {upd : List (String × List (Val K))} {keys : List String} {k : Nat}
    (h : ∀ key ∈ keys, ∃ l v, dictGet upd key = some l ∧ l[k]? = some v) : ∃ vals, pickOpt upd keys k = .ok vals := by
  unfold pickOpt
  refine mapE_exists fun key hk => ?_
  obtain ⟨l, v, hl, hv⟩ := h key hk
  rw [hl]
  simp only [listGet_ok.2 hv]
  exact ⟨_, rfl⟩

theorem storeSteps_total {starts news : List (Int × Int)} {times : List (Fl K)} {upd : List (String × List (Val K))}
    {keys : List String} (is : List Nat) (h : ∀ i ∈ is, (∃ a, news[i]? = some a) ∧ (∃ a, starts[i]? = some a) ∧ (∃ a, times[i]? = some a) ∧
      ∀ key ∈ keys, ∃ l v, dictGet upd key = some l ∧ l[i]? = some v) (wd : WalkData K) :
    ∃ out, storeSteps starts news times upd keys is wd = .ok out := by
  induction is generalizing wd with
  | nil => exact ⟨wd, rfl⟩
  | cons a is ih =>
    obtain ⟨⟨q, hq⟩, ⟨p, hp⟩, ⟨t, ht⟩, hv⟩ := h a (by simp)
    obtain ⟨vals, hvals⟩ := pickOpt_total hv
    unfold storeSteps
    rw [listGet_ok.2 hq, listGet_ok.2 hp]
    simp only [ok_bind]
    split
    · rw [listGet_ok.2 ht, hvals]
      simp only [ok_bind]
      exact ih (fun i hi => h i (by simp [hi])) _
    · exact ih (fun i hi => h i (by simp [hi])) _

variable [FloorRing K]

theorem startVar_avail {P : PObj K} {var : String} {starts : List (Int × Int)} {l : List (List (Val K))} (h : startVar P var starts = .ok l) :
    (var = "roi_flag" ∧ P.roi.isSome) ∨ (availVar P var).isSome := by
  unfold startVar at h
  cases hr : P.roi with
  | none =>
    rw [hr] at h
    cases ha : availVar P var with
    | none => rw [ha] at h; cases h
    | some g => simp
  | some g =>
    rw [hr] at h
    simp only at h
    split at h
    · left; simp [*]
    · cases ha : availVar P var with
      | none => rw [ha] at h; cases h
      | some g => simp

theorem newWalk_avail {P : PObj K} {ω : Nat → K} {pos pos' : Nat} {n : Int} {xs ys : List Int} {t : Fl K} {m : Method}
    {wd : WalkData K} (h : newWalk A P ω pos n xs ys t m = .ok (wd, pos')) : VarsOk P := by
  unfold newWalk at h
  simp only [bind_ok, pure_ok, Prod.exists, Prod.mk.injEq] at h
  obtain ⟨sx, sy, p1, hs, nx, hnx, ny, hny, opt, hopt, -, -⟩ := h
  have hopt' : startVars P (sx.zip sy) P.particleVars (dictOf [] fun _ => []) = .ok opt := hopt
  obtain ⟨g, -, hg⟩ := startVars_inv P.particleVars [] _ (by simp) hopt'
  exact fun key hk => startVar_avail (hg key hk)

theorem generate_avail {P : PObj K} {ω : Nat → K} {s s' : PState K} {np xs ys time method : PyVal K} {prevW : Option (WalkData K)}
    (h : generateParticles A P ω s np xs ys time method prevW = .ok s') : VarsOk P := by
  unfold generateParticles generateCore at h
  simp only [bind_ok, Prod.exists] at h
  obtain ⟨n, x, y, t, m, -, w, pos, hw, -⟩ := h
  exact newWalk_avail hw

end Dorado
