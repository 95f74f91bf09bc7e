import Verif.Model.PairSum
import Verif.Lemmas.Flux

/-! The sums numpy computes are sums in some order and bracketing. -/

set_option linter.unusedSectionVars false

namespace Dorado

section generic
variable {α β : Type} {add : α → α → α} {zero : α} {add' : β → β → β} {zero' : β}

theorem laneSums_map (f : α → β) (ha : ∀ x y, f (add x y) = add' (f x) (f y)) (m : Nat) (r l : List α) :
    laneSums add' m (r.map f) (l.map f) = (laneSums add m r l).map f := by
  induction m generalizing r l with
  | zero => rfl
  | succ m ih =>
    unfold laneSums
    rw [← ih]
    congr 1
    · rw [← List.map_take, List.zipWith_map, List.map_zipWith]
      simp only [ha]
    · rw [List.map_drop]

theorem foldl_map_hom (f : α → β) (ha : ∀ x y, f (add x y) = add' (f x) (f y)) (l : List α) (x : α) :
    (l.map f).foldl add' (f x) = f (l.foldl add x) := by
  induction l generalizing x with
  | nil => rfl
  | cons y l ih => rw [List.map_cons, List.foldl_cons, List.foldl_cons, ← ha, ih]

theorem blockSum_map (f : α → β) (ha : ∀ x y, f (add x y) = add' (f x) (f y)) (h0 : f zero = zero') (l : List α) :
    blockSum add' zero' (l.map f) = f (blockSum add zero l) := by
  unfold blockSum
  rw [List.length_map]
  split_ifs with h
  · cases l with
    | nil => exact h0.symm
    | cons x xs => exact foldl_map_hom f ha xs x
  · simp only [← List.map_drop, ← List.map_take, laneSums_map f ha]
    rw [← foldl_map_hom f ha]
    have hg : ∀ (r : List α) k, (r.map f).getD k zero' = f (r.getD k zero) := by
      intro r k
      rw [← h0, List.getD_eq_getElem?_getD, List.getD_eq_getElem?_getD, List.getElem?_map]
      cases r[k]? <;> rfl
    simp only [hg, ha]

theorem pairSum_map (f : α → β) (ha : ∀ x y, f (add x y) = add' (f x) (f y)) (h0 : f zero = zero') (n : Nat) (l : List α) :
    pairSum add' zero' n (l.map f) = f (pairSum add zero n l) := by
  induction n generalizing l with
  | zero => exact blockSum_map f ha h0 l
  | succ n ih =>
    unfold pairSum
    rw [List.length_map]
    split_ifs
    · exact blockSum_map f ha h0 l
    · simp only [← List.map_drop, ← List.map_take, ih, ha]

theorem numpySum_map (f : α → β) (ha : ∀ x y, f (add x y) = add' (f x) (f y)) (h0 : f zero = zero') (l : List α) :
    numpySum add' zero' (l.map f) = f (numpySum add zero l) := by
  unfold numpySum
  rw [List.length_map]
  exact pairSum_map f ha h0 _ l

end generic

variable {K : Type} [Field K] [LinearOrder K] {A : Arith K}

/-- Rounded addition. -/
def rAdd (A : Arith K) (x y : K) : K := A.rnd (x + y)

theorem RSum.foldl {L l : List K} {x : K} (hL : L ≠ []) (h : RSum A L x) : RSum A (L ++ l) (l.foldl (rAdd A) x) := by
  induction l generalizing L x with
  | nil => simpa using h
  | cons y l ih =>
    have := ih (L := L ++ [y]) (x := rAdd A x y) (by simp) (.add hL (by simp) h (.one y))
    simpa using this

theorem zip_flatten_perm : ∀ (Ls : List (List K)) (c : List K), Ls.length = c.length →
    (Ls.flatten ++ c).Perm (List.zipWith (fun L x => L ++ [x]) Ls c).flatten
  | [], [], _ => by simp
  | L :: Ls, x :: c, h => by
    have := zip_flatten_perm Ls c (by simpa using h)
    simp only [List.flatten_cons, List.zipWith_cons_cons, List.append_assoc, List.singleton_append]
    refine List.Perm.append_left L ?_
    exact (List.perm_middle (l₁ := Ls.flatten) (l₂ := c) (a := x)).trans (this.cons x)

theorem lanes_rsum (m : Nat) (r l : List K) (hl : 8 * m ≤ l.length) (Ls : List (List K)) (hlen : Ls.length = 8)
    (h : List.Forall₂ (fun L x => L ≠ [] ∧ RSum A L x) Ls r) :
    ∃ Ls' : List (List K), List.Forall₂ (fun L x => L ≠ [] ∧ RSum A L x) Ls' (laneSums (rAdd A) m r l) ∧ Ls'.length = 8 ∧
      (Ls.flatten ++ l.take (8 * m)).Perm Ls'.flatten := by
  induction m generalizing r l Ls with
  | zero => exact ⟨Ls, h, hlen, by simp⟩
  | succ m ih =>
    unfold laneSums
    have h8 : (l.take 8).length = 8 := by rw [List.length_take]; omega
    have hstep : ∀ (Ls : List (List K)) (r c : List K), List.Forall₂ (fun L x => L ≠ [] ∧ RSum A L x) Ls r → Ls.length = c.length →
        List.Forall₂ (fun L x => L ≠ [] ∧ RSum A L x) (List.zipWith (fun L x => L ++ [x]) Ls c) (List.zipWith (rAdd A) r c) := by
      intro Ls r c hf hc
      induction hf generalizing c with
      | nil => simp
      | cons hx _ ih =>
        cases c with
        | nil => simp at hc
        | cons y c =>
          refine .cons ⟨by simp, .add hx.1 (by simp) hx.2 (.one y)⟩ (ih c (by simpa using hc))
    obtain ⟨Ls', h1, h2, h3⟩ := ih (List.zipWith (rAdd A) r (l.take 8)) (l.drop 8) (by rw [List.length_drop]; omega)
      (List.zipWith (fun L x => L ++ [x]) Ls (l.take 8)) (by rw [List.length_zipWith, hlen, h8]; rfl) (hstep Ls r _ h (by rw [hlen, h8]))
    refine ⟨Ls', h1, h2, List.Perm.trans ?_ h3⟩
    have hsplit : l.take (8 * (m + 1)) = l.take 8 ++ (l.drop 8).take (8 * m) := by
      rw [show 8 * (m + 1) = 8 + 8 * m by ring, List.take_add]
    rw [hsplit, ← List.append_assoc]
    exact List.Perm.append_right _ (zip_flatten_perm Ls _ (by rw [hlen, h8]))

theorem blockSum_rsum (l : List K) : RSum A l (blockSum (rAdd A) 0 l) := by
  unfold blockSum
  split_ifs with h
  · cases l with
    | nil => exact .nil
    | cons x xs => exact RSum.foldl (L := [x]) (by simp) (.one x)
  · have h8 : (l.take 8).length = 8 := by rw [List.length_take]; omega
    have hone : ∀ r : List K, List.Forall₂ (fun L x => L ≠ [] ∧ RSum A L x) (r.map fun x => [x]) r := by
      intro r
      induction r with
      | nil => simp
      | cons x r ih => exact .cons ⟨by simp, .one x⟩ ih
    have hflat : ∀ r : List K, (r.map fun x => [x]).flatten = r := by
      intro r
      induction r with
      | nil => rfl
      | cons x r ih => simpa using ih
    obtain ⟨Ls, h1, h2, h3⟩ := lanes_rsum (l.length / 8 - 1) (l.take 8) (l.drop 8) (by rw [List.length_drop]; omega) _
      (by rw [List.length_map, h8]) (hone (l.take 8))
    rw [hflat] at h3
    have hl8 : (l.take 8 ++ (l.drop 8).take (8 * (l.length / 8 - 1))) = l.take (8 * (l.length / 8)) := by
      rw [← List.take_add]
      congr 1
      omega
    rw [hl8] at h3
    dsimp only
    generalize laneSums (rAdd A) (l.length / 8 - 1) (l.take 8) (l.drop 8) = r at h1
    match Ls, h2 with
    | [L0, L1, L2, L3, L4, L5, L6, L7], _ =>
      match r, h1 with
      | _, .cons (b := r0) a0 (.cons (b := r1) a1 (.cons (b := r2) a2 (.cons (b := r3) a3 (.cons (b := r4) a4 (.cons (b := r5) a5 (.cons (b := r6) a6
          (.cons (b := r7) a7 .nil))))))) =>
        have b1 := RSum.add a0.1 a1.1 a0.2 a1.2
        have b2 := RSum.add a2.1 a3.1 a2.2 a3.2
        have b3 := RSum.add a4.1 a5.1 a4.2 a5.2
        have b4 := RSum.add a6.1 a7.1 a6.2 a7.2
        have c1 := RSum.add (by simp [a0.1]) (by simp [a2.1]) b1 b2
        have c2 := RSum.add (by simp [a4.1]) (by simp [a6.1]) b3 b4
        have d := RSum.add (by simp [a0.1]) (by simp [a4.1]) c1 c2
        have e : RSum A (l.take (8 * (l.length / 8))) _ := d.perm (by
          refine List.Perm.trans ?_ h3.symm
          simp)
        have f := RSum.foldl (l := l.drop (8 * (l.length / 8))) (by
          intro hc
          have := congrArg List.length hc
          rw [List.length_take, List.length_nil] at this
          omega) e
        rw [List.take_append_drop] at f
        exact f

theorem pairSum_rsum (n : Nat) (l : List K) : RSum A l (pairSum (rAdd A) 0 n l) := by
  induction n generalizing l with
  | zero => exact blockSum_rsum l
  | succ n ih =>
    unfold pairSum
    split_ifs with h
    · exact blockSum_rsum l
    · dsimp only
      have := RSum.add (l := l.take (l.length / 2 - l.length / 2 % 8)) (l' := l.drop (l.length / 2 - l.length / 2 % 8)) (by
        intro hc
        have := congrArg List.length hc
        rw [List.length_take, List.length_nil] at this
        omega) (by
        intro hc
        have := congrArg List.length hc
        rw [List.length_drop, List.length_nil] at this
        omega) (ih _) (ih _)
      rwa [List.take_append_drop] at this

/-- `ndarray.sum()` is a sum by rounded additions in some order and bracketing. -/
theorem numpySum_rsum (l : List K) : RSum A l (numpySum (rAdd A) 0 l) := pairSum_rsum _ l

/-- The same for values that may be NaN or infinite, when none is. -/
theorem numpySum_fin (xs : List K) : ∃ x, numpySum A.add (.fin 0) (xs.map Fl.fin) = .fin x ∧ RSum A xs x :=
  ⟨_, numpySum_map Fl.fin (add := rAdd A) (zero := 0) (fun _ _ => rfl) rfl xs, numpySum_rsum xs⟩

theorem RSum.eq_sum [IsStrictOrderedRing K] {l : List K} {x : K} (h : RSum Arith.exact l x) : x = l.sum := by
  induction h with
  | nil => rfl
  | one x => simp
  | add _ _ _ _ h1 h2 => rw [List.sum_append, h1, h2]; rfl
  | perm _ hp ih => rw [ih, hp.sum_eq]

end Dorado
