import Verif.Spec.Api
import Verif.Spec.Demo
import Verif.Lemmas.Twin
import Verif.Lemmas.Init

/-! # C12, C70: sequences of calls -/

set_option linter.unusedSectionVars false

namespace Dorado

variable {K : Type} [Field K] [LinearOrder K] [IsStrictOrderedRing K] [FloorRing K] {A : Arith K} {F : Fun K A}

/-- The object states differ at most in which weights were already masked, and in the particle count of an object without walk data. -/
def SameFuture (A : Arith K) (F : Fun K A) (P : PObj K) (s s' : PState K) : Prop :=
  EqW A F P s.world s'.world ∧ s.walk = s'.walk ∧ (s.walk = none ∨ s.np = s'.np)

theorem SameFuture.transcript {P : PObj K} (G : Good P) {s s' : PState K} (h : SameFuture A F P s s') (ω : Nat → K) (cs : List (ApiCall K)) :
    transcript A F P ω cs s = transcript A F P ω cs s' := by
  obtain ⟨hw, hk, hn⟩ := h
  have hrel : ∀ w : Option (WalkData K), OptRel (WalkRel Eq) w w := by
    intro w
    cases w with
    | none => trivial
    | some w => exact ⟨rfl, rfl, forall₂_refl (fun l => forall₂_refl (fun _ => rfl) l) _, rfl⟩
  exact seenRel_eq (((Twin.self G).routes (T := Eq) ω fun _ _ _ _ h1 h2 => by rw [h1, h2]).alike.transcript (forall₂_refl (callRel_refl A ω) cs)
    ⟨hw, by rw [hk]; exact hrel _, hn⟩)

/-! ## C12: the whole future -/

/-- Whatever happened to the object before: everything seen from now on, over any sequence of calls, is what a freshly built object holding the
same walk data at the same position of the random stream would show. Any rounding, both modes. -/
theorem C12_future {P0 : PObj K} (hB : Built A F P0) {Ω : (Nat → K) → Prop} {Sd : PObj K → List Int → List Int → Fl K → Prop}
    {P : PObj K} {s : PState K} (h : Reach A F (· = P0) Ω Sd P s) (ω : Nat → K) (cs : List (ApiCall K)) :
    transcript A F P ω cs s = transcript A F P ω cs { initState A F P s.world.pos with np := s.np, walk := s.walk } := by
  have G := hB.good
  have hP : P = P0 := h.obj
  subst hP
  obtain ⟨hpe, -⟩ := Reach.rows (Q := fun _ => True) (fun P hP => by subst hP; exact G)
    (fun _ _ _ _ _ _ _ _ _ _ _ _ => trivial) (fun _ _ _ _ _ _ _ _ => trivial) h
  exact SameFuture.transcript (s := s) (s' := { initState A F P s.world.pos with np := s.np, walk := s.walk }) G
    ⟨⟨hpe, PickEquiv.fresh A F P, rfl⟩, rfl, .inr rfl⟩ ω cs

/-! ## C70 -/

/-- After `clear_walk_data` the object is as good as new: over any sequence of calls it shows what a freshly built object at the same position of
the random stream shows. -/
theorem C70_as_new {P0 : PObj K} (hB : Built A F P0) {Ω : (Nat → K) → Prop} {Sd : PObj K → List Int → List Int → Fl K → Prop}
    {P : PObj K} {s : PState K} (h : Reach A F (· = P0) Ω Sd P s) (ω : Nat → K) (cs : List (ApiCall K)) :
    transcript A F P ω (.clear :: cs) s =
      (.ok (none, []), none, s.world.pos) :: transcript A F P ω cs (initState A F P s.world.pos) := by
  have G := hB.good
  have hP : P = P0 := h.obj
  subst hP
  obtain ⟨hpe, -⟩ := Reach.rows (Q := fun _ => True) (fun P hP => by subst hP; exact G)
    (fun _ _ _ _ _ _ _ _ _ _ _ _ => trivial) (fun _ _ _ _ _ _ _ _ => trivial) h
  have := SameFuture.transcript (s := clearWalkData s) (s' := initState A F P s.world.pos) G
    ⟨⟨hpe, PickEquiv.fresh A F P, rfl⟩, rfl, .inl rfl⟩ ω cs
  rw [← this]
  rfl

/-- In particular `run_iteration` raises ValueError until particles have been generated again. -/
theorem C70_needs_particles {P0 : PObj K} (hB : Built A F P0) {Ω : (Nat → K) → Prop} {Sd : PObj K → List Int → List Int → Fl K → Prop}
    {P : PObj K} {s : PState K} (h : Reach A F (· = P0) Ω Sd P s) (ω : Nat → K) (target : Option (Fl K)) (maxIter : Int) :
    transcript A F P ω [.clear, .run target maxIter] s = [(.ok (none, []), none, s.world.pos), (.error .valueError, none, s.world.pos)] := by
  rw [C70_as_new hB h]
  rfl

/-! ## Concrete cases -/

/-- Everything seen after some calls, each reduced by `g`. -/
theorem transcript_after {p : Params ℚ} {Ω : (Nat → ℚ) → Prop} {ω : Nat → ℚ} (hω : Ω ω) {n : Nat} {xs ys : List Int}
    {runs : List (Option (Fl ℚ) × Int)} {β : Type} {g : List (Seen ℚ) → β} {cs : List (ApiCall ℚ)} {b : β}
    (h : (demo p ω n xs ys runs).toOption.map (fun s => g (transcript Arith.exact Fun.toy (objOf p) ω cs s)) = some b) :
    ∃ s, Reach Arith.exact Fun.toy (· = objOf p) Ω AnySeed (objOf p) s ∧
      g (transcript Arith.exact Fun.toy (objOf p) ω cs s) = b := by
  cases hx : demo p ω n xs ys runs with
  | error e => rw [hx] at h; simp [Except.toOption] at h
  | ok s =>
    rw [hx] at h
    exact ⟨s, demo_reach hω trivial hx, by simpa [Except.toOption] using h⟩

/-- Number of particles and number of records seen in the attribute `walk_data` after each call. -/
def seenSizes (l : List (Seen ℚ)) : List (Option (List Nat)) :=
  l.map fun x => x.1.toOption.map fun _ => (x.2.1.map fun w => w.xinds.map List.length).getD []

/-- C12, C70: three particles walked, then the data is cleared, one is generated and walks; without walk data `run_iteration` raises, after which
the object is used further. -/
example : ∃ s, Reach Arith.exact Fun.toy (· = objOf chan) (NonzeroDraws Arith.exact) AnySeed (objOf chan) s ∧
    seenSizes (transcript Arith.exact Fun.toy (objOf chan) (fun _ => 1 / 2)
      [.run none 10, .clear, .generate (.int 1) (.list [.int 2]) (.list [.int 2]) (.int 0) (.str "exact") none, .run none 10, .clear, .run none 10,
        .generate (.int 1) (.list [.int 1]) (.list [.int 1]) (.int 0) (.str "exact") none] s) =
      [some [2, 2, 2], some [], some [1], some [2], some [], none, some [1]] :=
  transcript_after half_draws (n := 3) (xs := [2]) (ys := [2]) (runs := [(none, 10)]) (by decide +kernel)

end Dorado
