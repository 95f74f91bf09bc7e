import Verif.Spec.TimeMap
import Verif.Lemmas.Twin

/-! Helper lemmas: a transformation of all times commutes with seeding and routing. -/

set_option linter.unusedSectionVars false

namespace Dorado

variable {K : Type} [Field K] [LinearOrder K] [IsStrictOrderedRing K] {A : Arith K} {F : Fun K A}

/-- `φ` transforms times, `ψ` durations and distances. -/
structure TimeMap (A : Arith K) (φ ψ : Fl K → Fl K) : Prop where
  add : ∀ t d, A.add (φ t) (ψ d) = φ (A.add t d)
  mulr : ∀ d x, A.mul (ψ d) x = ψ (A.mul d x)
  mull : ∀ d x, A.mul x (ψ d) = ψ (A.mul x d)
  zero : ψ (.fin 0) = .fin 0
  eq0 : ∀ d, Fl.eq (ψ d) (.fin 0) = Fl.eq d (.fin 0)

/-- Differences of times do not change. -/
def TimeShift (A : Arith K) (φ ψ : Fl K → Fl K) : Prop := ψ = id ∧ ∀ a b, A.sub (φ a) (φ b) = A.sub a b

theorem listGet_mapRel {α β : Type} (f : α → β) (l : List α) (i : Nat) : RelE (fun a b => b = f a) (listGet l i) (listGet (l.map f) i) := by
  unfold listGet
  rw [List.getElem?_map]
  cases l[i]? with
  | none => exact .error _
  | some a => exact .ok rfl

theorem mapE_mapRel {α β γ : Type} {f : α → Except PyErr β} {g : α → Except PyErr γ} {h : β → γ} (hfg : ∀ a, RelE (fun x y => y = h x) (f a) (g a))
    (l : List α) : RelE (fun x y => y = x.map h) (mapE f l) (mapE g l) := by
  induction l with
  | nil => exact .ok rfl
  | cons a l ih =>
    simp only [mapE]
    refine (hfg a).bind ?_
    rintro b _ rfl
    refine ih.bind ?_
    rintro bs _ rfl
    exact .ok rfl

variable {φ ψ : Fl K → Fl K} {P : PObj K} {dx' : K}

/-- Times related by a transformation. -/
def Via (φ : Fl K → Fl K) (a b : Fl K) : Prop := b = φ a

theorem TimeShift.clock (H : TimeMap A φ ψ) (h : TimeShift A φ ψ) : Clock A (Via φ) := by
  obtain ⟨rfl, hs⟩ := h
  constructor
  · rintro t _ d rfl
    exact H.add t d
  · rintro a _ b _ rfl rfl
    exact (hs a b).symm

theorem TimeMap.routes (H : TimeMap A φ ψ) (ω : Nat → K) (hdx : ∀ d, A.mul d (.fin dx') = ψ (A.mul d (.fin P.dx))) :
    Routes A F ω ω Eq (Via φ) (Via ψ) (Via ψ) P { P with dx := dx' } where
  pos _ _ h := by rw [h]
  move _ _ _ h := by rw [h]
  pick ind := by
    show RelM _ Eq (newCellStmt A P ω ind) (newCellStmt A P ω ind)
    unfold newCellStmt
    split
    · unfold getWeightStmt
      refine RelM.bind (RelM.lift (RelE.eq _)) ?_
      rintro i _ rfl
      refine RelM.bind (RelM.lift (RelE.eq _)) ?_
      rintro j _ rfl
      refine RelM.bind RelM.read fun s s' hs => ?_
      rw [← hs.1]
      refine RelM.bind (RelM.assign fun s t hst => ⟨by simp only [hst.1], hst.2⟩) fun _ _ _ => RelM.bind (RelM.lift (RelE.eq _)) ?_
      rintro k _ rfl
      exact RelM.bind (RelM.assign fun s t hst => ⟨by simp only [PState.atPos, hst.1], hst.2⟩) fun _ _ _ => RelM.pure rfl
    · exact RelM.pure rfl
  iwalk := rfl
  jwalk := rfl
  edges := rfl
  vars := rfl
  roi := rfl
  verbose := rfl
  avail _ _ := rfl
  dist c := by
    unfold stepUpdate
    refine (RelE.eq _).bind ?_
    rintro d _ rfl
    exact .ok (hdx d)
  zero := by
    rintro d _ rfl
    exact (H.eq0 d).symm
  time cell a b d d' h :=
    travelTimeStmt_rel (E := Via ψ) (V := Eq) (G := Eq) (C := Eq) (fun _ _ h => by rw [h]) (fun _ _ _ h => by rw [h]) (fun _ _ => RelE.eq _) rfl rfl
      (fun _ _ => RelE.eq _) (fun _ _ _ h => by rw [h]; exact RelE.eq _) H.zero.symm
      (fun d _ v _ w _ c _ diff _ h1 h2 h3 h4 h5 => by
        obtain rfl := h5 (.inl rfl); subst h1 h2 h3 h4; simp only [Via, H.mulr, H.mull]) cell a b h
  add := by
    rintro t _ d _ rfl rfl
    exact H.add t d

theorem via_list {l l' : List (Fl K)} (h : List.Forall₂ (Via φ) l l') : l' = l.map φ := by
  induction h with
  | nil => rfl
  | cons h _ ih => rw [List.map_cons, ih, h]

theorem via_lists {l l' : List (List (Fl K))} (h : List.Forall₂ (List.Forall₂ (Via φ)) l l') : l' = l.map (List.map φ) := by
  induction h with
  | nil => rfl
  | cons h _ ih => rw [List.map_cons, ih, via_list h]

theorem via_walk {w w' : WalkData K} : WalkRel (Via φ) w w' ↔ w' = w.mapTimes φ := by
  constructor
  · obtain ⟨a, b, t, o⟩ := w
    obtain ⟨a', b', t', o'⟩ := w'
    rintro ⟨h1, h2, h3, h4⟩
    simp only at h1 h2 h3 h4
    subst h1 h2 h4
    rw [via_lists h3]
    rfl
  · rintro rfl
    refine ⟨rfl, rfl, ?_, rfl⟩
    show List.Forall₂ _ w.times (w.times.map (List.map φ))
    induction w.times with
    | nil => exact .nil
    | cons l ls ih =>
      refine .cons ?_ ih
      induction l with
      | nil => exact .nil
      | cons t l ih => exact .cons rfl ih

theorem via_opt {w w' : Option (WalkData K)} : OptRel (WalkRel (Via φ)) w w' ↔ w' = w.map (WalkData.mapTimes φ) := by
  cases w <;> cases w' <;> simp [OptRel, via_walk]

theorem via_seen {l l' : List (Seen K)} (h : List.Forall₂ (SeenRel (Via φ)) l l') : l' = l.map (Seen.mapTimes φ) := by
  induction h with
  | nil => rfl
  | @cons a b l l' hab _ ih =>
    rw [List.map_cons, ih]
    congr 1
    obtain ⟨a1, a2, a3⟩ := a
    obtain ⟨b1, b2, b3⟩ := b
    obtain ⟨h1, h2, h3⟩ := hab
    simp only at h1 h2 h3
    rw [via_opt] at h2
    subst h2 h3
    unfold Seen.mapTimes
    simp only [Prod.mk.injEq, and_true]
    cases h1 with
    | error e => rfl
    | @ok x y h =>
      obtain ⟨x1, x2⟩ := x
      obtain ⟨y1, y2⟩ := y
      obtain ⟨h, h'⟩ := h
      simp only at h h'
      rw [via_opt] at h
      subst h h'
      rfl

theorem via_call (ω : Nat → K) (c : ApiCall K) (hc : c.NoTarget ∨ Clock A (Via φ)) : CallRel A ω ω (Via φ) c (c.mapTimes φ) := by
  cases c with
  | generate np xs ys time method prev =>
    refine ⟨rfl, rfl, rfl, ?_, rfl, .inl rfl, via_opt.2 rfl⟩
    cases time <;> first | exact .ok rfl | exact .error _
  | run target maxIter =>
    refine ⟨?_, rfl, hc⟩
    cases target with
    | none => trivial
    | some t => rfl
  | clear => trivial

theorem checkMethod_random {m : PyVal K} (h : m ≠ .str "random") : checkMethod m ≠ .ok .random := by
  cases m with
  | str s =>
    have : s ≠ "random" := fun e => h (by rw [e])
    simp only [checkMethod]
    rw [if_neg this]
    split <;> simp
  | _ => simp [checkMethod]

theorem callRel_untimed {ω ω' : Nat → K} {cs : List (ApiCall K)} (hcs : ∀ c ∈ cs, c.NoTarget) (hm : ∀ c ∈ cs, ω = ω' ∨ ¬ c.SeedsRandomly) :
    List.Forall₂ (CallRel A ω ω' fun _ _ => True) cs cs := by
  have hw : ∀ w : WalkData K, WalkRel (fun _ _ => True) w w := fun w => ⟨rfl, rfl, forall₂_refl (fun l => forall₂_refl (fun _ => trivial) l) _, rfl⟩
  induction cs with
  | nil => exact .nil
  | cons x cs ih =>
    refine .cons ?_ (ih (fun y hy => hcs y (by simp [hy])) fun y hy => hm y (by simp [hy]))
    have hx := hcs x (by simp)
    cases x with
    | generate np xs ys time method prev =>
      refine ⟨rfl, rfl, rfl, RelE.refl (fun _ => trivial) _, rfl, (hm (.generate np xs ys time method prev) (by simp)).imp_right checkMethod_random, ?_⟩
      cases prev with
      | none => trivial
      | some w => exact hw w
    | run target maxIter =>
      obtain rfl : target = none := hx
      exact ⟨trivial, rfl, .inl rfl⟩
    | clear => trivial

/-- Nothing but the travel times differs. -/
theorem untimed_eq {l l' : List (Seen K)} (this : List.Forall₂ (SeenRel fun _ _ => True) l l') : l'.map Seen.untimed = l.map Seen.untimed := by
  have hwm : ∀ w w' : WalkData K, WalkRel (fun _ _ => True) w w' → w'.mapTimes (fun _ => .fin 0) = w.mapTimes fun _ => .fin 0 := by
    rintro ⟨a, b, t, o⟩ ⟨a', b', t', o'⟩ ⟨h1, h2, h3, h4⟩
    simp only at h1 h2 h3 h4
    subst h1 h2 h4
    unfold WalkData.mapTimes
    simp only [WalkData.mk.injEq, true_and, and_true]
    have e1 : ∀ l l' : List (Fl K), List.Forall₂ (fun _ _ => True) l l' → l'.map (fun _ => (Fl.fin 0 : Fl K)) = l.map fun _ => .fin 0 := by
      intro l l' h
      simp [List.map_const', h.length_eq]
    induction h3 with
    | nil => rfl
    | cons h _ ih => rw [List.map_cons, List.map_cons, ih, e1 _ _ h]
  have hom : ∀ x y : Option (WalkData K), OptRel (WalkRel fun _ _ => True) x y →
      y.map (WalkData.mapTimes fun _ => .fin 0) = x.map (WalkData.mapTimes fun _ => .fin 0) := by
    intro x y h
    cases x <;> cases y <;> first | rfl | exact h.elim | exact congrArg some (hwm _ _ h)
  induction this with
  | nil => rfl
  | cons h _ ih =>
    rw [List.map_cons, List.map_cons, ih]
    congr 1
    rename_i a b _ _ _
    obtain ⟨a1, a2, a3⟩ := a
    obtain ⟨b1, b2, b3⟩ := b
    obtain ⟨h1, h2, h3⟩ := h
    simp only at h1 h2 h3
    unfold Seen.untimed Seen.mapTimes
    simp only [hom _ _ h2, h3, Prod.mk.injEq, and_true]
    cases h1 with
    | error e => rfl
    | ok h => simp only [Except.map, hom _ _ h.1, h.2]

variable [FloorRing K]

theorem transcript_map (H : TimeMap A φ ψ) (hdx : ∀ d, A.mul d (.fin dx') = ψ (A.mul d (.fin P.dx))) (ω : Nat → K) (cs : List (ApiCall K))
    (hc : (∀ c ∈ cs, c.NoTarget) ∨ TimeShift A φ ψ) (pos : Nat) :
    transcript A F { P with dx := dx' } ω (cs.map (ApiCall.mapTimes φ)) (initState A F { P with dx := dx' } pos) =
      (transcript A F P ω cs (initState A F P pos)).map (Seen.mapTimes φ) := by
  refine via_seen ((H.routes ω hdx).alike.transcript ?_ ⟨rfl, trivial, .inl rfl⟩)
  replace hc : ∀ c ∈ cs, c.NoTarget ∨ Clock A (Via φ) := fun c h => hc.imp (fun g => g c h) (fun g => g.clock H)
  induction cs with
  | nil => exact .nil
  | cons c cs ih => exact .cons (via_call ω c (hc c (by simp))) (ih fun d hd => hc d (by simp [hd]))

end Dorado
