import Verif.Lemmas.Bisim
import Verif.Lemmas.RunStmt
import Verif.Spec.Api

/-! Helper lemmas: two objects executing the same calls side by side, exceptions included. -/

set_option linter.unusedSectionVars false

namespace Dorado

section lists

variable {α β γ δ : Type} {R : α → β → Prop}

theorem listGet_rel {l : List α} {l' : List β} (h : List.Forall₂ R l l') (i : Nat) : RelE R (listGet l i) (listGet l' i) := by
  unfold listGet
  induction h generalizing i with
  | nil => exact .error _
  | cons h _ ih =>
    cases i with
    | zero => exact .ok h
    | succ i => simpa using ih i

theorem lastOf_rel {l : List α} {l' : List β} (h : List.Forall₂ R l l') : RelE R (lastOf l) (lastOf l') := by
  unfold lastOf
  rw [List.getLast?_eq_getElem?, List.getLast?_eq_getElem?, ← h.length_eq]
  have := listGet_rel h (l.length - 1)
  unfold listGet at this
  cases h1 : l[l.length - 1]? <;> cases h2 : l'[l.length - 1]? <;> rw [h1, h2] at this <;> simp only at this ⊢
  · exact .error _
  · cases this
  · cases this
  · cases this with
    | ok h => exact .ok h

theorem lastAt_rel {l : List (List α)} {l' : List (List β)} (h : List.Forall₂ (List.Forall₂ R) l l') (i : Nat) :
    RelE R (lastAt l i) (lastAt l' i) := by
  unfold lastAt
  exact (listGet_rel h i).bind fun _ _ h => lastOf_rel h

theorem mapE_rel {f : γ → Except PyErr α} {g : γ → Except PyErr β} (h : ∀ a, RelE R (f a) (g a)) (l : List γ) :
    RelE (List.Forall₂ R) (mapE f l) (mapE g l) := by
  induction l with
  | nil => exact .ok .nil
  | cons a l ih =>
    simp only [mapE]
    refine (h a).bind fun b c hbc => ?_
    refine ih.bind fun bs cs h => ?_
    exact .ok (.cons hbc h)

theorem mapAcc_relOut {σ : Type} {f : σ → γ → Except PyErr (α × σ)} {g : σ → γ → Except PyErr (β × σ)}
    (h : ∀ s a, RelE (fun x y => R x.1 y.1 ∧ x.2 = y.2) (f s a) (g s a)) (s : σ) (l : List γ) :
    RelE (fun x y => List.Forall₂ R x.1 y.1 ∧ x.2 = y.2) (mapAcc f s l) (mapAcc g s l) := by
  induction l generalizing s with
  | nil => exact .ok ⟨.nil, rfl⟩
  | cons a l ih =>
    simp only [mapAcc]
    refine (h s a).bind ?_
    rintro ⟨x1, x2⟩ ⟨y1, _⟩ ⟨h1, rfl⟩
    refine (ih x2).bind ?_
    rintro ⟨x3, x4⟩ ⟨y3, _⟩ ⟨h3, rfl⟩
    exact .ok ⟨.cons h1 h3, rfl⟩

theorem zipWith_rel {R : α → β → Prop} {S : γ → δ → Prop} {ε ζ : Type} {Q : ε → ζ → Prop} {f : α → γ → ε} {g : β → δ → ζ}
    (h : ∀ a b c d, R a b → S c d → Q (f a c) (g b d)) {l : List α} {l' : List β} (h1 : List.Forall₂ R l l') {m : List γ} {m' : List δ}
    (h2 : List.Forall₂ S m m') : List.Forall₂ Q (List.zipWith f l m) (List.zipWith g l' m') := by
  induction h1 generalizing m m' with
  | nil => exact .nil
  | cons hab _ ih =>
    cases h2 with
    | nil => exact .nil
    | cons hcd h2 => exact .cons (h _ _ _ _ hab hcd) (ih h2)

theorem modify_rel {f : α → α} {g : β → β} (hfg : ∀ a b, R a b → R (f a) (g b)) {l : List α} {l' : List β} (h : List.Forall₂ R l l') (i : Nat) :
    List.Forall₂ R (l.modify i f) (l'.modify i g) := by
  induction h generalizing i with
  | nil => cases i <;> exact .nil
  | cons hab h ih =>
    cases i with
    | zero => exact .cons (hfg _ _ hab) h
    | succ i => exact .cons hab (ih i)

theorem forall₂_append {l : List α} {l' : List β} (h : List.Forall₂ R l l') {m : List α} {m' : List β} (h' : List.Forall₂ R m m') :
    List.Forall₂ R (l ++ m) (l' ++ m') := by
  induction h with
  | nil => exact h'
  | cons hab _ ih => exact .cons hab ih

theorem forall₂_eq {l l' : List α} (h : List.Forall₂ Eq l l') : l = l' := by
  induction h with
  | nil => rfl
  | cons h _ ih => rw [h, ih]

theorem forall₂_refl {R : α → α → Prop} (hR : ∀ a, R a a) (l : List α) : List.Forall₂ R l l := by
  induction l with
  | nil => exact .nil
  | cons a l ih => exact .cons (hR a) ih

theorem forall₂_map {R : α → α → Prop} (f : α → α) (hR : ∀ a, R a (f a)) (l : List α) : List.Forall₂ R l (l.map f) := by
  induction l with
  | nil => exact .nil
  | cons a l ih => exact .cons (hR a) ih

end lists

/-! ## Statements side by side -/

section stmts

variable {σ τ α β γ δ : Type}

/-- From related states: the same exception or related values, and related states afterwards in either case. -/
def RelM (S : σ → τ → Prop) (R : α → β → Prop) (m : PyM σ α) (n : PyM τ β) : Prop :=
  ∀ s t, S s t → RelE R (m s).1 (n t).1 ∧ S (m s).2 (n t).2

variable {S : σ → τ → Prop} {R : α → β → Prop} {Q : γ → δ → Prop}

theorem RelM.bind {m : PyM σ α} {n : PyM τ β} {f : α → PyM σ γ} {g : β → PyM τ δ} (h : RelM S R m n)
    (hf : ∀ a b, R a b → RelM S Q (f a) (g b)) : RelM S Q (m >>= f) (n >>= g) := by
  intro s t hst
  obtain ⟨h1, h2⟩ := h s t hst
  show RelE Q (PyM.seq m f s).1 (PyM.seq n g t).1 ∧ S (PyM.seq m f s).2 (PyM.seq n g t).2
  unfold PyM.seq
  generalize m s = x at h1 h2
  generalize n t = y at h1 h2
  obtain ⟨x1, x2⟩ := x
  obtain ⟨y1, y2⟩ := y
  cases h1 with
  | error e => exact ⟨.error e, h2⟩
  | ok hab => exact hf _ _ hab _ _ h2

theorem RelM.lift {x : Except PyErr α} {y : Except PyErr β} (h : RelE R x y) : RelM S R (PyM.lift x) (PyM.lift y) := fun _ _ hs => ⟨h, hs⟩

theorem RelM.pure {a : α} {b : β} (h : R a b) : RelM S R (Pure.pure a) (Pure.pure b) := fun _ _ hs => ⟨.ok h, hs⟩

theorem RelM.read : RelM S S PyM.read PyM.read := fun _ _ hs => ⟨.ok hs, hs⟩

theorem RelM.assign {f : σ → σ} {g : τ → τ} (h : ∀ s t, S s t → S (f s) (g t)) : RelM S (fun _ _ => True) (PyM.assign f) (PyM.assign g) :=
  fun s t hs => ⟨.ok trivial, h s t hs⟩

theorem RelM.mono {R' : α → β → Prop} {m : PyM σ α} {n : PyM τ β} (h : RelM S R m n) (hR : ∀ a b, R a b → R' a b) : RelM S R' m n := by
  intro s t hst
  obtain ⟨h1, h2⟩ := h s t hst
  refine ⟨?_, h2⟩
  generalize (m s).1 = x at h1
  generalize (n t).1 = y at h1
  cases h1 with
  | error e => exact .error e
  | ok h => exact .ok (hR _ _ h)

end stmts

variable {K : Type} [Field K] [LinearOrder K] [IsStrictOrderedRing K] {A : Arith K} {F : Fun K A}
variable {T : Fl K → Fl K → Prop} {W : World K → World K → Prop} {P P' : PObj K} {ω ω' : Nat → K}

/-- Walk data that agree except that the times are related by `T`. -/
def WalkRel (T : Fl K → Fl K → Prop) (w w' : WalkData K) : Prop :=
  w.xinds = w'.xinds ∧ w.yinds = w'.yinds ∧ List.Forall₂ (List.Forall₂ T) w.times w'.times ∧ w.opt = w'.opt

/-- Walk data of two objects, if there are any, related. -/
def OptRel {α : Type} (R : α → α → Prop) : Option α → Option α → Prop
  | none, none => True
  | some a, some b => R a b
  | _, _ => False

theorem keys_sub (P : PObj K) (np : Nat) (wd : WalkData K) : ∀ v ∈ (optionalVars P np wd).map (·.1), v ∈ P.particleVars := by
  have key : ∀ (l : List String) (val : String → List (List (Val K))) (d : List (String × List (List (Val K)))),
      (∀ v ∈ d.map (·.1), v ∈ P.particleVars) → (∀ v ∈ l, v ∈ P.particleVars) →
      ∀ v ∈ (l.foldl (fun d var => dictSet d var (val var)) d).map (·.1), v ∈ P.particleVars := by
    intro l val
    induction l with
    | nil => intro d hd _; exact hd
    | cons a l ih =>
      intro d hd hl
      refine ih _ ?_ fun v hv => hl v (by simp [hv])
      intro v hv
      simp only [dictSet] at hv
      split at hv
      · rw [List.map_map] at hv
        obtain ⟨e, he, rfl⟩ := List.mem_map.1 hv
        simp only [Function.comp]
        split
        · exact hl a (by simp)
        · exact hd _ (List.mem_map.2 ⟨e, he, rfl⟩)
      · rw [List.map_append, List.mem_append] at hv
        rcases hv with hv | hv
        · exact hd v hv
        · simp only [List.map_cons, List.map_nil, List.mem_singleton] at hv
          subst hv
          exact hl _ (by simp)
  exact key _ _ [] (by simp) fun v hv => (List.mem_filter.1 hv).1

theorem WalkRel.prepend {a a' b b' : WalkData K} (h : WalkRel T a a') (h' : WalkRel T b b') : WalkRel T (prependWalk a b) (prependWalk a' b') :=
  ⟨by simp only [prependWalk, h.1, h'.1], by simp only [prependWalk, h.2.1, h'.2.1], forall₂_append h.2.2.1 h'.2.2.1,
    by simp only [prependWalk, h.2.2.2, h'.2.2.2]⟩


/-- States of two objects that stay related: worlds related by `W`, times by `T`. -/
def StRel (W : World K → World K → Prop) (T : Fl K → Fl K → Prop) (s s' : PState K) : Prop :=
  W s.world s'.world ∧ OptRel (WalkRel T) s.walk s'.walk ∧ s.np = s'.np

/-- Times that may be compared with a target time: the relation is a common shift. -/
structure Clock (A : Arith K) (T : Fl K → Fl K → Prop) : Prop where
  add : ∀ t t' d, T t t' → T (A.add t d) (A.add t' d)
  sub : ∀ a a' b b', T a a' → T b b' → A.sub a b = A.sub a' b'

theorem Clock.eq (A : Arith K) : Clock A Eq := ⟨fun _ _ _ h => by rw [h], fun _ _ _ _ h1 h2 => by rw [h1, h2]⟩

/-- Two objects that answer all calls alike: what the statements of seeding and routing need to know about them. -/
structure Alike (A : Arith K) (F : Fun K A) (ω ω' : Nat → K) (W : World K → World K → Prop) (T : Fl K → Fl K → Prop) (P P' : PObj K) : Prop where
  pos : ∀ w w', W w w' → w.pos = w'.pos
  move : ∀ w w' n, W w w' → W { w with pos := n } { w' with pos := n }
  edges : edgeInWindow P'.cellType = edgeInWindow P.cellType
  vars : P'.particleVars = P.particleVars
  roi : P'.roi = P.roi
  verbose : P'.verbose = P.verbose
  avail : ∀ v ∈ P.particleVars, availVar P' v = availVar P v
  step : ∀ cur times times' vars, List.Forall₂ T times times' → (∀ v ∈ vars, v ∈ P.particleVars) →
    RelM (StRel W T) (fun x y => x.1 = y.1 ∧ List.Forall₂ T x.2.1 y.2.1 ∧ x.2.2 = y.2.2) (stepperStmt A F P ω cur times vars)
      (stepperStmt A F P' ω' cur times' vars)

/-! ## `run_iteration` -/

/-- The same during a call, with the same local dictionary. -/
def RunRel (W : World K → World K → Prop) (T : Fl K → Fl K → Prop) (r r' : RunSt K) : Prop := StRel W T r.obj r'.obj ∧ r.view = r'.view

theorem RunRel.walk {r r' : RunSt K} (h : RunRel W T r r') : WalkRel T r.walk r'.walk := by
  obtain ⟨⟨-, h, -⟩, -⟩ := h
  unfold RunSt.walk
  cases h1 : r.obj.walk <;> cases h2 : r'.obj.walk <;> rw [h1, h2] at h <;> first | exact h.elim | exact h | exact ⟨rfl, rfl, .nil, rfl⟩

theorem RelM.onObj {α β : Type} {R : α → β → Prop} {m : PyM (PState K) α} {n : PyM (PState K) β} (h : RelM (StRel W T) R m n) :
    RelM (RunRel W T) R (PyM.onObj m) (PyM.onObj n) :=
  fun s t hs => ⟨(h s.obj t.obj hs.1).1, (h s.obj t.obj hs.1).2, hs.2⟩

theorem StRel.mapWalk {s s' : PState K} (h : StRel W T s s') {f g : WalkData K → WalkData K} (hfg : ∀ a b, WalkRel T a b → WalkRel T (f a) (g b)) :
    StRel W T { s with walk := s.walk.map f } { s' with walk := s'.walk.map g } := by
  obtain ⟨h1, h2, h3⟩ := h
  refine ⟨h1, ?_, h3⟩
  cases h4 : s.walk <;> cases h5 : s'.walk <;> rw [h4, h5] at h2 <;> first | exact h2.elim | exact trivial | exact hfg _ _ h2

theorem appendStmt_rel {f g : WalkData K → WalkData K} (hfg : ∀ a b, WalkRel T a b → WalkRel T (f a) (g b)) :
    RelM (RunRel W T) (fun _ _ => True) (appendStmt f) (appendStmt g) :=
  RelM.assign fun _ _ h => ⟨h.1.mapWalk hfg, h.2⟩

theorem appendVarsStmt_rel (ii k : Nat) (upd : List (String × List (Val K))) (keys : List String) :
    RelM (RunRel W T) (fun _ _ => True) (appendVarsStmt ii k upd keys) (appendVarsStmt ii k upd keys) := by
  induction keys with
  | nil => exact RelM.pure trivial
  | cons var rest ih =>
    unfold appendVarsStmt
    split
    · exact RelM.lift (.error _)
    · refine RelM.bind (RelM.lift (RelE.eq _)) ?_
      rintro v _ rfl
      refine RelM.bind (RelM.assign fun s t h => ⟨h.1.mapWalk ?_, by simp only [h.2]⟩) fun _ _ _ => ih
      rintro a b ⟨h1, h2, h3, h4⟩
      exact ⟨h1, h2, h3, by simp only [h4]⟩

theorem appendRecStmt_rel (ii k : Nat) (q : Int × Int) {times times' : List (Fl K)} (ht : List.Forall₂ T times times') (upd : List (String × List (Val K)))
    (keys : List String) : RelM (RunRel W T) (fun _ _ => True) (appendRecStmt ii k q times upd keys) (appendRecStmt ii k q times' upd keys) := by
  unfold appendRecStmt
  refine RelM.bind (appendStmt_rel ?_) fun _ _ _ => RelM.bind (appendStmt_rel ?_) fun _ _ _ => RelM.bind (RelM.lift (listGet_rel ht k)) fun t t' htt =>
    RelM.bind (appendStmt_rel ?_) fun _ _ _ => appendVarsStmt_rel ii k upd keys
  · rintro a b ⟨h1, h2, h3, h4⟩
    exact ⟨by simp only [h1], h2, h3, h4⟩
  · rintro a b ⟨h1, h2, h3, h4⟩
    exact ⟨h1, by simp only [h2], h3, h4⟩
  · rintro a b ⟨h1, h2, h3, h4⟩
    exact ⟨h1, h2, modify_rel (fun a b hab => forall₂_append hab (.cons htt .nil)) h3 ii, h4⟩

theorem storeStmt_rel (starts news : List (Int × Int)) {times times' : List (Fl K)} (ht : List.Forall₂ T times times') (upd : List (String × List (Val K)))
    (keys : List String) (is : List Nat) :
    RelM (RunRel W T) (fun _ _ => True) (storeStmt starts news times upd keys is) (storeStmt starts news times' upd keys is) := by
  induction is with
  | nil => exact RelM.pure trivial
  | cons i is ih =>
    unfold storeStmt
    refine RelM.bind (RelM.lift (RelE.eq _)) ?_
    rintro n _ rfl
    refine RelM.bind (RelM.lift (RelE.eq _)) ?_
    rintro p _ rfl
    split
    · exact RelM.bind (appendRecStmt_rel i i n ht upd keys) fun _ _ _ => ih
    · exact ih

theorem initEst_rel (hT : Clock A T) {ts ts' : List (Fl K)} (h : List.Forall₂ T ts ts') : initEst A ts = initEst A ts' := by
  unfold initEst
  have h := List.rel_reverse h
  generalize ts.reverse = l at h
  generalize ts'.reverse = l' at h
  cases h with
  | nil => rfl
  | cons ha h =>
    cases h with
    | nil => rfl
    | cons hb _ => exact hT.sub _ _ _ _ ha hb

theorem Alike.loop (H : Alike A F ω ω' W T P P') (hT : Clock A T) {target target' : Fl K} (ht : T target target') (maxIter : Int)
    {keys : List String} (hk : ∀ v ∈ keys, v ∈ P.particleVars) (ii fuel : Nat) (est : Fl K) (count : Int) :
    RelM (RunRel W T) Eq (loopStmt A F P ω target maxIter keys ii fuel est count) (loopStmt A F P' ω' target' maxIter keys ii fuel est count) := by
  induction fuel generalizing est count with
  | zero =>
    unfold loopStmt
    refine RelM.bind RelM.read fun s s' hs => ?_
    refine RelM.bind (RelM.lift (lastAt_rel hs.walk.2.2.1 ii)) fun t t' htt => ?_
    rw [hT.sub _ _ _ _ (hT.add _ _ est htt) ht, hT.sub _ _ _ _ htt ht]
    split
    · exact RelM.lift (.error _)
    · exact RelM.pure rfl
  | succ fuel ih =>
    unfold loopStmt
    refine RelM.bind RelM.read fun s s' hs => ?_
    refine RelM.bind (RelM.lift (lastAt_rel hs.walk.2.2.1 ii)) fun t t' htt => ?_
    rw [hT.sub _ _ _ _ (hT.add _ _ est htt) ht, hT.sub _ _ _ _ htt ht, hs.walk.1, hs.walk.2.1, hs.2]
    split
    · refine RelM.bind (RelM.lift (RelE.eq _)) ?_
      rintro x _ rfl
      refine RelM.bind (RelM.lift (RelE.eq _)) ?_
      rintro y _ rfl
      refine RelM.bind (RelM.lift (RelE.eq _)) ?_
      rintro _ _ rfl
      refine RelM.bind (H.step [(x, y)] [t] [t'] keys (.cons htt .nil) hk).onObj ?_
      rintro ⟨news, times, upd⟩ ⟨news', times', upd'⟩ ⟨h1, h2, h3⟩
      simp only at h1 h2 h3
      subst h1 h3
      refine RelM.bind (RelM.lift (RelE.eq _)) ?_
      rintro n _ rfl
      split
      · refine RelM.bind (appendRecStmt_rel ii 0 n h2 upd keys) fun _ _ _ => RelM.bind RelM.read fun s1 s1' hs1 => ?_
        refine RelM.bind (RelM.lift (listGet_rel hs1.walk.2.2.1 ii)) fun ts ts' hts => ?_
        rw [initEst_rel hT hts]
        split
        · exact RelM.pure rfl
        · exact ih _ _
      · exact RelM.pure rfl
    · exact RelM.pure rfl

theorem Alike.one (H : Alike A F ω ω' W T P P') (hT : Clock A T) {target target' : Fl K} (ht : T target target') (maxIter : Int)
    {keys : List String} (hk : ∀ v ∈ keys, v ∈ P.particleVars) (ii : Nat) :
    RelM (RunRel W T) Eq (oneStmt A F P ω target maxIter keys ii) (oneStmt A F P' ω' target' maxIter keys ii) := by
  unfold oneStmt
  refine RelM.bind RelM.read fun s s' hs => ?_
  refine RelM.bind (RelM.lift (listGet_rel hs.walk.2.2.1 ii)) fun ts ts' hts => ?_
  rw [hs.walk.1, hs.walk.2.1, initEst_rel hT hts, H.edges]
  refine RelM.bind (RelM.lift (RelE.eq _)) ?_
  rintro x _ rfl
  refine RelM.bind (RelM.lift (RelE.eq _)) ?_
  rintro y _ rfl
  split
  · exact RelM.pure rfl
  · exact H.loop hT ht maxIter hk ii _ _ _

theorem Alike.all (H : Alike A F ω ω' W T P P') (hT : Clock A T) {target target' : Fl K} (ht : T target target') (maxIter : Int)
    {keys : List String} (hk : ∀ v ∈ keys, v ∈ P.particleVars) (is : List Nat) (warn : Option (List Nat)) :
    RelM (RunRel W T) Eq (allStmt A F P ω target maxIter keys is warn) (allStmt A F P' ω' target' maxIter keys is warn) := by
  induction is generalizing warn with
  | nil => exact RelM.pure rfl
  | cons i is ih =>
    unfold allStmt
    refine RelM.bind (H.one hT ht maxIter hk i) ?_
    rintro hit _ rfl
    exact ih _

theorem Alike.optional (H : Alike A F ω ω' W T P P') (np : Nat) {wd wd' : WalkData K} (h : wd.opt = wd'.opt) :
    optionalVars P' np wd' = optionalVars P np wd := by
  unfold optionalVars
  rw [H.vars, h]

/-- What a call returns: walk data with times related, the same warnings. -/
def OutRel (T : Fl K → Fl K → Prop) (x y : WalkData K × List Nat) : Prop := WalkRel T x.1 y.1 ∧ x.2 = y.2

theorem Alike.run (H : Alike A F ω ω' W T P P') {target target' : Option (Fl K)} (ht : OptRel T target target')
    (hT : target = none ∨ Clock A T) (maxIter : Int) : RelM (StRel W T) (OutRel T) (runStmt A F P ω target maxIter) (runStmt A F P' ω' target' maxIter) := by
  unfold runStmt
  refine RelM.bind RelM.read fun s0 s0' hs0 => ?_
  obtain ⟨hw0, hk0, hn0⟩ := hs0
  cases h1 : s0.walk with
  | none =>
    cases h2 : s0'.walk with
    | none => exact RelM.lift (.error _)
    | some _ => rw [h1, h2] at hk0; exact hk0.elim
  | some wd =>
    cases h2 : s0'.walk with
    | none => rw [h1, h2] at hk0; exact hk0.elim
    | some wd' =>
      rw [h1, h2] at hk0
      have hwr : WalkRel T wd wd' := hk0
      obtain ⟨e1, e2, e3, e4⟩ := hwr
      simp only
      refine RelM.bind (RelM.assign fun s t hst => ?_) fun _ _ _ => ?_
      · obtain ⟨a1, a2, a3⟩ := hst
        rw [← a3, ← e1]
        split
        · exact ⟨a1, a2, rfl⟩
        · exact ⟨a1, a2, a3⟩
      refine RelM.bind RelM.read fun s s' hs => ?_
      obtain ⟨hw, hk, hn⟩ := hs
      rw [← hn, ← e1, ← e2, H.optional _ e4]
      generalize s.np = np
      refine RelM.bind (RelM.lift (RelE.eq _)) ?_
      rintro sx _ rfl
      refine RelM.bind (RelM.lift (RelE.eq _)) ?_
      rintro sy _ rfl
      refine RelM.bind (RelM.lift (mapE_rel (fun i => lastAt_rel e3 i) _)) fun st st' hst => ?_
      refine RelM.bind (RelM.lift (RelE.eq _)) ?_
      rintro _ _ rfl
      have hkeys := keys_sub P np wd
      have hview : ∀ {m n : PyM (RunSt K) (WalkData K × List Nat)}, RelM (RunRel W T) (OutRel T) m n →
          RelM (StRel W T) (OutRel T) (PyM.withView (optionalVars P np wd) m) (PyM.withView (optionalVars P np wd) n) :=
        fun h s t hs => ⟨(h ⟨s, _⟩ ⟨t, _⟩ ⟨hs, rfl⟩).1, (h ⟨s, _⟩ ⟨t, _⟩ ⟨hs, rfl⟩).2.1⟩
      apply hview
      have hout : ∀ {r r' : RunSt K}, RunRel W T r r' → WalkRel T { r.walk with opt := r.view } { r'.walk with opt := r'.view } :=
        fun h => ⟨h.walk.1, h.walk.2.1, h.walk.2.2.1, h.2⟩
      cases target with
      | none =>
        cases target' with
        | some _ => exact ht.elim
        | none =>
          simp only
          refine RelM.bind (H.step _ _ _ _ hst hkeys).onObj ?_
          rintro ⟨news, times, upd⟩ ⟨news', times', upd'⟩ ⟨g1, g2, g3⟩
          simp only at g1 g2 g3
          subst g1 g3
          refine RelM.bind (storeStmt_rel _ _ g2 _ _ _) fun _ _ _ => RelM.bind RelM.read fun s1 s1' hs1 => RelM.pure ⟨hout hs1, rfl⟩
      | some tgt =>
        cases target' with
        | none => exact ht.elim
        | some tgt' =>
          have hT := hT.resolve_left (by simp)
          simp only
          refine RelM.bind (H.all hT ht maxIter hkeys _ _) ?_
          rintro warn _ rfl
          refine RelM.bind RelM.read fun s1 s1' hs1 => ?_
          cases warn with
          | none => exact RelM.lift (.error _)
          | some l =>
            simp only
            rw [H.verbose]
            refine RelM.bind (RelM.assign fun r r' hr => ⟨⟨hr.1.1, ?_, hr.1.2.2⟩, hr.2⟩) fun _ _ _ => RelM.pure ⟨hout hs1, rfl⟩
            exact hout hr

/-! ## `generate_particles` -/

/-- As `StRel`; the particle count matters only with walk data. -/
def FutRel (W : World K → World K → Prop) (T : Fl K → Fl K → Prop) (s s' : PState K) : Prop :=
  W s.world s'.world ∧ OptRel (WalkRel T) s.walk s'.walk ∧ (s.walk = none ∨ s.np = s'.np)

theorem Alike.startVars (H : Alike A F ω ω' W T P P') (starts : List (Int × Int)) {vars : List String} (hv : ∀ v ∈ vars, v ∈ P.particleVars)
    (d : List (String × List (List (Val K)))) : startVars P' starts vars d = startVars P starts vars d := by
  induction vars generalizing d with
  | nil => rfl
  | cons v vars ih =>
    simp only [Dorado.startVars]
    have ih := ih fun x hx => hv x (by simp [hx])
    split
    · exact ih d
    · have : startVar P' v starts = startVar P v starts := by
        unfold startVar
        rw [H.roi, H.avail v (hv v (by simp))]
      rw [this]
      congr 1
      funext l
      exact ih _

theorem Alike.advance (H : Alike A F ω ω' W T P P') {s s' : PState K} (h : FutRel W T s s') :
    FutRel W T (s.atPos (s.world.pos + 1)) (s'.atPos (s'.world.pos + 1)) := by
  obtain ⟨h1, h2, h3⟩ := h
  refine ⟨?_, h2, h3⟩
  unfold PState.atPos
  simp only
  rw [← H.pos _ _ h1]
  exact H.move _ _ _ h1

theorem Alike.seeds (H : Alike A F ω ω W T P P') (locs : List Int) (n : Nat) :
    RelM (FutRel W T) Eq (randomSeedsStmt A ω locs n) (randomSeedsStmt A ω locs n) := by
  induction n with
  | zero => exact RelM.pure rfl
  | succ n ih =>
    unfold randomSeedsStmt
    refine RelM.bind RelM.read fun s s' hs => ?_
    rw [← H.pos _ _ hs.1]
    refine RelM.bind (RelM.assign fun _ _ h => ?_) fun _ _ _ => RelM.bind (RelM.lift (RelE.eq _)) ?_
    · split
      · exact h
      · exact H.advance h
    rintro c _ rfl
    refine RelM.bind ih ?_
    rintro cs _ rfl
    exact RelM.pure rfl

theorem Alike.starts (H : Alike A F ω ω' W T P P') (np : Int) (xs ys : List Int) (m : Method) (hm : ω = ω' ∨ m ≠ .random) :
    RelM (FutRel W T) Eq (startIndicesStmt A ω np xs ys m) (startIndicesStmt A ω' np xs ys m) := by
  cases m with
  | random =>
    obtain rfl := hm.resolve_right (by simp)
    unfold startIndicesStmt
    refine RelM.bind (H.seeds _ _) ?_
    rintro x _ rfl
    refine RelM.bind (H.seeds _ _) ?_
    rintro y _ rfl
    exact RelM.pure rfl
  | exact =>
    simp only [startIndicesStmt]
    split
    · exact RelM.lift (.error _)
    · refine RelM.bind (RelM.lift (RelE.eq _)) ?_
      rintro x _ rfl
      refine RelM.bind (RelM.lift (RelE.eq _)) ?_
      rintro y _ rfl
      exact RelM.pure rfl

/-! ## Routing -/

/-- What routing needs to know: picks agree, distances related by `E`, travel times of single steps by `D`. -/
structure Routes (A : Arith K) (F : Fun K A) (ω ω' : Nat → K) (W : World K → World K → Prop) (T E D : Fl K → Fl K → Prop) (P P' : PObj K) : Prop where
  pos : ∀ w w', W w w' → w.pos = w'.pos
  move : ∀ w w' n, W w w' → W { w with pos := n } { w' with pos := n }
  pick : ∀ ind, RelM (StRel W T) Eq (newCellStmt A P ω ind) (newCellStmt A P' ω' ind)
  iwalk : P'.iwalk = P.iwalk
  jwalk : P'.jwalk = P.jwalk
  edges : edgeInWindow P'.cellType = edgeInWindow P.cellType
  vars : P'.particleVars = P.particleVars
  roi : P'.roi = P.roi
  verbose : P'.verbose = P.verbose
  avail : ∀ v ∈ P.particleVars, availVar P' v = availVar P v
  dist : ∀ c, RelE E (stepUpdate A c P.distances P.dx) (stepUpdate A c P'.distances P'.dx)
  zero : ∀ d d', E d d' → Fl.eq d (.fin 0) = Fl.eq d' (.fin 0)
  time : ∀ cell a b d d', E d d' → RelM (StRel W T) D (travelTimeStmt A F P ω cell a b d) (travelTimeStmt A F P' ω' cell a b d')
  add : ∀ t t' d d', T t t' → D d d' → T (A.add t d) (A.add t' d')

variable {E D : Fl K → Fl K → Prop}

theorem Routes.cells (H : Routes A F ω ω' W T E D P P') (cur : List (Int × Int)) :
    RelM (StRel W T) Eq (newCellsStmt A P ω cur) (newCellsStmt A P' ω' cur) := by
  induction cur with
  | nil => exact RelM.pure rfl
  | cons ind rest ih =>
    unfold newCellsStmt
    refine RelM.bind (H.pick ind) ?_
    rintro k _ rfl
    refine RelM.bind ih ?_
    rintro ks _ rfl
    exact RelM.pure rfl

theorem Routes.times (H : Routes A F ω ω' W T E D P P') {l l' : List ((Nat × (Int × Int)) × ((Int × Int) × Fl K))}
    (h : List.Forall₂ (fun q q' => q.1 = q'.1 ∧ q.2.1 = q'.2.1 ∧ E q.2.2 q'.2.2) l l') :
    RelM (StRel W T) (List.Forall₂ D) (travelTimesStmt A F P ω l) (travelTimesStmt A F P' ω' l') := by
  induction h with
  | nil => exact RelM.pure .nil
  | @cons q q' l l' hq _ ih =>
    unfold travelTimesStmt
    obtain ⟨h1, h2, h3⟩ := hq
    rw [← h1, ← h2]
    exact RelM.bind (H.time _ _ _ _ _ h3) fun t t' ht => RelM.bind ih fun ts ts' hts => RelM.pure (.cons ht hts)

theorem Routes.updated (H : Routes A F ω ω' W T E D P P') {vars : List String} (hv : ∀ v ∈ vars, v ∈ P.particleVars) (news : List (Int × Int)) :
    updatedOptional P' vars news = updatedOptional P vars news := by
  unfold updatedOptional roiPart
  rw [H.roi]
  have e : ∀ l : List String, (∀ v ∈ l, v ∈ P.particleVars) → mapE (varPart P' news) l = mapE (varPart P news) l := by
    intro l hl
    induction l with
    | nil => rfl
    | cons v l ih =>
      simp only [mapE]
      rw [ih fun x hx => hl x (by simp [hx])]
      unfold varPart
      rw [H.avail v (hl v (by simp))]
  congr 1
  funext roi
  rw [e _ fun v h => hv v (List.mem_filter.1 h).1]

theorem Routes.alike (H : Routes A F ω ω' W T E D P P') : Alike A F ω ω' W T P P' where
  pos := H.pos
  move := H.move
  edges := H.edges
  vars := H.vars
  roi := H.roi
  verbose := H.verbose
  avail := H.avail
  step := by
    intro cur times times' vars ht hv
    unfold stepperStmt
    refine RelM.bind (H.cells cur) ?_
    rintro cells _ rfl
    have e1 : (fun p : (Int × Int) × Nat => newInd1 P' p.1 p.2) = fun p => newInd1 P p.1 p.2 := by
      funext p
      unfold newInd1
      rw [H.iwalk, H.jwalk]
    rw [e1]
    refine RelM.bind (RelM.lift (RelE.eq _)) ?_
    rintro inds _ rfl
    refine RelM.bind (RelM.lift (mapE_rel H.dist cells)) fun dist dist' hd => ?_
    have hz : List.zipWith zeroDist inds dist' = List.zipWith zeroDist inds dist := by
      refine (forall₂_eq (zipWith_rel (R := Eq) (S := E) (fun a b d d' h1 h2 => ?_) (forall₂_refl (fun _ => rfl) inds) hd)).symm
      subst h1
      simp only [zeroDist, H.zero _ _ h2]
    simp only
    have hb : ∀ news, checkForBoundary news cur P'.cellType = checkForBoundary news cur P.cellType := fun news => by
      unfold checkForBoundary checkForBoundary1
      rw [H.edges]
    rw [hz, hb]
    generalize checkForBoundary (List.zipWith zeroDist inds dist) cur P.cellType = news
    have hl : List.Forall₂ (fun q q' => q.1 = q'.1 ∧ q.2.1 = q'.2.1 ∧ E q.2.2 q'.2.2) ((cells.zip cur).zip (news.zip dist)) ((cells.zip cur).zip (news.zip dist')) := by
      have h1 : List.Forall₂ (fun q q' => q.1 = q'.1 ∧ E q.2 q'.2) (news.zip dist) (news.zip dist') :=
        zipWith_rel (R := Eq) (S := E) (fun _ _ _ _ h1 h2 => ⟨h1, h2⟩) (forall₂_refl (fun _ => rfl) news) hd
      exact zipWith_rel (R := Eq) (fun _ _ _ _ h1 h2 => ⟨h1, h2⟩) (forall₂_refl (fun _ => rfl) (cells.zip cur)) h1
    refine RelM.bind (H.times hl) fun temp temp' htemp => ?_
    rw [H.updated hv]
    refine RelM.bind (RelM.lift (RelE.eq _)) ?_
    rintro opt _ rfl
    exact RelM.pure ⟨rfl, zipWith_rel H.add ht htemp, rfl⟩

theorem gridGet_rel {α β : Type} {R : α → β → Prop} {g : Grid α} {g' : Grid β} (hr : g'.rows = g.rows) (hc : g'.cols = g.cols)
    (h : ∀ i j, i < g.rows → j < g.cols → R (g.at' i j) (g'.at' i j)) (x y : Int) : RelE R (g.get x y) (g'.get x y) := by
  unfold Grid.get
  rw [hr, hc]
  cases hi : pyIdx g.rows x with
  | error e => exact .error e
  | ok i =>
    simp only [ok_bind]
    cases hj : pyIdx g.cols y with
    | error e => exact .error e
    | ok j => exact .ok (h i j (pyIdx_lt hi) (pyIdx_lt hj))

/-- Travel times of two objects: velocities related by `V`, flow angles by `G`, their cosines by `C`. -/
theorem travelTimeStmt_rel {V G C : Fl K → Fl K → Prop} (hpos : ∀ w w', W w w' → w.pos = w'.pos)
    (hmove : ∀ w w' n, W w w' → W { w with pos := n } { w' with pos := n }) (hvel : ∀ x y, RelE V (P.velocity.get x y) (P'.velocity.get x y))
    (hdiff : P'.diffCoeff = P.diffCoeff) (hangles : P'.angles = P.angles) (hva : ∀ x y, RelE G (P.velocityAngle.get x y) (P'.velocityAngle.get x y))
    (hcos : ∀ ang va va', G va va' → RelE C (mathCos A F (A.sub ang va)) (mathCos A F (A.sub ang va'))) (h0 : D (.fin 0) (.fin 0))
    (hout : ∀ d d' v v' w w' c c' diff diff', E d d' → V v v' → V w w' → C c c' → ((ω = ω' ∨ ¬ 0 < P.diffCoeff) → diff = diff') →
      D (A.mul (A.mul (A.mul (.fin (1 / 2)) (A.mul d (Fl.pyMax (.fin 0) c))) (A.add (A.div (.fin 1) v) (A.div (.fin 1) w))) (A.add (.fin 1) diff))
        (A.mul (A.mul (A.mul (.fin (1 / 2)) (A.mul d' (Fl.pyMax (.fin 0) c'))) (A.add (A.div (.fin 1) v') (A.div (.fin 1) w'))) (A.add (.fin 1) diff')))
    (cell : Nat) (a b : Int × Int) {d d' : Fl K} (hd : E d d') :
    RelM (StRel W T) D (travelTimeStmt A F P ω cell a b d) (travelTimeStmt A F P' ω' cell a b d') := by
  unfold travelTimeStmt
  split
  · refine RelM.bind (RelM.lift (hvel _ _)) fun v v' hv => RelM.bind (RelM.lift (hvel _ _)) fun w w' hw => RelM.bind RelM.read fun s s' hs => ?_
    rw [hdiff, hangles, ← hpos _ _ hs.1]
    refine RelM.bind (RelM.assign fun s t hst => ?_) fun _ _ _ => ?_
    · split
      · obtain ⟨a1, a2, a3⟩ := hst
        refine ⟨?_, a2, a3⟩
        unfold PState.atPos
        simp only
        rw [← hpos _ _ a1]
        exact hmove _ _ _ a1
      · exact hst
    refine RelM.bind (RelM.lift (RelE.eq _)) ?_
    rintro ang _ rfl
    refine RelM.bind (RelM.lift (hva _ _)) fun va va' hv2 => RelM.bind (RelM.lift (hcos _ _ _ hv2)) fun c c' hc =>
      RelM.pure (hout _ _ _ _ _ _ _ _ _ _ hd hv hw hc ?_)
    rintro (rfl | h)
    · rfl
    · rw [if_neg h, if_neg h]
  · exact RelM.pure h0

variable [FloorRing K]

theorem Alike.generate (H : Alike A F ω ω' W T P P') (np xs ys : PyVal K) {time time' : PyVal K} (ht : RelE T (checkTime time) (checkTime time'))
    (method : PyVal K) (hm : ω = ω' ∨ checkMethod method ≠ .ok .random) {prev prev' : Option (WalkData K)} (hp : OptRel (WalkRel T) prev prev') :
    RelM (FutRel W T) (fun _ _ => True) (generateStmt A P ω np xs ys time method prev) (generateStmt A P' ω' np xs ys time' method prev') := by
  unfold generateStmt
  have hargs : RelE (fun a b => a.1 = b.1 ∧ a.2.1 = b.2.1 ∧ a.2.2.1 = b.2.2.1 ∧ T a.2.2.2.1 b.2.2.2.1 ∧ a.2.2.2.2 = b.2.2.2.2 ∧
      checkMethod method = .ok a.2.2.2.2)
      (genInputCheck np xs ys time method) (genInputCheck np xs ys time' method) := by
    unfold genInputCheck
    refine (RelE.eq _).bind ?_
    rintro n _ rfl
    refine (RelE.eq _).bind ?_
    rintro x _ rfl
    refine (RelE.eq _).bind ?_
    rintro y _ rfl
    refine ht.bind fun t t' htt => ?_
    cases hm : checkMethod method with
    | error e => exact .error e
    | ok m => exact .ok ⟨rfl, rfl, rfl, htt, rfl, rfl⟩
  refine RelM.bind (RelM.lift hargs) ?_
  rintro ⟨n, x, y, t, m⟩ ⟨n', x', y', t', m'⟩ ⟨h1, h2, h3, htt, h5, h6⟩
  simp only at h1 h2 h3 htt h5 h6
  subst h1 h2 h3 h5
  simp only
  refine RelM.bind (H.starts _ _ _ _ (hm.imp_right fun h e => h (by rw [h6, e]))) ?_
  rintro ⟨sx, sy⟩ _ rfl
  refine RelM.bind (RelM.lift (RelE.eq _)) ?_
  rintro nx _ rfl
  refine RelM.bind (RelM.lift (RelE.eq _)) ?_
  rintro ny _ rfl
  rw [H.vars, H.startVars _ (fun v hv => hv)]
  refine RelM.bind (RelM.lift (RelE.eq _)) ?_
  rintro opt _ rfl
  refine RelM.bind RelM.read fun s s' hs => ?_
  obtain ⟨-, hk, -⟩ := hs
  have h0 : WalkRel T { xinds := nx, yinds := ny, times := (List.range n.toNat).map fun _ => [t], opt := opt }
      { xinds := nx, yinds := ny, times := (List.range n.toNat).map fun _ => [t'], opt := opt } := by
    refine ⟨rfl, rfl, ?_, rfl⟩
    simp only
    induction List.range n.toNat with
    | nil => exact .nil
    | cons a l ih => exact .cons (.cons htt .nil) ih
  generalize ({ xinds := nx, yinds := ny, times := (List.range n.toNat).map fun _ => [t], opt := opt } : WalkData K) = w0 at h0
  generalize ({ xinds := nx, yinds := ny, times := (List.range n.toNat).map fun _ => [t'], opt := opt } : WalkData K) = w0' at h0
  have fin : ∀ w2 w2' : WalkData K, WalkRel T w2 w2' → RelM (FutRel W T) (fun _ _ => True)
      (do PyM.assign fun s => { s with np := w2.xinds.length }
          PyM.assign fun s => { s with walk := some w2 })
      (do PyM.assign fun s => { s with np := w2'.xinds.length }
          PyM.assign fun s => { s with walk := some w2' }) := by
    intro w2 w2' h2 s s' h
    exact ⟨.ok trivial, h.1, h2, .inr (by show w2.xinds.length = w2'.xinds.length; rw [h2.1])⟩
  cases h1 : s.walk <;> cases h1' : s'.walk <;> rw [h1, h1'] at hk <;> cases prev <;> cases prev' <;>
    first | exact hk.elim | exact hp.elim | skip
  · exact fin _ _ h0
  · exact fin _ _ (WalkRel.prepend hp h0)
  · exact fin _ _ (WalkRel.prepend hk h0)
  · exact fin _ _ (WalkRel.prepend hp (WalkRel.prepend hk h0))

/-! ## Sequences of calls -/

/-- The same call, with the seed time, the target time and the times of previous walk data related by `T`; a target time only if `T` is a shift,
random seeding only if the streams agree. -/
def CallRel (A : Arith K) (ω ω' : Nat → K) (T : Fl K → Fl K → Prop) : ApiCall K → ApiCall K → Prop
  | .generate np xs ys time method prev, .generate np' xs' ys' time' method' prev' =>
    np = np' ∧ xs = xs' ∧ ys = ys' ∧ RelE T (checkTime time) (checkTime time') ∧ method = method' ∧
      (ω = ω' ∨ checkMethod method ≠ .ok .random) ∧ OptRel (WalkRel T) prev prev'
  | .run target maxIter, .run target' maxIter' => OptRel T target target' ∧ maxIter = maxIter' ∧ (target = none ∨ Clock A T)
  | .clear, .clear => True
  | _, _ => False

/-- What is seen of a call, with times related by `T`. -/
def SeenRel (T : Fl K → Fl K → Prop) (x y : Seen K) : Prop :=
  RelE (fun a b => OptRel (WalkRel T) a.1 b.1 ∧ a.2 = b.2) x.1 y.1 ∧ OptRel (WalkRel T) x.2.1 y.2.1 ∧ x.2.2 = y.2.2

theorem Alike.act (H : Alike A F ω ω' W T P P') {c c' : ApiCall K} (hc : CallRel A ω ω' T c c') :
    RelM (FutRel W T) (fun a b => OptRel (WalkRel T) a.1 b.1 ∧ a.2 = b.2) (c.act A F P ω) (c'.act A F P' ω') := by
  cases c with
  | generate np xs ys time method prev =>
    cases c' with
    | generate np' xs' ys' time' method' prev' =>
      obtain ⟨rfl, rfl, rfl, ht, rfl, hm, hp⟩ := hc
      exact RelM.bind (H.generate _ _ _ ht _ hm hp) fun _ _ _ => RelM.pure ⟨trivial, rfl⟩
    | run => exact hc.elim
    | clear => exact hc.elim
  | run target maxIter =>
    cases c' with
    | run target' maxIter' =>
      obtain ⟨ht, rfl, hT⟩ := hc
      intro s s' h
      obtain ⟨hw, hk, hn⟩ := h
      by_cases h0 : s.walk = none
      · have h0' : s'.walk = none := by
          cases h : s'.walk with
          | none => rfl
          | some _ => rw [h0, h] at hk; exact hk.elim
        have e : ∀ (ω : Nat → K) (P : PObj K) (t : Option (Fl K)) (s : PState K), s.walk = none → ApiCall.act A F P ω (.run t maxIter) s = (.error .valueError, s) := by
          intro ω P t s hs
          unfold ApiCall.act runStmt
          exact PyM.error_run (by rw [PyM.read_run, hs]; rfl)
        rw [e _ _ _ _ h0, e _ _ _ _ h0']
        exact ⟨.error _, hw, hk, hn⟩
      · have hr : RelM (StRel W T) (fun (a b : Option (WalkData K) × List Nat) => OptRel (WalkRel T) a.1 b.1 ∧ a.2 = b.2)
            (ApiCall.act A F P ω (.run target maxIter)) (ApiCall.act A F P' ω' (.run target' maxIter)) :=
          RelM.bind (H.run ht hT maxIter) fun _ _ h => RelM.pure h
        obtain ⟨h1, h2, h3, h4⟩ := hr s s' ⟨hw, hk, hn.resolve_left h0⟩
        exact ⟨h1, h2, h3, .inr h4⟩
    | generate => exact hc.elim
    | clear => exact hc.elim
  | clear =>
    cases c' with
    | clear => exact fun s s' h => ⟨.ok ⟨trivial, rfl⟩, h.1, trivial, .inl rfl⟩
    | generate => exact hc.elim
    | run => exact hc.elim

theorem Alike.transcript (H : Alike A F ω ω' W T P P') {cs cs' : List (ApiCall K)} (hc : List.Forall₂ (CallRel A ω ω' T) cs cs') {s s' : PState K}
    (h : FutRel W T s s') : List.Forall₂ (SeenRel T) (transcript A F P ω cs s) (transcript A F P' ω' cs' s') := by
  induction hc generalizing s s' with
  | nil => exact .nil
  | @cons c c' cs cs' hcc _ ih =>
    simp only [Dorado.transcript]
    obtain ⟨h1, h2⟩ := H.act hcc s s' h
    exact .cons ⟨h1, h2.2.1, H.pos _ _ h2.1⟩ (ih h2)

end Dorado
