import Verif.Spec.Transform
import Verif.Lemmas.Local
import Verif.Lemmas.Exact

/-! Helper lemmas for C08 and C09. -/

set_option linter.unusedSectionVars false

namespace Dorado

open Finset

variable {K : Type} [Field K] [LinearOrder K] [IsStrictOrderedRing K]

/-! ### Flow-level symmetry -/

/-- Field `f'` around `(i,j)` is field `f` around `(i',j')` with neighbours permuted by `π`. -/
structure FlowSym (f f' : Flow K) (i j i' j' : Nat) (π : Nat → Nat) : Prop where
  perm : ∀ k, k < 9 → π k < 9 ∧ π (π k) = k
  depth : ∀ k, k < 9 → f'.depth (Flow.nr i k) (Flow.nc j k) = f.depth (Flow.nr i' (π k)) (Flow.nc j' (π k))
  stage0 : f'.stage i j = f.stage i' j'
  stage : ∀ k, k < 9 → f'.stage (Flow.nr i k) (Flow.nc j k) = f.stage (Flow.nr i' (π k)) (Flow.nc j' (π k))
  land : ∀ k, k < 9 → (f'.land (Flow.nr i k) (Flow.nc j k) ↔ f.land (Flow.nr i' (π k)) (Flow.nc j' (π k)))
  proj : ∀ k, k < 9 → f'.a i j * f'.rowVec k + f'.b i j * f'.colVec k =
    f.a i' j' * f.rowVec (π k) + f.b i' j' * f.colVec (π k)
  dist : ∀ k, k < 9 → f'.dist k = f.dist (π k)
  gamma : f'.gamma = f.gamma
  dry : f'.dry = f.dry
  pw : f'.pw = f.pw

theorem sum_perm {π : Nat → Nat} (hπ : ∀ k, k < 9 → π k < 9 ∧ π (π k) = k) {x y : Nat → K}
    (h : ∀ k, k < 9 → x k = y (π k)) : ∑ m ∈ range 9, x m = ∑ m ∈ range 9, y m := by
  refine sum_nbij' π π ?_ ?_ ?_ ?_ ?_
  · intro k hk; rw [mem_range] at hk ⊢; exact (hπ k hk).1
  · intro k hk; rw [mem_range] at hk ⊢; exact (hπ k hk).1
  · intro k hk; rw [mem_range] at hk; exact (hπ k hk).2
  · intro k hk; rw [mem_range] at hk; exact (hπ k hk).2
  · intro k hk; rw [mem_range] at hk; exact h k hk

section
variable {f f' : Flow K} {i j i' j' : Nat} {π : Nat → Nat} (S : FlowSym f f' i j i' j' π)
include S

theorem FlowSym.passable {k : Nat} (hk : k < 9) : f'.Passable i j k ↔ f.Passable i' j' (π k) := by
  unfold Flow.Passable; rw [S.dry, S.depth k hk, S.land k hk]

theorem FlowSym.slope {k : Nat} (hk : k < 9) : f'.slope i j k = f.slope i' j' (π k) := by
  unfold Flow.slope
  rw [S.stage0, S.stage k hk, S.dist k hk]
  rw [propext (S.passable hk)]

theorem FlowSym.inertia {k : Nat} (hk : k < 9) : f'.inertia i j k = f.inertia i' j' (π k) := by
  unfold Flow.inertia
  rw [S.proj k hk, S.dist k hk]
  rw [propext (S.passable hk)]

theorem FlowSym.flow {k : Nat} (hk : k < 9) : f'.flow i j k = f.flow i' j' (π k) := by
  unfold Flow.flow Flow.share
  rw [sum_perm S.perm (fun k hk => S.slope hk), sum_perm S.perm (fun k hk => S.inertia hk), S.slope hk, S.inertia hk,
    S.gamma, S.pw, S.depth k hk, S.stage0, S.stage k hk]
  rw [propext (S.passable hk)]

theorem FlowSym.weight {k : Nat} (hk : k < 9) : f'.weight i j k = f.weight i' j' (π k) := by
  have hd : f'.DeadEnd i j ↔ f.DeadEnd i' j' := by
    constructor <;> intro h m hm
    · have := h (π m) (S.perm m hm).1
      rwa [S.flow (S.perm m hm).1, (S.perm m hm).2] at this
    · rw [S.flow hm]; exact h _ (S.perm m hm).1
  have hdeep : f'.Deepest i j k ↔ f.Deepest i' j' (π k) := by
    constructor <;> intro h m hm
    · have := h (π m) (S.perm m hm).1
      rwa [S.depth _ (S.perm m hm).1, (S.perm m hm).2, S.depth k hk] at this
    · rw [S.depth m hm, S.depth k hk]; exact h _ (S.perm m hm).1
  unfold Flow.weight
  rw [propext hd, propext hdeep, S.flow hk]

end

/-! ### Scaling and datum shift at flow level -/

theorem share_scale {x y : Nat → K} {c : K} (hc : c ≠ 0) (h : ∀ k, k < 9 → y k = c * x k) {k : Nat} (hk : k < 9) :
    Flow.share y k = Flow.share x k := by
  unfold Flow.share
  have : ∑ m ∈ range 9, y m = c * ∑ m ∈ range 9, x m := by
    rw [mul_sum]
    exact sum_congr rfl fun m hm => h m (mem_range.1 hm)
  rw [this, h k hk, mul_div_mul_left _ _ hc]

theorem weight_of_flow {f f' : Flow K} {i j : Nat} (hf : ∀ k, k < 9 → f'.flow i j k = f.flow i j k)
    (hd : f'.depth = f.depth) {k : Nat} (hk : k < 9) : f'.weight i j k = f.weight i j k := by
  have hdead : f'.DeadEnd i j ↔ f.DeadEnd i j := by
    constructor <;> intro h m hm
    · rw [← hf m hm]; exact h m hm
    · rw [hf m hm]; exact h m hm
  have hdeep : f'.Deepest i j k ↔ f.Deepest i j k := by unfold Flow.Deepest; rw [hd]
  unfold Flow.weight
  rw [propext hdead, propext hdeep, hf k hk]

/-- Flow field with scaled discharge. -/
def Flow.scaled (f : Flow K) (c : K) : Flow K := { f with a := fun i j => c * f.a i j, b := fun i j => c * f.b i j }

theorem Flow.scaled_weight (f : Flow K) {c : K} (hc : 0 < c) {i j k : Nat} (hk : k < 9) :
    (f.scaled c).weight i j k = f.weight i j k := by
  refine weight_of_flow (f := f) (f' := f.scaled c) (fun k hk => ?_) rfl hk
  have hi : ∀ k, k < 9 → (f.scaled c).inertia i j k = c * f.inertia i j k := by
    intro k _
    unfold Flow.inertia
    by_cases hp : f.Passable i j k
    · rw [if_pos hp, if_pos (show (f.scaled c).Passable i j k from hp), mul_max_of_nonneg _ _ hc.le, mul_zero]
      congr 1
      simp only [Flow.scaled]
      ring
    · rw [if_neg hp, if_neg (show ¬ (f.scaled c).Passable i j k from hp), mul_zero]
  unfold Flow.flow
  rw [share_scale hc.ne' hi hk]
  rfl

/-- Flow field with shifted stage. -/
def Flow.shifted (f : Flow K) (c : K) : Flow K := { f with stage := fun i j => (f.stage i j).map (c + ·) }

theorem Flow.shifted_weight (f : Flow K) (c : K) {i j k : Nat} (hk : k < 9) :
    (f.shifted c).weight i j k = f.weight i j k := by
  refine weight_of_flow (f := f) (f' := f.shifted c) (fun k hk => ?_) rfl hk
  have hs : (f.shifted c).slope i j = f.slope i j := by
    funext k
    unfold Flow.slope
    have : Flow.drop ((f.shifted c).stage i j) ((f.shifted c).stage (nr i k) (nc j k)) ((f.shifted c).dist k) =
        Flow.drop (f.stage i j) (f.stage (nr i k) (nc j k)) (f.dist k) := by
      simp only [Flow.shifted]
      cases f.stage i j with
      | none => rfl
      | some e =>
        cases f.stage (nr i k) (nc j k) with
        | none => rfl
        | some e' => simp [Flow.drop]
    rw [this]
    rfl
  have h1 : ∀ a b, ((f.shifted c).stage a b).isSome = (f.stage a b).isSome := fun a b => Option.isSome_map ..
  unfold Flow.flow
  rw [hs, h1, h1]
  rfl

theorem Grid.ext' {α : Type} {g h : Grid α} (hr : g.rows = h.rows) (hc : g.cols = h.cols)
    (ha : ∀ i j, g.at' i j = h.at' i j) : g = h := by
  cases g; cases h
  simp only [Grid.mk.injEq] at *
  exact ⟨hr, hc, funext fun i => funext fun j => ha i j⟩

/-! ### Constructor: assembling an object -/

theorem init_mk {A : Arith K} {F : Fun K A} {p : Params K} {dx : K} {d s qx qy u v : Grid (Fl K)} {ct : Grid Int}
    (hdx : p.dx = some dx) (hd : initDepth A p = .ok d) (hs : initStage A p d = .ok s)
    (hf : initFlow A p d = .ok (qx, qy, u, v)) (hct : initCellType p d (p.dryDepth.getD (A.rnd (1 / 10))) = .ok ct)
    (hroi : checkRoi p d = .ok ()) :
    ∃ P, initParticles A F p = .ok P ∧ P.depth = d ∧ P.stage = s ∧ P.qx = qx ∧ P.qy = qy ∧ P.cellType = ct := by
  unfold initParticles
  simp only [initDx, hdx, hd, hs, hf, hct, hroi, bind, Except.bind, pure, Except.pure]
  exact ⟨_, rfl, rfl, rfl, rfl, rfl, rfl⟩

/-! ### Scaling at input level -/

section
variable (c : K)

private abbrev scaleG (g : Grid (Fl K)) : Grid (Fl K) := g.map (Arith.exact.mul (.fin c))

theorem scale_nanTo0 (x : Fl K) : (Arith.exact.mul (.fin c) x).nanTo0 = Arith.exact.mul (.fin c) x.nanTo0 ∨ c = 0 := by
  by_cases hc : c = 0
  · exact Or.inr hc
  · left
    cases x with
    | nan => simp [Arith.mul, Fl.nanTo0, Fl.isNan, Arith.exact]
    | fin x => rfl
    | pinf => by_cases h : 0 < c <;> simp [Arith.mul, Fl.nanTo0, Fl.isNan, Arith.infMul, hc, h]
    | ninf => by_cases h : 0 < c <;> simp [Arith.mul, Fl.nanTo0, Fl.isNan, Arith.infMul, hc, h, Fl.neg]

theorem scale_neg {c : K} (hc : 0 < c) (x : Fl K) : (Arith.exact.mul (.fin c) x).neg = Arith.exact.mul (.fin c) x.neg := by
  cases x <;> simp [Arith.mul, Fl.neg, Arith.infMul, hc, hc.ne', Arith.exact]

theorem scale_mul {c : K} (hc : 0 < c) (x y : Fl K) :
    Arith.exact.mul (Arith.exact.mul (.fin c) x) y = Arith.exact.mul (.fin c) (Arith.exact.mul x y) := by
  cases x with
  | nan => cases y <;> rfl
  | fin x =>
    cases y with
    | nan => rfl
    | fin y => simp [Arith.mul, Arith.exact, mul_assoc]
    | pinf =>
      rcases lt_trichotomy x 0 with h | h | h
      · have h2 : ¬ 0 < c * x := not_lt.2 (mul_nonpos_of_nonneg_of_nonpos hc.le h.le)
        simp [Arith.mul, Arith.infMul, Arith.exact, hc, hc.ne', h.ne, not_lt.2 h.le, h2, Fl.neg]
      · simp [Arith.mul, Arith.infMul, Arith.exact, h]
      · simp [Arith.mul, Arith.infMul, Arith.exact, hc, hc.ne', h.ne', h]
    | ninf =>
      rcases lt_trichotomy x 0 with h | h | h
      · have h2 : ¬ 0 < c * x := not_lt.2 (mul_nonpos_of_nonneg_of_nonpos hc.le h.le)
        simp [Arith.mul, Arith.infMul, Arith.exact, hc, hc.ne', h.ne, not_lt.2 h.le, h2, Fl.neg]
      · simp [Arith.mul, Arith.infMul, Arith.exact, h, Fl.neg]
      · simp [Arith.mul, Arith.infMul, Arith.exact, hc, hc.ne', h.ne', h, Fl.neg]
  | pinf =>
    cases y with
    | nan => simp [Arith.mul, Arith.infMul, hc, hc.ne']
    | fin y =>
      rcases lt_trichotomy y 0 with h | h | h
      · simp [Arith.mul, Arith.infMul, hc, hc.ne', h.ne, not_lt.2 h.le, Fl.neg]
      · simp [Arith.mul, Arith.infMul, hc, hc.ne', h]
      · simp [Arith.mul, Arith.infMul, hc, hc.ne', h.ne', h]
    | pinf => simp [Arith.mul, Arith.infMul, hc, hc.ne']
    | ninf => simp [Arith.mul, Arith.infMul, hc, hc.ne', Fl.neg]
  | ninf =>
    cases y with
    | nan => simp [Arith.mul, Arith.infMul, hc, hc.ne', Fl.neg]
    | fin y =>
      rcases lt_trichotomy y 0 with h | h | h
      · simp [Arith.mul, Arith.infMul, hc, hc.ne', h.ne, not_lt.2 h.le, Fl.neg]
      · simp [Arith.mul, Arith.infMul, hc, hc.ne', h, Fl.neg]
      · simp [Arith.mul, Arith.infMul, hc, hc.ne', h.ne', h, Fl.neg]
    | pinf => simp [Arith.mul, Arith.infMul, hc, hc.ne', Fl.neg]
    | ninf => simp [Arith.mul, Arith.infMul, hc, hc.ne', Fl.neg]

end

theorem scale_div {c : K} (hc : 0 < c) (x y : Fl K) :
    Arith.exact.div (Arith.exact.mul (.fin c) x) y = Arith.exact.mul (.fin c) (Arith.exact.div x y) := by
  cases x with
  | nan => cases y <;> rfl
  | fin x =>
    cases y with
    | nan => rfl
    | fin y =>
      by_cases hy : y = 0
      · rcases lt_trichotomy x 0 with h | h | h
        · have h2 : ¬ 0 < c * x := not_lt.2 (mul_nonpos_of_nonneg_of_nonpos hc.le h.le)
          simp [Arith.mul, Arith.div, Arith.infMul, Arith.exact, hy, hc, hc.ne', h.ne, not_lt.2 h.le, h2, Fl.neg]
        · simp [Arith.mul, Arith.div, Arith.exact, hy, h]
        · simp [Arith.mul, Arith.div, Arith.infMul, Arith.exact, hy, hc, hc.ne', h.ne', h]
      · simp [Arith.mul, Arith.div, Arith.exact, hy, mul_div_assoc]
    | pinf => simp [Arith.mul, Arith.div, Arith.exact]
    | ninf => simp [Arith.mul, Arith.div, Arith.exact]
  | pinf =>
    cases y with
    | nan => simp [Arith.mul, Arith.div, Arith.infMul, hc, hc.ne']
    | fin y => by_cases h : y < 0 <;> simp [Arith.mul, Arith.div, Arith.infMul, hc, hc.ne', h, Fl.neg]
    | pinf => simp [Arith.mul, Arith.div, Arith.infMul, hc, hc.ne']
    | ninf => simp [Arith.mul, Arith.div, Arith.infMul, hc, hc.ne']
  | ninf =>
    cases y with
    | nan => simp [Arith.mul, Arith.div, Arith.infMul, hc, hc.ne', Fl.neg]
    | fin y => by_cases h : y < 0 <;> simp [Arith.mul, Arith.div, Arith.infMul, hc, hc.ne', h, Fl.neg]
    | pinf => simp [Arith.mul, Arith.div, Arith.infMul, hc, hc.ne', Fl.neg]
    | ninf => simp [Arith.mul, Arith.div, Arith.infMul, hc, hc.ne', Fl.neg]

theorem nanZero_scale {c : K} (hc : 0 < c) (g : Grid (Fl K)) : nanZeroGrid (scaleG c g) = scaleG c (nanZeroGrid g) :=
  Grid.ext' rfl rfl fun _ _ => (scale_nanTo0 c _).resolve_right hc.ne'

theorem velFromQ_scale {c : K} (hc : 0 < c) (q d : Grid (Fl K)) : velFromQ Arith.exact (scaleG c q) d = scaleG c (velFromQ Arith.exact q d) := by
  unfold velFromQ
  rw [← nanZero_scale hc]
  congr 1
  refine Grid.ext' rfl rfl fun i j => ?_
  show Arith.exact.div (Arith.exact.mul (Arith.exact.mul (.fin c) (q.at' i j)) (d.at' i j)) _ = _
  rw [scale_mul hc, scale_div hc]
  rfl

theorem flowFromQ_scale {c : K} (hc : 0 < c) {a b d qx qy u v : Grid (Fl K)}
    (h : flowFromQ Arith.exact a b d = .ok (qx, qy, u, v)) :
    flowFromQ Arith.exact (scaleG c a) (scaleG c b) d = .ok (scaleG c qx, scaleG c qy, scaleG c u, scaleG c v) := by
  unfold flowFromQ at h ⊢
  simp only [bind_ok, pure_ok, Prod.mk.injEq] at h
  obtain ⟨x, hx, y, hy, rfl, rfl, rfl, rfl⟩ := h
  have hx' : needShape (scaleG c a) d = .ok x := hx
  have hy' : needShape (scaleG c b) d = .ok y := hy
  rw [hx', hy']
  simp only [bind, Except.bind, pure, Except.pure, nanZero_scale hc, velFromQ_scale hc]

theorem flowFromU_scale {c : K} (hc : 0 < c) {a b d qx qy u v : Grid (Fl K)}
    (h : flowFromU Arith.exact a b d = .ok (qx, qy, u, v)) :
    flowFromU Arith.exact (scaleG c a) (scaleG c b) d = .ok (scaleG c qx, scaleG c qy, scaleG c u, scaleG c v) := by
  unfold flowFromU at h ⊢
  simp only [bind_ok, pure_ok, Prod.mk.injEq] at h
  obtain ⟨x, hx, y, hy, rfl, rfl, rfl, rfl⟩ := h
  have hx' : needShape (scaleG c a) d = .ok x := hx
  have hy' : needShape (scaleG c b) d = .ok y := hy
  have hn : ∀ g : Grid (Fl K), Grid.zip Arith.exact.mul (scaleG c g) d = scaleG c (Grid.zip Arith.exact.mul g d) :=
    fun g => Grid.ext' rfl rfl fun i j => scale_mul hc _ _
  rw [hx', hy']
  simp only [bind, Except.bind, pure, Except.pure, nanZero_scale hc, hn]

theorem scaleG_neg {c : K} (hc : 0 < c) (g : Grid (Fl K)) : negGrid (scaleG c g) = scaleG c (negGrid g) := by
  exact Grid.ext' rfl rfl fun i j => scale_neg hc _

theorem initFlow_scale {c : K} (hc : 0 < c) {p : Params K} {d qx qy u v : Grid (Fl K)}
    (h : initFlow Arith.exact p d = .ok (qx, qy, u, v)) :
    initFlow Arith.exact (p.scaleFlow c) d = .ok (scaleG c qx, scaleG c qy, scaleG c u, scaleG c v) := by
  unfold initFlow at h ⊢
  simp only [Params.scaleFlow]
  cases e0 : p.deltaRCM <;> cases e1 : p.qx <;> cases e2 : p.qy <;> cases e3 : p.u <;> cases e4 : p.v <;>
    simp only [e0, e1, e2, e3, e4, Option.map_some, Option.map_none] at h ⊢ <;>
    first
    | cases h
    | (rw [scaleG_neg hc]; first | exact flowFromQ_scale hc h | exact flowFromU_scale hc h)
    | exact flowFromQ_scale hc h
    | exact flowFromU_scale hc h

/-! ### Datum shift at input level -/

section
variable (c : K)

private abbrev shiftG (g : Grid (Fl K)) : Grid (Fl K) := g.map (Arith.exact.add (.fin c))

theorem shift_sub (x y : Fl K) :
    Arith.exact.sub (Arith.exact.add (.fin c) x) (Arith.exact.add (.fin c) y) = Arith.exact.sub x y := by
  cases x <;> cases y <;> simp [Arith.sub, Arith.add, Fl.neg, Arith.exact]
  ring

theorem shift_add (x y : Fl K) :
    Arith.exact.add (Arith.exact.add (.fin c) x) y = Arith.exact.add (.fin c) (Arith.exact.add x y) := by
  cases x <;> cases y <;> simp [Arith.add, Arith.exact, add_assoc]

theorem initDepth_shift (p : Params K) : initDepth Arith.exact (p.shiftDatum c) = initDepth Arith.exact p := by
  unfold initDepth
  simp only [Params.shiftDatum]
  cases p.depth with
  | some d => rfl
  | none =>
    cases p.stage with
    | none => rfl
    | some s =>
      cases p.topography with
      | none => rfl
      | some t =>
        have h1 : needShape (shiftG c s) (shiftG c t) = needShape s t := rfl
        have h2 : Grid.zip Arith.exact.sub (shiftG c s) (shiftG c t) = Grid.zip Arith.exact.sub s t :=
          Grid.ext' rfl rfl fun i j => shift_sub c _ _
        simp only [Option.map_some, h1, h2]

theorem stageNan_shift (s d : Grid (Fl K)) : stageNan (shiftG c s) d = shiftG c (stageNan s d) := by
  refine Grid.ext' rfl rfl fun i j => ?_
  simp only [stageNan, Grid.zip, Grid.map]
  split <;> rfl

theorem initStage_shift {p : Params K} {d s : Grid (Fl K)} (h : initStage Arith.exact p d = .ok s) :
    initStage Arith.exact (p.shiftDatum c) d = .ok (shiftG c s) := by
  unfold initStage at h ⊢
  simp only [Params.shiftDatum]
  cases e1 : p.stage with
  | some s =>
    simp only [e1, bind_ok, pure_ok, Option.map_some] at h ⊢
    obtain ⟨u, hu, rfl⟩ := h
    exact ⟨u, hu, stageNan_shift c _ _⟩
  | none =>
    cases e2 : p.topography with
    | none => rw [e1, e2] at h; cases e3 : p.depth <;> rw [e3] at h <;> cases h
    | some t =>
      cases e3 : p.depth with
      | none => rw [e1, e2, e3] at h; cases h
      | some d0 =>
        simp only [e1, e2, e3, bind_ok, pure_ok, Option.map_some, Option.map_none] at h ⊢
        obtain ⟨u, hu, rfl⟩ := h
        refine ⟨u, hu, ?_⟩
        rw [← stageNan_shift]
        congr 1
        exact Grid.ext' rfl rfl fun i j => shift_add c _ _

end

/-! ### Mirroring at input level -/

/-- Re-indexing of a grid, optionally swapping the shape. -/
def gact (swap : Bool) (φ : Nat → Nat → Nat → Nat → Nat × Nat) {α : Type} (g : Grid α) : Grid α :=
  ⟨cond swap g.cols g.rows, cond swap g.rows g.cols,
    fun i j => g.at' (φ g.rows g.cols i j).1 (φ g.rows g.cols i j).2⟩

section
variable {swap : Bool} {φ : Nat → Nat → Nat → Nat → Nat × Nat}

theorem gact_zip {α β γ : Type} (f : α → β → γ) {g : Grid α} {h : Grid β} (hr : g.rows = h.rows) (hc : g.cols = h.cols) :
    Grid.zip f (gact swap φ g) (gact swap φ h) = gact swap φ (Grid.zip f g h) := by
  refine Grid.ext' rfl rfl fun i j => ?_
  simp only [Grid.zip, gact, hr, hc]

theorem gact_map {α β : Type} (f : α → β) (g : Grid α) : (gact swap φ g).map f = gact swap φ (g.map f) := rfl

theorem gact_shape {α β : Type} {g : Grid α} {h : Grid β} {u : Unit} (hs : needShape g h = .ok u) :
    needShape (gact swap φ g) (gact swap φ h) = .ok u := by
  obtain ⟨hr, hc⟩ := needShape_ok.1 hs
  unfold needShape Grid.sameShape
  cases swap <;> simp [gact, hr, hc]

/-- Internal discharge component computed from an input array (discharge if `isQ`, else velocity). -/
def qComp (A : Arith K) (isQ : Bool) (a d : Grid (Fl K)) : Grid (Fl K) :=
  cond isQ (nanZeroGrid a) (Grid.zip A.mul (nanZeroGrid a) d)

/-- The external pair of flow arrays used by the constructor. -/
def FlowInput (p : Params K) (isQ : Bool) (ex ey : Grid (Fl K)) : Prop :=
  (isQ = true ∧ p.qx = some ex ∧ p.qy = some ey) ∨
  (isQ = false ∧ (p.qx = none ∨ p.qy = none) ∧ p.u = some ex ∧ p.v = some ey)

theorem initFlow_parts {A : Arith K} {p : Params K} {d qx qy u v : Grid (Fl K)} (h : initFlow A p d = .ok (qx, qy, u, v)) :
    ∃ isQ ex ey, FlowInput p isQ ex ey ∧ needShape ex d = .ok () ∧ needShape ey d = .ok () ∧
      qx = qComp A isQ (cond p.deltaRCM ex (negGrid ey)) d ∧ qy = qComp A isQ (cond p.deltaRCM ey ex) d ∧
      u = cond isQ (velFromQ A qx d) (nanZeroGrid (cond p.deltaRCM ex (negGrid ey))) ∧
      v = cond isQ (velFromQ A qy d) (nanZeroGrid (cond p.deltaRCM ey ex)) := by
  unfold initFlow at h
  cases e0 : p.deltaRCM <;> cases e1 : p.qx <;> cases e2 : p.qy <;> cases e3 : p.u <;> cases e4 : p.v <;>
    simp only [e0, e1, e2, e3, e4] at h <;>
    first
    | cases h
    | (unfold flowFromQ at h
       simp only [bind_ok, pure_ok, Prod.mk.injEq] at h
       obtain ⟨x, hx, y, hy, rfl, rfl, rfl, rfl⟩ := h
       refine ⟨true, _, _, Or.inl ⟨rfl, e1, e2⟩, ?_, ?_, rfl, rfl, rfl, rfl⟩ <;> first | exact hx | exact hy)
    | (unfold flowFromU at h
       simp only [bind_ok, pure_ok, Prod.mk.injEq] at h
       obtain ⟨x, hx, y, hy, rfl, rfl, rfl, rfl⟩ := h
       refine ⟨false, _, _, Or.inr ⟨rfl, by simp [e1, e2], e3, e4⟩, ?_, ?_, rfl, rfl, rfl, rfl⟩ <;>
         first | exact hx | exact hy)

theorem initFlow_mk {A : Arith K} {p : Params K} {d : Grid (Fl K)} {isQ : Bool} {ex ey : Grid (Fl K)}
    (hi : FlowInput p isQ ex ey) (hx : needShape ex d = .ok ()) (hy : needShape ey d = .ok ()) :
    ∃ u v, initFlow A p d = .ok (qComp A isQ (cond p.deltaRCM ex (negGrid ey)) d, qComp A isQ (cond p.deltaRCM ey ex) d, u, v) := by
  have shapeNeg : ∀ {g : Grid (Fl K)} {x : Unit}, needShape g d = .ok x → needShape (negGrid g) d = .ok x := fun h => h
  unfold initFlow
  rcases hi with ⟨rfl, h1, h2⟩ | ⟨rfl, h1, h3, h4⟩
  · cases e0 : p.deltaRCM <;> simp only [h1, h2, flowFromQ, hx, shapeNeg hy, hy, bind, Except.bind, pure, Except.pure] <;>
      exact ⟨_, _, rfl⟩
  · cases e0 : p.deltaRCM <;> cases e1 : p.qx <;> cases e2 : p.qy <;>
      simp only [h3, h4, flowFromU, hx, shapeNeg hy, hy, bind, Except.bind, pure, Except.pure] <;>
      first
      | exact ⟨_, _, rfl⟩
      | (rw [e1, e2] at h1; simp at h1)

theorem neg_nanTo0 (x : Fl K) : x.neg.nanTo0 = x.nanTo0.neg := by
  cases x <;> simp [Fl.neg, Fl.nanTo0, Fl.isNan]

theorem neg_neg' (x : Fl K) : x.neg.neg = x := by
  cases x <;> simp [Fl.neg]

theorem neg_mul' (x y : Fl K) : Arith.exact.mul x.neg y = (Arith.exact.mul x y).neg := by
  have hinf : ∀ a : K, (Arith.infMul (-a)) = (Arith.infMul a).neg := by
    intro a
    unfold Arith.infMul
    rcases lt_trichotomy a 0 with h | h | h
    · simp [h.ne, h, not_lt.2 h.le, Fl.neg]
    · simp [h, Fl.neg]
    · simp [h.ne', h, not_lt.2 h.le, Fl.neg]
  cases x <;> cases y <;> simp only [Arith.mul, Fl.neg, hinf, Arith.exact, id, neg_mul]
  · rename_i a; generalize Arith.infMul a = z; cases z <;> simp

theorem qComp_act (A : Arith K) (isQ : Bool) {a d : Grid (Fl K)} {u : Unit} (h : needShape a d = .ok u) :
    qComp A isQ (gact swap φ a) (gact swap φ d) = gact swap φ (qComp A isQ a d) := by
  obtain ⟨hr, hc⟩ := needShape_ok.1 h
  cases isQ
  · exact gact_zip (g := nanZeroGrid a) A.mul hr hc
  · rfl

theorem qComp_neg (isQ : Bool) (a d : Grid (Fl K)) :
    qComp Arith.exact isQ (negGrid a) d = negGrid (qComp Arith.exact isQ a d) := by
  cases isQ
  · refine Grid.ext' rfl rfl fun i j => ?_
    show Arith.exact.mul (a.at' i j).neg.nanTo0 (d.at' i j) = (Arith.exact.mul (a.at' i j).nanTo0 (d.at' i j)).neg
    rw [neg_nanTo0, neg_mul']
  · exact Grid.ext' rfl rfl fun i j => neg_nanTo0 _

theorem negGrid_negGrid (a : Grid (Fl K)) : negGrid (negGrid a) = a := Grid.ext' rfl rfl fun _ _ => neg_neg' _

/-- `p'` is `p` with all cell-wise inputs but the flow re-indexed. -/
structure ActParams (swap : Bool) (φ : Nat → Nat → Nat → Nat → Nat × Nat) (p p' : Params K) : Prop where
  dx : p'.dx = p.dx
  depth : p'.depth = p.depth.map (gact swap φ)
  stage : p'.stage = p.stage.map (gact swap φ)
  topography : p'.topography = p.topography.map (gact swap φ)
  cellType : p'.cellType = p.cellType.map (gact swap φ)
  roi : p'.roi = p.roi.map (gact swap φ)
  theta : p'.theta = p.theta
  gamma : p'.gamma = p.gamma
  dry : p'.dryDepth = p.dryDepth
  distances : p'.distances = p.distances
  ivec : p'.ivec = p.ivec
  jvec : p'.jvec = p.jvec

theorem initDepth_act {A : Arith K} {p p' : Params K} (H : ActParams swap φ p p') {d : Grid (Fl K)}
    (h : initDepth A p = .ok d) : initDepth A p' = .ok (gact swap φ d) := by
  unfold initDepth at h ⊢
  rw [H.depth, H.stage, H.topography]
  cases e1 : p.depth with
  | some d0 =>
    simp only [e1] at h
    cases h
    rfl
  | none =>
    cases e2 : p.stage with
    | none => simp only [e1, e2] at h; cases h
    | some s =>
      cases e3 : p.topography with
      | none => simp only [e1, e2, e3] at h; cases h
      | some t =>
        simp only [e1, e2, e3, bind_ok, pure_ok] at h
        obtain ⟨u, hu, rfl⟩ := h
        obtain ⟨hr, hc⟩ := needShape_ok.1 hu
        simp only [Option.map_some, Option.map_none, bind_ok, pure_ok]
        refine ⟨u, gact_shape hu, ?_⟩
        rw [gact_zip A.sub hr hc]
        rfl

theorem initStage_act {A : Arith K} {p p' : Params K} (H : ActParams swap φ p p') {d s : Grid (Fl K)}
    (h : initStage A p d = .ok s) : initStage A p' (gact swap φ d) = .ok (gact swap φ s) := by
  unfold initStage at h ⊢
  rw [H.depth, H.stage, H.topography]
  cases e1 : p.stage with
  | some s0 =>
    simp only [e1, bind_ok, pure_ok] at h
    obtain ⟨u, hu, rfl⟩ := h
    obtain ⟨hr, hc⟩ := needShape_ok.1 hu
    simp only [Option.map_some, bind_ok, pure_ok]
    refine ⟨u, gact_shape hu, ?_⟩
    unfold stageNan
    rw [gact_zip _ hr hc]
  | none =>
    cases e2 : p.topography with
    | none => simp only [e1, e2] at h; cases h
    | some t =>
      cases e3 : p.depth with
      | none => simp only [e1, e2, e3] at h; cases h
      | some d0 =>
        simp only [e1, e2, e3, bind_ok, pure_ok] at h
        obtain ⟨u, hu, rfl⟩ := h
        obtain ⟨hr, hc⟩ := needShape_ok.1 hu
        simp only [Option.map_some, Option.map_none, bind_ok, pure_ok]
        refine ⟨u, gact_shape hu, ?_⟩
        unfold stageNan
        rw [gact_zip A.add hr hc, gact_zip (g := Grid.zip A.add t d) _ hr hc]

theorem init_act {F : Fun K Arith.exact}
    (hφ : ∀ L W i j, i < cond swap W L → j < cond swap L W →
      interiorB (cond swap W L) (cond swap L W) i j = interiorB L W (φ L W i j).1 (φ L W i j).2)
    {p p' : Params K} (H : ActParams swap φ p p') {P : PObj K} (hP : initParticles Arith.exact F p = .ok P)
    {qx' qy' : Grid (Fl K)}
    (hflow : ∀ u v, initFlow Arith.exact p P.depth = .ok (P.qx, P.qy, u, v) →
      ∃ u' v', initFlow Arith.exact p' (gact swap φ P.depth) = .ok (qx', qy', u', v')) :
    ∃ P', initParticles Arith.exact F p' = .ok P' ∧ P'.depth = gact swap φ P.depth ∧ P'.stage = gact swap φ P.stage ∧
      P'.qx = qx' ∧ P'.qy = qy' ∧
      (∀ i j, i < cond swap P.depth.cols P.depth.rows → j < cond swap P.depth.rows P.depth.cols →
        P'.cellType.at' i j = P.cellType.at' (φ P.depth.rows P.depth.cols i j).1 (φ P.depth.rows P.depth.cols i j).2) ∧
      P'.theta = P.theta ∧ P'.gamma = P.gamma ∧ P'.dryDepth = P.dryDepth ∧ P'.distances = P.distances ∧
      P'.ivec = P.ivec ∧ P'.jvec = P.jvec := by
  obtain ⟨u, v, X⟩ := init_parts _ _ hP
  obtain ⟨u', v', hf⟩ := hflow u v X.flow
  have hct : ∃ ct, initCellType p' (gact swap φ P.depth) (p'.dryDepth.getD (Arith.exact.rnd (1 / 10))) = .ok ct ∧
      ∀ i j, i < cond swap P.depth.cols P.depth.rows → j < cond swap P.depth.rows P.depth.cols →
        ct.at' i j = P.cellType.at' (φ P.depth.rows P.depth.cols i j).1 (φ P.depth.rows P.depth.cols i j).2 := by
    rw [H.dry]
    obtain ⟨e, hr, hc, h1, h2⟩ | ⟨e, h1, h2, h⟩ := initCellType_ok.1 X.ct
    · refine ⟨gact swap φ P.cellType, initCellType_ok.2 (Or.inl ⟨by rw [H.cellType, e]; rfl, ?_⟩), ?_⟩
      · cases swap
        · exact ⟨hr, hc, h1, h2⟩
        · exact ⟨hc, hr, h2, h1⟩
      · intro i j _ _
        simp only [gact, hr, hc]
    · refine ⟨_, initCellType_ok.2 (Or.inr ⟨by rw [H.cellType, e]; rfl, ?_, ?_, rfl⟩), fun i j hi hj => ?_⟩
      · cases swap
        · exact h1
        · exact h2
      · cases swap
        · exact h2
        · exact h1
      rw [h, X.dry]
      simp only [defaultCellType]
      have := hφ P.depth.rows P.depth.cols i j hi hj
      rw [show (gact swap φ P.depth).rows = cond swap P.depth.cols P.depth.rows from rfl,
        show (gact swap φ P.depth).cols = cond swap P.depth.rows P.depth.cols from rfl, this]
      rfl
  obtain ⟨ct, hct, hct'⟩ := hct
  have hroi : checkRoi p' (gact swap φ P.depth) = .ok () := by
    have h := X.roiShape
    unfold checkRoi at h ⊢
    rw [H.roi]
    cases e : p.roi with
    | none => rfl
    | some g => simp only [e] at h; exact gact_shape h
  obtain ⟨P', hP', h1, h2, h3, h4, h5⟩ := init_mk (F := F) (by rw [H.dx, X.dx]) (initDepth_act H X.depth)
    (initStage_act H X.stage) hf hct hroi
  obtain ⟨u2, v2, X'⟩ := init_parts _ _ hP'
  refine ⟨P', hP', h1, h2, h3, h4, ?_, ?_, ?_, ?_, ?_, ?_, ?_⟩
  · rw [h5]; exact hct'
  · rw [X'.theta, X.theta, H.theta]
  · rw [X'.gamma, X.gamma, H.gamma]
  · rw [X'.dry, X.dry, H.dry]
  · rw [X'.distances, X.distances, H.distances]
  · rw [X'.ivec, X.ivec, H.ivec]
  · rw [X'.jvec, X.jvec, H.jvec]

theorem FinOrNan.gact (hφ : ∀ L W i j, i < cond swap W L → j < cond swap L W → (φ L W i j).1 < L ∧ (φ L W i j).2 < W)
    {g : Grid (Fl K)} (h : g.FinOrNan) : (gact swap φ g).FinOrNan := by
  intro i j hi hj
  obtain ⟨h1, h2⟩ := hφ g.rows g.cols i j hi hj
  exact h _ _ h1 h2

theorem FinOrNan.neg {g : Grid (Fl K)} (h : g.FinOrNan) : (g.map Fl.neg).FinOrNan := by
  intro i j hi hj
  rcases h i j hi hj with h | ⟨x, h⟩
  · left; simp [Grid.map, h, Fl.neg]
  · right; exact ⟨-x, by simp [Grid.map, h, Fl.neg]⟩

end

/-! ### The three symmetries -/

/-- index map of the left-right mirror -/
def phiLR : Nat → Nat → Nat → Nat → Nat × Nat := fun _ W i j => (i, W - 1 - j)
/-- index map of the up-down mirror -/
def phiUD : Nat → Nat → Nat → Nat → Nat × Nat := fun L _ i j => (L - 1 - i, j)
/-- index map of the transposition -/
def phiT : Nat → Nat → Nat → Nat → Nat × Nat := fun _ _ i j => (j, i)

theorem actLR (p : Params K) : ActParams false phiLR p p.mirrorLR :=
  ⟨rfl, rfl, rfl, rfl, rfl, rfl, rfl, rfl, rfl, rfl, rfl, rfl⟩
theorem actUD (p : Params K) : ActParams false phiUD p p.mirrorUD :=
  ⟨rfl, rfl, rfl, rfl, rfl, rfl, rfl, rfl, rfl, rfl, rfl, rfl⟩
theorem actT (p : Params K) : ActParams true phiT p p.transpose :=
  ⟨rfl, rfl, rfl, rfl, rfl, rfl, rfl, rfl, rfl, rfl, rfl, rfl⟩

theorem finLR {g : Grid (Fl K)} (h : g.FinOrNan) : g.flipLR.FinOrNan :=
  FinOrNan.gact (swap := false) (φ := phiLR) (fun L W i j hi hj => by simp only [phiLR, cond] at *; omega) h
theorem finUD {g : Grid (Fl K)} (h : g.FinOrNan) : g.flipUD.FinOrNan :=
  FinOrNan.gact (swap := false) (φ := phiUD) (fun L W i j hi hj => by simp only [phiUD, cond] at *; omega) h
theorem finT {g : Grid (Fl K)} (h : g.FinOrNan) : g.transp.FinOrNan :=
  FinOrNan.gact (swap := true) (φ := phiT) (fun L W i j hi hj => by simp only [phiT, cond] at *; omega) h

theorem valid_map {o : Option (Grid (Fl K))} {f : Grid (Fl K) → Grid (Fl K)} (h : ∀ g, o = some g → g.FinOrNan)
    (hf : ∀ g : Grid (Fl K), g.FinOrNan → (f g).FinOrNan) : ∀ g, o.map f = some g → g.FinOrNan := by
  intro g hg
  rw [Option.map_eq_some_iff] at hg
  obtain ⟨a, ha, rfl⟩ := hg
  exact hf _ (h _ ha)

theorem valid_ite {b : Bool} {o o' : Option (Grid (Fl K))} (h : ∀ g, o = some g → g.FinOrNan)
    (h' : ∀ g, o' = some g → g.FinOrNan) : ∀ g, (if b then o else o') = some g → g.FinOrNan := by
  intro g hg
  cases b
  · exact h' g hg
  · exact h g hg

theorem validLR {p : Params K} (h : ValidParams p) : ValidParams p.mirrorLR where
  depth := valid_map h.depth fun _ => finLR
  stage := valid_map h.stage fun _ => finLR
  topography := valid_map h.topography fun _ => finLR
  qx := valid_ite (valid_map h.qx fun _ => finLR) (valid_map h.qx fun _ h => FinOrNan.neg (finLR h))
  qy := valid_ite (valid_map h.qy fun _ h => FinOrNan.neg (finLR h)) (valid_map h.qy fun _ => finLR)
  u := valid_ite (valid_map h.u fun _ => finLR) (valid_map h.u fun _ h => FinOrNan.neg (finLR h))
  v := valid_ite (valid_map h.v fun _ h => FinOrNan.neg (finLR h)) (valid_map h.v fun _ => finLR)
  gamma := h.gamma
  dryDepth := h.dryDepth
  distances := h.distances
  ivec := h.ivec
  jvec := h.jvec

theorem validUD {p : Params K} (h : ValidParams p) : ValidParams p.mirrorUD where
  depth := valid_map h.depth fun _ => finUD
  stage := valid_map h.stage fun _ => finUD
  topography := valid_map h.topography fun _ => finUD
  qx := valid_ite (valid_map h.qx fun _ h => FinOrNan.neg (finUD h)) (valid_map h.qx fun _ => finUD)
  qy := valid_ite (valid_map h.qy fun _ => finUD) (valid_map h.qy fun _ h => FinOrNan.neg (finUD h))
  u := valid_ite (valid_map h.u fun _ h => FinOrNan.neg (finUD h)) (valid_map h.u fun _ => finUD)
  v := valid_ite (valid_map h.v fun _ => finUD) (valid_map h.v fun _ h => FinOrNan.neg (finUD h))
  gamma := h.gamma
  dryDepth := h.dryDepth
  distances := h.distances
  ivec := h.ivec
  jvec := h.jvec

theorem validT {p : Params K} (h : ValidParams p) : ValidParams p.transpose where
  depth := valid_map h.depth fun _ => finT
  stage := valid_map h.stage fun _ => finT
  topography := valid_map h.topography fun _ => finT
  qx := valid_ite (valid_map h.qy fun _ => finT) (valid_map h.qy fun _ h => FinOrNan.neg (finT h))
  qy := valid_ite (valid_map h.qx fun _ => finT) (valid_map h.qx fun _ h => FinOrNan.neg (finT h))
  u := valid_ite (valid_map h.v fun _ => finT) (valid_map h.v fun _ h => FinOrNan.neg (finT h))
  v := valid_ite (valid_map h.u fun _ => finT) (valid_map h.u fun _ h => FinOrNan.neg (finT h))
  gamma := h.gamma
  dryDepth := h.dryDepth
  distances := h.distances
  ivec := h.ivec
  jvec := h.jvec

theorem flowLR {p : Params K} {d qx qy u v : Grid (Fl K)} (h : initFlow Arith.exact p d = .ok (qx, qy, u, v)) :
    ∃ u' v', initFlow Arith.exact p.mirrorLR (gact false phiLR d) =
      .ok (gact false phiLR qx, negGrid (gact false phiLR qy), u', v') := by
  obtain ⟨isQ, ex, ey, hi, hx, hy, rfl, rfl, -, -⟩ := initFlow_parts h
  have hx' : needShape (gact false phiLR ex) (gact false phiLR d) = .ok () := gact_shape hx
  have hy' : needShape (gact false phiLR ey) (gact false phiLR d) = .ok () := gact_shape hy
  have hneg : needShape (negGrid ey) d = .ok () := hy
  cases e : p.deltaRCM with
  | true =>
    have hi' : FlowInput p.mirrorLR isQ (gact false phiLR ex) (negGrid (gact false phiLR ey)) := by
      unfold FlowInput Params.mirrorLR at *
      rcases hi with ⟨h0, h1, h2⟩ | ⟨h0, h1, h2, h3⟩
      · left; simp only [e, h1, h2, if_true]; exact ⟨h0, rfl, rfl⟩
      · right; simp only [e, h2, h3, if_true, Option.map_eq_none_iff]; exact ⟨h0, h1, rfl, rfl⟩
    obtain ⟨u', v', hf⟩ := initFlow_mk (A := Arith.exact) hi' hx' (show needShape (negGrid _) _ = _ from hy')
    refine ⟨u', v', ?_⟩
    rw [hf, show p.mirrorLR.deltaRCM = true from e]
    simp only [cond]
    rw [qComp_neg, qComp_act _ _ hx, qComp_act _ _ hy]
  | false =>
    have hi' : FlowInput p.mirrorLR isQ (negGrid (gact false phiLR ex)) (gact false phiLR ey) := by
      unfold FlowInput Params.mirrorLR at *
      rcases hi with ⟨h0, h1, h2⟩ | ⟨h0, h1, h2, h3⟩
      · left; simp only [e, h1, h2, Bool.false_eq_true, if_false]; exact ⟨h0, rfl, rfl⟩
      · right; simp only [e, h2, h3, Bool.false_eq_true, if_false, Option.map_eq_none_iff]; exact ⟨h0, h1, rfl, rfl⟩
    obtain ⟨u', v', hf⟩ := initFlow_mk (A := Arith.exact) hi' (show needShape (negGrid _) _ = _ from hx') hy'
    refine ⟨u', v', ?_⟩
    rw [hf, show p.mirrorLR.deltaRCM = false from e]
    simp only [cond]
    rw [qComp_neg isQ (gact false phiLR ex), qComp_act _ _ hx,
      show negGrid (gact false phiLR ey) = gact false phiLR (negGrid ey) from rfl, qComp_act _ _ hneg]

theorem flowUD {p : Params K} {d qx qy u v : Grid (Fl K)} (h : initFlow Arith.exact p d = .ok (qx, qy, u, v)) :
    ∃ u' v', initFlow Arith.exact p.mirrorUD (gact false phiUD d) =
      .ok (negGrid (gact false phiUD qx), gact false phiUD qy, u', v') := by
  obtain ⟨isQ, ex, ey, hi, hx, hy, rfl, rfl, -, -⟩ := initFlow_parts h
  have hx' : needShape (gact false phiUD ex) (gact false phiUD d) = .ok () := gact_shape hx
  have hy' : needShape (gact false phiUD ey) (gact false phiUD d) = .ok () := gact_shape hy
  have hneg : needShape (negGrid ey) d = .ok () := hy
  cases e : p.deltaRCM with
  | true =>
    have hi' : FlowInput p.mirrorUD isQ (negGrid (gact false phiUD ex)) (gact false phiUD ey) := by
      unfold FlowInput Params.mirrorUD at *
      rcases hi with ⟨h0, h1, h2⟩ | ⟨h0, h1, h2, h3⟩
      · left; simp only [e, h1, h2, if_true]; exact ⟨h0, rfl, rfl⟩
      · right; simp only [e, h2, h3, if_true, Option.map_eq_none_iff]; exact ⟨h0, h1, rfl, rfl⟩
    obtain ⟨u', v', hf⟩ := initFlow_mk (A := Arith.exact) hi' (show needShape (negGrid _) _ = _ from hx') hy'
    refine ⟨u', v', ?_⟩
    rw [hf, show p.mirrorUD.deltaRCM = true from e]
    simp only [cond]
    rw [qComp_neg, qComp_act _ _ hx, qComp_act _ _ hy]
  | false =>
    have hi' : FlowInput p.mirrorUD isQ (gact false phiUD ex) (negGrid (gact false phiUD ey)) := by
      unfold FlowInput Params.mirrorUD at *
      rcases hi with ⟨h0, h1, h2⟩ | ⟨h0, h1, h2, h3⟩
      · left; simp only [e, h1, h2, Bool.false_eq_true, if_false]; exact ⟨h0, rfl, rfl⟩
      · right; simp only [e, h2, h3, Bool.false_eq_true, if_false, Option.map_eq_none_iff]; exact ⟨h0, h1, rfl, rfl⟩
    obtain ⟨u', v', hf⟩ := initFlow_mk (A := Arith.exact) hi' hx' (show needShape (negGrid _) _ = _ from hy')
    refine ⟨u', v', ?_⟩
    rw [hf, show p.mirrorUD.deltaRCM = false from e]
    simp only [cond]
    rw [qComp_act _ _ hx, qComp_neg, show negGrid (gact false phiUD ey) = gact false phiUD (negGrid ey) from rfl,
      qComp_act _ _ hneg]

theorem flowT {p : Params K} {d qx qy u v : Grid (Fl K)} (h : initFlow Arith.exact p d = .ok (qx, qy, u, v)) :
    ∃ u' v', initFlow Arith.exact p.transpose (gact true phiT d) =
      .ok (gact true phiT qy, gact true phiT qx, u', v') := by
  obtain ⟨isQ, ex, ey, hi, hx, hy, rfl, rfl, -, -⟩ := initFlow_parts h
  have hx' : needShape (gact true phiT ex) (gact true phiT d) = .ok () := gact_shape hx
  have hy' : needShape (gact true phiT ey) (gact true phiT d) = .ok () := gact_shape hy
  have hneg : needShape (negGrid ey) d = .ok () := hy
  cases e : p.deltaRCM with
  | true =>
    have hi' : FlowInput p.transpose isQ (gact true phiT ey) (gact true phiT ex) := by
      unfold FlowInput Params.transpose at *
      rcases hi with ⟨h0, h1, h2⟩ | ⟨h0, h1, h2, h3⟩
      · left; simp only [e, h1, h2, if_true]; exact ⟨h0, rfl, rfl⟩
      · right; simp only [e, h2, h3, if_true, Option.map_eq_none_iff]; exact ⟨h0, h1.symm, rfl, rfl⟩
    obtain ⟨u', v', hf⟩ := initFlow_mk (A := Arith.exact) hi' hy' hx'
    refine ⟨u', v', ?_⟩
    rw [hf, show p.transpose.deltaRCM = true from e]
    simp only [cond]
    rw [qComp_act _ _ hx, qComp_act _ _ hy]
  | false =>
    have hi' : FlowInput p.transpose isQ (negGrid (gact true phiT ey)) (negGrid (gact true phiT ex)) := by
      unfold FlowInput Params.transpose at *
      rcases hi with ⟨h0, h1, h2⟩ | ⟨h0, h1, h2, h3⟩
      · left; simp only [e, h1, h2, Bool.false_eq_true, if_false]; exact ⟨h0, rfl, rfl⟩
      · right; simp only [e, h2, h3, Bool.false_eq_true, if_false, Option.map_eq_none_iff]; exact ⟨h0, h1.symm, rfl, rfl⟩
    obtain ⟨u', v', hf⟩ := initFlow_mk (A := Arith.exact) hi' (show needShape (negGrid _) _ = _ from hy')
      (show needShape (negGrid _) _ = _ from hx')
    refine ⟨u', v', ?_⟩
    rw [hf, show p.transpose.deltaRCM = false from e]
    simp only [cond]
    rw [negGrid_negGrid, qComp_act _ _ hx, show negGrid (gact true phiT ey) = gact true phiT (negGrid ey) from rfl,
      qComp_act _ _ hneg]

/-! ### From re-indexed objects to symmetric flow fields -/

theorem gact_at {swap : Bool} {φ : Nat → Nat → Nat → Nat → Nat × Nat} {α : Type} (g : Grid α) (i j : Nat) :
    (gact swap φ g).at' i j = g.at' (φ g.rows g.cols i j).1 (φ g.rows g.cols i j).2 := rfl

theorem num_neg (x : Fl K) : x.neg.num = - x.num := by cases x <;> simp [Fl.neg, Fl.num]

theorem flow_shape {A : Arith K} {F : Fun K A} {p : Params K} {P : PObj K} (hP : initParticles A F p = .ok P) :
    P.qx.rows = P.depth.rows ∧ P.qx.cols = P.depth.cols ∧ P.qy.rows = P.depth.rows ∧ P.qy.cols = P.depth.cols := by
  obtain ⟨u, v, X⟩ := init_parts _ _ hP
  obtain ⟨isQ, ex, ey, -, hx, hy, h1, h2, -, -⟩ := initFlow_parts X.flow
  obtain ⟨a1, a2⟩ := needShape_ok.1 hx
  obtain ⟨b1, b2⟩ := needShape_ok.1 hy
  rw [h1, h2]
  cases isQ <;> cases p.deltaRCM <;> exact ⟨by assumption, by assumption, by assumption, by assumption⟩

theorem act_flowSym {F : Fun K Arith.exact} {swap : Bool} {φ : Nat → Nat → Nat → Nat → Nat × Nat} {P P' : PObj K} (G : Good P)
    (h1 : P'.depth = gact swap φ P.depth) (h2 : P'.stage = gact swap φ P.stage)
    (h5 : ∀ i j, i < cond swap P.depth.cols P.depth.rows → j < cond swap P.depth.rows P.depth.cols →
        P'.cellType.at' i j = P.cellType.at' (φ P.depth.rows P.depth.cols i j).1 (φ P.depth.rows P.depth.cols i j).2)
    (h6 : P'.theta = P.theta) (h7 : P'.gamma = P.gamma) (h8 : P'.dryDepth = P.dryDepth)
    {i j i' j' : Nat} {π : Nat → Nat} (hπ : ∀ k, k < 9 → π k < 9 ∧ π (π k) = k)
    (hij : φ P.depth.rows P.depth.cols i j = (i', j'))
    (hn : ∀ k, k < 9 → Flow.nr i k < cond swap P.depth.cols P.depth.rows ∧ Flow.nc j k < cond swap P.depth.rows P.depth.cols ∧
      φ P.depth.rows P.depth.cols (Flow.nr i k) (Flow.nc j k) = (Flow.nr i' (π k), Flow.nc j' (π k)))
    (hproj : ∀ k, k < 9 → (P'.qx.at' i j).num * (P'.jvec k).num + (P'.qy.at' i j).num * (P'.ivec k).num =
      (P.qx.at' i' j').num * (P.jvec (π k)).num + (P.qy.at' i' j').num * (P.ivec (π k)).num)
    (hdist : ∀ k, k < 9 → P'.distances k = P.distances (π k)) :
    FlowSym (flowOf F P) (flowOf F P') i j i' j' π := by
  refine ⟨hπ, ?_, ?_, ?_, ?_, hproj, ?_, h7, h8, ?_⟩
  · intro k hk
    simp only [flowOf]
    rw [h1, gact_at, (hn k hk).2.2]
  · simp only [flowOf]
    rw [h2, gact_at, G.stage_rows, G.stage_cols, hij]
  · intro k hk
    simp only [flowOf]
    rw [h2, gact_at, G.stage_rows, G.stage_cols, (hn k hk).2.2]
  · intro k hk
    simp only [flowOf]
    rw [h5 _ _ (hn k hk).1 (hn k hk).2.1, (hn k hk).2.2]
  · intro k hk
    simp only [flowOf]
    rw [hdist k hk]
  · simp only [flowOf]
    rw [h6]

end Dorado
