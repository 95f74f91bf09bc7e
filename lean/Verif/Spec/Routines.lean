import Verif.Model.Routines
import Verif.Spec.Parallel

/-! Vocabulary of the statements about the plotting and slicing routines. -/

namespace Dorado

variable {K : Type} [Field K] [LinearOrder K]

/-- Walk data as produced by routing: every field has one list per particle, and the lists of one particle have the same non-zero length. -/
structure AlignedWalk (wd : WalkData K) : Prop where
  ynum : wd.yinds.length = wd.xinds.length
  tnum : wd.times.length = wd.xinds.length
  distinct : (keys wd.opt).Nodup
  onum : ∀ e ∈ wd.opt, e.2.length = wd.xinds.length
  same : ∀ i xs ys ts, wd.lists i = some (xs, ys, ts) → xs ≠ [] ∧ ys.length = xs.length ∧ ts.length = xs.length ∧
    ∀ var vs, wd.optList var i = some vs → vs.length = xs.length

/-- `g` has one entry per particle and field, and the entries of a particle are those of one and the same record of the particle, which is
selected by `sel` from its times. -/
structure SliceOf (wd : WalkData K) (g : GotState K) (sel : List (Fl K) → Nat → Prop) : Prop where
  xnum : g.xs.length = wd.xinds.length
  ynum : g.ys.length = wd.xinds.length
  tnum : g.ts.length = wd.xinds.length
  fields : keys g.opt = keys wd.opt
  onum : ∀ e ∈ g.opt, e.2.length = wd.xinds.length
  pick : ∀ i xs ys ts, wd.lists i = some (xs, ys, ts) → ∃ j, sel ts j ∧ j < ts.length ∧ g.xs[i]? = xs[j]? ∧ g.ys[i]? = ys[j]? ∧
    g.ts[i]? = ts[j]? ∧ ∀ var vs, wd.optList var i = some vs → (entry g.opt var)[i]? = vs[j]?

/-- Index `j` of a sequence of `n` records is meant by `k`: counted from the start, or from the end if negative; the last one if there is no
such record. -/
def RecordNo (n : Nat) (k : Int) (j : Nat) : Prop :=
  if 0 ≤ k ∧ k < n then (j : Int) = k else if k < 0 ∧ -(n : Int) ≤ k then (j : Int) = n + k else j + 1 = n

/-- Record `j` is the first of those whose time has the smallest distance `d` (a float). -/
def FirstNearest (d : Fl K → Fl K) (ts : List (Fl K)) (j : Nat) : Prop :=
  ∃ tj, ts[j]? = some tj ∧ ∀ (m : Nat) t, ts[m]? = some t → Fl.le (d tj) (d t) = true ∧ (m < j → Fl.lt (d tj) (d t) = true)

/-- Walk data whose times are non-negative representable numbers. -/
def ProperTimes (A : Arith K) (wd : WalkData K) : Prop := ∀ ts ∈ wd.times, ∀ t ∈ ts, ∃ x, t = .fin x ∧ 0 ≤ x ∧ A.rnd x = x

/-- The end of the curve: the smallest (or largest) final time of the particles. -/
def EndOf (wd : WalkData K) (largest : Bool) (e : K) : Prop :=
  (∃ i, wd.lastTime i = some (.fin e)) ∧ ∀ i x, wd.lastTime i = some (.fin x) → if largest then x ≤ e else e ≤ x

/-- Exposure times that are counted: above 1e-6 and below 0.99 times the end time (as computed). -/
def Counted (A : Arith K) (e : K) (x : Fl K) : Prop := ∃ y, x = .fin y ∧ A.rnd (1 / 1000000) < y ∧ y < A.rnd (A.rnd (99 / 100) * e)

instance (A : Arith K) (e : K) (x : Fl K) : Decidable (Counted A e x) := by
  unfold Counted
  match x with
  | .fin y => exact decidable_of_iff (A.rnd (1 / 1000000) < y ∧ y < A.rnd (A.rnd (99 / 100) * e)) (by simp)
  | .nan => exact .isFalse (by simp)
  | .pinf => exact .isFalse (by simp)
  | .ninf => exact .isFalse (by simp)

/-- Number of counted exposure times. -/
def countAll (A : Arith K) (e : K) (expo : List (Fl K)) : Nat := expo.countP fun x => decide (Counted A e x)

/-- Number of counted exposure times up to `t`. -/
def countUpTo (A : Arith K) (e : K) (expo : List (Fl K)) (t : Fl K) : Nat := expo.countP fun x => decide (Counted A e x) && Fl.le x t

/-- The computed fraction `k/n`. -/
def fraction (A : Arith K) (k n : Nat) : Fl K := .fin (A.rnd (A.rnd (k : K) / A.rnd (n : K)))

/-- A sub-distribution function of the exposure times ending at time `e`, for `n` particles. -/
structure SubDistribution (A : Arith K) (expo : List (Fl K)) (n : Nat) (e : K) (c : Curve K) : Prop where
  aligned : c.times.length = c.fracs.length
  start : c.times.head? = some (.fin 0)
  sorted : c.times.Pairwise fun a b => Fl.le a b = true
  stop : c.times.getLast? = some (.fin e)
  zero : c.fracs.head? = some (.fin 0)
  monotone : c.fracs.Pairwise fun a b => Fl.le a b = true
  bounded : ∀ f ∈ c.fracs, Fl.le (.fin 0) f = true ∧ Fl.le f (.fin 1) = true
  total : c.fracs.getLast? = some (fraction A (countAll A e expo) n)
  inner : (c.times.tail.dropLast).Perm (expo.filter fun x => decide (Counted A e x))
  steps : ∀ k, k ≤ countAll A e expo → c.fracs[k]? = some (fraction A k n)

/-- `t` is the smallest counted exposure time up to which the fraction of exposure times of `n` particles is at least `lv`. -/
def FirstReach (A : Arith K) (expo : List (Fl K)) (n : Nat) (e lv : K) (t : Fl K) : Prop :=
  (t ∈ expo ∧ Counted A e t) ∧ Fl.le (.fin lv) (fraction A (countUpTo A e expo t) n) = true ∧
    ∀ x ∈ expo, Counted A e x → Fl.le (.fin lv) (fraction A (countUpTo A e expo x) n) = true → Fl.le t x = true

/-- Area under the line through the points `(x, y)` (trapezoidal rule). -/
def trapezoid : List K → List K → K
  | x :: x' :: xs, y :: y' :: ys => (x' - x) * (y + y') / 2 + trapezoid (x' :: xs) (y' :: ys)
  | _, _ => 0

/-- Cumulative fraction of the counted exposure times of `n` particles, drawn with straight lines: between the counted time `a` (or 0) and the next
counted time `b` it rises by one particle, after the last counted time it is constant. -/
structure LinearCdf [IsStrictOrderedRing K] (expo : List (Fl K)) (n : Nat) (e : K) (f : K → K) : Prop where
  line : ∀ x a b, 0 ≤ x → (a = 0 ∨ .fin a ∈ expo ∧ Counted Arith.exact e (.fin a)) → a ≤ x →
    (∀ c, .fin c ∈ expo → Counted Arith.exact e (.fin c) → c ≤ x → c ≤ a) → .fin b ∈ expo → Counted Arith.exact e (.fin b) → x < b →
    (∀ c, .fin c ∈ expo → Counted Arith.exact e (.fin c) → x < c → b ≤ c) →
    f x = (countUpTo Arith.exact e expo (.fin x) + (x - a) / (b - a)) / n
  flat : ∀ x, 0 ≤ x → (∀ c, .fin c ∈ expo → Counted Arith.exact e (.fin c) → c ≤ x) → f x = countAll Arith.exact e expo / n

/-! ## Unsteady flow -/

/-- `d` is the content of file number `i` among the files whose names start with `pre`, in the order of the names. -/
def FileNo (dir : List (String × FileData K)) (pre : String) (i : Nat) (d : FileData K) : Prop :=
  ∃ L : List (String × FileData K), L.Perm (dir.filter fun e => pre.toList.isPrefixOf e.1.toList) ∧ L.Pairwise (fun a b => a.1.toList ≤ b.1.toList) ∧
    ∃ name, L[i]? = some (name, d)

/-- Flow field number `i` of the directory. -/
def FieldNo (dir : List (String × FileData K)) (outputType : String) (i : Nat) (f : FlowFields K) : Prop :=
  ((outputType = "csv" ∨ outputType = "npy") ∧ FileNo dir "depth" i (.array f.depth) ∧ FileNo dir "stage" i (.array f.stage) ∧
    FileNo dir "qx" i (.array f.qx) ∧ FileNo dir "qy" i (.array f.qy)) ∨
  (outputType = "npz" ∧ ∃ fields, FileNo dir "data" i (.npz fields) ∧ dictGet fields "depth" = some f.depth ∧ dictGet fields "stage" = some f.stage ∧
    dictGet fields "qx" = some f.qx ∧ dictGet fields "qy" = some f.qy)

/-- Number of entries of the directory whose names start with `pre`. -/
def filesWith (dir : List (String × FileData K)) (pre : String) : Nat := dir.countP fun e => pre.toList.isPrefixOf e.1.toList

/-- `w` has the particles of `w0`, each with a history extending that in `w0`. -/
def ExtendsWalk (w0 w : WalkData K) : Prop :=
  w.xinds.length = w0.xinds.length ∧ ∀ i xs ys ts, w0.lists i = some (xs, ys, ts) → ∃ xs' ys' ts', w.lists i = some (xs', ys', ts') ∧
    xs <+: xs' ∧ ys <+: ys' ∧ ts <+: ts'

section
variable [FloorRing K] (A : Arith K) (F : Fun K A)

/-- Step `i` of the unsteady run: an object is made from cell size `dx` and flow field `i`; it is given the seed particles (first step) or the walk
data `prev` of the preceding step, and is run to time `t + i*t` (as computed); `w` is what that run returns. -/
def FlowStep (ω : Nat → K) (dx t : K) (dir : List (String × FileData K)) (outputType : String) (N : Nat) (xs ys : List Int) (i : Nat)
    (prev : Option (WalkData K)) (w : WalkData K) : Prop :=
  ∃ f P pos s r, FieldNo dir outputType i f ∧
    initParticles A F { dx := some dx, verbose := some false, depth := some f.depth, stage := some f.stage, qx := some f.qx, qy := some f.qy } = .ok P ∧
    (match prev with
     | none => i = 0 ∧ generateParticles A P ω (initState A F P pos) (.int N) (.list (xs.map .int)) (.list (ys.map .int)) (.int 0) (.str "random") none =
        .ok s
     | some w0 => 0 < i ∧ s.walk = some w0) ∧
    runIteration A F P ω s (some (A.add (.fin t) (A.mul (.fin (A.rnd (i : K))) (.fin t)))) 10000 = .ok r ∧ r.returned = w

end

end Dorado
