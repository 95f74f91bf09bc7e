import Verif.Model.Heap
import Verif.Spec.Common

/-! Vocabulary of the sharing properties: programs with any number of `Particles` objects and kept dictionaries. -/

namespace Dorado

variable {K : Type} [Field K] [LinearOrder K]

/-- A running program: the list objects, the `Particles` objects (in order of construction) and every walk data dictionary the program has
got hold of. -/
structure Sys (K : Type) where
  heap : Heap K
  objs : List (PObj K × RefState K)
  held : List RefWalk

/-- The program before the first call. -/
def Sys.start : Sys K := { heap := Heap.empty, objs := [], held := [] }

/-- What the program does in one step; the number is the object it is done to. -/
inductive Act where
  | new
  | generate (i : Nat) (prev : Option RefWalk)
  | run (i : Nat)
  | look (i : Nat)
  | clear (i : Nat)
  | reseed (i : Nat)
  deriving DecidableEq

section
variable [FloorRing K] (A : Arith K) (F : Fun K A)

/-- One step of a program. `generate` may be given any dictionary the program holds as `previous_walk_data`; `run` obtains the returned dictionary,
`look` reads the attribute `walk_data`. The conditions `Ob`, `Ω`, `Sd` are those of `Reach`. -/
inductive SysStep (Ob : PObj K → Prop) (Ω : (Nat → K) → Prop) (Sd : PObj K → List Int → List Int → Fl K → Prop) :
    Act → Sys K → Sys K → Prop
  | new {S P} (pos : Nat) (hP : Ob P) :
      SysStep Ob Ω Sd .new S { S with objs := S.objs ++ [(P, { world := (initState A F P pos).world, np := 0, walk := none })] }
  | generate {S i P s prev ω np xs ys time method n x y t m h' s'} (hi : S.objs[i]? = some (P, s)) (hω : Ω ω)
      (hprev : ∀ w, prev = some w → w ∈ S.held)
      (hc : genInputCheck np xs ys time method = .ok (n, x, y, t, m)) (hn : 0 ≤ n) (hs : Sd P x y t)
      (hg : generateRef A P ω S.heap s np xs ys time method prev = .ok (h', s')) :
      SysStep Ob Ω Sd (.generate i prev) S { S with heap := h', objs := S.objs.set i (P, s') }
  | run {S i P s ω target maxIter r} (hi : S.objs[i]? = some (P, s)) (hω : Ω ω)
      (hr : runRef A F P ω S.heap s target maxIter = .ok r) :
      SysStep Ob Ω Sd (.run i) S { heap := r.heap, objs := S.objs.set i (P, r.state), held := S.held ++ [r.returned] }
  | look {S i P s w} (hi : S.objs[i]? = some (P, s)) (hw : s.walk = some w) :
      SysStep Ob Ω Sd (.look i) S { S with held := S.held ++ [w] }
  | clear {S i P s} (hi : S.objs[i]? = some (P, s)) : SysStep Ob Ω Sd (.clear i) S { S with objs := S.objs.set i (P, s.clear) }
  | reseed {S i P s} (pos : Nat) (hi : S.objs[i]? = some (P, s)) :
      SysStep Ob Ω Sd (.reseed i) S { S with objs := S.objs.set i (P, { s with world := { s.world with pos := pos } }) }

/-- A sequence of steps. -/
inductive SysRun (Ob : PObj K → Prop) (Ω : (Nat → K) → Prop) (Sd : PObj K → List Int → List Int → Fl K → Prop) :
    List Act → Sys K → Sys K → Prop
  | refl (S) : SysRun Ob Ω Sd [] S S
  | tail {as a S S' S''} (h : SysRun Ob Ω Sd as S S') (hs : SysStep A F Ob Ω Sd a S' S'') : SysRun Ob Ω Sd (as ++ [a]) S S''

end

/-- Reading dictionary `d` shows, for each of its particles, the very lists that `w` shows for the particles `k`, `k+1`, … -/
structure Shows (h : Heap K) (d w : RefWalk) (k : Nat) : Prop where
  xinds : ∀ j < (h.read d).xinds.length, (h.read w).xinds[k + j]? = (h.read d).xinds[j]?
  yinds : ∀ j < (h.read d).yinds.length, (h.read w).yinds[k + j]? = (h.read d).yinds[j]?
  times : ∀ j < (h.read d).times.length, (h.read w).times[k + j]? = (h.read d).times[j]?

/-- The same for an optional variable. -/
def ShowsVar (h : Heap K) (d w : RefWalk) (var : String) (k : Nat) : Prop :=
  ∀ l, dictGet (h.read d).opt var = some l → ∃ m, dictGet (h.read w).opt var = some m ∧ ∀ j < l.length, m[k + j]? = l[j]?

/-- `w'` has the particles of `w` in order, with histories that continue those in `w`. -/
structure Continues (w w' : WalkData K) : Prop where
  xinds : List.Forall₂ List.IsPrefix w.xinds w'.xinds
  yinds : List.Forall₂ List.IsPrefix w.yinds w'.yinds
  times : List.Forall₂ List.IsPrefix w.times w'.times
  opt : List.Forall₂ (fun e e' => e.1 = e'.1 ∧ List.Forall₂ List.IsPrefix e.2 e'.2) w.opt w'.opt

/-- No object holds a particle twice. -/
def NoTwice (S : Sys K) : Prop := ∀ P s w, (P, s) ∈ S.objs → s.walk = some w → w.xinds.Nodup

/-- A sequence of steps all of whose states satisfy `Φ`. -/
inductive SysReach [FloorRing K] (A : Arith K) (F : Fun K A) (Φ : Sys K → Prop) (Ob : PObj K → Prop) (Ω : (Nat → K) → Prop)
    (Sd : PObj K → List Int → List Int → Fl K → Prop) : Sys K → Prop
  | start : SysReach A F Φ Ob Ω Sd Sys.start
  | step {a S S'} (h : SysReach A F Φ Ob Ω Sd S) (hs : SysStep A F Ob Ω Sd a S S') (hΦ : Φ S') : SysReach A F Φ Ob Ω Sd S'

/-- `d` is a dictionary the program can look at: kept, or the walk data of an object. -/
def Sys.Sees (S : Sys K) (d : RefWalk) : Prop := d ∈ S.held ∨ ∃ P s, (P, s) ∈ S.objs ∧ s.walk = some d

/-- Programs in which `previous_walk_data` is only used to hand over the particles of one object to another: the dictionary is the current walk
data of an object with the same tracked variables, and that object is then cleared. -/
inductive OwnReach [FloorRing K] (A : Arith K) (F : Fun K A) (Ob : PObj K → Prop) (Ω : (Nat → K) → Prop)
    (Sd : PObj K → List Int → List Int → Fl K → Prop) : Sys K → Prop
  | start : OwnReach A F Ob Ω Sd Sys.start
  | step {a S S'} (h : OwnReach A F Ob Ω Sd S) (hs : SysStep A F Ob Ω Sd a S S') (ha : ∀ i d, a ≠ .generate i (some d)) : OwnReach A F Ob Ω Sd S'
  | handover {S S1 S2 i j P' s' d} (h : OwnReach A F Ob Ω Sd S) (hij : i ≠ j) (hj : S.objs[j]? = some (P', s')) (hd : s'.walk = some d)
      (hv : ∀ P s, S.objs[i]? = some (P, s) → P'.particleVars = P.particleVars)
      (h1 : SysStep A F Ob Ω Sd (.generate i (some d)) S S1) (h2 : SysStep A F Ob Ω Sd (.clear j) S1 S2) : OwnReach A F Ob Ω Sd S2

end Dorado
