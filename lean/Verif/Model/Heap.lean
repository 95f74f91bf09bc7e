import Verif.Model.Particles

/-!
# Walk data as shared Python lists

`Model/Particles.lean` treats walk data as values. In Python a walk data dictionary refers to list objects; `generate_particles` concatenates
the outer lists (particle_track.py:583-611), which copies references to the inner lists, and `run_iteration` appends to the inner lists in place
(particle_track.py:709-713, 754-758). Here the inner lists live in a heap and a dictionary holds their addresses.
-/

namespace Dorado

variable {K : Type} [Field K] [LinearOrder K]

/-- The inner lists `walk_data[field][particle]` (particle_track.py:549-571) by address, one arena per field: positions, times, and each optional
variable. `next` is the first address not in use. Simplification: no list object is used for two different fields (the code never does). -/
structure Heap (K : Type) where
  xs : Nat → List Int
  ys : Nat → List Int
  ts : Nat → List (Fl K)
  vs : String → Nat → List (Val K)
  next : Nat

/-- The heap of a program that has not created any particle (state before particle_track.py:549). -/
def Heap.empty : Heap K := { xs := fun _ => [], ys := fun _ => [], ts := fun _ => [], vs := fun _ _ => [], next := 0 }

/-- A walk data dictionary (particle_track.py:616-620, 716-720, 772-776): for each field the references to the lists of the particles. No code
changes an outer list or a stored dictionary in place (`ind2coord` adds keys that are not modelled here), so these are values. -/
structure RefWalk where
  xinds : List Nat
  yinds : List Nat
  times : List Nat
  opt : List (String × List Nat)
  deriving DecidableEq, Repr

/-- Mutable part of a `Particles` object (particle_track.py:405-411) with the dictionary `self.walk_data` by reference. -/
structure RefState (K : Type) where
  world : World K
  np : Nat
  walk : Option RefWalk

/-- What a reader of the dictionary sees (particle_track.py:647-656 describes the layout). -/
def Heap.read (h : Heap K) (w : RefWalk) : WalkData K :=
  { xinds := w.xinds.map h.xs
    yinds := w.yinds.map h.ys
    times := w.times.map h.ts
    opt := w.opt.map fun e => (e.1, e.2.map (h.vs e.1)) }

/-- The object as seen by a reader of its attributes (particle_track.py:405-411). -/
def RefState.read (s : RefState K) (h : Heap K) : PState K := { world := s.world, np := s.np, walk := s.walk.map h.read }

/-- New list objects at the addresses from `n` on (particle_track.py:549-553, 565, 569). -/
def place {α : Type} (n : Nat) (l : List (List α)) (f : Nat → List α) (a : Nat) : List α :=
  if n ≤ a then (l[a - n]?).getD (f a) else f a

/-- Number of addresses needed for new walk data (particle_track.py:549-571). -/
def walkSize (w : WalkData K) : Nat :=
  w.opt.foldl (fun n e => max n e.2.length) (max w.xinds.length (max w.yinds.length w.times.length))

/-- The fresh lists of new particles (particle_track.py:549-571). -/
def Heap.alloc (h : Heap K) (w : WalkData K) : Heap K × RefWalk :=
  ({ xs := place h.next w.xinds h.xs
     ys := place h.next w.yinds h.ys
     ts := place h.next w.times h.ts
     vs := fun var => match dictGet w.opt var with
       | some l => place h.next l (h.vs var)
       | none => h.vs var
     next := h.next + walkSize w },
   { xinds := List.range' h.next w.xinds.length
     yinds := List.range' h.next w.yinds.length
     times := List.range' h.next w.times.length
     opt := w.opt.map fun e => (e.1, List.range' h.next e.2.length) })

/-- `old + new` on the outer lists (particle_track.py:574-591 and 593-611): the references are copied, not the inner lists. -/
def prependRef (old new : RefWalk) : RefWalk :=
  { xinds := old.xinds ++ new.xinds
    yinds := old.yinds ++ new.yinds
    times := old.times ++ new.times
    opt := new.opt.map fun e => match dictGet old.opt e.1 with
      | some l => (e.1, l ++ e.2)
      | none => e }

section gen
variable (A : Arith K)

/-- `generate_particles` (particle_track.py:451-623). -/
def generateRef [FloorRing K] (P : PObj K) (ω : Nat → K) (h : Heap K) (s : RefState K) (np xs ys time method : PyVal K)
    (prev : Option RefWalk) : Except PyErr (Heap K × RefState K) := do
  let (n, x, y, t, m) ← genInputCheck np xs ys time method
  let (w0, pos') ← newWalk A P ω s.world.pos n x y t m
  let (h1, r0) := h.alloc w0
  let r1 := match s.walk with
    | some old => prependRef old r0
    | none => r0
  let r2 := match prev with
    | some old => prependRef old r1
    | none => r1
  return (h1, { world := { s.world with pos := pos' }, np := r2.xinds.length, walk := some r2 })

end gen

/-- `clear_walk_data` (particle_track.py:446-448): the attribute is reset, the lists stay with whoever else holds them. -/
def RefState.clear (s : RefState K) : RefState K := { s with walk := none }

/-- `all_xinds[ii].append(v)` (particle_track.py:709-713, 754-758). -/
def appendAt {α : Type} (f : Nat → List α) (a : Option Nat) (v : α) : Nat → List α :=
  match a with
  | some a => fun b => if b = a then f a ++ [v] else f b
  | none => f

/-- Append one record to particle `ii` (particle_track.py:709-713, 754-758). -/
def Heap.append (h : Heap K) (w : RefWalk) (ii : Nat) (pos : Int × Int) (t : Fl K) (vals : List (String × Val K)) : Heap K :=
  { xs := appendAt h.xs w.xinds[ii]? pos.1
    ys := appendAt h.ys w.yinds[ii]? pos.2
    ts := appendAt h.ts w.times[ii]? t
    vs := fun var => match dictGet w.opt var, dictGet vals var with
      | some l, some v => appendAt (h.vs var) l[ii]? v
      | _, _ => h.vs var
    next := h.next }

/-- One entry of `optional_vars` (particle_track.py:686-689): the stored lists, or new `[None]` lists. -/
def optRef (np : Nat) (w : RefWalk) (acc : List (String × List Nat) × Heap K) (var : String) : List (String × List Nat) × Heap K :=
  match dictGet w.opt var with
  | some l => (dictSet acc.1 var l, acc.2)
  | none => (dictSet acc.1 var (List.range' acc.2.next np),
      { acc.2 with
        vs := fun v => if v = var then place acc.2.next (List.replicate np [Val.none]) (acc.2.vs v) else acc.2.vs v
        next := acc.2.next + np })

/-- `optional_vars` (particle_track.py:683-689). -/
def optionalRef (P : PObj K) (np : Nat) (w : RefWalk) (h : Heap K) : List (String × List Nat) × Heap K :=
  (P.particleVars.filter fun v => !isBaseVar v).foldl (optRef np w) ([], h)

section run
variable (A : Arith K) (F : Fun K A)

/-- The loop storing the step results (particle_track.py:704-713). -/
def storeRef (starts news : List (Int × Int)) (times : List (Fl K)) (upd : List (String × List (Val K)))
    (keys : List String) (w : RefWalk) : List Nat → Heap K → Except PyErr (Heap K)
  | [], h => .ok h
  | ii :: rest, h => do
    let n ← listGet news ii
    let s ← listGet starts ii
    if n ≠ s then
      let t ← listGet times ii
      let vals ← pickOpt upd keys ii
      storeRef starts news times upd keys w rest (h.append w ii n t vals)
    else storeRef starts news times upd keys w rest h

/-- The while loop for particle `ii` (particle_track.py:744-769); see `targetLoop`. -/
def loopRef (P : PObj K) (ω : Nat → K) (target : Fl K) (maxIter : Int) (keys : List String) (w : RefWalk) (ii : Nat) :
    Nat → Heap K → World K → Fl K → Int → Except PyErr (Heap K × World K × Bool)
  | fuel, h, s, est, count => do
    let t ← lastAt (h.read w).times ii
    if Fl.le (Fl.abs (A.sub (A.add t est) target)) (Fl.abs (A.sub t target)) then
      match fuel with
      | 0 => .error .outOfFuel
      | fuel + 1 => do
        let x ← lastAt (h.read w).xinds ii
        let y ← lastAt (h.read w).yinds ii
        let ((news, times, upd), s1) ← particleStepper A F P ω s [(x, y)] [t] keys
        let n ← listGet news 0
        if n ≠ (x, y) then
          let t1 ← listGet times 0
          let vals ← pickOpt upd keys 0
          let h1 := h.append w ii n t1 vals
          let est1 := Fl.pyMax (.fin (A.rnd (1 / 10))) (A.sub t1 t)
          if count + 1 > maxIter then return (h1, s1, true)
          else loopRef P ω target maxIter keys w ii fuel h1 s1 est1 (count + 1)
        else return (h, s1, false)
    else return (h, s, false)

/-- Body of the loop over particles in target mode (particle_track.py:726-769): one particle. -/
def oneRef (P : PObj K) (ω : Nat → K) (target : Fl K) (maxIter : Int) (keys : List String) (w : RefWalk)
    (h : Heap K) (s : World K) (ii : Nat) : Except PyErr (Heap K × World K × Bool) := do
  let ts ← listGet (h.read w).times ii
  let x ← lastAt (h.read w).xinds ii
  let y ← lastAt (h.read w).yinds ii
  if edgeInWindow P.cellType x y then return (h, s, false)
  else loopRef A F P ω target maxIter keys w ii (maxIter.toNat + 1) h s (initEst A ts) 1

/-- The loop over particles in target mode (particle_track.py:726-769); see `targetAll`. -/
def allRef (P : PObj K) (ω : Nat → K) (target : Fl K) (maxIter : Int) (keys : List String) (w : RefWalk) :
    List Nat → Heap K → World K → Option (List Nat) → Except PyErr (Heap K × World K × Option (List Nat))
  | [], h, s, warn => .ok (h, s, warn)
  | ii :: rest, h, s, _ => do
    let (h1, s1, hit) ← oneRef A F P ω target maxIter keys w h s ii
    allRef P ω target maxIter keys w rest h1 s1 (some (if hit then [ii] else []))

/-- Result of `run_iteration` (particle_track.py:789): the returned dictionary, the object and the heap afterwards. -/
structure RefResult (K : Type) where
  heap : Heap K
  returned : RefWalk
  state : RefState K
  warned : List Nat

/-- `run_iteration` (particle_track.py:628-789). The outer lists of the returned dictionary are those of `self.walk_data`; without target
`self.walk_data` stays the dictionary it was. Simplification: the effects of a call that raises an exception are not modelled. -/
def runRef (P : PObj K) (ω : Nat → K) (h : Heap K) (s : RefState K) (target : Option (Fl K)) (maxIter : Int) :
    Except PyErr (RefResult K) :=
  match s.walk with
  | none => .error .valueError
  | some w0 => do
    let np := if s.np = 0 then w0.xinds.length else s.np
    let sx ← mapE (lastAt (h.read w0).xinds) (List.range np)
    let sy ← mapE (lastAt (h.read w0).yinds) (List.range np)
    let st ← mapE (lastAt (h.read w0).times) (List.range np)
    let opt := (optionalRef P np w0 h).1
    let h0 := (optionalRef P np w0 h).2
    let w := { w0 with opt := opt }
    let _ ← mapE (fun e => mapE (lastAt e.2) (List.range np)) (h0.read w).opt
    let keys := opt.map (·.1)
    let starts := sx.zip sy
    match target with
    | none => do
      let ((news, times, upd), w1) ← particleStepper A F P ω s.world starts st keys
      let h1 ← storeRef starts news times upd keys w (List.range np) h0
      return { heap := h1, returned := w, state := { world := w1, np := np, walk := some w0 }, warned := [] }
    | some tgt => do
      let (h1, w1, warn) ← allRef A F P ω tgt maxIter keys w (List.range np) h0 s.world none
      match warn with
      | none => .error .unboundLocalError
      | some l => return { heap := h1, returned := w, state := { world := w1, np := np, walk := some w }
                           warned := if P.verbose then l else [] }

end run

end Dorado
