import Verif.Model.Build

/-! # What the caller of `Particles(params)` may rely on -/

namespace Dorado

variable {K : Type} [Field K] [LinearOrder K]

/-- The arrays the flow is given by. -/
def RParams.flowRefs (p : RParams K) : List Nat := p.qx.toList ++ p.qy.toList ++ p.u.toList ++ p.v.toList

/-- The arrays of `params` that may be written into or read. -/
def RParams.refs (p : RParams K) : List Nat := p.depth.toList ++ p.stage.toList ++ p.topography.toList ++ p.flowRefs

/-- Depth, stage, topography and flow are given by different array objects (the flow components may share one, e.g. an array of zeros). -/
structure Apart (h : ArrHeap K) (p : RParams K) : Prop where
  used : ∀ r ∈ p.refs, r < h.next
  nodup : (p.depth.toList ++ p.stage.toList ++ p.topography.toList).Nodup
  flow : ∀ r ∈ p.depth.toList ++ p.stage.toList ++ p.topography.toList, r ∉ p.flowRefs

instance (h : ArrHeap K) (p : RParams K) : Decidable (Apart h p) :=
  decidable_of_iff ((∀ r ∈ p.refs, r < h.next) ∧ (p.depth.toList ++ p.stage.toList ++ p.topography.toList).Nodup ∧
    ∀ r ∈ p.depth.toList ++ p.stage.toList ++ p.topography.toList, r ∉ p.flowRefs)
    ⟨fun ⟨a, b, c⟩ => ⟨a, b, c⟩, fun ⟨a, b, c⟩ => ⟨a, b, c⟩⟩

/-- Discharges are given, so velocities are derived from them. -/
def RParams.GivesQ (p : RParams K) : Prop := p.qx.isSome ∧ p.qy.isSome

instance (p : RParams K) : Decidable p.GivesQ := by unfold RParams.GivesQ; infer_instance

/-- Two parameter objects with the same arrays and the same list of tracked variables; the other attributes may differ. -/
structure SameArrays (p p2 : RParams K) : Prop where
  depth : p2.depth = p.depth
  stage : p2.stage = p.stage
  topography : p2.topography = p.topography
  qx : p2.qx = p.qx
  qy : p2.qy = p.qy
  u : p2.u = p.u
  v : p2.v = p.v
  vars : p2.vars = p.vars

/-- No component is smaller than 1e-8 in magnitude (a missing value counts as zero). -/
def NoSmall (A : Arith K) (g : Grid (Fl K)) : Prop :=
  ∀ i j, g.at' i j ≠ .nan ∧ Fl.lt (Fl.abs (g.at' i j)) (.fin (A.rnd (1 / 100000000))) = false

/-- A loop that builds an object per parameter object (e.g. a parameter sweep) and keeps them all. -/
def buildAll (A : Arith K) (F : Fun K A) (h : ArrHeap K) : List (RParams K) → Except PyErr (ArrHeap K × List (RObj K))
  | [] => .ok (h, [])
  | p :: ps => do
    let (h, _, o) ← buildParticles A F h p
    let (h, os) ← buildAll A F h ps
    return (h, o :: os)

/-- The tracked variables do not pick up `roi_flag` on the way: no parameter object has a region, or all have one, or the flag is in the list. -/
def RoiSteady (h : ArrHeap K) (ps : List (RParams K)) : Prop :=
  (∀ p ∈ ps, p.base.roi = none) ∨ (∀ p ∈ ps, p.base.roi.isSome) ∨ ∀ p ∈ ps, ∀ r, p.vars = some r → "roi_flag" ∈ h.strs r

/-- Where velocities are given, none is missing or smaller than 1e-8 in magnitude. -/
def NoStill (A : Arith K) (h : ArrHeap K) (p : RParams K) : Prop := p.GivesQ ∨ ∀ r, p.u = some r ∨ p.v = some r → NoSmall A (h.arr r)

/-- What building may do to the cell `(i, j)` of the caller's array `r`: `now` and `was` are the values, `depth` the depth the object has there. -/
inductive CellChange (A : Arith K) (p : RParams K) (r : Nat) (depth was now : Fl K) : Prop
  | same (h : now = was)
  /-- a missing depth becomes 0 -/
  | depth (hr : p.depth = some r) (h0 : was = .nan) (h1 : now = .fin 0)
  /-- the stage of a dry cell is dropped -/
  | stage (hr : p.stage = some r) (h0 : depth = .fin 0) (h1 : now = .nan)
  /-- a missing discharge becomes 0 -/
  | discharge (hq : p.GivesQ) (hr : p.qx = some r ∨ p.base.deltaRCM = true ∧ p.qy = some r) (h0 : was = .nan) (h1 : now = .fin 0)
  /-- a missing or tiny velocity becomes 1e-8 -/
  | velocity (hq : ¬p.GivesQ) (hr : p.u = some r ∨ p.base.deltaRCM = true ∧ p.v = some r)
      (h0 : was = .nan ∨ Fl.lt (Fl.abs was) (.fin (A.rnd (1 / 100000000))) = true) (h1 : now = .fin (A.rnd (1 / 100000000)))

end Dorado
