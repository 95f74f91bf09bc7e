import Verif.Model.Spatial
import Verif.Spec.Post

/-! Vocabulary for statements about chunked exposure times (`spatial.py`). -/

namespace Dorado

variable {K : Type} [Field K] [LinearOrder K]

/-- First row (column) behind chunk `k` when `size` rows (columns) are cut into `size / res` chunks of `res`: the last chunk takes the rest. -/
def chunkStop (size res k : Nat) : Nat := if k + 1 = size / res then size else (k + 1) * res

/-- Row (column) `x` belongs to chunk `k`. -/
def InChunk (size res k : Nat) (x : Int) : Prop := ((k * res : Nat) : Int) ≤ x ∧ x < chunkStop size res k

/-- Row (column) `x` belongs to chunk `k` or is the next one behind it. -/
def ReachesChunk (size res k : Nat) (x : Int) : Prop := ((k * res : Nat) : Int) ≤ x ∧ x ≤ chunkStop size res k

instance (size res k : Nat) (x : Int) : Decidable (InChunk size res k x) := inferInstanceAs (Decidable (_ ∧ _))
instance (size res k : Nat) (x : Int) : Decidable (ReachesChunk size res k x) := inferInstanceAs (Decidable (_ ∧ _))

/-- Row (column) `x` is the first one of a chunk other than the first. -/
def ChunkBorder (size res : Nat) (x : Int) : Prop := ∃ k : Nat, 0 < k ∧ k < size / res ∧ x = ((k * res : Nat) : Int)

/-- Chunk `(r, c)` contains a cell of the region of interest (cell type 1). -/
def ChunkHasRegion (ct : Grid Int) (res r c : Nat) : Prop :=
  ∃ i j : Nat, i < ct.rows ∧ j < ct.cols ∧ InChunk ct.rows res r i ∧ InChunk ct.cols res c j ∧ ct.at' i j = 1

open Classical in
/-- The particles whose first recorded position satisfies `S`, in order. -/
noncomputable def WalkData.starters (wd : WalkData K) (S : Int × Int → Prop) : List Nat :=
  (List.range wd.count).filter fun i => ∃ p, wd.posAt i 0 = some p ∧ S p

/-- The region of interest as a raster of zeros and ones. -/
def roiMask (ct : Grid Int) : Grid Int := ⟨ct.rows, ct.cols, fun i j => if ct.at' i j = 1 then 1 else 0⟩

/-- The part of the region of interest inside chunk `(r, c)`. -/
def roiMaskIn (ct : Grid Int) (res r c : Nat) : Grid Int :=
  ⟨ct.rows, ct.cols, fun i j => if ct.at' i j = 1 ∧ InChunk ct.rows res r i ∧ InChunk ct.cols res c j then 1 else 0⟩

/-- The entry expected for a chunk: NaN without region cells, else the values `e` of the particles selected. -/
def ChunkEntry (e : List (Fl K)) (region : Prop) (sel : List Nat) : Option (List (Fl K)) → Prop
  | none => ¬ region
  | some l => region ∧ List.Forall₂ (fun i x => e[i]? = some x) sel l

end Dorado
