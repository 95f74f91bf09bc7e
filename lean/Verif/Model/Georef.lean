import Verif.Model.Coords
import Verif.Model.Routines

/-!
# The dictionary after `ind2coord` (`/repo/dorado/particle_track.py`, lines 912-971)

`ind2coord` stores the coordinates in the dictionary it is given. The lists of positions and times in this dictionary are shared with the object
(see `Heap`) and go on growing; the lists of coordinates do not.
-/

namespace Dorado

variable {K : Type} [Field K] [LinearOrder K]

/-- `walk_data['xcoord'] = ...; walk_data['ycoord'] = ...` (particle_track.py:968-971): the dictionary at a time when its other entries are `now`. -/
def CoordData.dict (cd : CoordData K) (now : WalkData K) : WalkData K :=
  { now with opt := dictSet (dictSet now.opt "xcoord" (cd.xcoord.map fun l => l.map Val.num)) "ycoord" (cd.ycoord.map fun l => l.map Val.num) }

end Dorado
