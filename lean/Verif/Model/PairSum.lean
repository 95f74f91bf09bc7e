import Mathlib.Init

/-!
# `np.add.reduce` along contiguous elements

numpy adds the elements of a contiguous array pairwise: eight running sums for up to 128 elements, halves of larger arrays.
Simplification: the running total starts from the first element; numpy starts from zero, whose addition changes no number.
-/

namespace Dorado

variable {α : Type} (add : α → α → α) (zero : α)

/-- The eight running sums after `m` further groups of eight elements (numpy's pairwise summation; spatial.py:290, particle_track.py:1375, 1380). -/
def laneSums : Nat → List α → List α → List α
  | 0, r, _ => r
  | m + 1, r, l => laneSums m (List.zipWith add r (l.take 8)) (l.drop 8)

/-- The sum of at most 128 elements (numpy's pairwise summation; spatial.py:290, particle_track.py:1375, 1380). -/
def blockSum (l : List α) : α :=
  if l.length < 8 then
    match l with
    | [] => zero
    | x :: xs => xs.foldl add x
  else
    let r := fun k => (laneSums add (l.length / 8 - 1) (l.take 8) (l.drop 8)).getD k zero
    (l.drop (8 * (l.length / 8))).foldl add
      (add (add (add (r 0) (r 1)) (add (r 2) (r 3))) (add (add (r 4) (r 5)) (add (r 6) (r 7))))

/-- The sum of any number of elements: those of more than 128 are halved, the first half being a multiple of eight
(numpy's pairwise summation; spatial.py:290, particle_track.py:1375, 1380). `fuel` bounds the recursion. -/
def pairSum : Nat → List α → α
  | 0, l => blockSum add zero l
  | fuel + 1, l =>
    if l.length ≤ 128 then blockSum add zero l
    else
      let h := l.length / 2 - l.length / 2 % 8
      add (pairSum fuel (l.take h)) (pairSum fuel (l.drop h))

/-- `ndarray.sum()`, `np.sum` (spatial.py:290, particle_track.py:1375, 1380). -/
def numpySum (l : List α) : α := pairSum add zero l.length l

end Dorado
