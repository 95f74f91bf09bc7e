import Verif.Model.Unstruct

/-! Vocabulary for statements about gridding of scattered data. -/

namespace Dorado

variable {K : Type} [Field K] [LinearOrder K]

/-- `x` is the least element of `l`. -/
def LeastOf (l : List K) (x : K) : Prop := x ∈ l ∧ ∀ y ∈ l, x ≤ y

/-- `i` is the index of a point nearest to `p`. -/
def IsNearest (d : K × K → K × K → K) (pts : List (K × K)) (p : K × K) (i : Nat) : Prop :=
  ∃ q, pts[i]? = some q ∧ ∀ q' ∈ pts, d p q ≤ d p q'

/-- `nn` lists `k` different points nearest to `p` with their distances. -/
structure KNearest (d : K × K → K × K → K) (pts : List (K × K)) (k : Nat) (p : K × K) (nn : List (K × Nat)) : Prop where
  length : nn.length = k
  points : ∀ e ∈ nn, ∃ q, pts[e.2]? = some q ∧ e.1 = d p q
  distinct : (nn.map (·.2)).Nodup
  nearest : ∀ (i : Nat) q, pts[i]? = some q → i ∉ nn.map (·.2) → ∀ e ∈ nn, e.1 ≤ d p q

/-- The neighbour search is correct for these points (at least `k` of them). -/
def CorrectSearch (d : K × K → K × K → K) (pts : List (K × K)) (k : Nat) (nb : Neighbours K) : Prop :=
  (k = 1 → ∀ p, IsNearest d pts p (nb.nearest p)) ∧
  (k ≠ 1 → ∀ p, ∃ nn, KNearest d pts k p nn ∧ nb.query k p = nn.map fun e => (.fin e.1, e.2))

/-- `v` is a weighted mean of the data of the neighbours: positive weights with sum 1, inversely proportional to distance + 1e-100. -/
def IsIdw (data : Nat → K) (nn : List (K × Nat)) (v : K) : Prop :=
  ∃ (w : K × Nat → K) (c : K), 0 < c ∧ (∀ e ∈ nn, 0 < w e ∧ w e * (e.1 + 1 / 10 ^ 100) = c) ∧ (nn.map w).sum = 1 ∧
    v = (nn.map fun e => w e * data e.2).sum

/-- The grid of an axis: `n` lines from `x0` at distance `cs` cover all of `l`, and no line more than needed. -/
def Covers (l : List K) (cs x0 : K) (n : Nat) : Prop :=
  LeastOf l x0 ∧ 1 ≤ n ∧ (∀ x ∈ l, x0 ≤ x ∧ x ≤ x0 + ((n : K) - 1) * cs) ∧ ∃ x ∈ l, x0 + ((n : K) - 2) * cs < x

/-- Location of row `r`, column `c` of the output (row 0 is the northernmost). -/
def nodeAt (x0 y0 cs : K) (ny r c : Nat) : K × K := (x0 + (c : K) * cs, y0 + ((ny : K) - 1 - (r : K)) * cs)

/-- The rows of `g` with at least one value. -/
def RowHasValue (g : Grid (Fl K)) (i : Nat) : Prop := i < g.rows ∧ ∃ j, j < g.cols ∧ g.at' i j ≠ .nan

/-- The columns of `g` with at least one value. -/
def ColHasValue (g : Grid (Fl K)) (j : Nat) : Prop := j < g.cols ∧ ∃ i, i < g.rows ∧ g.at' i j ≠ .nan

/-- `h` consists of the rows `kr` and columns `kc` of `g`, in order. -/
def IsSubgrid (g h : Grid (Fl K)) (kr kc : List Nat) : Prop :=
  kr.Pairwise (· < ·) ∧ kc.Pairwise (· < ·) ∧ h.rows = kr.length ∧ h.cols = kc.length ∧
    ∀ (i j r c : Nat), kr[i]? = some r → kc[j]? = some c → h.at' i j = g.at' r c

end Dorado
