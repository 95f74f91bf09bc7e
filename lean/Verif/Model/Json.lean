import Verif.Model.Routines

/-! # Data files of the automated routines

`steady_plots`, `unsteady_plots`, `time_plots` and `plot_exposure_time` store data with `json.dump(data, open(fpath, 'w'))`
(routines.py:111-113, 287-289, 380-382, 645-647); the comments there load it back with `json.load` (routines.py:115-116, 291-292, 384-385).
The text written and the reader are modelled character by character for the Python objects that occur in this data. The standard library's json
module is not part of /repo; the grammar below is the one it documents, with its defaults. -/

namespace Dorado

variable {K : Type} [Field K] [LinearOrder K]

mutual
/-- A Python object as stored by `json.dump` (routines.py:113, 289, 382, 647). Simplification: no Boolean values, they do not occur. -/
inductive JTree (K : Type) where
  | null
  | int (n : Int)
  | flt (x : Fl K)
  | str (s : List Char)
  | list (l : JList K)
  | dict (l : JDict K)
/-- The items of a Python list (routines.py:113, 289, 382, 647). -/
inductive JList (K : Type) where
  | nil
  | cons (a : JTree K) (l : JList K)
/-- The items of a Python dictionary with string keys, in insertion order (routines.py:113, 289, 382). -/
inductive JDict (K : Type) where
  | nil
  | cons (k : List Char) (v : JTree K) (l : JDict K)
end

/-- A Python list of stored objects (routines.py:113, 289, 382, 647). -/
def JList.ofList : List (JTree K) → JList K
  | [] => .nil
  | a :: l => .cons a (ofList l)

/-- A Python dictionary of stored objects (routines.py:113, 289, 382). -/
def JDict.ofList : List (String × JTree K) → JDict K
  | [] => .nil
  | e :: l => .cons e.1.toList e.2 (ofList l)

/-- Text of floating point numbers: `float.__repr__` for finite numbers and `float(text)` (used by `json.dump` and `json.load`, routines.py:113, 289,
382, 647). Trusted: Python's documented guarantee that `float(repr(x)) == x`, and the form of the text, see `FloatShape` in Spec/Json. -/
structure FloatText (K : Type) where
  text : K → List Char
  value : List Char → K

/-- Decimal digits of an integer, `int.__repr__` (routines.py:113, 289, 382). -/
def intText : Int → List Char
  | .ofNat n => Nat.toDigits 10 n
  | .negSucc n => '-' :: Nat.toDigits 10 (n + 1)

section
variable (R : FloatText K)

/-- Text of a floating point number (routines.py:113, 289, 382, 647), with the names json uses for values that are not finite. -/
def fltText : Fl K → List Char
  | .nan => ['N', 'a', 'N']
  | .pinf => ['I', 'n', 'f', 'i', 'n', 'i', 't', 'y']
  | .ninf => ['-', 'I', 'n', 'f', 'i', 'n', 'i', 't', 'y']
  | .fin x => R.text x

/-- Text of a string between its quotes (routines.py:113, 289, 382): quotes and backslashes are escaped. Simplification: only printable ASCII characters,
other ones (escaped by their code) do not occur in the names of variables. -/
def strText : List Char → List Char
  | [] => []
  | c :: s => if c = '"' ∨ c = '\\' then '\\' :: c :: strText s else c :: strText s

mutual
/-- `json.dump` (routines.py:113, 289, 382, 647), as the text written. -/
def dumpText : JTree K → List Char
  | .null => ['n', 'u', 'l', 'l']
  | .int n => intText n
  | .flt x => fltText R x
  | .str s => '"' :: (strText s ++ ['"'])
  | .list .nil => ['[', ']']
  | .list (.cons a l) => '[' :: (dumpText a ++ dumpItems l)
  | .dict .nil => ['{', '}']
  | .dict (.cons k v l) => '{' :: '"' :: (strText k ++ '"' :: ':' :: ' ' :: (dumpText v ++ dumpPairs l))
/-- Items of a list after the first one, and the closing bracket (routines.py:113, 289, 382, 647). -/
def dumpItems : JList K → List Char
  | .nil => [']']
  | .cons a l => ',' :: ' ' :: (dumpText a ++ dumpItems l)
/-- Items of a dictionary after the first one, and the closing brace (routines.py:113, 289, 382). -/
def dumpPairs : JDict K → List Char
  | .nil => ['}']
  | .cons k v l => ',' :: ' ' :: '"' :: (strText k ++ '"' :: ':' :: ' ' :: (dumpText v ++ dumpPairs l))
end

end

/-! ## Reading -/

/-- White space between the parts of the text is skipped (`json.load`, routines.py:116, 292, 385). -/
def skipWs : List Char → List Char
  | [] => []
  | c :: s => if c = ' ' ∨ c = '\t' ∨ c = '\n' ∨ c = '\r' then skipWs s else c :: s

/-- A string up to its closing quote (`json.load`, routines.py:116, 292, 385). Simplification: of the escapes only those of `strText`. -/
def readStr : List Char → Except PyErr (List Char × List Char)
  | [] => .error .valueError
  | '"' :: s => .ok ([], s)
  | '\\' :: c :: s =>
    if c = '"' ∨ c = '\\' then do
      let r ← readStr s
      return (c :: r.1, r.2)
    else .error .valueError
  | c :: s => do
    let r ← readStr s
    return (c :: r.1, r.2)

/-- The leading digits (`json.load`, routines.py:116, 292, 385). -/
def takeDigits (s : List Char) : List Char × List Char := (s.takeWhile Char.isDigit, s.dropWhile Char.isDigit)

/-- Integer part of a number: `0`, or digits not starting with 0 (`json.load`, routines.py:116, 292, 385). -/
def readIntPart : List Char → Option (List Char × List Char)
  | [] => none
  | c :: s =>
    if c = '0' then some (['0'], s)
    else if c.isDigit then some (c :: (takeDigits s).1, (takeDigits s).2)
    else none

/-- Fractional part of a number: a point and at least one digit, or nothing (`json.load`, routines.py:116, 292, 385). -/
def readFrac : List Char → List Char × List Char
  | '.' :: s => if (takeDigits s).1 = [] then ([], '.' :: s) else ('.' :: (takeDigits s).1, (takeDigits s).2)
  | s => ([], s)

/-- Exponent of a number: e, an optional sign and at least one digit, or nothing (`json.load`, routines.py:116, 292, 385). -/
def readExp : List Char → List Char × List Char
  | [] => ([], [])
  | e :: s =>
    if e = 'e' ∨ e = 'E' then
      match s with
      | [] => ([], e :: s)
      | g :: s' =>
        if g = '+' ∨ g = '-' then
          if (takeDigits s').1 = [] then ([], e :: s) else (e :: g :: (takeDigits s').1, (takeDigits s').2)
        else if (takeDigits s).1 = [] then ([], e :: s) else (e :: (takeDigits s).1, (takeDigits s).2)
    else ([], e :: s)

/-- A number (`json.load`, routines.py:116, 292, 385): an integer unless there is a fractional part or an exponent. `none`: the text is not a number. -/
def readNumber (R : FloatText K) (s : List Char) : Option (JTree K × List Char) :=
  let neg := s.head? = some '-'
  let body := if neg then s.tail else s
  match readIntPart body with
  | none => none
  | some (ip, s1) =>
    let (fr, s2) := readFrac s1
    let (ex, s3) := readExp s2
    if fr = [] ∧ ex = [] then
      some (.int (if neg then -(Nat.ofDigitChars 10 ip 0 : Int) else (Nat.ofDigitChars 10 ip 0 : Int)), s3)
    else some (.flt (.fin (R.value ((if neg then ['-'] else []) ++ ip ++ fr ++ ex))), s3)

/-- Drop a prefix (`json.load`, routines.py:116, 292, 385). -/
def dropPrefix : List Char → List Char → Option (List Char)
  | [], s => some s
  | _ :: _, [] => none
  | p :: ps, c :: s => if p = c then dropPrefix ps s else none

/-- A named constant or a number (`json.load`, routines.py:116, 292, 385). -/
def readScalar (R : FloatText K) (s : List Char) : Except PyErr (JTree K × List Char) :=
  match dropPrefix ['n', 'u', 'l', 'l'] s with
  | some r => .ok (.null, r)
  | none => match readNumber R s with
    | some r => .ok r
    | none => match dropPrefix ['N', 'a', 'N'] s with
      | some r => .ok (.flt .nan, r)
      | none => match dropPrefix ['I', 'n', 'f', 'i', 'n', 'i', 't', 'y'] s with
        | some r => .ok (.flt .pinf, r)
        | none => match dropPrefix ['-', 'I', 'n', 'f', 'i', 'n', 'i', 't', 'y'] s with
          | some r => .ok (.flt .ninf, r)
          | none => .error .valueError

mutual
/-- One value (`json.load`, routines.py:116, 292, 385). `fuel` bounds the recursion. -/
def readValue (R : FloatText K) : Nat → List Char → Except PyErr (JTree K × List Char)
  | 0, _ => .error .outOfFuel
  | _ + 1, '"' :: s => do
    let r ← readStr s
    return (.str r.1, r.2)
  | fuel + 1, '[' :: s =>
    match skipWs s with
    | ']' :: s' => .ok (.list .nil, s')
    | s' => do
      let r ← readItems R fuel s'
      return (.list r.1, r.2)
  | fuel + 1, '{' :: s =>
    match skipWs s with
    | '}' :: s' => .ok (.dict .nil, s')
    | s' => do
      let r ← readPairs R fuel s'
      return (.dict r.1, r.2)
  | _ + 1, s => readScalar R s
/-- The items of a list up to the closing bracket (`json.load`, routines.py:116, 292, 385). -/
def readItems (R : FloatText K) : Nat → List Char → Except PyErr (JList K × List Char)
  | 0, _ => .error .outOfFuel
  | fuel + 1, s => do
    let r ← readValue R fuel s
    match skipWs r.2 with
    | ']' :: s' => return (.cons r.1 .nil, s')
    | ',' :: s' => do
      let q ← readItems R fuel (skipWs s')
      return (.cons r.1 q.1, q.2)
    | _ => .error .valueError
/-- The items of a dictionary up to the closing brace (`json.load`, routines.py:116, 292, 385). Simplification: a repeated key is kept twice. -/
def readPairs (R : FloatText K) : Nat → List Char → Except PyErr (JDict K × List Char)
  | 0, _ => .error .outOfFuel
  | fuel + 1, '"' :: s => do
    let k ← readStr s
    match skipWs k.2 with
    | ':' :: s1 => do
      let r ← readValue R fuel (skipWs s1)
      match skipWs r.2 with
      | '}' :: s' => return (.cons k.1 r.1 .nil, s')
      | ',' :: s' => do
        let q ← readPairs R fuel (skipWs s')
        return (.cons k.1 r.1 q.1, q.2)
      | _ => .error .valueError
    | _ => .error .valueError
  | _ + 1, _ => .error .valueError
end

/-- `json.load` of a file with this text (routines.py:116, 292, 385): the value, with nothing but white space around it. -/
def loadText (R : FloatText K) (s : List Char) : Except PyErr (JTree K) := do
  let r ← readValue R (2 * s.length + 2) (skipWs s)
  if skipWs r.2 = [] then return r.1 else .error .valueError

/-! ## The data stored -/

section
variable [FloorRing K]

/-- A travel time as a Python object: a float, or an int if `isInt` (the seed time is stored as given, particle_track.py:527, and is 0 by default,
particle_track.py:455). -/
def timeTree (isInt : Bool) : Fl K → JTree K
  | .fin x => if isInt then .int ⌊x⌋ else .flt (.fin x)
  | x => .flt x

/-- A list of lists of Python objects (particle_track.py:549-553). -/
def rowsTree {α : Type} (f : Nat → α → JTree K) (rows : List (List α)) : JTree K :=
  .list (.ofList (rows.mapIdx fun i r => .list (.ofList (r.map (f i)))))

/-- A value of a tracked variable as a Python object (lagrangian_walker.py:539, 545; particle_track.py:689). Simplification: grids of floating point
numbers. -/
def valTree : Val K → JTree K
  | .none => .null
  | .flag n => .int n
  | .num x => .flt x

/-- The travel times of one particle (particle_track.py:553, 711, 756): only the first one can be an int. -/
def timeRow (isInt : Bool) : List (Fl K) → List (JTree K)
  | [] => []
  | t :: ts => timeTree isInt t :: ts.map .flt

/-- The walk data dictionary as a Python object (particle_track.py:616-619, 717-721, 772-776); `ints` tells of which particles the seed time was
given as an int. -/
def walkTree (ints : Nat → Bool) (wd : WalkData K) : JTree K :=
  .dict (.ofList ([("xinds", rowsTree (fun _ n => .int n) wd.xinds), ("yinds", rowsTree (fun _ n => .int n) wd.yinds),
    ("travel_times", .list (.ofList (wd.times.mapIdx fun i r => .list (.ofList (timeRow (ints i) r)))))] ++
    wd.opt.map fun e => (e.1, rowsTree (fun _ => valTree) e.2)))

variable (A : Arith K) (F : Fun K A) (R : FloatText K)

/-- `steady_plots` with the text of `data/data.txt`, if one is written (routines.py:25-118). -/
def steadyPlotsFile (P : PObj K) (ω : Nat → K) (s : PState K) (numIter : Int) (save : Bool) (ints : Nat → Bool) :
    Except PyErr (WalkData K × PState K × Option (List Char)) := do
  let r ← steadyPlots A F P ω s numIter save
  return (r.1, r.2.1, if save then some (dumpText R (walkTree ints r.1)) else none)

/-- `time_plots` with the text of `data/data.txt` (routines.py:297-387). -/
def timePlotsFile (P : PObj K) (ω : Nat → K) (s : PState K) (numIter : Int) (ints : Nat → Bool) :
    Except PyErr (WalkData K × PState K × List Char) := do
  let r ← timePlots A F P ω s numIter
  return (r.1, r.2.1, dumpText R (walkTree ints r.1))

/-- `unsteady_plots` with the text of `data/data.txt` (routines.py:121-294); the seed time is the int 0 (routines.py:254-255,
particle_track.py:455). -/
def unsteadyPlotsFile (ω : Nat → K) (pos : Nat) (dx : K) (np xs ys : PyVal K) (numSteps : Int) (t : K) (dir : List (String × FileData K))
    (outputType : String) : Except PyErr (WalkData K × List Char) := do
  let r ← unsteadyPlots A F ω pos dx np xs ys numSteps t dir outputType
  return (r.1, dumpText R (walkTree (fun _ => true) r.1))

/-- The text of `data/exposure_times.txt` (routines.py:645-647) for exposure times as returned by `exposure_time` (particle_track.py:1053). -/
def exposureText (expo : List (Fl K)) : List Char := dumpText R (.list (.ofList (expo.map .flt)))

end

end Dorado
