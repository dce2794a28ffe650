import Verif.Model.NDArray
/-
Specification of basic indexing: what Python's own sequence indexing selects.  Uses no arithmetic formula for lengths.
-/
namespace Whale

/-- The first candidate position of a slice. -/
def sliceLo (n : Int) : Option Int → Int
  | none => 0
  | some i => max 0 (if i < 0 then i + n else i)

/-- The bound of a slice. -/
def sliceHi (n : Int) : Option Int → Int
  | none => n
  | some i => if i < 0 then i + n else i

/-- The positions that `range(n)[start:stop:step]`, `step > 0`, selects, in order: all `k` in `range(n)` from `start` on and before `stop` whose distance
from the start is a multiple of `step`; omitted bounds are 0 and `n`, negative ones count from the end, a start before the beginning means 0. -/
def pySlice (n : Int) (start stop : Option Int) (step : Int) : List Int :=
  (irange n).filter fun k => decide (sliceLo n start ≤ k ∧ k < sliceHi n stop ∧ (k - sliceLo n start) % step = 0)

/-- What one subscript selects along an axis of length `n`: one position (the axis disappears) or a list of positions; `none` if it is not legal. -/
inductive Pick
  | one (p : Int)
  | many (l : List Int)
deriving DecidableEq, Repr

def pickSub (n : Int) : RawSub → Option Pick
  | .int i => if -n ≤ i ∧ i < n then some (.one (if i < 0 then i + n else i)) else none
  | .slice start stop step => if 0 < step.getD 1 then some (.many (pySlice n start stop (step.getD 1))) else none
  | .other => none

/-- What a whole subscript selects from a shape; axes without subscript are taken whole, too many subscripts are not legal. -/
def picks : List Int → List RawSub → Option (List Pick)
  | [], [] => some []
  | [], _ :: _ => none
  | n :: s, [] => (picks s []).map (.many (irange n) :: ·)
  | n :: s, r :: rs => match pickSub n r, picks s rs with
    | some p, some ps => some (p :: ps)
    | _, _ => none

/-- The shape of the selection. -/
def pickShape : List Pick → List Int
  | [] => []
  | .one _ :: r => pickShape r
  | .many l :: r => (l.length : Int) :: pickShape r

/-- Where the element at `idx` of the selection comes from. -/
def pickIdx : List Pick → List Int → List Int
  | [], _ => []
  | .one p :: r, idx => p :: pickIdx r idx
  | .many l :: r, k :: idx => geti l k.toNat :: pickIdx r idx
  | .many l :: r, [] => geti l 0 :: pickIdx r []

end Whale
