import Verif.Model.Dist
/-
Model of include/dlaf/common/index2d.h (linear index <-> coordinates), include/dlaf/common/range2d.h
(2D iteration) and `interleaveSplits` of include/dlaf/util_math.h.
-/
namespace DLAF

/-- `enum class Ordering`, index2d.h:31 -/
inductive Ordering2 | RowMajor | ColumnMajor
deriving DecidableEq, Repr

/-- index2d.h:212-215 `Index2D::isIn` -/
def Coord2.isIn (i dims : Coord2) : Bool :=
  0 ≤ i.row && i.row < dims.row && (0 ≤ i.col && i.col < dims.col)

/-- index2d.h:299-312 -/
def computeCoordsRowMajor (linear_index : Int) (dims : Coord2) : Coord2 :=
  ⟨cdiv linear_index dims.col, cmod linear_index dims.col⟩
/-- index2d.h:320-331 -/
def computeCoordsColMajor (linear_index : Int) (dims : Coord2) : Coord2 :=
  ⟨cmod linear_index dims.row, cdiv linear_index dims.row⟩
/-- index2d.h:343-354 -/
def computeCoords (o : Ordering2) (index : Int) (dims : Coord2) : Coord2 :=
  match o with
  | .RowMajor => computeCoordsRowMajor index dims
  | .ColumnMajor => computeCoordsColMajor index dims
/-- index2d.h:364-377.  `integral_cast` (checked narrowing) is the identity on integers. -/
def computeLinearIndexRowMajor (index dims : Coord2) : Int := index.row * dims.col + index.col
/-- index2d.h:387-400 -/
def computeLinearIndexColMajor (index dims : Coord2) : Int := index.col * dims.row + index.row
/-- index2d.h:413-424 -/
def computeLinearIndex (o : Ordering2) (index dims : Coord2) : Int :=
  match o with
  | .RowMajor => computeLinearIndexRowMajor index dims
  | .ColumnMajor => computeLinearIndexColMajor index dims

/-- `IteratorRange2D`, range2d.h:46-167: the data members (`current_` is a function of the others,
see `deref`). -/
structure Iter2D where
  begin_ : Coord2
  i : Int
  ld : Int
deriving DecidableEq, Repr

namespace Iter2D
/-- range2d.h:59-62 (constructor: `ld_ = max(ld, 1)`) -/
def mk' (b : Coord2) (ld i : Int) : Iter2D := ⟨b, i, max ld 1⟩
/-- range2d.h:64-66, 158-161 (`operator*` returns `current_` as set by `updateIndex2D`) -/
def deref (it : Iter2D) : Coord2 := ⟨it.begin_.row + cmod it.i it.ld, it.begin_.col + cdiv it.i it.ld⟩
/-- range2d.h:78-82 `operator++` -/
def next (it : Iter2D) : Iter2D := { it with i := it.i + 1 }
/-- range2d.h:130-136 `operator!=` -/
def ne (a b : Iter2D) : Bool := a.i ≠ b.i
end Iter2D

/-- `IterableRange2D`, range2d.h:170-218 (members). -/
structure Range2D where
  begin_idx : Coord2
  ld : Int
  i_max : Int
deriving DecidableEq, Repr

namespace Range2D
/-- range2d.h:177-178: from an index and a size. -/
def ofSize (b sz : Coord2) : Range2D := ⟨b, sz.row, sz.row * sz.col⟩
/-- range2d.h:180-185: from begin and end; `none` when an assertion fails. -/
def ofEnd (b e : Coord2) : Option Range2D :=
  if b.row ≤ e.row ∧ b.col ≤ e.col then
    some ⟨b, e.row - b.row, (e.row - b.row) * (e.col - b.col)⟩
  else none
/-- range2d.h:187-192 -/
def begin_ (r : Range2D) : Iter2D := .mk' r.begin_idx r.ld 0
def end_ (r : Range2D) : Iter2D := .mk' r.begin_idx r.ld r.i_max

/-- The range-based `for` statement: `for (it = begin; it != end; ++it) visit(*it)`.  `none` =
the loop has not ended after `fuel` iterations. -/
def forLoop (e : Iter2D) : (fuel : Nat) → Iter2D → Option (List Coord2)
  | 0, _ => none
  | fuel + 1, it =>
    if it.ne e then (forLoop e fuel it.next).map (it.deref :: ·) else some []

end Range2D

/-- Loop of `interleaveSplits`, util_math.h:57-62.  `acc` is the vector so far. -/
def splitsLoop (l b i j : Int) (acc : List Int) : List Int :=
  if h : 0 < b ∧ (i < l ∨ j < l) then
    let acc := if acc.getLast? ≠ some i ∧ i < l then acc ++ [i] else acc
    let acc := if acc.getLast? ≠ some j ∧ j < l then acc ++ [j] else acc
    splitsLoop l b (i + b) (j + b) acc
  else acc
termination_by (l - i).toNat + (l - j).toNat
decreasing_by omega

/-- `interleaveSplits`, util_math.h:39-66; `none` when an assertion fails. -/
def interleaveSplits (l b o1 o2 : Int) : Option (List Int) :=
  if 0 < l ∧ 0 < b ∧ (0 ≤ o1 ∧ o1 ≤ b) ∧ (0 ≤ o2 ∧ o2 ≤ b) then
    let small := if o1 > o2 then o2 else o1
    let big := if o1 > o2 then o1 else o2
    some (splitsLoop l b small big [0] ++ [l])
  else none

end DLAF
