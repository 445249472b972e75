import Verif.Model.Memory
/-
Model of the index vectors of the tridiagonal eigensolver:
include/dlaf/eigensolver/tridiag_solver/index_manipulation.h, the local deflation partition of
include/dlaf/eigensolver/tridiag_solver/merge.h, and include/dlaf/eigensolver/internal/get_band_size.h,
get_1d_block_size.h.

The routines take the pointer of the first tile of a range of tiles of a column vector and use it as an
array of `n` entries.  Here such an array is a list of length `n`; that the pointer does address the `n`
entries is a separate statement about the memory layout (`vecAddr`).  Indices are natural numbers;
an access outside `[0, n)` is undefined behaviour: `none`.
-/
namespace DLAF

/-! ### band size -/

/-- get_band_size.h:26-29: the loop, `div` counting down to 2. -/
def bandLoop (nb : Int) : Nat → Int
  | 0 => nb
  | 1 => nb
  | d + 2 => if cmod nb ((d + 2 : Nat) : Int) = 0 then cdiv nb ((d + 2 : Nat) : Int) else bandLoop nb (d + 1)

/-- get_band_size.h:20-31 `getBandSize`; `none` = assertion failure.  `b_min` is the tune parameter
`eigensolver_min_band`. -/
def getBandSize (b_min nb : Int) : Option Int :=
  if nb ≥ 1 ∧ b_min ≥ 2 then some (bandLoop nb (cdiv nb b_min).toNat) else none

/-- get_1d_block_size.h:19-26 `get1DBlockSize` -/
def get1DBlockSize (nb_base nb : Int) : Option Int :=
  if nb ≥ 1 ∧ nb_base ≥ 1 then some (max 1 (cdiv nb_base nb * nb)) else none

/-! ### index vectors -/

/-- index_manipulation.h:30-35 `problemSize` -/
def problemSize (i_begin i_end : Int) (d : Dist1) : Int :=
  (i_end - i_begin - 1) * d.tileSize + d.global_tile_size_of (i_end - 1)

/-- Address of entry `p` as the routines compute it: the pointer of the first element of the tile
`i_begin` of a local column vector, plus `p` (e.g. index_manipulation.h:99-106). -/
def vecAddr (m : MatrixMem) (i_begin : Nat) (p : Int) : Option (ChunkId × Int) :=
  (m.tiles[i_begin]?).map fun t => ((t.addr 0 0).1, (t.addr 0 0).2 + p)

/-- index_manipulation.h:39-56 `initIndex`: what is written in tile `i`. -/
def initIndexTile (d : Dist1) (i_begin i : Int) : List Int :=
  (List.range (d.global_tile_size_of i).toNat).map fun r : Nat => (i - i_begin) * d.tileSize + r

/-- `initIndex`: the tiles `[i_begin, i_begin + n)` one after the other. -/
def initIndex (d : Dist1) (i_begin : Int) (n : Nat) : List Int :=
  (List.range n).flatMap fun k : Nat => initIndexTile d i_begin (i_begin + k)

/-- index_manipulation.h:60-81 `addIndex` -/
def addIndex (val : Nat) (index : List Nat) : List Nat := index.map (· + val)

/-- `std::merge(first1, last1, first2, last2, out, comp)`: the second range's element goes first only if
it compares less. -/
def stdMerge {α : Type} (lt : α → α → Bool) : List α → List α → List α
  | [], ys => ys
  | xs, [] => xs
  | x :: xs, y :: ys => if lt y x then y :: stdMerge lt (x :: xs) ys else x :: stdMerge lt xs (y :: ys)
termination_by xs ys => xs.length + ys.length

/-- index_manipulation.h:87-117 `sortIndex`; `none`: the assertion `k <= n` or an index out of range (the
code reads the values of the indices it compares). -/
def sortIndex {T : Type} [LT T] [DecidableLT T] [Inhabited T] (k : Nat) (vec : List T) (in_index : List Nat) :
    Option (List Nat) :=
  if k ≤ in_index.length ∧ in_index.all (· < vec.length) then
    some (stdMerge (fun i1 i2 => decide (vec[i1]! < vec[i2]!)) (in_index.take k) (in_index.drop k))
  else none

/-- index_manipulation.h:120-143 `applyIndex`: `out[i] = in[index[i]]` -/
def applyIndex {T : Type} (index : List Nat) (inp : List T) : Option (List T) :=
  mapOpt (fun i => inp[i]?) index

/-- `out[i] = v`, undefined behaviour outside the array -/
def setAt {T : Type} (out : List T) (i : Nat) (v : T) : Option (List T) :=
  if i < out.length then some (out.set i v) else none

/-- index_manipulation.h:145-164 `invertIndex`: `out[in[i]] = i` for `i = 0, 1, ...`.  `i` counts, `rest`
are the remaining input entries, `out` is the output array so far. -/
def invertLoop : (i : Nat) → (rest : List Nat) → (out : List Nat) → Option (List Nat)
  | _, [], out => some out
  | i, a :: rest, out => (setAt out a i).bind fun out => invertLoop (i + 1) rest out

/-- index_manipulation.h:145-164 -/
def invertIndex (inp out : List Nat) : Option (List Nat) := invertLoop 0 inp out

/-! ### deflation partition -/

/-- coltype.h `ColType` -/
inductive ColType | UpperHalf | LowerHalf | Dense | Deflated
deriving DecidableEq, Repr

/-- merge.h:273-285 `ev_sort_order` -/
def ev_sort_order : ColType → Nat
  | .UpperHalf => 0
  | .Dense => 1
  | .LowerHalf => 2
  | .Deflated => 3

/-- merge.h:352-360: the search for the place of a deflated index, with the shift of the entries; `j`
counts down to `k`.  Result: the array and `j`. -/
def insertLoop {T : Type} [LT T] [DecidableLT T] (evals : List T) (a : T) (k : Nat) :
    (j : Nat) → (index_sorted : List Nat) → Option (List Nat × Nat)
  | 0, s => some (s, 0)
  | j + 1, s =>
    if j + 1 > k then
      s[j]?.bind fun prev => evals[prev]?.bind fun b =>
        if a > b then some (s, j + 1) else (setAt s (j + 1) prev).bind fun s => insertLoop evals a k j s
    else some (s, j + 1)

/-- merge.h:337-365: the loop over `perm_sorted` (`rest`); `i1`, `i2` next places for non-deflated and
deflated indices. -/
def partitionLoop {T : Type} [LT T] [DecidableLT T] (types : List ColType) (evals : List T) (k : Nat) :
    (rest : List Nat) → (i1 i2 : Nat) → (index_sorted : List Nat) → Option (List Nat)
  | [], _, _, s => some s
  | ii :: rest, i1, i2, s =>
    types[ii]?.bind fun t =>
    if t ≠ .Deflated then
      (setAt s i1 ii).bind fun s => partitionLoop types evals k rest (i1 + 1) i2 s
    else
      evals[ii]?.bind fun a => (insertLoop evals a k i2 s).bind fun r =>
        (setAt r.1 r.2 ii).bind fun s => partitionLoop types evals k rest i1 (i2 + 1) s

/-- merge.h:319-323: number of entries of each non-deflated type; entry 0 stays 0. -/
def typeCounts (types : List ColType) : List Nat :=
  types.foldl (fun o t => if t ≠ .Deflated then o.modify (1 + ev_sort_order t) (· + 1) else o) [0, 0, 0, 0]

/-- `std::partial_sum` -/
def partialSum : (acc : Nat) → List Nat → List Nat
  | _, [] => []
  | acc, x :: xs => (acc + x) :: partialSum (acc + x) xs

/-- merge.h:373-380: binning of the non-deflated indices; `rest` are the types of the indices
`j, j+1, ...`. -/
def binLoop : (j : Nat) → (rest : List ColType) → (offsets : List Nat) → (out : List Nat) →
    Option (List Nat)
  | _, [], _, out => some out
  | j, t :: rest, offsets, out =>
    if t ≠ .Deflated then
      offsets[ev_sort_order t]?.bind fun o => (setAt out o j).bind fun out =>
        binLoop (j + 1) rest (offsets.modify (ev_sort_order t) (· + 1)) out
    else binLoop (j + 1) rest offsets out

/-- `std::copy(src + k, src + n, dst + k)` for arrays of the same length -/
def copyFrom (k : Nat) (src dst : List Nat) : List Nat := dst.take k ++ src.drop k

/-- Result of the partition. -/
structure Partition where
  k : Nat
  n_udl : List Nat
  index_sorted : List Nat
  index_sorted_coltype : List Nat
deriving DecidableEq, Repr

/-- merge.h:305-384 `stablePartitionIndexForDeflationArrays` (local); `out1`, `out2` are the previous
contents of the two output arrays. -/
def stablePartition {T : Type} [LT T] [DecidableLT T] (types : List ColType) (evals : List T)
    (perm_sorted out1 out2 : List Nat) : Option Partition :=
  let counts := typeCounts types
  let n_udl := [counts.getD (1 + ev_sort_order .UpperHalf) 0, counts.getD (1 + ev_sort_order .Dense) 0,
    counts.getD (1 + ev_sort_order .LowerHalf) 0]
  let offsets := partialSum 0 counts
  let k := offsets.getD (ev_sort_order .Deflated) 0
  (partitionLoop types evals k perm_sorted 0 k out1).bind fun s =>
  (binLoop 0 types offsets out2).map fun c => ⟨k, n_udl, s, copyFrom k s c⟩

end DLAF
