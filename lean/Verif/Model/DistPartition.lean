import Verif.Model.Tridiag
import Verif.Model.Dist
/-
Model of the distributed version of `stablePartitionIndexForDeflationArrays`, include/dlaf/eigensolver/tridiag_solver/merge.h:430-590.

The arrays are lists; an access outside of an array is undefined behaviour and gives `none`.  `offsets`, a vector of arrays of four numbers with one entry per process
column, is a function of the process column and the place, accessed for process columns of the grid only.  The arrays `i5_lc`, `i4` and `i6`, which the function writes
completely from the first to the last entry, are returned as new lists.
-/
namespace DLAF
namespace DistPart

/-- `std::count_if(types, types + n, ...)`, merge.h:436-437. -/
def countNonDeflated (types : List ColType) : Nat := types.countP fun t => decide (t ≠ .Deflated)

section
variable (d : Dist1) (types : List ColType)

/-- `dist_sub.rank_global_element<Coord::Col>(jj)` as an index of `offsets`. -/
def rankOf (jj : Nat) : Option Int :=
  if 0 ≤ d.rank_global_element jj ∧ d.rank_global_element jj < d.grid then some (d.rank_global_element jj) else none

/-- `++offsets[r][o]`. -/
def bump (off : Int → Nat → Nat) (r : Int) (o : Nat) : Int → Nat → Nat := fun r' o' => if r' = r ∧ o' = o then off r o + 1 else off r' o'

/-- Number of columns of each type on each process column, merge.h:485-494; `rest`: the remaining entries of `index_sorted`. -/
def countLoop : (rest : List Nat) → (off : Int → Nat → Nat) → Option (Int → Nat → Nat)
  | [], off => some off
  | jj :: rest, off =>
    types[jj]?.bind fun t => (rankOf d jj).bind fun r =>
      countLoop rest (if t ≠ .Deflated then bump off r (1 + ev_sort_order t) else off)

/-- `std::partial_sum` for each process column, merge.h:495-497. -/
def sums (off : Int → Nat → Nat) : Int → Nat → Nat := fun r o => ((List.range (o + 1)).map (off r)).sum

/-- `out[i] = v` with a signed index. -/
def setAtI (out : List Nat) (i : Int) (v : Nat) : Option (List Nat) := if 0 ≤ i then setAt out i.toNat v else none

/-- The columns sorted by type on each process column, merge.h:505-518. -/
def binLoop : (rest : List Nat) → (off : Int → Nat → Nat) → (out : List Nat) → Option (List Nat)
  | [], _, out => some out
  | jj :: rest, off, out =>
    types[jj]?.bind fun t => (rankOf d jj).bind fun r =>
      (setAtI out (d.global_element_from_local_element_on_rank r (off r (ev_sort_order t))) jj).bind fun out =>
        binLoop rest (bump off r (ev_sort_order t)) out

/-- `i5_lc`, merge.h:521-524. -/
def localIndex (coltype : List Nat) : Option (List Int) :=
  mapOpt (fun l : Nat => if 0 ≤ d.global_element_from_local_element l then
    (coltype[(d.global_element_from_local_element l).toNat]?).map fun g : Nat => d.local_element_from_global_element g else none) (List.range d.localSize.toNat)

end

/-- `first_dense`, merge.h:527-533: `cs` are the types along `index_sorted_coltype`. -/
def firstDense : (cs : List ColType) → Nat
  | [] => 0
  | c :: cs => if .UpperHalf ≠ c then 0 else firstDense cs + 1

/-- The loops that go down from `j - 1` to the last entry that satisfies `stop`, merge.h:540-555; the result is one more than the variable of the loop at its end. -/
def lastLoop (stop : ColType → Bool) (cs : List ColType) : (j : Nat) → Option Nat
  | 0 => some 0
  | j + 1 => cs[j]?.bind fun c => if stop c then some (j + 1) else lastLoop stop cs j

/-- `i6`, merge.h:577-589; `rest`: the remaining types and entries of `i4`, `jnd`: the number of non-deflated columns so far. -/
def i6Loop : (rest : List (ColType × Nat)) → (jnd : Nat) → List Nat
  | [], _ => []
  | (c, a) :: rest, jnd => if c ≠ .Deflated then jnd :: i6Loop rest (jnd + 1) else a :: i6Loop rest jnd

/-- What the function returns and writes; `i2` is the new content of `perm_sorted`. -/
structure Result where
  k : Nat
  k_lc : Nat
  n_udl : List Nat
  index_sorted : List Nat
  index_sorted_coltype : List Nat
  i5_lc : List Int
  i4 : List Nat
  i6 : List Nat
  i2 : List Nat
deriving DecidableEq, Repr

/-- merge.h:430-598; `d`: the distribution of the columns of `dist_sub` on the calling process; `out1`, `out2`: the previous contents of `index_sorted` and
`index_sorted_coltype`. -/
def stablePartition {T : Type} [LT T] [DecidableLT T] (d : Dist1) (types : List ColType) (evals : List T) (perm_sorted out1 out2 : List Nat) : Option Result :=
  let k := countNonDeflated types
  (partitionLoop types evals k perm_sorted 0 k out1).bind fun s =>
  (countLoop d types s fun _ _ => 0).bind fun cnt =>
  (binLoop d types s (sums cnt) out2).bind fun c =>
  (localIndex d c).bind fun i5 =>
  (mapOpt (fun i => types[i]?) c).bind fun cs =>
  (lastLoop (fun t => decide (.Deflated ≠ t)) cs cs.length).bind fun lastLower =>
  (lastLoop (fun t => decide (.LowerHalf ≠ t ∧ .Deflated ≠ t)) cs lastLower).bind fun lastDense =>
  (invertIndex s perm_sorted).bind fun i2 =>
  (applyIndex c i2).bind fun i4 =>
  (invertIndex (i6Loop (cs.zip i4) 0) i2).map fun i2' =>
    ⟨k, sums cnt d.rank (ev_sort_order .Deflated), [firstDense cs, lastDense, lastLower], s, c, i5, i4, i6Loop (cs.zip i4) 0, i2'⟩

end DistPart
end DLAF
