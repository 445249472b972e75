import Verif.Model.Kernels
import Verif.Model.Memory
import Verif.Model.Tridiag
import Verif.Model.DistPanel
import Verif.Spec.Spmd
/-
Model of the permutations of the columns or rows of a matrix (CPU): include/dlaf/permutations/general.h and
include/dlaf/permutations/general/impl.h.

`none` is an assertion failure or an access outside a tile or array.  Index vectors are contiguous arrays (property C34)
and are lists here.  The tasks of a `bulk` may run in any order, which is a parameter (`order`).  The vectors of tiles
handed to a task are indexed by the tile position in the window instead of the column-major linear index (C09); the window
of the tiles is the one of `subm_dist`.
-/
namespace DLAF
variable {K : Type}

/-- `Index2D(Coord, x, y)`, common/index2d.h:78-83: `x` along `C`, `y` along the other coordinate. -/
def Coord.mk2 (C : Coord) (x y : Int) : Coord2 :=
  match C with
  | .Row => ⟨x, y⟩
  | .Col => ⟨y, x⟩

/-- The size of a tile along a coordinate. -/
def Blk.sizeAlong (b : Blk K) : Coord → Nat
  | .Row => b.rows
  | .Col => b.cols

/-- The element with index `x` along `C` and `y` along the other coordinate. -/
def Blk.elem (b : Blk K) (C : Coord) (x y : Nat) : K :=
  match C with
  | .Row => b.e x y
  | .Col => b.e y x

/-- The tile with one element replaced in each position satisfying `p`. -/
def Blk.update (b : Blk K) (C : Coord) (f : Nat → Nat → K) : Blk K :=
  match C with
  | .Row => { b with e := f }
  | .Col => { b with e := fun i j => f j i }

def Coord2.add (a b : Coord2) : Coord2 := ⟨a.row + b.row, a.col + b.col⟩

/-- `lacpy(region, in_idx, in, out_idx, out)` with a region of one vector, lapack/tile.h:85-96, impl.h:124-126: copies the
vector `x_in` of `tin` to the vector `x_out` of `tout`; the region must fit in both tiles. -/
def copyVector (C : Coord) (tin : Blk K) (x_in : Int) (tout : Blk K) (x_out : Int) : Option (Blk K) :=
  let region := tin.sizeAlong C.orth
  if (0 ≤ x_in ∧ x_in < tin.sizeAlong C) ∧ (0 ≤ x_out ∧ x_out < tout.sizeAlong C) ∧ region ≤ tout.sizeAlong C.orth then
    some (tout.update C fun x y => if (x : Int) = x_out ∧ y < region then tin.elem C x_in.toNat y else tout.elem C x y)
  else none

/-- A local distribution `Distribution(LocalElementSize, TileElementSize)`, one coordinate, impl.h:175, 588. -/
def localDist (n nb : Int) : Dist1 := Dist1.buildLocal n nb 0

/-- `applyPermutationOnCPU`, impl.h:96-128: `perm_from`/`perm_to` are indices in the sub-matrix described by `sub` (the
`subm_dist` along `C`) with `n_oc` tiles along the other coordinate; the windows of the two matrices start at the
tiles `o_in`, `o_out`. -/
def applyPermutation (C : Coord) (sub : Dist1) (n_oc : Int) (perm_from perm_to : Int) (tin : Coord2 → Blk K)
    (o_in : Coord2) (tout : Coord2 → Blk K) (o_out : Coord2) : Option (Coord2 → Blk K) :=
  forM' (irange 0 n_oc) tout fun s i_lc =>
    let ij_in := o_in.add (C.mk2 (sub.local_tile_from_local_element perm_from) i_lc)
    let ij_out := o_out.add (C.mk2 (sub.local_tile_from_local_element perm_to) i_lc)
    (copyVector C (tin ij_in) (sub.tile_element_from_local_element perm_from)
      (s ij_out) (sub.tile_element_from_local_element perm_to)).map fun b => set1 s ij_out b

/-- The tasks `applyPermutationOnCPU(i_perm)` for `i_perm` in `order`, skipping the ones whose `perm_arr[i_perm]` does not
satisfy `cond`: impl.h:194-211, 421-436, 487-497, 524-533. -/
def bulkPermute (C : Coord) (sub : Dist1) (n_oc : Int) (order : List Nat) (perm : List Int) (cond : Int → Bool)
    (tin : Coord2 → Blk K) (o_in : Coord2) (tout : Coord2 → Blk K) (o_out : Coord2) : Option (Coord2 → Blk K) :=
  forM' order tout fun s i_perm =>
    perm[i_perm]?.bind fun p =>
      if cond p then applyPermutation C sub n_oc p i_perm tin o_in s o_out else some s

/-- The first local tiles of the range `[i_begin, ...)` along both coordinates, impl.h:180-184. -/
def nextLocal (d : Distribution) (i : Int) : Coord2 :=
  ⟨d.row.next_local_tile_from_global_tile i, d.col.next_local_tile_from_global_tile i⟩

/-- The assertions of the two `permute` functions on the shape of `mat_in` (general.h:53-77, 116-133), `nperms` being the
size of `perms` and `nperms_req` the size it must have. -/
def permuteChecks (P : Params2) (nb_perms nperms nperms_req i_begin i_end nr_tiles : Int) : Bool :=
  P.row.size = P.col.size && P.row.block = P.col.block && P.row.block = P.row.tile && P.col.block = P.col.tile &&
  nb_perms = P.row.block && nperms = nperms_req && (0 ≤ i_begin && i_begin ≤ i_end) && i_end ≤ nr_tiles

/-- `permute` of a local matrix or of the local part of a distributed matrix on process `r`, general.h:49-81 and
impl.h:167-226 (`perms` is the whole index vector of the process, in tiles of `nb_perms` elements). -/
def permuteLocal (C : Coord) (P : Params2) (r : Coord2) (i_begin i_end : Int) (nb_perms : Int) (perms : List Nat)
    (order : List Nat) (tin tout : Coord2 → Blk K) : Option (Coord2 → Blk K) :=
  let d := P.on r
  if permuteChecks P nb_perms perms.length (d.get C).localSize i_begin i_end d.row.nrTiles then
    if i_begin = i_end then some tout
    else
      let n := (d.get C).local_element_distance_from_global_tile i_begin i_end
      let m := (d.get C.orth).local_element_distance_from_global_tile i_begin i_end
      if n = 0 ∨ m = 0 then some tout
      else
        let begin := nextLocal d i_begin
        let perm_arr := perms.drop (begin.get C * nb_perms).toNat
        bulkPermute C (localDist n (P.get C).tile) (localDist m (P.get C.orth).tile).localNrTiles order
          (perm_arr.map Int.ofNat) (fun _ => true) tin begin tout begin
  else none

/-! ### Distributed -/

/-- The loop over the local indices in `initPackingIndex` for one rank, impl.h:357-372: state `(out, nperms_local)`. -/
def packStep (back : Bool) (d : Dist1) (offset_sub : Int) (loc2sub : List Nat) (rank displ : Nat) (s : List Nat × Nat)
    (l : Nat) : Option (List Nat × Nat) :=
  loc2sub[l]?.bind fun sub =>
    if d.rank_global_element (offset_sub + sub) = rank then
      (if back then setAt s.1 (displ + s.2) l else setAt s.1 l (displ + s.2)).map fun out => (out, s.2 + 1)
    else some s

/-- `std::sort(out + displ, out + displ + n, loc2sub[i1] < loc2sub[i2])`, impl.h:376-378. -/
def sortSegment (loc2sub out : List Nat) (displ n : Nat) : List Nat :=
  out.take displ ++ ((out.drop displ).take n).mergeSort (fun i j => decide (loc2sub.getD i 0 ≤ loc2sub.getD j 0)) ++
    out.drop (displ + n)

/-- One rank of `initPackingIndex`, impl.h:354-381: state `(out, counts)`, the displacement being the sum of the counts so
far. -/
def packRank (back : Bool) (d : Dist1) (offset_sub : Int) (loc2sub : List Nat) (s : List Nat × List Nat) (rank : Nat) :
    Option (List Nat × List Nat) :=
  let displ := s.2.sum
  (forM' (upto 0 loc2sub.length) (s.1, 0) (packStep back d offset_sub loc2sub rank displ)).map fun t =>
    ((if back then sortSegment loc2sub t.1 displ t.2 else t.1), s.2 ++ [t.2])

/-- `initPackingIndex`, impl.h:343-390: the index array and the counts. -/
def initPackingIndex (back : Bool) (nranks : Nat) (d : Dist1) (offset_sub : Int) (loc2sub out : List Nat) :
    Option (List Nat × List Nat) :=
  forM' (upto 0 nranks) (out, []) (packRank back d offset_sub loc2sub)

/-- `copyLocalPartsFromGlobalIndex`, impl.h:394-407: entry `(i, te)` of the local index vector (tile `i`, element `te`) is
the entry `te` of the tile `globalTileFromLocalTile(i_loc_begin + i)` of the global one. -/
def copyLocalParts (d : Dist1) (i_loc_begin nvecs : Int) (global_index : List Nat) : Option (List Nat) :=
  mapOpt (fun x : Nat =>
    let i := (localDist nvecs d.tileSize).local_tile_from_local_element x
    let te := (localDist nvecs d.tileSize).tile_element_from_local_element x
    global_index[(d.global_element_from_global_tile_and_tile_element (d.global_tile_from_local_tile (i_loc_begin + i)) te).toNat]?)
    (List.range nvecs.toNat)

/-- A newly allocated matrix of `n` vectors of `m` elements, in tiles of size `nb` x `nb_oc`; its contents are arbitrary. -/
def newMatrix (C : Coord) (n m nb nb_oc : Int) (junk : Coord2 → Nat → Nat → K) : Coord2 → Blk K := fun c =>
  let a := ((localDist n nb).local_tile_size_of (c.get C)).toNat
  let b := ((localDist m nb_oc).local_tile_size_of (c.get C.orth)).toNat
  match C with
  | .Row => ⟨a, b, junk c⟩
  | .Col => ⟨b, a, junk c⟩

/-- What a process has computed when its communication starts. -/
structure PermData (K : Type) where
  n : Int
  m : Int
  sendCounts : List Nat
  recvCounts : List Nat
  unpacking : List Nat
  matSend : Coord2 → Blk K

/-- The part of `permuteOnCPU` before the communication, impl.h:541-624, on process `r`: `some none` when the process
returns early. -/
def permutePack (C : Coord) (P : Params2) (r : Coord2) (i_begin i_end : Int) (perms : List Nat) (order : List Nat)
    (junkIndex : List Nat) (junk : Coord2 → Nat → Nat → K) (tin : Coord2 → Blk K) : Option (Option (PermData K)) :=
  let d := P.on r
  let dC := d.get C
  if i_begin = i_end then some none
  else
    let nranks := (P.get C).grid.toNat
    let offset_sub := dC.global_element_from_global_tile_and_tile_element i_begin 0
    let i_loc_begin := nextLocal d i_begin
    let n := dC.local_element_distance_from_global_tile i_begin i_end
    let m := (d.get C.orth).local_element_distance_from_global_tile i_begin i_end
    if n = 0 ∨ m = 0 then some none
    else
      -- `invertIndex(i_begin, i_end, perms, inverse_perms)` on the entries of the tiles [i_begin, i_end)
      let nsub := (dC.global_tile_element_distance i_begin i_end).toNat
      let sub_perms := (perms.drop offset_sub.toNat).take nsub
      (invertIndex sub_perms (junkIndex.take nsub)).bind fun inv_sub =>
      let inverse_perms := junkIndex.take offset_sub.toNat ++ inv_sub
      (copyLocalParts dC (i_loc_begin.get C) n perms).bind fun l2g =>
      (initPackingIndex false nranks dC offset_sub l2g (junkIndex.take n.toNat)).bind fun unpack =>
      (copyLocalParts dC (i_loc_begin.get C) n inverse_perms).bind fun l2g' =>
      (initPackingIndex true nranks dC offset_sub l2g' (junkIndex.take n.toNat)).bind fun pack =>
      (bulkPermute C (localDist n (P.get C).tile) (localDist m (P.get C.orth).tile).localNrTiles order
        (pack.1.map Int.ofNat) (fun _ => true) tin i_loc_begin
        (newMatrix C n m (P.get C).tile (P.get C.orth).tile junk) ⟨0, 0⟩).bind fun matSend =>
      some (some { n := n, m := m, sendCounts := pack.2, recvCounts := unpack.2, unpacking := unpack.1, matSend := matSend })

/-- The element with index `x` along `C` and `y` along the other coordinate of a column-major matrix in tiles of size
`nb`, `nb_oc`: its address is `ptr + x * stride + y * ...` (C11). -/
def flatElem (C : Coord) (nb nb_oc : Int) (t : Coord2 → Blk K) (x y : Nat) : K :=
  (t (C.mk2 (x / nb) (y / nb_oc))).elem C (x % nb.toNat) (y % nb_oc.toNat)

/-- `std::exclusive_scan` / `std::accumulate` of the counts before `rank`, impl.h:283-284, 464-477, 509-511. -/
def displOf (counts : List Nat) (rank : Nat) : Nat := (counts.take rank).sum

/-- The counts of a process; a process that returned early takes part in no message. -/
def countsTo (f : PermData K → List Nat) (D : Option (PermData K)) (rank : Nat) : Nat :=
  match D with
  | none => 0
  | some D => (f D).getD rank 0

/-- The partner `q` of process `r` in the communicator: same position along the other coordinate. -/
def Coord2.setAlong (r : Coord2) (C : Coord) (q : Int) : Coord2 := C.mk2 q (r.get C.orth)

/-- `all2allData`, impl.h:261-334, on process `r`: the message from each partner `q` has the length the receiver expects
(otherwise the receive fails or waits forever: `none`) and its vectors go to the segment of `q` in `mat_recv`. -/
def exchange (C : Coord) (P : Params2) (data : Coord2 → Option (PermData K)) (r : Coord2) (D : PermData K)
    (junk : Coord2 → Nat → Nat → K) : Option (Coord2 → Blk K) :=
  let nranks := (P.get C).grid.toNat
  let me := (r.get C).toNat
  if ∀ q ∈ List.range nranks, q ≠ me →
      countsTo PermData.sendCounts (data (r.setAlong C q)) me = D.recvCounts.getD q 0 ∧
      (D.recvCounts.getD q 0 ≠ 0 → ((data (r.setAlong C q)).map PermData.m).getD 0 = D.m) then
    some fun c =>
      (newMatrix C D.n D.m (P.get C).tile (P.get C.orth).tile junk c).update C fun x y =>
        let X := x + (c.get C * (P.get C).tile).toNat
        let Y := y + (c.get C.orth * (P.get C.orth).tile).toNat
        match (List.range nranks).find? fun q =>
            decide (displOf D.recvCounts q ≤ X ∧ X < displOf D.recvCounts q + D.recvCounts.getD q 0) with
        | none => junk c x y
        | some q =>
          if q = me then junk c x y
          else match data (r.setAlong C q) with
            | none => junk c x y
            | some Q => flatElem C (P.get C).tile (P.get C.orth).tile Q.matSend
                (displOf Q.sendCounts me + (X - displOf D.recvCounts q)) Y
  else none

/-- The part of `permuteOnCPU` after the packing, impl.h:627-652, on process `r`: `unpackLocalOnCPU` (450-499), then the
communication and `unpackOthersOnCPU` (501-535). -/
def permuteUnpack (C : Coord) (P : Params2) (r : Coord2) (i_begin : Int) (order1 order2 : List Nat)
    (data : Coord2 → Option (PermData K)) (D : PermData K) (junk : Coord2 → Nat → Nat → K) (tout : Coord2 → Blk K) :
    Option (Coord2 → Blk K) :=
  let begin := nextLocal (P.on r) i_begin
  let me := (r.get C).toNat
  let sub := localDist D.n (P.get C).tile
  let n_oc := (localDist D.m (P.get C.orth).tile).localNrTiles
  let a := displOf D.sendCounts me
  let b := a + D.sendCounts.getD me 0
  let a_r := displOf D.recvCounts me
  let b_r := a_r + D.recvCounts.getD me 0
  let offset : Int := a - a_r
  (bulkPermute C sub n_oc order1 (D.unpacking.map fun p : Nat => p + offset) (fun p => a ≤ p ∧ p < b) D.matSend ⟨0, 0⟩
    tout begin).bind fun tout =>
  (exchange C P data r D junk).bind fun matRecv =>
  bulkPermute C sub n_oc order2 (D.unpacking.map Int.ofNat) (fun p => p < a_r ∨ b_r ≤ p) matRecv ⟨0, 0⟩ tout begin

/-- Distributed `permute`, general.h:109-140 and impl.h:537-652, on all the processes of the grid.  Orders of the tasks and
initial contents of the buffers are arbitrary. -/
def permuteDist (C : Coord) (P : Params2) (i_begin i_end : Int) (nb_perms : Int) (perms : List Nat)
    (order : Nat → Coord2 → List Nat) (junkIndex : Coord2 → List Nat) (junk : Nat → Coord2 → Coord2 → Nat → Nat → K)
    (tin tout : Coord2 → Coord2 → Blk K) : Option (Coord2 → Coord2 → Blk K) :=
  if permuteChecks P nb_perms perms.length P.row.size i_begin i_end P.row.dist.nrTiles then
    (mapOpt (fun r => (permutePack C P r i_begin i_end perms (order 0 r) (junkIndex r) (junk 0 r) (tin r)).map fun D => (r, D))
      P.ranks).bind fun packs =>
    let data : Coord2 → Option (PermData K) := fun r => (packs.find? fun x => x.1 = r).bind Prod.snd
    forM' P.ranks tout fun s r =>
      match data r with
      | none => some s
      | some D => (permuteUnpack C P r i_begin (order 1 r) (order 2 r) data D (junk 1 r) (s r)).map fun t => set1 s r t
  else none

end DLAF
