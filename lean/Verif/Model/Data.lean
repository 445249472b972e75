import Verif.Model.Memory
/-
Model of data descriptors, MPI messages, element copies, tile copies and temporary tiles:
include/dlaf/common/data_descriptor.h, include/dlaf/common/data.h, include/dlaf/communication/message.h,
include/dlaf/communication/type_handler.h, include/dlaf/matrix/copy_tile.h, include/dlaf/matrix/copy.h,
include/dlaf/sender/with_temporary_tile.h, include/dlaf/communication/kernels/internal/*.h,
include/dlaf/communication/kernels/p2p_allsum.h.

A memory cell is (object, chunk, position): `object` tells apart the matrices / temporaries, `chunk`
is an allocation of that object.  Element types are arbitrary (`E`); copies move values unchanged.
-/
namespace DLAF

/-- Address of a memory cell: owning object, allocation of the object, element position. -/
abbrev Addr := Nat × ChunkId × Int

/-- `DataDescriptor`, data_descriptor.h:131-134; the pointer is (object, chunk, position). -/
structure Desc where
  obj : Nat
  chunk : ChunkId
  off : Int
  nblocks : Int
  blocksize : Int
  stride : Int
deriving DecidableEq, Repr

/-- `DataDescriptor(ptr, num_blocks, blocksize, stride)`, data_descriptor.h:62-73; `none` = assertion
failure. -/
def Desc.make (obj : Nat) (chunk : ChunkId) (off num_blocks blocksize stride : Int) : Option Desc :=
  if 0 ≤ num_blocks ∧ 0 ≤ blocksize ∧ 0 ≤ stride then
    let stride_ := if num_blocks = 1 then 0 else stride
    if blocksize = stride_ then some ⟨obj, chunk, off, 1, num_blocks * blocksize, 0⟩
    else some ⟨obj, chunk, off, num_blocks, blocksize, stride_⟩
  else none

/-- `is_contiguous`, data_descriptor.h:119-121 -/
def Desc.is_contiguous (d : Desc) : Bool := d.nblocks == 1 || d.stride == d.blocksize

/-- `count`, data_descriptor.h:114-116 -/
def Desc.count (d : Desc) : Int := if d.is_contiguous then d.blocksize else d.nblocks * d.blocksize

/-- Pointer `data() + k`. -/
def Desc.ptr (d : Desc) (k : Int) : Addr := (d.obj, d.chunk, d.off + k)

/-- One element assignment: (source, destination). -/
abbrev Assign := Addr × Addr

/-- `std::copy(src + i, src + i + n, dst + j)`: `n` assignments in increasing order. -/
def stdCopy (src dst : Desc) (i j n : Int) : List Assign :=
  (List.range n.toNat).map fun k : Nat => (src.ptr (i + k), dst.ptr (j + k))

/-- `common::copy`, data.h:136-178: the element assignments in program order; `heavy` = Debug build
(`DLAF_ASSERT_HEAVY` active), `none` = assertion failure.  The division by `blocksize` of the last
branch is only reached for a positive count. -/
def dataCopy (heavy : Bool) (src dst : Desc) : Option (List Assign) :=
  if dst.is_contiguous && src.is_contiguous then
    if heavy && !(src.blocksize == dst.blocksize) then none
    else some (stdCopy src dst 0 0 src.blocksize)
  else if dst.is_contiguous then
    if heavy && !(src.nblocks * src.blocksize == dst.blocksize) then none
    else some ((List.range src.nblocks.toNat).flatMap fun b : Nat =>
      stdCopy src dst (b * src.stride) (b * src.blocksize) src.blocksize)
  else if src.is_contiguous then
    if heavy && !(src.blocksize == dst.nblocks * dst.blocksize) then none
    else some ((List.range dst.nblocks.toNat).flatMap fun b : Nat =>
      stdCopy src dst (b * dst.blocksize) (b * dst.stride) dst.blocksize)
  else
    if heavy && !(src.count == dst.count) then none
    else some ((List.range src.count.toNat).map fun i : Nat =>
      (src.ptr ((i : Int) / src.blocksize * src.stride + (i : Int) % src.blocksize),
       dst.ptr ((i : Int) / dst.blocksize * dst.stride + (i : Int) % dst.blocksize)))

/-- Execute assignments one after the other. -/
def runAssigns {E : Type} (l : List Assign) (m : Addr → E) : Addr → E :=
  l.foldl (fun m a => fun x => if x = a.2 then m a.1 else m x) m

/-- MPI datatype used by a message: the basic type of the element, or `MPI_Type_vector` of it. -/
inductive MpiType
  | basic
  | vector (count blocklength stride : Int)
deriving DecidableEq, Repr

/-- `Message`, message.h:40-66 and type_handler.h:40-46: base pointer, `count()`, `mpi_type()`.
(`to_int` narrowing of counts and strides is not modelled.) -/
structure Message where
  data : Desc
  count : Int
  type : MpiType

/-- message.h:41-47, 63-70 -/
def Message.make (d : Desc) : Message :=
  if d.is_contiguous then ⟨d, d.blocksize, .basic⟩
  else ⟨d, 1, .vector d.nblocks d.blocksize d.stride⟩

/-- MPI standard: the elements addressed by (buf, count, datatype), in type-map order.  (A vector type
is only ever used with count 1, so its extent does not matter.) -/
def Message.elements (m : Message) : List Addr :=
  match m.type with
  | .basic => (List.range m.count.toNat).map fun k : Nat => m.data.ptr k
  | .vector c b s =>
    if m.count = 1 then
      (List.range c.toNat).flatMap fun j : Nat => (List.range b.toNat).map fun i : Nat =>
        m.data.ptr (j * s + i)
    else []

/-- A tile of an object (matrix or temporary). -/
structure TileRef where
  obj : Nat
  tile : Tile
deriving DecidableEq, Repr

/-- `ptr({i, j})` of a tile, tile.h:79-81. -/
def TileRef.addr (t : TileRef) (i j : Int) : Addr := (t.obj, t.tile.addr i j)

/-- `create_data(tile)`, tile.h:465-468. (Debug builds also reject empty tiles here, tile.h:89.) -/
def TileRef.data (t : TileRef) : Option Desc :=
  Desc.make t.obj t.tile.view.chunk (t.tile.view.offset + t.tile.linearIndex 0 0) t.tile.cols
    t.tile.rows t.tile.ld

/-- `Tile::is_contiguous`, tile.h:281-283 -/
def TileRef.is_contiguous (t : TileRef) : Bool := t.tile.ld == t.tile.rows

/-- `internal::copy(source, destination)` for floating point element types and GPU copies:
copy_tile.h:179-183 with `lacpy` (lapack/tile.h:70-79) or `memcpy_2d` (copy_tile.h:76-177).  Contract of
`lapack::lacpy(General, m, n, a, lda, b, ldb)` and of `memcpy_2d`: `b[i + j*ldb] := a[i + j*lda]` for
`i < m`, `j < n`, with `m, n` the size of the *source* tile.  `heavy` = Debug build (size check). -/
def tileCopyFloat (heavy : Bool) (src dst : TileRef) : Option (List Assign) :=
  if heavy && !(src.tile.rows == dst.tile.rows && src.tile.cols == dst.tile.cols) then none
  else some ((List.range src.tile.cols.toNat).flatMap fun j : Nat =>
    (List.range src.tile.rows.toNat).map fun i : Nat => (src.addr i j, dst.addr i j))

/-- `internal::copy(source, destination)` for the other element types (CPU): copy_tile.h:67-70, 179-183. -/
def tileCopyGeneric (heavy : Bool) (src dst : TileRef) : Option (List Assign) :=
  if heavy && !(src.tile.rows == dst.tile.rows && src.tile.cols == dst.tile.cols) then none
  else src.data.bind fun ds => dst.data.bind fun dd => dataCopy heavy ds dd

/-- copy of a tile: `isFloat` = `IsFloatingPointOrComplex_v<T>` or a GPU involved (copy_tile.h:58-73). -/
def tileCopy (heavy isFloat : Bool) (src dst : TileRef) : Option (List Assign) :=
  if isFloat then tileCopyFloat heavy src dst else tileCopyGeneric heavy src dst

/-- A matrix in memory: identity, distribution and tiles. -/
structure MatrixObj where
  obj : Nat
  dist : Distribution
  mem : MatrixMem

/-- Tile with local index (i, j), matrix_base.h:158-162. -/
def MatrixObj.tileAt (a : MatrixObj) (i j : Int) : Option TileRef :=
  (a.mem.tiles[(tile_linear_index a.dist i j).toNat]?).map fun t => ⟨a.obj, t⟩

/-- `localElementDistanceFromLocalTile(begin, end)` along one coordinate, distribution.h (deprecated
alias of `local_element_distance_from_local_tile`). -/
def localDistance (d : Dist1) (b e : Int) : Int :=
  d.local_element_distance_from_local_tile b e

/-- `copy(sz, idx_source_begin, source, idx_dest_begin, dest)`, copy.h:39-64, between two different
matrices: the assignments of all tile tasks.  (For one matrix copied onto the same range the function
returns at once, copy.h:42-45.) -/
def matrixCopyRange (heavy isFloat : Bool) (sz sb : Coord2) (src : MatrixObj) (db : Coord2)
    (dst : MatrixObj) : Option (List Assign) :=
  if localDistance src.dist.row sb.row (sb.row + sz.row) = localDistance dst.dist.row db.row (db.row + sz.row) ∧
     localDistance src.dist.col sb.col (sb.col + sz.col) = localDistance dst.dist.col db.col (db.col + sz.col)
  then
    (mapOpt (fun ij : Nat × Nat =>
      (src.tileAt (sb.row + ij.1) (sb.col + ij.2)).bind fun s =>
        (dst.tileAt (db.row + ij.1) (db.col + ij.2)).bind fun d => tileCopy heavy isFloat s d)
      ((List.range sz.col.toNat).flatMap fun j => (List.range sz.row.toNat).map fun i => (i, j))).map
      List.flatten
  else none

/-- `copy(source, dest)`, copy.h:78-80. -/
def matrixCopy (heavy isFloat : Bool) (src dst : MatrixObj) : Option (List Assign) :=
  matrixCopyRange heavy isFloat ⟨src.dist.row.localNrTiles, src.dist.col.localNrTiles⟩ ⟨0, 0⟩ src ⟨0, 0⟩ dst

end DLAF

/-! ### Temporary tiles and communication kernels -/
namespace DLAF

/-- Options of `withTemporaryTile` together with the test `in_device_type == destination_device`
(with_temporary_tile.h:88-90). -/
structure TempCfg where
  sameDevice : Bool
  copyTo : Bool
  copyFrom : Bool
  requireContiguous : Bool
deriving DecidableEq, Repr

/-- The tile allocated by `Duplicate` / `DuplicateNoCopy`, copy_tile.h:201-205, 222-226: `rows * cols`
elements, leading dimension `rows`; `none` = assertion failure in the `Tile` constructor. -/
def duplicateTile (tmp : Nat) (t : TileRef) : Option TileRef :=
  (MemView.alloc .whole (t.tile.rows * t.tile.cols)).bind fun v =>
    (Tile.create t.tile.rows t.tile.cols v t.tile.rows).map fun d => ⟨tmp, d⟩

/-- An operation on a tile: it may change memory and yields a result; `none` = abort. -/
abbrev TileOp (E R : Type) := TileRef → (Addr → E) → Option ((Addr → E) × R)

/-- `withTemporaryTile`, with_temporary_tile.h:88-205: `helper_notemp` (same device and, if contiguity
is required, a contiguous tile) or `helper_withtemp` (allocate, optionally copy in, run `f`, optionally
copy back).  Steps of a chain of senders run one after the other.  `m` restricted to object `tmp` is
the (uninitialised) memory the allocator returns for the temporary. -/
def withTemporaryTile {E R : Type} (heavy isFloat : Bool) (cfg : TempCfg) (tmp : Nat) (f : TileOp E R) :
    TileOp E R := fun t m =>
  if cfg.sameDevice && (!cfg.requireContiguous || t.is_contiguous) then f t m
  else
    (duplicateTile tmp t).bind fun d =>
    (if cfg.copyTo then (tileCopy heavy isFloat t d).map fun l => runAssigns l m else some m).bind fun m1 =>
    (f d m1).bind fun r =>
    if cfg.copyFrom then (tileCopy heavy isFloat d t).map fun l => (runAssigns l r.1, r.2) else some r

/-- Values found by MPI in the buffer described by the message of a tile. -/
def msgRead {E : Type} (t : TileRef) (m : Addr → E) : Option (List E) :=
  t.data.map fun d => (Message.make d).elements.map m

/-- Store values `vs` in order in the cells `as` (extra values or cells are ignored). -/
def storeAt {E : Type} : List Addr → List E → (Addr → E) → (Addr → E)
  | a :: as, v :: vs, m => storeAt as vs fun x => if x = a then v else m x
  | _, _, m => m

/-- MPI stores the received values in the buffer described by the message of a tile. -/
def msgWrite {E : Type} (t : TileRef) (vs : List E) (m : Addr → E) : Option (Addr → E) :=
  t.data.map fun d => storeAt (Message.make d).elements vs m

/-- `send` / `sendBcast`, kernels/internal/p2p.h:34-43, broadcast.h:31-40: the result is the
transmitted data. -/
def sendOp {E : Type} : TileOp E (List E) := fun t m => (msgRead t m).map fun vs => (m, vs)

/-- `recv` / `recvBcast` of the data `vs`, p2p.h:73-82, broadcast.h:76-86. -/
def recvOp {E : Type} (vs : List E) : TileOp E Unit := fun t m => (msgWrite t vs m).map fun m => (m, ())

/-- `reduceSend`, reduce.h:48-60: asserts contiguity; the result is the contribution of this rank.
MPI predefined reduction operations are defined on the basic datatypes only (`none` otherwise). -/
def reduceSendOp {E : Type} : TileOp E (List E) := fun t m =>
  if t.is_contiguous && (t.data.map fun d => (Message.make d).type == .basic) == some true then
    (msgRead t m).map fun vs => (m, vs)
  else none

/-- `reduceRecvInPlace` / `allReduceInPlace`, reduce.h:32-45, all_reduce.h:97-110: `g` combines this
rank's values with the other ranks' (`none`: MPI error). The result is this rank's contribution. -/
def reduceInPlaceOp {E : Type} (g : List E → Option (List E)) : TileOp E (List E) := fun t m =>
  if t.is_contiguous && (t.data.map fun d => (Message.make d).type == .basic) == some true then
    (msgRead t m).bind fun vs => (g vs).bind fun ws => (msgWrite t ws m).map fun m => (m, vs)
  else none

/-- `allReduce`, all_reduce.h:29-45 (both tiles contiguous); `g` as above. -/
def allReduceOp {E : Type} (g : List E → Option (List E)) (tin : TileRef) : TileOp E (List E) := fun t m =>
  if tin.is_contiguous && t.is_contiguous &&
      (tin.data.map fun d => (Message.make d).type == .basic) == some true then
    (msgRead tin m).bind fun vs => (g vs).bind fun ws => (msgWrite t ws m).map fun m => (m, vs)
  else none

/-- `schedule_send`, `schedule_bcast_send`: p2p.h:46-67, broadcast.h:43-72. -/
def scheduleSend {E : Type} (heavy isFloat sameDevice requireContiguous : Bool) (tmp : Nat) :
    TileOp E (List E) :=
  withTemporaryTile heavy isFloat ⟨sameDevice, true, false, requireContiguous⟩ tmp sendOp

/-- `schedule_recv`, `schedule_bcast_recv`: p2p.h:86-107, broadcast.h:89-127. -/
def scheduleRecv {E : Type} (heavy isFloat sameDevice requireContiguous : Bool) (tmp : Nat) (vs : List E) :
    TileOp E Unit :=
  withTemporaryTile heavy isFloat ⟨sameDevice, false, true, requireContiguous⟩ tmp (recvOp vs)

/-- `schedule_reduce_send`, reduce.h:106-137. -/
def scheduleReduceSend {E : Type} (heavy isFloat sameDevice : Bool) (tmp : Nat) : TileOp E (List E) :=
  withTemporaryTile heavy isFloat ⟨sameDevice, true, false, true⟩ tmp reduceSendOp

/-- `schedule_reduce_recv_in_place`, `schedule_all_reduce_in_place`: reduce.h:64-102, all_reduce.h:113-151. -/
def scheduleReduceInPlace {E : Type} (heavy isFloat sameDevice : Bool) (tmp : Nat)
    (g : List E → Option (List E)) : TileOp E (List E) :=
  withTemporaryTile heavy isFloat ⟨sameDevice, true, true, true⟩ tmp (reduceInPlaceOp g)

/-- `scheduleAllReduce`, all_reduce.h:48-94: the temporary of the output tile outside, the temporary of
the input tile inside. -/
def scheduleAllReduce {E : Type} (heavy isFloat sameDevice : Bool) (tmpIn tmpOut : Nat)
    (g : List E → Option (List E)) (tin : TileRef) : TileOp E (List E) :=
  withTemporaryTile heavy isFloat ⟨sameDevice, false, true, true⟩ tmpOut fun tout m =>
    withTemporaryTile heavy isFloat ⟨sameDevice, true, false, true⟩ tmpIn
      (fun tin m => allReduceOp g tin tout m) tin m

/-- `tile::add(alpha, tile_b, tile_a)`, blas/tile_extensions.h:77-88: `tile_a += alpha * tile_b` (here
`b += alpha * a`), column by column with `axpy`, over the size of the updated tile. -/
def tileAdd {E : Type} [Add E] [Mul E] (alpha : E) (a b : TileRef) (m : Addr → E) : Option (Addr → E) :=
  if a.tile.rows = b.tile.rows ∧ a.tile.cols = b.tile.cols then
    some (((List.range b.tile.cols.toNat).flatMap fun j : Nat =>
        (List.range b.tile.rows.toNat).map fun i : Nat => ((i : Int), (j : Int))).foldl
      (fun m ij x =>
        if x = b.addr ij.1 ij.2 then m (b.addr ij.1 ij.2) + alpha * m (a.addr ij.1 ij.2) else m x) m)
  else none

/-- `schedule_sum_p2p` on one rank, p2p_allsum.h:40-65: send `tin` to the mate (result: the data sent),
receive the mate's data `vs` in `tout`, then `add(1, tin, tout)`. -/
def sumP2P {E : Type} [Add E] [Mul E] [One E] (heavy isFloat sameDevice : Bool) (tmpS tmpR : Nat)
    (tin tout : TileRef) (vs : List E) (m : Addr → E) : Option ((Addr → E) × List E) :=
  (scheduleSend heavy isFloat sameDevice false tmpS tin m).bind fun s =>
    (scheduleRecv heavy isFloat sameDevice false tmpR vs tout s.1).bind fun r =>
      (tileAdd 1 tin tout r.1).map fun m => (m, s.2)

end DLAF
