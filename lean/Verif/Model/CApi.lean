import Verif.Model.Memory
import Verif.Model.DistCholesky
import Verif.Model.DistAssemble
/-
Model of the ScaLAPACK interface of the C API: src/c_api/utils.cpp, src/c_api/factorization/cholesky.h, src/c_api/inverse/cholesky.h, on the CPU
(the mirror is a reference to the host matrix, matrix/matrix_mirror.h:62-93).  A call on one process is what it does before the communication starts (assertions,
set up of the matrix on the user's buffer), the program it runs, and the buffer it leaves; the tiles of the matrix are the memory of the buffer.
-/
namespace DLAF
variable {K : Type*}

/-- `DLAF_descriptor`, include/dlaf_c/desc.h:15-26. -/
structure Descriptor where
  m : Int
  n : Int
  mb : Int
  nb : Int
  isrc : Int
  jsrc : Int
  i : Int
  j : Int
  ld : Int

/-- `make_dlaf_descriptor`, src/c_api/utils.cpp:25-33. -/
def makeDescriptor (m n i j : Int) (desc : Fin 9 → Int) : Option Descriptor :=
  if i = 1 ∧ j = 1 then some ⟨m, n, desc 4, desc 5, desc 6, desc 7, i - 1, j - 1, desc 8⟩ else none

/-- `char2uplo`, include/dlaf/blas/enum_parse.h:20-25 with `blas::from_string` (which throws on other characters), and the two branches of the
algorithms (factorization/cholesky.h:69-73, inverse/cholesky.h): whatever is not lower is handled as upper (F31). -/
def charToUplo (c : Char) : Option Uplo :=
  if c = 'L' ∨ c = 'l' then some .Lower
  else if c = 'U' ∨ c = 'u' ∨ c = 'G' ∨ c = 'g' then some .Upper
  else none

/-- `make_layout`, src/c_api/utils.cpp:35-51: the distribution (the layout is built with the matrix, `setUpPreallocated`); `grid` and `rank` are the size of
the grid and the rank of the process in it. -/
def makeLayout (heavy : Bool) (grid rank : Coord2) (D : Descriptor) : Option Distribution :=
  Distribution.create heavy ⟨D.m, D.n⟩ ⟨D.mb, D.nb⟩ ⟨D.mb, D.nb⟩ grid rank ⟨D.isrc, D.jsrc⟩ ⟨0, 0⟩

/-- The contents of local tile `l` of a matrix on the buffer `buf` (matrix_base.h:158-162, tile.h:79-94). -/
def loadTile [Zero K] (mem : MatrixMem) (d : Distribution) (buf : Int → K) (l : Coord2) : Blk K :=
  match mem.tiles[(tile_linear_index d l.row l.col).toNat]? with
  | some t => ⟨t.rows.toNat, t.cols.toNat, fun x y => buf (t.addr x y).2⟩
  | none => ⟨0, 0, fun _ _ => 0⟩

/-- The elements of all local tiles with their addresses. -/
def tileWrites (mem : MatrixMem) (d : Distribution) (mat : Coord2 → Blk K) : List (Int × K) :=
  (localTiles d).flatMap fun l =>
    match mem.tiles[(tile_linear_index d l.1 l.2).toNat]? with
    | some t => (List.range t.cols.toNat).flatMap fun y : Nat => (List.range t.rows.toNat).map fun x : Nat => ((t.addr x y).2, (mat ⟨l.1, l.2⟩).e x y)
    | none => []

/-- The buffer when the local tiles of the matrix on it have the contents `mat`. -/
def storeTiles (mem : MatrixMem) (d : Distribution) (mat : Coord2 → Blk K) (buf : Int → K) : Int → K :=
  (tileWrites mem d mat).foldl (fun b w => set1 b w.1 w.2) buf

/-- A call on one process: its memory and program when the algorithm starts, and the user's buffer as a function of its memory at the end. -/
structure CApiCall (S K : Type*) where
  st : S
  prog : List (Instr S (Blk K))
  out : S → Int → K

section
variable [Field K] [StarRing K]

/-- `square_size`, `square_block_size`, `single_tile_per_block`, `equal_process_grid`: factorization/cholesky.h:64-67, inverse/cholesky.h, util_matrix.h:33-131. -/
def capiChecks (grid rank : Coord2) (d : Distribution) : Prop :=
  d.row.size = d.col.size ∧ d.row.blockSize = d.col.blockSize ∧ (d.row.blockSize = d.row.tileSize ∧ d.col.blockSize = d.col.tileSize) ∧
    (d.row.grid = grid.row ∧ d.col.grid = grid.col) ∧ (d.row.rank = rank.row ∧ d.col.rank = rank.col)

instance (grid rank : Coord2) (d : Distribution) : Decidable (capiChecks grid rank d) := by unfold capiChecks; infer_instance

/-- `pxpotrf` and `cholesky_factorization`, src/c_api/factorization/cholesky.h:32-79; the value returned in `info` is always 0. -/
def pxpotrf (heavy dbg : Bool) (lp : Lapack K) (grid rank : Coord2) (uplo : Char) (n : Int) (buf : Int → K) (ia ja : Int) (desca : Fin 9 → Int) :
    Option (CApiCall (CholState K) K) :=
  if ¬ (desca 0 = 1 ∧ ia = 1 ∧ ja = 1) then none else
  (makeDescriptor n n ia ja desca).bind fun D =>
  if ¬ (D.i = 0 ∧ D.j = 0) then none else
  (makeLayout heavy grid rank D).bind fun d =>
  (setUpPreallocated d D.ld).bind fun mem =>
  (charToUplo uplo).bind fun u =>
  if ¬ capiChecks grid rank d then none else
  (distCholeskyInit u d (loadTile mem d buf)).map fun st =>
    ⟨st, distCholesky dbg lp u d, fun s => storeTiles mem d s.mat buf⟩

/-- `pxpotri` and `inverse_from_cholesky_factor`, src/c_api/inverse/cholesky.h:32-83. -/
def pxpotri (heavy dbg : Bool) (lp : Lapack K) (grid rank : Coord2) (uplo : Char) (n : Int) (buf : Int → K) (ia ja : Int) (desca : Fin 9 → Int) :
    Option (CApiCall (DSt K) K) :=
  if ¬ (desca 0 = 1 ∧ ia = 1 ∧ ja = 1) then none else
  (makeDescriptor n n ia ja desca).bind fun D =>
  if ¬ (D.i = 0 ∧ D.j = 0) then none else
  (makeLayout heavy grid rank D).bind fun d =>
  (setUpPreallocated d D.ld).bind fun mem =>
  (charToUplo uplo).bind fun u =>
  if ¬ capiChecks grid rank d then none else
  (distTriInvInit u d (loadTile mem d buf)).map fun st =>
    ⟨st, distInverseFromCholesky lp u dbg d, fun s => storeTiles mem d (s.mat 0) buf⟩

end
end DLAF
