import Verif.Model.SpmdEmb
import Verif.Model.DistPartition
import Verif.Model.DistRank1
import Verif.Model.DistMultEvecs
/-
Model of the steps 2 to 4 of the distributed merge of two sub-problems, `mergeDistSubproblems`, eigensolver/tridiag_solver/merge.h:1886-1936, on the CPU:
deflation partition, reordering, rank-one problem, product of the eigenvectors, final order.

* What every process holds completely and with the same content is a parameter: the types and values of the columns (`c`, `d0`), the rank-one vector `z0`, the scaled `rho`, the sorted index `i2`.
  (C70, C52 and C34 show that the processes compute the same values.)  So is the content of `i3` and `i5` before, which is overwritten (C67).
* `ws.e0`, `ws.e1`, `ws.e2` are the local elements as functions of the local indices.  The local permutation of the columns (merge.h:1910, C36) and `set0` (merge.h:1919) are
  functions of elements; the copies to the host are the identity (merge.h:1908-1909, 1923).
* The window `[0, n)` of the rank-one solver's `evecs` is read before and written after it (merge.h:1922 passes `ws_hm.e2` itself).
-/
namespace DLAF
namespace DistMerge

/-- The state of one process: temporaries of the products, the work spaces, those of the rank-one solver with the eigenvalues `d0`, and `i1`. -/
structure MgSt where
  gen : DSt ℝ
  ev : EvSt ℝ
  r1 : DR1St
  i1 : List Nat

/-- Messages: tiles (products, merge.h:1929) and vectors (rank-one solver, merge.h:1920). -/
abbrev MgMsg := Blk ℝ ⊕ DistR1.Msg

/-- What all processes hold: parameters of the merge, merge.h:1807-1814 and the results of merge.h:1842-1884. -/
structure MgPar where
  laed4 : Laed4
  debug : Bool
  types : List ColType
  d : List ℝ
  z : List ℝ
  rho : ℝ
  perm : List Nat
  out1 : List Nat
  out2 : List Nat

/-- The products as a part of the merge, merge.h:1929-1930. -/
def embMul (junk : DistR1.Msg → Blk ℝ) : Emb (DSt ℝ × EvSt ℝ) (Blk ℝ) MgSt MgMsg where
  get s := (s.gen, s.ev)
  put s x := { s with gen := x.1, ev := x.2 }
  inj := .inl
  dec := Sum.elim id junk
/-- The rank-one solver as a part of the merge, merge.h:1920-1922. -/
def embR1 (junk : Blk ℝ → DistR1.Msg) : Emb DR1St DistR1.Msg MgSt MgMsg where
  get s := s.r1
  put s x := { s with r1 := x }
  inj := .inr
  dec := Sum.elim junk id

noncomputable section
variable (M : MgPar)

/-- The arguments of the rank-one solver: `d1`, `z1` (`applyIndex`, merge.h:1913-1914), `i4`, `i6`, `i2` of the partition. -/
def r1Cfg (R : DistPart.Result) (d1 z1 : List ℝ) : DR1Cfg :=
  ⟨M.laed4, M.debug, R.k, M.rho, fun i => d1.getD i 0, fun i => z1.getD i 0, R.i4, R.i6, R.i2⟩

variable (s sub : Distribution) (ib : Int)

/-- First local row of the window, merge.h:1834-1835. -/
def row0 : Int := s.row.next_local_tile_from_global_tile ib * s.row.tileSize
/-- First local column of the window, merge.h:1834-1835. -/
def col0 : Int := s.col.next_local_tile_from_global_tile ib * s.col.tileSize
/-- Local element `(x, y)` is in the window, merge.h:1834-1838 (by elements, not tiles: the last tile of the window may be partial). -/
def inWin (x y : Int) : Prop :=
  (row0 s ib ≤ x ∧ x < row0 s ib + sub.row.localSize) ∧ (col0 s ib ≤ y ∧ y < col0 s ib + sub.col.localSize)
instance (x y : Int) : Decidable (inWin s sub ib x y) := by unfold inWin; infer_instance

/-- The local permutation of the columns, merge.h:1906-1910. -/
def permLocal (i5 : List Int) (st : MgSt) : MgSt :=
  { st with ev := { st.ev with e1 := fun x y => if inWin s sub ib x y then st.ev.e0 x (col0 s ib + i5.getD (y - col0 s ib).toNat 0) else st.ev.e1 x y } }

/-- `set0` of the window of `e2`, merge.h:1919. -/
def zeroE2 (st : MgSt) : MgSt := { st with ev := { st.ev with e2 := fun x y => if inWin s sub ib x y then 0 else st.ev.e2 x y } }

/-- The window of `e2` is passed to the rank-one solver, merge.h:1922. -/
def loadQ (st : MgSt) : MgSt := { st with r1 := { st.r1 with q := fun x y => st.ev.e2 (row0 s ib + x) (col0 s ib + y) } }
/-- The window of `e2` after the rank-one solver, merge.h:1922-1923. -/
def storeQ (st : MgSt) : MgSt :=
  { st with ev := { st.ev with e2 := fun x y => if inWin s sub ib x y then st.r1.q (x - row0 s ib).toNat (y - col0 s ib).toNat else st.ev.e2 x y } }

/-- The final order, `sortIndex`, merge.h:1936. -/
def finalSort (n : Nat) (R : DistPart.Result) (st : MgSt) : Option MgSt :=
  (sortIndex R.k ((List.range n).map st.r1.evals) R.i2).map fun i1 => { st with i1 := i1 }

/-- Steps 2 to 4, merge.h:1886-1936: `ib` the first tile of the sub-problem, `n1`, `n2` the sizes of its two parts, `avail` the number of available workers. -/
def steps (dbg : Bool) (n1 n2 avail : Nat) (junkB : DistR1.Msg → Blk ℝ) (junkM : Blk ℝ → DistR1.Msg) : List (Instr MgSt MgMsg) :=
  let off := ib * s.row.tileSize
  let n := n1 + n2
  match s.sub ⟨off, off⟩ ⟨n, n⟩ with
  | none => [.loc fun _ => none]
  | some sub =>
    match DistPart.stablePartition sub.col M.types M.d M.perm M.out1 M.out2 with
    | none => [.loc fun _ => none]
    | some R =>
      match applyIndex R.index_sorted M.d, applyIndex R.index_sorted M.z, R.n_udl with
      | some d1, some z1, [a, b, c] =>
        [.loc fun st => some (loadQ s ib (zeroE2 s sub ib (permLocal s sub ib R.i5_lc st)))] ++
        Instr.embL (embR1 junkM) (DistR1.program (r1Cfg M R d1 z1) sub n R.k_lc avail) ++
        [.loc fun st => some (storeQ s sub ib st)] ++
        Instr.embL (embMul junkB) (distMultEvecs dbg s off n n1 n2 R.k_lc a b c) ++
        [.loc fun st => finalSort n R st]
      | _, _, _ => [.loc fun _ => none]

end
end DistMerge
end DLAF
