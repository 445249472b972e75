import Verif.Model.Data
import Mathlib.Algebra.BigOperators.Group.List.Basic
/-
Model of the collective reductions over all ranks of a communicator:
include/dlaf/communication/kernels/internal/{reduce,all_reduce}.h (kernels modelled in Model/Data.lean) and
include/dlaf/communication/kernels/p2p_allsum.h.
Every rank has its own memory `m r` and its own tile `t r`.  MPI contract (trusted): a reduction with
MPI_SUM on a basic datatype needs the same count on all ranks and delivers the element-wise sum of the
contributions.
-/
namespace DLAF

/-- Element-wise sum of the contributions; `none` = counts differ (erroneous MPI program). -/
def mpiSum {E : Type} [AddCommMonoid E] (cs : List (List E)) : Option (List E) :=
  match cs with
  | [] => none
  | c :: _ =>
    if cs.all fun d => d.length == c.length then
      some ((List.range c.length).map fun k : Nat => (cs.map fun d => d.getD k 0).sum)
    else none

variable {E : Type} [AddCommMonoid E]

/-- Reduction to `root` over `n` ranks: `schedule_reduce_recv_in_place` on the root (reduce.h:64-102),
`schedule_reduce_send` on the others (reduce.h:106-137).  Result: the memory of each rank. -/
def reduceWorld (heavy isFloat sameDevice : Bool) (tmp n root : Nat) (t : Nat → TileRef)
    (m : Nat → Addr → E) : Option (Nat → Addr → E) :=
  (mapOpt (fun r => if r = root then some (m r, []) else
      scheduleReduceSend heavy isFloat sameDevice tmp (t r) (m r)) (List.range n)).bind fun rs =>
    (scheduleReduceInPlace heavy isFloat sameDevice tmp
      (fun v => mpiSum ((rs.map Prod.snd).set root v)) (t root) (m root)).map fun r =>
        fun k => if k = root then r.1 else ((rs[k]?).map Prod.fst).getD (m k)

/-- `schedule_all_reduce_in_place` called by all `n` ranks (all_reduce.h:113-151): first the contributions
are read, then every rank gets the sum. -/
def allReduceInPlaceWorld (heavy isFloat sameDevice : Bool) (tmp n : Nat) (t : Nat → TileRef)
    (m : Nat → Addr → E) : Option (Nat → Addr → E) :=
  (mapOpt (fun r => scheduleReduceInPlace heavy isFloat sameDevice tmp some (t r) (m r))
    (List.range n)).bind fun rs =>
    (mapOpt (fun r => scheduleReduceInPlace heavy isFloat sameDevice tmp
      (fun v => mpiSum ((rs.map Prod.snd).set r v)) (t r) (m r)) (List.range n)).map fun ms =>
        fun k => ((ms[k]?).map Prod.fst).getD (m k)

/-- `scheduleAllReduce` called by all `n` ranks (all_reduce.h:48-94), input tiles `ti`, output tiles `tt`. -/
def allReduceWorld (heavy isFloat sameDevice : Bool) (tmpI tmpO n : Nat) (ti tt : Nat → TileRef)
    (m : Nat → Addr → E) : Option (Nat → Addr → E) :=
  (mapOpt (fun r => scheduleAllReduce heavy isFloat sameDevice tmpI tmpO some (ti r) (tt r) (m r))
    (List.range n)).bind fun rs =>
    (mapOpt (fun r => scheduleAllReduce heavy isFloat sameDevice tmpI tmpO
      (fun v => mpiSum ((rs.map Prod.snd).set r v)) (ti r) (tt r) (m r)) (List.range n)).map fun ms =>
        fun k => ((ms[k]?).map Prod.fst).getD (m k)

/-- `schedule_sum_p2p` called by two mates (p2p_allsum.h:40-65): each receives what the other sent. -/
def sumP2PPair {E : Type} [Add E] [Mul E] [One E] (heavy isFloat sameDevice : Bool) (tmpS tmpR : Nat)
    (tinA toutA tinB toutB : TileRef) (mA mB : Addr → E) : Option ((Addr → E) × (Addr → E)) :=
  (scheduleSend heavy isFloat sameDevice false tmpS tinA mA).bind fun sA =>
  (scheduleSend heavy isFloat sameDevice false tmpS tinB mB).bind fun sB =>
  (sumP2P heavy isFloat sameDevice tmpS tmpR tinA toutA sB.2 mA).bind fun rA =>
  (sumP2P heavy isFloat sameDevice tmpS tmpR tinB toutB sA.2 mB).map fun rB => (rA.1, rB.1)

end DLAF
