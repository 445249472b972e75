import Mathlib.Data.List.Basic
/-
Model of the ownership of memory: `MemoryChunk` (include/dlaf/memory/memory_chunk.h:44-196) and `MemoryView` (include/dlaf/memory/memory_view.h:31-158), with the
reference counts of `std::shared_ptr`.  Objects are named by the order of their construction.  A step of a history is one operation of the interface; its value is
`none` when an assertion fails (the program aborts) or when the operation is applied to an object that is not alive (not expressible in C++).
Simplified: views of constant elements (the same code), `sizeof(T)`, the kind of memory of a pointer (`get_memory_type`).
-/
namespace DLAF.Own

/-- What a `T*` points to the start of: the `a`-th allocation made by the library, or a block of the user. -/
inductive Ptr where
  | heap (a : Nat)
  | user (u : Nat)
deriving DecidableEq

/-- `MemoryChunk`: memory_chunk.h:193-195. -/
structure Chunk where
  size : Int
  ptr : Option Ptr
  allocated : Bool

/-- `MemoryView`: memory_view.h:154-156; `mem` is the control block of the `shared_ptr`. -/
structure MView where
  mem : Option Nat
  off : Int
  size : Int

/-- A control block of `shared_ptr<MemoryChunk>`. -/
structure Ctl where
  chunk : Chunk
  count : Nat

/-- The memory: sizes of the allocations made so far, pointers given to `deallocate`, chunks, control blocks and views (`none`: destroyed). -/
structure Mem where
  sizes : List Int
  freed : List Ptr
  chunks : List (Option Chunk)
  ctls : List (Option Ctl)
  views : List (Option MView)

/-- Nothing allocated, no objects. -/
def Mem.empty : Mem := ⟨[], [], [], [], []⟩

/-- The live chunk `i`. -/
def Mem.chunk (m : Mem) (i : Nat) : Option Chunk := (m.chunks[i]?).join
/-- The live control block `k`. -/
def Mem.ctl (m : Mem) (k : Nat) : Option Ctl := (m.ctls[k]?).join
/-- The live view `v`. -/
def Mem.view (m : Mem) (v : Nat) : Option MView := (m.views[v]?).join

/-- `deallocate`: memory_chunk.h:176-191.  The allocator ignores null pointers. -/
def Chunk.deallocate (c : Chunk) (m : Mem) : Mem :=
  if c.allocated then match c.ptr with
    | some p => { m with freed := p :: m.freed }
    | none => m
  else m

/-- `MemoryChunk(SizeType)`: memory_chunk.h:58-82. -/
def Chunk.new (n : Int) (m : Mem) : Option (Chunk × Mem) :=
  if n < 0 then none
  else if n = 0 then some (⟨n, none, true⟩, m)
  else some (⟨n, some (.heap m.sizes.length), true⟩, { m with sizes := m.sizes ++ [n] })

/-- `MemoryChunk(T*, SizeType)`: memory_chunk.h:89-107 (`u`: the user's block, `none` for a null pointer); the assertion of line 90 holds unless the pointer is null
and the size positive, and is active in Debug builds only. -/
def Chunk.ext (u : Option Nat) (n : Int) : Chunk := ⟨n, if 0 < n then u.map .user else none, false⟩

/-- A moved-from chunk: memory_chunk.h:118-120, 136-138. -/
def Chunk.moved : Chunk := ⟨0, none, false⟩

/-- The destruction of a `shared_ptr` to the control block `k` (C++ standard library): the last one destroys the chunk (memory_chunk.h:144-146). -/
def release (k : Option Nat) (m : Mem) : Mem :=
  match k with
  | none => m
  | some k => match m.ctl k with
    | none => m
    | some c => if c.count = 1 then c.chunk.deallocate { m with ctls := m.ctls.set k none }
      else { m with ctls := m.ctls.set k (some ⟨c.chunk, c.count - 1⟩) }

/-- The copy of a `shared_ptr`. -/
def retain (k : Option Nat) (m : Mem) : Mem :=
  match k with
  | none => m
  | some k => match m.ctl k with
    | none => m
    | some c => { m with ctls := m.ctls.set k (some ⟨c.chunk, c.count + 1⟩) }

/-- `make_shared<MemoryChunk>`: the new control block. -/
def share (c : Chunk) (m : Mem) : Nat × Mem := (m.ctls.length, { m with ctls := m.ctls ++ [some ⟨c, 1⟩] })

/-- The construction of a view. -/
def pushView (v : MView) (m : Mem) : Mem := { m with views := m.views ++ [some v] }

/-- A moved-from view: memory_view.h:71-73, 116-117. -/
def MView.moved : MView := ⟨none, 0, 0⟩

/-- The operations. -/
inductive Op where
  /-- `MemoryChunk(size)` -/
  | chunkNew (n : Int)
  /-- `MemoryChunk(ptr, size)` -/
  | chunkExt (u : Option Nat) (n : Int)
  /-- `MemoryChunk(std::move(i))` -/
  | chunkMove (i : Nat)
  /-- `i = std::move(j)` -/
  | chunkAssign (i j : Nat)
  /-- the destruction of `i` -/
  | chunkDrop (i : Nat)
  /-- `MemoryView()` -/
  | viewEmpty
  /-- `MemoryView(size)` -/
  | viewNew (n : Int)
  /-- `MemoryView(ptr, size)` -/
  | viewExt (u : Option Nat) (n : Int)
  /-- `MemoryView(v)` -/
  | viewCopy (v : Nat)
  /-- `MemoryView(std::move(v))` -/
  | viewMove (v : Nat)
  /-- `MemoryView(v, off, size)` -/
  | viewSub (v : Nat) (off n : Int)
  /-- `v = w` -/
  | viewAssign (v w : Nat)
  /-- `v = std::move(w)` -/
  | viewMoveAssign (v w : Nat)
  /-- the destruction of `v` -/
  | viewDrop (v : Nat)

/-- One operation. -/
def step (m : Mem) : Op → Option Mem
  -- memory_chunk.h:58-82
  | .chunkNew n => (Chunk.new n m).map fun p => { p.2 with chunks := p.2.chunks ++ [some p.1] }
  -- memory_chunk.h:89-107
  | .chunkExt u n => some { m with chunks := m.chunks ++ [some (Chunk.ext u n)] }
  -- memory_chunk.h:116-121
  | .chunkMove i => (m.chunk i).map fun c => { m with chunks := m.chunks.set i (some .moved) ++ [some c] }
  -- memory_chunk.h:129-141: deallocates first, then takes the fields, then resets those of the right-hand side
  | .chunkAssign i j => (m.chunk i).bind fun a => (m.chunk j).map fun b =>
      let m := a.deallocate m
      { m with chunks := (m.chunks.set i (some b)).set j (some .moved) }
  -- memory_chunk.h:144-146
  | .chunkDrop i => (m.chunk i).map fun a =>
      let m := a.deallocate m
      { m with chunks := m.chunks.set i none }
  -- memory_view.h:39
  | .viewEmpty => some (pushView .moved m)
  -- memory_view.h:47-51
  | .viewNew n =>
      if n < 0 then none
      else if 0 < n then (Chunk.new n m).map fun p => let s := share p.1 p.2; pushView ⟨some s.1, 0, n⟩ s.2
      else some (pushView ⟨none, 0, n⟩ m)
  -- memory_view.h:58-63
  | .viewExt u n =>
      if n < 0 then none
      else if u.isSome then let s := share (Chunk.ext u n) m; some (pushView ⟨some s.1, 0, n⟩ s.2)
      else some (pushView ⟨none, 0, n⟩ m)
  -- memory_view.h:65-68
  | .viewCopy v => (m.view v).map fun a => pushView a (retain a.mem m)
  -- memory_view.h:70-74
  | .viewMove v => (m.view v).map fun a => pushView a { m with views := m.views.set v (some .moved) }
  -- memory_view.h:89-93; only the upper end of the range is asserted
  | .viewSub v off n => (m.view v).bind fun a =>
      if off + n ≤ a.size then
        if 0 < n then some (pushView ⟨a.mem, off + a.off, n⟩ (retain a.mem m)) else some (pushView ⟨none, 0, n⟩ m)
      else none
  -- memory_view.h:101-109
  | .viewAssign v w => (m.view v).bind fun a => (m.view w).map fun b =>
      let m := release a.mem (retain b.mem m)
      { m with views := m.views.set v (some b) }
  -- memory_view.h:111-120: the `shared_ptr` of `w` is moved out first (`shared_ptr(std::move(r)).swap(*this)`), so that self-assignment keeps the memory
  | .viewMoveAssign v w => (m.view v).bind fun a => (m.view w).map fun b =>
      let old := if v = w then none else a.mem
      let m := release old m
      { m with views := (m.views.set w (some (if v = w then ⟨b.mem, 0, 0⟩ else .moved))).set v (some (if v = w then ⟨b.mem, 0, 0⟩ else b)) }
  -- the implicit destructor
  | .viewDrop v => (m.view v).map fun a =>
      let m := release a.mem m
      { m with views := m.views.set v none }

/-- A history from the memory `m`. -/
def run (m : Mem) : List Op → Option Mem
  | [] => some m
  | o :: os => (step m o).bind fun m => run m os

/-- `operator()(index)`: memory_view.h:137-140, memory_chunk.h:152-159: the block and the position in it; `none`: null pointer. -/
def Mem.addr (m : Mem) (v : Nat) (i : Int) : Option (Ptr × Int) :=
  (m.view v).bind fun a => a.mem.bind fun k => (m.ctl k).bind fun c => c.chunk.ptr.map fun p => (p, a.off + i)

end DLAF.Own
