/-
Model of src/init.cpp (`initialize`, `finalize`, configuration), src/c_api/init.cpp, tune.h/tune.cpp and of
the handles of src/c_api/grid.cpp.
-/
namespace DLAF

/-- Types of parameters: `bool`, `std::size_t`, `SizeType`, `double`, `AllocationLayout`. -/
inductive CfgKind | bool | size | sizeType | double | layout
deriving DecidableEq, Repr

/-- Values of parameters (doubles as rationals, layouts by name). -/
inductive CfgValue
  | bool (b : Bool) | int (n : Int) | real (q : Rat) | layout (name : String)
deriving DecidableEq

/-- A call `updateConfigurationValue(vm, field, env, cmd)` of init.cpp:252-316. -/
structure Param where
  field : String
  kind : CfgKind
  env : String
  cmd : String
deriving DecidableEq

/-- init.cpp:254-277: the parameters of `configuration`.  `newPika`: `PIKA_VERSION_FULL >= 0x001F00`. -/
def configParams (newPika : Bool) : List Param :=
  [⟨"print_config", .bool, "PRINT_CONFIG", "print-config"⟩] ++
  (if newPika then [⟨"num_np_gpu_streams", .size, "NUM_NP_GPU_STREAMS", "num-np-gpu-streams"⟩,
    ⟨"num_hp_gpu_streams", .size, "NUM_HP_GPU_STREAMS", "num-hp-gpu-streams"⟩]
   else [⟨"num_np_gpu_streams_per_thread", .size, "NUM_NP_GPU_STREAMS_PER_THREAD", "num-np-gpu-streams-per-thread"⟩,
    ⟨"num_hp_gpu_streams_per_thread", .size, "NUM_HP_GPU_STREAMS_PER_THREAD", "num-hp-gpu-streams-per-thread"⟩]) ++
  [⟨"umpire_host_memory_pool_initial_block_bytes", .size, "UMPIRE_HOST_MEMORY_POOL_INITIAL_BLOCK_BYTES", "umpire-host-memory-pool-initial-block-bytes"⟩,
   ⟨"umpire_host_memory_pool_next_block_bytes", .size, "UMPIRE_HOST_MEMORY_POOL_NEXT_BLOCK_BYTES", "umpire-host-memory-pool-next-block-bytes"⟩,
   ⟨"umpire_host_memory_pool_alignment_bytes", .size, "UMPIRE_HOST_MEMORY_POOL_ALIGNMENT_BYTES", "umpire-host-memory-pool-alignment-bytes"⟩,
   ⟨"umpire_host_memory_pool_coalescing_free_ratio", .double, "UMPIRE_HOST_MEMORY_POOL_COALESCING_FREE_RATIO", "umpire-host-memory-pool-coalescing-free-ratio"⟩,
   ⟨"umpire_host_memory_pool_coalescing_reallocation_ratio", .double, "UMPIRE_HOST_MEMORY_POOL_COALESCING_REALLOCATION_RATIO", "umpire-host-memory-pool-coalescing-reallocation-ratio"⟩,
   ⟨"umpire_device_memory_pool_initial_block_bytes", .size, "UMPIRE_DEVICE_MEMORY_POOL_INITIAL_BLOCK_BYTES", "umpire-device-memory-pool-initial-block-bytes"⟩,
   ⟨"umpire_device_memory_pool_next_block_bytes", .size, "UMPIRE_DEVICE_MEMORY_POOL_NEXT_BLOCK_BYTES", "umpire-device-memory-pool-next-block-bytes"⟩,
   ⟨"umpire_device_memory_pool_alignment_bytes", .size, "UMPIRE_DEVICE_MEMORY_POOL_ALIGNMENT_BYTES", "umpire-device-memory-pool-alignment-bytes"⟩,
   ⟨"umpire_device_memory_pool_coalescing_free_ratio", .double, "UMPIRE_DEVICE_MEMORY_POOL_COALESCING_FREE_RATIO", "umpire-device-memory-pool-coalescing-free-ratio"⟩,
   ⟨"umpire_device_memory_pool_coalescing_reallocation_ratio", .double, "UMPIRE_DEVICE_MEMORY_POOL_COALESCING_REALLOCATION_RATIO", "umpire-device-memory-pool-coalescing-reallocation-ratio"⟩,
   ⟨"num_gpu_blas_handles", .size, "NUM_GPU_BLAS_HANDLES", "num-gpu-blas-handles"⟩,
   ⟨"num_gpu_lapack_handles", .size, "NUM_GPU_LAPACK_HANDLES", "num-gpu-lapack-handles"⟩]

/-- init.cpp:290-314: the tune parameters (except the layout, `layoutParam`). -/
def tuneParams : List Param :=
  [⟨"tfactor_num_threads", .size, "TFACTOR_NUM_THREADS", "tfactor-num-threads"⟩,
   ⟨"tfactor_num_streams", .size, "TFACTOR_NUM_STREAMS", "tfactor-num-streams"⟩,
   ⟨"tfactor_barrier_busy_wait_us", .size, "TFACTOR_BARRIER_BUSY_WAIT_US", "tfactor-barrier-busy-wait-us"⟩,
   ⟨"red2band_panel_num_threads", .size, "RED2BAND_PANEL_NUM_THREADS", "red2band-panel-num-threads"⟩,
   ⟨"red2band_barrier_busy_wait_us", .size, "RED2BAND_BARRIER_BUSY_WAIT_US", "red2band-barrier-busy-wait-us"⟩,
   ⟨"eigensolver_min_band", .sizeType, "EIGENSOLVER_MIN_BAND", "eigensolver-min-band"⟩,
   ⟨"band_to_tridiag_1d_block_size_base", .sizeType, "BAND_TO_TRIDIAG_1D_BLOCK_SIZE_BASE", "band-to-tridiag-1d-block-size-base"⟩,
   ⟨"debug_dump_cholesky_factorization_data", .bool, "DEBUG_DUMP_CHOLESKY_FACTORIZATION_DATA", ""⟩,
   ⟨"debug_dump_generalized_eigensolver_data", .bool, "DEBUG_DUMP_GENERALIZED_EIGENSOLVER_DATA", ""⟩,
   ⟨"debug_dump_generalized_to_standard_data", .bool, "DEBUG_DUMP_GENERALIZED_TO_STANDARD_DATA", ""⟩,
   ⟨"debug_dump_eigensolver_data", .bool, "DEBUG_DUMP_EIGENSOLVER_DATA", ""⟩,
   ⟨"debug_dump_inverse_from_cholesky_factor_data", .bool, "DEBUG_DUMP_INVERSE_FROM_CHOLESKY_FACTOR_DATA", ""⟩,
   ⟨"debug_dump_reduction_to_band_data", .bool, "DEBUG_DUMP_REDUCTION_TO_BAND_DATA", ""⟩,
   ⟨"debug_dump_band_to_tridiagonal_data", .bool, "DEBUG_DUMP_BAND_TO_TRIDIAGONAL_DATA", ""⟩,
   ⟨"debug_dump_triangular_inverse_data", .bool, "DEBUG_DUMP_TRIANGULAR_INVERSE_DATA", ""⟩,
   ⟨"debug_dump_tridiag_solver_data", .bool, "DEBUG_DUMP_TRIDIAG_SOLVER_DATA", ""⟩,
   ⟨"tridiag_rank1_num_threads", .size, "TRIDIAG_RANK1_NUM_THREADS", "tridiag-rank1-num-threads"⟩,
   ⟨"tridiag_rank1_barrier_busy_wait_us", .size, "TRIDIAG_RANK1_BARRIER_BUSY_WAIT_US", "tridiag-rank1-barrier-busy-wait-us"⟩,
   ⟨"bt_band_to_tridiag_hh_apply_group_size", .sizeType, "BT_BAND_TO_TRIDIAG_HH_APPLY_GROUP_SIZE", "bt-band-to-tridiag-hh-apply-group-size"⟩,
   ⟨"communicator_grid_num_pipelines", .size, "COMMUNICATOR_GRID_NUM_PIPELINES", "communicator-grid-num-pipelines"⟩]

/-- init.cpp:285-289 -/
def layoutParam : Param := ⟨"default_allocation_layout", .layout, "DEFAULT_ALLOCATION_LAYOUT", "default_allocation_layout"⟩

/-- Environment variables and command line (`variables_map`: option name to value; `bool` switches have
the value `bool true` when given). -/
abbrev EnvVars := String → Option String
abbrev CmdLine := String → Option CfgValue

/-- init.cpp:177-194 `parseFromString<bool>` -/
def parseBool (s : String) : Option CfgValue :=
  let u := s.map Char.toUpper
  if u ∈ ["ON", "TRUE", "YES", "1"] then some (.bool true)
  else if u ∈ ["OFF", "FALSE", "NO", "0"] then some (.bool false)
  else none

/-- init.cpp:148-175 `parseFromString`.  The number parsers of the standard library (`std::stoull`,
`std::stoll`, `std::stod`) are a parameter `num`; `none` is an exception, which ends the program. -/
def parseValue (num : CfgKind → String → Option CfgValue) (k : CfgKind) (s : String) : Option CfgValue :=
  if k = .bool then parseBool s else num k s

/-- `vm.count(name) > 0` or'ed to a flag -/
def CfgValue.isTrue : CfgValue → Bool
  | .bool b => b
  | _ => false

/-- init.cpp:202-231 `updateConfigurationValue`; `none`: the program ends. -/
def updateConfigurationValue (num : CfgKind → String → Option CfgValue) (env : EnvVars) (vm : CmdLine)
    (p : Param) (var : CfgValue) : Option CfgValue :=
  (match env ("DLAF_" ++ p.env) with
   | some s => parseValue num p.kind s
   | none => some var).map fun (var : CfgValue) =>
    if p.kind = CfgKind.bool then CfgValue.bool (var.isTrue || (vm ("dlaf:" ++ p.cmd)).isSome)
    else (vm ("dlaf:" ++ p.cmd)).getD var

/-- Values of a set of parameters by field name. -/
abbrev Config := String → CfgValue

/-- One line of `updateConfiguration`. -/
def updateField (num : CfgKind → String → Option CfgValue) (env : EnvVars) (vm : CmdLine) (c : Config)
    (p : Param) : Option Config :=
  (updateConfigurationValue num env vm p (c p.field)).map fun v => fun f => if f = p.field then v else c f

/-- allocation_io.h:21-31 `allocation_layout_from` -/
def allocationLayoutFrom (s : String) : Option CfgValue :=
  let l := s.map Char.toLower
  if l = "colmajor" then some (.layout "ColMajor")
  else if l = "blocks" then some (.layout "Blocks")
  else if l = "tiles" then some (.layout "Tiles")
  else none

/-- init.cpp:285-289: the layout is read into a string first; the empty string leaves the parameter as it
is. -/
def updateLayout (env : EnvVars) (vm : CmdLine) (c : Config) : Option Config :=
  let s := (env ("DLAF_" ++ layoutParam.env)).getD ""
  let s := match vm ("dlaf:" ++ layoutParam.cmd) with
    | some (.layout t) => t
    | _ => s
  if s = "" then some c
  else (allocationLayoutFrom s).map fun v => fun f => if f = layoutParam.field then v else c f

/-- State of the library. -/
structure LibState where
  initialized : Bool
  cfg : Config
  tune : Config

/-- init.h: default member initialisers of `configuration` -/
def configDefault : Config := fun f =>
  if f = "print_config" then .bool false
  else if f = "num_np_gpu_streams" ∨ f = "num_hp_gpu_streams" then .int 32
  else if f = "num_np_gpu_streams_per_thread" ∨ f = "num_hp_gpu_streams_per_thread" then .int 3
  else if f = "umpire_host_memory_pool_alignment_bytes" ∨ f = "umpire_device_memory_pool_alignment_bytes"
    then .int 16
  else if f = "umpire_host_memory_pool_coalescing_free_ratio"
    ∨ f = "umpire_host_memory_pool_coalescing_reallocation_ratio"
    ∨ f = "umpire_device_memory_pool_coalescing_free_ratio"
    ∨ f = "umpire_device_memory_pool_coalescing_reallocation_ratio" then .real 1
  else if f = "num_gpu_blas_handles" ∨ f = "num_gpu_lapack_handles" then .int 16
  else .int (2 ^ 30)

/-- tune.h: default member initialisers of `TuneParameters` that do not depend on the number of threads;
the thread counts are given by `threads`. -/
def tuneDefault (threads : Nat) : Config := fun f =>
  if f = "default_allocation_layout" then .layout "ColMajor"
  else if f = "tfactor_num_threads" ∨ f = "red2band_panel_num_threads" then .int (max 1 (threads / 2 : Nat))
  else if f = "tridiag_rank1_num_threads" then .int threads
  else if f = "tfactor_num_streams" then .int 4
  else if f = "red2band_barrier_busy_wait_us" then .int 1000
  else if f = "tfactor_barrier_busy_wait_us" ∨ f = "tridiag_rank1_barrier_busy_wait_us" then .int 0
  else if f = "eigensolver_min_band" then .int 100
  else if f = "band_to_tridiag_1d_block_size_base" then .int 8192
  else if f = "bt_band_to_tridiag_hh_apply_group_size" then .int 64
  else if f = "communicator_grid_num_pipelines" then .int 3
  else .bool false

/-- init.cpp:252-316 `updateConfiguration` -/
def updateConfiguration (newPika : Bool) (num : CfgKind → String → Option CfgValue) (env : EnvVars)
    (vm : CmdLine) (cfg tune : Config) : Option (Config × Config) :=
  ((configParams newPika).foldlM (updateField num env vm) cfg).bind fun cfg' =>
  (updateLayout env vm tune).bind fun t =>
  (tuneParams.foldlM (updateField num env vm) t).map fun tune' => (cfg', tune')

/-- init.cpp:366-406 `initialize`.  `none`: the process ends (help requested, invalid value, assertion).
MPI polling and memory pools are not part of the state. -/
def libInitialize (newPika : Bool) (num : CfgKind → String → Option CfgValue) (env : EnvVars) (vm : CmdLine)
    (user : Config) (s : LibState) : Option LibState :=
  (updateConfiguration newPika num env vm user s.tune).bind fun r =>
  if (vm "dlaf:help").isSome then none
  else if s.initialized then none
  else some ⟨true, r.1, r.2⟩

/-- init.cpp:418-430 `finalize` -/
def finalize (s : LibState) : Option LibState :=
  if s.initialized then some { s with initialized := false, cfg := configDefault } else none

/-- What a program does: initialise (with the environment and command line of the moment), finalise,
change a tune parameter through `getTuneParameters()`. -/
inductive LibCall
  | init (env : EnvVars) (vm : CmdLine) (user : Config)
  | fin
  | setTune (field : String) (v : CfgValue)

/-- One call. -/
def LibCall.exec (newPika : Bool) (num : CfgKind → String → Option CfgValue) (s : LibState) :
    LibCall → Option LibState
  | .init env vm user => libInitialize newPika num env vm user s
  | .fin => finalize s
  | .setTune f v => some { s with tune := fun g => if g = f then v else s.tune g }

/-- A sequence of calls. -/
def runCalls (newPika : Bool) (num : CfgKind → String → Option CfgValue) (s : LibState)
    (calls : List LibCall) : Option LibState :=
  calls.foldlM (LibCall.exec newPika num) s

/-- The library when the program starts. -/
def LibState.start (threads : Nat) : LibState := ⟨false, configDefault, tuneDefault threads⟩

/-- Parameters of a memory pool. -/
structure PoolParams where
  initial_block_bytes : CfgValue
  next_block_bytes : CfgValue
  alignment_bytes : CfgValue
  coalesce_free_ratio : CfgValue
  coalesce_reallocation_ratio : CfgValue
deriving DecidableEq

/-- init.cpp:80-87 `Init<Backend::MC>::initialize`: parameters of the host pool -/
def hostPool (c : Config) : PoolParams where
  initial_block_bytes := c "umpire_host_memory_pool_initial_block_bytes"
  next_block_bytes := c "umpire_host_memory_pool_next_block_bytes"
  alignment_bytes := c "umpire_host_memory_pool_alignment_bytes"
  coalesce_free_ratio := c "umpire_host_memory_pool_coalescing_free_ratio"
  coalesce_reallocation_ratio := c "umpire_host_memory_pool_coalescing_reallocation_ratio"

/-- init.cpp:125-131 `Init<Backend::GPU>::initialize`: parameters of the device pool, as written (the
second argument is the initial block size again, the last two are the host's). -/
def devicePool (c : Config) : PoolParams where
  initial_block_bytes := c "umpire_device_memory_pool_initial_block_bytes"
  next_block_bytes := c "umpire_device_memory_pool_initial_block_bytes"
  alignment_bytes := c "umpire_device_memory_pool_alignment_bytes"
  coalesce_free_ratio := c "umpire_host_memory_pool_coalescing_free_ratio"
  coalesce_reallocation_ratio := c "umpire_host_memory_pool_coalescing_reallocation_ratio"

/-! ### C API initialisation -/

/-- src/c_api/init.cpp: `dlaf_initialized` and the library state. -/
structure CLibState where
  dlaf_initialized : Bool
  lib : LibState

/-- src/c_api/init.cpp:21-38 `dlaf_initialize` -/
def dlaf_initialize (newPika : Bool) (num : CfgKind → String → Option CfgValue) (env : EnvVars)
    (vm : CmdLine) (s : CLibState) : Option CLibState :=
  if s.dlaf_initialized then some s
  else (libInitialize newPika num env vm configDefault s.lib).map fun l => ⟨true, l⟩

/-- src/c_api/init.cpp:40-50 `dlaf_finalize` -/
def dlaf_finalize (s : CLibState) : Option CLibState :=
  if s.dlaf_initialized then (finalize s.lib).map fun l => ⟨false, l⟩ else some s

/-! ### C API grid handles -/

/-- `dlaf_grids`, an `unordered_map<int, CommunicatorGrid>` (grid.cpp:26): contexts with their grids. -/
abbrev GridMap (G : Type) := List (Int × G)

/-- `std::numeric_limits<int>::max()` -/
def intMax : Int := 2147483647

/-- `at` (utils.cpp `grid_from_context`) -/
def GridMap.get {G : Type} (m : GridMap G) (c : Int) : Option G := (m.find? (fun e => e.1 = c)).map (·.2)

/-- `try_emplace`: does nothing if the key is present -/
def GridMap.tryEmplace {G : Type} (m : GridMap G) (c : Int) (g : G) : GridMap G :=
  if (m.get c).isSome then m else (c, g) :: m

/-- grid.cpp:28-40 `dlaf_create_grid`: new map and returned context -/
def dlafCreateGrid {G : Type} (m : GridMap G) (g : G) : GridMap G × Int :=
  let c := intMax - m.length
  (m.tryEmplace c g, c)

/-- grid.cpp:42-44 `dlaf_free_grid` -/
def dlafFreeGrid {G : Type} (m : GridMap G) (c : Int) : GridMap G := m.filter fun e => e.1 ≠ c

/-- grid.cpp:46-48 `dlaf_free_all_grids` -/
def dlafFreeAllGrids {G : Type} (_m : GridMap G) : GridMap G := []

/-- grid.cpp:77-96 `dlaf_create_grid_from_blacs` -/
def dlafCreateGridFromBlacs {G : Type} (m : GridMap G) (c : Int) (g : G) : GridMap G := m.tryEmplace c g

/-- Calls on grids. -/
inductive GridCall (G : Type)
  | create (g : G)
  | free (c : Int)
  | freeAll
  | fromBlacs (c : Int) (g : G)

/-- One call on the map. -/
def GridCall.exec {G : Type} (m : GridMap G) : GridCall G → GridMap G
  | .create g => (dlafCreateGrid m g).1
  | .free c => dlafFreeGrid m c
  | .freeAll => dlafFreeAllGrids m
  | .fromBlacs c g => dlafCreateGridFromBlacs m c g

/-- A history. -/
def runGrid {G : Type} (calls : List (GridCall G)) (m : GridMap G) : GridMap G := calls.foldl GridCall.exec m

end DLAF
