import Verif.Model.Init
import Mathlib.Tactic.Common

/-! # C25 initialisation and configuration, C24 grid handles -/
namespace DLAF.C25
open DLAF

/-! ### specification -/

/-- Name of the environment variable of a parameter: `DLAF_` and the parameter's name in capitals. -/
def envName (field : String) : String := "DLAF_" ++ String.ofList (field.toList.map Char.toUpper)
/-- Name of the command line option of a parameter: `dlaf:` and the name with dashes. -/
def cmdName (field : String) : String := "dlaf:" ++ String.ofList (field.toList.map (fun c => if c = '_' then '-' else c))
/-- The value of the highest-precedence source that sets the parameter. -/
def highest (cmd env : Option CfgValue) (otherwise : CfgValue) : CfgValue := cmd.getD (env.getD otherwise)
/-- What the command line sets: the value, or `true` for a switch. -/
def cmdSource (k : CfgKind) (o : Option CfgValue) : Option CfgValue :=
  if k = .bool then o.map (fun _ => .bool true) else o

/-- A sequence of calls is bracketed: initialise and finalise alternate, starting with initialise
(`finalise` if already initialised); tune parameters may be set at any time. -/
def bracketed : Bool → List LibCall → Bool
  | _, [] => true
  | ini, .init _ _ _ :: cs => !ini && bracketed true cs
  | ini, .fin :: cs => ini && bracketed false cs
  | ini, .setTune _ _ :: cs => bracketed ini cs

/-- The environment and command line of each `initialize` are acceptable: no help request and no invalid
value (which ends the program). -/
def acceptable (newPika : Bool) (num : CfgKind → String → Option CfgValue) : LibCall → Prop
  | .init env vm user => (vm "dlaf:help") = none ∧
      ∀ tune, (updateConfiguration newPika num env vm user tune).isSome
  | _ => True

/-! ### proofs -/

variable {num : CfgKind → String → Option CfgValue} {env : EnvVars} {vm : CmdLine} {newPika : Bool}

theorem fold_spec (ps : List Param) (hnd : (ps.map (·.field)).Nodup) : ∀ c c' : Config,
    ps.foldlM (updateField num env vm) c = some c' →
    (∀ p ∈ ps, updateConfigurationValue num env vm p (c p.field) = some (c' p.field)) ∧
    (∀ f, f ∉ ps.map (·.field) → c' f = c f) := by
  induction ps with
  | nil => intro c c' h; simp at h; subst h; simp
  | cons p ps ih =>
    intro c c' h
    rw [List.map_cons, List.nodup_cons] at hnd
    rw [List.foldlM_cons] at h
    obtain ⟨c1, h1, h2⟩ : ∃ c1, updateField num env vm c p = some c1 ∧
        ps.foldlM (updateField num env vm) c1 = some c' := by
      cases hu : updateField num env vm c p with
      | none => rw [hu] at h; cases h
      | some c1 => rw [hu] at h; exact ⟨c1, rfl, h⟩
    obtain ⟨i1, i2⟩ := ih hnd.2 c1 c' h2
    simp only [updateField, Option.map_eq_some_iff] at h1
    obtain ⟨v, hv, rfl⟩ := h1
    constructor
    · intro q hq
      rcases List.mem_cons.1 hq with rfl | hq
      · rw [hv, i2 q.field hnd.1]; simp
      · have hne : q.field ≠ p.field := by
          intro he; apply hnd.1; rw [← he]; exact List.mem_map_of_mem hq
        have := i1 q hq
        simpa [hne] using this
    · intro f hf
      rw [List.map_cons, List.mem_cons, not_or] at hf
      rw [i2 f hf.2]; simp [hf.1]

theorem update_highest {p : Param} {cur v : CfgValue}
    (hb : p.kind = .bool → ∃ b, cur = .bool b)
    (h : updateConfigurationValue num env vm p cur = some v) :
    v = highest (cmdSource p.kind (vm ("dlaf:" ++ p.cmd)))
      ((env ("DLAF_" ++ p.env)).bind (parseValue num p.kind)) cur := by
  unfold updateConfigurationValue at h
  simp only [Option.map_eq_some_iff] at h
  obtain ⟨w, hw, rfl⟩ := h
  have hw' : w = ((env ("DLAF_" ++ p.env)).bind (parseValue num p.kind)).getD cur := by
    cases he : env ("DLAF_" ++ p.env) with
    | none => rw [he] at hw; simp at hw; simp [hw]
    | some s => rw [he] at hw; simp at hw; simp [hw]
  by_cases hk : p.kind = .bool
  · have hwb : ∃ b, w = .bool b := by
      cases he : env ("DLAF_" ++ p.env) with
      | none => rw [he] at hw; simp at hw; rw [← hw]; exact hb hk
      | some s =>
        rw [he] at hw
        simp only [parseValue, hk, if_true, parseBool] at hw
        split at hw
        · exact ⟨true, by simpa using hw.symm⟩
        · split at hw
          · exact ⟨false, by simpa using hw.symm⟩
          · cases hw
    obtain ⟨b, rfl⟩ := hwb
    rw [if_pos hk]
    simp only [highest, cmdSource, hk, if_true, CfgValue.isTrue]
    rw [hk] at hw'
    rw [← hw']
    cases vm ("dlaf:" ++ p.cmd) <;> simp
  · rw [if_neg hk]
    simp only [highest, cmdSource, if_neg hk]
    rw [← hw']

theorem config_names : ∀ newPika, ∀ p ∈ configParams newPika,
    "DLAF_" ++ p.env = envName p.field ∧ "dlaf:" ++ p.cmd = cmdName p.field := by decide

theorem config_nodup : ∀ newPika, ((configParams newPika).map (·.field)).Nodup := by decide

theorem config_bool : ∀ newPika, ∀ p ∈ configParams newPika, p.kind = .bool → p.field = "print_config" := by
  decide

/-- **Precedence.**  After a successful `initialize`, from whatever earlier history, each configuration
parameter handled by the build has the value from the command line (`dlaf:name-with-dashes`) if given
there, otherwise from the environment (`DLAF_NAME`) if set, otherwise the one supplied by the user (whose
default is the built-in default). -/
theorem C25_precedence {user : Config} {s s' : LibState} (hu : ∃ b, user "print_config" = .bool b)
    (h : libInitialize newPika num env vm user s = some s') {p : Param} (hp : p ∈ configParams newPika) :
    s'.cfg p.field = highest (cmdSource p.kind (vm (cmdName p.field)))
      ((env (envName p.field)).bind (parseValue num p.kind)) (user p.field) := by
  simp only [libInitialize, updateConfiguration, Option.bind_eq_some_iff, Option.map_eq_some_iff] at h
  obtain ⟨r, ⟨cfg', hcfg, t, ht, tune', htune, rfl⟩, hs⟩ := h
  split at hs
  · cases hs
  · split at hs
    · cases hs
    · simp only [Option.some.injEq] at hs
      subst hs
      have h1 := (fold_spec _ (config_nodup newPika) _ _ hcfg).1 p hp
      obtain ⟨n1, n2⟩ := config_names newPika p hp
      rw [← n1, ← n2]
      exact update_highest (fun hk => by rw [config_bool newPika p hp hk]; exact hu) h1

/-- **Finalising resets the configuration**, and parameters are then what the next `initialize` says: the
configuration after `initialize` does not depend on what happened before. -/
theorem C25_finalize_resets {s s' : LibState} (h : finalize s = some s') :
    s'.initialized = false ∧ s'.cfg = configDefault := by
  unfold finalize at h
  split at h
  · simp only [Option.some.injEq] at h; subst h; exact ⟨rfl, rfl⟩
  · cases h

/-- **Initialising twice and finalising twice are rejected; initialising after finalising works.** -/
theorem C25_double_calls_rejected {user : Config} {s : LibState} :
    (s.initialized = true → libInitialize newPika num env vm user s = none) ∧
    (s.initialized = false → finalize s = none) ∧
    (s.initialized = false → vm "dlaf:help" = none →
      (updateConfiguration newPika num env vm user s.tune).isSome →
      ∃ s', libInitialize newPika num env vm user s = some s' ∧ s'.initialized = true) := by
  refine ⟨fun h => ?_, fun h => ?_, fun h hh hu => ?_⟩
  · unfold libInitialize
    cases updateConfiguration newPika num env vm user s.tune with
    | none => rfl
    | some r => simp [h]
  · simp [finalize, h]
  · obtain ⟨r, hr⟩ := Option.isSome_iff_exists.1 hu
    refine ⟨⟨true, r.1, r.2⟩, ?_, rfl⟩
    simp [libInitialize, hr, hh, h]

/-- **Bracketing for whole histories**: a sequence of calls with acceptable inputs runs through exactly if
initialise and finalise alternate. -/
theorem C25_history_accepted_iff_bracketed (calls : List LibCall)
    (hacc : ∀ c ∈ calls, acceptable newPika num c) : ∀ s : LibState,
    (runCalls newPika num s calls).isSome = bracketed s.initialized calls := by
  induction calls with
  | nil => intro s; simp [runCalls, bracketed]
  | cons c cs ih =>
    intro s
    have ih := ih (fun c hc => hacc c (List.mem_cons_of_mem _ hc))
    have hc := hacc c (List.mem_cons_self)
    have unfold_run : runCalls newPika num s (c :: cs)
        = (c.exec newPika num s).bind fun s1 => runCalls newPika num s1 cs := by
      simp only [runCalls, List.foldlM_cons]; rfl
    rw [unfold_run]
    cases c with
    | init env vm user =>
      obtain ⟨hh, hu⟩ := hc
      simp only [LibCall.exec, bracketed]
      cases hi : s.initialized
      · obtain ⟨s1, h1, h2⟩ := (C25_double_calls_rejected (newPika := newPika) (num := num) (s := s)).2.2 hi hh
          (hu s.tune)
        rw [h1]
        simp only [Option.bind_some, Bool.not_false, Bool.true_and]
        rw [ih s1, h2]
      · rw [(C25_double_calls_rejected (newPika := newPika) (num := num) (s := s)).1 hi]; simp
    | fin =>
      simp only [LibCall.exec, bracketed]
      cases hi : s.initialized
      · simp [finalize, hi]
      · simp only [finalize, hi, if_true, Option.bind_some, Bool.true_and]
        rw [ih]
    | setTune f v =>
      simp only [LibCall.exec, bracketed, Option.bind_some]
      rw [ih]

theorem tune_nodup : (tuneParams.map (·.field)).Nodup := by decide

/-- Full statement for tune parameters: as `C25_precedence`, with the built-in default when no source sets
the parameter.  Proved part: what holds is that the previous value (built-in default, value set by the
user through `getTuneParameters()`, *or value left by an earlier initialisation*) is kept when neither the
command line nor the environment sets it.  Missing: the reset to the default, which the code does not do
(`C25_tune_not_reset_by_finalize`).  The layout parameter is treated in `C25_layout_precedence`. -/
theorem C25_tune_precedence_partial {user : Config} {s s' : LibState}
    (h : libInitialize newPika num env vm user s = some s') {p : Param} (hp : p ∈ tuneParams)
    (hb : p.kind = .bool → ∃ b, s.tune p.field = .bool b) :
    "DLAF_" ++ p.env = envName p.field ∧ (p.cmd = "" ∨ "dlaf:" ++ p.cmd = cmdName p.field) ∧
    s'.tune p.field = highest (cmdSource p.kind (vm ("dlaf:" ++ p.cmd)))
      ((env (envName p.field)).bind (parseValue num p.kind)) (s.tune p.field) := by
  have names : ∀ p ∈ tuneParams, "DLAF_" ++ p.env = envName p.field ∧
      (p.cmd = "" ∨ "dlaf:" ++ p.cmd = cmdName p.field) ∧ p.field ≠ layoutParam.field := by decide
  obtain ⟨n1, n2, n3⟩ := names p hp
  refine ⟨n1, n2, ?_⟩
  simp only [libInitialize, updateConfiguration, Option.bind_eq_some_iff, Option.map_eq_some_iff] at h
  obtain ⟨r, ⟨cfg', hcfg, t, ht, tune', htune, rfl⟩, hs⟩ := h
  have hs' : s'.tune = tune' := by
    split at hs
    · cases hs
    · split at hs
      · cases hs
      · simp only [Option.some.injEq] at hs; subst hs; rfl
  have htf : t p.field = s.tune p.field := by
    have key : ∀ str : String, (if str = "" then some s.tune else (allocationLayoutFrom str).map
        fun v => fun f => if f = layoutParam.field then v else s.tune f) = some t →
        t p.field = s.tune p.field := by
      intro str ht
      split at ht
      · simp only [Option.some.injEq] at ht; rw [← ht]
      · simp only [Option.map_eq_some_iff] at ht
        obtain ⟨v, _, rfl⟩ := ht
        simp [n3]
    exact key _ ht
  have h1 := (fold_spec _ tune_nodup _ _ htune).1 p hp
  rw [hs', ← n1, ← htf]
  exact update_highest (fun hk => by rw [htf]; exact hb hk) h1

/-- Allocation layout: a valid non-empty value on the command line, otherwise in the environment, sets it;
otherwise it stays as it is. -/
theorem C25_layout_precedence {user : Config} {s s' : LibState}
    (h : libInitialize newPika num env vm user s = some s') :
    let str := match vm "dlaf:default_allocation_layout" with
      | some (.layout t) => t
      | _ => (env "DLAF_DEFAULT_ALLOCATION_LAYOUT").getD ""
    (str ≠ "" → allocationLayoutFrom str = some (s'.tune "default_allocation_layout")) ∧
    (str = "" → s'.tune "default_allocation_layout" = s.tune "default_allocation_layout") := by
  intro str
  simp only [libInitialize, updateConfiguration, Option.bind_eq_some_iff, Option.map_eq_some_iff] at h
  obtain ⟨r, ⟨cfg', hcfg, t, ht, tune', htune, rfl⟩, hs⟩ := h
  have hs' : s'.tune = tune' := by
    split at hs
    · cases hs
    · split at hs
      · cases hs
      · simp only [Option.some.injEq] at hs; subst hs; rfl
  have h1 := (fold_spec _ tune_nodup _ _ htune).2 "default_allocation_layout" (by decide)
  have ht' : (if str = "" then some s.tune else (allocationLayoutFrom str).map fun v => fun f =>
      if f = layoutParam.field then v else s.tune f) = some t := by
    rw [← ht]; unfold updateLayout; rfl
  rw [hs', h1]
  constructor
  · intro hne
    rw [if_neg hne] at ht'
    simp only [Option.map_eq_some_iff] at ht'
    obtain ⟨v, hv, rfl⟩ := ht'
    rw [hv]; simp [layoutParam]
  · intro he
    rw [if_pos he] at ht'
    simp only [Option.some.injEq] at ht'; rw [ht']

/-- **Finding**: tune parameters survive `finalize`.  A program that initialises with
`--dlaf:eigensolver-min-band 50`, finalises, and initialises again without any setting runs with 50, not
with the default 100. -/
theorem C25_tune_not_reset_by_finalize :
    ∃ s', runCalls true (fun _ _ => none) (.start 4)
        [.init (fun _ => none) (fun o => if o = "dlaf:eigensolver-min-band" then some (.int 50) else none)
          configDefault, .fin, .init (fun _ => none) (fun _ => none) configDefault] = some s' ∧
      s'.tune "eigensolver_min_band" = .int 50 ∧
      (LibState.start 4).tune "eigensolver_min_band" = .int 100 := by
  refine ⟨_, rfl, by decide, by decide⟩

/-- **Finding** (GPU builds): the configured next block size and coalescing ratios of the device pool have
no effect; two configurations that differ only in them give the same pool, and the pool's next block
size is the configured *initial* one. -/
theorem C25_device_pool_parameters_ignored :
    (∀ c : Config, (devicePool c).next_block_bytes = c "umpire_device_memory_pool_initial_block_bytes") ∧
    (∃ c d : Config, c "umpire_device_memory_pool_next_block_bytes"
        ≠ d "umpire_device_memory_pool_next_block_bytes" ∧
      c "umpire_device_memory_pool_coalescing_free_ratio"
        ≠ d "umpire_device_memory_pool_coalescing_free_ratio" ∧ devicePool c = devicePool d) := by
  refine ⟨fun _ => rfl, configDefault, fun f =>
    if f = "umpire_device_memory_pool_next_block_bytes" then .int 4096
    else if f = "umpire_device_memory_pool_coalescing_free_ratio" then .real 2
    else configDefault f, by decide, by decide, by
      simp only [devicePool]; decide⟩

/-- The host pool gets the configured parameters. -/
theorem C25_host_pool_parameters (c : Config) :
    hostPool c = ⟨c "umpire_host_memory_pool_initial_block_bytes",
      c "umpire_host_memory_pool_next_block_bytes", c "umpire_host_memory_pool_alignment_bytes",
      c "umpire_host_memory_pool_coalescing_free_ratio",
      c "umpire_host_memory_pool_coalescing_reallocation_ratio"⟩ := rfl

/-- **C API**: `dlaf_initialize` and `dlaf_finalize` may be called any number of times in any order; the
wrapper flag and the library state always agree, so the C++ library is never initialised or finalised
twice. -/
theorem C25_c_api_idempotent {s s' : CLibState} (hs : s.dlaf_initialized = s.lib.initialized)
    (h : dlaf_initialize newPika num env vm s = some s' ∨ dlaf_finalize s = some s') :
    s'.dlaf_initialized = s'.lib.initialized ∧ (dlaf_finalize s).isSome ∧
    (s.dlaf_initialized = true → dlaf_initialize newPika num env vm s = some s) := by
  refine ⟨?_, ?_, fun h => by simp [dlaf_initialize, h]⟩
  · rcases h with h | h
    · unfold dlaf_initialize at h
      split at h
      · simp only [Option.some.injEq] at h; subst h; exact hs
      · simp only [Option.map_eq_some_iff] at h
        obtain ⟨l, hl, rfl⟩ := h
        simp only [libInitialize, Option.bind_eq_some_iff] at hl
        obtain ⟨r, _, hl⟩ := hl
        split at hl
        · cases hl
        · split at hl
          · cases hl
          · simp only [Option.some.injEq] at hl; subst hl; rfl
    · unfold dlaf_finalize at h
      split at h
      · simp only [Option.map_eq_some_iff] at h
        obtain ⟨l, hl, rfl⟩ := h
        exact (C25_finalize_resets hl).1.symm
      · simp only [Option.some.injEq] at h; subst h; exact hs
  · unfold dlaf_finalize
    split
    · rename_i hd
      rw [hd] at hs
      simp [finalize, ← hs]
    · rfl

/-- Non-vacuity: environment and command line both set a parameter; the command line wins, and another one
comes from the environment. -/
example : ∃ s', libInitialize true (fun _ s => if s = "7" then some (.int 7) else none)
      (fun e => if e = "DLAF_NUM_GPU_BLAS_HANDLES" ∨ e = "DLAF_NUM_GPU_LAPACK_HANDLES" then some "7" else none)
      (fun o => if o = "dlaf:num-gpu-blas-handles" then some (.int 9) else none) configDefault (.start 4)
      = some s' ∧ s'.cfg "num_gpu_blas_handles" = .int 9 ∧ s'.cfg "num_gpu_lapack_handles" = .int 7 ∧
      s'.cfg "num_np_gpu_streams" = .int 32 ∧ s'.initialized = true :=
  ⟨_, rfl, rfl, rfl, rfl, rfl⟩

end DLAF.C25

namespace DLAF.C24
open DLAF

variable {G : Type}

theorem get_cons (m : GridMap G) (c d : Int) (g : G) :
    GridMap.get ((c, g) :: m) d = if c = d then some g else m.get d := by
  simp only [GridMap.get, List.find?_cons]
  by_cases h : c = d
  · simp [h]
  · simp [h]

theorem get_tryEmplace (m : GridMap G) (c d : Int) (g : G) :
    (m.tryEmplace c g).get d = if c = d ∧ m.get c = none then some g else m.get d := by
  unfold GridMap.tryEmplace
  cases hc : m.get c with
  | some v => simp
  | none => simp [get_cons]

theorem get_filter (m : GridMap G) (c d : Int) :
    (dlafFreeGrid m c).get d = if c = d then none else m.get d := by
  unfold dlafFreeGrid
  induction m with
  | nil => simp [GridMap.get]
  | cons e m ih =>
    obtain ⟨k, g⟩ := e
    by_cases hk : k = c
    · subst hk
      rw [List.filter_cons_of_neg (by simp), ih, get_cons]
      by_cases h : k = d <;> simp [h]
    · rw [List.filter_cons_of_pos (by simp [hk]), get_cons, get_cons, ih]
      by_cases h : k = d
      · subst h; simp [Ne.symm hk]
      · simp [h]

/-- **Live handles are stable**: no other call changes the grid a live handle designates — creating grids
(by either function), freeing other handles. -/
theorem C24_live_handle_stable {m : GridMap G} {h : Int} {g : G} (hl : m.get h = some g) (c : GridCall G)
    (hc : c ≠ .free h ∧ c ≠ .freeAll) : (c.exec m).get h = some g := by
  cases c with
  | create g' =>
    simp only [GridCall.exec, dlafCreateGrid]
    rw [get_tryEmplace]
    split
    · rename_i hh; rw [hh.1, hl] at hh; cases hh.2
    · exact hl
  | free c =>
    simp only [GridCall.exec]
    rw [get_filter]
    have : c ≠ h := fun he => hc.1 (by rw [he])
    simp [this, hl]
  | freeAll => exact absurd rfl hc.2
  | fromBlacs c g' =>
    simp only [GridCall.exec, dlafCreateGridFromBlacs]
    rw [get_tryEmplace]
    split
    · rename_i hh; rw [hh.1, hl] at hh; cases hh.2
    · exact hl

/-- ... over any history that does not free it. -/
theorem C24_live_handle_stable_history (calls : List (GridCall G)) : ∀ {m : GridMap G} {h : Int} {g : G},
    m.get h = some g → (∀ c ∈ calls, c ≠ .free h ∧ c ≠ .freeAll) → (runGrid calls m).get h = some g := by
  induction calls with
  | nil => intro m h g hl _; exact hl
  | cons c cs ih =>
    intro m h g hl hc
    exact ih (C24_live_handle_stable hl c (hc c (List.mem_cons_self)))
      (fun c' hc' => hc c' (List.mem_cons_of_mem _ hc'))

/-- **Freed handles designate nothing** until a later creation returns them. -/
theorem C24_freed_handle_dead (m : GridMap G) (h : Int) :
    ((GridCall.free h).exec m).get h = none ∧ (GridCall.freeAll.exec m).get h = none := by
  constructor
  · simp only [GridCall.exec]; rw [get_filter]; simp
  · rfl

/-- **Finding: uniqueness fails.**  Create A, create B, free A, create C: the last call returns B's handle,
the handle still designates B, and no handle designates C. -/
theorem C24_create_after_free_returns_live_handle :
    let m1 := dlafCreateGrid ([] : GridMap String) "A"
    let m2 := dlafCreateGrid m1.1 "B"
    let m3 := dlafFreeGrid m2.1 m1.2
    let m4 := dlafCreateGrid m3 "C"
    m4.2 = m2.2 ∧ m4.1.get m4.2 = some "B" ∧ ∀ h, m4.1.get h ≠ some "C" := by
  refine ⟨by decide, by decide, fun h => ?_⟩
  have : (dlafCreateGrid (dlafFreeGrid (dlafCreateGrid (dlafCreateGrid ([] : GridMap String) "A").1 "B").1
    (dlafCreateGrid ([] : GridMap String) "A").2) "C").1 = [(intMax - 1, "B")] := by decide
  rw [this, get_cons]
  split <;> simp [GridMap.get]

/-- **Finding**: creating a grid from a BLACS context that already has a (stale) grid keeps the old one. -/
theorem C24_blacs_keeps_stale_grid :
    (dlafCreateGridFromBlacs (dlafCreateGridFromBlacs ([] : GridMap String) 0 "old") 0 "new").get 0
      = some "old" := by decide

/-- exactly when the returned handle designates the new grid -/
theorem C24_create_designates_new_iff [DecidableEq G] {m : GridMap G} {g : G}
    (hg : ∀ h, m.get h ≠ some g) :
    (dlafCreateGrid m g).1.get (dlafCreateGrid m g).2 = some g ↔ m.get (intMax - m.length) = none := by
  simp only [dlafCreateGrid]
  rw [get_tryEmplace]
  constructor
  · intro h
    by_contra hc
    simp only [true_and] at h
    rw [if_neg hc] at h
    exact hg _ h
  · intro h; simp [h]

/-- A history in stack order: the only handle freed is the most recently created live one. -/
inductive StackHistory : List (GridCall G) → GridMap G → Prop
  | nil : StackHistory [] []
  | create {cs m} (g : G) : StackHistory cs m → StackHistory (cs ++ [.create g]) (dlafCreateGrid m g).1
  | free {cs m c g} : StackHistory cs ((c, g) :: m) →
      StackHistory (cs ++ [.free c]) (dlafFreeGrid ((c, g) :: m) c)
  | freeAll {cs m} : StackHistory cs m → StackHistory (cs ++ [.freeAll]) (dlafFreeAllGrids m)

/-- in such histories the live handles are `INT_MAX - 0 .. INT_MAX - (n-1)` -/
theorem stack_keys {cs : List (GridCall G)} {m : GridMap G} (h : StackHistory cs m) :
    m.map (·.1) = ((List.range m.length).map fun k : Nat => intMax - (k : Int)).reverse := by
  have fresh : ∀ m : GridMap G, m.map (·.1) = ((List.range m.length).map fun k : Nat => intMax - (k : Int)).reverse →
      m.get (intMax - m.length) = none := by
    intro m hm
    simp only [GridMap.get, Option.map_eq_none_iff, List.find?_eq_none, decide_eq_true_eq]
    intro e he heq
    have : e.1 ∈ m.map (·.1) := List.mem_map_of_mem he
    rw [hm] at this
    simp only [List.mem_reverse, List.mem_map, List.mem_range] at this
    obtain ⟨k, hk, hk'⟩ := this
    omega
  induction h with
  | nil => rfl
  | @create cs m g _ ih =>
    have hf := fresh m ih
    simp only [dlafCreateGrid, GridMap.tryEmplace, hf, Option.isSome_none, Bool.false_eq_true, if_false]
    rw [List.map_cons, ih, List.length_cons, List.range_succ, List.map_append, List.reverse_append]
    rfl
  | @free cs m c g _ ih =>
    rw [List.map_cons, List.length_cons, List.range_succ, List.map_append, List.reverse_append] at ih
    simp only [List.map_cons, List.map_nil, List.reverse_cons, List.reverse_nil, List.nil_append,
      List.singleton_append, List.cons.injEq] at ih
    obtain ⟨h1, h2⟩ := ih
    have hid : dlafFreeGrid ((c, g) :: m) c = m := by
      unfold dlafFreeGrid
      rw [List.filter_cons_of_neg (by simp), List.filter_eq_self]
      intro e he
      have : e.1 ∈ m.map (·.1) := List.mem_map_of_mem he
      rw [h2] at this
      simp only [List.mem_reverse, List.mem_map, List.mem_range] at this
      obtain ⟨k, hk, hk'⟩ := this
      simp; omega
    rw [hid]; exact h2
  | freeAll _ _ => rfl

/-- Full statement: a handle returned by `dlaf_create_grid` is not a live handle and designates the grid
created by that call.  Proved for histories in which grids are freed in the reverse order of creation (or
all at once) and no BLACS contexts are used; in general it is false
(`C24_create_after_free_returns_live_handle`). -/
theorem C24_create_unique_partial {cs : List (GridCall G)} {m : GridMap G} (h : StackHistory cs m) (g : G) :
    m = runGrid cs [] ∧
    m.get (dlafCreateGrid m g).2 = none ∧ (dlafCreateGrid m g).1.get (dlafCreateGrid m g).2 = some g := by
  refine ⟨?_, ?_⟩
  · induction h with
    | nil => rfl
    | create g _ ih => simp only [runGrid, List.foldl_append, List.foldl_cons, List.foldl_nil] at ih ⊢; rw [← ih]; rfl
    | free _ ih => simp only [runGrid, List.foldl_append, List.foldl_cons, List.foldl_nil] at ih ⊢; rw [← ih]; rfl
    | freeAll _ ih => simp only [runGrid, List.foldl_append, List.foldl_cons, List.foldl_nil] at ih ⊢; rw [← ih]; rfl
  · have hk := stack_keys h
    have hf : m.get (intMax - m.length) = none := by
      simp only [GridMap.get, Option.map_eq_none_iff, List.find?_eq_none, decide_eq_true_eq]
      intro e he heq
      have : e.1 ∈ m.map (·.1) := List.mem_map_of_mem he
      rw [hk] at this
      simp only [List.mem_reverse, List.mem_map, List.mem_range] at this
      obtain ⟨k, hk, hk'⟩ := this
      omega
    refine ⟨hf, ?_⟩
    simp only [dlafCreateGrid]
    rw [get_tryEmplace]; simp [hf]

/-- Non-vacuity: create, create, free the second, create. -/
example : StackHistory [.create "A", .create "B", .free (intMax - 1), .create "C"]
    [(intMax - 1, "C"), (intMax, "A")] := by
  have h := ((StackHistory.nil (G := String)).create "A").create "B"
  have h2 := StackHistory.free (cs := [.create "A", .create "B"]) (c := intMax - 1) (g := "B")
    (m := [(intMax, "A")]) h
  exact h2.create "C"

end DLAF.C24
