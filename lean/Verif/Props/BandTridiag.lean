import Verif.Lemmas.BandCopy
import Verif.Lemmas.BandFrame
import Verif.Lemmas.LarfgExists
import Mathlib.Analysis.Complex.Basic
/- C47: reduction of a Hermitian band matrix to tridiagonal form (local memory). -/
namespace DLAF
open Sem
open scoped Classical
variable {K : Type*} [RCLike K] {E : BtEnv K}

/-- C47: for every order, band width (at least 2, dividing the tile size), number of worker threads, real or complex type, every
`larfg` that satisfies LAPACK's contract, every matrix with a real diagonal, every previous content of the memory, and EVERY
schedule of the tasks: when they have ended, `Q` as documented (the product of the stored reflectors, sweep after sweep) is
unitary, and the tridiagonal matrix returned is `Qᴴ B Q`, where `B` is the Hermitian matrix given by the lower band of the
matrix.  (For a real type `star` is the identity.) -/
theorem C47_tridiagonal (ok : bandOK E) (hnb : 0 < E.nb) (hs : 0 < E.size) (ht : 0 < E.threads) (hl : LarfgSpec E.larfg)
    (hA : ∀ x < E.size, star (E.a x x) = E.a x x) (hreal : E.cplx = false → ∀ x : K, star x = x) (s : BtSt K)
    {k : Conf (BtSt K)} {l : Nat} (hr : Steps (bandProg E) (start s) k l) (hd : Done (bandProg E) k) :
    triM E.size k.s.d k.s.e =
      (hhQ E.cplx E.size E.b k.s.refl).conjTranspose * hermM E.size (bandLow E.b E.size E.a) * hhQ E.cplx E.size E.b k.s.refl ∧
    (hhQ E.cplx E.size E.b k.s.refl).conjTranspose * hhQ E.cplx E.size E.b k.s.refl = 1 :=
  band_run ⟨ok.2, ok.1, hnb, hs, ht⟩ hl hA hreal s ((band_one_result ⟨ok.2, ok.1, hnb, hs, ht⟩ s).2.2 k l hr hd)

/-- C47: executions are finite, no schedule blocks before all tasks have ended (whatever the number of threads), and all schedules
end in the same state. -/
theorem C47_every_schedule (ok : bandOK E) (hnb : 0 < E.nb) (hs : 0 < E.size) (ht : 0 < E.threads) (s : BtSt K) :
    ∃ s', OneResult (bandProg E) s s' :=
  ⟨_, band_one_result ⟨ok.2, ok.1, hnb, hs, ht⟩ s⟩

/-- C47: every action stays in its footprint, and no schedule reaches a point where two tasks are about to perform actions with a
common cell (element of the band, worker, element of the matrix of reflectors, row of the tridiagonal matrix). -/
theorem C47_race_free (ok : bandOK E) (hnb : 0 < E.nb) (hs : 0 < E.size) (ht : 0 < E.threads) (s : BtSt K) :
    (∀ t < (bandProg E).n, ∀ q < (bandProg E).len t, Local btView (btFoot E t q) (eff ((bandProg E).instr t q))) ∧
    RaceFree (bandProg E) (btFoot E) s :=
  ⟨fun _ h _ h' => eff_local ⟨ok.2, ok.1, hnb, hs, ht⟩ h h', band_race_free ⟨ok.2, ok.1, hnb, hs, ht⟩ s⟩

/-- C47: the footprints lie in the allocated memory: `size` columns of `2 b` elements, `max_workers` workers, elements of the matrix of
reflectors in the columns of the sweeps, from the block row of the diagonal on, and the rows of the tridiagonal matrix. -/
theorem C47_footprint (ok : bandOK E) (hnb : 0 < E.nb) (hs : 0 < E.size) (ht : 0 < E.threads) (t q : Nat) :
    (∀ a, btFoot E t q (.mem a) → a < E.size * (2 * E.b)) ∧ (∀ w, btFoot E t q (.worker w) → w < maxWorkers E) ∧
    (∀ x y, btFoot E t q (.refl x y) → y < lastSweep E.cplx E.size ∧ y / E.b * E.b ≤ x ∧ x < E.size) ∧
    ∀ i, btFoot E t q (.trid i) → i < E.size :=
  have ok' : BtOK E := ⟨ok.2, ok.1, hnb, hs, ht⟩
  ⟨fun _ h => foot_bound ok' h, fun _ h => foot_bound ok' h, fun _ _ h => foot_bound ok' h, fun _ h => foot_bound ok' h⟩

/-- C47: nothing else changes, at any point of any schedule: in the matrix of reflectors the elements above the block row of the
diagonal, those of the columns without a sweep and those outside of the matrix; rows outside of the tridiagonal matrix. -/
theorem C47_frame (ok : bandOK E) (hnb : 0 < E.nb) (hs : 0 < E.size) (ht : 0 < E.threads) (s : BtSt K)
    {k : Conf (BtSt K)} {l : Nat} (hr : Steps (bandProg E) (start s) k l) :
    (∀ x y, ¬ (y < lastSweep E.cplx E.size ∧ y / E.b * E.b ≤ x ∧ x < E.size) → k.s.refl x y = s.refl x y) ∧
    ∀ i, E.size ≤ i → k.s.d i = s.d i ∧ k.s.e i = s.e i := by
  have ok' : BtOK E := ⟨ok.2, ok.1, hnb, hs, ht⟩
  refine ⟨fun x y h => steps_frame ok' hr (c := .refl x y) h, fun i h => ?_⟩
  have := congrArg ULift.down (steps_frame ok' hr (c := .trid i) (Nat.not_lt.2 h))
  exact ⟨congrArg Prod.fst this, congrArg Prod.snd this⟩

/-- A complex matrix of order 7, tile size 4, band width 2, two threads; LAPACK's formulas for `larfg`. -/
noncomputable def btExample : BtEnv ℂ :=
  ⟨larfgStd, 7, 4, 2, true, 2, fun x y => if x = y then 1 else ⟨(x : ℝ) + 1, y⟩⟩

example : bandOK btExample ∧ 0 < btExample.nb ∧ 0 < btExample.size ∧ 0 < btExample.threads ∧ LarfgSpec btExample.larfg ∧
    (∀ x < btExample.size, star (btExample.a x x) = btExample.a x x) ∧ (btExample.cplx = false → ∀ x : ℂ, star x = x) ∧
    nrSweeps btExample.cplx btExample.size = 6 ∧ maxWorkers btExample = 3 ∧ nrSteps 0 btExample.size btExample.b = 3 := by
  refine ⟨⟨rfl, Nat.le_refl 2⟩, by decide, by decide, by decide, larfgStd_spec, fun x _ => ?_, fun h => ?_, rfl, rfl, rfl⟩
  · simp [btExample]
  · exact absurd h (by simp [btExample])

/-- A real matrix of order 9 (the last tile has one row). -/
noncomputable def btExampleR : BtEnv ℝ := ⟨larfgStd, 9, 4, 2, false, 1, fun x y => (x : ℝ) * y + 1⟩

example : bandOK btExampleR ∧ 0 < btExampleR.nb ∧ 0 < btExampleR.size ∧ 0 < btExampleR.threads ∧ LarfgSpec btExampleR.larfg ∧
    (∀ x < btExampleR.size, star (btExampleR.a x x) = btExampleR.a x x) ∧ (btExampleR.cplx = false → ∀ x : ℝ, star x = x) :=
  ⟨⟨rfl, Nat.le_refl 2⟩, by decide, by decide, by decide, larfgStd_spec, fun _ _ => rfl, fun _ _ => rfl⟩

/-- There are complete executions. -/
example (s : BtSt ℂ) : ∃ k l, Steps (bandProg btExample) (start s) k l ∧ Done (bandProg btExample) k := by
  obtain ⟨s', ⟨m, hm⟩, h2, _⟩ := C47_every_schedule (E := btExample) ⟨rfl, Nat.le_refl 2⟩ (by decide) (by decide) (by decide) s
  by_contra hc
  have : ∀ n, ∃ k, Steps (bandProg btExample) (start s) k n := by
    intro n
    induction n with
    | zero => exact ⟨_, .refl⟩
    | succ n ih =>
      obtain ⟨k, hk⟩ := ih
      rcases h2 k n hk with h | ⟨k', hk'⟩
      · exact absurd ⟨k, n, hk, h⟩ hc
      · exact ⟨k', .tail hk hk'⟩
  obtain ⟨k, hk⟩ := this (m + 1)
  have := hm k _ hk
  omega

end DLAF
