import Verif.Lemmas.BtBandStep
import Verif.Lemmas.LarftExists
import Verif.Props.BandTridiag
/- C48: back-transformation from tridiagonal to band form (local memory). -/
namespace DLAF
open Sem
open scoped Classical
variable {K : Type*} [RCLike K]

/-- C48: for every order, number of columns of `E`, tile sizes, band width (at least 2, dividing the tile size), group size, real or
complex type, every matrix of reflectors, every previous content of the workspaces and every `larft` that satisfies LAPACK's
contract: the call does not abort, `E` becomes `Q E` where `Q` is the documented product of the stored reflectors (the same `Q` as in
C47), and nothing outside of the `n × m` matrix changes. -/
theorem C48_back_transformation {E : T2BEnv K} (hl : LarftSpec E.larft) (hG : 0 < E.group) {n m nb nbe b : Nat} (hq : 0 < nbe)
    (hb : 2 ≤ b) (hd : nb % b = 0) (V C : Elems K) :
    ∃ C', btBandToTridiag E n m nb nbe b V C = some C' ∧ toM n m C' = hhQ E.cplx n b V * toM n m C ∧
      ∀ x y, ¬ (x < n ∧ y < m) → C' x y = C x y := by
  unfold btBandToTridiag
  rw [if_neg (fun h => h ⟨hb, hd⟩)]
  by_cases h0 : n = 0 ∨ m = 0
  · rw [if_pos h0]
    refine ⟨C, rfl, ?_, fun _ _ _ => rfl⟩
    ext x y
    rcases h0 with h | h
    · exact absurd x.2 (by omega)
    · exact absurd y.2 (by omega)
  rw [if_neg h0]
  by_cases h1 : n ≤ (if E.cplx then 1 else 2)
  · rw [if_pos h1]
    refine ⟨C, rfl, ?_, fun _ _ _ => rfl⟩
    have : lastSweep E.cplx n = 0 := by
      unfold lastSweep
      cases hc : E.cplx <;> simp only [hc, Bool.false_eq_true, if_false, if_true] at h1 ⊢ <;> omega
    unfold hhQ hhSweeps
    rw [this]
    simp
  rw [if_neg h1]
  obtain ⟨C', h2, h3, h4⟩ := t2b_run (m := m) hl hG hq hb (Nat.lt_of_not_le h1) V _ (Nat.le_refl _) C
  refine ⟨C', h2, ?_, fun x y h => h4 x y (by omega)⟩
  rw [h3, hhQ_blocks hb (by omega)]

/-- C48: a band width that is smaller than 2 or does not divide the tile size is refused. -/
theorem C48_bad_band (E : T2BEnv K) {n m nb nbe b : Nat} (h : b < 2 ∨ nb % b ≠ 0) (V C : Elems K) :
    btBandToTridiag E n m nb nbe b V C = none := by
  unfold btBandToTridiag
  rw [if_pos (by omega)]

/-- C48: eigenvectors of the tridiagonal matrix become eigenvectors of the band matrix.  The reflectors are those that
`band_to_tridiagonal` returns on any schedule (C47); `Λ` are the eigenvalues, `Z` holds eigenvectors of the tridiagonal matrix as
columns: their images are eigenvectors of the band matrix for the same eigenvalues, and their scalar products are preserved. -/
theorem C48_eigenvectors {B : BtEnv K} (ok : bandOK B) (hnb : 0 < B.nb) (hs : 0 < B.size) (ht : 0 < B.threads) (hlg : LarfgSpec B.larfg)
    (hA : ∀ x < B.size, star (B.a x x) = B.a x x) (hreal : B.cplx = false → ∀ x : K, star x = x) (s : BtSt K)
    {k : Conf (BtSt K)} {l : Nat} (hr : Steps (bandProg B) (start s) k l) (hdone : Done (bandProg B) k)
    {E : T2BEnv K} (hc : E.cplx = B.cplx) (hl : LarftSpec E.larft) (hG : 0 < E.group) {m nbe : Nat} (hq : 0 < nbe)
    (Z : Elems K) (Λ : Matrix (Fin m) (Fin m) K)
    (hZ : triM B.size k.s.d k.s.e * toM B.size m Z = toM B.size m Z * Λ) :
    ∃ Z', btBandToTridiag E B.size m B.nb nbe B.b k.s.refl Z = some Z' ∧
      hermM B.size (bandLow B.b B.size B.a) * toM B.size m Z' = toM B.size m Z' * Λ ∧
      (toM B.size m Z').conjTranspose * toM B.size m Z' = (toM B.size m Z).conjTranspose * toM B.size m Z := by
  obtain ⟨Z', h1, h2, -⟩ := C48_back_transformation (n := B.size) (m := m) hl hG hq ok.2 ok.1 k.s.refl Z
  obtain ⟨h3, h4⟩ := C47_tridiagonal ok hnb hs ht hlg hA hreal s hr hdone
  rw [hc] at h2
  have h5 := mul_eq_one_comm.1 h4
  refine ⟨Z', h1, ?_, ?_⟩
  · rw [h2, Matrix.mul_assoc, ← hZ, h3, ← Matrix.mul_assoc, ← Matrix.mul_assoc, ← Matrix.mul_assoc, ← Matrix.mul_assoc, h5,
      Matrix.one_mul]
  · rw [h2, Matrix.conjTranspose_mul, Matrix.mul_assoc, ← Matrix.mul_assoc _ _ (toM B.size m Z), h4, Matrix.one_mul]

/-- Complex, groups of 2 reflectors. -/
noncomputable def t2bExample : T2BEnv ℂ :=
  ⟨larftStd, 2, true, fun _ _ x y => (x : ℂ) + y, fun _ _ _ _ => 5, fun _ _ _ _ => 7, fun _ _ x _ => x⟩

/-- The hypotheses hold: order 11, 5 columns, tile size 6, tiles of width 2, band width 3 (so there are blocks of one and of two
tile rows, and full and partial groups). -/
example : LarftSpec t2bExample.larft ∧ 0 < t2bExample.group ∧ 2 ≤ 3 ∧ 6 % 3 = 0 ∧
    t2bSteps 0 11 3 = 3 ∧ (t2bSweeps t2bExample.cplx 11 - 1) / 3 = 3 ∧
    t2bRefls t2bExample.cplx 11 3 3 3 0 2 = 3 ∧ t2bRefls t2bExample.cplx 11 3 3 1 3 0 = 1 :=
  ⟨larftStd_spec, by decide, by decide, by decide, by decide, by decide, by decide, by decide⟩


end DLAF
