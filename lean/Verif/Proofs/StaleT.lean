import Verif.Proofs.NonDegen

/-! The pairing of an object with `z = 1` and a `t` that is not up to date, computed by the kernel. -/
namespace APS
open APS.Spec APS.Pairing

/-- the generator of G2, with `t` as `Negative` leaves it -/
def staleGen : Pt Gfp2 := { twistGen with t := Gfp2.zero }

theorem rep_stale : Rep2 P staleGen G2gen := rep_gen2

theorem millerF_stale (k : Gfp12 → Bool) : millerF staleGen ⟨staleGen.x, Gfp2.zero.sub staleGen.y, staleGen.z, Gfp2.zero⟩ curveGen k = k (miller staleGen curveGen) := by
  have h1 : ∀ c, twistMakeAffine P (fun _ => staleGen) c = fun _ => staleGen := fun c => if_pos (show staleGen.z.isOne = true by decide)
  have h2 : ∀ c, curveMakeAffine P (fun _ => curveGen) c = fun _ => curveGen := fun c => if_pos (show curveGen.z.natAbs = 1 by decide)
  have h3 := twistNegative_other (fun _ => staleGen : Mem Gfp2) (c := .obj 1) (a := .obj 0) (by decide)
  have h4 := (congrFun h3 (.obj 1)).trans (Mem.set_same _ _ _)
  unfold millerF miller
  simp only [loopF_eq, forceLine_eq, forceG2_eq, forceG12_eq, h1, h2]
  rw [h4]

/-- is `f / g` not 1 after the final exponentiation -/
def differ (f g : Gfp12) : Bool :=
  forceG12 (inv12' g) fun gi => ((gi.mul P g).minimal P == Gfp12.one) && forceG12 ((f.mul P gi).minimal P) notOne

theorem differ_ne (f g : Gfp12) (h : differ f g = true) : val12 P f ^ eN ≠ val12 P g ^ eN := by
  unfold differ at h
  rw [forceG12_eq, Bool.and_eq_true, beq_iff_eq, forceG12_eq] at h
  obtain ⟨h1, h2⟩ := h
  have h3 := notOne_eq _ h2
  have h4 := congrArg (val12 P) h1
  rw [val12_minimal, val12_mul, val12_one] at h4
  rw [val12_minimal, val12_mul, mul_pow] at h3
  intro h5
  apply h3
  rw [h5, ← mul_pow, mul_comm, h4, one_pow]

theorem pair_stale_ne : val12 P (pair curveGen staleGen) ≠ val12 P (pair curveGen twistGen) := by
  have h : millerF staleGen ⟨staleGen.x, Gfp2.zero.sub staleGen.y, staleGen.z, Gfp2.zero⟩ curveGen (fun f => forceG12 f fun f =>
    millerF twistGen ⟨twistGen.x, Gfp2.zero.sub twistGen.y, twistGen.z, Gfp2.zero⟩ curveGen (differ f)) = true := by decide +kernel
  rw [millerF_stale, forceG12_eq, millerF_eq] at h
  have h2 := differ_ne _ _ h
  intro h3
  rw [pair_fin (by decide), pair_fin (by decide), finalExp_eq, finalExp_eq] at h3
  rw [eN] at h2
  exact h2 h3

end APS
