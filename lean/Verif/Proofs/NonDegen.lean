import Verif.Proofs.PairAte

/-! The pairing of the generators, computed by the kernel. -/
namespace APS
open APS.Spec APS.Pairing

def forceG6 {α : Type} (a : Gfp6) (k : Gfp6 → α) : α := forceG2 a.x fun x => forceG2 a.y fun y => forceG2 a.z fun z => k ⟨x, y, z⟩
theorem forceG6_eq {α : Type} (a : Gfp6) (k : Gfp6 → α) : forceG6 a k = k a := by simp [forceG6, forceG2_eq]
def forceG12 {α : Type} (a : Gfp12) (k : Gfp12 → α) : α := forceG6 a.x fun x => forceG6 a.y fun y => k ⟨x, y⟩
theorem forceG12_eq {α : Type} (a : Gfp12) (k : Gfp12 → α) : forceG12 a k = k a := by simp [forceG12, forceG6_eq]

/-- evaluate the four results of a line function -/
def forceLine {α : Type} (l : Gfp2 × Gfp2 × Gfp2 × Pt Gfp2) (k : Gfp2 × Gfp2 × Gfp2 × Pt Gfp2 → α) : α :=
  forceG2 l.1 fun a => forceG2 l.2.1 fun b => forceG2 l.2.2.1 fun c => forceTw l.2.2.2 fun r => k (a, b, c, r)

theorem forceLine_eq {α : Type} (l : Gfp2 × Gfp2 × Gfp2 × Pt Gfp2) (k : Gfp2 × Gfp2 × Gfp2 × Pt Gfp2 → α) : forceLine l k = k l := by
  simp [forceLine, forceG2_eq, forceTw_eq]

/-- square and multiply -/
def pow12 (a : Gfp12) (e : Nat) : Nat → Gfp12 → Bool
  | 0, s => !(s.minimal P == Gfp12.one)
  | i + 1, s => forceG12 ((s.square P).minimal P) fun t => if e.testBit i then forceG12 ((t.mul P a).minimal P) (pow12 a e i) else pow12 a e i t

/-- `(p⁴ - p² + 1) / Order` -/
def hardE : Nat := (P ^ 4 - P ^ 2 + 1) / Order

theorem hardE_eq : (P ^ 6 - 1) * (P ^ 2 + 1) * hardE = eN := by decide +kernel

theorem pow12_eq (a : Gfp12) (e : Nat) : ∀ i s, pow12 a e i s = true → val12 P s ^ 2 ^ i * val12 P a ^ (e % 2 ^ i) ≠ 1
  | 0, s, h => by
    rw [pow_zero, pow_one, Nat.mod_one, pow_zero, mul_one]
    intro h0
    rw [pow12, Bool.not_eq_true', beq_eq_false_iff_ne] at h
    exact h (((minimal12_eq_iff s Gfp12.one).2 (by rw [h0, val12_one])).trans minimal_one)
  | i + 1, s, h => by
    rw [pow12, forceG12_eq] at h
    have hb : e.testBit i = decide (e / 2 ^ i % 2 = 1) := Nat.testBit_eq_decide_div_mod_eq
    rw [Nat.mod_pow_succ]
    have e1 : val12 P ((s.square P).minimal P) = val12 P s ^ 2 := by rw [val12_minimal, val12_square]; exact (pow_two _).symm
    by_cases ht : e.testBit i = true
    · rw [if_pos ht, forceG12_eq] at h
      have := pow12_eq a e i _ h
      rw [val12_minimal, val12_mul, e1, mul_pow, ← pow_mul] at this
      rw [ht] at hb
      have hb := of_decide_eq_true hb.symm
      rw [hb, mul_one, pow_add, Nat.pow_succ]
      intro h0
      apply this
      rw [← h0, mul_comm (2 ^ i) 2]; ring
    · rw [if_neg ht] at h
      have := pow12_eq a e i _ h
      rw [e1, ← pow_mul] at this
      rw [Bool.not_eq_true] at ht
      rw [ht] at hb
      have hb := of_decide_eq_false hb.symm
      have hb : e / 2 ^ i % 2 = 0 := by omega
      rw [hb, mul_zero, add_zero, Nat.pow_succ, mul_comm (2 ^ i) 2]
      exact this

/-- a candidate for the inverse -/
def inv2' (a : Gfp2) : Gfp2 :=
  forceNat (powMod ((a.x * a.x + a.y * a.y) % P).toNat (P - 2) P) fun n => ⟨(-a.x * n) % P, (a.y * n) % P⟩

def inv6' (a : Gfp6) : Gfp6 :=
  forceG2 ((a.z.square P).sub (a.x.mul P a.y).mulXi) fun A =>
  forceG2 (((a.x.square P).mulXi).sub (a.y.mul P a.z)) fun B =>
  forceG2 ((a.y.square P).sub (a.x.mul P a.z)) fun C =>
  forceG2 ((((C.mul P a.y).mulXi).add (A.mul P a.z)).add (B.mul P a.x).mulXi) fun F =>
  forceG2 (inv2' F) fun F => ⟨C.mul P F, B.mul P F, A.mul P F⟩

def inv12' (a : Gfp12) : Gfp12 :=
  forceG6 ((a.y.square P).sub (a.x.square P).mulTau) fun t =>
  forceG6 (inv6' t) fun t => ⟨a.x.negative.mul P t, a.y.mul P t⟩

/-- is the value not 1 after the final exponentiation -/
def notOne (f : Gfp12) : Bool :=
  forceG12 (inv12' f) fun g => ((g.mul P f).minimal P == Gfp12.one) &&
    forceG12 ((f.conjugate.1.mul P g).minimal P) fun t => forceG12 ((t.frobeniusP2.mul P t).minimal P) fun t => pow12 t hardE 762 Gfp12.one

theorem notOne_eq (f : Gfp12) (h : notOne f = true) : val12 P f ^ eN ≠ 1 := by
  unfold notOne at h
  rw [forceG12_eq, Bool.and_eq_true, beq_iff_eq, forceG12_eq, forceG12_eq] at h
  obtain ⟨h1, h2⟩ := h
  have h3 := pow12_eq _ _ _ _ h2
  rw [val12_one, one_pow, one_mul, Nat.mod_eq_of_lt (by decide +kernel), val12_minimal, val12_mul, frob12P2, val12_minimal, val12_mul, conj12] at h3
  have h4 := congrArg (val12 P) h1
  rw [val12_minimal, val12_mul, val12_one] at h4
  generalize val12 P f = v at *
  have hv : v ≠ 0 := by rintro rfl; rw [mul_zero] at h4; exact zero_ne_one h4
  have hg : val12 P (inv12' f) = v⁻¹ := eq_inv_of_mul_eq_one_left h4
  rw [hg] at h3
  have e1 : v ^ P ^ 6 * v⁻¹ = v ^ (P ^ 6 - 1) := by
    rw [pow_sub₀ v hv (Nat.one_le_pow _ _ (by decide +kernel)), pow_one]
  rw [e1, ← pow_mul, ← pow_add, ← pow_mul] at h3
  have ha : ∀ a b c : Nat, (a * b + a) * c = a * (b + 1) * c := by intros; ring
  rw [ha, hardE_eq] at h3
  exact h3

/-- the Miller loop with evaluation -/
def loopF (aA mA : Pt Gfp2) (bA : Pt Int) (r2 : Gfp2) (k : Gfp12 × Pt Gfp2 → Bool) : Nat → Gfp12 × Pt Gfp2 → Bool
  | 0, s => k s
  | i + 1, s =>
    forceLine (lineFunctionDouble s.2 bA) fun l =>
    forceG12 (if i + 1 ≠ sixuPlus2NAF.length - 1 then s.1.square P else s.1) fun ret =>
    forceG12 (mulLine ret l.1 l.2.1 l.2.2.1) fun ret =>
    if sixuPlus2NAF.getD i 0 = 1 then
      forceLine (lineFunctionAdd l.2.2.2 aA bA r2) fun l => forceG12 (mulLine ret l.1 l.2.1 l.2.2.1) fun ret => loopF aA mA bA r2 k i (ret, l.2.2.2)
    else if sixuPlus2NAF.getD i 0 = -1 then
      forceLine (lineFunctionAdd l.2.2.2 mA bA r2) fun l => forceG12 (mulLine ret l.1 l.2.1 l.2.2.1) fun ret => loopF aA mA bA r2 k i (ret, l.2.2.2)
    else loopF aA mA bA r2 k i (ret, l.2.2.2)

theorem loopF_eq (aA mA : Pt Gfp2) (bA : Pt Int) (r2 : Gfp2) (k : Gfp12 × Pt Gfp2 → Bool) : ∀ i s, loopF aA mA bA r2 k i s = k (millerLoop aA mA bA r2 i s) := by
  intro i
  induction i with
  | zero => intro s; rfl
  | succ i ih =>
    intro s
    rw [loopF, millerLoop]
    simp only [forceLine_eq, forceG12_eq, ih]
    obtain ⟨ret, r⟩ := s
    unfold millerStep
    simp only [Nat.add_sub_cancel]
    split_ifs <;> rfl

/-- `miller` on affine points, with evaluation -/
def millerF (aA mA : Pt Gfp2) (bA : Pt Int) (k : Gfp12 → Bool) : Bool :=
  loopF aA mA bA (aA.y.square P) (fun s =>
    forceG2 (aA.x.conjugate.mul P xiToPMinus1Over3) fun qx => forceG2 (aA.y.conjugate.mul P xiToPMinus1Over2) fun qy =>
    forceLine (lineFunctionAdd s.2 ⟨qx, qy, Gfp2.one, Gfp2.one⟩ bA (qy.square P)) fun l =>
    forceG12 (mulLine s.1 l.1 l.2.1 l.2.2.1) fun ret =>
    forceLine (lineFunctionAdd l.2.2.2 ⟨aA.x.mulScalar xiToPSquaredMinus1Over3, aA.y, Gfp2.one, Gfp2.one⟩ bA (aA.y.square P)) fun l =>
    forceG12 (mulLine ret l.1 l.2.1 l.2.2.1) k) (sixuPlus2NAF.length - 1) (Gfp12.one, aA)

theorem millerF_eq (k : Gfp12 → Bool) : millerF twistGen ⟨twistGen.x, Gfp2.zero.sub twistGen.y, twistGen.z, Gfp2.zero⟩ curveGen k = k (miller twistGen curveGen) := by
  have h1 : ∀ c, twistMakeAffine P (fun _ => twistGen) c = fun _ => twistGen := fun c => if_pos (show twistGen.z.isOne = true by decide)
  have h2 : ∀ c, curveMakeAffine P (fun _ => curveGen) c = fun _ => curveGen := fun c => if_pos (show curveGen.z.natAbs = 1 by decide)
  have h3 := twistNegative_other (fun _ => twistGen : Mem Gfp2) (c := .obj 1) (a := .obj 0) (by decide)
  have h4 := (congrFun h3 (.obj 1)).trans (Mem.set_same _ _ _)
  unfold millerF miller
  simp only [loopF_eq, forceLine_eq, forceG2_eq, forceG12_eq, h1, h2]
  rw [h4]

/-- the pairing of the generators is not 1 -/
theorem pair_gen_ne : val12 P (pair curveGen twistGen) ≠ 1 := by
  have h : millerF twistGen ⟨twistGen.x, Gfp2.zero.sub twistGen.y, twistGen.z, Gfp2.zero⟩ curveGen notOne = true := by decide +kernel
  rw [millerF_eq] at h
  have h2 := notOne_eq _ h
  intro h3
  rw [pair_fin (by decide), finalExp_eq] at h3
  rw [eN] at h2
  exact h2 h3

theorem ate_gen_ne : ate G1gen G2gen ≠ 1 := by
  rw [← pair_eq_ate curveGen twistGen rep_gen1 rep_gen2 (AddSubgroup.mem_zmultiples _) (fun _ => val2_one P)]
  exact pair_gen_ne

theorem ate_order (A : (E1 P).Point) {Q : (E2 P).Point} (hQ : Q ∈ GG2) : ate A Q ^ Order = 1 := by
  have := ate_nsmul 1 Order A hQ
  rw [one_mul, GG2_order hQ, ate_zero_right] at this
  exact this.symm

theorem ate_gen_order : orderOf (ate G1gen G2gen) = Order :=
  orderOf_eq_prime (ate_order _ (AddSubgroup.mem_zmultiples _)) ate_gen_ne

end APS
