import Verif.Proofs.BnImpl

/-! The same functions as `bnRaw`, on values instead of memories, with forced evaluation: for concrete runs by the kernel. -/
namespace APS
open APS.Spec APS.Pairing APS.Snark
open Pairing.Mem

/-- `Add` into a third object -/
def addV1 (a b : Pt Int) (t0 : Int) : Pt Int :=
  if a.z = 0 then b else if b.z = 0 then a
  else if addU1 P a b = addU1 P b a ∧ addS1 P a b = addS1 P b a then dblPt P a t0 else addPt P a b t0
/-- `Add` into the first operand -/
def addV1In (a b : Pt Int) : Pt Int :=
  if a.z = 0 then b else if b.z = 0 then a
  else if addU1 P a b = addU1 P b a ∧ addS1 P a b = addS1 P b a then dblPtIn P a else addPt P a b a.t
/-- see `addV1` -/
def addV2 (a b : Pt Gfp2) (t0 : Gfp2) : Pt Gfp2 :=
  if a.z = ⟨0, 0⟩ then b else if b.z = ⟨0, 0⟩ then a
  else if twU P a b = twU P b a ∧ twS P a b = twS P b a then dblTw P a t0 else addTw P a b t0
/-- see `addV1In` -/
def addV2In (a b : Pt Gfp2) : Pt Gfp2 :=
  if a.z = ⟨0, 0⟩ then b else if b.z = ⟨0, 0⟩ then a
  else if twU P a b = twU P b a ∧ twS P a b = twS P b a then dblTwIn P a else addTw P a b a.t

def mulV1 (a : Pt Int) (k : Int) : Nat → Pt Int → Pt Int → Pt Int
  | 0, s, _ => s
  | i + 1, s, t => forcePt (dblPt P s t.t) fun d =>
    if bitInt k i then forcePt (addV1 d a s.t) fun s => mulV1 a k i s d else mulV1 a k i d d
def mulV2 (a : Pt Gfp2) (k : Int) : Nat → Pt Gfp2 → Pt Gfp2 → Pt Gfp2
  | 0, s, _ => s
  | i + 1, s, t => forceTw (dblTw P s t.t) fun d =>
    if bitInt k i then forceTw (addV2 d a s.t) fun s => mulV2 a k i s d else mulV2 a k i d d

theorem mulV1_eq {a : Ref} (ha : a ≠ .sum ∧ a ≠ .tmp) (k : Int) : ∀ i (m : Mem Int),
    curveMulLoop P a k i m .sum = mulV1 (m a) k i (m .sum) (m .tmp) := by
  intro i
  induction i with
  | zero => intro m; rfl
  | succ i ih =>
    intro m
    rw [curveMulLoop, mulV1, forcePt_eq, curveDouble_other _ _ (by decide)]
    have hs : a ≠ .sum := ha.1
    have ht : a ≠ .tmp := ha.2
    by_cases hb : bitInt k i = true
    · rw [if_pos hb, if_pos hb, forcePt_eq, ih, curveAdd_eq, curveDouble_other _ _ (by decide)]
      unfold addV1
      simp only [Mem.set, ht, hs, if_true, if_false, reduceCtorEq]
      split_ifs <;> simp [Mem.set, ht, hs]
    · rw [if_neg hb, if_neg hb, ih]
      simp [Mem.set, ht, hs]

theorem mulV2_eq {a : Ref} (ha : a ≠ .sum ∧ a ≠ .tmp) (k : Int) : ∀ i (m : Mem Gfp2),
    twistMulLoop P a k i m .sum = mulV2 (m a) k i (m .sum) (m .tmp) := by
  intro i
  induction i with
  | zero => intro m; rfl
  | succ i ih =>
    intro m
    rw [twistMulLoop, mulV2, forceTw_eq, twistDouble_other _ _ (by decide)]
    have hs : a ≠ .sum := ha.1
    have ht : a ≠ .tmp := ha.2
    by_cases hb : bitInt k i = true
    · rw [if_pos hb, if_pos hb, forceTw_eq, ih, twistAdd_eq, twistDouble_other _ _ (by decide)]
      unfold addV2
      simp only [Mem.set, ht, hs, if_true, if_false, reduceCtorEq]
      split_ifs <;> simp [Mem.set, ht, hs]
    · rw [if_neg hb, if_neg hb, ih]
      simp [Mem.set, ht, hs]

def o1 : Pt Int := ⟨0, 0, 0, 0⟩
def o2 : Pt Gfp2 := ⟨Gfp2.zero, Gfp2.zero, Gfp2.zero, Gfp2.zero⟩

/-- `bnRaw` on values -/
def bnFast : Api (Pt Int) (Pt Gfp2) Gfp12 where
  base1 k := mulV1 curveGen k (bitLenInt k + 1) o1 o1
  base2 k := mulV2 twistGen k (bitLenInt k + 1) o2 o2
  mul1 a k := mulV1 a k (bitLenInt k + 1) o1 o1
  mul2 a k := mulV2 a k (bitLenInt k + 1) o2 o2
  mulT a k := gtScalarMult a k
  addTo1 a b := forcePt (addV1In a b) id
  addTo2 a b := forceTw (addV2In a b) id
  addFresh2 a b := forceTw (addV2 a b Gfp2.zero) id
  addT a b := gtAdd a b
  x1 a := (g1X (newMem1.set (.obj 0) a) (.obj 0)).1
  pair a b := Pairing.pair a b
  eqT a b := gtMarshal a == gtMarshal b

theorem bnFast_eq : bnFast = bnRaw := by
  unfold bnFast bnRaw
  congr 1
  · funext k
    show _ = curveMul P newMem1 (.obj 0) .gen k (.obj 0)
    unfold curveMul
    rw [Mem.set_same, mulV1_eq (by decide)]; rfl
  · funext k
    show _ = twistMul P newMem2 (.obj 0) .gen k (.obj 0)
    unfold twistMul
    rw [Mem.set_same, mulV2_eq (by decide)]; rfl
  · funext a k
    show _ = curveMul P _ (.obj 0) (.obj 1) k (.obj 0)
    unfold curveMul
    rw [Mem.set_same, mulV1_eq (by decide)]; rfl
  · funext a k
    show _ = twistMul P _ (.obj 0) (.obj 1) k (.obj 0)
    unfold twistMul
    rw [Mem.set_same, mulV2_eq (by decide)]; rfl
  · funext a b
    rw [forcePt_eq]
    show addV1In a b = curveAdd P _ (.obj 0) (.obj 0) (.obj 1) (.obj 0)
    rw [curveAdd_eq, curveDouble_same]
    unfold addV1In
    simp only [Mem.set, reduceCtorEq, if_true, if_false, Ref.obj.injEq, zero_ne_one]
    split_ifs <;> simp_all [Mem.set]
  · funext a b
    rw [forceTw_eq]
    show addV2In a b = twistAdd P _ (.obj 0) (.obj 0) (.obj 1) (.obj 0)
    rw [twistAdd_eq, twistDouble_same]
    unfold addV2In
    simp only [Mem.set, reduceCtorEq, if_true, if_false, Ref.obj.injEq, zero_ne_one]
    split_ifs <;> simp_all [Mem.set]
  · funext a b
    rw [forceTw_eq]
    show addV2 a b _ = twistAdd P _ (.obj 0) (.obj 1) (.obj 2) (.obj 0)
    rw [twistAdd_eq, twistDouble_other _ _ (by decide)]
    unfold addV2
    simp [Mem.set]
    split_ifs <;> simp_all [Mem.set, newMem2]

end APS
