import Verif.Proofs.BnOrder

/-! bn256.go: Marshal and Unmarshal -/
namespace APS
open APS.Spec APS.Pairing
open Pairing.Mem

/-! ### bytes -/

theorem ofBytes_append (a b : List UInt8) : ofBytes (a ++ b) = ofBytes a * 256 ^ b.length + ofBytes b := by
  unfold ofBytes
  rw [List.foldl_append]
  generalize List.foldl (fun acc (b : UInt8) => acc * 256 + b.toNat) 0 a = s
  have h : ∀ (b : List UInt8) (s t : Nat), List.foldl (fun acc (b : UInt8) => acc * 256 + b.toNat) (s + t) b =
      s * 256 ^ b.length + List.foldl (fun acc (b : UInt8) => acc * 256 + b.toNat) t b := by
    intro b
    induction b with
    | nil => intro s t; simp
    | cons x xs ih =>
      intro s t
      simp only [List.foldl_cons, List.length_cons, pow_succ]
      rw [show (s + t) * 256 + x.toNat = s * 256 + (t * 256 + x.toNat) by ring, ih]
      ring
  simpa using h b s 0

theorem ofBytes_natBytes (n : Nat) : ofBytes (natBytes n) = n := by
  induction n using Nat.strong_induction_on with
  | _ n ih =>
    unfold natBytes
    split
    · next h => rw [h]; rfl
    · next h =>
      rw [ofBytes_append, ih _ (by omega)]
      simp [ofBytes]
      omega

theorem natBytes_length (n k : Nat) (h : n < 256 ^ k) : (natBytes n).length ≤ k := by
  induction k generalizing n with
  | zero =>
    have : n = 0 := by simpa using h
    rw [this]; unfold natBytes; simp
  | succ k ih =>
    unfold natBytes
    split
    · simp
    · rw [List.length_append]
      have := ih (n / 256) (by rw [pow_succ] at h; omega)
      simp; exact this

theorem ofBytes_zeros (k : Nat) : ofBytes (List.replicate k 0) = 0 := by
  induction k with
  | zero => rfl
  | succ k ih => rw [List.replicate_succ', ofBytes_append, ih]; simp [ofBytes]

theorem ofBytes_lt (b : List UInt8) : ofBytes b < 256 ^ b.length := by
  induction b using List.reverseRecOn with
  | nil => simp [ofBytes]
  | append_singleton b x ih =>
    rw [ofBytes_append]
    have hx : x.toNat < 256 := x.toNat_lt
    simp [ofBytes, pow_succ] at ih ⊢
    omega

theorem ofBytes_inj {a b : List UInt8} (hl : a.length = b.length) (h : ofBytes a = ofBytes b) : a = b := by
  induction a using List.reverseRecOn generalizing b with
  | nil => exact (List.length_eq_zero_iff.1 hl.symm).symm
  | append_singleton a x ih =>
    rcases List.eq_nil_or_concat b with rfl | ⟨b', y, rfl⟩
    · simp at hl
    · rw [List.concat_eq_append] at *
      have hx : x.toNat < 256 := x.toNat_lt
      have hy : y.toNat < 256 := y.toNat_lt
      rw [ofBytes_append, ofBytes_append] at h
      simp [ofBytes] at h
      have h1 : x.toNat = y.toNat := by omega
      have h2 : ofBytes a = ofBytes b' := by unfold ofBytes; omega
      rw [ih (by simpa using hl) h2, UInt8.toNat_inj.1 h1]

theorem bnP_lt : P < 256 ^ 32 := by decide +kernel

theorem slot_length {n : Int} (h0 : 0 ≤ n) (h : n < P) : (slot n).length = 32 := by
  have := natBytes_length n.natAbs 32 (by have := bnP_lt; omega)
  simp [slot]; omega

theorem slot_val {n : Int} (h0 : 0 ≤ n) : (ofBytes (slot n) : Int) = n := by
  unfold slot
  rw [ofBytes_append, ofBytes_zeros, ofBytes_natBytes]
  simp; exact h0

theorem slot_ofBytes {b : List UInt8} (hl : b.length = 32) (h : ofBytes b < P) : slot (ofBytes b : Int) = b := by
  have h0 : (0 : Int) ≤ (ofBytes b : Int) := Int.natCast_nonneg _
  have hl' := slot_length h0 (by exact_mod_cast h)
  apply ofBytes_inj (by rw [hl', hl])
  have := slot_val h0
  exact_mod_cast this

theorem mod_lt_P (n : Int) : 0 ≤ n % P ∧ n % P < P := by
  have hpos : (0 : Int) < P := by exact_mod_cast bnPrime.out.pos
  exact ⟨Int.emod_nonneg n (ne_of_gt hpos), Int.emod_lt_of_pos n hpos⟩

/-! ### G1 -/

theorem curveIsOn_iff (a : Pt Int) : curveIsOn P a = true ↔ (a.y : ZMod P) ^ 2 = (a.x : ZMod P) ^ 3 + 3 := by
  have hpos : (0 : Int) < P := by exact_mod_cast bnPrime.out.pos
  have key : (curveIsOn P a = true) ↔ (P : Int) ∣ a.y * a.y - a.x * a.x * a.x - 3 := by
    unfold curveIsOn
    simp only [beq_iff_eq]
    split
    · exact ⟨Int.dvd_of_emod_eq_zero, Int.emod_eq_zero_of_dvd⟩
    · next h =>
      constructor
      · intro e; rw [e]; exact dvd_zero _
      · intro hd
        by_contra hne
        have := Int.le_of_dvd (by omega) hd
        omega
  rw [key, ← ZMod.intCast_zmod_eq_zero_iff_dvd]
  push_cast
  constructor <;> intro h <;> linear_combination h

/-- a finite point is represented by affine coordinates with `z = 1` iff they satisfy the equation -/
theorem rep1_affine_iff (a : Pt Int) (hz : a.z = 1) :
    (∃ Q, Rep1 P a Q) ↔ (a.y : ZMod P) ^ 2 = (a.x : ZMod P) ^ 3 + 3 := by
  constructor
  · rintro ⟨Q, hQ⟩
    match Q, hQ with
    | .zero, ⟨h, _⟩ =>
      have h : ((a.z : Int) : ZMod P) = 0 := h
      rw [hz] at h; simp at h
    | .some x y n, ⟨⟨_, hx, hy⟩, _⟩ =>
      have := short_eq n
      rw [hz] at hx hy
      simp at hx hy
      rw [hx, hy]; exact this
  · intro h
    refine ⟨.some _ _ (e1_nonsing h), ⟨?_, ?_, ?_⟩, by rw [hz]; norm_num, fun hd => ?_⟩
    · rw [hz]; simp
    · rw [hz]; simp
    · rw [hz]; simp
    · exfalso
      rw [hz] at hd
      have := Int.le_of_dvd (by norm_num) hd
      have := bnP_gt
      omega

/-- the coordinates that `Marshal` writes -/
def enc1 : (E1 P).Point → Int × Int
  | .zero => (0, 0)
  | .some x y _ => (x.val, y.val)

theorem enc1_bounds (Q : (E1 P).Point) : 0 ≤ (enc1 Q).1 ∧ (enc1 Q).1 < P ∧ 0 ≤ (enc1 Q).2 ∧ (enc1 Q).2 < P := by
  have hpos : (0 : Int) < P := by exact_mod_cast bnPrime.out.pos
  match Q with
  | .zero => exact ⟨le_refl _, hpos, le_refl _, hpos⟩
  | .some x y _ =>
    refine ⟨Int.natCast_nonneg _, ?_, Int.natCast_nonneg _, ?_⟩
    · show (x.val : Int) < P
      exact_mod_cast ZMod.val_lt x
    · show (y.val : Int) < P
      exact_mod_cast ZMod.val_lt y

theorem emod_eq_val (n : Int) : n % P = ((n : ZMod P).val : Int) := (ZMod.val_intCast n).symm

/-- the bytes of a point -/
def bytes1 (Q : (E1 P).Point) : List UInt8 := slot (enc1 Q).1 ++ slot (enc1 Q).2

theorem slot_zero : slot 0 = List.replicate 32 0 := by
  unfold slot natBytes
  simp

theorem g1Marshal_eq (m : Mem Int) (e : Ref) {Q : (E1 P).Point} (h : Rep1 P (m e) Q) :
    (g1Marshal m e).1 = bytes1 Q ∧ Rep1 P ((g1Marshal m e).2 e) Q ∧ ∀ r, r ≠ e → (g1Marshal m e).2 r = m r := by
  unfold g1Marshal
  by_cases h0 : (m e).z = 0
  · have hQ := (rep_zero_iff h).1 h0
    rw [if_pos (by simp [curveIsInf, h0])]
    refine ⟨?_, h, fun _ _ => rfl⟩
    subst hQ
    show List.replicate 64 0 = slot 0 ++ slot 0
    rw [slot_zero, ← List.replicate_add]
  · rw [if_neg (by simp [curveIsInf, h0])]
    have hQ : Q ≠ 0 := fun e => h0 ((rep_zero_iff h).2 e)
    obtain ⟨h1, h2, h3⟩ := curveMakeAffine_rep m e h
    refine ⟨?_, h1, h3⟩
    rw [if_neg hQ] at h2
    match Q, h1, hQ with
    | .zero, _, hQ => exact absurd rfl hQ
    | .some x y n, ⟨⟨_, hx, hy⟩, _⟩, _ =>
      rw [h2] at hx hy
      simp at hx hy
      simp only [bytes1, enc1]
      rw [emod_eq_val, emod_eq_val, hx, hy]

theorem g1Unmarshal_eq (m : Mem Int) (e : Ref) (b : List UInt8) (hl : b.length = 64) :
    g1Unmarshal m e b = 
      if (P : Int) ≤ ofBytes (b.take 32) then (false, m.setX e (ofBytes (b.take 32)))
      else if (P : Int) ≤ ofBytes (b.drop 32) then (false, (m.setX e (ofBytes (b.take 32))).setY e (ofBytes (b.drop 32)))
      else if ofBytes (b.take 32) = 0 ∧ ofBytes (b.drop 32) = 0 then (true, m.set e ⟨0, 1, 0, 0⟩)
      else (curveIsOn P ⟨ofBytes (b.take 32), ofBytes (b.drop 32), 1, 1⟩, m.set e ⟨ofBytes (b.take 32), ofBytes (b.drop 32), 1, 1⟩) := by
  have ht : (b.drop 32).take 32 = b.drop 32 := List.take_of_length_le (by simp [hl])
  unfold g1Unmarshal
  rw [if_neg (by rw [hl]; simp), ht]
  simp only [setX, setY, setZ, setT, set_same, set_set]
  by_cases h1 : (P : Int) ≤ ofBytes (b.take 32)
  · simp only [h1, if_true]
  · simp only [h1, if_false]
    by_cases h2 : (P : Int) ≤ ofBytes (b.drop 32)
    · simp only [h2, if_true]
    · simp only [h2, if_false]
      by_cases h3 : ofBytes (b.take 32) = 0 ∧ ofBytes (b.drop 32) = 0
      · rw [if_pos h3, if_pos (by exact_mod_cast h3), h3.1]; rfl
      · rw [if_neg h3, if_neg (by exact_mod_cast h3)]
        cases curveIsOn P ⟨ofBytes (b.take 32), ofBytes (b.drop 32), 1, 1⟩ <;> rfl

theorem rep1_infty (z : Pt Int) (h : z.z = 0) : Rep1 P z (0 : (E1 P).Point) := by
  refine ⟨?_, by rw [h], fun _ => h⟩
  show ((z.z : Int) : ZMod P) = 0
  rw [h]; simp

theorem nat_zero_of_val {n : Nat} (h : ((n : Nat) : ZMod P) = 0) (hl : n < P) : n = 0 := by
  rw [ZMod.natCast_eq_zero_iff] at h
  exact Nat.eq_zero_of_dvd_of_lt h hl

/-- exactly the encodings are accepted -/
theorem g1Unmarshal_spec (m : Mem Int) (e : Ref) (b : List UInt8) :
    ((g1Unmarshal m e b).1 = true ↔ ∃ Q, b = bytes1 Q) ∧ ∀ Q, b = bytes1 Q → Rep1 P ((g1Unmarshal m e b).2 e) Q := by
  have hlen : ∀ Q, (bytes1 Q).length = 64 := fun Q => by
    obtain ⟨a1, a2, a3, a4⟩ := enc1_bounds Q
    rw [bytes1, List.length_append, slot_length a1 a2, slot_length a3 a4]
  by_cases hl : b.length = 64
  · rw [g1Unmarshal_eq m e b hl]
    have l1 : (b.take 32).length = 32 := by simp [hl]
    have l2 : (b.drop 32).length = 32 := by simp [hl]
    have hval : ∀ Q, b = bytes1 Q → (ofBytes (b.take 32) : Int) = (enc1 Q).1 ∧ (ofBytes (b.drop 32) : Int) = (enc1 Q).2 := by
      intro Q hb
      obtain ⟨a1, a2, a3, a4⟩ := enc1_bounds Q
      have s1 := slot_length a1 a2
      rw [hb, bytes1, List.take_append_of_le_length (by rw [s1]), List.take_of_length_le (by rw [s1]), slot_val a1,
        List.drop_append_of_le_length (by rw [s1]), List.drop_of_length_le (by rw [s1]), List.nil_append, slot_val a3]
      exact ⟨rfl, rfl⟩
    by_cases h1 : (P : Int) ≤ ofBytes (b.take 32)
    · rw [if_pos h1]
      have hno : ∀ Q, b ≠ bytes1 Q := fun Q hb => by
        have := (hval Q hb).1; have := (enc1_bounds Q).2.1; omega
      exact ⟨⟨fun h => (Bool.false_ne_true h).elim, fun ⟨Q, hb⟩ => absurd hb (hno Q)⟩, fun Q hb => absurd hb (hno Q)⟩
    rw [if_neg h1]
    by_cases h2 : (P : Int) ≤ ofBytes (b.drop 32)
    · rw [if_pos h2]
      have hno : ∀ Q, b ≠ bytes1 Q := fun Q hb => by
        have := (hval Q hb).2; have := (enc1_bounds Q).2.2.2; omega
      exact ⟨⟨fun h => (Bool.false_ne_true h).elim, fun ⟨Q, hb⟩ => absurd hb (hno Q)⟩, fun Q hb => absurd hb (hno Q)⟩
    rw [if_neg h2]
    have hb' : b = slot (ofBytes (b.take 32) : Int) ++ slot (ofBytes (b.drop 32) : Int) := by
      rw [slot_ofBytes l1 (by omega), slot_ofBytes l2 (by omega), List.take_append_drop]
    by_cases h3 : ofBytes (b.take 32) = 0 ∧ ofBytes (b.drop 32) = 0
    · rw [if_pos h3]
      refine ⟨⟨fun _ => ⟨0, ?_⟩, fun _ => rfl⟩, fun Q hb => ?_⟩
      · rw [hb', h3.1, h3.2]; rfl
      · obtain ⟨e1, e2⟩ := hval Q hb
        rw [h3.1] at e1
        rw [h3.2] at e2
        match Q, e1, e2 with
        | .zero, _, _ => simp only [set_same]; exact rep1_infty _ rfl
        | .some x y n, e1, e2 =>
          exfalso
          simp only [enc1] at e1 e2
          have hx : x = 0 := (ZMod.val_eq_zero x).1 (by exact_mod_cast e1.symm)
          have hy : y = 0 := (ZMod.val_eq_zero y).1 (by exact_mod_cast e2.symm)
          have := short_eq n
          rw [hx, hy] at this
          exact three_ne (by linear_combination -this)
    · rw [if_neg h3]
      have hrep : ∀ Q, b = bytes1 Q → Rep1 P ⟨ofBytes (b.take 32), ofBytes (b.drop 32), 1, 1⟩ Q := by
        intro Q hb
        obtain ⟨e1, e2⟩ := hval Q hb
        match Q, e1, e2 with
        | .zero, e1, e2 =>
          exfalso
          simp only [enc1] at e1 e2
          exact h3 ⟨by exact_mod_cast e1, by exact_mod_cast e2⟩
        | .some x y n, e1, e2 =>
          simp only [enc1] at e1 e2
          rw [e1, e2]
          refine ⟨⟨by simp, by simp, by simp⟩, by norm_num, fun hd => ?_⟩
          exfalso
          have := Int.le_of_dvd (by norm_num) hd
          have := bnP_gt
          simp at *
          omega
      refine ⟨?_, fun Q hb => by simp only [set_same]; exact hrep Q hb⟩
      simp only [curveIsOn_iff]
      constructor
      · intro h
        refine ⟨.some _ _ (e1_nonsing h), ?_⟩
        simp only [bytes1, enc1]
        rw [← emod_eq_val, ← emod_eq_val, Int.emod_eq_of_lt (Int.natCast_nonneg _) (by omega), Int.emod_eq_of_lt (Int.natCast_nonneg _) (by omega)]
        exact hb'
      · rintro ⟨Q, hb⟩
        exact (rep1_affine_iff ⟨ofBytes (b.take 32), ofBytes (b.drop 32), 1, 1⟩ rfl).1 ⟨Q, hrep Q hb⟩
  · unfold g1Unmarshal
    rw [if_pos hl]
    have hno : ∀ Q, b ≠ bytes1 Q := fun Q hb => hl (by rw [hb, hlen])
    exact ⟨⟨fun h => (Bool.false_ne_true h).elim, fun ⟨Q, hb⟩ => absurd hb (hno Q)⟩, fun Q hb => absurd hb (hno Q)⟩

theorem bytes1_inj {Q R : (E1 P).Point} (h : bytes1 Q = bytes1 R) : Q = R := by
  have h1 := (g1Unmarshal_spec (fun _ => ⟨0, 0, 0, 0⟩) .gen (bytes1 Q)).2 Q rfl
  have h2 := (g1Unmarshal_spec (fun _ => ⟨0, 0, 0, 0⟩) .gen (bytes1 Q)).2 R h
  exact rep_unique h1 h2

theorem g1Unmarshal_other (m : Mem Int) (e : Ref) (b : List UInt8) (r : Ref) (hr : r ≠ e) : (g1Unmarshal m e b).2 r = m r := by
  by_cases hl : b.length = 64
  · rw [g1Unmarshal_eq m e b hl]
    split
    · exact set_other _ _ hr
    · split
      · simp only [setX, setY, set_set]; exact set_other _ _ hr
      · split
        · exact set_other _ _ hr
        · exact set_other _ _ hr
  · unfold g1Unmarshal
    rw [if_pos hl]

/-! ### G2 -/

/-- `IsOnCurve` of the twist on affine coordinates: the equation, and order dividing `Order` -/
theorem twistIsOn_iff (m : Mem Gfp2) {c : Ref} (hc : c ≠ .sum ∧ c ≠ .tmp) (hz : (m c).z = Gfp2.one) :
    twistIsOn P Order m c = true ↔ ∃ Q, Rep2 P (m c) Q ∧ Order • Q = 0 := by
  have heq : (((((m c).y.square P).sub (((m c).x.square P).mul P (m c).x)).sub twistB).minimal P = ⟨0, 0⟩) ↔
      val2 P (m c).y ^ 2 = val2 P (m c).x ^ 3 + val2 P twistB := by
    have hpos : (0 : Int) < P := by exact_mod_cast bnPrime.out.pos
    have hmin : ∀ a : Gfp2, a.minimal P = ⟨0, 0⟩ ↔ val2 P a = 0 := by
      intro a
      constructor
      · intro h; rw [← val2_minimal, h]; exact val2_zero P
      · intro h
        rw [← val2_zero, val2_eq_iff] at h
        simp only [Gfp2.zero, Int.zero_emod] at h
        unfold Gfp2.minimal
        refine Gfp2.ext ?_ ?_
        · show (if _ then _ else _) = _
          split
          · exact h.1
          · rw [← h.1, Int.emod_eq_of_lt (by omega) (by omega)]
        · show (if _ then _ else _) = _
          split
          · exact h.2
          · rw [← h.2, Int.emod_eq_of_lt (by omega) (by omega)]
    rw [hmin]
    simp only [val2_sub, val2_mul, val2_square]
    constructor <;> intro h <;> linear_combination h
  have hone : val2 P (m c).z = 1 := by rw [hz]; exact val2_one P
  have hrep : val2 P (m c).y ^ 2 = val2 P (m c).x ^ 3 + val2 P twistB ↔ ∃ Q, Rep2 P (m c) Q := by
    constructor
    · intro h
      refine ⟨.some _ _ (e2_nonsing h), ⟨?_, ?_, ?_⟩, by rw [hz]; show (0 : Int) ≤ 1; norm_num, fun hd => ?_⟩
      · rw [hone]; exact one_ne_zero
      · rw [hone]; ring
      · rw [hone]; ring
      · rw [hone] at hd; exact absurd hd one_ne_zero
    · rintro ⟨Q, hQ⟩
      match Q, hQ with
      | .zero, ⟨h, _⟩ =>
        have h : val2 P (m c).z = 0 := h
        rw [hone] at h; exact absurd h one_ne_zero
      | .some x y n, ⟨⟨_, hx, hy⟩, _⟩ =>
        have := short_eq n
        rw [hone] at hx hy
        rw [hx, hy]; linear_combination this
  unfold twistIsOn
  by_cases h1 : val2 P (m c).y ^ 2 = val2 P (m c).x ^ 3 + val2 P twistB
  · have hm := heq.2 h1
    simp only [hm]
    obtain ⟨Q, hQ⟩ := hrep.1 h1
    have hs := (twistMulSum_rep bnP_ne2 m hc Order hQ).1
    rw [if_neg (by simp)]
    rw [isZero_iff, rep2_zero_iff hs]
    constructor
    · intro h; exact ⟨Q, hQ, h⟩
    · rintro ⟨R, hR, h⟩
      rw [rep2_unique hQ hR]; exact h
  · have hno : ¬ ∃ Q, Rep2 P (m c) Q ∧ Order • Q = 0 := fun ⟨Q, hQ, _⟩ => h1 (hrep.2 ⟨Q, hQ⟩)
    simp only [hno, iff_false]
    have hm : ¬ _ := fun e => h1 (heq.1 e)
    rw [if_pos]
    · simp
    · by_contra hcon
      push Not at hcon
      exact hm (Gfp2.ext hcon.1 hcon.2)

/-- the coordinates that `Marshal` writes -/
def enc2 : (E2 P).Point → Int × Int × Int × Int
  | .zero => (0, 0, 0, 0)
  | .some x y _ => (x.im.val, x.re.val, y.im.val, y.re.val)

theorem enc2_bounds (Q : (E2 P).Point) : (0 ≤ (enc2 Q).1 ∧ (enc2 Q).1 < P) ∧ (0 ≤ (enc2 Q).2.1 ∧ (enc2 Q).2.1 < P) ∧
    (0 ≤ (enc2 Q).2.2.1 ∧ (enc2 Q).2.2.1 < P) ∧ (0 ≤ (enc2 Q).2.2.2 ∧ (enc2 Q).2.2.2 < P) := by
  have hpos : (0 : Int) < P := by exact_mod_cast bnPrime.out.pos
  have hv : ∀ x : ZMod P, 0 ≤ (x.val : Int) ∧ (x.val : Int) < P := fun x =>
    ⟨Int.natCast_nonneg _, by exact_mod_cast ZMod.val_lt x⟩
  match Q with
  | .zero => exact ⟨⟨le_refl _, hpos⟩, ⟨le_refl _, hpos⟩, ⟨le_refl _, hpos⟩, ⟨le_refl _, hpos⟩⟩
  | .some x y _ => exact ⟨hv _, hv _, hv _, hv _⟩

/-- the bytes of a point -/
def bytes2 (Q : (E2 P).Point) : List UInt8 :=
  slot (enc2 Q).1 ++ slot (enc2 Q).2.1 ++ slot (enc2 Q).2.2.1 ++ slot (enc2 Q).2.2.2

theorem g2Marshal_eq (m : Mem Gfp2) (e : Ref) {Q : (E2 P).Point} (h : Rep2 P (m e) Q) :
    (g2Marshal m e).1 = bytes2 Q ∧ Rep2 P ((g2Marshal m e).2 e) Q ∧ ∀ r, r ≠ e → (g2Marshal m e).2 r = m r := by
  unfold g2Marshal
  by_cases h0 : (m e).z = ⟨0, 0⟩
  · have hQ := (rep2_zero_iff h).1 h0
    rw [if_pos (show twistIsInf (m e) = true from (isZero_iff _).2 h0)]
    refine ⟨?_, h, fun _ _ => rfl⟩
    subst hQ
    show List.replicate 128 0 = slot 0 ++ slot 0 ++ slot 0 ++ slot 0
    rw [slot_zero, ← List.replicate_add, ← List.replicate_add, ← List.replicate_add]
  · rw [if_neg (show ¬ twistIsInf (m e) = true from fun h => h0 ((isZero_iff _).1 h))]
    have hQ : Q ≠ 0 := fun e => h0 ((rep2_zero_iff h).2 e)
    obtain ⟨h1, h2, h3⟩ := twistMakeAffine_rep m e h
    refine ⟨?_, h1, h3⟩
    rw [if_neg hQ] at h2
    match Q, h1, hQ with
    | .zero, _, hQ => exact absurd rfl hQ
    | .some x y n, ⟨⟨_, hx, hy⟩, _⟩, _ =>
      rw [h2, val2_one] at hx hy
      rw [one_pow, mul_one] at hx hy
      have e1 := congrArg QuadraticAlgebra.im hx
      have e2 := congrArg QuadraticAlgebra.re hx
      have e3 := congrArg QuadraticAlgebra.im hy
      have e4 := congrArg QuadraticAlgebra.re hy
      simp only [val2] at e1 e2 e3 e4
      simp only [bytes2, enc2]
      rw [emod_eq_val, emod_eq_val, emod_eq_val, emod_eq_val, e1, e2, e3, e4]

/-- the four numbers in 128 bytes -/
def quad (b : List UInt8) : Nat × Nat × Nat × Nat :=
  (ofBytes (b.take 32), ofBytes ((b.drop 32).take 32), ofBytes ((b.drop 64).take 32), ofBytes ((b.drop 96).take 32))

theorem g2Unmarshal_cases (m : Mem Gfp2) (e : Ref) (b : List UInt8) (hl : b.length = 128) :
    (¬ ((quad b).1 < P ∧ (quad b).2.1 < P ∧ (quad b).2.2.1 < P ∧ (quad b).2.2.2 < P) → (g2Unmarshal m e b).1 = false) ∧
    (((quad b).1 < P ∧ (quad b).2.1 < P ∧ (quad b).2.2.1 < P ∧ (quad b).2.2.2 < P) →
      g2Unmarshal m e b = if (quad b).1 = 0 ∧ (quad b).2.1 = 0 ∧ (quad b).2.2.1 = 0 ∧ (quad b).2.2.2 = 0
        then (true, m.set e ⟨⟨0, 0⟩, Gfp2.one, Gfp2.zero, Gfp2.zero⟩)
        else (twistIsOn P Order (m.set e ⟨⟨(quad b).1, (quad b).2.1⟩, ⟨(quad b).2.2.1, (quad b).2.2.2⟩, Gfp2.one, Gfp2.one⟩) e,
          m.set e ⟨⟨(quad b).1, (quad b).2.1⟩, ⟨(quad b).2.2.1, (quad b).2.2.2⟩, Gfp2.one, Gfp2.one⟩)) := by
  have hun : g2Unmarshal m e b =
      if (P : Int) ≤ (quad b).1 then (false, m.setX e { (m e).x with x := (quad b).1 })
      else if (P : Int) ≤ (quad b).2.1 then (false, (m.setX e ⟨(quad b).1, (quad b).2.1⟩))
      else if (P : Int) ≤ (quad b).2.2.1 then (false, ((m.setX e ⟨(quad b).1, (quad b).2.1⟩)).setY e { (m e).y with x := (quad b).2.2.1 })
      else if (P : Int) ≤ (quad b).2.2.2 then (false, ((m.setX e ⟨(quad b).1, (quad b).2.1⟩)).setY e ⟨(quad b).2.2.1, (quad b).2.2.2⟩)
      else if ((quad b).1 : Int) = 0 ∧ ((quad b).2.1 : Int) = 0 ∧ ((quad b).2.2.1 : Int) = 0 ∧ ((quad b).2.2.2 : Int) = 0
        then (true, m.set e ⟨⟨(quad b).1, (quad b).2.1⟩, Gfp2.one, Gfp2.zero, Gfp2.zero⟩)
        else (twistIsOn P Order (m.set e ⟨⟨(quad b).1, (quad b).2.1⟩, ⟨(quad b).2.2.1, (quad b).2.2.2⟩, Gfp2.one, Gfp2.one⟩) e,
          m.set e ⟨⟨(quad b).1, (quad b).2.1⟩, ⟨(quad b).2.2.1, (quad b).2.2.2⟩, Gfp2.one, Gfp2.one⟩) := by
    unfold g2Unmarshal
    rw [if_neg (by rw [hl]; simp)]
    simp only [setX, setY, setZ, setT, set_same, set_set, quad]
    split
    · rfl
    split
    · rfl
    split
    · rfl
    split
    · rfl
    by_cases h : (ofBytes (b.take 32) : Int) = 0 ∧ (ofBytes ((b.drop 32).take 32) : Int) = 0 ∧ (ofBytes ((b.drop 64).take 32) : Int) = 0 ∧ (ofBytes ((b.drop 96).take 32) : Int) = 0
    · rw [if_pos h]; exact (if_pos h).symm
    · rw [if_neg h]
      refine Eq.trans ?_ (if_neg h).symm
      cases twistIsOn P Order (m.set e _) e <;> simp
  constructor
  · intro h
    rw [hun]
    split
    · rfl
    split
    · rfl
    split
    · rfl
    split
    · rfl
    exact absurd ⟨by omega, by omega, by omega, by omega⟩ h
  · rintro ⟨h1, h2, h3, h4⟩
    rw [hun, if_neg (by omega), if_neg (by omega), if_neg (by omega), if_neg (by omega)]
    by_cases h : (quad b).1 = 0 ∧ (quad b).2.1 = 0 ∧ (quad b).2.2.1 = 0 ∧ (quad b).2.2.2 = 0
    · rw [if_pos h, if_pos (by exact_mod_cast h), h.1, h.2.1]; rfl
    · rw [if_neg h, if_neg (by exact_mod_cast h)]

theorem quad_slots {w x y z : Int} (hw : 0 ≤ w ∧ w < P) (hx : 0 ≤ x ∧ x < P) (hy : 0 ≤ y ∧ y < P) (hz : 0 ≤ z ∧ z < P) :
    ((quad (slot w ++ slot x ++ slot y ++ slot z)).1 : Int) = w ∧ ((quad (slot w ++ slot x ++ slot y ++ slot z)).2.1 : Int) = x ∧
    ((quad (slot w ++ slot x ++ slot y ++ slot z)).2.2.1 : Int) = y ∧ ((quad (slot w ++ slot x ++ slot y ++ slot z)).2.2.2 : Int) = z := by
  have lw := slot_length hw.1 hw.2
  have lx := slot_length hx.1 hx.2
  have ly := slot_length hy.1 hy.2
  have lz := slot_length hz.1 hz.2
  simp only [quad]
  have e1 : (slot w ++ slot x ++ slot y ++ slot z).take 32 = slot w := by
    rw [List.append_assoc, List.append_assoc, List.take_left' lw]
  have e2 : ((slot w ++ slot x ++ slot y ++ slot z).drop 32).take 32 = slot x := by
    rw [List.append_assoc, List.append_assoc, List.drop_left' lw, List.take_left' lx]
  have e3 : ((slot w ++ slot x ++ slot y ++ slot z).drop 64).take 32 = slot y := by
    rw [List.append_assoc, List.drop_left' (by rw [List.length_append, lw, lx]), List.take_left' ly]
  have e4 : ((slot w ++ slot x ++ slot y ++ slot z).drop 96).take 32 = slot z := by
    rw [List.drop_left' (by rw [List.length_append, List.length_append, lw, lx, ly]), List.take_of_length_le (by rw [lz])]
  rw [e1, e2, e3, e4, slot_val hw.1, slot_val hx.1, slot_val hy.1, slot_val hz.1]
  exact ⟨rfl, rfl, rfl, rfl⟩

theorem slots_quad (b : List UInt8) (hl : b.length = 128)
    (h : (quad b).1 < P ∧ (quad b).2.1 < P ∧ (quad b).2.2.1 < P ∧ (quad b).2.2.2 < P) :
    b = slot ((quad b).1 : Int) ++ slot ((quad b).2.1 : Int) ++ slot ((quad b).2.2.1 : Int) ++ slot ((quad b).2.2.2 : Int) := by
  obtain ⟨h1, h2, h3, h4⟩ := h
  simp only [quad] at *
  rw [slot_ofBytes (by simp [hl]) h1, slot_ofBytes (by simp [hl]) h2, slot_ofBytes (by simp [hl]) h3, slot_ofBytes (by simp [hl]) h4]
  have e : (b.drop 96).take 32 = b.drop 96 := List.take_of_length_le (by simp [hl])
  rw [e, List.append_assoc, List.append_assoc]
  have d1 : (b.drop 64).take 32 ++ b.drop 96 = b.drop 64 := by
    have := List.take_append_drop 32 (b.drop 64); rwa [List.drop_drop] at this
  have d2 : (b.drop 32).take 32 ++ b.drop 64 = b.drop 32 := by
    have := List.take_append_drop 32 (b.drop 32); rwa [List.drop_drop] at this
  rw [d1, d2, List.take_append_drop]

theorem rep2_affine_coords {x y : Gfp2} {Q : (E2 P).Point} (h : Rep2 P ⟨x, y, Gfp2.one, Gfp2.one⟩ Q) :
    enc2 Q = (x.x % P, x.y % P, y.x % P, y.y % P) := by
  match Q, h with
  | .zero, ⟨h, _⟩ =>
    have h : val2 P Gfp2.one = 0 := h
    rw [val2_one] at h; exact absurd h one_ne_zero
  | .some a b n, ⟨⟨_, hx, hy⟩, _⟩ =>
    simp only [val2_one, one_pow, mul_one] at hx hy
    have e1 := congrArg QuadraticAlgebra.im hx
    have e2 := congrArg QuadraticAlgebra.re hx
    have e3 := congrArg QuadraticAlgebra.im hy
    have e4 := congrArg QuadraticAlgebra.re hy
    simp only [val2] at e1 e2 e3 e4
    simp only [enc2]
    rw [← e1, ← e2, ← e3, ← e4, ← emod_eq_val, ← emod_eq_val, ← emod_eq_val, ← emod_eq_val]

theorem rep2_of_enc {x y : Gfp2} {Q : (E2 P).Point} (hne : ¬ (x = ⟨0, 0⟩ ∧ y = ⟨0, 0⟩)) (h : enc2 Q = (x.x, x.y, y.x, y.y)) :
    Rep2 P ⟨x, y, Gfp2.one, Gfp2.one⟩ Q := by
  match Q, h with
  | .zero, h =>
    simp only [enc2, Prod.mk.injEq] at h
    exact absurd ⟨Gfp2.ext h.1.symm h.2.1.symm, Gfp2.ext h.2.2.1.symm h.2.2.2.symm⟩ hne
  | .some a b n, h =>
    simp only [enc2, Prod.mk.injEq] at h
    obtain ⟨e1, e2, e3, e4⟩ := h
    have hone : val2 P Gfp2.one = 1 := val2_one P
    refine ⟨⟨?_, ?_, ?_⟩, by show (0 : Int) ≤ 1; norm_num, fun hd => ?_⟩
    · show val2 P Gfp2.one ≠ 0
      rw [hone]; exact one_ne_zero
    · simp only [hone, one_pow, mul_one]
      ext <;> simp [val2, ← e1, ← e2]
    · simp only [hone, one_pow, mul_one]
      ext <;> simp [val2, ← e3, ← e4]
    · have hd : val2 P Gfp2.one = 0 := hd
      rw [hone] at hd; exact absurd hd one_ne_zero

/-- exactly the encodings of the points of order dividing `Order` are accepted -/
theorem g2Unmarshal_spec (m : Mem Gfp2) {e : Ref} (he : e ≠ .sum ∧ e ≠ .tmp) (b : List UInt8) :
    ((g2Unmarshal m e b).1 = true ↔ ∃ Q, Order • Q = 0 ∧ b = bytes2 Q) ∧
      ∀ Q, b = bytes2 Q → Rep2 P ((g2Unmarshal m e b).2 e) Q := by
  have hlen : ∀ Q, (bytes2 Q).length = 128 := fun Q => by
    obtain ⟨⟨a1, a2⟩, ⟨a3, a4⟩, ⟨a5, a6⟩, ⟨a7, a8⟩⟩ := enc2_bounds Q
    simp only [bytes2, List.length_append, slot_length a1 a2, slot_length a3 a4, slot_length a5 a6, slot_length a7 a8]
  by_cases hl : b.length = 128
  · obtain ⟨c1, c2⟩ := g2Unmarshal_cases m e b hl
    have hval : ∀ Q, b = bytes2 Q → ((quad b).1 : Int) = (enc2 Q).1 ∧ ((quad b).2.1 : Int) = (enc2 Q).2.1 ∧
        ((quad b).2.2.1 : Int) = (enc2 Q).2.2.1 ∧ ((quad b).2.2.2 : Int) = (enc2 Q).2.2.2 := by
      intro Q hb
      obtain ⟨a1, a2, a3, a4⟩ := enc2_bounds Q
      rw [hb]
      exact quad_slots a1 a2 a3 a4
    by_cases hr : (quad b).1 < P ∧ (quad b).2.1 < P ∧ (quad b).2.2.1 < P ∧ (quad b).2.2.2 < P
    · rw [c2 hr]
      have hb' := slots_quad b hl hr
      by_cases h3 : (quad b).1 = 0 ∧ (quad b).2.1 = 0 ∧ (quad b).2.2.1 = 0 ∧ (quad b).2.2.2 = 0
      · rw [if_pos h3]
        refine ⟨⟨fun _ => ⟨0, nsmul_zero _, ?_⟩, fun _ => rfl⟩, fun Q hb => ?_⟩
        · rw [hb', h3.1, h3.2.1, h3.2.2.1, h3.2.2.2]; rfl
        · obtain ⟨e1, e2, e3, e4⟩ := hval Q hb
          rw [h3.1] at e1
          rw [h3.2.1] at e2
          rw [h3.2.2.1] at e3
          rw [h3.2.2.2] at e4
          match Q, e1, e2, e3, e4 with
          | .zero, _, _, _, _ => simp only [set_same]; exact rep2_infty _ rfl
          | .some x y n, e1, e2, e3, e4 =>
            exfalso
            simp only [enc2] at e1 e2 e3 e4
            have hv : ∀ x : ZMod P, ((0 : Nat) : Int) = (x.val : Int) → x = 0 := fun x h => (ZMod.val_eq_zero x).1 (by exact_mod_cast h.symm)
            have hx : x = 0 := QuadraticAlgebra.ext (hv _ e2) (hv _ e1)
            have hy : y = 0 := QuadraticAlgebra.ext (hv _ e4) (hv _ e3)
            have := short_eq n
            rw [hx, hy] at this
            exact twistB_ne (by linear_combination -this)
      · rw [if_neg h3]
        set pt : Pt Gfp2 := ⟨⟨(quad b).1, (quad b).2.1⟩, ⟨(quad b).2.2.1, (quad b).2.2.2⟩, Gfp2.one, Gfp2.one⟩ with hpt
        have hrep : ∀ Q, b = bytes2 Q → Rep2 P pt Q := by
          intro Q hb
          obtain ⟨e1, e2, e3, e4⟩ := hval Q hb
          refine rep2_of_enc ?_ ?_
          · rintro ⟨f1, f2⟩
            injection f1 with g1 g2
            injection f2 with g3 g4
            exact h3 ⟨by exact_mod_cast g1, by exact_mod_cast g2, by exact_mod_cast g3, by exact_mod_cast g4⟩
          · simp only [e1, e2, e3, e4]
        refine ⟨?_, fun Q hb => by simp only [set_same]; exact hrep Q hb⟩
        have hon := twistIsOn_iff (m.set e pt) he (by rw [set_same])
        rw [set_same] at hon
        rw [hon]
        constructor
        · rintro ⟨Q, hQ, ho⟩
          refine ⟨Q, ho, ?_⟩
          have he := rep2_affine_coords hQ
          rw [bytes2, he]
          simp only []
          rw [Int.emod_eq_of_lt (Int.natCast_nonneg _) (by omega), Int.emod_eq_of_lt (Int.natCast_nonneg _) (by omega),
              Int.emod_eq_of_lt (Int.natCast_nonneg _) (by omega), Int.emod_eq_of_lt (Int.natCast_nonneg _) (by omega)]
          exact hb'
        · rintro ⟨Q, ho, hb⟩
          exact ⟨Q, hrep Q hb, ho⟩
    · have hno : ∀ Q, b ≠ bytes2 Q := fun Q hb => by
        have h1 := hval Q hb; have h2 := enc2_bounds Q; apply hr; omega
      rw [c1 hr]
      exact ⟨⟨fun h => (Bool.false_ne_true h).elim, fun ⟨Q, _, hb⟩ => absurd hb (hno Q)⟩, fun Q hb => absurd hb (hno Q)⟩
  · have hno : ∀ Q, b ≠ bytes2 Q := fun Q hb => hl (by rw [hb, hlen])
    unfold g2Unmarshal
    rw [if_pos hl]
    exact ⟨⟨fun h => (Bool.false_ne_true h).elim, fun ⟨Q, _, hb⟩ => absurd hb (hno Q)⟩, fun Q hb => absurd hb (hno Q)⟩

theorem bytes2_inj {Q R : (E2 P).Point} (h : bytes2 Q = bytes2 R) : Q = R := by
  have h1 := (g2Unmarshal_spec (fun _ => ⟨⟨0, 0⟩, ⟨0, 0⟩, ⟨0, 0⟩, ⟨0, 0⟩⟩) (e := .gen) ⟨by decide, by decide⟩ (bytes2 Q)).2 Q rfl
  have h2 := (g2Unmarshal_spec (fun _ => ⟨⟨0, 0⟩, ⟨0, 0⟩, ⟨0, 0⟩, ⟨0, 0⟩⟩) (e := .gen) ⟨by decide, by decide⟩ (bytes2 Q)).2 R h
  exact rep2_unique h1 h2

end APS
