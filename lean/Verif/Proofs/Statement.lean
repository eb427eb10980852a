import Verif.Proofs.Program

/-! Correctness of statements and whole straight-line programs. -/
namespace APS.Circuit
open APS.Spec

variable {q : Nat}

/-! ### completeFunction -/

theorem sig16_ne {n : Nat} {x : Name} (h : sig16 n = some x) : x ≠ [] := by
  unfold sig16 at h
  simp only [] at h
  split at h
  · cases h
  · rename_i hl
    cases h
    intro h0
    have := congrArg List.length h0
    rw [List.length_take, List.length_nil] at this
    omega

theorem completeFunction_sig {H : Name → Nat} {f : Factors} {s s' : St} (h : completeFunction H f s = some s') :
    s' = s ∨ ∃ sig g, signature H f = some sig ∧ s.add H { typ := .addition, ident := sig, left := f, out := [argF sig 1] } = some (s', g) := by
  have key : completeFunction.completeAdd H f s = some s' → s' = s ∨ ∃ sig g, signature H f = some sig ∧
      s.add H { typ := .addition, ident := sig, left := f, out := [argF sig 1] } = some (s', g) := by
    intro h
    unfold completeFunction.completeAdd at h
    cases hs : signature H f with
    | none => simp [hs] at h
    | some sig =>
      simp only [hs, Option.bind_eq_bind, Option.bind_some] at h
      cases ha : s.add H { typ := .addition, ident := sig, left := f, out := [argF sig 1] } with
      | none => simp [ha] at h
      | some p =>
        obtain ⟨s2, g⟩ := p
        simp [ha] at h
        subst h
        exact Or.inr ⟨sig, g, rfl, ha⟩
  unfold completeFunction at h
  split at h
  · cases h; exact Or.inl rfl
  · split at h
    · split at h
      · cases h; exact Or.inl rfl
      · exact key h
    · exact key h

theorem completeFunction_eq {H : Name → Nat} {f : Factors} {s s' : St} (h : completeFunction H f s = some s') :
    s' = s ∨ ∃ sig g, sig ≠ [] ∧ s.add H { typ := .addition, ident := sig, left := f, out := [argF sig 1] } = some (s', g) := by
  rcases completeFunction_sig h with h | ⟨sig, g, hs, h⟩
  · exact Or.inl h
  · exact Or.inr ⟨sig, g, sig16_ne hs, h⟩

theorem withID_of_ne {H : Name → Nat} {g g0 : Gate} (h : withID H g = some g0) (hi : g.ident ≠ []) : g0 = g := by
  unfold withID at h
  rw [if_neg hi] at h
  cases h; rfl

theorem completeFunction_wf {H : Name → Nat} {I : List Name} {f : Factors} {s s' : St} (hw : WF I s) (hf : GoodF q f)
    (kf : KnownF (I ++ s.c.computed) f) (h : completeFunction H f s = some s') : Ext s s' ∧ WF I s' := by
  rcases completeFunction_eq h with rfl | ⟨sig, g, hsig, ha⟩
  · exact ⟨Ext.refl _, hw⟩
  · refine ⟨St.add_ext ha (fun _ => rfl), (hw.add ha (fun _ => rfl) (fun g0 h0 => ?_) (fun g0 h0 => ?_) (fun g0 h0 => ?_)).1⟩
    · obtain rfl := withID_of_ne h0 hsig
      exact ⟨kf.mono mem_known_left, knownF_nil _, knownF_nil _, knownF_argF (by simp), by simp, by simp⟩
    · obtain rfl := withID_of_ne h0 hsig
      exact ⟨by simp [GateShape], hf.nodup, by simp, by simp, by simp⟩
    · obtain rfl := withID_of_ne h0 hsig
      exact ⟨kf, rfl⟩

theorem completeFunction_complete {H : Name → Nat} {I : List Name} {f : Factors} {s s' : St}
    {gx : ZMod q → ZMod q} {ν : Name → ZMod q} (hw : WF I s) (kf : KnownF (I ++ s.c.computed) f)
    (h : completeFunction H f s = some s') (hm : Models gx ν s) (hF : Final I s') :
    ∃ ν', Agree I s ν ν' ∧ Models gx ν' s' := by
  rcases completeFunction_eq h with rfl | ⟨sig, g, hsig, ha⟩
  · exact ⟨ν, fun _ _ => rfl, hm⟩
  · refine extend_add hw ha (fun _ => rfl) hm hF.disj hF.noConst fun g0 h0 hfresh => ?_
    obtain rfl := withID_of_ne h0 hsig
    refine ⟨formVal ν f, ?_, by simp, by simp [QuotOK]⟩
    have ef : formVal (Function.update ν sig (formVal ν f)) f = formVal ν f :=
      formVal_congr fun n hn => Function.update_of_ne (by rintro rfl; exact hfresh (kf _ hn)) _ _
    simp only [GateHolds, id_eq]
    rw [ef]
    simp

/-! ### SPLIT -/

theorem bitName_ne (i : Nat) (z : Name) : bitName i z ≠ [] := by
  unfold bitName
  intro h
  exact Nat.toDigits_ne_nil (List.append_eq_nil_iff.mp h).1

theorem toDigits_inj {i j : Nat} (h : Nat.toDigits 10 i = Nat.toDigits 10 j) : i = j := by
  rw [← Nat.ofDigitChars_ten_toDigits (n := i), h, Nat.ofDigitChars_ten_toDigits]

theorem bitName_inj {i j : Nat} {z : Name} (h : bitName i z = bitName j z) : i = j :=
  toDigits_inj (List.append_cancel_right h)

/-- the i-th bit gate of `z` -/
abbrev bitGate (z : Tok) (i : Nat) : Gate := { typ := .zeroOrOne, ident := bitName i z.ident, arith := z }

theorem splitLoop_cons {H : Name → Nat} {z : Tok} {i : Nat} {is : List Nat} {s s' : St}
    (h : splitLoop H z (i :: is) s = some s') :
    ∃ s1, s.add H (bitGate z i) = some (s1, bitGate z i) ∧ splitLoop H z is s1 = some s' := by
  unfold splitLoop at h
  cases ha : s.add H (bitGate z i) with
  | none => simp [ha] at h
  | some p =>
    obtain ⟨s1, g⟩ := p
    simp [ha] at h
    obtain ⟨g0, h0, hg, _⟩ := St.add_spec ha (fun _ => rfl)
    obtain rfl := withID_of_ne h0 (bitName_ne _ _)
    refine ⟨s1, ?_, h⟩
    rw [hg]; rfl

theorem bitName_ne_self (i : Nat) (z : Name) : bitName i z ≠ z := by
  intro h
  have := congrArg List.length h
  unfold bitName at this
  rw [List.length_append] at this
  have h2 : (Nat.toDigits 10 i).length ≠ 0 := by
    rw [Ne, List.length_eq_zero_iff]; exact Nat.toDigits_ne_nil
  omega

theorem splitLoop_wf {H : Name → Nat} {I : List Name} {z : Tok} (is : List Nat) : ∀ {s s' : St}, WF I s →
    (z.isNum = false → z.ident ∈ I ++ s.c.computed) → splitLoop H z is s = some s' →
    Ext s s' ∧ WF I s' ∧ ∀ i ∈ is, bitName i z.ident ∈ s'.c.computed ∧
      (bitGate z i ∈ s'.c.gates ∨ bitGate z i ∈ s'.dropped) := by
  induction is with
  | nil => intro s s' hw _ h; simp [splitLoop] at h; subst h; exact ⟨Ext.refl _, hw, by simp⟩
  | cons i is ih =>
    intro s s' hw hz h
    obtain ⟨s1, ha, h1⟩ := splitLoop_cons h
    obtain ⟨hw1, hid⟩ := hw.add ha (fun _ => rfl) (fun g0 h0 => by
        obtain rfl := withID_of_ne h0 (bitName_ne _ _)
        exact ⟨knownF_nil _, knownF_nil _, knownF_nil _, knownF_nil _, by simp, fun _ hn => mem_known_left (hz hn)⟩)
      (fun g0 h0 => by
        obtain rfl := withID_of_ne h0 (bitName_ne _ _)
        exact ⟨by simp [GateShape], by simp, by simp, by simp, by simp⟩)
      (fun g0 h0 => by
        obtain rfl := withID_of_ne h0 (bitName_ne _ _)
        exact ⟨hz, bitName_ne_self _ _⟩)
    have he1 := St.add_ext ha (fun _ => rfl)
    obtain ⟨he, hw', hb⟩ := ih hw1 (fun hn => known_mono he1 hw hw1 (hz hn)) h1
    refine ⟨he1.trans he, hw', fun j hj => ?_⟩
    rcases List.mem_cons.mp hj with rfl | hj
    · refine ⟨hw1.computed_mono hw' he hid, ?_⟩
      rcases St.add_mem ha (fun _ => rfl) with hm | hm
      · exact Or.inl (he.gates.subset hm)
      · exact Or.inr (he.dropped.subset hm)
    · exact hb j hj

theorem splitLoop_complete {H : Name → Nat} {I : List Name} {z : Tok} {gx : ZMod q → ZMod q} (hn : z.isNum = false)
    (is : List Nat) : ∀ {s s' : St} {ν : Name → ZMod q}, WF I s →
    z.ident ∈ I ++ s.c.computed → splitLoop H z is s = some s' → Models gx ν s → Final I s' →
    ∃ ν', Agree I s ν ν' ∧ Models gx ν' s' := by
  induction is with
  | nil => intro s s' ν hw _ h hm _; simp [splitLoop] at h; subst h; exact ⟨ν, fun _ _ => rfl, hm⟩
  | cons i is ih =>
    intro s s' ν hw hz h hm hF
    obtain ⟨-, -, -⟩ := splitLoop_wf (i :: is) hw (fun _ => hz) h
    obtain ⟨s1, ha, h1⟩ := splitLoop_cons h
    obtain ⟨he1, hw1, -⟩ := splitLoop_wf [i] hw (fun _ => hz) (s' := s1) (by
      unfold splitLoop
      simp only [Option.bind_eq_bind]
      rw [show ({ typ := .zeroOrOne, ident := bitName i z.ident, arith := z } : Gate) = bitGate z i from rfl, ha]
      simp [splitLoop])
    obtain ⟨he2, hw', -⟩ := splitLoop_wf is hw1 (fun _ => known_mono he1 hw hw1 hz) h1
    have hF1 := hF.of_ext hw1 he2
    obtain ⟨ν1, a1, m1⟩ := extend_add hw ha (fun _ => rfl) hm hF1.disj hF1.noConst fun g0 h0 hfresh => by
      obtain rfl := withID_of_ne h0 (bitName_ne _ _)
      have hne : z.ident ≠ bitName i z.ident := by intro h; rw [h] at hz; exact hfresh hz
      refine ⟨if (ν z.ident).val.testBit i then 1 else 0, ?_, fun _ => ⟨i, rfl, ?_⟩, by simp [QuotOK]⟩
      · simp only [GateHolds, id_eq, Function.update_self]
        split <;> simp
      · simp only [id_eq, Function.update_self, Function.update_of_ne hne]
    obtain ⟨ν2, a2, m2⟩ := ih hw1 (known_mono he1 hw hw1 hz) h1 m1 hF
    exact ⟨ν2, Agree.trans a1 a2 (known_mono he1 hw hw1), m2⟩

/-- the sum of the weighted bits -/
abbrev bitSum (N : Nat) (z : Name) : Factors := (List.range N).map fun (i : Nat) => argF (bitName i z) ((2 : Int) ^ i)

theorem splitGate_eq {H : Name → Nat} {f : Factors} {s s' : St} (h : splitGate H q f s = some s') :
    ∃ x s1 g, f = [x] ∧ splitLoop H x.tok (List.range (Fq.bitLen q)) s = some s1 ∧
      s1.add H { typ := .sumCheck, arith := x.tok, noNew := true, left := bitSum (Fq.bitLen q) x.tok.ident } = some (s', g) := by
  unfold splitGate at h
  split at h
  · rename_i x
    cases hl : splitLoop H x.tok (List.range (Fq.bitLen q)) s with
    | none => simp [hl] at h
    | some s1 =>
      simp only [hl, Option.bind_eq_bind, Option.bind_some] at h
      cases ha : s1.add H { typ := .sumCheck, arith := x.tok, noNew := true, left := bitSum (Fq.bitLen q) x.tok.ident } with
      | none => simp [ha] at h
      | some p =>
        obtain ⟨s2, g⟩ := p
        simp [ha] at h
        subst h
        exact ⟨x, s1, g, rfl, hl, ha⟩
  · cases h

theorem bitSum_keys (N : Nat) (z : Name) : (bitSum N z).map Factor.key = (List.range N).map fun i => some (bitName i z) := by
  simp [bitSum, Function.comp_def]

theorem bitSum_nodup (N : Nat) (z : Name) : ((bitSum N z).map Factor.key).Nodup := by
  rw [bitSum_keys]
  exact List.nodup_range.map (fun i j h => bitName_inj (by simpa using h))

theorem key_known {I : List Name} {s : St} {x : Factor} (k : KnownF (I ++ s.c.computed) [x]) :
    x.tok.isNum = false → x.tok.ident ∈ I ++ s.c.computed := fun hn => k _ (by simp [Factor.key, hn])

theorem splitGate_wf {H : Name → Nat} {I : List Name} {f : Factors} {s s' : St} (hw : WF I s)
    (kf : KnownF (I ++ s.c.computed) f) (h : splitGate H q f s = some s') : Ext s s' ∧ WF I s' := by
  obtain ⟨x, s1, g, rfl, hl, ha⟩ := splitGate_eq h
  obtain ⟨he1, hw1, hb⟩ := splitLoop_wf _ hw (key_known kf) hl
  refine ⟨he1.trans (St.add_ext ha (fun _ => rfl)), (hw1.add ha (fun _ => rfl) (fun g0 h0 => ?_) (fun g0 h0 => ?_)
    (fun g0 h0 => ?_)).1⟩
  · obtain ⟨f1, f2, f3, f4, f5, -, f7, -⟩ := withID_fields h0
    refine ⟨?_, knownF_perm (f3.map _) (knownF_nil _), knownF_perm (f4.map _) (knownF_nil _),
      knownF_perm (f5.map _) (knownF_nil _), by simp, ?_⟩
    · refine knownF_perm (f2.map _) fun n hn => ?_
      rw [bitSum_keys] at hn
      simp only [List.mem_map, Option.some.injEq] at hn
      obtain ⟨i, hi, rfl⟩ := hn
      exact mem_known_left (List.mem_append_right _ (hb i hi).1)
    · intro _ hn
      simp only [id_eq, f7] at hn ⊢
      exact mem_known_left (known_mono he1 hw hw1 (key_known kf hn))
  · obtain ⟨f1, f2, f3, f4, f5, f6, f7, -⟩ := withID_fields h0
    exact ⟨by simp [GateShape, f1, f6, f3.eq_nil, f4.eq_nil, f5.eq_nil], (f2.map _).nodup_iff.mpr (bitSum_nodup _ _), (f3.map _).nodup_iff.mpr (by simp),
      (f4.map _).nodup_iff.mpr (by simp), (f5.map _).nodup_iff.mpr (by simp)⟩
  · obtain ⟨f1, f2, f3, f4, f5, -, f7, -⟩ := withID_fields h0
    simp only [OrdGate, id_eq, f1, f7]
    refine ⟨knownF_perm (f2.map _) fun n hn => ?_, fun hn => known_mono he1 hw hw1 (key_known kf hn)⟩
    rw [bitSum_keys] at hn
    simp only [List.mem_map, Option.some.injEq] at hn
    obtain ⟨i, hi, rfl⟩ := hn
    exact List.mem_append_right _ (hb i hi).1

theorem lt_two_pow_bitLen (hq : q ≠ 0) : q < 2 ^ Fq.bitLen q := by
  unfold Fq.bitLen
  rw [if_neg hq]
  exact Nat.lt_log2_self

theorem mod_pow_succ' (n N : Nat) : n % 2 ^ (N + 1) = n % 2 ^ N + 2 ^ N * (n.testBit N).toNat := by
  rw [Nat.pow_succ, Nat.mod_mul, Nat.toNat_testBit]

theorem sum_bits (n N : Nat) : ((List.range N).map fun i => 2 ^ i * (n.testBit i).toNat).sum = n % 2 ^ N := by
  induction N with
  | zero => simp [Nat.mod_one]
  | succ N ih => rw [List.range_succ, List.map_append, List.sum_append, ih, mod_pow_succ']; simp

theorem bitSum_val {ν : Name → ZMod q} {z : Name} {n : Nat} (N : Nat)
    (h : ∀ i < N, ν (bitName i z) = if n.testBit i then 1 else 0) :
    formVal ν (bitSum N z) = ((n % 2 ^ N : Nat) : ZMod q) := by
  rw [← sum_bits]
  unfold formVal bitSum
  rw [List.map_map, Nat.cast_list_sum, List.map_map]
  congr 1
  refine List.map_congr_left fun i hi => ?_
  simp only [Function.comp, factorVal, argF, Bool.false_eq_true, if_false]
  rw [h i (List.mem_range.mp hi)]
  push_cast
  cases n.testBit i <;> simp

theorem splitGate_complete [Fact q.Prime] {H : Name → Nat} {I : List Name} {f : Factors} {s s' : St}
    {gx : ZMod q → ZMod q} {ν : Name → ZMod q} (hw : WF I s) (kf : KnownF (I ++ s.c.computed) f)
    (h : splitGate H q f s = some s') (hm : Models gx ν s) (hF : Final I s') :
    ∃ ν', Agree I s ν ν' ∧ Models gx ν' s' := by
  obtain ⟨x, s1, g, rfl, hl, ha⟩ := splitGate_eq h
  obtain ⟨he1, hw1, hb⟩ := splitLoop_wf _ hw (key_known kf) hl
  have he2 := St.add_ext ha (fun _ => rfl)
  have hF1 := hF.of_ext hw1 he2
  have hnum : x.tok.isNum = false := by
    obtain ⟨g0, h0, rfl, -⟩ := St.add_spec ha (fun _ => rfl)
    obtain ⟨f1, -, -, -, -, -, f7, -⟩ := withID_fields h0
    simp only [id_eq] at *
    rcases St.add_mem ha (fun _ => rfl) with hg | hg
    · have := hF.noConst _ hg (Or.inl f1)
      rwa [f7] at this
    · obtain ⟨g', hg', hs⟩ := hF.noConf _ hg
      rcases hs with rfl | ⟨ht, -⟩
      · have := hF.noConst _ hg' (Or.inl f1)
        rwa [f7] at this
      · simp [f1] at ht
  have hz := key_known kf hnum
  obtain ⟨ν1, a1, m1⟩ := splitLoop_complete hnum _ hw hz hl hm hF1
  obtain ⟨ν2, a2, m2⟩ := extend_add hw1 ha (fun _ => rfl) m1 hF.disj hF.noConst fun g0 h0 hfresh => by
    obtain ⟨f1, f2, f3, f4, f5, -, f7, -⟩ := withID_fields h0
    refine ⟨0, ?_, by simp [f1], by simp [QuotOK, f1]⟩
    simp only [GateHolds, id_eq, f1, f7]
    rw [formVal_perm _ f2]
    have e1 : formVal (Function.update ν1 g0.ident 0) (bitSum (Fq.bitLen q) x.tok.ident) =
        formVal ν1 (bitSum (Fq.bitLen q) x.tok.ident) := formVal_congr fun n hn => by
      rw [bitSum_keys] at hn
      simp only [List.mem_map, Option.some.injEq] at hn
      obtain ⟨i, hi, rfl⟩ := hn
      refine Function.update_of_ne ?_ _ _
      rintro hx
      exact hfresh (hx ▸ List.mem_append_right _ (hb i hi).1)
    have e2 : Function.update ν1 g0.ident 0 x.tok.ident = ν1 x.tok.ident := by
      refine Function.update_of_ne ?_ _ _
      rintro hx
      exact hfresh (hx ▸ known_mono he1 hw hw1 hz)
    rw [e1, e2, bitSum_val (n := (ν1 x.tok.ident).val)]
    · rw [Nat.mod_eq_of_lt ((ZMod.val_lt _).trans (lt_two_pow_bitLen (Fact.out : q.Prime).ne_zero))]
      exact ZMod.natCast_zmod_val _
    · intro i hi
      have : bitGate x.tok i ∈ s1.c.gates := by
        rcases (hb i (List.mem_range.mpr hi)).2 with hg | hg
        · exact hg
        · obtain ⟨g', hg', hs⟩ := hF1.noConf _ hg
          rcases hs with rfl | ⟨ht, -⟩
          · exact hg'
          · simp at ht
      obtain ⟨j, hj1, hj2⟩ := m1.zo _ this rfl
      obtain rfl := bitName_inj hj1
      exact hj2
  exact ⟨ν2, Agree.trans a1 a2 (known_mono he1 hw hw1), m2⟩

/-! ### statements -/

theorem bind1 {H : Name → Nat} {env : Env} {a : Expr} {s : St} {α : Type}
    {k : Factors → St → Option α} {x : α}
    (h : (do
      let (l, s) ← compile H q env a s
      k l s) = some x) :
    ∃ l s1, compile H q env a s = some (l, s1) ∧ k l s1 = some x := by
  cases ha : compile H q env a s with
  | none => simp [ha] at h
  | some p => obtain ⟨l, s1⟩ := p; simp [ha] at h; exact ⟨l, s1, rfl, h⟩

theorem exec_assign {H : Name → Nat} {env env' : Env} {s s' : St} {x : Name} {e : Expr}
    (h : execStmt H q (env, s) (.assign x e) = some (env', s')) :
    ∃ f s1, compile H q env e s = some (f, s1) ∧ completeFunction H f s1 = some s' ∧ env' = (x, f) :: env := by
  obtain ⟨f, s1, hc, hk⟩ := bind1 (k := fun f s => do
    let s' ← completeFunction H f s
    pure ((x, f) :: env, s')) h
  cases hf : completeFunction H f s1 with
  | none => simp [hf] at hk
  | some s2 => simp [hf] at hk; obtain ⟨rfl, rfl⟩ := hk; exact ⟨f, s1, hc, hf, rfl⟩

theorem exec_expr {H : Name → Nat} {env env' : Env} {s s' : St} {e : Expr}
    (h : execStmt H q (env, s) (.expr e) = some (env', s')) :
    ∃ f s1, compile H q env e s = some (f, s1) ∧ completeFunction H f s1 = some s' ∧ env' = env := by
  obtain ⟨f, s1, hc, hk⟩ := bind1 (k := fun f s => do
    let s' ← completeFunction H f s
    pure (env, s')) h
  cases hf : completeFunction H f s1 with
  | none => simp [hf] at hk
  | some s2 => simp [hf] at hk; obtain ⟨rfl, rfl⟩ := hk; exact ⟨f, s1, hc, hf, rfl⟩

theorem exec_split {H : Name → Nat} {env env' : Env} {s s' : St} {e : Expr}
    (h : execStmt H q (env, s) (.split e) = some (env', s')) :
    ∃ f s1, compile H q env e s = some (f, s1) ∧ splitGate H q f s1 = some s' ∧ env' = env := by
  obtain ⟨f, s1, hc, hk⟩ := bind1 (k := fun f s => do
    let s' ← splitGate H q f s
    pure (env, s')) h
  cases hf : splitGate H q f s1 with
  | none => simp [hf] at hk
  | some s2 => simp [hf] at hk; obtain ⟨rfl, rfl⟩ := hk; exact ⟨f, s1, hc, hf, rfl⟩

theorem exec_equal {H : Name → Nat} {env env' : Env} {s s' : St} {a b : Expr}
    (h : execStmt H q (env, s) (.equal a b) = some (env', s')) :
    ∃ l s1 r s2 g, compile H q env a s = some (l, s1) ∧ compile H q env b s1 = some (r, s2) ∧
      s2.add H { typ := .equality, left := l, right := r, noNew := true } = some (s', g) ∧ env' = env := by
  obtain ⟨l, s1, r, s2, ha, hb, hk⟩ := bind2 (k := fun l r s => do
    let (s', _) ← s.add H { typ := .equality, left := l, right := r, noNew := true }
    pure (env, s')) h
  cases hg : s2.add H { typ := .equality, left := l, right := r, noNew := true } with
  | none => simp [hg] at hk
  | some p => obtain ⟨s3, g⟩ := p; simp [hg] at hk; obtain ⟨rfl, rfl⟩ := hk; exact ⟨l, s1, r, s2, g, ha, hb, hg, rfl⟩

theorem equal_wf {H : Name → Nat} {I : List Name} {l r : Factors} {s s' : St} {g : Gate} (hw : WF I s)
    (hl : GoodF q l) (hr : GoodF q r) (kl : KnownF (I ++ s.c.computed) l) (kr : KnownF (I ++ s.c.computed) r)
    (ha : s.add H { typ := .equality, left := l, right := r, noNew := true } = some (s', g)) : WF I s' := by
  refine (hw.add ha (fun _ => rfl) (fun g0 h0 => ?_) (fun g0 h0 => ?_) (fun g0 h0 => ?_)).1
  · obtain ⟨f1, f2, f3, f4, f5, -, -, -⟩ := withID_fields h0
    exact ⟨(knownF_perm (f2.map _) kl).mono mem_known_left, (knownF_perm (f3.map _) kr).mono mem_known_left,
      knownF_perm (f4.map _) (knownF_nil _), knownF_perm (f5.map _) (knownF_nil _), by simp, by simp [f1]⟩
  · obtain ⟨f1, f2, f3, f4, f5, f6, -, -⟩ := withID_fields h0
    exact ⟨by simp [GateShape, f1, f6, f4.eq_nil, f5.eq_nil], (f2.map _).nodup_iff.mpr hl.nodup, (f3.map _).nodup_iff.mpr hr.nodup,
      (f4.map _).nodup_iff.mpr (by simp), (f5.map _).nodup_iff.mpr (by simp)⟩
  · obtain ⟨f1, f2, f3, -⟩ := withID_fields h0
    simp only [OrdGate, id_eq, f1]
    exact ⟨knownF_perm (f2.map _) kl, knownF_perm (f3.map _) kr⟩

theorem EnvOK.cons {I : List Name} {env : Env} {s : St} {x : Name} {f : Factors} (h : EnvOK I q env s)
    (hf : GoodF q f) (kf : KnownF (I ++ s.c.computed) f) : EnvOK I q ((x, f) :: env) s := by
  intro n f' hn
  rw [List.lookup_cons] at hn
  split at hn
  · cases hn; exact ⟨hf, kf⟩
  · exact h n f' hn

theorem execStmt_wf [Fact q.Prime] {H : Name → Nat} {I : List Name} {env env' : Env} {s s' : St} {st : Stmt}
    (hok : StmtOK st) (hw : WF I s) (henv : EnvOK I q env s) (h : execStmt H q (env, s) st = some (env', s')) :
    Ext s s' ∧ WF I s' ∧ EnvOK I q env' s' := by
  cases st with
  | assign x e =>
    obtain ⟨f, s1, hc, hf, rfl⟩ := exec_assign h
    have r := compile_wf e hok hw henv hc
    obtain ⟨he, hw'⟩ := completeFunction_wf r.wf r.good r.known hf
    exact ⟨r.ext.trans he, hw', ((henv.mono hw r.wf r.ext).cons r.good r.known).mono r.wf hw' he⟩
  | equal a b =>
    obtain ⟨l, s1, r, s2, g, ha, hb, hg, rfl⟩ := exec_equal h
    have r1 := compile_wf a hok.1 hw henv ha
    have r2 := compile_wf b hok.2 r1.wf (henv.mono hw r1.wf r1.ext) hb
    have hw' := equal_wf r2.wf r1.good r2.good (r1.known.mono (known_mono r2.ext r1.wf r2.wf)) r2.known hg
    have he := (r1.ext.trans r2.ext).trans (St.add_ext hg (fun _ => rfl))
    exact ⟨he, hw', henv.mono hw hw' he⟩
  | split e =>
    obtain ⟨f, s1, hc, hf, rfl⟩ := exec_split h
    have r := compile_wf e hok hw henv hc
    obtain ⟨he, hw'⟩ := splitGate_wf r.wf r.known hf
    exact ⟨r.ext.trans he, hw', henv.mono hw hw' (r.ext.trans he)⟩
  | expr e =>
    obtain ⟨f, s1, hc, hf, rfl⟩ := exec_expr h
    have r := compile_wf e hok hw henv hc
    obtain ⟨he, hw'⟩ := completeFunction_wf r.wf r.good r.known hf
    exact ⟨r.ext.trans he, hw', henv.mono hw hw' (r.ext.trans he)⟩

theorem StoreRel.cons {ν : Name → ZMod q} {env : Env} {ρ : Store q} {x : Name} {f : Factors} (h : StoreRel ν env ρ) :
    StoreRel ν ((x, f) :: env) (Function.update ρ x (some (formVal ν f))) := by
  intro n f' hn
  rw [List.lookup_cons] at hn
  split at hn
  · rename_i hx
    cases hn
    rw [beq_iff_eq] at hx
    subst hx
    rw [Function.update_self]
  · rename_i hx
    rw [Function.update_of_ne (by rintro rfl; simp at hx)]
    exact h n f' hn

theorem execStmt_sound [Fact q.Prime] {H : Name → Nat} {I : List Name} {env env' : Env} {s s' sf : St} {st : Stmt}
    {gx : ZMod q → ZMod q} {ν : Name → ZMod q} {ρ : Store q} (hn : NoConfusion sf)
    (hh : ∀ g ∈ sf.c.gates, GateHolds gx ν g) (hρ : StoreRel ν env ρ)
    (hok : StmtOK st) (hw : WF I s) (henv : EnvOK I q env s) (h : execStmt H q (env, s) st = some (env', s'))
    (he : Ext s' sf) :
    (∃ ρ', evalStmt gx ρ st = .ok ρ' ∧ StoreRel ν env' ρ') ∨ evalStmt gx ρ st = .error .divByZero := by
  cases st with
  | assign x e =>
    obtain ⟨f, s1, hc, hf, rfl⟩ := exec_assign h
    have r := compile_wf e hok hw henv hc
    obtain ⟨he', hw'⟩ := completeFunction_wf r.wf r.good r.known hf
    rcases compile_sound hn hh hρ e hok hw henv hc (he'.trans he) with hv | hv
    · exact Or.inl ⟨_, by simp [evalStmt, hv, bind, Except.bind], hρ.cons⟩
    · exact Or.inr (by simp [evalStmt, hv, bind, Except.bind])
  | equal a b =>
    obtain ⟨l, s1, r, s2, g, ha, hb, hg, rfl⟩ := exec_equal h
    have r1 := compile_wf a hok.1 hw henv ha
    have r2 := compile_wf b hok.2 r1.wf (henv.mono hw r1.wf r1.ext) hb
    have he3 := St.add_ext hg (fun _ => rfl)
    have hgh := holds_of_ext (St.add_mem hg (fun _ => rfl)) he hn hh
    obtain ⟨g0, h0, rfl, _⟩ := St.add_spec hg (fun _ => rfl)
    obtain ⟨f1, f2, f3, f4, f5, -, -, -⟩ := withID_fields h0
    simp only [GateHolds, id_eq, f1] at hgh
    rw [formVal_perm ν f2, formVal_perm ν f3] at hgh
    have ia := compile_sound hn hh hρ a hok.1 hw henv ha ((r2.ext.trans he3).trans he)
    have ib := compile_sound hn hh hρ b hok.2 r1.wf (henv.mono hw r1.wf r1.ext) hb (he3.trans he)
    rcases ia with ia | ia <;> rcases ib with ib | ib
    · exact Or.inl ⟨ρ, by simp [evalStmt, ia, ib, bind, Except.bind, hgh], hρ⟩
    all_goals exact Or.inr (by simp [evalStmt, ia, ib, bind, Except.bind])
  | split e =>
    obtain ⟨f, s1, hc, hf, rfl⟩ := exec_split h
    have r := compile_wf e hok hw henv hc
    obtain ⟨he', hw'⟩ := splitGate_wf r.wf r.known hf
    rcases compile_sound hn hh hρ e hok hw henv hc (he'.trans he) with hv | hv
    · exact Or.inl ⟨ρ, by simp [evalStmt, hv, bind, Except.bind], hρ⟩
    · exact Or.inr (by simp [evalStmt, hv, bind, Except.bind])
  | expr e =>
    obtain ⟨f, s1, hc, hf, rfl⟩ := exec_expr h
    have r := compile_wf e hok hw henv hc
    obtain ⟨he', hw'⟩ := completeFunction_wf r.wf r.good r.known hf
    rcases compile_sound hn hh hρ e hok hw henv hc (he'.trans he) with hv | hv
    · exact Or.inl ⟨ρ, by simp [evalStmt, hv, bind, Except.bind], hρ⟩
    · exact Or.inr (by simp [evalStmt, hv, bind, Except.bind])

theorem ok_bind1 {α β : Type} {x : Except Err α} {k : α → Except Err β} {v : β}
    (h : (do let a ← x; k a) = .ok v) : ∃ a, x = .ok a ∧ k a = .ok v := by
  cases x with
  | error e => simp [bind, Except.bind] at h
  | ok a => exact ⟨a, rfl, by simpa [bind, Except.bind] using h⟩

theorem execStmt_complete [Fact q.Prime] {H : Name → Nat} {I : List Name} {env env' : Env} {s s' : St} {st : Stmt}
    {gx : ZMod q → ZMod q} {ν : Name → ZMod q} {ρ ρ' : Store q}
    (hok : StmtOK st) (hw : WF I s) (henv : EnvOK I q env s) (h : execStmt H q (env, s) st = some (env', s'))
    (hF : Final I s') (hρ : StoreRel ν env ρ) (hm : Models gx ν s) (hv : evalStmt gx ρ st = .ok ρ') :
    ∃ ν', Agree I s ν ν' ∧ Models gx ν' s' ∧ StoreRel ν' env' ρ' := by
  suffices main : ∃ ν', Agree I s ν ν' ∧ Models gx ν' s' by
    obtain ⟨ν', h1, h2⟩ := main
    refine ⟨ν', h1, h2, ?_⟩
    rcases execStmt_sound hF.noConf h2.holds (hρ.congr henv h1) hok hw henv h (Ext.refl _) with ⟨ρ2, h3, h4⟩ | h3
    · rw [hv] at h3; cases h3; exact h4
    · rw [hv] at h3; cases h3
  cases st with
  | assign x e =>
    obtain ⟨f, s1, hc, hf, rfl⟩ := exec_assign h
    obtain ⟨v, hv, -⟩ := ok_bind1 hv
    have r := compile_wf e hok hw henv hc
    obtain ⟨he', hw'⟩ := completeFunction_wf r.wf r.good r.known hf
    obtain ⟨ν1, a1, m1, -⟩ := compile_complete e hok hw henv hc (hF.of_ext r.wf he') hρ hm hv
    obtain ⟨ν2, a2, m2⟩ := completeFunction_complete r.wf r.known hf m1 hF
    exact ⟨ν2, a1.trans a2 (known_mono r.ext hw r.wf), m2⟩
  | expr e =>
    obtain ⟨f, s1, hc, hf, rfl⟩ := exec_expr h
    obtain ⟨v, hv, -⟩ := ok_bind1 hv
    have r := compile_wf e hok hw henv hc
    obtain ⟨he', hw'⟩ := completeFunction_wf r.wf r.good r.known hf
    obtain ⟨ν1, a1, m1, -⟩ := compile_complete e hok hw henv hc (hF.of_ext r.wf he') hρ hm hv
    obtain ⟨ν2, a2, m2⟩ := completeFunction_complete r.wf r.known hf m1 hF
    exact ⟨ν2, a1.trans a2 (known_mono r.ext hw r.wf), m2⟩
  | split e =>
    obtain ⟨f, s1, hc, hf, rfl⟩ := exec_split h
    obtain ⟨v, hv, -⟩ := ok_bind1 hv
    have r := compile_wf e hok hw henv hc
    obtain ⟨he', hw'⟩ := splitGate_wf r.wf r.known hf
    obtain ⟨ν1, a1, m1, -⟩ := compile_complete e hok hw henv hc (hF.of_ext r.wf he') hρ hm hv
    obtain ⟨ν2, a2, m2⟩ := splitGate_complete r.wf r.known hf m1 hF
    exact ⟨ν2, a1.trans a2 (known_mono r.ext hw r.wf), m2⟩
  | equal a b =>
    obtain ⟨l, s1, r, s2, g, ha, hb, hg, rfl⟩ := exec_equal h
    obtain ⟨va, vb, hva, hvb, hne⟩ := ok_bind2 hv
    have hab : va = vb := by
      by_contra h0; rw [if_neg h0] at hne; cases hne
    subst hab
    have r1 := compile_wf a hok.1 hw henv ha
    have henv1 := henv.mono hw r1.wf r1.ext
    have r2 := compile_wf b hok.2 r1.wf henv1 hb
    have kl := r1.known.mono (known_mono r2.ext r1.wf r2.wf)
    have he3 := St.add_ext hg (fun _ => rfl)
    have hF2 := hF.of_ext r2.wf he3
    obtain ⟨ν1, a1, m1, v1⟩ := compile_complete a hok.1 hw henv ha (hF2.of_ext r1.wf r2.ext) hρ hm hva
    obtain ⟨ν2, a2, m2, v2⟩ := compile_complete b hok.2 r1.wf henv1 hb hF2 (hρ.congr henv a1) m1 hvb
    have v1' : formVal ν2 l = va := by
      rw [← v1]; exact formVal_congr fun n hn => a2 n (r1.known n hn)
    obtain ⟨ν3, a3, m3⟩ := extend_add r2.wf hg (fun _ => rfl) m2 hF.disj hF.noConst fun g0 h0 hfresh => by
      obtain ⟨f1, f2, f3, f4, f5, -, f7, -⟩ := withID_fields h0
      refine ⟨0, ?_, by simp [f1], by simp [QuotOK, f1]⟩
      simp only [GateHolds, id_eq, f1]
      rw [formVal_perm _ f2, formVal_perm _ f3]
      have e1 : formVal (Function.update ν2 g0.ident 0) l = formVal ν2 l :=
        formVal_congr fun n hn => Function.update_of_ne (by rintro rfl; exact hfresh (kl _ hn)) _ _
      have e2 : formVal (Function.update ν2 g0.ident 0) r = formVal ν2 r :=
        formVal_congr fun n hn => Function.update_of_ne (by rintro rfl; exact hfresh (r2.known _ hn)) _ _
      rw [e1, e2, v1', v2]
    exact ⟨ν3, (Agree.trans a1 a2 (known_mono r1.ext hw r1.wf)).trans a3 (known_mono (r1.ext.trans r2.ext) hw r2.wf), m3⟩

/-! ### statement lists and programs -/

theorem body_cons {H : Name → Nat} {st : Stmt} {rest : List Stmt} {p p' : Env × St}
    (h : (st :: rest).foldlM (execStmt H q) p = some p') :
    ∃ p1, execStmt H q p st = some p1 ∧ rest.foldlM (execStmt H q) p1 = some p' := by
  rw [List.foldlM_cons] at h
  cases h1 : execStmt H q p st with
  | none => simp [h1] at h
  | some p1 => simp [h1] at h; exact ⟨p1, rfl, h⟩

theorem body_wf [Fact q.Prime] {H : Name → Nat} {I : List Name} (body : List Stmt) : ∀ {env env' : Env} {s s' : St},
    (∀ st ∈ body, StmtOK st) → WF I s → EnvOK I q env s → body.foldlM (execStmt H q) (env, s) = some (env', s') →
    Ext s s' ∧ WF I s' ∧ EnvOK I q env' s' := by
  induction body with
  | nil => intro env env' s s' _ hw henv h; simp at h; obtain ⟨rfl, rfl⟩ := h; exact ⟨Ext.refl _, hw, henv⟩
  | cons st rest ih =>
    intro env env' s s' hok hw henv h
    obtain ⟨⟨env1, s1⟩, h1, h2⟩ := body_cons h
    obtain ⟨e1, w1, v1⟩ := execStmt_wf (hok st List.mem_cons_self) hw henv h1
    obtain ⟨e2, w2, v2⟩ := ih (fun x hx => hok x (List.mem_cons_of_mem _ hx)) w1 v1 h2
    exact ⟨e1.trans e2, w2, v2⟩

theorem body_sound [Fact q.Prime] {H : Name → Nat} {I : List Name} {sf : St} {gx : ZMod q → ZMod q} {ν : Name → ZMod q}
    (hn : NoConfusion sf) (hh : ∀ g ∈ sf.c.gates, GateHolds gx ν g) (body : List Stmt) :
    ∀ {env env' : Env} {s s' : St} {ρ : Store q}, StoreRel ν env ρ →
    (∀ st ∈ body, StmtOK st) → WF I s → EnvOK I q env s → body.foldlM (execStmt H q) (env, s) = some (env', s') →
    Ext s' sf → (∃ ρ', evalBody gx ρ body = .ok ρ' ∧ StoreRel ν env' ρ') ∨ evalBody gx ρ body = .error .divByZero := by
  induction body with
  | nil => intro env env' s s' ρ hρ _ hw henv h _; simp at h; obtain ⟨rfl, rfl⟩ := h; exact Or.inl ⟨ρ, rfl, hρ⟩
  | cons st rest ih =>
    intro env env' s s' ρ hρ hok hw henv h he
    obtain ⟨⟨env1, s1⟩, h1, h2⟩ := body_cons h
    obtain ⟨e1, w1, v1⟩ := execStmt_wf (hok st List.mem_cons_self) hw henv h1
    have hok' := fun x hx => hok x (List.mem_cons_of_mem _ hx)
    obtain ⟨e2, w2, v2⟩ := body_wf rest hok' w1 v1 h2
    rcases execStmt_sound hn hh hρ (hok st List.mem_cons_self) hw henv h1 (e2.trans he) with ⟨ρ1, h3, h4⟩ | h3
    · have := ih h4 hok' w1 v1 h2 he
      simp only [evalBody, h3, bind, Except.bind]
      exact this
    · right; simp only [evalBody, h3, bind, Except.bind]

theorem body_complete [Fact q.Prime] {H : Name → Nat} {I : List Name} {gx : ZMod q → ZMod q} (body : List Stmt) :
    ∀ {env env' : Env} {s s' : St} {ν : Name → ZMod q} {ρ ρ' : Store q}, StoreRel ν env ρ →
    (∀ st ∈ body, StmtOK st) → WF I s → EnvOK I q env s → body.foldlM (execStmt H q) (env, s) = some (env', s') →
    Final I s' → Models gx ν s → evalBody gx ρ body = .ok ρ' →
    ∃ ν', Agree I s ν ν' ∧ Models gx ν' s' ∧ StoreRel ν' env' ρ' := by
  induction body with
  | nil =>
    intro env env' s s' ν ρ ρ' hρ _ hw henv h _ hm hv
    simp at h; obtain ⟨rfl, rfl⟩ := h
    cases hv
    exact ⟨ν, fun _ _ => rfl, hm, hρ⟩
  | cons st rest ih =>
    intro env env' s s' ν ρ ρ' hρ hok hw henv h hF hm hv
    obtain ⟨⟨env1, s1⟩, h1, h2⟩ := body_cons h
    obtain ⟨e1, w1, v1⟩ := execStmt_wf (hok st List.mem_cons_self) hw henv h1
    have hok' := fun x hx => hok x (List.mem_cons_of_mem _ hx)
    obtain ⟨e2, w2, v2⟩ := body_wf rest hok' w1 v1 h2
    obtain ⟨ρ1, hv1, hv2⟩ := ok_bind1 hv
    obtain ⟨ν1, a1, m1, r1⟩ := execStmt_complete (hok st List.mem_cons_self) hw henv h1 (hF.of_ext w1 e2) hρ hm hv1
    obtain ⟨ν2, a2, m2, r2⟩ := ih r1 hok' w1 v1 h2 hF m1 hv2
    exact ⟨ν2, a1.trans a2 (known_mono e1 hw w1), m2, r2⟩

theorem execute_eq {H : Name → Nat} {p : Prog} {f : Factors} {s : St} (h : execute H q p = some (f, s)) :
    ∃ env s1 s2, p.body.foldlM (execStmt H q) (initEnv p.inputs, {}) = some (env, s1) ∧
      compile H q env p.ret s1 = some (f, s2) ∧ completeFunction H f s2 = some s := by
  unfold execute at h
  cases h1 : p.body.foldlM (execStmt H q) (initEnv p.inputs, {}) with
  | none => simp [h1] at h
  | some x =>
    obtain ⟨env, s1⟩ := x
    simp only [h1, Option.bind_eq_bind, Option.bind_some] at h
    cases h2 : compile H q env p.ret s1 with
    | none => simp [h2] at h
    | some x =>
      obtain ⟨f', s2⟩ := x
      simp only [h2, Option.bind_some] at h
      cases h3 : completeFunction H f' s2 with
      | none => simp [h3] at h
      | some s3 =>
        simp [h3] at h
        obtain ⟨rfl, rfl⟩ := h
        exact ⟨env, s1, s2, rfl, h2, h3⟩

theorem lookup_initEnv (l : List Name) (n : Name) (f : Factors) (h : (initEnv l).lookup n = some f) :
    n ∈ l ∧ f = [argF n 1] := by
  induction l with
  | nil => simp [initEnv] at h
  | cons a as ih =>
    simp only [initEnv, List.map_cons, List.lookup_cons] at h
    split at h
    · rename_i hx
      rw [beq_iff_eq] at hx
      cases h
      exact ⟨hx ▸ List.mem_cons_self, by rw [hx]⟩
    · obtain ⟨h1, h2⟩ := ih h
      exact ⟨List.mem_cons_of_mem _ h1, h2⟩

theorem envOK_init (I : List Name) : EnvOK I q (initEnv I) {} := by
  intro n f h
  obtain ⟨h1, rfl⟩ := lookup_initEnv I n f h
  exact ⟨goodF_argF _ _, knownF_argF (List.mem_append_left _ h1)⟩

theorem storeRel_init (I : List Name) (ν : Name → ZMod q) :
    StoreRel ν (initEnv I) (fun n => if n ∈ I then some (ν n) else none) := by
  intro n f h
  obtain ⟨h1, rfl⟩ := lookup_initEnv I n f h
  simp [h1]

theorem execute_wf [Fact q.Prime] {H : Name → Nat} {p : Prog} {f : Factors} {s : St} (hok : ProgOK p)
    (h : execute H q p = some (f, s)) : WF p.inputs s ∧ GoodF q f ∧ KnownF (p.inputs ++ s.c.computed) f := by
  obtain ⟨env, s1, s2, h1, h2, h3⟩ := execute_eq h
  obtain ⟨e1, w1, v1⟩ := body_wf p.body hok.1 (wf_empty p.inputs) (envOK_init _) h1
  have r := compile_wf p.ret hok.2 w1 v1 h2
  obtain ⟨e3, w3⟩ := completeFunction_wf r.wf r.good r.known h3
  exact ⟨w3, r.good, r.known.mono (known_mono e3 r.wf w3)⟩

theorem execute_sound [Fact q.Prime] {H : Name → Nat} {p : Prog} {f : Factors} {s : St} {gx : ZMod q → ZMod q}
    {ν : Name → ZMod q} (hok : ProgOK p) (h : execute H q p = some (f, s)) (hn : NoConfusion s)
    (hh : ∀ g ∈ s.c.gates, GateHolds gx ν g) :
    evalProg gx p ν = .ok (formVal ν f) ∨ evalProg gx p ν = .error .divByZero := by
  obtain ⟨env, s1, s2, h1, h2, h3⟩ := execute_eq h
  obtain ⟨e1, w1, v1⟩ := body_wf p.body hok.1 (wf_empty p.inputs) (envOK_init _) h1
  have r := compile_wf p.ret hok.2 w1 v1 h2
  obtain ⟨e3, w3⟩ := completeFunction_wf r.wf r.good r.known h3
  rcases body_sound hn hh p.body (storeRel_init p.inputs ν) hok.1 (wf_empty _) (envOK_init _) h1 (r.ext.trans e3) with
    ⟨ρ', hv, hρ⟩ | hv
  · have := compile_sound hn hh hρ p.ret hok.2 w1 v1 h2 e3
    simp only [evalProg, hv, bind, Except.bind]
    exact this
  · right; simp only [evalProg, hv, bind, Except.bind]

theorem evalProg_congr [Fact q.Prime] {gx : ZMod q → ZMod q} {p : Prog} {ν ν' : Name → ZMod q}
    (h : ∀ n ∈ p.inputs, ν' n = ν n) : evalProg gx p ν' = evalProg gx p ν := by
  have : (fun n => if n ∈ p.inputs then some (ν' n) else none) = fun n => if n ∈ p.inputs then some (ν n) else none := by
    funext n
    split
    · rename_i hn; rw [h n hn]
    · rfl
  simp only [evalProg, this]

theorem execute_models [Fact q.Prime] {H : Name → Nat} {p : Prog} {f : Factors} {s : St} {gx : ZMod q → ZMod q}
    {vals : Name → ZMod q} {v : ZMod q} (hok : ProgOK p) (h : execute H q p = some (f, s)) (hn : NoConfusion s)
    (hc : NoConstSplit s) (hd : ∀ n ∈ p.inputs, n ∉ s.c.computed) (hv : evalProg gx p vals = .ok v) :
    ∃ ν, (∀ n ∈ p.inputs, ν n = vals n) ∧ Models gx ν s ∧ formVal ν f = v := by
  obtain ⟨env, s1, s2, h1, h2, h3⟩ := execute_eq h
  obtain ⟨e1, w1, v1⟩ := body_wf p.body hok.1 (wf_empty p.inputs) (envOK_init _) h1
  have r := compile_wf p.ret hok.2 w1 v1 h2
  obtain ⟨e3, w3⟩ := completeFunction_wf r.wf r.good r.known h3
  have hF : Final p.inputs s := ⟨w3, hn, hc, hd⟩
  have hF2 := hF.of_ext r.wf e3
  obtain ⟨ρ', hv1, hv2⟩ := ok_bind1 hv
  obtain ⟨ν1, a1, m1, r1⟩ := body_complete p.body (storeRel_init p.inputs vals) hok.1 (wf_empty _) (envOK_init _) h1
    (hF2.of_ext w1 r.ext) ⟨by simp, by simp, by simp⟩ hv1
  obtain ⟨ν2, a2, m2, -⟩ := compile_complete p.ret hok.2 w1 v1 h2 hF2 r1 m1 hv2
  obtain ⟨ν3, a3, m3⟩ := completeFunction_complete r.wf r.known h3 m2 hF
  have hag : ∀ n ∈ p.inputs, ν3 n = vals n := fun n hn => by
    rw [a3 n (List.mem_append_left _ hn), a2 n (List.mem_append_left _ hn), a1 n (List.mem_append_left _ hn)]
  refine ⟨ν3, hag, m3, ?_⟩
  have := execute_sound hok h hn m3.holds
  rw [evalProg_congr hag, hv] at this
  rcases this with h | h
  · cases h; rfl
  · cases h

theorem execute_complete [Fact q.Prime] {H : Name → Nat} {p : Prog} {f : Factors} {s : St} {gx : ZMod q → ZMod q}
    {vals : Name → ZMod q} {v : ZMod q} (hok : ProgOK p) (h : execute H q p = some (f, s)) (hn : NoConfusion s)
    (hc : NoConstSplit s) (hd : ∀ n ∈ p.inputs, n ∉ s.c.computed) (hv : evalProg gx p vals = .ok v) :
    ∃ ν, (∀ n ∈ p.inputs, ν n = vals n) ∧ (∀ g ∈ s.c.gates, GateHolds gx ν g) ∧ formVal ν f = v := by
  obtain ⟨ν, h1, h2, h3⟩ := execute_models hok h hn hc hd hv
  exact ⟨ν, h1, h2.holds, h3⟩

end APS.Circuit
