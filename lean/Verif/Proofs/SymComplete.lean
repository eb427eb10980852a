import Verif.Proofs.SymSound

/-! Completeness of `Sym`: when the interpreter finds a result, values of the gates exist that satisfy them. -/
namespace APS.Sym
open APS.ParseSpec (Ex indexText)
open APS.LangSpec (Stm Fun Store Err arithOp compareOp get put start find kwBase kwEqual kwSplit evalList runList element
  declareFrom eval run Le finish finish_step finish_exit)
open APS.Circuit
open APS.Spec (IsLit NoConfusion NoConstSplit GateHolds formVal)

variable {q : Nat}

/-- `ν'` continues `ν` to the gates of `s'` -/
def Continues (gx : ZMod q → ZMod q) (I : List Name) (ν : Name → ZMod q) (s s' : St) : Prop :=
  ∃ ν', Agree I s ν ν' ∧ Models gx ν' s'

/-- completeness of what is derived -/
def JC [Fact q.Prime] (gx : ZMod q → ZMod q) (P : List Fun) : Judg → Prop
  | .ex env e s _ s' => ∀ I ν ρ k v, WF I s → EnvOK I q env s → StoreRel ν env ρ → Models gx ν s → Final I s' →
      eval gx P k ρ e = .ok v → Continues gx I ν s s'
  | .exs env es s _ s' => ∀ I ν ρ k vs, WF I s → EnvOK I q env s → StoreRel ν env ρ → Models gx ν s → Final I s' →
      evalList (eval gx P k ρ) es = .ok vs → Continues gx I ν s s'
  | .idx _ _ _ => True
  | .decls _ env a i es s _ s' => ∀ I ν ρ k ρ', WF I s → EnvOK I q env s → StoreRel ν env ρ → Models gx ν s → Final I s' →
      declareFrom (eval gx P k) a i es ρ = .ok ρ' → Continues gx I ν s s'
  | .stm _ env st s _ s' => ∀ I ν ρ k ρ', WF I s → EnvOK I q env s → StoreRel ν env ρ → Models gx ν s → Final I s' →
      run gx P k ρ st = .ok ρ' → Continues gx I ν s s'
  | .stms _ env sts s _ s' => ∀ I ν ρ k ρ', WF I s → EnvOK I q env s → StoreRel ν env ρ → Models gx ν s → Final I s' →
      runList (run gx P k) ρ sts = .ok ρ' → Continues gx I ν s s'
  | .fn _ env sts ret s _ s' => ∀ I ν ρ k v, WF I s → EnvOK I q env s → StoreRel ν env ρ → Models gx ν s → Final I s' →
      finish (eval gx P k) (run gx P k) ret ρ sts = .ok v → Continues gx I ν s s'

theorem ok_bind {α β : Type} {x : Except Err α} {k : α → Except Err β} {v : β}
    (h : (x >>= k) = .ok v) : ∃ a, x = .ok a ∧ k a = .ok v := by
  cases x with
  | error e => simp [bind, Except.bind] at h
  | ok a => exact ⟨a, rfl, by simpa [bind, Except.bind] using h⟩

section
variable [Fact q.Prime] {H : Name → Nat} {P : List Fun} {gx : ZMod q → ZMod q}

/-- the value of an expression -/
theorem val_ex {env : Env} {e : Ex} {s s' : St} {f : Factors} (h : Sym H q P (.ex env e s f s')) {I : List Name}
    {ν : Name → ZMod q} {ρ : Store q} {k : Nat} {v : ZMod q} (hw : WF I s) (henv : EnvOK I q env s) (hρ : StoreRel ν env ρ)
    (hm : Models gx ν s') (hF : Final I s') (hv : eval gx P k ρ e = .ok v) : v = formVal ν f :=
  (sym_sound gx h I s' ν ρ hw henv hρ ⟨hF.noConf, hm.holds⟩ (Ext.refl _)).det (fun _ _ hn => LangSpec.eval_le gx P hn ρ e) hv

theorem val_exs {env : Env} {es : List Ex} {s s' : St} {fs : List Factors} (h : Sym H q P (.exs env es s fs s')) {I : List Name}
    {ν : Name → ZMod q} {ρ : Store q} {k : Nat} {vs : List (ZMod q)} (hw : WF I s) (henv : EnvOK I q env s) (hρ : StoreRel ν env ρ)
    (hm : Models gx ν s') (hF : Final I s') (hv : evalList (eval gx P k ρ) es = .ok vs) : vs = fs.map (formVal ν) :=
  (sym_sound gx h I s' ν ρ hw henv hρ ⟨hF.noConf, hm.holds⟩ (Ext.refl _)).det (fun _ _ hn => LangSpec.evals_le gx P hn ρ es) hv

theorem val_stm {top : Bool} {env env' : Env} {st : Stm} {s s' : St} (h : Sym H q P (.stm top env st s env' s')) {I : List Name}
    {ν : Name → ZMod q} {ρ ρ' : Store q} {k : Nat} (hw : WF I s) (henv : EnvOK I q env s) (hρ : StoreRel ν env ρ)
    (hm : Models gx ν s') (hF : Final I s') (hv : run gx P k ρ st = .ok ρ') : StoreRel ν env' ρ' :=
  (sym_sound gx h I s' ν ρ hw henv hρ ⟨hF.noConf, hm.holds⟩ (Ext.refl _)).det (fun _ _ hn => LangSpec.run_le gx P hn ρ st) hv

theorem val_stms {top : Bool} {env env' : Env} {sts : List Stm} {s s' : St} (h : Sym H q P (.stms top env sts s env' s')) {I : List Name}
    {ν : Name → ZMod q} {ρ ρ' : Store q} {k : Nat} (hw : WF I s) (henv : EnvOK I q env s) (hρ : StoreRel ν env ρ)
    (hm : Models gx ν s') (hF : Final I s') (hv : runList (run gx P k) ρ sts = .ok ρ') : StoreRel ν env' ρ' :=
  (sym_sound gx h I s' ν ρ hw henv hρ ⟨hF.noConf, hm.holds⟩ (Ext.refl _)).det (fun _ _ hn => LangSpec.runs_le gx P hn ρ sts) hv

theorem complete_complete {top : Bool} {I : List Name} {f : Factors} {s s' : St} {ν : Name → ZMod q} (hw : WF I s)
    (kf : KnownF (I ++ s.c.computed) f) (h : complete H top f s = some s') (hm : Models gx ν s) (hF : Final I s') :
    Continues gx I ν s s' := by
  unfold complete at h
  split at h
  · exact completeFunction_complete hw kf h hm hF
  · cases h; exact ⟨ν, fun _ _ => rfl, hm⟩

theorem arithGate_complete {I : List Name} {op : Name} {l r f : Factors} {s s' : St} {ν : Name → ZMod q} (hw : WF I s)
    (kl : KnownF (I ++ s.c.computed) l) (kr : KnownF (I ++ s.c.computed) r) (h : arithGate H q op l r s = some (f, s'))
    (hm : Models gx ν s) (hF : Final I s') {v : ZMod q} (hv : arithOp op (formVal ν l) (formVal ν r) = .ok v) :
    Continues gx I ν s s' := by
  unfold arithGate at h
  split at h
  · exact mulGate_complete hw kl kr h hm hF.disj hF.noConst
  · split at h
    · rename_i ho; subst ho
      refine divGate_complete hw kl kr h hm hF.disj hF.noConst ?_
      intro h0
      simp [arithOp, h0] at hv
    · split at h
      · simp at h; obtain ⟨rfl, rfl⟩ := h
        exact ⟨ν, fun _ _ => rfl, hm⟩
      · split at h
        · simp at h; obtain ⟨rfl, rfl⟩ := h
          exact ⟨ν, fun _ _ => rfl, hm⟩
        · cases h

theorem equal_complete {I : List Name} {l r : Factors} {s s' : St} {g : Gate} {ν : Name → ZMod q} (hw : WF I s)
    (kl : KnownF (I ++ s.c.computed) l) (kr : KnownF (I ++ s.c.computed) r)
    (hg : s.add H { typ := .equality, left := l, right := r, noNew := true } = some (s', g)) (hm : Models gx ν s)
    (hF : Final I s') (hv : formVal ν l = formVal ν r) : Continues gx I ν s s' :=
  extend_add hw hg (fun _ => rfl) hm hF.disj hF.noConst fun g0 h0 hfresh => by
    obtain ⟨f1, f2, f3, f4, f5, -, f7, -⟩ := withID_fields h0
    refine ⟨0, ?_, by simp [f1], by simp [QuotOK, f1]⟩
    simp only [GateHolds, id_eq, f1]
    rw [formVal_perm _ f2, formVal_perm _ f3]
    have e1 : formVal (Function.update ν g0.ident 0) l = formVal ν l :=
      formVal_congr fun n hn => Function.update_of_ne (by rintro rfl; exact hfresh (kl _ hn)) _ _
    have e2 : formVal (Function.update ν g0.ident 0) r = formVal ν r :=
      formVal_congr fun n hn => Function.update_of_ne (by rintro rfl; exact hfresh (kr _ hn)) _ _
    rw [e1, e2, hv]

theorem val_fn {top : Bool} {env : Env} {sts : List Stm} {ret : Ex} {s s' : St} {f : Factors} (h : Sym H q P (.fn top env sts ret s f s'))
    {I : List Name} {ν : Name → ZMod q} {ρ : Store q} {k : Nat} {v : ZMod q} (hw : WF I s) (henv : EnvOK I q env s) (hρ : StoreRel ν env ρ)
    (hm : Models gx ν s') (hF : Final I s') (hv : finish (eval gx P k) (run gx P k) ret ρ sts = .ok v) : v = formVal ν f :=
  (sym_sound gx h I s' ν ρ hw henv hρ ⟨hF.noConf, hm.holds⟩ (Ext.refl _)).det (fun _ _ hn => LangSpec.finishes_le gx P hn ret ρ sts) hv

theorem Continues.trans {I : List Name} {ν : Name → ZMod q} {s s1 s2 : St} (hw : WF I s) (hw1 : WF I s1) (he : Ext s s1)
    (h : Continues gx I ν s s1) (h' : ∀ ν1, Agree I s ν ν1 → Models gx ν1 s1 → Continues gx I ν1 s1 s2) :
    Continues gx I ν s s2 := by
  obtain ⟨ν1, a1, m1⟩ := h
  obtain ⟨ν2, a2, m2⟩ := h' ν1 a1 m1
  exact ⟨ν2, a1.trans a2 (known_mono he hw hw1), m2⟩

theorem Continues.refl {I : List Name} {ν : Name → ZMod q} {s : St} (hm : Models gx ν s) : Continues gx I ν s s :=
  ⟨ν, fun _ _ => rfl, hm⟩

theorem sym_complete {j : Judg} (h : Sym H q P j) : JC gx P j := by
  induction h with
  | num => exact fun I ν ρ k v hw henv hρ hm hF hv => Continues.refl hm
  | var => exact fun I ν ρ k v hw henv hρ hm hF hv => Continues.refl hm
  | paren _ ih =>
    intro I ν ρ k v hw henv hρ hm hF hv
    cases k with
    | zero => simp [eval] at hv
    | succ k => exact ih I ν ρ k v hw henv hρ hm hF (by simpa only [eval] using hv)
  | @bin env op l r s a s1 b s2 f s' h1 h2 hg ihl ihr =>
    intro I ν ρ k v hw henv hρ hm hF hv
    cases k with
    | zero => simp [eval] at hv
    | succ k =>
    simp only [eval] at hv
    obtain ⟨va, hva, hv⟩ := ok_bind hv
    obtain ⟨vb, hvb, hv⟩ := ok_bind hv
    have r1 := sym_wf h1 I hw henv
    have henv1 := henv.mono hw r1.wf r1.ext
    have r2 := sym_wf h2 I r1.wf henv1
    have kl := r1.known.mono (known_mono r2.ext r1.wf r2.wf)
    have r3 := arithGate_wf r2.wf r1.good r2.good kl r2.known hg
    have hF2 := hF.of_ext r2.wf r3.ext
    have hF1 := hF2.of_ext r1.wf r2.ext
    refine (ihl I ν ρ k va hw henv hρ hm hF1 hva).trans hw r1.wf r1.ext fun ν1 a1 m1 => ?_
    have hρ1 := hρ.congr henv a1
    have e1 := val_ex h1 hw henv hρ1 m1 hF1 hva
    refine Continues.trans r1.wf r2.wf r2.ext (ihr I ν1 ρ k vb r1.wf henv1 hρ1 m1 hF2 hvb) fun ν2 a2 m2 => ?_
    have e2 := val_ex h2 r1.wf henv1 (hρ1.congr henv1 a2) m2 hF2 hvb
    have e1' : formVal ν2 a = formVal ν1 a := formVal_congr fun n hn => a2 n (r1.known n hn)
    exact arithGate_complete r2.wf kl r2.known hg m2 hF (v := v) (by rw [e1', ← e1, ← e2]; exact hv)
  | arr => exact fun I ν ρ k v hw henv hρ hm hF hv => Continues.refl hm
  | @base env e s l s1 f s' h1 hg ih =>
    intro I ν ρ k v hw henv hρ hm hF hv
    cases k with
    | zero => simp [eval] at hv
    | succ k =>
    simp only [eval] at hv
    obtain ⟨vs, hvs, -⟩ := ok_bind hv
    simp only [evalList] at hvs
    obtain ⟨va, hva, -⟩ := ok_bind hvs
    have r1 := sym_wf h1 I hw henv
    have r3 := baseGate_wf r1.wf r1.good r1.known hg
    exact (ih I ν ρ k va hw henv hρ hm (hF.of_ext r1.wf r3.ext) hva).trans hw r1.wf r1.ext fun ν1 a1 m1 =>
      baseGate_complete r1.wf r1.known hg m1 hF.disj hF.noConst
  | @call env F args s fs s1 f s3 hb hfind hlen h1 h2 ih1 ih2 =>
    intro I ν ρ k v hw henv hρ hm hF hv
    cases k with
    | zero => simp [eval] at hv
    | succ k =>
    simp only [eval, if_neg hb, hfind] at hv
    obtain ⟨vs, hvs, hv⟩ := ok_bind hv
    have hvl := evalList_length _ _ hvs
    obtain ⟨F', hF', hv⟩ := ok_bind hv
    cases hF'
    rw [if_pos (by rw [hlen, hvl])] at hv
    obtain ⟨hl, w1⟩ := sym_wf h1
    obtain ⟨e1, w1, g1⟩ := w1 I hw henv
    have r3 := sym_wf h2 I w1 (envOK_zip g1)
    have hF1 := hF.of_ext w1 r3.ext
    refine (ih1 I ν ρ k vs hw henv hρ hm hF1 hvs).trans hw w1 e1 fun ν1 a1 m1 => ?_
    have := val_exs h1 hw henv (hρ.congr henv a1) m1 hF1 hvs
    subst this
    have st1 : StoreRel ν1 (F.names.zip fs) (start F.names (fs.map (formVal ν1))) := start_rel _ _
    exact ih2 I ν1 _ k v w1 (envOK_zip g1) st1 m1 hF hv
  | exsNil => exact fun I ν ρ k v hw henv hρ hm hF hv => Continues.refl hm
  | @exsCons env e es s f s1 fs s2 h1 h2 ih1 ih2 =>
    intro I ν ρ k vs hw henv hρ hm hF hv
    simp only [evalList] at hv
    obtain ⟨va, hva, hv⟩ := ok_bind hv
    obtain ⟨vb, hvb, -⟩ := ok_bind hv
    have r1 := sym_wf h1 I hw henv
    have henv1 := henv.mono hw r1.wf r1.ext
    obtain ⟨-, w2⟩ := sym_wf h2
    obtain ⟨e2, w2, g2⟩ := w2 I r1.wf henv1
    have hF1 := hF.of_ext r1.wf e2
    refine (ih1 I ν ρ k va hw henv hρ hm hF1 hva).trans hw r1.wf r1.ext fun ν1 a1 m1 => ?_
    exact ih2 I ν1 ρ k vb r1.wf henv1 (hρ.congr henv a1) m1 hF hvb
  | idxNil => trivial
  | idxCons => trivial
  | declsNil => exact fun I ν ρ k v hw henv hρ hm hF hv => Continues.refl hm
  | @declsCons top env a i e es s f s1 s2 env' s3 h1 hc h2 ih1 ih2 =>
    intro I ν ρ k ρ' hw henv hρ hm hF hv
    simp only [declareFrom] at hv
    obtain ⟨va, hva, hv⟩ := ok_bind hv
    have r := sym_wf h1 I hw henv
    obtain ⟨he', hw'⟩ := complete_wf r.wf r.good r.known hc
    have hvc := (henv.mono hw r.wf r.ext).cons (x := a ++ indexText [i]) r.good r.known
    have hv' := hvc.mono r.wf hw' he'
    obtain ⟨e2, w2, v2⟩ := sym_wf h2 I hw' hv'
    have hF2 := hF.of_ext hw' e2
    have hF1 := hF2.of_ext r.wf he'
    refine (ih1 I ν ρ k va hw henv hρ hm hF1 hva).trans hw r.wf r.ext fun ν1 a1 m1 => ?_
    have hρ1 := hρ.congr henv a1
    have := val_ex h1 hw henv hρ1 m1 hF1 hva
    subst this
    refine Continues.trans r.wf hw' he' (complete_complete r.wf r.known hc m1 hF2) fun ν2 a2 m2 => ?_
    exact ih2 I ν2 _ k ρ' hw' hv' ((put_rel hρ1).congr hvc a2) m2 hF hv
  | @decl top env x e s f s1 s2 h1 hc ih1 =>
    intro I ν ρ k ρ' hw henv hρ hm hF hv
    cases k with
    | zero => simp [run] at hv
    | succ k =>
    simp only [run] at hv
    obtain ⟨va, hva, hv⟩ := ok_bind hv
    have r := sym_wf h1 I hw henv
    obtain ⟨he', hw'⟩ := complete_wf r.wf r.good r.known hc
    exact (ih1 I ν ρ k va hw henv hρ hm (hF.of_ext r.wf he') hva).trans hw r.wf r.ext fun ν1 a1 m1 =>
      complete_complete r.wf r.known hc m1 hF
  | declArr _ ih =>
    intro I ν ρ k ρ' hw henv hρ hm hF hv
    cases k with
    | zero => simp [run] at hv
    | succ k => exact ih I ν ρ k ρ' hw henv hρ hm hF (by simpa only [run] using hv)
  | @assign top env x is ks e s f s1 s2 g h0 h1 hl hc ih0 ih1 =>
    intro I ν ρ k ρ' hw henv hρ hm hF hv
    cases k with
    | zero => simp [run] at hv
    | succ k =>
    simp only [run] at hv
    obtain ⟨vi, hvi, hv⟩ := ok_bind hv
    obtain ⟨va, hva, hv⟩ := ok_bind hv
    have r := sym_wf h1 I hw henv
    obtain ⟨he', hw'⟩ := complete_wf r.wf r.good r.known hc
    exact (ih1 I ν ρ k va hw henv hρ hm (hF.of_ext r.wf he') hva).trans hw r.wf r.ext fun ν1 a1 m1 =>
      complete_complete r.wf r.known hc m1 hF
  | @equal top env a b s l s1 r s2 g s3 h1 h2 hg ih1 ih2 =>
    intro I ν ρ k ρ' hw henv hρ hm hF hv
    cases k with
    | zero => simp [run] at hv
    | succ k =>
    simp only [run, if_true, evalList] at hv
    obtain ⟨vs, hvs, hv⟩ := ok_bind hv
    obtain ⟨va, hva, hvs⟩ := ok_bind hvs
    obtain ⟨vs', hvs', hvs⟩ := ok_bind hvs
    obtain ⟨vb, hvb, hvs'⟩ := ok_bind hvs'
    cases hvs'
    cases hvs
    simp only at hv
    have hab : va = vb := by
      by_contra h0; rw [if_neg h0] at hv; cases hv
    have r1 := sym_wf h1 I hw henv
    have henv1 := henv.mono hw r1.wf r1.ext
    have r2 := sym_wf h2 I r1.wf henv1
    have kl := r1.known.mono (known_mono r2.ext r1.wf r2.wf)
    have hF2 := hF.of_ext r2.wf (St.add_ext hg (fun _ => rfl))
    have hF1 := hF2.of_ext r1.wf r2.ext
    refine (ih1 I ν ρ k va hw henv hρ hm hF1 hva).trans hw r1.wf r1.ext fun ν1 a1 m1 => ?_
    have hρ1 := hρ.congr henv a1
    have e1 := val_ex h1 hw henv hρ1 m1 hF1 hva
    refine Continues.trans r1.wf r2.wf r2.ext (ih2 I ν1 ρ k vb r1.wf henv1 hρ1 m1 hF2 hvb) fun ν2 a2 m2 => ?_
    have e2 := val_ex h2 r1.wf henv1 (hρ1.congr henv1 a2) m2 hF2 hvb
    have e1' : formVal ν2 l = formVal ν1 l := formVal_congr fun n hn => a2 n (r1.known n hn)
    exact equal_complete r2.wf kl r2.known hg m2 hF (by rw [e1', ← e1, ← e2]; exact hab)
  | @split top env a s f s1 s2 h1 hg ih =>
    intro I ν ρ k ρ' hw henv hρ hm hF hv
    cases k with
    | zero => simp [run] at hv
    | succ k =>
    simp only [run, if_neg (by decide : ¬ kwSplit = kwEqual), if_true, evalList] at hv
    obtain ⟨vs, hvs, hv⟩ := ok_bind hv
    obtain ⟨va, hva, hvs⟩ := ok_bind hvs
    have r := sym_wf h1 I hw henv
    obtain ⟨he', hw'⟩ := splitGate_wf r.wf r.known hg
    exact (ih I ν ρ k va hw henv hρ hm (hF.of_ext r.wf he') hva).trans hw r.wf r.ext fun ν1 a1 m1 =>
      splitGate_complete r.wf r.known hg m1 hF
  | @callS top env f args s g s1 s2 hn1 hn2 h1 hc ih1 =>
    intro I ν ρ k ρ' hw henv hρ hm hF hv
    cases k with
    | zero => simp [run] at hv
    | succ k =>
    simp only [run, if_neg hn1, if_neg hn2] at hv
    obtain ⟨va, hva, hv⟩ := ok_bind hv
    have r := sym_wf h1 I hw henv
    obtain ⟨he', hw'⟩ := complete_wf r.wf r.good r.known hc
    exact (ih1 I ν ρ k va hw henv hρ hm (hF.of_ext r.wf he') hva).trans hw r.wf r.ext fun ν1 a1 m1 =>
      complete_complete r.wf r.known hc m1 hF
  | stop => exact fun I ν ρ k v hw henv hρ hm hF hv => Continues.refl hm
  | skip => exact fun I ν ρ k v hw henv hρ hm hF hv => Continues.refl hm
  | @take top env l cmp r body s a b env1 s1 h1 h2 ha hb hc h3 ih1 ih2 ih3 =>
    intro I ν ρ k ρ' hw henv hρ hm hF hv
    cases k with
    | zero => simp [run] at hv
    | succ k =>
    simp only [run] at hv
    obtain ⟨va, hva, hv⟩ := ok_bind hv
    obtain ⟨vb, hvb, hv⟩ := ok_bind hv
    have ea := (static_out (sym_sound gx h1) ha henv hρ).det (fun _ _ hn => LangSpec.eval_le gx P hn ρ l) hva
    have eb := (static_out (sym_sound gx h2) hb henv hρ).det (fun _ _ hn => LangSpec.eval_le gx P hn ρ r) hvb
    simp only [ea.2, eb.2, hc, bind, Except.bind, if_true] at hv
    exact ih3 I ν ρ k ρ' hw henv hρ hm hF hv
  | @go top env l cmp r x step body s a b env1 s1 f s2 g env2 s3 h1 h2 ha hb hc h3 h4 hl h5 ih1 ih2 ih3 ih4 ih5 =>
    intro I ν ρ k ρ' hw henv hρ hm hF hv
    cases k with
    | zero => simp [run] at hv
    | succ k =>
    simp only [run] at hv
    obtain ⟨va, hva, hv⟩ := ok_bind hv
    obtain ⟨vb, hvb, hv⟩ := ok_bind hv
    have ea := (static_out (sym_sound gx h1) ha henv hρ).det (fun _ _ hn => LangSpec.eval_le gx P hn ρ l) hva
    have eb := (static_out (sym_sound gx h2) hb henv hρ).det (fun _ _ hn => LangSpec.eval_le gx P hn ρ r) hvb
    simp only [ea.2, eb.2, hc, bind, Except.bind, if_true] at hv
    obtain ⟨ρ1, hr1, hv⟩ := ok_bind hv
    obtain ⟨vs, hvs, hv⟩ := ok_bind hv
    obtain ⟨-, -, hv⟩ := ok_bind hv
    obtain ⟨e1, w1, v1⟩ := sym_wf h3 I hw henv
    have r4 := sym_wf h4 I w1 v1
    have v4 := (v1.mono w1 r4.wf r4.ext).cons (x := x) r4.good r4.known
    obtain ⟨e5, w5, v5⟩ := sym_wf h5 I r4.wf v4
    have hF2 := hF.of_ext r4.wf e5
    have hF1 := hF2.of_ext w1 r4.ext
    refine (ih3 I ν ρ k ρ1 hw henv hρ hm hF1 hr1).trans hw w1 e1 fun ν1 a1 m1 => ?_
    have rel1 := val_stms h3 hw henv (hρ.congr henv a1) m1 hF1 hr1
    refine Continues.trans w1 r4.wf r4.ext (ih4 I ν1 ρ1 k vs w1 v1 rel1 m1 hF2 hvs) fun ν2 a2 m2 => ?_
    have rel2 := rel1.congr v1 a2
    have := val_ex h4 w1 v1 rel2 m2 hF2 hvs
    subst this
    exact ih5 I ν2 _ k ρ' r4.wf v4 (put_rel rel2) m2 hF hv
  | stmsNil => exact fun I ν ρ k v hw henv hρ hm hF hv => Continues.refl hm
  | @stmsCons top env st sts s env1 s1 env2 s2 h1 h2 ih1 ih2 =>
    intro I ν ρ k ρ' hw henv hρ hm hF hv
    simp only [runList] at hv
    obtain ⟨ρ1, hr1, hv⟩ := ok_bind hv
    obtain ⟨e1, w1, v1⟩ := sym_wf h1 I hw henv
    obtain ⟨e2, w2, v2⟩ := sym_wf h2 I w1 v1
    have hF1 := hF.of_ext w1 e2
    refine (ih1 I ν ρ k ρ1 hw henv hρ hm hF1 hr1).trans hw w1 e1 fun ν1 a1 m1 => ?_
    have rel1 := val_stm h1 hw henv (hρ.congr henv a1) m1 hF1 hr1
    exact ih2 I ν1 ρ1 k ρ' w1 v1 rel1 m1 hF hv
  | fnEnd _ ih => exact ih
  | @fnStep top env st sts ret s env1 s1 f s' hst h1 h2 ih1 ih2 =>
    intro I ν ρ k v hw henv hρ hm hF hv
    rw [finish_step hst] at hv
    obtain ⟨ρ1, hr1, hv⟩ := ok_bind hv
    obtain ⟨e1, w1, v1⟩ := sym_wf h1 I hw henv
    have r2 := sym_wf h2 I w1 v1
    have hF1 := hF.of_ext w1 r2.ext
    refine (ih1 I ν ρ k ρ1 hw henv hρ hm hF1 hr1).trans hw w1 e1 fun ν1 a1 m1 => ?_
    have rel1 := val_stm h1 hw henv (hρ.congr henv a1) m1 hF1 hr1
    exact ih2 I ν1 ρ1 k v w1 v1 rel1 m1 hF hv
  | @fnSkip top env l cmp r body e sts ret s a b f s' h1 h2 ha hb hc h3 ih1 ih2 ih3 =>
    intro I ν ρ k v hw henv hρ hm hF hv
    rw [finish_exit] at hv
    obtain ⟨va, hva, hv⟩ := ok_bind hv
    obtain ⟨vb, hvb, hv⟩ := ok_bind hv
    have ea := (static_out (sym_sound gx h1) ha henv hρ).det (fun _ _ hn => LangSpec.eval_le gx P hn ρ l) hva
    have eb := (static_out (sym_sound gx h2) hb henv hρ).det (fun _ _ hn => LangSpec.eval_le gx P hn ρ r) hvb
    simp only [ea.2, eb.2, hc, bind, Except.bind, Bool.false_eq_true, if_false] at hv
    exact ih3 I ν ρ k v hw henv hρ hm hF hv
  | @fnQuit top env l cmp r body e sts ret s a b env1 s1 f s' h1 h2 ha hb hc h3 h4 ih1 ih2 ih3 ih4 =>
    intro I ν ρ k v hw henv hρ hm hF hv
    rw [finish_exit] at hv
    obtain ⟨va, hva, hv⟩ := ok_bind hv
    obtain ⟨vb, hvb, hv⟩ := ok_bind hv
    have ea := (static_out (sym_sound gx h1) ha henv hρ).det (fun _ _ hn => LangSpec.eval_le gx P hn ρ l) hva
    have eb := (static_out (sym_sound gx h2) hb henv hρ).det (fun _ _ hn => LangSpec.eval_le gx P hn ρ r) hvb
    simp only [ea.2, eb.2, hc, bind, Except.bind, if_true] at hv
    obtain ⟨ρ1, hr1, hv⟩ := ok_bind hv
    obtain ⟨e1, w1, v1⟩ := sym_wf h3 I hw henv
    have r2 := sym_wf h4 I w1 v1
    have hF1 := hF.of_ext w1 r2.ext
    refine (ih3 I ν ρ k ρ1 hw henv hρ hm hF1 hr1).trans hw w1 e1 fun ν1 a1 m1 => ?_
    have rel1 := val_stms h3 hw henv (hρ.congr henv a1) m1 hF1 hr1
    exact ih4 I ν1 ρ1 k v w1 v1 rel1 m1 hF hv

end

end APS.Sym
