import Verif.Proofs.Compile

/-! Correctness of `compile` / `Execute` on straight-line programs: soundness and completeness of the emitted gates. -/
namespace APS.Circuit
open APS.Spec

variable {q : Nat}

/-- stored variables are well-formed and mention known names -/
def EnvOK (I : List Name) (q : Nat) (env : Env) (s : St) : Prop :=
  ∀ n f, env.lookup n = some f → GoodF q f ∧ KnownF (I ++ s.c.computed) f

theorem known_mono {I : List Name} {s s' : St} (he : Ext s s') (hw : WF I s) (hw' : WF I s') :
    I ++ s.c.computed ⊆ I ++ s'.c.computed := by
  intro n hn
  rcases List.mem_append.mp hn with h | h
  · exact List.mem_append_left _ h
  · exact List.mem_append_right _ (hw.computed_mono hw' he h)

theorem EnvOK.mono {I : List Name} {env : Env} {s s' : St} (h : EnvOK I q env s) (hw : WF I s) (hw' : WF I s')
    (he : Ext s s') : EnvOK I q env s' := fun n f hf =>
  ⟨(h n f hf).1, (h n f hf).2.mono (known_mono he hw hw')⟩

/-- decomposition of a binary operator -/
theorem bind2 {H : Name → Nat} {env : Env} {a b : Expr} {s : St} {α : Type}
    {k : Factors → Factors → St → Option α} {x : α}
    (h : (do
      let (l, s) ← compile H q env a s
      let (r, s) ← compile H q env b s
      k l r s) = some x) :
    ∃ l s1 r s2, compile H q env a s = some (l, s1) ∧ compile H q env b s1 = some (r, s2) ∧ k l r s2 = some x := by
  cases ha : compile H q env a s with
  | none => simp [ha] at h
  | some p =>
    obtain ⟨l, s1⟩ := p
    cases hb : compile H q env b s1 with
    | none => simp [ha, hb] at h
    | some p =>
      obtain ⟨r, s2⟩ := p
      simp [ha, hb] at h
      exact ⟨l, s1, r, s2, rfl, hb, h⟩

theorem addRes {I : List Name} {s s' : St} {l r : Factors} (he : Ext s s') (hw : WF I s') (hl : GoodF q l)
    (hr : GoodF q r) (kl : KnownF (I ++ s'.c.computed) l) (kr : KnownF (I ++ s'.c.computed) r) :
    Res I q s (addFactors q l r) s' :=
  ⟨he, hw, addFactors_good hl.text hr.text hl.nodup hr.nodup, fun n hn => by
    rcases addFactors_keys l r _ hn with h | h | h
    · cases h
    · exact kl n h
    · exact kr n h⟩

theorem compile_wf [Fact q.Prime] {H : Name → Nat} {I : List Name} {env : Env} (e : Expr) : ∀ {s s' : St} {f : Factors},
    ExprOK e → WF I s → EnvOK I q env s → compile H q env e s = some (f, s') → Res I q s f s' := by
  induction e with
  | num t =>
    intro s s' f _ hw _ h
    simp only [compile] at h
    cases hc : compileNum q t with
    | none => simp [hc] at h
    | some x =>
      simp [hc] at h
      obtain ⟨rfl, rfl⟩ := h
      obtain ⟨h1, h2, -⟩ := compileNum_spec (q := q) (fun _ => 0) hc
      exact ⟨Ext.refl _, hw, h1, fun n hn => by cases h2 _ hn⟩
  | var n =>
    intro s s' f _ hw henv h
    simp only [compile] at h
    cases hl : env.lookup n with
    | none => simp [hl] at h
    | some x =>
      simp only [hl] at h
      cases hr : readVar q x with
      | none => simp [hr] at h
      | some y =>
        simp [hr] at h
        obtain ⟨rfl, rfl⟩ := h
        obtain ⟨h1, h2, -⟩ := readVar_spec (fun _ => 0) (henv n x hl).1 hr
        refine ⟨Ext.refl _, hw, h1, fun m hm => ?_⟩
        rcases h2 _ hm with h | h
        · cases h
        · exact (henv n x hl).2 m h
  | add a b iha ihb =>
    intro s s' f hok hw henv h
    obtain ⟨l, s1, r, s2, ha, hb, hk⟩ := bind2 (k := fun l r s => pure (addFactors q l r, s)) h
    simp at hk
    obtain ⟨rfl, rfl⟩ := hk
    have r1 := iha hok.1 hw henv ha
    have r2 := ihb hok.2 r1.wf (henv.mono hw r1.wf r1.ext) hb
    exact addRes (r1.ext.trans r2.ext) r2.wf r1.good r2.good (r1.known.mono (known_mono r2.ext r1.wf r2.wf)) r2.known
  | sub a b iha ihb =>
    intro s s' f hok hw henv h
    obtain ⟨l, s1, r, s2, ha, hb, hk⟩ := bind2 (k := fun l r s => pure (addFactors q l (negateFactors r), s)) h
    simp at hk
    obtain ⟨rfl, rfl⟩ := hk
    have r1 := iha hok.1 hw henv ha
    have r2 := ihb hok.2 r1.wf (henv.mono hw r1.wf r1.ext) hb
    exact addRes (r1.ext.trans r2.ext) r2.wf r1.good (negateFactors_good r2.good)
      (r1.known.mono (known_mono r2.ext r1.wf r2.wf)) (fun n hn => r2.known n (by rwa [negateFactors_keys] at hn))
  | mul a b iha ihb =>
    intro s s' f hok hw henv h
    obtain ⟨l, s1, r, s2, ha, hb, hk⟩ := bind2 (k := fun l r s => mulGate H q l r s) h
    have r1 := iha hok.1 hw henv ha
    have r2 := ihb hok.2 r1.wf (henv.mono hw r1.wf r1.ext) hb
    have r3 := mulGate_wf r2.wf r1.good r2.good (r1.known.mono (known_mono r2.ext r1.wf r2.wf)) r2.known hk
    exact ⟨(r1.ext.trans r2.ext).trans r3.ext, r3.wf, r3.good, r3.known⟩
  | div a b iha ihb =>
    intro s s' f hok hw henv h
    obtain ⟨l, s1, r, s2, ha, hb, hk⟩ := bind2 (k := fun l r s => divGate H q l r s) h
    have r1 := iha hok.1 hw henv ha
    have r2 := ihb hok.2 r1.wf (henv.mono hw r1.wf r1.ext) hb
    have r3 := divGate_wf r2.wf r1.good r2.good (r1.known.mono (known_mono r2.ext r1.wf r2.wf)) r2.known hk
    exact ⟨(r1.ext.trans r2.ext).trans r3.ext, r3.wf, r3.good, r3.known⟩
  | baseMul a iha =>
    intro s s' f hok hw henv h
    simp only [compile] at h
    cases ha : compile H q env a s with
    | none => simp [ha] at h
    | some p =>
      obtain ⟨l, s1⟩ := p
      simp [ha] at h
      have r1 := iha hok hw henv ha
      have r3 := baseGate_wf r1.wf r1.good r1.known h
      exact ⟨r1.ext.trans r3.ext, r3.wf, r3.good, r3.known⟩
  | addGate a b _ _ => intro s s' f hok; exact absurd hok (by simp [ExprOK])

/-- the store of values agrees with the stored forms -/
def StoreRel (ν : Name → ZMod q) (env : Env) (ρ : Store q) : Prop :=
  ∀ n f, env.lookup n = some f → ρ n = some (formVal ν f)

theorem StoreRel.congr {I : List Name} {ν ν' : Name → ZMod q} {env : Env} {ρ : Store q} {s : St} (h : StoreRel ν env ρ)
    (henv : EnvOK I q env s) (ha : ∀ n ∈ I ++ s.c.computed, ν' n = ν n) : StoreRel ν' env ρ := by
  intro n f hf
  rw [h n f hf, formVal_congr (ν := ν) (ν' := ν') fun m hm => (ha m ((henv n f hf).2 m hm)).symm]

theorem compile_sound [Fact q.Prime] {H : Name → Nat} {I : List Name} {env : Env} {gx : ZMod q → ZMod q}
    {ν : Name → ZMod q} {ρ : Store q} {sf : St} (hn : NoConfusion sf) (hh : ∀ g ∈ sf.c.gates, GateHolds gx ν g)
    (hρ : StoreRel ν env ρ) (e : Expr) : ∀ {s s' : St} {f : Factors},
    ExprOK e → WF I s → EnvOK I q env s → compile H q env e s = some (f, s') → Ext s' sf →
    evalExpr gx ρ e = .ok (formVal ν f) ∨ evalExpr gx ρ e = .error .divByZero := by
  induction e with
  | num t =>
    intro s s' f hok hw _ h _
    simp only [compile] at h
    cases hc : compileNum q t with
    | none => simp [hc] at h
    | some x =>
      simp [hc] at h
      obtain ⟨rfl, rfl⟩ := h
      obtain ⟨-, -, -, v, h3, h4⟩ := compileNum_spec ν hc
      rw [parseInt_digits t hok.1 hok.2] at h3
      cases h3
      left
      simp [evalExpr, h4]
  | var n =>
    intro s s' f _ hw henv h _
    simp only [compile] at h
    cases hl : env.lookup n with
    | none => simp [hl] at h
    | some x =>
      simp only [hl] at h
      cases hr : readVar q x with
      | none => simp [hr] at h
      | some y =>
        simp [hr] at h
        obtain ⟨rfl, rfl⟩ := h
        obtain ⟨-, -, h3⟩ := readVar_spec ν (henv n x hl).1 hr
        left
        simp [evalExpr, hρ n x hl, h3]
  | add a b iha ihb =>
    intro s s' f hok hw henv h he
    obtain ⟨l, s1, r, s2, ha, hb, hk⟩ := bind2 (k := fun l r s => pure (addFactors q l r, s)) h
    simp at hk
    obtain ⟨rfl, rfl⟩ := hk
    have r1 := compile_wf a hok.1 hw henv ha
    have r2 := compile_wf b hok.2 r1.wf (henv.mono hw r1.wf r1.ext) hb
    have ia := iha hok.1 hw henv ha (r2.ext.trans he)
    have ib := ihb hok.2 r1.wf (henv.mono hw r1.wf r1.ext) hb he
    simp only [evalExpr]
    rcases ia with ia | ia <;> rcases ib with ib | ib <;>
      simp [ia, ib, bind, Except.bind, pure, Except.pure, addFactors_val]
  | sub a b iha ihb =>
    intro s s' f hok hw henv h he
    obtain ⟨l, s1, r, s2, ha, hb, hk⟩ := bind2 (k := fun l r s => pure (addFactors q l (negateFactors r), s)) h
    simp at hk
    obtain ⟨rfl, rfl⟩ := hk
    have r1 := compile_wf a hok.1 hw henv ha
    have r2 := compile_wf b hok.2 r1.wf (henv.mono hw r1.wf r1.ext) hb
    have ia := iha hok.1 hw henv ha (r2.ext.trans he)
    have ib := ihb hok.2 r1.wf (henv.mono hw r1.wf r1.ext) hb he
    simp only [evalExpr]
    rcases ia with ia | ia <;> rcases ib with ib | ib <;>
      simp [ia, ib, bind, Except.bind, pure, Except.pure, addFactors_val, negateFactors_val, sub_eq_add_neg]
  | mul a b iha ihb =>
    intro s s' f hok hw henv h he
    obtain ⟨l, s1, r, s2, ha, hb, hk⟩ := bind2 (k := fun l r s => mulGate H q l r s) h
    have r1 := compile_wf a hok.1 hw henv ha
    have r2 := compile_wf b hok.2 r1.wf (henv.mono hw r1.wf r1.ext) hb
    have r3 := mulGate_wf r2.wf r1.good r2.good (r1.known.mono (known_mono r2.ext r1.wf r2.wf)) r2.known hk
    have ia := iha hok.1 hw henv ha ((r2.ext.trans r3.ext).trans he)
    have ib := ihb hok.2 r1.wf (henv.mono hw r1.wf r1.ext) hb (r3.ext.trans he)
    have hv := mulGate_sound r1.good r2.good hk he hn hh
    simp only [evalExpr]
    rcases ia with ia | ia <;> rcases ib with ib | ib <;>
      simp [ia, ib, bind, Except.bind, pure, Except.pure, hv]
  | div a b iha ihb =>
    intro s s' f hok hw henv h he
    obtain ⟨l, s1, r, s2, ha, hb, hk⟩ := bind2 (k := fun l r s => divGate H q l r s) h
    have r1 := compile_wf a hok.1 hw henv ha
    have r2 := compile_wf b hok.2 r1.wf (henv.mono hw r1.wf r1.ext) hb
    have r3 := divGate_wf r2.wf r1.good r2.good (r1.known.mono (known_mono r2.ext r1.wf r2.wf)) r2.known hk
    have ia := iha hok.1 hw henv ha ((r2.ext.trans r3.ext).trans he)
    have ib := ihb hok.2 r1.wf (henv.mono hw r1.wf r1.ext) hb (r3.ext.trans he)
    simp only [evalExpr]
    rcases ia with ia | ia <;> rcases ib with ib | ib <;>
      simp only [ia, ib, bind, Except.bind]
    · by_cases h0 : formVal ν r = 0
      · right; rw [if_pos h0]
      · left; rw [if_neg h0, divGate_sound r1.good hk he hn hh h0]
    · right; trivial
    · right; trivial
    · right; trivial
  | baseMul a iha =>
    intro s s' f hok hw henv h he
    simp only [compile] at h
    cases ha : compile H q env a s with
    | none => simp [ha] at h
    | some p =>
      obtain ⟨l, s1⟩ := p
      simp [ha] at h
      have r1 := compile_wf a hok hw henv ha
      have r3 := baseGate_wf r1.wf r1.good r1.known h
      have ia := iha hok hw henv ha (r3.ext.trans he)
      have hv := baseGate_sound h he hn hh
      simp only [evalExpr]
      rcases ia with ia | ia <;> simp [ia, bind, Except.bind, pure, Except.pure, hv]
  | addGate a b _ _ => intro s s' f hok; exact absurd hok (by simp [ExprOK])

/-- facts about the final container that are inherited by every earlier state -/
structure Final (I : List Name) (sf : St) : Prop where
  wf : WF I sf
  noConf : NoConfusion sf
  noConst : NoConstSplit sf
  disj : ∀ n ∈ I, n ∉ sf.c.computed

theorem Final.of_ext {I : List Name} {s sf : St} (h : Final I sf) (hw : WF I s) (he : Ext s sf) : Final I s :=
  ⟨hw, NoConfusion.of_ext h.noConf hw h.wf he, fun g hg => h.noConst g (he.gates.subset hg),
    fun n hn hc => h.disj n hn (hw.computed_mono h.wf he hc)⟩

/-- agreement on the known names -/
def Agree (I : List Name) (s : St) (ν ν' : Name → ZMod q) : Prop := ∀ n ∈ I ++ s.c.computed, ν' n = ν n

theorem Agree.trans {I : List Name} {s s' : St} {ν ν' ν'' : Name → ZMod q} (h : Agree I s ν ν') (h' : Agree I s' ν' ν'')
    (hs : I ++ s.c.computed ⊆ I ++ s'.c.computed) : Agree I s ν ν'' :=
  fun n hn => (h' n (hs hn)).trans (h n hn)

theorem ok_bind2 {α β : Type} {x y : Except Err α} {k : α → α → Except Err β} {v : β}
    (h : (do let a ← x; let b ← y; k a b) = .ok v) : ∃ a b, x = .ok a ∧ y = .ok b ∧ k a b = .ok v := by
  cases x with
  | error e => simp [bind, Except.bind] at h
  | ok a =>
    cases y with
    | error e => simp [bind, Except.bind] at h
    | ok b => exact ⟨a, b, rfl, rfl, by simpa [bind, Except.bind] using h⟩

theorem compile_complete [Fact q.Prime] {H : Name → Nat} {I : List Name} {env : Env} {gx : ZMod q → ZMod q}
    {ρ : Store q} (e : Expr) : ∀ {s s' : St} {f : Factors} {ν : Name → ZMod q} {v : ZMod q},
    ExprOK e → WF I s → EnvOK I q env s → compile H q env e s = some (f, s') → Final I s' →
    StoreRel ν env ρ → Models gx ν s → evalExpr gx ρ e = .ok v →
    ∃ ν', Agree I s ν ν' ∧ Models gx ν' s' ∧ formVal ν' f = v := by
  -- the value follows from soundness
  suffices main : ∀ {s s' : St} {f : Factors} {ν : Name → ZMod q} {v : ZMod q},
      ExprOK e → WF I s → EnvOK I q env s → compile H q env e s = some (f, s') → Final I s' →
      StoreRel ν env ρ → Models gx ν s → evalExpr gx ρ e = .ok v → ∃ ν', Agree I s ν ν' ∧ Models gx ν' s' by
    intro s s' f ν v hok hw henv h hf hρ hm hv
    obtain ⟨ν', h1, h2⟩ := main hok hw henv h hf hρ hm hv
    refine ⟨ν', h1, h2, ?_⟩
    have := compile_sound hf.noConf h2.holds (hρ.congr henv h1) e hok hw henv h (Ext.refl _)
    rw [hv] at this
    rcases this with h | h
    · cases h; rfl
    · cases h
  -- two operands
  have two : ∀ {a b : Expr} {s s1 s2 : St} {l r : Factors} {ν : Name → ZMod q} {va vb : ZMod q},
      (∀ {s s' : St} {f : Factors} {ν : Name → ZMod q} {v : ZMod q},
        ExprOK a → WF I s → EnvOK I q env s → compile H q env a s = some (f, s') → Final I s' →
        StoreRel ν env ρ → Models gx ν s → evalExpr gx ρ a = .ok v → ∃ ν', Agree I s ν ν' ∧ Models gx ν' s') →
      (∀ {s s' : St} {f : Factors} {ν : Name → ZMod q} {v : ZMod q},
        ExprOK b → WF I s → EnvOK I q env s → compile H q env b s = some (f, s') → Final I s' →
        StoreRel ν env ρ → Models gx ν s → evalExpr gx ρ b = .ok v → ∃ ν', Agree I s ν ν' ∧ Models gx ν' s') →
      ExprOK a → ExprOK b → WF I s → EnvOK I q env s → compile H q env a s = some (l, s1) →
      compile H q env b s1 = some (r, s2) → Final I s2 → StoreRel ν env ρ → Models gx ν s →
      evalExpr gx ρ a = .ok va → evalExpr gx ρ b = .ok vb →
      Res I q s l s1 ∧ Res I q s1 r s2 ∧ ∃ ν', Agree I s ν ν' ∧ Models gx ν' s2 ∧ formVal ν' r = vb := by
    intro a b s s1 s2 l r ν va vb iha ihb oka okb hw henv ha hb hf hρ hm hva hvb
    have r1 := compile_wf a oka hw henv ha
    have henv1 := henv.mono hw r1.wf r1.ext
    have r2 := compile_wf b okb r1.wf henv1 hb
    obtain ⟨ν1, a1, m1⟩ := iha oka hw henv ha (hf.of_ext r1.wf r2.ext) hρ hm hva
    have hρ1 := hρ.congr henv a1
    obtain ⟨ν2, a2, m2⟩ := ihb okb r1.wf henv1 hb hf hρ1 m1 hvb
    refine ⟨r1, r2, ν2, a1.trans a2 (known_mono r1.ext hw r1.wf), m2, ?_⟩
    have := compile_sound hf.noConf m2.holds (hρ1.congr henv1 a2) b okb r1.wf henv1 hb (Ext.refl _)
    rw [hvb] at this
    rcases this with h | h
    · cases h; rfl
    · cases h
  induction e with
  | num t =>
    intro s s' f ν v hok hw _ h _ _ hm _
    simp only [compile] at h
    cases hc : compileNum q t with
    | none => simp [hc] at h
    | some x =>
      simp [hc] at h
      obtain ⟨rfl, rfl⟩ := h
      exact ⟨ν, fun _ _ => rfl, hm⟩
  | var n =>
    intro s s' f ν v _ hw henv h _ _ hm _
    simp only [compile] at h
    cases hl : env.lookup n with
    | none => simp [hl] at h
    | some x =>
      simp only [hl] at h
      cases hr : readVar q x with
      | none => simp [hr] at h
      | some y =>
        simp [hr] at h
        obtain ⟨rfl, rfl⟩ := h
        exact ⟨ν, fun _ _ => rfl, hm⟩
  | add a b iha ihb =>
    intro s s' f ν v hok hw henv h hf hρ hm hv
    obtain ⟨l, s1, r, s2, ha, hb, hk⟩ := bind2 (k := fun l r s => pure (addFactors q l r, s)) h
    simp at hk
    obtain ⟨rfl, rfl⟩ := hk
    obtain ⟨va, vb, hva, hvb, -⟩ := ok_bind2 hv
    obtain ⟨-, -, ν', h1, h2, -⟩ := two iha ihb hok.1 hok.2 hw henv ha hb hf hρ hm hva hvb
    exact ⟨ν', h1, h2⟩
  | sub a b iha ihb =>
    intro s s' f ν v hok hw henv h hf hρ hm hv
    obtain ⟨l, s1, r, s2, ha, hb, hk⟩ := bind2 (k := fun l r s => pure (addFactors q l (negateFactors r), s)) h
    simp at hk
    obtain ⟨rfl, rfl⟩ := hk
    obtain ⟨va, vb, hva, hvb, -⟩ := ok_bind2 hv
    obtain ⟨-, -, ν', h1, h2, -⟩ := two iha ihb hok.1 hok.2 hw henv ha hb hf hρ hm hva hvb
    exact ⟨ν', h1, h2⟩
  | mul a b iha ihb =>
    intro s s' f ν v hok hw henv h hf hρ hm hv
    obtain ⟨l, s1, r, s2, ha, hb, hk⟩ := bind2 (k := fun l r s => mulGate H q l r s) h
    obtain ⟨va, vb, hva, hvb, -⟩ := ok_bind2 hv
    have r1 := compile_wf a hok.1 hw henv ha
    have r2 := compile_wf b hok.2 r1.wf (henv.mono hw r1.wf r1.ext) hb
    have kl := r1.known.mono (known_mono r2.ext r1.wf r2.wf)
    have r3 := mulGate_wf r2.wf r1.good r2.good kl r2.known hk
    obtain ⟨-, -, ν2, h1, h2, -⟩ := two iha ihb hok.1 hok.2 hw henv ha hb (hf.of_ext r2.wf r3.ext) hρ hm hva hvb
    obtain ⟨ν3, h3, h4⟩ := mulGate_complete r2.wf kl r2.known hk h2 hf.disj hf.noConst
    exact ⟨ν3, h1.trans h3 (known_mono (r1.ext.trans r2.ext) hw r2.wf), h4⟩
  | div a b iha ihb =>
    intro s s' f ν v hok hw henv h hf hρ hm hv
    obtain ⟨l, s1, r, s2, ha, hb, hk⟩ := bind2 (k := fun l r s => divGate H q l r s) h
    obtain ⟨va, vb, hva, hvb, hne⟩ := ok_bind2 hv
    have hvb0 : vb ≠ 0 := by intro h0; rw [if_pos h0] at hne; cases hne
    have r1 := compile_wf a hok.1 hw henv ha
    have r2 := compile_wf b hok.2 r1.wf (henv.mono hw r1.wf r1.ext) hb
    have kl := r1.known.mono (known_mono r2.ext r1.wf r2.wf)
    have r3 := divGate_wf r2.wf r1.good r2.good kl r2.known hk
    obtain ⟨-, -, ν2, h1, h2, hr⟩ := two iha ihb hok.1 hok.2 hw henv ha hb (hf.of_ext r2.wf r3.ext) hρ hm hva hvb
    obtain ⟨ν3, h3, h4⟩ := divGate_complete r2.wf kl r2.known hk h2 hf.disj hf.noConst (by rw [hr]; exact hvb0)
    exact ⟨ν3, h1.trans h3 (known_mono (r1.ext.trans r2.ext) hw r2.wf), h4⟩
  | baseMul a iha =>
    intro s s' f ν v hok hw henv h hf hρ hm hv
    simp only [compile] at h
    cases ha : compile H q env a s with
    | none => simp [ha] at h
    | some p =>
      obtain ⟨l, s1⟩ := p
      simp [ha] at h
      have hva : ∃ va, evalExpr gx ρ a = .ok va := by
        simp only [evalExpr] at hv
        cases hx : evalExpr gx ρ a with
        | error e => simp [hx, bind, Except.bind] at hv
        | ok va => exact ⟨va, rfl⟩
      obtain ⟨va, hva⟩ := hva
      have r1 := compile_wf a hok hw henv ha
      have r3 := baseGate_wf r1.wf r1.good r1.known h
      obtain ⟨ν1, h1, h2⟩ := iha hok hw henv ha (hf.of_ext r1.wf r3.ext) hρ hm hva
      obtain ⟨ν3, h3, h4⟩ := baseGate_complete r1.wf r1.known h h2 hf.disj hf.noConst
      exact ⟨ν3, h1.trans h3 (known_mono r1.ext hw r1.wf), h4⟩
  | addGate a b _ _ => intro s s' f ν v hok; exact absurd hok (by simp [ExprOK])

end APS.Circuit
