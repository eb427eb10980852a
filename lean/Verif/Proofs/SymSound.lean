import Verif.Proofs.Sym

/-! Soundness of `Sym`: when the gates hold, the interpreter finds the values of the linear forms. -/
namespace APS.Sym
open APS.ParseSpec (Ex indexText)
open APS.LangSpec (Stm Fun Store Err arithOp compareOp get put start find kwBase kwEqual kwSplit evalList runList element
  declareFrom eval run Le finish finish_step finish_exit)
open APS.Circuit
open APS.Spec (IsLit NoConfusion NoConstSplit GateHolds formVal)

variable {q : Nat}

/-- for all large fuels -/
def Evt (p : Nat → Prop) : Prop := ∃ n, ∀ k, n ≤ k → p k

theorem Evt.and {p r : Nat → Prop} (h : Evt p) (h' : Evt r) : Evt fun k => p k ∧ r k := by
  obtain ⟨n, h⟩ := h
  obtain ⟨m, h'⟩ := h'
  exact ⟨max n m, fun k hk => ⟨h k (le_trans (le_max_left _ _) hk), h' k (le_trans (le_max_right _ _) hk)⟩⟩

theorem Evt.mono {p r : Nat → Prop} (h : Evt p) (hi : ∀ k, p k → r k) : Evt r := by
  obtain ⟨n, h⟩ := h
  exact ⟨n, fun k hk => hi k (h k hk)⟩

theorem Evt.succ {p : Nat → Prop} (h : Evt fun k => p (k + 1)) : Evt p := by
  obtain ⟨n, h⟩ := h
  refine ⟨n + 1, fun k hk => ?_⟩
  obtain ⟨j, rfl⟩ : ∃ j, k = j + 1 := ⟨k - 1, by omega⟩
  exact h j (by omega)

/-- with enough fuel the result satisfies `Q`, or a division by zero is found -/
def Out {α} (ev : Nat → Except Err α) (Q : α → Prop) : Prop :=
  (∃ v, Q v ∧ Evt fun k => ev k = .ok v) ∨ Evt fun k => ev k = .error .divByZero

theorem Out.pure {α} {v : α} {Q : α → Prop} (h : Q v) : Out (fun _ => (.ok v : Except Err α)) Q :=
  Or.inl ⟨v, h, 0, fun _ _ => rfl⟩

theorem Out.mono {α} {ev : Nat → Except Err α} {Q R : α → Prop} (h : Out ev Q) (hi : ∀ v, Q v → R v) : Out ev R := by
  rcases h with ⟨v, h1, h2⟩ | h
  · exact Or.inl ⟨v, hi v h1, h2⟩
  · exact Or.inr h

theorem Out.bind {α β} {ev : Nat → Except Err α} {Q : α → Prop} {f : Nat → α → Except Err β} {R : β → Prop}
    (h : Out ev Q) (hf : ∀ v, Q v → Out (fun k => f k v) R) : Out (fun k => ev k >>= f k) R := by
  rcases h with ⟨v, h1, h2⟩ | h
  · rcases hf v h1 with ⟨w, h3, h4⟩ | h4
    · exact Or.inl ⟨w, h3, (h2.and h4).mono fun k hk => by simp only [hk.1]; exact hk.2⟩
    · exact Or.inr ((h2.and h4).mono fun k hk => by simp only [hk.1]; exact hk.2)
  · exact Or.inr (h.mono fun k hk => by simp only [hk]; rfl)

theorem Out.step {α} {ev g : Nat → Except Err α} {Q : α → Prop} (h : Out ev Q) (hg : ∀ k, g (k + 1) = ev k) : Out g Q := by
  rcases h with ⟨v, h1, h2⟩ | h
  · exact Or.inl ⟨v, h1, Evt.succ (h2.mono fun k hk => by rw [hg, hk])⟩
  · exact Or.inr (Evt.succ (h.mono fun k hk => by rw [hg, hk]))

theorem Out.det {α} {ev : Nat → Except Err α} {Q : α → Prop} (h : Out ev Q) (hm : ∀ n k, n ≤ k → Le (ev n) (ev k))
    {n : Nat} {v : α} (hv : ev n = .ok v) : Q v := by
  have key : ∀ {r : Except Err α}, (Evt fun k => ev k = r) → r = .ok v := by
    intro r ⟨m, hr⟩
    have h1 := (hm n (max n m) (le_max_left _ _)).eq (by rw [hv]; simp)
    rw [hr _ (le_max_right _ _), hv] at h1
    exact h1
  rcases h with ⟨w, h1, h2⟩ | h
  · have := key h2; cases this; exact h1
  · have := key h; cases this

/-- the value of a static number -/
theorem static_val [Fact q.Prime] {x : Factor} (h : Static q x) (ν : Name → ZMod q) :
    (formVal ν [x]).val = x.mul.toNat ∧ ((formVal ν [x]).val : Int) = x.mul := by
  have hv : formVal ν [x] = ((x.mul.toNat : Nat) : ZMod q) := by
    have : formVal ν [x] = ((x.mul : Int) : ZMod q) := by simp [formVal, Spec.factorVal, h.num]
    rw [this, ← Int.cast_natCast, Int.toNat_of_nonneg h.pos]
  have h1 : (formVal ν [x]).val = x.mul.toNat := by
    rw [hv, ZMod.val_natCast, Nat.mod_eq_of_lt]
    have := h.lt; have := h.pos; omega
  exact ⟨h1, by rw [h1]; exact Int.toNat_of_nonneg h.pos⟩

theorem put_rel {ν : Name → ZMod q} {env : Env} {ρ : Store q} {x : Name} {f : Factors} (h : StoreRel ν env ρ) :
    StoreRel ν ((x, f) :: env) (put ρ x (formVal ν f)) := by
  intro n f' hn
  rw [List.lookup_cons] at hn
  unfold put
  split at hn
  · rename_i hx
    cases hn
    rw [beq_iff_eq] at hx
    rw [if_pos hx]
  · rename_i hx
    rw [if_neg (by rintro rfl; simp at hx)]
    exact h n f' hn

theorem start_rel {ν : Name → ZMod q} (xs : List Name) (fs : List Factors) :
    StoreRel ν (xs.zip fs) (start xs (fs.map (formVal ν))) := by
  intro n f hn
  unfold start
  induction xs generalizing fs with
  | nil => simp at hn
  | cons x xs ih =>
    cases fs with
    | nil => simp at hn
    | cons g fs =>
      simp only [List.zip_cons_cons, List.map_cons, List.lookup_cons] at hn ⊢
      split at hn
      · cases hn; rfl
      · exact ih fs hn

theorem evalList_length {α} {ev : α → Except Err (ZMod q)} (es : List α) : ∀ vs, evalList ev es = .ok vs → vs.length = es.length := by
  induction es with
  | nil => intro vs h; cases h; rfl
  | cons e es ih =>
    intro vs h
    simp only [evalList, bind, Except.bind] at h
    cases h1 : ev e with
    | error x => simp [h1] at h
    | ok v =>
      cases h2 : evalList ev es with
      | error x => simp [h1, h2] at h
      | ok ws => simp [h1, h2] at h; subst h; simp [ih ws h2]

/-- the context of soundness -/
structure Ctx (gx : ZMod q → ZMod q) (ν : Name → ZMod q) (sf : St) : Prop where
  conf : NoConfusion sf
  holds : ∀ g ∈ sf.c.gates, GateHolds gx ν g

theorem ctx_empty (gx : ZMod q → ZMod q) (ν : Name → ZMod q) : Ctx gx ν {} :=
  ⟨by intro g hg; simp at hg, by simp⟩

/-- soundness of what is derived -/
def JS [Fact q.Prime] (gx : ZMod q → ZMod q) (P : List Fun) : Judg → Prop
  | .ex env e s f s' => ∀ I sf ν ρ, WF I s → EnvOK I q env s → StoreRel ν env ρ → Ctx gx ν sf → Ext s' sf →
      Out (fun k => eval gx P k ρ e) (· = formVal ν f)
  | .exs env es s fs s' => ∀ I sf ν ρ, WF I s → EnvOK I q env s → StoreRel ν env ρ → Ctx gx ν sf → Ext s' sf →
      Out (fun k => evalList (eval gx P k ρ) es) (· = fs.map (formVal ν))
  | .idx env is ks => ∀ I s ν ρ, EnvOK I q env s → StoreRel ν env ρ →
      Out (fun k => evalList (eval gx P k ρ) is) (·.map ZMod.val = ks)
  | .decls _ env a i es s env' s' => ∀ I sf ν ρ, WF I s → EnvOK I q env s → StoreRel ν env ρ → Ctx gx ν sf → Ext s' sf →
      Out (fun k => declareFrom (eval gx P k) a i es ρ) (StoreRel ν env')
  | .stm _ env st s env' s' => ∀ I sf ν ρ, WF I s → EnvOK I q env s → StoreRel ν env ρ → Ctx gx ν sf → Ext s' sf →
      Out (fun k => run gx P k ρ st) (StoreRel ν env')
  | .stms _ env sts s env' s' => ∀ I sf ν ρ, WF I s → EnvOK I q env s → StoreRel ν env ρ → Ctx gx ν sf → Ext s' sf →
      Out (fun k => runList (run gx P k) ρ sts) (StoreRel ν env')
  | .fn _ env sts ret s f s' => ∀ I sf ν ρ, WF I s → EnvOK I q env s → StoreRel ν env ρ → Ctx gx ν sf → Ext s' sf →
      Out (fun k => finish (eval gx P k) (run gx P k) ret ρ sts) (· = formVal ν f)

theorem arithGate_sound [Fact q.Prime] {H : Name → Nat} {op : Name} {l r f : Factors} {s s' sf : St} {gx : ZMod q → ZMod q}
    {ν : Name → ZMod q} (hl : GoodF q l) (hr : GoodF q r) (h : arithGate H q op l r s = some (f, s')) (he : Ext s' sf)
    (hc : Ctx gx ν sf) : arithOp op (formVal ν l) (formVal ν r) = .ok (formVal ν f) ∨
      arithOp op (formVal ν l) (formVal ν r) = .error .divByZero := by
  unfold arithGate at h
  unfold arithOp
  split at h
  · rename_i ho; subst ho
    left; simp [mulGate_sound hl hr h he hc.conf hc.holds]
  · split at h
    · rename_i ho; subst ho
      by_cases h0 : formVal ν r = 0
      · right; simp [h0]
      · left; simp [h0, divGate_sound hl h he hc.conf hc.holds h0]
    · split at h
      · rename_i ho; subst ho
        simp at h; obtain ⟨rfl, rfl⟩ := h
        left; simp [addFactors_val]
      · split at h
        · rename_i ho; subst ho
          simp at h; obtain ⟨rfl, rfl⟩ := h
          left; simp [addFactors_val, negateFactors_val, sub_eq_add_neg]
        · cases h

theorem equal_sound {H : Name → Nat} {l r : Factors} {s s' sf : St} {g : Gate} {gx : ZMod q → ZMod q} {ν : Name → ZMod q}
    (hg : s.add H { typ := .equality, left := l, right := r, noNew := true } = some (s', g)) (he : Ext s' sf)
    (hc : Ctx gx ν sf) : formVal ν l = formVal ν r := by
  have hgh := holds_of_ext (St.add_mem hg (fun _ => rfl)) he hc.conf hc.holds
  obtain ⟨g0, h0, rfl, _⟩ := St.add_spec hg (fun _ => rfl)
  obtain ⟨f1, f2, f3, f4, f5, -, -, -⟩ := withID_fields h0
  simp only [GateHolds, id_eq, f1] at hgh
  rwa [formVal_perm ν f2, formVal_perm ν f3] at hgh

theorem static_out [Fact q.Prime] {gx : ZMod q → ZMod q} {P : List Fun} {env : Env} {e : Ex} {x : Factor}
    (ih : JS gx P (.ex env e {} [x] {})) (hx : Static q x) {I : List Name} {s : St} {ν : Name → ZMod q} {ρ : Store q}
    (henv : EnvOK I q env s) (hρ : StoreRel ν env ρ) :
    Out (fun k => eval gx P k ρ e) (fun v => (v.val : Int) = x.mul ∧ v.val = x.mul.toNat) := by
  refine (ih (I ++ s.c.computed) {} ν ρ (wf_empty _) (fun n f hf => ⟨(henv n f hf).1, ?_⟩) hρ (ctx_empty _ _) (Ext.refl _)).mono ?_
  · simpa using (henv n f hf).2
  · rintro v rfl
    exact ⟨(static_val hx ν).2, (static_val hx ν).1⟩

theorem sym_sound [Fact q.Prime] {H : Name → Nat} {P : List Fun} (gx : ZMod q → ZMod q) {j : Judg} (h : Sym H q P j) :
    JS gx P j := by
  induction h with
  | @num env w s f hl hc =>
    intro I sf ν ρ hw henv hρ hx he
    obtain ⟨-, -, -, v, h3, h4⟩ := compileNum_spec ν hc
    rw [parseInt_digits w hl.1 hl.2] at h3
    cases h3
    refine (Out.pure (v := formVal ν f) (Q := (· = formVal ν f)) rfl).step fun k => ?_
    simp [eval, h4]
  | @var env x s g f hl hr =>
    intro I sf ν ρ hw henv hρ hx he
    obtain ⟨-, -, h3⟩ := readVar_spec ν (henv _ _ hl).1 hr
    refine (Out.pure (v := formVal ν f) (Q := (· = formVal ν f)) rfl).step fun k => ?_
    simp [eval, LangSpec.get, hρ _ _ hl, h3]
  | paren _ ih =>
    intro I sf ν ρ hw henv hρ hx he
    exact (ih I sf ν ρ hw henv hρ hx he).step fun k => by simp [eval]
  | @bin env op l r s a s1 b s2 f s' h1 h2 hg ihl ihr =>
    intro I sf ν ρ hw henv hρ hx he
    have r1 := sym_wf h1 I hw henv
    have r2 := sym_wf h2 I r1.wf (henv.mono hw r1.wf r1.ext)
    have r3 := arithGate_wf r2.wf r1.good r2.good (r1.known.mono (known_mono r2.ext r1.wf r2.wf)) r2.known hg
    have ia := ihl I sf ν ρ hw henv hρ hx ((r2.ext.trans r3.ext).trans he)
    have ib := ihr I sf ν ρ r1.wf (henv.mono hw r1.wf r1.ext) hρ hx (r3.ext.trans he)
    refine (ia.bind (R := (· = formVal ν f)) (f := fun k x => eval gx P k ρ r >>= fun y => arithOp op.text x y) fun v hv => ?_).step fun k => by simp [eval]
    refine ib.bind (f := fun _ y => arithOp op.text v y) fun w hw' => ?_
    subst hv hw'
    rcases arithGate_sound r1.good r2.good hg he hx with h | h
    · exact Or.inl ⟨_, rfl, 0, fun _ _ => h⟩
    · exact Or.inr ⟨0, fun _ _ => h⟩
  | @arr env a is ks s g f _ hl hr ih =>
    intro I sf ν ρ hw henv hρ hx he
    obtain ⟨-, -, h3⟩ := rereadSum_spec ν _ _ (henv _ _ hl).1.text hr
    refine ((ih I s ν ρ henv hρ).bind (R := (· = formVal ν f)) (f := fun _ is => get ρ (element a is)) fun v hv => ?_).step fun k => by simp [eval]
    have : get ρ (element a v) = .ok (formVal ν f) := by simp [LangSpec.get, element, hv, hρ _ _ hl, h3]
    exact Or.inl ⟨_, rfl, 0, fun _ _ => this⟩
  | @base env e s l s1 f s' h1 hg ih =>
    intro I sf ν ρ hw henv hρ hx he
    have r1 := sym_wf h1 I hw henv
    have r3 := baseGate_wf r1.wf r1.good r1.known hg
    have ia := ih I sf ν ρ hw henv hρ hx (r3.ext.trans he)
    refine (ia.bind (R := (· = formVal ν f)) (f := fun _ v => .ok (gx v)) fun v hv => ?_).step fun k => ?_
    · subst hv; rw [← baseGate_sound hg he hx.conf hx.holds]; exact Out.pure rfl
    · simp only [eval, evalList]
      cases eval gx P k ρ e <;> rfl
  | @call env F args s fs s1 f s3 hb hfind hlen h1 h2 ih1 ih2 =>
    intro I sf ν ρ hw henv hρ hx he
    obtain ⟨hl, w1⟩ := sym_wf h1
    obtain ⟨e1, w1, g1⟩ := w1 I hw henv
    have r3 := sym_wf h2 I w1 (envOK_zip g1)
    have i1 := ih1 I sf ν ρ hw henv hρ hx (r3.ext.trans he)
    refine (i1.bind (R := (· = formVal ν f)) (f := fun k vs => finish (eval gx P k) (run gx P k) F.ret (start F.names vs) F.body) fun v hv => ?_).step fun k => ?_
    · subst hv
      exact ih2 I sf ν _ w1 (envOK_zip g1) (start_rel _ _) hx he
    · simp only [eval, if_neg hb]
      cases hev : evalList (eval gx P k ρ) args with
      | error e => rfl
      | ok vs =>
        have hvl := evalList_length _ _ hev
        simp only [bind, Except.bind, hfind, hlen, hvl, if_true]
  | exsNil => exact fun I sf ν ρ hw henv hρ hx he => Out.pure rfl
  | @exsCons env e es s f s1 fs s2 h1 h2 ih1 ih2 =>
    intro I sf ν ρ hw henv hρ hx he
    have r1 := sym_wf h1 I hw henv
    obtain ⟨-, w2⟩ := sym_wf h2
    obtain ⟨e2, w2, g2⟩ := w2 I r1.wf (henv.mono hw r1.wf r1.ext)
    refine (ih1 I sf ν ρ hw henv hρ hx (e2.trans he)).bind (f := fun k v => evalList (eval gx P k ρ) es >>= fun vs => .ok (v :: vs)) fun v hv => ?_
    refine (ih2 I sf ν ρ r1.wf (henv.mono hw r1.wf r1.ext) hρ hx he).bind (f := fun k vs => .ok (v :: vs)) fun vs hvs => ?_
    exact Out.pure (by simp [hv, hvs])
  | idxNil => exact fun I s ν ρ henv hρ => Out.pure rfl
  | @idxCons env e es x k ks h1 hx hk h2 ih1 ih2 =>
    intro I s ν ρ henv hρ
    refine (static_out ih1 hx henv hρ).bind (f := fun k v => evalList (eval gx P k ρ) es >>= fun vs => .ok (v :: vs)) fun v hv => ?_
    refine (ih2 I s ν ρ henv hρ).bind (f := fun k vs => .ok (v :: vs)) fun vs hvs => ?_
    refine Out.pure ?_
    have : v.val = k := by have := hv.1; omega
    simp [this, hvs]
  | declsNil => exact fun I sf ν ρ hw henv hρ hx he => Out.pure hρ
  | @declsCons top env a i e es s f s1 s2 env' s3 h1 hc h2 ih1 ih2 =>
    intro I sf ν ρ hw henv hρ hx he
    have r := sym_wf h1 I hw henv
    obtain ⟨he', hw'⟩ := complete_wf r.wf r.good r.known hc
    have hv' := ((henv.mono hw r.wf r.ext).cons (x := a ++ indexText [i]) r.good r.known).mono r.wf hw' he'
    obtain ⟨e2, w2, v2⟩ := sym_wf h2 I hw' hv'
    refine (ih1 I sf ν ρ hw henv hρ hx ((he'.trans e2).trans he)).bind
      (f := fun k v => declareFrom (eval gx P k) a (i + 1) es (put ρ (a ++ indexText [i]) v)) fun v hv => ?_
    subst hv
    exact ih2 I sf ν _ hw' hv' (put_rel hρ) hx he
  | @decl top env x e s f s1 s2 h1 hc ih1 =>
    intro I sf ν ρ hw henv hρ hx he
    have r := sym_wf h1 I hw henv
    obtain ⟨he', hw'⟩ := complete_wf r.wf r.good r.known hc
    refine ((ih1 I sf ν ρ hw henv hρ hx (he'.trans he)).bind (R := StoreRel ν ((x, f) :: env)) (f := fun k v => .ok (put ρ x v)) fun v hv => ?_).step
      fun k => by simp [run]
    subst hv
    exact Out.pure (put_rel hρ)
  | declArr _ ih =>
    intro I sf ν ρ hw henv hρ hx he
    exact (ih I sf ν ρ hw henv hρ hx he).step fun k => by simp [run]
  | @assign top env x is ks e s f s1 s2 g h0 h1 hl hc ih0 ih1 =>
    intro I sf ν ρ hw henv hρ hx he
    have r := sym_wf h1 I hw henv
    obtain ⟨he', hw'⟩ := complete_wf r.wf r.good r.known hc
    refine ((ih0 I s ν ρ henv hρ).bind (R := StoreRel ν ((x ++ indexText ks, f) :: env))
      (f := fun k is => eval gx P k ρ e >>= fun v => get ρ (element x is) >>= fun _ => .ok (put ρ (element x is) v)) fun is' his => ?_).step
      fun k => by simp [run]
    refine (ih1 I sf ν ρ hw henv hρ hx (he'.trans he)).bind
      (f := fun k v => get ρ (element x is') >>= fun _ => .ok (put ρ (element x is') v)) fun v hv => ?_
    have hn : element x is' = x ++ indexText ks := by simp [element, his]
    have hget : get ρ (element x is') = .ok (formVal ν g) := by simp [LangSpec.get, hn, hρ _ _ hl]
    simp only [hget, bind, Except.bind]
    subst hv
    rw [hn]
    exact Out.pure (put_rel hρ)
  | @equal top env a b s l s1 r s2 g s3 h1 h2 hg ih1 ih2 =>
    intro I sf ν ρ hw henv hρ hx he
    have r1 := sym_wf h1 I hw henv
    have henv1 := henv.mono hw r1.wf r1.ext
    have r2 := sym_wf h2 I r1.wf henv1
    have he3 := St.add_ext hg (fun _ => rfl)
    have ia := ih1 I sf ν ρ hw henv hρ hx ((r2.ext.trans he3).trans he)
    have ib := ih2 I sf ν ρ r1.wf henv1 hρ hx (he3.trans he)
    refine (ia.bind (R := StoreRel ν env) (f := fun k x => eval gx P k ρ b >>= fun y => if x = y then .ok ρ else .error .assertionFailed) fun v hv => ?_).step
      fun k => ?_
    · refine ib.bind (f := fun _ y => if v = y then .ok ρ else .error .assertionFailed) fun w hw' => ?_
      have : v = w := by rw [hv, hw', equal_sound hg he hx]
      simp only [if_pos this]
      exact Out.pure hρ
    · simp only [run, if_true, evalList]
      cases eval gx P k ρ a with
      | error e => rfl
      | ok x => cases eval gx P k ρ b <;> rfl
  | @split top env a s f s1 s2 h1 hg ih =>
    intro I sf ν ρ hw henv hρ hx he
    have r := sym_wf h1 I hw henv
    obtain ⟨he', hw'⟩ := splitGate_wf r.wf r.known hg
    refine ((ih I sf ν ρ hw henv hρ hx (he'.trans he)).bind (R := StoreRel ν env) (f := fun k v => .ok ρ) fun v hv => Out.pure hρ).step
      fun k => ?_
    simp only [run, if_neg (by decide : ¬ kwSplit = kwEqual), if_true, evalList]
    cases eval gx P k ρ a <;> rfl
  | @callS top env f args s g s1 s2 hn1 hn2 h1 hc ih1 =>
    intro I sf ν ρ hw henv hρ hx he
    have r := sym_wf h1 I hw henv
    obtain ⟨he', hw'⟩ := complete_wf r.wf r.good r.known hc
    refine ((ih1 I sf ν ρ hw henv hρ hx (he'.trans he)).bind (R := StoreRel ν env) (f := fun k v => .ok ρ) fun v hv => Out.pure hρ).step
      fun k => ?_
    simp only [run, if_neg hn1, if_neg hn2]
  | @stop top env l cmp r x step body s a b h1 h2 ha hb hc ih1 ih2 =>
    intro I sf ν ρ hw henv hρ hx he
    refine ((static_out ih1 ha henv hρ).bind (R := StoreRel ν env) (f := fun k a => eval gx P k ρ r >>= fun b => compareOp cmp a.val b.val >>= fun go =>
        if go then (do
          let ρ ← runList (run gx P k) ρ body
          let v ← eval gx P k ρ step
          let _ ← get ρ x
          run gx P k (put ρ x v) (.loop l cmp r x step body))
        else .ok ρ) fun va hva => ?_).step fun k => by simp only [run]
    refine (static_out ih2 hb henv hρ).bind (f := fun k b => compareOp cmp va.val b.val >>= fun go =>
        if go then (do
          let ρ ← runList (run gx P k) ρ body
          let v ← eval gx P k ρ step
          let _ ← get ρ x
          run gx P k (put ρ x v) (.loop l cmp r x step body))
        else .ok ρ) fun vb hvb => ?_
    simp only [hva.2, hvb.2, hc, bind, Except.bind]
    exact Out.pure hρ
  | @go top env l cmp r x step body s a b env1 s1 f s2 g env2 s3 h1 h2 ha hb hc h3 h4 hl h5 ih1 ih2 ih3 ih4 ih5 =>
    intro I sf ν ρ hw henv hρ hx he
    obtain ⟨e1, w1, v1⟩ := sym_wf h3 I hw henv
    have r4 := sym_wf h4 I w1 v1
    have v4 := (v1.mono w1 r4.wf r4.ext).cons (x := x) r4.good r4.known
    obtain ⟨e5, w5, v5⟩ := sym_wf h5 I r4.wf v4
    refine ((static_out ih1 ha henv hρ).bind (R := StoreRel ν env2) (f := fun k a => eval gx P k ρ r >>= fun b => compareOp cmp a.val b.val >>= fun go =>
        if go then (do
          let ρ ← runList (run gx P k) ρ body
          let v ← eval gx P k ρ step
          let _ ← get ρ x
          run gx P k (put ρ x v) (.loop l cmp r x step body))
        else .ok ρ) fun va hva => ?_).step fun k => by simp only [run]
    refine (static_out ih2 hb henv hρ).bind (f := fun k b => compareOp cmp va.val b.val >>= fun go =>
        if go then (do
          let ρ ← runList (run gx P k) ρ body
          let v ← eval gx P k ρ step
          let _ ← get ρ x
          run gx P k (put ρ x v) (.loop l cmp r x step body))
        else .ok ρ) fun vb hvb => ?_
    simp only [hva.2, hvb.2, hc]
    refine (ih3 I sf ν ρ hw henv hρ hx ((r4.ext.trans e5).trans he)).bind (f := fun k ρ => do
          let v ← eval gx P k ρ step
          let _ ← get ρ x
          run gx P k (put ρ x v) (.loop l cmp r x step body)) fun ρ1 hρ1 => ?_
    refine (ih4 I sf ν ρ1 w1 v1 hρ1 hx (e5.trans he)).bind (f := fun k v => do
          let _ ← get ρ1 x
          run gx P k (put ρ1 x v) (.loop l cmp r x step body)) fun v hv => ?_
    have hget : get ρ1 x = .ok (formVal ν g) := by simp [LangSpec.get, hρ1 _ _ hl]
    simp only [hget]
    subst hv
    exact ih5 I sf ν _ r4.wf v4 (put_rel hρ1) hx he
  | @skip top env l cmp r body s a b h1 h2 ha hb hc ih1 ih2 =>
    intro I sf ν ρ hw henv hρ hx he
    refine ((static_out ih1 ha henv hρ).bind (R := StoreRel ν env) (f := fun k a => eval gx P k ρ r >>= fun b => compareOp cmp a.val b.val >>= fun go =>
        if go then runList (run gx P k) ρ body else .ok ρ) fun va hva => ?_).step fun k => by simp only [run]
    refine (static_out ih2 hb henv hρ).bind (f := fun k b => compareOp cmp va.val b.val >>= fun go =>
        if go then runList (run gx P k) ρ body else .ok ρ) fun vb hvb => ?_
    simp only [hva.2, hvb.2, hc, bind, Except.bind]
    exact Out.pure hρ
  | @take top env l cmp r body s a b env1 s1 h1 h2 ha hb hc h3 ih1 ih2 ih3 =>
    intro I sf ν ρ hw henv hρ hx he
    refine ((static_out ih1 ha henv hρ).bind (R := StoreRel ν env1) (f := fun k a => eval gx P k ρ r >>= fun b => compareOp cmp a.val b.val >>= fun go =>
        if go then runList (run gx P k) ρ body else .ok ρ) fun va hva => ?_).step fun k => by simp only [run]
    refine (static_out ih2 hb henv hρ).bind (f := fun k b => compareOp cmp va.val b.val >>= fun go =>
        if go then runList (run gx P k) ρ body else .ok ρ) fun vb hvb => ?_
    simp only [hva.2, hvb.2, hc, bind, Except.bind]
    exact ih3 I sf ν ρ hw henv hρ hx he
  | stmsNil => exact fun I sf ν ρ hw henv hρ hx he => Out.pure hρ
  | @stmsCons top env st sts s env1 s1 env2 s2 h1 h2 ih1 ih2 =>
    intro I sf ν ρ hw henv hρ hx he
    obtain ⟨e1, w1, v1⟩ := sym_wf h1 I hw henv
    obtain ⟨e2, w2, v2⟩ := sym_wf h2 I w1 v1
    exact (ih1 I sf ν ρ hw henv hρ hx (e2.trans he)).bind (f := fun k ρ => runList (run gx P k) ρ sts)
      fun ρ1 hρ1 => ih2 I sf ν ρ1 w1 v1 hρ1 hx he
  | fnEnd _ ih => exact ih
  | @fnStep top env st sts ret s env1 s1 f s' hst h1 h2 ih1 ih2 =>
    intro I sf ν ρ hw henv hρ hx he
    obtain ⟨e1, w1, v1⟩ := sym_wf h1 I hw henv
    have r := sym_wf h2 I w1 v1
    simp only [finish_step hst]
    exact (ih1 I sf ν ρ hw henv hρ hx (r.ext.trans he)).bind (f := fun k ρ => finish (eval gx P k) (run gx P k) ret ρ sts)
      fun ρ1 hρ1 => ih2 I sf ν ρ1 w1 v1 hρ1 hx he
  | @fnSkip top env l cmp r body e sts ret s a b f s' h1 h2 ha hb hc h3 ih1 ih2 ih3 =>
    intro I sf ν ρ hw henv hρ hx he
    simp only [finish_exit]
    refine (static_out ih1 ha henv hρ).bind (R := (· = formVal ν f)) (f := fun k a => eval gx P k ρ r >>= fun b => compareOp cmp a.val b.val >>= fun go =>
        if go then (do
          let ρ ← runList (run gx P k) ρ body
          eval gx P k ρ e) else finish (eval gx P k) (run gx P k) ret ρ sts) fun va hva => ?_
    refine (static_out ih2 hb henv hρ).bind (f := fun k b => compareOp cmp va.val b.val >>= fun go =>
        if go then (do
          let ρ ← runList (run gx P k) ρ body
          eval gx P k ρ e) else finish (eval gx P k) (run gx P k) ret ρ sts) fun vb hvb => ?_
    simp only [hva.2, hvb.2, hc, bind, Except.bind]
    exact ih3 I sf ν ρ hw henv hρ hx he
  | @fnQuit top env l cmp r body e sts ret s a b env1 s1 f s' h1 h2 ha hb hc h3 h4 ih1 ih2 ih3 ih4 =>
    intro I sf ν ρ hw henv hρ hx he
    obtain ⟨e1, w1, v1⟩ := sym_wf h3 I hw henv
    have r4 := sym_wf h4 I w1 v1
    simp only [finish_exit]
    refine (static_out ih1 ha henv hρ).bind (R := (· = formVal ν f)) (f := fun k a => eval gx P k ρ r >>= fun b => compareOp cmp a.val b.val >>= fun go =>
        if go then (do
          let ρ ← runList (run gx P k) ρ body
          eval gx P k ρ e) else finish (eval gx P k) (run gx P k) ret ρ sts) fun va hva => ?_
    refine (static_out ih2 hb henv hρ).bind (f := fun k b => compareOp cmp va.val b.val >>= fun go =>
        if go then (do
          let ρ ← runList (run gx P k) ρ body
          eval gx P k ρ e) else finish (eval gx P k) (run gx P k) ret ρ sts) fun vb hvb => ?_
    simp only [hva.2, hvb.2, hc]
    refine (ih3 I sf ν ρ hw henv hρ hx (r4.ext.trans he)).bind (f := fun k ρ => eval gx P k ρ e) fun ρ1 hρ1 => ?_
    exact ih4 I sf ν ρ1 w1 v1 hρ1 hx he

end APS.Sym
