import Verif.Proofs.ChainVar

/-!
The compiler on the heap follows the symbolic compilation of `Proofs/Sym.lean`: invariants, expressions without calls.
-/
namespace APS.Prog
open APS.Lex (Token TokenType)
open APS.Parse (Constraint)
open APS.Circuit
open APS.LangSpec (builtins Stm Fun isWord okEx okExs okStms find kwBase kwEqual kwSplit compareOp)
open APS.ParseSpec (Ex indexText tree trees)
open APS.Sym (Sym Static sym_wf arithGate complete)

variable {H : Name → Nat} {q : Nat} {P : List Fun}

/-- a well-formed program -/
structure ProgOK (P : List Fun) : Prop where
  nodup : (P.map Fun.name).Nodup
  name : ∀ F ∈ P, isWord F.name = true ∧ F.name ∉ builtins
  ok : ∀ F ∈ P, F.ok P

/-- addresses that are no frames -/
def Outside (ch : List Frame) (a : Nat) : Prop := ∀ F ∈ ch, F.addr ≠ a

/-- in no form of the environment do two terms have the same name -/
def Apart (E : Env) : Prop := ∀ x g, E.lookup x = some g → (g.map (·.tok.ident)).Nodup

theorem Apart.cons {E : Env} (h : Apart E) {x : Name} {f : Factors} (hf : (f.map (·.tok.ident)).Nodup) : Apart ((x, f) :: E) := by
  intro y g hg
  by_cases he : y = x
  · subst he; simp at hg; subst hg; exact hf
  · rw [List.lookup_cons, show (y == x) = false by simpa using he] at hg
    exact h y g hg

theorem Apart.zip {ns : List Name} {fs : List Factors} (h : ∀ f ∈ fs, (f.map (·.tok.ident)).Nodup) : Apart (ns.zip fs) :=
  fun _ _ hg => h _ (List.of_mem_zip (mem_of_lookup hg)).2

/-- the heap and the gates fit the environment -/
structure Inv (q : Nat) (P : List Fun) (I : List Name) (E : Env) (vis : List Name) (ch : List Frame) (w : W) : Prop where
  ok : MemOK w.m
  chain : Chain w.m ch
  glob : Globals w.m (Outside ch) P
  rep : Rep w.m ch (fun x => base x ∈ vis) E
  names : NamesOK P ch
  vis : ∀ y ∈ vis, NameOK P y
  wf : WF I w.s
  env : EnvOK I q E w.s
  sep : Apart E

/-- what is required of the result of a run: names of gates are no builtin functions; static conditions and indices are
numbers, computed without gates; the terms of stored forms have different names -/
structure Fin (q : Nat) (I : List Name) (w : W) : Prop where
  plain : ∀ n ∈ I ++ w.s.c.computed, Plain n
  tame : ∀ t ∈ w.thrown, t.2 = {} ∧ ∃ x, t.1 = [x] ∧ Static q x
  kept : ∀ f ∈ w.kept, (f.map (·.tok.ident)).Nodup

theorem Fin.mono {I : List Name} {w w' : W} (h : Fin q I w') (hm : Mono w w') : Fin q I w := by
  refine ⟨fun n hn => h.plain n ?_, fun t ht => h.tame t (hm.thrown ht), fun f hf => h.kept f (hm.kept hf)⟩
  rcases List.mem_append.mp hn with hn | hn
  · exact List.mem_append_left _ hn
  · exact List.mem_append_right _ (hm.computed hn)

/-- a constraint of the expression, possibly with a node of its own -/
def Wrap (e : Ex) (k : Constraint) : Prop := k = tree e ∨ ∃ t, k = .mk ⟨.unassigned, t⟩ [tree e]

/-- the step from one state to the next one within an expression -/
structure Next (w w' : W) : Prop where
  grow : Grow0 w.m w'.m
  ok : MemOK w'.m

theorem Next.refl {w : W} (h : MemOK w.m) : Next w w := ⟨Grow.refl _ _, h⟩
theorem Next.trans {a b c : W} (h : Next a b) (h' : Next b c) : Next a c := ⟨h.grow.trans h'.grow, h'.ok⟩

/-- the heap grows, the gates stay well-formed -/
theorem Inv.next {I : List Name} {env : Env} {vis : List Name} {ch : List Frame} {w w' : W} (h : Inv q P I env vis ch w) (hn : Next w w')
    (wf : WF I w'.s) (ev : EnvOK I q env w'.s) : Inv q P I env vis ch w' := by
  have st := Step.of_grow0 h.chain hn.grow
  exact ⟨hn.ok, h.chain.step' st, globals_step h.ok h.chain st (fun a ha F hF => ha F hF) h.glob, h.rep.grow0 h.chain hn.grow, h.names, h.vis, wf, ev, h.sep⟩

/-- what is known of a compiled expression -/
def ExSpec (H : Name → Nat) (q : Nat) (P : List Fun) (comp : Comp) : Prop :=
  ∀ (I : List Name) (env : Env) (vis : List Name) (F : Frame) (rest : List Frame) (e : Ex) (k : Constraint) (w : W) (r : Res) (w' : W),
    okEx P vis e → Wrap e k → Inv q P I env vis (F :: rest) w → comp F.addr k w = some (r, w') → Fin q I w' →
    r.ret = false ∧ Next w w' ∧ Sym H q P (.ex env e w.s r.facs w'.s)

theorem ExSpec.res [Fact q.Prime] {I : List Name} {env : Env} {vis : List Name} {ch : List Frame} {w w' : W} {e : Ex} {f : Factors}
    (h : Inv q P I env vis ch w) (hs : Sym H q P (.ex env e w.s f w'.s)) : Circuit.Res I q w.s f w'.s :=
  sym_wf hs I h.wf h.env

theorem Inv.after [Fact q.Prime] {I : List Name} {env : Env} {vis : List Name} {ch : List Frame} {w w' : W} {e : Ex} {f : Factors}
    (h : Inv q P I env vis ch w) (hn : Next w w') (hs : Sym H q P (.ex env e w.s f w'.s)) : Inv q P I env vis ch w' := by
  have r := ExSpec.res h hs
  exact h.next hn r.wf (h.env.mono h.wf r.wf r.ext)

/-- the state in which static expressions are computed -/
theorem Inv.static {I : List Name} {env : Env} {vis : List Name} {ch : List Frame} {w : W} (h : Inv q P I env vis ch w) :
    Inv q P (I ++ w.s.c.computed) env vis ch { w with s := {} } :=
  ⟨h.ok, h.chain, h.glob, h.rep, h.names, h.vis, wf_empty _, fun n f hf => by
    obtain ⟨h1, h2⟩ := h.env n f hf
    exact ⟨h1, h2.mono (fun x hx => List.mem_append_left _ hx)⟩, h.sep⟩

/-! ### variables -/

/-- no variable has the name of a function -/
theorem not_global (hP : ProgOK P) {y : Name} (hn : NameOK P y) {ks : List Nat}
    (hm : y ++ indexText ks = "main".toList ∨ y ++ indexText ks ∈ P.map Fun.name) : False := by
  have hb := base_word hn.word ks
  have hw : isWord (y ++ indexText ks) = true := by
    rcases hm with hm | hm
    · rw [hm]; decide +kernel
    · obtain ⟨F, hF, he⟩ := List.mem_map.mp hm
      rw [← he]; exact (hP.name F hF).1
  rw [base_word' hw] at hb
  rw [hb] at hm
  rcases hm with hm | hm
  · exact hn.user (by rw [hm]; decide +kernel)
  · exact hn.fn hm

/-- a variable that is found is in the environment -/
theorem Inv.lookup (hP : ProgOK P) {I : List Name} {env : Env} {vis : List Name} {F : Frame} {rest : List Frame} {w : W}
    (h : Inv q P I env vis (F :: rest) w) {y : Name} {ks : List Nat} {n o : Nat} (hy : y ∈ vis)
    (hf : w.m.findFunction n (some F.addr) (y ++ indexText ks) = some o) :
    ∃ E ∈ F :: rest, w.m.ownFunction E.addr (y ++ indexText ks) = some o ∧ ∃ g, env.lookup (y ++ indexText ks) = some g ∧ Val w.m g o := by
  have hn := h.vis y hy
  rcases find_chain h.chain rfl hf with ⟨E, hE, ho⟩ | ⟨-, n', hg⟩
  · exact ⟨E, hE, ho, h.rep E hE _ o (by show base _ ∈ vis; rw [base_word hn.word]; exact hy) ho⟩
  · exact (not_global hP hn (h.glob.find hg).2).elim

theorem plain_user {y : Name} (hn : NameOK P y) (ks : List Nat) : y ++ indexText ks ∉ builtins := by
  intro hb
  have hall : ∀ n ∈ builtins, isWord n = true := by decide +kernel
  have := base_word hn.word ks
  rw [base_word' (hall _ hb)] at this
  rw [this] at hb
  exact hn.user hb

/-- the constraint of a variable that is found is the call of its object -/
theorem Inv.constraint {I : List Name} {env : Env} {vis : List Name} {F : Frame} {rest : List Frame} {w : W}
    (h : Inv q P I env vis (F :: rest) w) {y : Name} {ks : List Nat} {n : Nat} {c : Constraint} (hy : y ∈ vis) {E : Frame} (hE : E ∈ F :: rest)
    (ho : (w.m.ownFunction E.addr (y ++ indexText ks)).isSome) (hc : w.m.findConstraint n (some F.addr) (y ++ indexText ks) = some c) :
    c = node .functionCall (y ++ indexText ks) := by
  have hn := h.vis y hy
  rcases constraint_chain h.chain rfl hc with hc | ⟨G, hG, h1, h2⟩ | ⟨n', hg⟩
  · exact hc
  · obtain ⟨hv, hb⟩ := own_var h.chain hE (isWord_notFor hn.word _) ho
    have hGb : y ++ indexText ks ∈ G.bases := List.mem_append_right _ h1
    have hw := (h.names G hG _ hGb).word
    rw [base_word' hw] at hb
    obtain ⟨-, rfl⟩ := h.chain.unique hG hE hGb hb
    exact (h2 hv).elim
  · exact (h.glob.constraint hg).elim

/-- good forms can be stored and called -/
theorem Inv.sep' {I : List Name} {env : Env} {vis : List Name} {ch : List Frame} {w : W} (h : Inv q P I env vis ch w)
    (hf : ∀ n ∈ I ++ w.s.c.computed, Plain n) {x : Name} {g : Factors} (hg : env.lookup x = some g) : Sep g ∧ Callable g :=
  good_sep (h.env x g hg).1 (h.env x g hg).2 hf (h.sep x g hg)

/-- reading an element (or any stored value) through its constraint -/
theorem Inv.call_var {I : List Name} {env : Env} {vis : List Name} {F : Frame} {rest : List Frame} {w w' : W}
    (h : Inv q P I env vis (F :: rest) w) (hf : ∀ n ∈ I ++ w.s.c.computed, Plain n) {y : Name} {ks : List Nat} {n o : Nat} {g : Factors} {r : Res}
    (hy : y ∈ vis) (hfind : w.m.findFunction w.m.depth (some F.addr) (y ++ indexText ks) = some o) (hg : env.lookup (y ++ indexText ks) = some g)
    (hv : Val w.m g o) (hc : compile H q n F.addr (node .functionCall (y ++ indexText ks)) w = some (r, w')) :
    rereadSum q g = some r.facs ∧ r.ret = false ∧ w'.s = w.s ∧ Next w w' := by
  obtain ⟨h1, h2⟩ := h.sep' hf hg
  obtain ⟨a, b, c, -, d, e⟩ := body_call n h.ok h1 h2 (plain_user (h.vis y hy) ks) hv.1 hfind hc
  exact ⟨a, b, c, d, e⟩

theorem ex_var (hP : ProgOK P) {n : Nat} {I : List Name} {env : Env} {vis : List Name} {F : Frame} {rest : List Frame} {w w' : W} {x : Name} {r : Res}
    (hx : x ∈ vis) (h : Inv q P I env vis (F :: rest) w) (hc : compile H q (n + 1) F.addr (tree (.var x)) w = some (r, w')) (hf : Fin q I w') :
    r.ret = false ∧ Next w w' ∧ Sym H q P (.ex env (.var x) w.s r.facs w'.s) := by
  have hf0 := (hf.mono (compile_mono H q _ _ _ _ _ _ hc)).plain
  have e0 : x ++ indexText [] = x := by simp [indexText]
  simp only [tree, compile, compileStep, Constraint.output, Option.bind_eq_bind, Option.bind_eq_some_iff] at hc
  obtain ⟨o, h1, f, h2, h3⟩ := hc
  obtain ⟨E, hE, ho, g, hg, hv⟩ := h.lookup hP hx (ks := []) (by rw [e0]; exact h1)
  rw [e0] at hg
  have hv' := hv
  obtain ⟨hb, f', k1, k2, k3⟩ := hv
  rw [h2] at k1; cases k1
  split at h3
  · rename_i hnum
    simp only [Option.pure_def, Option.some.injEq, Prod.mk.injEq] at h3
    obtain ⟨rfl, rfl⟩ := h3
    refine ⟨rfl, Next.refl h.ok, ?_⟩
    rw [k2] at hnum
    have hr : readVar q g = some g := by simp [readVar, hnum]
    match g, hnum, hr with
    | [z], hnum, hr =>
      obtain ⟨e1, e2⟩ := k3 z rfl hnum
      have : z = ⟨⟨true, f.name⟩, f.value⟩ := by
        obtain ⟨⟨a, b⟩, c⟩ := z
        simp only [isSingleNumber] at hnum
        simp_all
      rw [← this]
      exact .var hg hr
  · rename_i hnum
    split at h3
    · simp only [Option.bind_eq_some_iff] at h3
      obtain ⟨con, h4, h5⟩ := h3
      have := h.constraint hx (ks := []) hE (by rw [ho]; rfl) (by rw [e0]; exact h4)
      rw [this] at h5
      obtain ⟨a1, a2, a3, a4⟩ := h.call_var hf0 hx (by rw [e0]; exact h1) (by rw [e0]; exact hg) hv' h5
      refine ⟨a2, a4, ?_⟩
      rw [a3]
      refine .var hg ?_
      rw [readVar, ← k2, if_neg hnum, a1]
    · rename_i hin
      obtain ⟨f1, l1, -, l2⟩ := hb.inputs
      rw [h2] at l1; cases l1
      exact (hin l2).elim

/-! ### indices -/

theorem indexText_cons (k : Nat) (ks : List Nat) : indexText (k :: ks) = '[' :: (Nat.toDigits 10 k ++ [']']) ++ indexText ks := by
  simp [indexText]

/-- an operand that is computed statically -/
theorem static_operand {comp : Comp} (hm : MonoC comp) (hE : ExSpec H q P comp) {I : List Name} {env : Env} {vis : List Name} {F : Frame}
    {rest : List Frame} {w w1 : W} {e : Ex} {k : Constraint} {r : Res} (ho : okEx P vis e) (hk : Wrap e k) (h : Inv q P I env vis (F :: rest) w)
    (hc : comp F.addr k { w with s := {} } = some (r, w1)) {wf : W} (hf : Fin q I wf) (ht : (r.facs, w1.s) ∈ wf.thrown)
    (hth : w1.thrown ⊆ wf.thrown) (hke : w1.kept ⊆ wf.kept) (hcomp : w.s.c.computed ⊆ wf.s.c.computed) :
    w1.s = {} ∧ Next w w1 ∧ ∃ x, r.facs = [x] ∧ Static q x ∧ Sym H q P (.ex env e {} [x] {}) := by
  obtain ⟨hs, x, hx, hst⟩ := hf.tame _ ht
  simp only at hs hx
  have hf1 : Fin q (I ++ w.s.c.computed) w1 := by
    refine ⟨fun n hn => hf.plain n ?_, fun t ht => hf.tame t (hth ht), fun f h => hf.kept f (hke h)⟩
    rw [hs] at hn
    rcases List.mem_append.mp hn with hn | hn
    · rcases List.mem_append.mp hn with hn | hn
      · exact List.mem_append_left _ hn
      · exact List.mem_append_right _ (hcomp hn)
    · simp at hn
  obtain ⟨-, hn, hsym⟩ := hE _ _ _ _ _ _ _ _ _ _ ho hk h.static hc hf1
  rw [hs, hx] at hsym
  exact ⟨hs, ⟨hn.grow, hn.ok⟩, x, hx, hst, hsym⟩

theorem idx_spec [Fact q.Prime] (hq : 2 ^ 63 ≤ q) {comp : Comp} (hm : MonoC comp) (hE : ExSpec H q P comp) {I : List Name} {env : Env} {vis : List Name} {F : Frame}
    {rest : List Frame} : ∀ (is : List Ex) (nm nm' : Name) (w w' : W), okExs P vis is → Inv q P I env vis (F :: rest) w →
    resolveArray comp F.addr (trees is) nm w = some (nm', w') → Fin q I w' →
    w'.s = w.s ∧ Next w w' ∧ ∃ ks, Sym H q P (.idx env is ks) ∧ nm' = nm ++ indexText ks := by
  intro is
  induction is with
  | nil =>
    intro nm nm' w w' _ h hr _
    simp only [trees, resolveArray, Option.some.injEq, Prod.mk.injEq] at hr
    obtain ⟨rfl, rfl⟩ := hr
    exact ⟨rfl, Next.refl h.ok, [], .idxNil, by simp [indexText]⟩
  | cons e es ih =>
    intro nm nm' w w' hok h hr hf
    obtain ⟨ok1, ok2⟩ := hok
    simp only [trees, resolveArray, Option.bind_eq_bind, Option.bind_eq_some_iff, Prod.exists] at hr
    obtain ⟨r, w1, h1, h2⟩ := hr
    have hmono : ∀ {nm1}, resolveArray comp F.addr (trees es) nm1 { w1 with s := w.s, thrown := w1.thrown ++ [(r.facs, w1.s)] } = some (nm', w') →
        Mono { w1 with s := w.s, thrown := w1.thrown ++ [(r.facs, w1.s)] } w' := fun hh => array_mono hm hh
    split at h2
    · rename_i x hx
      split at h2
      · rename_i k hnum hk
        split at h2
        · rename_i hrange
          have hmo := hmono h2
          obtain ⟨hs, hn, x', hx', hst, hsym⟩ := static_operand hm hE ok1 (Or.inl rfl) h h1 hf (hmo.thrown (by simp))
            (fun t ht => hmo.thrown (by simp [ht])) hmo.kept hmo.computed
          rw [hx] at hx'; cases hx'
          have hinv : Inv q P I env vis (F :: rest) { w1 with s := w.s, thrown := w1.thrown ++ [(r.facs, w1.s)] } :=
            h.next ⟨hn.grow, hn.ok⟩ h.wf h.env
          obtain ⟨e1, e2, ks, e3, e4⟩ := ih _ _ _ _ ok2 hinv h2 hf
          have hkm : x.mul = (k.toNat : Nat) := by
            have hwf0 := h.static
            have rr := sym_wf hsym _ hwf0.wf hwf0.env
            obtain ⟨v, hv, hvm⟩ := rr.good.text x (by simp) hst.num
            rw [hk] at hv; cases hv
            have h0 : (k : ZMod q) = (x.mul : ZMod q) := hvm
            rw [ZMod.intCast_eq_intCast_iff] at h0
            have h3 := Int.emod_emod_of_dvd
            have e1 : k % (q : Int) = k := Int.emod_eq_of_lt hrange.1 (lt_of_lt_of_le hrange.2 (by exact_mod_cast hq))
            have e2 : x.mul % (q : Int) = x.mul := Int.emod_eq_of_lt hst.pos hst.lt
            have h4 : k % (q : Int) = x.mul % (q : Int) := h0
            rw [e1, e2] at h4
            omega
          refine ⟨e1, ⟨hn.grow.trans e2.grow, e2.ok⟩, k.toNat :: ks, .idxCons hsym hst hkm e3, ?_⟩
          rw [e4, indexText_cons]; simp
        · cases h2
      · cases h2
    · cases h2

theorem ex_arr [Fact q.Prime] (hP : ProgOK P) (hq : 2 ^ 63 ≤ q) {n : Nat} (hE : ExSpec H q P (compile H q n)) {I : List Name} {env : Env} {vis : List Name}
    {F : Frame} {rest : List Frame} {w w' : W} {a : Name} {is : List Ex} {r : Res} (ho : okEx P vis (.arr a is))
    (h : Inv q P I env vis (F :: rest) w) (hc : compile H q (n + 1) F.addr (tree (.arr a is)) w = some (r, w')) (hf : Fin q I w') :
    r.ret = false ∧ Next w w' ∧ Sym H q P (.ex env (.arr a is) w.s r.facs w'.s) := by
  obtain ⟨ha, hne, ois⟩ := ho
  simp only [tree, compile, compileStep, Constraint.output, Constraint.inputs, Option.bind_eq_bind, Option.bind_eq_some_iff, Prod.exists] at hc
  obtain ⟨nm, w1, h1, con, h2, r2, w2, h3, h4⟩ := hc
  simp only [Option.pure_def, Option.some.injEq, Prod.mk.injEq] at h4
  obtain ⟨rfl, rfl⟩ := h4
  have hf1 := hf.mono (compile_mono H q _ _ _ _ _ _ h3)
  obtain ⟨e1, e2, ks, e3, rfl⟩ := idx_spec hq (compile_mono H q n) hE _ _ _ _ _ ois h h1 hf1
  have h' : Inv q P I env vis (F :: rest) w1 := h.next e2 (by rw [e1]; exact h.wf) (by rw [e1]; exact h.env)
  -- the constraint is a call, so the object is found
  rcases constraint_chain h'.chain rfl h2 with hcon | ⟨G, hG, g1, -⟩ | ⟨n', hg⟩
  · subst hcon
    have hcall := h3
    cases n with
    | zero => cases h3
    | succ n =>
      simp only [compile, compileStep, node, Constraint.output, Constraint.inputs] at h3
      rw [callFunction_user (plain_user (h'.vis a ha) ks)] at h3
      simp only [callUser, Option.bind_eq_bind, Option.bind_eq_some_iff, Prod.exists] at h3
      obtain ⟨o, ho, -⟩ := h3
      obtain ⟨E, hE', hown, g, hg, hv⟩ := h'.lookup hP ha ho
      obtain ⟨a1, a2, a3, a4⟩ := h'.call_var hf1.plain ha ho hg hv hcall
      refine ⟨rfl, e2.trans a4, ?_⟩
      rw [a3, e1]
      exact .arr e3 hg a1
  · -- an array name, no element
    exfalso
    have hw := (h'.names G hG _ (List.mem_append_right _ g1)).word
    have hb := base_word (h'.vis a ha).word ks
    rw [base_word' hw] at hb
    have : indexText ks = [] := by simpa using hb
    cases ks with
    | nil => cases e3; exact hne rfl
    | cons k ks => simp [indexText] at this
  · exact (h'.glob.constraint hg).elim

end APS.Prog
