import Verif.Proofs.Sym
import Verif.Proofs.SplitSeq

/-! The names used by the gates of a symbolic compilation are inputs or outputs of gates; its bit gates come in order. -/
namespace APS.Sym
open APS.ParseSpec (Ex indexText)
open APS.LangSpec (Stm Fun)
open APS.Circuit
open APS.Spec (NoConfusion)

variable {q : Nat}

theorem arithGate_att [Fact q.Prime] {H : Name → Nat} {I : List Name} {op : Name} {l r f : Factors} {s s' : St}
    (hl : GoodF q l) (hr : GoodF q r) (al : AttF I s l) (ar : AttF I s r) (hs : SplitAtt I s)
    (h : arithGate H q op l r s = some (f, s')) : AttF I s' f ∧ SplitAtt I s' := by
  unfold arithGate at h
  split at h
  · rcases mulGate_eq h with ⟨hsn, hm, rfl⟩ | ⟨k, l', r', g, hx, hg, rfl⟩
    · exact ⟨attF_of_keys al ar (mulFactors_good hl hr hsn hm).2.2, hs⟩
    · obtain ⟨g0, h0, rfl, -⟩ := St.add_spec hg (fun _ => rfl)
      obtain ⟨f1, f2, f3, f4, f5, f6, -, -⟩ := withID_fields h0
      obtain ⟨pl, pr⟩ := extractConstant_keys hx
      have he := St.add_ext hg (fun _ => rfl)
      have hnew := attF_new (I := I) hg (fun _ => rfl) f6
      exact ⟨hnew k, hs.add hg (fun _ => rfl) ⟨by simp [f1], attF_perm (al.mono he) ((f2.map _).trans pl),
        attF_perm (ar.mono he) ((f3.map _).trans pr), by rw [f4.eq_nil]; exact attF_nil _ _, hnew 1⟩⟩
  · split at h
    · rcases divGate_eq h with ⟨hsn, ⟨i, hi, hm⟩, rfl⟩ | ⟨gl, l', gr, r', k, g, h1, h2, h3, hg, rfl⟩
      · obtain ⟨i1, i2, i3, _⟩ := invertFactors_single (fun _ => 0) hsn hi
        have ai : AttF I s' i := fun n hn => by cases i3 _ hn
        exact ⟨attF_of_keys al ai (mulFactors_good hl i1 (Or.inr i2) hm).2.2, hs⟩
      · obtain ⟨g0, h0, rfl, -⟩ := St.add_spec hg (fun _ => rfl)
        obtain ⟨f1, f2, f3, f4, f5, f6, -, -⟩ := withID_fields h0
        obtain ⟨pl, -, -⟩ := factorSignature_keys h1
        obtain ⟨pr, -, -⟩ := factorSignature_keys h2
        have he := St.add_ext hg (fun _ => rfl)
        have hnew := attF_new (I := I) hg (fun _ => rfl) f6
        exact ⟨hnew k, hs.add hg (fun _ => rfl) ⟨by simp [f1], hnew 1, attF_perm (ar.mono he) ((f3.map _).trans pr),
          by rw [f4.eq_nil]; exact attF_nil _ _, attF_perm (al.mono he) ((f5.map _).trans pl)⟩⟩
    · split at h
      · simp at h; obtain ⟨rfl, rfl⟩ := h
        exact ⟨attF_of_keys al ar (addFactors_keys l r), hs⟩
      · split at h
        · simp at h; obtain ⟨rfl, rfl⟩ := h
          exact ⟨attF_of_keys al ar (by rw [← negateFactors_keys r]; exact addFactors_keys l _), hs⟩
        · cases h

theorem baseGate_att {H : Name → Nat} {I : List Name} {l f : Factors} {s s' : St} (al : AttF I s l) (hs : SplitAtt I s)
    (h : baseGate H l s = some (f, s')) : AttF I s' f ∧ SplitAtt I s' := by
  obtain ⟨g, hg, rfl⟩ := baseGate_eq h
  obtain ⟨g0, h0, rfl, -⟩ := St.add_spec hg (fun _ => rfl)
  obtain ⟨f1, f2, f3, f4, f5, f6, -, -⟩ := withID_fields h0
  have he := St.add_ext hg (fun _ => rfl)
  exact ⟨attF_new hg (fun _ => rfl) f6 1, hs.add hg (fun _ => rfl) ⟨by simp [f1], attF_perm (attF_nil _ _) (f2.map _),
    attF_perm (attF_nil _ _) (f3.map _), attF_perm (al.mono he) (f4.map _), attF_perm (attF_nil _ _) (f5.map _)⟩⟩

theorem equal_att {H : Name → Nat} {I : List Name} {l r : Factors} {s s' : St} {g : Gate} (al : AttF I s l) (ar : AttF I s r)
    (hs : SplitAtt I s) (hg : s.add H { typ := .equality, left := l, right := r, noNew := true } = some (s', g)) : SplitAtt I s' := by
  obtain ⟨g0, h0, rfl, -⟩ := St.add_spec hg (fun _ => rfl)
  obtain ⟨f1, f2, f3, f4, f5, f6, -, -⟩ := withID_fields h0
  have he := St.add_ext hg (fun _ => rfl)
  exact hs.add hg (fun _ => rfl) ⟨by simp [f1], attF_perm (al.mono he) (f2.map _), attF_perm (ar.mono he) (f3.map _),
    attF_perm (attF_nil _ _) (f4.map _), attF_perm (attF_nil _ _) (f5.map _)⟩

theorem complete_att {H : Name → Nat} {I : List Name} {top : Bool} {f : Factors} {s s' : St} (hs : SplitAtt I s) (hf : AttF I s f)
    (h : complete H top f s = some s') : SplitAtt I s' := by
  unfold complete at h
  split at h
  · exact completeFunction_att hs hf h
  · cases h; exact hs

theorem _root_.APS.Circuit.EnvAtt.cons {I : List Name} {env : Env} {s : St} {x : Name} {f : Factors} (h : EnvAtt I env s) (hf : AttF I s f) :
    EnvAtt I ((x, f) :: env) s := by
  intro n g hn
  rw [List.lookup_cons] at hn
  split at hn
  · cases hn; exact hf
  · exact h n g hn

/-- names in use -/
def JAtt (q : Nat) : Judg → Prop
  | .ex env _ s f s' | .fn _ env _ _ s f s' => ∀ I, WF I s → EnvOK I q env s → EnvAtt I env s → SplitAtt I s → AttF I s' f ∧ SplitAtt I s'
  | .exs env _ s fs s' => ∀ I, WF I s → EnvOK I q env s → EnvAtt I env s → SplitAtt I s → (∀ f ∈ fs, AttF I s' f) ∧ SplitAtt I s'
  | .idx _ _ _ => True
  | .decls _ env _ _ _ s env' s' | .stm _ env _ s env' s' | .stms _ env _ s env' s' =>
    ∀ I, WF I s → EnvOK I q env s → EnvAtt I env s → SplitAtt I s → EnvAtt I env' s' ∧ SplitAtt I s'

theorem sym_att [Fact q.Prime] {H : Name → Nat} {P : List Fun} {j : Judg} (h : Sym H q P j) : JAtt q j := by
  induction h with
  | num hl hc =>
    intro I hw _ _ hs
    obtain ⟨h1, h2, -⟩ := compileNum_spec (q := q) (fun _ => 0) hc
    exact ⟨fun n hn => absurd (h2 _ hn) (by simp), hs⟩
  | var hl hr =>
    intro I hw henv ha hs
    obtain ⟨h1, h2, -⟩ := readVar_spec (fun _ => 0) (henv _ _ hl).1 hr
    exact ⟨fun n hn => ha _ _ hl n ((h2 _ hn).resolve_left (by simp)), hs⟩
  | paren _ ih => exact ih
  | bin hl hr hg ihl ihr =>
    intro I hw henv ha hs
    have r1 := sym_wf hl I hw henv
    have v1 := henv.mono hw r1.wf r1.ext
    have r2 := sym_wf hr I r1.wf v1
    obtain ⟨a1, b1⟩ := ihl I hw henv ha hs
    obtain ⟨a2, b2⟩ := ihr I r1.wf v1 (ha.mono r1.ext) b1
    exact arithGate_att r1.good r2.good (a1.mono r2.ext) a2 b2 hg
  | arr _ hl hr _ =>
    intro I hw henv ha hs
    obtain ⟨h1, h2, -⟩ := rereadSum_spec (fun _ => 0) _ _ (henv _ _ hl).1.text hr
    exact ⟨fun n hn => ha _ _ hl n ((h2 _ hn).resolve_left (by simp)), hs⟩
  | base he hg ih =>
    intro I hw henv ha hs
    obtain ⟨a1, b1⟩ := ih I hw henv ha hs
    exact baseGate_att a1 b1 hg
  | call _ _ _ h1 h2 ih1 ih2 =>
    intro I hw henv ha hs
    obtain ⟨e1, w1, g1⟩ := (sym_wf h1).2 I hw henv
    obtain ⟨a1, b1⟩ := ih1 I hw henv ha hs
    exact ih2 I w1 (envOK_zip g1) (fun n f hn => a1 f (List.of_mem_zip (mem_of_lookup hn)).2) b1
  | exsNil => exact fun I _ _ _ hs => ⟨by simp, hs⟩
  | exsCons h1 h2 ih1 ih2 =>
    intro I hw henv ha hs
    have r1 := sym_wf h1 I hw henv
    have v1 := henv.mono hw r1.wf r1.ext
    obtain ⟨e2, w2, -⟩ := (sym_wf h2).2 I r1.wf v1
    obtain ⟨a1, b1⟩ := ih1 I hw henv ha hs
    obtain ⟨a2, b2⟩ := ih2 I r1.wf v1 (ha.mono r1.ext) b1
    refine ⟨fun f hf => ?_, b2⟩
    rcases List.mem_cons.mp hf with rfl | hf
    · exact a1.mono e2
    · exact a2 f hf
  | idxNil => trivial
  | idxCons => trivial
  | declsNil => exact fun I _ _ ha hs => ⟨ha, hs⟩
  | declsCons h1 hc h2 ih1 ih2 =>
    intro I hw henv ha hs
    have r := sym_wf h1 I hw henv
    obtain ⟨he, hw'⟩ := complete_wf r.wf r.good r.known hc
    obtain ⟨a1, b1⟩ := ih1 I hw henv ha hs
    exact ih2 I hw' (((henv.mono hw r.wf r.ext).cons r.good r.known).mono r.wf hw' he)
      (((ha.mono r.ext).cons a1).mono he) (complete_att b1 a1 hc)
  | decl h1 hc ih1 =>
    intro I hw henv ha hs
    have r := sym_wf h1 I hw henv
    obtain ⟨he, hw'⟩ := complete_wf r.wf r.good r.known hc
    obtain ⟨a1, b1⟩ := ih1 I hw henv ha hs
    exact ⟨((ha.mono r.ext).cons a1).mono he, complete_att b1 a1 hc⟩
  | declArr _ ih => exact ih
  | assign _ h1 _ hc _ ih1 =>
    intro I hw henv ha hs
    have r := sym_wf h1 I hw henv
    obtain ⟨he, hw'⟩ := complete_wf r.wf r.good r.known hc
    obtain ⟨a1, b1⟩ := ih1 I hw henv ha hs
    exact ⟨((ha.mono r.ext).cons a1).mono he, complete_att b1 a1 hc⟩
  | equal h1 h2 hg ih1 ih2 =>
    intro I hw henv ha hs
    have r1 := sym_wf h1 I hw henv
    have v1 := henv.mono hw r1.wf r1.ext
    have r2 := sym_wf h2 I r1.wf v1
    obtain ⟨a1, b1⟩ := ih1 I hw henv ha hs
    obtain ⟨a2, b2⟩ := ih2 I r1.wf v1 (ha.mono r1.ext) b1
    exact ⟨ha.mono ((r1.ext.trans r2.ext).trans (St.add_ext hg (fun _ => rfl))), equal_att (a1.mono r2.ext) a2 b2 hg⟩
  | split h1 hf ih =>
    intro I hw henv ha hs
    have r := sym_wf h1 I hw henv
    obtain ⟨he, hw'⟩ := splitGate_wf r.wf r.known hf
    obtain ⟨a1, b1⟩ := ih I hw henv ha hs
    exact ⟨ha.mono (r.ext.trans he), splitGate_att b1 a1 hf⟩
  | callS _ _ h1 hc ih1 =>
    intro I hw henv ha hs
    have r := sym_wf h1 I hw henv
    obtain ⟨he, hw'⟩ := complete_wf r.wf r.good r.known hc
    obtain ⟨a1, b1⟩ := ih1 I hw henv ha hs
    exact ⟨ha.mono (r.ext.trans he), complete_att b1 a1 hc⟩
  | stop => exact fun I _ _ ha hs => ⟨ha, hs⟩
  | go _ _ _ _ _ h3 h4 _ h5 _ _ ih3 ih4 ih5 =>
    intro I hw henv ha hs
    obtain ⟨e1, w1, v1⟩ := sym_wf h3 I hw henv
    have r := sym_wf h4 I w1 v1
    obtain ⟨a1, b1⟩ := ih3 I hw henv ha hs
    obtain ⟨a2, b2⟩ := ih4 I w1 v1 a1 b1
    exact ih5 I r.wf ((v1.mono w1 r.wf r.ext).cons r.good r.known) ((a1.mono r.ext).cons a2) b2
  | skip => exact fun I _ _ ha hs => ⟨ha, hs⟩
  | take _ _ _ _ _ _ _ _ ih3 => exact ih3
  | stmsNil => exact fun I _ _ ha hs => ⟨ha, hs⟩
  | stmsCons h1 h2 ih1 ih2 =>
    intro I hw henv ha hs
    obtain ⟨e1, w1, v1⟩ := sym_wf h1 I hw henv
    obtain ⟨a1, b1⟩ := ih1 I hw henv ha hs
    exact ih2 I w1 v1 a1 b1
  | fnEnd _ ih => exact ih
  | fnStep _ h1 h2 ih1 ih2 =>
    intro I hw henv ha hs
    obtain ⟨e1, w1, v1⟩ := sym_wf h1 I hw henv
    obtain ⟨a1, b1⟩ := ih1 I hw henv ha hs
    exact ih2 I w1 v1 a1 b1
  | fnSkip _ _ _ _ _ _ _ _ ih => exact ih
  | fnQuit _ _ _ _ _ h1 h2 _ _ ih1 ih2 =>
    intro I hw henv ha hs
    obtain ⟨e1, w1, v1⟩ := sym_wf h1 I hw henv
    obtain ⟨a1, b1⟩ := ih1 I hw henv ha hs
    exact ih2 I w1 v1 a1 b1

theorem arithGate_inv {H : Name → Nat} {P : St → Prop} (hP : StableP H P) {op : Name} {l r f : Factors} {s s' : St}
    (h : arithGate H q op l r s = some (f, s')) (hs : P s) : P s' := by
  unfold arithGate at h
  split at h
  · rcases mulGate_eq h with ⟨-, -, rfl⟩ | ⟨k, l', r', g, hx, hg, rfl⟩
    · exact hs
    · refine hP ?_ (Or.inl rfl) ?_ ?_ hg hs <;> simp
  · split at h
    · rcases divGate_eq h with ⟨-, -, rfl⟩ | ⟨gl, l', gr, r', k, g, h1, h2, h3, hg, rfl⟩
      · exact hs
      · refine hP ?_ (Or.inl rfl) ?_ ?_ hg hs <;> simp
    · split at h
      · simp at h; obtain ⟨rfl, rfl⟩ := h; exact hs
      · split at h
        · simp at h; obtain ⟨rfl, rfl⟩ := h; exact hs
        · cases h

theorem complete_inv {H : Name → Nat} {P : St → Prop} (hP : StableP H P) {top : Bool} {f : Factors} {s s' : St}
    (h : complete H top f s = some s') (hs : P s) : P s' := by
  unfold complete at h
  split at h
  · exact completeFunction_inv hP h hs
  · cases h; exact hs

/-- an invariant of the states -/
def JInv (P : St → Prop) : Judg → Prop
  | .ex _ _ s _ s' | .exs _ _ s _ s' | .decls _ _ _ _ _ s _ s' | .stm _ _ _ s _ s' | .stms _ _ _ s _ s' | .fn _ _ _ _ s _ s' => P s → P s'
  | .idx _ _ _ => True

theorem sym_inv {H : Name → Nat} {Q : St → Prop} (hP : StableP H Q)
    (hS : ∀ {f : Factors} {s s' : St}, splitGate H q f s = some s' → Q s → Q s') {P : List Fun} {j : Judg} (h : Sym H q P j) :
    JInv Q j := by
  induction h with
  | num | var | arr | exsNil | declsNil | stop | skip | stmsNil => exact id
  | idxNil | idxCons => trivial
  | paren _ ih => exact ih
  | declArr _ ih => exact ih
  | bin _ _ hg ihl ihr => exact fun hs => arithGate_inv hP hg (ihr (ihl hs))
  | base _ hg ih =>
    intro hs
    obtain ⟨g, hg', rfl⟩ := baseGate_eq hg
    exact hP (by simp) (Or.inl rfl) (fun _ => rfl) (fun _ => rfl) hg' (ih hs)
  | call _ _ _ _ _ ih1 ih2 => exact fun hs => ih2 (ih1 hs)
  | exsCons _ _ ih1 ih2 => exact fun hs => ih2 (ih1 hs)
  | declsCons _ hc _ ih1 ih2 => exact fun hs => ih2 (complete_inv hP hc (ih1 hs))
  | decl _ hc ih1 => exact fun hs => complete_inv hP hc (ih1 hs)
  | assign _ _ _ hc _ ih1 => exact fun hs => complete_inv hP hc (ih1 hs)
  | equal _ _ hg ih1 ih2 => exact fun hs => hP (by simp) (Or.inl rfl) (fun _ => rfl) (fun _ => rfl) hg (ih2 (ih1 hs))
  | split _ hf ih => exact fun hs => hS hf (ih hs)
  | callS _ _ _ hc ih1 => exact fun hs => complete_inv hP hc (ih1 hs)
  | go _ _ _ _ _ _ _ _ _ _ _ ih3 ih4 ih5 => exact fun hs => ih5 (ih4 (ih3 hs))
  | take _ _ _ _ _ _ _ _ ih3 => exact ih3
  | stmsCons _ _ ih1 ih2 => exact fun hs => ih2 (ih1 hs)
  | fnEnd _ ih => exact ih
  | fnStep _ _ _ ih1 ih2 => exact fun hs => ih2 (ih1 hs)
  | fnSkip _ _ _ _ _ _ _ _ ih => exact ih
  | fnQuit _ _ _ _ _ _ _ _ _ ih1 ih2 => exact fun hs => ih2 (ih1 hs)

end APS.Sym
