import Verif.Spec.Write
import Verif.Spec.Plain

/-! Programs are checked by evaluation: a test with result `true` gives the conditions `Program.ok` and `Program.written`. -/
namespace APS.LangSpec
open APS.ParseSpec (Ex Inert okAll)
open APS.Circuit (Name)
open APS.Parse (isOperator)

mutual
/-- test for `okEx` -/
def testEx (P : List Fun) (vis : List Name) : Ex → Bool
  | .num w => decide (APS.Spec.IsLit w)
  | .var x => decide (x ∈ vis)
  | .paren e => testEx P vis e
  | .bin op l r => decide (op.type = .arithmetic) && decide (op.text ∈ [['+'], ['-'], ['*'], ['/']]) && testEx P vis l && testEx P vis r
  | .arr a idx => decide (a ∈ vis) && !idx.isEmpty && testExs P vis idx
  | .call f args => testExs P vis args && ((decide (f = kwBase) && decide (args.length = 1)) ||
      (decide (f ∉ builtins) && P.any fun F => decide (F.name = f) && decide (F.names.length = args.length)))
def testExs (P : List Fun) (vis : List Name) : List Ex → Bool
  | [] => true
  | e :: es => testEx P vis e && testExs P vis es
end

mutual
theorem testEx_ok {P : List Fun} {vis : List Name} : ∀ (e : Ex), testEx P vis e = true → okEx P vis e
  | .num w, h => by simpa [testEx, okEx] using h
  | .var x, h => by simpa [testEx, okEx] using h
  | .paren e, h => by
    unfold testEx at h; unfold okEx
    exact testEx_ok e h
  | .bin op l r, h => by
    unfold testEx at h
    simp only [Bool.and_eq_true, decide_eq_true_eq] at h
    exact ⟨h.1.1.1, h.1.1.2, testEx_ok l h.1.2, testEx_ok r h.2⟩
  | .arr a idx, h => by
    unfold testEx at h
    simp only [Bool.and_eq_true, decide_eq_true_eq, Bool.not_eq_true', List.isEmpty_eq_false_iff] at h
    exact ⟨h.1.1, h.1.2, testExs_ok idx h.2⟩
  | .call f args, h => by
    unfold testEx at h
    simp only [Bool.and_eq_true, Bool.or_eq_true, decide_eq_true_eq, List.any_eq_true] at h
    exact ⟨testExs_ok args h.1, h.2⟩
theorem testExs_ok {P : List Fun} {vis : List Name} : ∀ (es : List Ex), testExs P vis es = true → okExs P vis es
  | [], _ => trivial
  | e :: es, h => by
    unfold testExs at h
    rw [Bool.and_eq_true] at h
    exact ⟨testEx_ok e h.1, testExs_ok es h.2⟩
end

/-- the comparisons -/
def comparisons : List Name := [['=', '='], ['!', '='], ['>'], ['>', '='], ['<'], ['<', '=']]

mutual
/-- test for `Stm.ok` -/
def Stm.test (P : List Fun) (outer vis : List Name) : Stm → Bool
  | .decl _ e => testEx P vis e
  | .declArr _ es => testExs P vis es
  | .assign x idx e => decide (x ∈ vis) && testExs P vis idx && testEx P vis e
  | .call f args =>
    if f = kwEqual then decide (args.length = 2) && testExs P vis args
    else if f = kwSplit then decide (args.length = 1) && testExs P vis args
    else testEx P vis (.call f args)
  | .loop l cmp r x step body =>
    testEx P vis l && testEx P vis r && decide (x ∈ vis) && testEx P vis step && decide (cmp ∈ comparisons) && decide (declared body).Nodup &&
    decide (∀ y ∈ declared body, isWord y = true ∧ y ∉ outer ∧ y ∉ builtins ∧ y ∉ P.map Fun.name) &&
    decide (∀ st ∈ body, st.isExit = false) && testStms P (declared body ++ outer) vis body
  | .cond l cmp r body fin =>
    testEx P vis l && testEx P vis r && decide (cmp ∈ comparisons) && (declared body).isEmpty && ifFrees body &&
    (match fin with | none => true | some e => testEx P vis e) && testStms P outer vis body
def testStms (P : List Fun) (outer vis : List Name) : List Stm → Bool
  | [] => true
  | st :: sts => st.test P outer vis && testStms P outer (st.declares ++ vis) sts
end

mutual
theorem test_ok {P : List Fun} {outer vis : List Name} : ∀ (st : Stm), st.test P outer vis = true → st.ok P outer vis
  | .decl _ e, h => by unfold Stm.test at h; unfold Stm.ok; exact testEx_ok e h
  | .declArr _ es, h => by unfold Stm.test at h; unfold Stm.ok; exact testExs_ok es h
  | .assign x idx e, h => by
    unfold Stm.test at h
    simp only [Bool.and_eq_true, decide_eq_true_eq] at h
    exact ⟨h.1.1, testExs_ok idx h.1.2, testEx_ok e h.2⟩
  | .call f args, h => by
    unfold Stm.test at h
    unfold Stm.ok
    by_cases h1 : f = kwEqual
    · rw [if_pos h1] at h ⊢
      simp only [Bool.and_eq_true, decide_eq_true_eq] at h
      exact ⟨h.1, testExs_ok args h.2⟩
    · rw [if_neg h1] at h ⊢
      by_cases h2 : f = kwSplit
      · rw [if_pos h2] at h ⊢
        simp only [Bool.and_eq_true, decide_eq_true_eq] at h
        exact ⟨h.1, testExs_ok args h.2⟩
      · rw [if_neg h2] at h ⊢
        exact testEx_ok _ h
  | .loop l cmp r x step body, h => by
    unfold Stm.test at h
    simp only [Bool.and_eq_true, decide_eq_true_eq] at h
    obtain ⟨⟨⟨⟨⟨⟨⟨⟨h1, h2⟩, h3⟩, h4⟩, h5⟩, h6⟩, h7⟩, h8⟩, h9⟩ := h
    exact ⟨testEx_ok l h1, testEx_ok r h2, h3, testEx_ok step h4, h5, h6, h7, h8, testStms_ok body h9⟩
  | .cond l cmp r body fin, h => by
    unfold Stm.test at h
    simp only [Bool.and_eq_true, decide_eq_true_eq, List.isEmpty_iff] at h
    obtain ⟨⟨⟨⟨⟨⟨h1, h2⟩, h3⟩, h4⟩, h5⟩, h6⟩, h7⟩ := h
    refine ⟨testEx_ok l h1, testEx_ok r h2, h3, h4, h5, ?_, testStms_ok body h7⟩
    rintro e rfl
    exact testEx_ok e h6
theorem testStms_ok {P : List Fun} {outer vis : List Name} : ∀ (sts : List Stm), testStms P outer vis sts = true → okStms P outer vis sts
  | [], _ => trivial
  | st :: sts, h => by
    unfold testStms at h
    rw [Bool.and_eq_true] at h
    exact ⟨test_ok st h.1, testStms_ok sts h.2⟩
end

/-- test for `Fun.ok` -/
def Fun.test (P : List Fun) (F : Fun) : Bool :=
  decide F.top.Nodup && decide (∀ y ∈ F.top, isWord y = true ∧ y ∉ builtins ∧ y ∉ P.map Fun.name) &&
  testStms P F.top (F.params.map Prod.fst) F.body && testEx P F.top F.ret

theorem fun_test_ok {P : List Fun} {F : Fun} (h : F.test P = true) : F.ok P := by
  unfold Fun.test at h
  simp only [Bool.and_eq_true, decide_eq_true_eq] at h
  exact ⟨h.1.1.1, h.1.1.2, testStms_ok _ h.1.2, testEx_ok _ h.2⟩

/-- test for `Program.ok` -/
def Program.test (p : Program) : Bool :=
  decide (p.main.name = "main".toList) && decide (p.funs.map Fun.name).Nodup && (p.funs.all fun F => isWord F.name && decide (F.name ∉ builtins)) &&
  (p.funs.all fun F => F.test p.funs) && p.main.test p.funs && decide (∀ x ∈ p.publics, x ∈ p.main.names)

theorem program_test_ok {p : Program} (h : p.test = true) : p.ok := by
  unfold Program.test at h
  simp only [Bool.and_eq_true, decide_eq_true_eq, List.all_eq_true] at h
  obtain ⟨⟨⟨⟨⟨h1, h2⟩, h3⟩, h4⟩, h5⟩, h6⟩ := h
  exact ⟨h1, h2, h3, fun F hF => fun_test_ok (h4 F hF), fun_test_ok h5, h6⟩

mutual
/-- test for `Ex.ok` -/
def testW : Ex → Bool
  | .num w => decide (Inert w)
  | .var w => decide (Inert w)
  | .bin op l r => isOperator op.type && decide (Inert op.text) && l.closed && testW l && testW r
  | .paren e => testW e
  | .call f args => decide (Inert f) && testWs args
  | .arr a idx => decide (Inert a) && !idx.isEmpty && testWs idx
def testWs : List Ex → Bool
  | [] => true
  | e :: es => testW e && testWs es
end

mutual
theorem testW_ok : ∀ (e : Ex), testW e = true → e.ok
  | .num w, h => by simpa [testW, Ex.ok] using h
  | .var x, h => by simpa [testW, Ex.ok] using h
  | .paren e, h => by
    unfold testW at h; unfold Ex.ok
    exact testW_ok e h
  | .bin op l r, h => by
    unfold testW at h
    simp only [Bool.and_eq_true, decide_eq_true_eq] at h
    exact ⟨h.1.1.1.1, h.1.1.1.2, h.1.1.2, testW_ok l h.1.2, testW_ok r h.2⟩
  | .arr a idx, h => by
    unfold testW at h
    simp only [Bool.and_eq_true, decide_eq_true_eq, Bool.not_eq_true', List.isEmpty_eq_false_iff] at h
    exact ⟨h.1.1, h.1.2, testWs_ok idx h.2⟩
  | .call f args, h => by
    unfold testW at h
    simp only [Bool.and_eq_true, decide_eq_true_eq] at h
    exact ⟨h.1, testWs_ok args h.2⟩
theorem testWs_ok : ∀ (es : List Ex), testWs es = true → okAll es
  | [], _ => trivial
  | e :: es, h => by
    unfold testWs at h
    rw [Bool.and_eq_true] at h
    exact ⟨testW_ok e h.1, testWs_ok es h.2⟩
end

mutual
/-- test for `Stm.written` -/
def Stm.testW : Stm → Bool
  | .decl x e => decide (Inert x) && LangSpec.testW e
  | .declArr a es => decide (Inert a) && testWs es
  | .assign x idx e => decide (Inert x) && testWs idx && LangSpec.testW e
  | .call f args => decide (Inert f) && testWs args
  | .loop l cmp r x step body => LangSpec.testW (.bin ⟨.comparator, cmp⟩ l r) && decide (Inert x) && LangSpec.testW step && testWAll body && endsPlain body
  | .cond l cmp r body fin => LangSpec.testW (.bin ⟨.comparator, cmp⟩ l r) && testWAll body &&
      (match fin with | none => endsPlain body | some e => LangSpec.testW e)
def testWAll : List Stm → Bool
  | [] => true
  | st :: sts => st.testW && testWAll sts
end

mutual
theorem stm_testW_ok : ∀ (st : Stm), st.testW = true → st.written
  | .decl x e, h => by
    unfold Stm.testW at h
    simp only [Bool.and_eq_true, decide_eq_true_eq] at h
    exact ⟨h.1, testW_ok e h.2⟩
  | .declArr a es, h => by
    unfold Stm.testW at h
    simp only [Bool.and_eq_true, decide_eq_true_eq] at h
    exact ⟨h.1, testWs_ok es h.2⟩
  | .assign x idx e, h => by
    unfold Stm.testW at h
    simp only [Bool.and_eq_true, decide_eq_true_eq] at h
    exact ⟨h.1.1, testWs_ok idx h.1.2, testW_ok e h.2⟩
  | .call f args, h => by
    unfold Stm.testW at h
    simp only [Bool.and_eq_true, decide_eq_true_eq] at h
    exact ⟨h.1, testWs_ok args h.2⟩
  | .loop l cmp r x step body, h => by
    unfold Stm.testW at h
    simp only [Bool.and_eq_true, decide_eq_true_eq] at h
    exact ⟨testW_ok _ h.1.1.1.1, h.1.1.1.2, testW_ok _ h.1.1.2, testWAll_ok body h.1.2, h.2⟩
  | .cond l cmp r body fin, h => by
    unfold Stm.testW at h
    simp only [Bool.and_eq_true] at h
    refine ⟨testW_ok _ h.1.1, testWAll_ok body h.1.2, ?_, ?_⟩
    · rintro e rfl; exact testW_ok e h.2
    · rintro rfl; exact h.2
theorem testWAll_ok : ∀ (sts : List Stm), testWAll sts = true → writtenAll sts
  | [], _ => trivial
  | st :: sts, h => by
    unfold testWAll at h
    rw [Bool.and_eq_true] at h
    exact ⟨stm_testW_ok st h.1, testWAll_ok sts h.2⟩
end

/-- test for `Fun.written` -/
def Fun.testW (F : Fun) : Bool :=
  decide (Inert F.name) && (F.params.all fun p => decide (Inert p.1) && p.2.all fun d => decide (0 < d ∧ d < 2 ^ 63)) && testWAll F.body && LangSpec.testW F.ret

theorem fun_testW_ok {F : Fun} (h : F.testW = true) : F.written := by
  unfold Fun.testW at h
  simp only [Bool.and_eq_true, decide_eq_true_eq, List.all_eq_true] at h
  exact ⟨h.1.1.1, fun p hp => h.1.1.2 p hp, testWAll_ok _ h.1.2, testW_ok _ h.2⟩

/-- test for `Program.written` -/
def Program.testW (p : Program) : Bool :=
  (p.funs.all Fun.testW) && p.main.testW && p.pubs.all fun x => decide (Inert x.1) && x.2.all fun i => decide (i < 2 ^ 63)

theorem program_testW_ok {p : Program} (h : p.testW = true) : p.written := by
  unfold Program.testW at h
  simp only [Bool.and_eq_true, decide_eq_true_eq, List.all_eq_true] at h
  exact ⟨fun F hF => fun_testW_ok (h.1.1 F hF), fun_testW_ok h.1.2, fun x hx => h.2 x hx⟩

end APS.LangSpec
