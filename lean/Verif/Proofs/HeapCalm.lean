import Verif.Spec.Calm
import Verif.Proofs.HeapTidy

/-! The constraints of a calm program are safe. -/
namespace APS.Alias
open APS.Circuit APS.Prog
open APS.Parse (Constraint marker)
open APS.ParseSpec (Ex tree trees)
open APS.LangSpec (Stm Fun Program computed calmExs calmStms emits emit emitFun emitPublic target)

theorem wrap_simple {c : Constraint} {w : List Char} {b : Bool} : simple (if b then .mk ⟨.unassigned, w⟩ [c] else c) = simple c := by
  cases b
  · rfl
  · simp [simple]

theorem wrap_safe {c : Constraint} {w : List Char} {b : Bool} (h : safe c = true) : safe (if b then .mk ⟨.unassigned, w⟩ [c] else c) = true := by
  cases b
  · exact h
  · exact safe_iff.mpr (SafeIs.one h)

theorem simple_tree : ∀ {e : Ex}, computed e = true → simple (tree e) = true
  | .num w, _ => by simp [tree, simple]
  | .var w, h => by simp [computed] at h
  | .call f a, h => by simp [computed] at h
  | .arr f a, h => by simp [computed] at h
  | .paren e, h => by
    simp only [computed] at h
    simp only [tree]
    exact simple_tree h
  | .bin op l r, h => by
    simp only [computed, Bool.and_eq_true, Bool.or_eq_true, beq_iff_eq] at h
    obtain ⟨h0, h⟩ := h
    simp only [tree, simple, Constraint.output, h0, wrap_simple]
    rcases h with (h | h) | ⟨⟨h, hl⟩, hr⟩
    · simp [h]
    · simp [h]
    · simp only [simple_tree hl, simple_tree hr]
      rcases h with h | h <;> simp [h]

theorem tree_type : ∀ {e : Ex}, ((tree e).output.type == .arithmetic) = false
  | .num w => rfl
  | .var w => rfl
  | .call f a => rfl
  | .arr f a => rfl
  | .bin op l r => rfl
  | .paren e => by simp only [tree]; exact tree_type

mutual
theorem safe_tree : ∀ {e : Ex}, LangSpec.Ex.calm e = true → safe (tree e) = true
  | .num w, _ => safe_iff.mpr SafeIs.nil
  | .var w, _ => safe_iff.mpr SafeIs.nil
  | .call f a, h => by
    simp only [LangSpec.Ex.calm] at h
    simp only [tree, safe, Bool.and_eq_true]
    exact safe_args h
  | .arr f a, h => by
    simp only [LangSpec.Ex.calm] at h
    simp only [tree, safe, Bool.and_eq_true]
    exact safe_args h
  | .paren e, h => by
    simp only [LangSpec.Ex.calm] at h
    simp only [tree]
    exact safe_tree h
  | .bin op l r, h => by
    simp only [LangSpec.Ex.calm, Bool.and_eq_true] at h
    obtain ⟨⟨h0, hl⟩, hr⟩ := h
    simp only [tree]
    refine safe_iff.mpr ⟨?_, fun c hc => ?_⟩
    · simp only [Constraint.inputs, minusOK, Constraint.output, wrap_simple]
      by_cases hm : op.text = ['-']
      · rw [simple_tree (by simpa [hm] using h0), Bool.or_true]
      · simp [hm]
    · simp only [Constraint.inputs, List.mem_cons, List.not_mem_nil, or_false] at hc
      rcases hc with rfl | rfl | rfl
      · exact safe_iff.mpr SafeIs.nil
      · exact wrap_safe (safe_tree hl)
      · exact wrap_safe (safe_tree hr)
/-- arguments: a list of arguments is not taken for the inputs of a subtraction -/
theorem safe_args : ∀ {es : List Ex}, calmExs es = true → minusOK (trees es) = true ∧ safeAll (trees es) = true
  | es, h => ⟨by
      rcases es with _ | ⟨a, _ | ⟨b, _ | ⟨c, _ | ⟨d, es⟩⟩⟩⟩ <;> simp only [trees, minusOK]
      simp [tree_type], safe_trees h⟩
theorem safe_trees : ∀ {es : List Ex}, calmExs es = true → safeAll (trees es) = true
  | [], _ => rfl
  | e :: es, h => by
    simp only [calmExs, Bool.and_eq_true] at h
    simp only [trees, safeAll, safe_tree h.1, safe_trees h.2, Bool.and_self]
end

theorem safe_target {x : Name} : ∀ {idx : List Ex}, calmExs idx = true → safe (target x idx) = true
  | [], _ => safe_iff.mpr SafeIs.nil
  | i :: is, h => by
    simp only [target, safe, Bool.and_eq_true]
    exact safe_args h

theorem safe_two {a b : Constraint} {t : Lex.TokenType} (ha : safe a = true) (hb : safe b = true) : safe (marker t [a, b]) = true := by
  refine safe_iff.mpr ⟨rfl, fun c hc => ?_⟩
  simp only [marker, Constraint.inputs, List.mem_cons, List.not_mem_nil, or_false] at hc
  rcases hc with rfl | rfl
  · exact ha
  · exact hb

mutual
theorem safe_emit : ∀ {s : Stm}, LangSpec.Stm.calm s = true → ∀ c ∈ emit s, safe c = true
  | .decl x e, h, c, hc => by
    simp only [LangSpec.Stm.calm] at h
    simp only [emit, List.mem_singleton] at hc
    exact hc ▸ safe_iff.mpr (SafeIs.one (safe_tree h))
  | .declArr a es, h, c, hc => by
    simp only [LangSpec.Stm.calm] at h
    simp only [emit, List.mem_singleton] at hc
    subst hc
    simp only [safe, Bool.and_eq_true]
    exact safe_args h
  | .assign x idx e, h, c, hc => by
    simp only [LangSpec.Stm.calm, Bool.and_eq_true] at h
    simp only [emit, List.mem_singleton] at hc
    exact hc ▸ safe_two (safe_target h.1) (safe_tree h.2)
  | .call f args, h, c, hc => by
    simp only [LangSpec.Stm.calm] at h
    simp only [emit, List.mem_singleton] at hc
    subst hc
    simp only [safe, Bool.and_eq_true]
    exact safe_args h
  | .loop l cmp r x step body, h, c, hc => by
    simp only [LangSpec.Stm.calm, Bool.and_eq_true] at h
    obtain ⟨⟨⟨h1, h2⟩, h3⟩, h4⟩ := h
    simp only [emit, List.mem_cons, List.mem_append, List.not_mem_nil, or_false] at hc
    rcases hc with rfl | hc | rfl
    · refine safe_two ?_ (safe_two (safe_target (by rfl)) (safe_tree h3))
      simp only [tree]
      refine safe_iff.mpr ⟨by simp [Constraint.inputs, minusOK, Constraint.output], fun c hc => ?_⟩
      simp only [Constraint.inputs, List.mem_cons, List.not_mem_nil, or_false] at hc
      rcases hc with rfl | rfl | rfl
      · exact safe_iff.mpr SafeIs.nil
      · exact wrap_safe (safe_tree h1)
      · exact wrap_safe (safe_tree h2)
    · exact safe_emits h4 c hc
    · exact safe_iff.mpr SafeIs.nil
  | .cond l cmp r body fin, h, c, hc => by
    simp only [LangSpec.Stm.calm, Bool.and_eq_true] at h
    obtain ⟨⟨⟨h1, h2⟩, h4⟩, h5⟩ := h
    simp only [emit, List.mem_cons, List.mem_append, List.not_mem_nil, or_false] at hc
    rcases hc with rfl | hc | hc | rfl | rfl
    · refine safe_iff.mpr (SafeIs.one ?_)
      simp only [tree]
      refine safe_iff.mpr ⟨by simp [Constraint.inputs, minusOK, Constraint.output], fun c hc => ?_⟩
      simp only [Constraint.inputs, List.mem_cons, List.not_mem_nil, or_false] at hc
      rcases hc with rfl | rfl | rfl
      · exact safe_iff.mpr SafeIs.nil
      · exact wrap_safe (safe_tree h1)
      · exact wrap_safe (safe_tree h2)
    · exact safe_emits h4 c hc
    · cases fin with
      | none => simp [LangSpec.emitFin] at hc
      | some e =>
        simp only [LangSpec.emitFin, List.mem_singleton] at hc
        exact hc ▸ safe_iff.mpr (SafeIs.one (safe_tree h5))
    · exact safe_iff.mpr SafeIs.nil
    · exact safe_iff.mpr SafeIs.nil
theorem safe_emits : ∀ {ss : List Stm}, calmStms ss = true → ∀ c ∈ emits ss, safe c = true
  | [], _, c, hc => by simp [emits] at hc
  | s :: ss, h, c, hc => by
    simp only [calmStms, Bool.and_eq_true] at h
    simp only [emits, List.mem_append] at hc
    exact hc.elim (safe_emit h.1 c) (safe_emits h.2 c)
end

theorem safe_leaves {α : Type} (t : Lex.TokenType) (x : Name) (g : α → Lex.Token) (hg : ∀ a, (g a).type ≠ .arithmetic) (l : List α) :
    safe (.mk ⟨t, x⟩ (l.map fun a => .mk (g a) [])) = true := by
  refine safe_iff.mpr ⟨?_, fun c hc => ?_⟩
  · rcases l with _ | ⟨a, _ | ⟨b, _ | ⟨c, _ | ⟨d, l⟩⟩⟩⟩ <;> simp [Constraint.inputs, minusOK, Constraint.output, hg]
  · simp only [Constraint.inputs, List.mem_map] at hc
    obtain ⟨a, _, rfl⟩ := hc
    exact safe_iff.mpr SafeIs.nil

theorem safe_emitFun {pubs : List (Name × List Nat)} {F : Fun} (h : F.calm = true) : ∀ c ∈ emitFun pubs F, safe c = true := by
  simp only [Fun.calm, Bool.and_eq_true] at h
  intro c hc
  simp only [emitFun, List.mem_cons, List.mem_append, List.mem_map, List.not_mem_nil, or_false] at hc
  rcases hc with rfl | (⟨p, _, rfl⟩ | hc | rfl) | rfl
  · exact safe_leaves _ _ (fun x => ⟨.argument, x⟩) (fun _ => by simp) _
  · exact safe_leaves _ _ (fun k => ⟨.number, Nat.toDigits 10 k⟩) (fun _ => by simp) _
  · exact safe_emits h.1 c hc
  · exact safe_iff.mpr (SafeIs.one (safe_tree h.2))
  · exact safe_iff.mpr SafeIs.nil

theorem safe_program {p : Program} (h : p.calm = true) : ∀ c ∈ p.emit, safe c = true := by
  simp only [Program.calm, List.all_append, List.all_cons, Bool.and_eq_true, List.all_eq_true] at h
  obtain ⟨h1, h2, h3⟩ := h
  intro c hc
  simp only [Program.emit, List.mem_append, List.mem_flatMap] at hc
  rcases hc with ⟨F, hF, hc⟩ | hc | ⟨F, hF, hc⟩
  · exact safe_emitFun (h1 F hF) c hc
  · exact safe_emitFun h2 c hc
  · exact safe_emitFun (h3 F hF) c hc

end APS.Alias
