import Verif.Proofs.Witness

/-! Witness calculation: the state before the first gate, and the loop over the gates. -/
namespace APS.Circuit
open APS.Spec APS.Avl APS.Avl.Tree

variable {q : Nat}

/-- `j` is the position of a bit -/
def BitPos (sp : SplitMap) (j : Nat) : Prop := ∃ e ∈ sp, j ∈ e.2

theorem putInputs_spec {n : Nat} (m : IndexMap) : ∀ (inputs : List (Name × Int)) (s s' : WState), WLen n s →
    putInputs m inputs s = some s' →
    WLen n s' ∧ (∀ j, Kn s' j ↔ Kn s j ∨ ∃ e ∈ inputs, m.get e.1 = j) ∧
    (∀ j, (∀ e ∈ inputs, m.get e.1 ≠ j) → wv s' j = wv s j) ∧
    ((inputs.map fun e => m.get e.1).Nodup → ∀ e ∈ inputs, wv s' (m.get e.1) = e.2) := by
  intro inputs
  induction inputs with
  | nil =>
    intro s s' hs h
    simp [putInputs] at h; subst h
    exact ⟨hs, by simp, by simp, by simp⟩
  | cons e rest ih =>
    intro s s' hs h
    obtain ⟨nm, v⟩ := e
    unfold putInputs at h
    split at h
    · cases h
    rename_i s1 hp
    obtain ⟨-, p1, p2, p3⟩ := put_spec hs hp
    obtain ⟨a1, a2, a3, a4⟩ := ih s1 s' p1 h
    refine ⟨a1, fun j => ?_, fun j hj => ?_, fun hnd e he => ?_⟩
    · rw [a2, p2]
      simp only [List.mem_cons, exists_eq_or_imp]
      constructor
      · rintro ((rfl | h) | h)
        exacts [Or.inr (Or.inl rfl), Or.inl h, Or.inr (Or.inr h)]
      · rintro (h | rfl | h)
        exacts [Or.inl (Or.inr h), Or.inl (Or.inl rfl), Or.inr h]
    · rw [a3 j fun e he => hj e (List.mem_cons_of_mem _ he), p3, if_neg]
      rintro rfl
      exact hj (nm, v) List.mem_cons_self rfl
    · simp only [List.map_cons, List.nodup_cons, List.mem_map, not_exists, not_and] at hnd
      rcases List.mem_cons.mp he with rfl | he
      · rw [a3 _ fun e he => hnd.1 e he, p3, if_pos rfl]
      · exact a4 hnd.2 e he

theorem putInputs_total {n : Nat} (m : IndexMap) : ∀ (inputs : List (Name × Int)) (s : WState), WLen n s →
    (∀ e ∈ inputs, m.get e.1 < n) → ∃ s', putInputs m inputs s = some s' := by
  intro inputs
  induction inputs with
  | nil => intro s _ _; exact ⟨s, rfl⟩
  | cons e rest ih =>
    intro s hs hlt
    obtain ⟨s1, h1⟩ := put_total e.2 hs (hlt e List.mem_cons_self)
    obtain ⟨s', h2⟩ := ih s1 (put_spec hs h1).2.1 fun x hx => hlt x (List.mem_cons_of_mem _ hx)
    exact ⟨s', by unfold putInputs; rw [h1]; exact h2⟩

theorem putBits_spec {n : Nat} (father : Nat) : ∀ (zs : List Nat) (b : Nat) (s s' : WState), WLen n s →
    putBits father b zs s = some s' →
    WLen n s' ∧ (∀ j, Kn s' j ↔ Kn s j ∨ j ∈ zs) ∧ (∀ j, j ∉ zs → wv s' j = wv s j) ∧
    (zs.Nodup → father ∉ zs → ∀ i j : Nat, zs[i]? = some j → wv s' j = bitOf (wv s father) (b + i)) := by
  intro zs
  induction zs with
  | nil =>
    intro b s s' hs h
    simp [putBits] at h; subst h
    exact ⟨hs, by simp, by simp, by simp⟩
  | cons z zs ih =>
    intro b s s' hs h
    unfold putBits at h
    split at h
    · cases h
    rename_i s1 hp
    obtain ⟨-, p1, p2, p3⟩ := put_spec hs hp
    obtain ⟨a1, a2, a3, a4⟩ := ih (b + 1) s1 s' p1 h
    refine ⟨a1, fun j => ?_, fun j hj => ?_, fun hnd hf i j hij => ?_⟩
    · rw [a2, p2, List.mem_cons]; tauto
    · rw [List.mem_cons, not_or] at hj
      rw [a3 j hj.2, p3, if_neg hj.1]
    · rw [List.nodup_cons] at hnd
      rw [List.mem_cons, not_or] at hf
      cases i with
      | zero =>
        simp at hij; subst hij
        rw [a3 z hnd.1, p3, if_pos rfl]; rfl
      | succ i =>
        simp at hij
        rw [a4 hnd.2 hf.2 i j hij, p3, if_neg hf.1]
        congr 1; omega

theorem putBits_total {n : Nat} (father : Nat) : ∀ (zs : List Nat) (b : Nat) (s : WState), WLen n s → (∀ z ∈ zs, z < n) →
    ∃ s', putBits father b zs s = some s' := by
  intro zs
  induction zs with
  | nil => intro b s _ _; exact ⟨s, rfl⟩
  | cons z zs ih =>
    intro b s hs hlt
    obtain ⟨s1, h1⟩ := put_total (bitOf (s.w.getD father 0) b) hs (hlt z List.mem_cons_self)
    obtain ⟨s', h2⟩ := ih (b + 1) s1 (put_spec hs h1).2.1 fun x hx => hlt x (List.mem_cons_of_mem _ hx)
    exact ⟨s', by unfold putBits; rw [h1]; exact h2⟩

theorem invBits_spec (father : Nat) : ∀ (zs : List Nat) (b : Nat) (inv : InvSplit),
    (∀ j c f, (invBits father b zs inv).lookup j = some (c, f) →
      inv.lookup j = some (c, f) ∨ (f = father ∧ ∃ i : Nat, c = b + i ∧ zs[i]? = some j)) ∧
    (∀ j, j ∈ zs ∨ inv.lookup j ≠ none → (invBits father b zs inv).lookup j ≠ none) := by
  intro zs
  induction zs with
  | nil => intro b inv; exact ⟨fun j c f h => Or.inl h, by simp [invBits]⟩
  | cons z zs ih =>
    intro b inv
    obtain ⟨h1, h2⟩ := ih (b + 1) ((z, b, father) :: inv)
    refine ⟨fun j c f h => ?_, fun j hj => ?_⟩
    · rcases h1 j c f h with h | ⟨rfl, i, rfl, hi⟩
      · rw [List.lookup_cons] at h
        by_cases hj : j = z
        · subst hj
          simp at h
          obtain ⟨rfl, rfl⟩ := h
          exact Or.inr ⟨rfl, 0, by simp, by simp⟩
        · have : (j == z) = false := by simpa using hj
          rw [this] at h
          exact Or.inl h
      · exact Or.inr ⟨rfl, i + 1, by omega, by simpa using hi⟩
    · apply h2
      rw [List.lookup_cons]
      by_cases hj' : j = z
      · subst hj'; right; simp
      · have : (j == z) = false := by simpa using hj'
        rw [this]
        rcases hj with hj | hj
        · rcases List.mem_cons.mp hj with hj | hj
          exacts [absurd hj hj', Or.inl hj]
        · exact Or.inr hj

theorem initSplits_spec {n : Nat} (m : IndexMap) : ∀ (sp : SplitMap) (s s' : WState) (inv inv' : InvSplit), WLen n s →
    initSplits m sp (s, inv) = some (s', inv') →
    WLen n s' ∧ (∀ j, ¬ BitPos sp j → (Kn s' j ↔ Kn s j) ∧ wv s' j = wv s j) ∧ (∀ j, Kn s j → Kn s' j) ∧
    (∀ j c f, inv'.lookup j = some (c, f) → inv.lookup j = some (c, f) ∨ ∃ e ∈ sp, f = m.get e.1 ∧ e.2[c]? = some j) ∧
    (∀ j, BitPos sp j ∨ inv.lookup j ≠ none → inv'.lookup j ≠ none) := by
  intro sp
  induction sp with
  | nil =>
    intro s s' inv inv' hs h
    simp [initSplits] at h
    obtain ⟨rfl, rfl⟩ := h
    exact ⟨hs, fun j _ => ⟨Iff.rfl, rfl⟩, fun j h => h, fun j c f h => Or.inl h, by simp [BitPos]⟩
  | cons e rest ih =>
    intro s s' inv inv' hs h
    obtain ⟨k, zs⟩ := e
    unfold initSplits at h
    split at h
    · cases h
    rename_i b hb
    split at h
    · cases h
    rename_i s1 h1
    obtain ⟨a1, a2, a3, a4, a5⟩ := ih s1 s' _ inv' (by
      cases b
      · simp at h1; subst h1; exact hs
      · exact (putBits_spec _ _ _ _ _ hs h1).1) h
    have hnb : ∀ j, ¬ BitPos ((k, zs) :: rest) j → j ∉ zs ∧ ¬ BitPos rest j := by
      intro j hj
      refine ⟨fun hz => hj ⟨(k, zs), by simp, hz⟩, fun ⟨e, he, hje⟩ => hj ⟨e, List.mem_cons_of_mem _ he, hje⟩⟩
    have hs1 : (∀ j, j ∉ zs → (Kn s1 j ↔ Kn s j) ∧ wv s1 j = wv s j) ∧ (∀ j, Kn s j → Kn s1 j) := by
      cases b
      · simp at h1; subst h1; exact ⟨fun j _ => ⟨Iff.rfl, rfl⟩, fun j h => h⟩
      · obtain ⟨-, b2, b3, -⟩ := putBits_spec _ _ _ _ _ hs h1
        exact ⟨fun j hj => ⟨by rw [b2]; simp [hj], b3 j hj⟩, fun j hj => (b2 j).mpr (Or.inl hj)⟩
    obtain ⟨i1, i2⟩ := invBits_spec (m.get k) zs 0 inv
    refine ⟨a1, fun j hj => ?_, fun j hj => a3 j (hs1.2 j hj), fun j c f hl => ?_, fun j hj => ?_⟩
    · obtain ⟨n1, n2⟩ := hnb j hj
      exact ⟨(a2 j n2).1.trans (hs1.1 j n1).1, (a2 j n2).2.trans (hs1.1 j n1).2⟩
    · rcases a4 j c f hl with h' | ⟨e, he, h1, h2⟩
      · rcases i1 j c f h' with h' | ⟨rfl, i, rfl, hi⟩
        · exact Or.inl h'
        · exact Or.inr ⟨(k, zs), by simp, rfl, by simpa using hi⟩
      · exact Or.inr ⟨e, List.mem_cons_of_mem _ he, h1, h2⟩
    · apply a5
      rcases hj with ⟨e, he, hje⟩ | hj
      · rcases List.mem_cons.mp he with rfl | he
        · exact Or.inr (i2 j (Or.inl hje))
        · exact Or.inl ⟨e, he, hje⟩
      · exact Or.inr (i2 j (Or.inr hj))

/-- what the state before the first gate looks like -/
structure InitSpec (m : IndexMap) (sp : SplitMap) (rnd : Int) (inputs : List (Name × Int)) (s : WState) (inv : InvSplit) :
    Prop where
  len : WLen m.length s
  invL : ∀ j c f, inv.lookup j = some (c, f) → ∃ e ∈ sp, f = m.get e.1 ∧ e.2[c]? = some j
  invB : ∀ j, BitPos sp j → inv.lookup j ≠ none
  one : (∀ e ∈ inputs, m.get e.1 ≠ 0) → ¬ BitPos sp 0 → Kn s 0 ∧ wv s 0 = 1
  input : (inputs.map fun e => m.get e.1).Nodup → ∀ e ∈ inputs, ¬ BitPos sp (m.get e.1) →
    Kn s (m.get e.1) ∧ wv s (m.get e.1) = e.2
  rand : m.get randIn ≠ 0 → (∀ e ∈ inputs, m.get e.1 ≠ m.get randIn) → ¬ BitPos sp (m.get randIn) →
    Kn s (m.get randIn) ∧ wv s (m.get randIn) = rnd
  known : ∀ j, Kn s j → j = 0 ∨ j = m.get randIn ∨ (∃ e ∈ inputs, m.get e.1 = j) ∨ BitPos sp j

theorem kn_replicate (n j : Nat) (l : List Int) : ¬ Kn ⟨l, List.replicate n false⟩ j := by
  unfold Kn
  simp [List.getElem?_replicate]

theorem initWitness_spec {m : IndexMap} {sp : SplitMap} {rnd : Int} {inputs : List (Name × Int)} {s : WState} {inv : InvSplit}
    (h : initWitness m sp rnd inputs = some (s, inv)) : InitSpec m sp rnd inputs s inv := by
  unfold initWitness at h
  obtain ⟨s1, h1, h⟩ := Option.bind_eq_some_iff.mp h
  obtain ⟨s2, h2, h⟩ := Option.bind_eq_some_iff.mp h
  obtain ⟨s3, h3, h⟩ := Option.bind_eq_some_iff.mp h
  obtain ⟨-, p1, p2, p3⟩ := put_spec (n := m.length) ⟨by simp, by simp⟩ h1
  have q' : WLen m.length s2 ∧ (∀ j, Kn s2 j ↔ (m.get randIn ≠ 0 ∧ j = m.get randIn) ∨ Kn s1 j) ∧
      (∀ j, wv s2 j = if m.get randIn ≠ 0 ∧ j = m.get randIn then rnd else wv s1 j) := by
    by_cases h0 : m.get randIn ≠ 0
    · rw [if_pos h0] at h2
      obtain ⟨-, r1, r2, r3⟩ := put_spec p1 h2
      exact ⟨r1, fun j => by rw [r2]; simp [h0], fun j => by rw [r3]; simp [h0]⟩
    · rw [if_neg h0] at h2
      cases h2
      exact ⟨p1, fun j => by simp [h0], fun j => by simp [h0]⟩
  obtain ⟨q1, q2, q3⟩ := q'
  obtain ⟨r1, r2, r3, r4⟩ := putInputs_spec m inputs s2 s3 q1 h3
  obtain ⟨t1, t2, t3, t4, t5⟩ := initSplits_spec m sp s3 s [] inv r1 h
  refine ⟨t1, fun j c f hl => ?_, fun j hj => t5 j (Or.inl hj), fun hi hb => ?_, fun hnd e he hb => ?_, fun h0 hi hb => ?_,
    fun j hj => ?_⟩
  · rcases t4 j c f hl with h' | h'
    · simp at h'
    · exact h'
  · rw [(t2 0 hb).1, (t2 0 hb).2, r2, r3 0 hi, q2, q3]
    have hne : ¬ (m.get randIn ≠ 0 ∧ 0 = m.get randIn) := fun h => h.1 h.2.symm
    rw [if_neg hne, p2, p3, if_pos rfl]
    exact ⟨Or.inl (Or.inr (Or.inl rfl)), rfl⟩
  · rw [(t2 _ hb).1, (t2 _ hb).2, r2, r4 hnd e he]
    exact ⟨Or.inr ⟨e, he, rfl⟩, rfl⟩
  · rw [(t2 _ hb).1, (t2 _ hb).2, r2, r3 _ hi, q2, q3]
    simp [h0]
  · by_cases hb : BitPos sp j
    · exact Or.inr (Or.inr (Or.inr hb))
    · rw [(t2 j hb).1, r2, q2, p2] at hj
      rcases hj with (⟨-, rfl⟩ | rfl | hj) | hj
      · exact Or.inr (Or.inl rfl)
      · exact Or.inl rfl
      · exact absurd hj (kn_replicate _ _ _)
      · exact Or.inr (Or.inr (Or.inl hj))

/-! ### the loop -/

section loop
variable {α : Type} {inv : InvSplit} {n : Nat} {entry : α → Nat → Int} {gx : ZMod q → ZMod q}

/-- running a step function with `StepSpec` over the rows: everything stays, and all rows hold in the end -/
theorem loop_sound (step : Row α → WState → Option WState) (rows : List (Row α)) : ∀ (done : List (Row α)) (s s' : WState),
    WLen n s → (∀ row ∈ done, ∀ j, Mentions entry row j → Kn s j) →
    (∀ pre row post, rows = pre ++ row :: post → ∀ s s' : WState, WLen n s →
      (∀ r ∈ done ++ pre, ∀ j, Mentions entry r j → Kn s j) → step row s = some s' → StepSpec q gx inv n entry row s s') →
    rows.foldlM (fun s row => step row s) s = some s' →
    WLen n s' ∧ SExt s s' ∧ (∀ row ∈ rows, ∀ W : List Int, W.length = n → Agrees s' W → SatE q gx entry W row) ∧
      (∀ row ∈ rows, ∀ j, Mentions entry row j → Kn s' j) := by
  induction rows with
  | nil =>
    intro done s s' hs _ _ h
    simp at h; subst h
    exact ⟨hs, .refl _, by simp, by simp⟩
  | cons row rows ih =>
    intro done s s' hs hd hstep h
    rw [List.foldlM_cons] at h
    obtain ⟨s1, h1, h2⟩ := Option.bind_eq_some_iff.mp h
    have hst := hstep [] row rows rfl s s1 hs (by simpa using hd) h1
    obtain ⟨a1, a2, a3, a4⟩ := ih (done ++ [row]) s1 s' hst.len (by
      intro r hr j hj
      rcases List.mem_append.mp hr with hr | hr
      · exact hst.ext.kn j (hd r hr j hj)
      · simp at hr; subst hr; exact hst.known j hj) (by
      intro pre r post he t t' ht hk hs'
      refine hstep (row :: pre) r post (by simp [he]) t t' ht ?_ hs'
      intro x hx; apply hk
      simp at hx ⊢; exact hx) h2
    refine ⟨a1, hst.ext.trans a2, ?_, ?_⟩
    · intro r hr W hl hW
      rcases List.mem_cons.mp hr with rfl | hr
      · exact hst.sat W hl (hW.mono a2)
      · exact a3 r hr W hl hW
    · intro r hr j hj
      rcases List.mem_cons.mp hr with rfl | hr
      · exact a2.kn j (hst.known j hj)
      · exact a4 r hr j hj

end loop

end APS.Circuit
