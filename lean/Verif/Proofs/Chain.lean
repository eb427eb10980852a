import Verif.Proofs.Frame

/-! Chains of frames: lookups, changes, variables. -/
namespace APS.Prog
open APS.Lex (Token TokenType)
open APS.Parse (Constraint)
open APS.Circuit
open APS.LangSpec (builtins Stm Fun)
open APS.ParseSpec (Ex indexText tree trees)

theorem Node.obj {m : Mem} {a ctx : Nat} {ins : List Name} {tasks : List Constraint} {vs as : List Name}
    (h : Node m a ctx ins tasks vs as) : ∃ (f : FObj) (i : Nat) (ents : List (Name × Nat)), m.objs[a]? = some f ∧ f.context = some ctx ∧
      f.fmap = some i ∧ m.maps[i]? = some ents := by
  obtain ⟨f, i, ents, h1, h2, h3, h4, -⟩ := h
  exact ⟨f, i, ents, h1, h2, h3, h4⟩

theorem Chain.mem {m : Mem} : ∀ {ch : List Frame}, Chain m ch → ∀ F ∈ ch, ∃ ctx, F.node m ctx := by
  intro ch
  induction ch with
  | nil => exact fun h => h.elim
  | cons F ch ih =>
    intro h E hE
    cases ch with
    | nil => simp at hE; subst hE; exact ⟨0, h⟩
    | cons G rest =>
      rcases List.mem_cons.mp hE with rfl | hE
      · exact ⟨_, h.1⟩
      · exact ih h.2.2 E hE

theorem Chain.obj {m : Mem} {ch : List Frame} (h : Chain m ch) {F : Frame} (hF : F ∈ ch) :
    ∃ (f : FObj) (i : Nat) (ents : List (Name × Nat)), m.objs[F.addr]? = some f ∧ f.context ≠ none ∧ f.fmap = some i ∧ m.maps[i]? = some ents := by
  obtain ⟨ctx, ins, tasks, hn⟩ := h.mem F hF
  obtain ⟨f, i, ents, h1, h2, h3, h4⟩ := hn.obj
  exact ⟨f, i, ents, h1, by rw [h2]; simp, h3, h4⟩

theorem Chain.lt {m : Mem} {ch : List Frame} (h : Chain m ch) {F : Frame} (hF : F ∈ ch) : F.addr < m.objs.length := by
  obtain ⟨f, _, _, h1, _⟩ := h.obj hF
  exact lt_of_obj h1

/-- a declared name belongs to one frame only -/
theorem Chain.unique {m : Mem} : ∀ {ch : List Frame}, Chain m ch → ∀ {F E : Frame}, F ∈ ch → E ∈ ch → ∀ {y : Name}, y ∈ F.bases → y ∈ E.bases →
    F.addr = E.addr ∧ F = E := by
  intro ch
  induction ch with
  | nil => exact fun h => h.elim
  | cons G ch ih =>
    intro h F E hF hE y yF yE
    cases ch with
    | nil =>
      simp at hF hE; subst hF hE; exact ⟨rfl, rfl⟩
    | cons K rest =>
      rcases List.mem_cons.mp hF with rfl | hF'
      · rcases List.mem_cons.mp hE with rfl | hE'
        · exact ⟨rfl, rfl⟩
        · exact ((h.2.1 E hE').2 y yF yE).elim
      · rcases List.mem_cons.mp hE with rfl | hE'
        · exact ((h.2.1 F hF').2 y yE yF).elim
        · exact ih h.2.2 hF' hE' yF yE

theorem own_grow {S : Nat → Prop} {m m' : Mem} (hg : Grow S m m') {a i : Nat} {f : FObj} {ents : List (Name × Nat)}
    (h1 : m.objs[a]? = some f) (h2 : f.fmap = some i) (h3 : m.maps[i]? = some ents) (hs : ¬ S i) (k : Name) :
    m'.ownFunction a k = m.ownFunction a k := by
  rw [own_eq h1 h2 h3, own_eq (hg.obj h1) h2 (hg.map h3 hs)]

theorem node_grow {S : Nat → Prop} {m m' : Mem} (hg : Grow S m m') {a ctx : Nat} {ins : List Name} {tasks : List Constraint} {vs as : List Name}
    (hs : ∀ (f : FObj) (i : Nat), m.objs[a]? = some f → f.fmap = some i → ¬ S i)
    (h : Node m a ctx ins tasks vs as) : Node m' a ctx ins tasks vs as := by
  obtain ⟨f, i, ents, h1, h2, h3, h4, h5⟩ := h
  exact ⟨f, i, ents, hg.obj h1, h2, h3, hg.map h4 (hs f i h1 h3), h5⟩

theorem not_fr {m : Mem} (hok : MemOK m) {ch : List Frame} {a i : Nat} {f : FObj} (h1 : m.objs[a]? = some f) (h2 : f.fmap = some i)
    (ha : ∀ F ∈ ch, F.addr ≠ a) : ¬ Fr m ch i := by
  rintro ⟨F, hF, f', h3, h4⟩
  exact ha F hF (hok.inj _ _ _ _ _ h3 h1 h4 h2)

theorem free_not_fr {m : Mem} (hok : MemOK m) {ch : List Frame} (hc : Chain m ch) {a i : Nat} {f : FObj} (h1 : m.objs[a]? = some f)
    (hf : Free f) (h2 : f.fmap = some i) : ¬ Fr m ch i := by
  refine not_fr hok h1 h2 fun F hF he => ?_
  obtain ⟨f', _, _, k1, k2, _⟩ := hc.obj hF
  rw [he, h1] at k1; cases k1
  exact k2 hf

theorem fr_grow {S : Nat → Prop} {m m' : Mem} (hg : Grow S m m') {ch : List Frame} (hc : Chain m ch) {i : Nat} : Fr m' ch i → Fr m ch i := by
  rintro ⟨F, hF, f, h1, h2⟩
  exact ⟨F, hF, f, by rw [← hg.objs _ (hc.lt hF)]; exact h1, h2⟩

theorem Step.refl (ch : List Frame) (m : Mem) : Step ch m m :=
  ⟨Grow.refl _ _, fun _ _ _ => rfl, fun _ _ _ _ => rfl, fun _ _ _ _ _ _ _ => rfl⟩

theorem Step.trans {ch : List Frame} {a b c : Mem} (hc : Chain a ch) (h : Step ch a b) (h' : Step ch b c) : Step ch a c := by
  refine ⟨h.grow.trans (h'.grow.weaken fun i _ hi => fr_grow h.grow hc hi), fun F hF k => (h'.keys F hF k).trans (h.keys F hF k),
    fun F hF k hk => (h'.loops F hF k hk).trans (h.loops F hF k hk),
    fun F hF hv f i h1 h2 => (h'.still F hF hv f i (h.grow.obj h1) h2).trans (h.still F hF hv f i h1 h2)⟩

theorem Step.of_grow0 {ch : List Frame} {m m' : Mem} (hc : Chain m ch) (hg : Grow0 m m') : Step ch m m' := by
  have own : ∀ F ∈ ch, ∀ k, m'.ownFunction F.addr k = m.ownFunction F.addr k := by
    intro F hF k
    obtain ⟨f, i, ents, h1, _, h2, h3⟩ := hc.obj hF
    exact own_grow hg h1 h2 h3 (by simp) k
  exact ⟨hg.weaken (fun _ _ h => h.elim), fun F hF k => by rw [own F hF], fun F hF k _ => own F hF k, fun F hF _ f i h1 h2 => by
    obtain ⟨f', i', ents, k1, _, k2, k3⟩ := hc.obj hF
    rw [h1] at k1; cases k1
    rw [h2] at k2; cases k2
    rw [hg.map k3 (by simp), k3]⟩

/-- frames keep their shape -/
theorem frame_step {ch : List Frame} {m m' : Mem} (hs : Step ch m m') {F : Frame} (hF : F ∈ ch) {ctx : Nat} (h : F.node m ctx) :
    F.node m' ctx := by
  obtain ⟨ins, tasks, f, i, ents, h1, h2, h3, h4, h5, h6, h7, h8, h9⟩ := h
  have hl : i < m.maps.length := (List.getElem?_eq_some_iff.mp h4).1
  have hl' : i < m'.maps.length := lt_of_lt_of_le hl hs.grow.mlen
  have h4' : m'.maps[i]? = some m'.maps[i] := List.getElem?_eq_some_iff.mpr ⟨hl', rfl⟩
  have key : ∀ k, (m'.maps[i].lookup k).isSome = (ents.lookup k).isSome := by
    intro k
    have := hs.keys F hF k
    rwa [own_eq (hs.grow.obj h1) h3 h4', own_eq h1 h3 h4] at this
  exact ⟨ins, tasks, f, i, _, hs.grow.obj h1, h2, h3, h4', h5, h6, fun k hk => by rw [key]; exact h7 k hk,
    fun k hk => h8 k (by rw [← key]; exact hk), h9⟩

theorem Chain.step {m m' : Mem} {ch0 : List Frame} (hs : Step ch0 m m') : ∀ {ch : List Frame}, (∀ F ∈ ch, F ∈ ch0) → Chain m ch → Chain m' ch := by
  intro ch
  induction ch with
  | nil => exact fun _ h => h.elim
  | cons F ch ih =>
    intro hsub h
    cases ch with
    | nil => exact frame_step hs (hsub F (by simp)) h
    | cons G rest =>
      exact ⟨frame_step hs (hsub F (by simp)) h.1, h.2.1, ih (fun E hE => hsub E (List.mem_cons_of_mem _ hE)) h.2.2⟩

theorem Chain.step' {m m' : Mem} {ch : List Frame} (h : Chain m ch) (hs : Step ch m m') : Chain m' ch := h.step hs fun _ => id

theorem Chain.tail {m : Mem} {F G : Frame} {ch : List Frame} (h : Chain m (F :: G :: ch)) : Chain m (G :: ch) := h.2.2

/-- what lies outside the frames keeps its loops -/
theorem loops_step {ch : List Frame} {m m' : Mem} (hok : MemOK m) (hs : Step ch m m') {U : Nat → Prop}
    (hU : ∀ a, U a → ∀ F ∈ ch, F.addr ≠ a) {a i : Nat} {sts : List Stm}
    (ha : ∀ k, IsFor k → m'.ownFunction a k = m.ownFunction a k) (h : Loops m U a i sts) : Loops m' U a i sts := by
  refine loops_move (fun a h _ => h) ?_ ?_ sts a i ha h
  · intro a ctx ins tasks vs as ha hn
    exact node_grow hs.grow (fun f i h1 h2 => not_fr hok h1 h2 (hU a ha)) hn
  · intro a ctx ins tasks vs as ha hn k
    obtain ⟨f, i, ents, h1, h2, h3, h4⟩ := hn.obj
    exact own_grow hs.grow h1 h3 h4 (not_fr hok h1 h3 (hU a ha)) k

/-! ### lookups -/

theorem find_chain {m : Mem} : ∀ {ch : List Frame}, Chain m ch → ∀ {n : Nat} {F : Frame} {rest : List Frame} {k : Name} {o : Nat}, ch = F :: rest →
    m.findFunction n (some F.addr) k = some o → (∃ E ∈ ch, m.ownFunction E.addr k = some o) ∨
      ((∀ E ∈ ch, m.ownFunction E.addr k = none) ∧ ∃ n', m.findFunction n' (some 0) k = some o) := by
  intro ch
  induction ch with
  | nil => exact fun h => h.elim
  | cons F ch ih =>
    intro hc n F' rest k o he h
    cases he
    cases n with
    | zero => simp [Mem.findFunction] at h
    | succ n =>
      simp only [Mem.findFunction] at h
      cases ho : m.ownFunction F.addr k with
      | some f => rw [ho] at h; simp only [Option.some.injEq] at h; subst h; exact Or.inl ⟨F, by simp, ho⟩
      | none =>
        rw [ho] at h
        simp only at h
        cases ch with
        | nil =>
          obtain ⟨ins, tasks, hn⟩ := hc
          obtain ⟨f, i, ents, h1, h2, -⟩ := hn.obj
          rw [h1] at h
          simp only [Option.bind_some, h2] at h
          exact Or.inr ⟨by simpa using ho, n, h⟩
        | cons G rest =>
          obtain ⟨⟨ins, tasks, hn⟩, -, hc'⟩ := hc
          obtain ⟨f, i, ents, h1, h2, -⟩ := hn.obj
          rw [h1] at h
          simp only [Option.bind_some, h2] at h
          rcases ih hc' rfl h with ⟨E, hE, h3⟩ | ⟨h3, h4⟩
          · exact Or.inl ⟨E, List.mem_cons_of_mem _ hE, h3⟩
          · refine Or.inr ⟨fun E hE => ?_, h4⟩
            rcases List.mem_cons.mp hE with rfl | hE
            · exact ho
            · exact h3 E hE

theorem owner_chain {m : Mem} : ∀ {ch : List Frame}, Chain m ch → ∀ {n : Nat} {F : Frame} {rest : List Frame} {k : Name} {o : Nat}, ch = F :: rest →
    m.findOwner n (some F.addr) k = some o → (∃ E ∈ ch, o = E.addr ∧ (m.ownFunction E.addr k).isSome) ∨
      (∃ n', m.findOwner n' (some 0) k = some o) := by
  intro ch
  induction ch with
  | nil => exact fun h => h.elim
  | cons F ch ih =>
    intro hc n F' rest k o he h
    cases he
    cases n with
    | zero => simp [Mem.findOwner] at h
    | succ n =>
      simp only [Mem.findOwner] at h
      cases ho : m.ownFunction F.addr k with
      | some f => rw [ho] at h; simp only [Option.some.injEq] at h; subst h; exact Or.inl ⟨F, by simp, rfl, by rw [ho]; rfl⟩
      | none =>
        rw [ho] at h
        simp only at h
        cases ch with
        | nil =>
          obtain ⟨ins, tasks, hn⟩ := hc
          obtain ⟨f, i, ents, h1, h2, -⟩ := hn.obj
          rw [h1] at h
          simp only [Option.bind_some, h2] at h
          exact Or.inr ⟨n, h⟩
        | cons G rest =>
          obtain ⟨⟨ins, tasks, hn⟩, -, hc'⟩ := hc
          obtain ⟨f, i, ents, h1, h2, -⟩ := hn.obj
          rw [h1] at h
          simp only [Option.bind_some, h2] at h
          rcases ih hc' rfl h with ⟨E, hE, h3⟩ | h3
          · exact Or.inl ⟨E, List.mem_cons_of_mem _ hE, h3⟩
          · exact Or.inr h3

theorem constraint_chain {m : Mem} : ∀ {ch : List Frame}, Chain m ch → ∀ {n : Nat} {F : Frame} {rest : List Frame} {k : Name} {c : Constraint},
    ch = F :: rest → m.findConstraint n (some F.addr) k = some c → c = node .functionCall k ∨ (∃ E ∈ ch, k ∈ E.as ∧ k ∉ E.vs) ∨
      (∃ n', m.findConstraint n' (some 0) k = some c) := by
  intro ch
  induction ch with
  | nil => exact fun h => h.elim
  | cons F ch ih =>
    intro hc n F' rest k c he h
    cases he
    cases n with
    | zero => simp [Mem.findConstraint] at h
    | succ n =>
      obtain ⟨ctx, ins, tasks, f, i, ents, h1, h2, h3, h4, h5, h6, h7, h8, h9⟩ := hc.mem F (by simp)
      simp only [Mem.findConstraint, h1, Option.bind_some] at h
      cases hl : f.cmap.lookup k with
      | some c' =>
        rw [hl] at h
        simp only [Option.some.injEq] at h
        subst h
        rcases h9 k c' hl with ⟨_, h⟩ | h
        · exact Or.inl h
        · exact Or.inr (Or.inl ⟨F, by simp, h⟩)
      | none =>
        rw [hl] at h
        simp only at h
        cases ch with
        | nil =>
          obtain ⟨ins, tasks, hn⟩ := hc
          obtain ⟨f', i', ents', k1, k2, -⟩ := hn.obj
          rw [h1] at k1; cases k1
          rw [k2] at h
          exact Or.inr (Or.inr ⟨n, h⟩)
        | cons G rest =>
          obtain ⟨⟨ins, tasks, hn⟩, -, hc'⟩ := hc
          obtain ⟨f', i', ents', k1, k2, -⟩ := hn.obj
          rw [h1] at k1; cases k1
          rw [k2] at h
          rcases ih hc' rfl h with h3 | ⟨E, hE, h3⟩ | h3
          · exact Or.inl h3
          · exact Or.inr (Or.inl ⟨E, List.mem_cons_of_mem _ hE, h3⟩)
          · exact Or.inr (Or.inr h3)

/-! ### global functions -/

/-- the functions of the program are in the map of the object 0, unchanged -/
def Globals (m : Mem) (U : Nat → Prop) (P : List Fun) : Prop :=
  ∃ (f : FObj) (i : Nat) (ents : List (Name × Nat)), m.objs[0]? = some f ∧ f.context = none ∧ f.cmap = [] ∧ f.fmap = some i ∧
    m.maps[i]? = some ents ∧ (∀ k, (ents.lookup k).isSome → k = "main".toList ∨ k ∈ P.map Fun.name) ∧
    ∀ F ∈ P, ∃ b, ents.lookup F.name = some b ∧ U b ∧
      Node m b 0 F.names (tasksFrom 0 F.body ++ [node .ret [] [tree F.ret]]) (F.names ++ vars F.body) (arrs F.body) ∧ Loops m U b 0 F.body

theorem Globals.find {m : Mem} {U : Nat → Prop} {P : List Fun} (h : Globals m U P) {n : Nat} {k : Name} {o : Nat}
    (hf : m.findFunction n (some 0) k = some o) : m.ownFunction 0 k = some o ∧ (k = "main".toList ∨ k ∈ P.map Fun.name) := by
  obtain ⟨f, i, ents, h1, h2, h3, h4, h5, h6, -⟩ := h
  cases n with
  | zero => simp [Mem.findFunction] at hf
  | succ n =>
    simp only [Mem.findFunction] at hf
    cases ho : m.ownFunction 0 k with
    | some f =>
      rw [ho] at hf; simp only [Option.some.injEq] at hf; subst hf
      refine ⟨rfl, h6 k ?_⟩
      rw [← own_eq h1 h4 h5, ho]; rfl
    | none =>
      rw [ho, h1] at hf
      simp only [Option.bind_some, h2] at hf
      cases n <;> simp [Mem.findFunction] at hf

theorem Globals.owner {m : Mem} {U : Nat → Prop} {P : List Fun} (h : Globals m U P) {n : Nat} {k : Name} {o : Nat}
    (hf : m.findOwner n (some 0) k = some o) : k = "main".toList ∨ k ∈ P.map Fun.name := by
  obtain ⟨f, i, ents, h1, h2, h3, h4, h5, h6, -⟩ := h
  cases n with
  | zero => simp [Mem.findOwner] at hf
  | succ n =>
    simp only [Mem.findOwner] at hf
    cases ho : m.ownFunction 0 k with
    | some f =>
      refine h6 k ?_
      rw [← own_eq h1 h4 h5, ho]; rfl
    | none =>
      rw [ho, h1] at hf
      simp only [Option.bind_some, h2] at hf
      cases n <;> simp [Mem.findOwner] at hf

theorem Globals.constraint {m : Mem} {U : Nat → Prop} {P : List Fun} (h : Globals m U P) {n : Nat} {k : Name} {c : Constraint}
    (hf : m.findConstraint n (some 0) k = some c) : False := by
  obtain ⟨f, i, ents, h1, h2, h3, -⟩ := h
  cases n with
  | zero => simp [Mem.findConstraint] at hf
  | succ n =>
    simp only [Mem.findConstraint, h1, Option.bind_some, h3, List.lookup_nil, h2] at hf
    cases n <;> simp [Mem.findConstraint] at hf

/-- the object 0 is no frame -/
theorem Chain.ne_zero {m : Mem} {ch : List Frame} (h : Chain m ch) {U : Nat → Prop} {P : List Fun} (hg : Globals m U P) : ∀ F ∈ ch, F.addr ≠ 0 := by
  intro F hF he
  obtain ⟨f, _, _, h1, h2, _⟩ := h.obj hF
  obtain ⟨f', _, _, k1, k2, _⟩ := hg
  rw [he, k1] at h1; cases h1
  exact h2 k2

theorem globals_step {ch : List Frame} {m m' : Mem} (hok : MemOK m) (hc : Chain m ch) (hs : Step ch m m') {U : Nat → Prop} {P : List Fun}
    (hU : ∀ a, U a → ∀ F ∈ ch, F.addr ≠ a) (h : Globals m U P) : Globals m' U P := by
  have h0 := hc.ne_zero h
  obtain ⟨f, i, ents, h1, h2, h3, h4, h5, h6, h7⟩ := h
  refine ⟨f, i, ents, hs.grow.obj h1, h2, h3, h4, hs.grow.map h5 (not_fr hok h1 h4 h0), h6, ?_⟩
  intro F hF
  obtain ⟨b, b1, b2, b3, b4⟩ := h7 F hF
  refine ⟨b, b1, b2, node_grow hs.grow (fun f i h1 h2 => not_fr hok h1 h2 (hU b b2)) b3, loops_step hok hs hU ?_ b4⟩
  intro k _
  obtain ⟨f, i, ents, h1, h2, h3, h4⟩ := b3.obj
  exact own_grow hs.grow h1 h3 h4 (not_fr hok h1 h3 (hU b b2)) k

theorem globals_weaken {m : Mem} {U U' : Nat → Prop} {P : List Fun} (hU : ∀ a, U a → a < m.objs.length → U' a) (h : Globals m U P) : Globals m U' P := by
  obtain ⟨f, i, ents, h1, h2, h3, h4, h5, h6, h7⟩ := h
  refine ⟨f, i, ents, h1, h2, h3, h4, h5, h6, fun F hF => ?_⟩
  obtain ⟨b, b1, b2, b3, b4⟩ := h7 F hF
  obtain ⟨f, _, _, hf, _⟩ := b3.obj
  exact ⟨b, b1, hU b b2 (lt_of_obj hf), b3, loops_move hU (fun _ _ _ _ _ _ _ h => h) (fun _ _ _ _ _ _ _ _ _ => rfl) _ _ _ (fun _ _ => rfl) b4⟩

/-! ### variables -/

/-- the variables in `V` have their values in the environment -/
def Rep (m : Mem) (ch : List Frame) (V : Name → Prop) (env : Env) : Prop :=
  ∀ F ∈ ch, ∀ x o, V x → m.ownFunction F.addr x = some o → ∃ g, env.lookup x = some g ∧ Val m g o

theorem Rep.mono {m : Mem} {ch : List Frame} {V V' : Name → Prop} {env : Env} (h : Rep m ch V env)
    (hV : ∀ F ∈ ch, ∀ x, (m.ownFunction F.addr x).isSome → V' x → V x) : Rep m ch V' env :=
  fun F hF x o hx ho => h F hF x o (hV F hF x (by rw [ho]; rfl) hx) ho

theorem Rep.grow0 {m m' : Mem} {ch : List Frame} {V : Name → Prop} {env : Env} (hc : Chain m ch) (hg : Grow0 m m') (h : Rep m ch V env) :
    Rep m' ch V env := by
  intro F hF x o hx ho
  obtain ⟨f, i, ents, h1, _, h2, h3⟩ := hc.obj hF
  rw [own_grow hg h1 h2 h3 (by simp)] at ho
  obtain ⟨g, h4, h5⟩ := h F hF x o hx ho
  exact ⟨g, h4, h5.grow0 hg⟩

end APS.Prog
