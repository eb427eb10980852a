import Verif.Proofs.ValueCall

/-! Functions and blocks on the heap: templates, frames of running functions, and the variables in them. -/
namespace APS.Prog
open APS.Lex (Token TokenType)
open APS.Parse (Constraint)
open APS.Circuit
open APS.LangSpec (builtins Stm Fun)
open APS.ParseSpec (Ex indexText tree trees)

/-! ### names -/

/-- names that are not empty and not those of builtin functions -/
structure Plain (n : Name) : Prop where
  ne : n ≠ []
  user : n ∉ builtins

theorem good_sep {q : Nat} {f : Factors} {K : List Name} (hf : GoodF q f) (hk : KnownF K f) (hp : ∀ n ∈ K, Plain n)
    (hd : (f.map (·.tok.ident)).Nodup) : Sep f ∧ Callable f := by
  have num : ∀ x ∈ f, x.tok.isNum = true → (parseInt x.tok.ident).isSome := by
    intro x hx hn
    obtain ⟨v, hv, -⟩ := hf.text x hx hn
    rw [hv]; rfl
  have arg : ∀ x ∈ f, ¬ x.tok.isNum = true → Plain x.tok.ident := by
    intro x hx hn
    exact hp _ (hk _ (List.mem_map.mpr ⟨x, hx, by simp [Factor.key, hn]⟩))
  refine ⟨⟨hd, ?_, ?_⟩, ?_⟩
  · intro x hx he
    by_cases h1 : x.tok.isNum = true
    · have := num x hx h1; rw [he] at this; cases this
    · exact (arg x hx h1).ne he
  · have h := hf.nodup
    rw [List.Nodup, List.pairwise_map] at h
    refine List.Pairwise.imp ?_ h
    rintro x y hxy ⟨h1, h2⟩
    exact hxy (by simp [Factor.key, h1, h2])
  · intro x hx hb
    by_cases h1 : x.tok.isNum = true
    · have := num x hx h1
      have hall : ∀ n ∈ builtins, parseInt n = none := by decide +kernel
      rw [hall _ hb] at this; cases this
    · exact (arg x hx h1).user hb

/-- names of loop bodies -/
def forName (i : Nat) : Name := taskName i "for".toList

/-- names of conditional statements and of their branches -/
def ifName (i : Nat) : Name := taskName i "if".toList

def IsFor (k : Name) : Prop := ∃ i, k = forName i ∨ k = ifName i

/-- the variable or array a key belongs to -/
def base (x : Name) : Name := x.takeWhile (· != '[')

/-- the keys of the variables of a statement -/
def stVars : Stm → List Name
  | .decl x _ => [x]
  | .declArr a es => (List.range es.length).map fun i => a ++ indexText [i]
  | _ => []

/-- the arrays of a statement -/
def stArrs : Stm → List Name
  | .declArr a _ => [a]
  | _ => []

def vars (sts : List Stm) : List Name := sts.flatMap stVars
def arrs (sts : List Stm) : List Name := sts.flatMap stArrs

/-! ### tasks -/

/-- assignment of an expression -/
def setTask (target : Constraint) (e : Ex) : Constraint := node .varOverload [] [target, tree e]

/-- the target of an assignment -/
def target (x : Name) : List Ex → Constraint
  | [] => .mk ⟨.identifier, x⟩ []
  | i :: is => .mk ⟨.arrayCall, x⟩ (trees (i :: is))

/-- declarations of the elements of an array -/
def elemTasks (a : Name) : Nat → List Ex → List Constraint
  | _, [] => []
  | i, e :: es => setTask (.mk ⟨.varDeclare, a ++ indexText [i]⟩ []) e :: elemTasks a (i + 1) es

/-- the condition of a loop -/
def condTree (l : Ex) (cmp : Name) (r : Ex) : Constraint := tree (.bin ⟨.comparator, cmp⟩ l r)

/-- the tasks of a statement; `i` is the number of tasks before -/
def stTasks (i : Nat) : Stm → List Constraint
  | .decl x e => [setTask (.mk ⟨.varDeclare, x⟩ []) e]
  | .declArr a es => elemTasks a 0 es
  | .assign x idx e => [setTask (target x idx) e]
  | .call f args => [.mk ⟨.functionCall, f⟩ (trees args)]
  | .loop l cmp r x step _ => [node .forT (forName i) [condTree l cmp r, setTask (target x []) step]]
  | .cond .. => [node .ifFunctionCall (ifName i)]

/-- the task of `return`, if there is one -/
def retTask : Option Ex → List Constraint
  | none => []
  | some e => [node .ret [] [tree e]]

/-- the number of tasks of a statement -/
def width : Stm → Nat
  | .declArr _ es => es.length
  | _ => 1

/-- the tasks of a block -/
def tasksFrom : Nat → List Stm → List Constraint
  | _, [] => []
  | i, st :: sts => stTasks i st ++ tasksFrom (i + width st) sts

/-! ### blocks on the heap -/

/-- the object of a block: its variables have entries in the map and in the constraint map -/
def Node (m : Mem) (a ctx : Nat) (ins : List Name) (tasks : List Constraint) (vs as : List Name) : Prop :=
  ∃ (f : FObj) (i : Nat) (ents : List (Name × Nat)), m.objs[a]? = some f ∧ f.context = some ctx ∧ f.fmap = some i ∧
    m.maps[i]? = some ents ∧ f.inputs = ins ∧ f.tasks = tasks ∧ (∀ k ∈ vs, (ents.lookup k).isSome) ∧
    (∀ k, (ents.lookup k).isSome → k ∈ vs ∨ IsFor k) ∧
    (∀ k c, f.cmap.lookup k = some c → (k ∈ vs ∧ c = node .functionCall k) ∨ (k ∈ as ∧ k ∉ vs)) 

mutual
/-- the body of a loop is an object of its own, reachable from the block of the loop; a conditional statement is an object
with an object for its branch; the context of the branch is the block, or, in a copy, the conditional statement -/
def Loop (m : Mem) (U : Nat → Prop) (a i : Nat) : Stm → Prop
  | .loop _ _ _ _ _ body => ∃ b, m.ownFunction a (forName i) = some b ∧ U b ∧
      Node m b a [] (tasksFrom 0 body) (vars body) (arrs body) ∧ Loops m U b 0 body
  | .cond l cmp r body fin => ∃ b c, m.ownFunction a (ifName i) = some b ∧ U b ∧
      Node m b a [] [node .ifT (ifName 0) [condTree l cmp r]] [] [] ∧ m.ownFunction b (ifName 0) = some c ∧ U c ∧ b ≠ c ∧
      (∃ ctx, (ctx = a ∨ ctx = b) ∧ Node m c ctx [] (tasksFrom 0 body ++ retTask fin) (vars body) (arrs body)) ∧ Loops m U c 0 body
  | _ => True
def Loops (m : Mem) (U : Nat → Prop) (a i : Nat) : List Stm → Prop
  | [] => True
  | st :: sts => Loop m U a i st ∧ Loops m U a (i + width st) sts
end

mutual
theorem loop_move {m m' : Mem} {U U' : Nat → Prop} (hU : ∀ a, U a → a < m.objs.length → U' a)
    (hn : ∀ a ctx ins tasks vs as, U a → Node m a ctx ins tasks vs as → Node m' a ctx ins tasks vs as)
    (ho : ∀ a ctx ins tasks vs as, U a → Node m a ctx ins tasks vs as → ∀ k, m'.ownFunction a k = m.ownFunction a k) :
    ∀ (st : Stm) (a i : Nat), (∀ k, IsFor k → m'.ownFunction a k = m.ownFunction a k) → Loop m U a i st → Loop m' U' a i st
  | .loop _ _ _ _ _ body, a, i, ha, h => by
    obtain ⟨b, h1, h2, h3, h4⟩ := h
    exact ⟨b, by rw [ha _ ⟨i, Or.inl rfl⟩]; exact h1, hU b h2 (by obtain ⟨f, _, _, hf, _⟩ := h3; exact lt_of_obj hf), hn _ _ _ _ _ _ h2 h3,
      loops_move hU hn ho body b 0 (fun k _ => ho b _ _ _ _ _ h2 h3 k) h4⟩
  | .cond _ _ _ body _, a, i, ha, h => by
    obtain ⟨b, c, h1, h2, h3, h4, h5, h6, ⟨ctx, h7, h8⟩, h9⟩ := h
    exact ⟨b, c, by rw [ha _ ⟨i, Or.inr rfl⟩]; exact h1, hU b h2 (by obtain ⟨f, _, _, hf, _⟩ := h3; exact lt_of_obj hf), hn _ _ _ _ _ _ h2 h3,
      by rw [ho b _ _ _ _ _ h2 h3]; exact h4, hU c h5 (by obtain ⟨f, _, _, hf, _⟩ := h8; exact lt_of_obj hf), h6, ⟨ctx, h7, hn _ _ _ _ _ _ h5 h8⟩,
      loops_move hU hn ho body c 0 (fun k _ => ho c _ _ _ _ _ h5 h8 k) h9⟩
  | .decl .., _, _, _, _ => trivial
  | .declArr .., _, _, _, _ => trivial
  | .assign .., _, _, _, _ => trivial
  | .call .., _, _, _, _ => trivial
theorem loops_move {m m' : Mem} {U U' : Nat → Prop} (hU : ∀ a, U a → a < m.objs.length → U' a)
    (hn : ∀ a ctx ins tasks vs as, U a → Node m a ctx ins tasks vs as → Node m' a ctx ins tasks vs as)
    (ho : ∀ a ctx ins tasks vs as, U a → Node m a ctx ins tasks vs as → ∀ k, m'.ownFunction a k = m.ownFunction a k) :
    ∀ (sts : List Stm) (a i : Nat), (∀ k, IsFor k → m'.ownFunction a k = m.ownFunction a k) → Loops m U a i sts → Loops m' U' a i sts
  | [], _, _, _, _ => trivial
  | st :: sts, a, i, ha, h => ⟨loop_move hU hn ho st a i ha h.1, loops_move hU hn ho sts a _ ha h.2⟩
end

/-- the copy of a block -/
theorem node_copy {m m' : Mem} {n lo lom a c ctx ctx' : Nat} {ins : List Name} {tasks : List Constraint} {vs as : List Name}
    (h : Node m a ctx ins tasks vs as) (hc : CopyOf n lo lom m a m' c) (hctx : ∃ f : FObj, m'.objs[c]? = some f ∧ f.context = some ctx') :
    Node m' c ctx' ins tasks vs as := by
  obtain ⟨f, i, ents, h1, h2, h3, h4, h5, h6, h7, h8, h9⟩ := h
  match n, hc with
  | n + 1, ⟨_, f0, i0, ents0, f', j, ents', k1, k2, k3, k4, k5, _, k6, k7, kc, k8, _, k9, k10⟩ =>
    rw [h1] at k1; cases k1
    rw [h3] at k2; cases k2
    rw [h4] at k3; cases k3
    obtain ⟨f1, e1, e2⟩ := hctx
    rw [k4] at e1; cases e1
    refine ⟨f', j, ents', k4, e2, k5, k6, k7.trans h5, k8.trans h6, ?_, fun k hk => h8 k (k9 k hk), fun k c hk => h9 k c (by rw [← kc]; exact hk)⟩
    intro k hk
    obtain ⟨v, hv⟩ := Option.isSome_iff_exists.mp (h7 k hk)
    obtain ⟨w, hw, -⟩ := k10 k v hv
    rw [hw]; rfl

theorem own_copy {m m' : Mem} {n lo lom a c b : Nat} {k : Name} (hc : CopyOf n lo lom m a m' c) (h : m.ownFunction a k = some b) :
    ∃ n' lom' b', m'.ownFunction c k = some b' ∧ CopyOf n' (c + 1) lom' m b m' b' ∧ ∃ g : FObj, m'.objs[b']? = some g ∧ g.context = some c := by
  match n, hc with
  | n + 1, ⟨_, f0, i0, ents0, f', j, ents', k1, k2, k3, k4, k5, _, k6, k7, kc, k8, _, k9, k10⟩ =>
    rw [own_eq k1 k2 k3] at h
    obtain ⟨w, hw, hc, hg⟩ := k10 k b h
    exact ⟨n, j + 1, w, by rw [own_eq k4 k5 k6]; exact hw, hc, hg⟩

theorem copy_lo {m m' : Mem} {n lo lom a c : Nat} (hc : CopyOf n lo lom m a m' c) : lo ≤ c := by
  match n, hc with
  | n + 1, hc => exact hc.1

mutual
theorem loop_copy {m m' : Mem} {U : Nat → Prop} {lo0 : Nat} : ∀ (st : Stm) {a c n lo lom : Nat} (i : Nat), CopyOf n lo lom m a m' c → lo0 ≤ c →
    Loop m U a i st → Loop m' (fun x => lo0 < x) c i st
  | .loop _ _ _ _ _ body, a, c, n, lo, lom, i, hc, hl, h => by
    obtain ⟨b, h1, h2, h3, h4⟩ := h
    obtain ⟨n', lom', b', e1, e2, e3⟩ := own_copy hc h1
    have := copy_lo e2
    exact ⟨b', e1, by omega, node_copy h3 e2 e3, loops_copy body 0 e2 (by omega) h4⟩
  | .cond _ _ _ body _, a, c, n, lo, lom, i, hc, hl, h => by
    obtain ⟨b, d, h1, h2, h3, h4, h5, h6, ⟨ctx, h7, h8⟩, h9⟩ := h
    obtain ⟨n', lom', b', e1, e2, e3⟩ := own_copy hc h1
    obtain ⟨n2, lom2, d', f1, f2, f3⟩ := own_copy e2 h4
    have := copy_lo e2
    have := copy_lo f2
    exact ⟨b', d', e1, by omega, node_copy h3 e2 e3, f1, by omega, by omega, ⟨b', Or.inr rfl, node_copy h8 f2 f3⟩, loops_copy body 0 f2 (by omega) h9⟩
  | .decl .., _, _, _, _, _, _, _, _, _ => trivial
  | .declArr .., _, _, _, _, _, _, _, _, _ => trivial
  | .assign .., _, _, _, _, _, _, _, _, _ => trivial
  | .call .., _, _, _, _, _, _, _, _, _ => trivial
theorem loops_copy {m m' : Mem} {U : Nat → Prop} {lo0 : Nat} : ∀ (sts : List Stm) {a c n lo lom : Nat} (i : Nat), CopyOf n lo lom m a m' c → lo0 ≤ c →
    Loops m U a i sts → Loops m' (fun x => lo0 < x) c i sts
  | [], _, _, _, _, _, _, _, _, _ => trivial
  | st :: sts, _, _, _, _, _, i, hc, hl, h => ⟨loop_copy st i hc hl h.1, loops_copy sts _ hc hl h.2⟩
end

theorem node_ctx {m : Mem} {g z b a : Nat} {fg : FObj} (hg : m.objs[g]? = some fg) (hz : fg.context = some z) {ins : List Name}
    {tasks : List Constraint} {vs as : List Name} (h : Node m b a ins tasks vs as) (ha : a ≠ z) : b ≠ g := by
  rintro rfl
  obtain ⟨f, i, ents, h1, h2, -⟩ := h
  rw [hg] at h1; cases h1
  rw [hz] at h2; cases h2
  exact ha rfl

mutual
/-- an object whose context is none of the blocks is none of the loops and conditional statements -/
theorem loop_ctx {m : Mem} {U : Nat → Prop} {g z : Nat} {fg : FObj} (hg : m.objs[g]? = some fg) (hz : fg.context = some z) (hU : ¬ U z) :
    ∀ (st : Stm) (a i : Nat), a ≠ z → Loop m U a i st → Loop m (fun x => U x ∧ x ≠ g) a i st
  | .loop _ _ _ _ _ body, a, i, ha, h => by
    obtain ⟨b, h1, h2, h3, h4⟩ := h
    exact ⟨b, h1, ⟨h2, node_ctx hg hz h3 ha⟩, h3, loops_ctx hg hz hU body b 0 (fun he => hU (he ▸ h2)) h4⟩
  | .cond _ _ _ body _, a, i, ha, h => by
    obtain ⟨b, c, h1, h2, h3, h4, h5, h6, ⟨ctx, h7, h8⟩, h9⟩ := h
    have hb : b ≠ z := fun he => hU (he ▸ h2)
    exact ⟨b, c, h1, ⟨h2, node_ctx hg hz h3 ha⟩, h3, h4, ⟨h5, node_ctx hg hz h8 (by rcases h7 with rfl | rfl <;> assumption)⟩, h6, ⟨ctx, h7, h8⟩,
      loops_ctx hg hz hU body c 0 (fun he => hU (he ▸ h5)) h9⟩
  | .decl .., _, _, _, _ => trivial
  | .declArr .., _, _, _, _ => trivial
  | .assign .., _, _, _, _ => trivial
  | .call .., _, _, _, _ => trivial
theorem loops_ctx {m : Mem} {U : Nat → Prop} {g z : Nat} {fg : FObj} (hg : m.objs[g]? = some fg) (hz : fg.context = some z) (hU : ¬ U z) :
    ∀ (sts : List Stm) (a i : Nat), a ≠ z → Loops m U a i sts → Loops m (fun x => U x ∧ x ≠ g) a i sts
  | [], _, _, _, _ => trivial
  | st :: sts, a, i, ha, h => ⟨loop_ctx hg hz hU st a i ha h.1, loops_ctx hg hz hU sts a _ ha h.2⟩
end

/-! ### frames -/

/-- a running function or block -/
structure Frame where
  addr : Nat
  vs : List Name
  as : List Name

/-- the names declared in it -/
def Frame.bases (F : Frame) : List Name := F.vs.map base ++ F.as

def Frame.node (F : Frame) (m : Mem) (ctx : Nat) : Prop := ∃ ins tasks, Node m F.addr ctx ins tasks F.vs F.as

/-- the frames from the running block outwards -/
def Chain (m : Mem) : List Frame → Prop
  | [] => False
  | [F] => F.node m 0
  | F :: G :: rest => F.node m G.addr ∧ (∀ E ∈ G :: rest, F.addr ≠ E.addr ∧ ∀ y ∈ F.bases, y ∉ E.bases) ∧ Chain m (G :: rest)

/-- the maps of the frames -/
def Fr (m : Mem) (ch : List Frame) (i : Nat) : Prop := ∃ F ∈ ch, ∃ f : FObj, m.objs[F.addr]? = some f ∧ f.fmap = some i

/-- only variables of the frames have changed -/
structure Step (ch : List Frame) (m m' : Mem) : Prop where
  grow : Grow (Fr m ch) m m'
  keys : ∀ F ∈ ch, ∀ k, (m'.ownFunction F.addr k).isSome = (m.ownFunction F.addr k).isSome
  loops : ∀ F ∈ ch, ∀ k, IsFor k → m'.ownFunction F.addr k = m.ownFunction F.addr k
  still : ∀ F ∈ ch, F.vs = [] → ∀ (f : FObj) (i : Nat), m.objs[F.addr]? = some f → f.fmap = some i → m'.maps[i]? = m.maps[i]?

end APS.Prog
