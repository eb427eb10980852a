import Verif.Proofs.SimBlock

/-! Loading arguments into the copy of a function; names of parameters and of blocks. -/
namespace APS.Prog
open APS.Lex (Token TokenType)
open APS.Parse (Constraint)
open APS.Circuit
open APS.LangSpec (builtins Stm Fun isWord okEx okExs okStms find kwBase kwEqual kwSplit compareOp declared)
open APS.ParseSpec (Ex indexText tree trees tuples)

/-! ### loading -/

theorem fold_set {a i : Nat} {f : FObj} : ∀ (ps : List (Name × Nat)) {m m' : Mem} {ents : List (Name × Nat)}, (ps.map Prod.fst).Nodup → MemOK m →
    m.objs[a]? = some f → f.fmap = some i → m.maps[i]? = some ents → (∀ p ∈ ps, p.2 < m.objs.length) →
    ps.foldlM (fun m (p : Name × Nat) => m.setFunction a p.1 p.2) m = some m' →
    MemOK m' ∧ m'.objs = m.objs ∧ m'.maps.length = m.maps.length ∧ (∀ j, j ≠ i → m'.maps[j]? = m.maps[j]?) ∧
      ∃ ents', m'.maps[i]? = some ents' ∧ ∀ k, ents'.lookup k = (ps.lookup k).or (ents.lookup k) := by
  intro ps
  induction ps with
  | nil =>
    intro m m' ents _ hok _ _ he _ h
    simp only [List.foldlM_nil, Option.pure_def, Option.some.injEq] at h
    subst h
    exact ⟨hok, rfl, rfl, fun _ _ => rfl, ents, he, by simp⟩
  | cons p ps ih =>
    obtain ⟨k, v⟩ := p
    intro m m' ents hn hok ho hf he hv h
    simp only [List.foldlM_cons, Option.bind_eq_bind, Option.bind_eq_some_iff] at h
    obtain ⟨m1, h1, h2⟩ := h
    obtain ⟨o, i', g1, g2, rfl⟩ := set_eq h1
    rw [ho] at g1; cases g1
    rw [hf] at g2; cases g2
    simp only [List.map_cons, List.nodup_cons] at hn
    have ok1 := modify_ok hok i k (hv (k, v) (by simp))
    obtain ⟨a1, a2, a3, a4, ents', a5, a6⟩ := ih hn.2 ok1 (show m.objs[a]? = some f from ho) hf (ents := put k v ents) (by rw [modify_map]; simp [he])
      (fun p hp => hv p (List.mem_cons_of_mem _ hp)) h2
    refine ⟨a1, a2, by rw [a3]; simp, fun j hj => ?_, ents', a5, fun x => ?_⟩
    · rw [a4 j hj, modify_map, if_neg (Ne.symm hj)]
    · rw [a6, put_lookup, List.lookup_cons]
      by_cases hx : x = k
      · subst hx
        have : ps.lookup x = none := by
          cases hl : ps.lookup x with
          | none => rfl
          | some y => exact (hn.1 (lookup_key (by rw [hl]; rfl))).elim
        simp [this]
      · rw [if_neg hx, beq_eq_false_iff_ne.mpr hx]

/-- what changes when all arguments are loaded -/
structure Loaded (m : Mem) (a : Nat) (f : FObj) (i : Nat) (ents : List (Name × Nat)) (args : List Nat) (m' : Mem) : Prop where
  ok : MemOK m'
  obj : m'.objs[a]? = some { f with inputs := [] }
  others : ∀ b, b ≠ a → m'.objs[b]? = m.objs[b]?
  olen : m'.objs.length = m.objs.length
  mlen : m'.maps.length = m.maps.length
  maps : ∀ j, j ≠ i → m'.maps[j]? = m.maps[j]?
  map : ∃ ents', m'.maps[i]? = some ents' ∧ ∀ k, ents'.lookup k = ((f.inputs.zip args).lookup k).or (ents.lookup k)

theorem load_spec {m m' : Mem} {a i : Nat} {f : FObj} {ents : List (Name × Nat)} {args : List Nat} {ready : Bool} (hok : MemOK m)
    (h1 : m.objs[a]? = some f) (h2 : f.fmap = some i) (h3 : m.maps[i]? = some ents) (hlen : f.inputs.length = args.length)
    (hnd : f.inputs.Nodup) (hargs : ∀ x ∈ args, x < m.objs.length) (h : loadArgs m a args = some (ready, m')) :
    ready = true ∧ Loaded m a f i ents args m' := by
  simp only [loadArgs, h1, Option.bind_eq_bind, Option.bind_some, hlen, lt_irrefl, if_false, Option.bind_eq_some_iff, Option.pure_def,
    Option.some.injEq, Prod.mk.injEq, decide_true] at h
  obtain ⟨m1, h4, rfl, rfl⟩ := h
  have hz : ((f.inputs.zip args).map Prod.fst) = f.inputs := by
    rw [List.map_fst_zip]; omega
  obtain ⟨a1, a2, a3, a4, ents', a5, a6⟩ := fold_set (f.inputs.zip args) (by rw [hz]; exact hnd) hok h1 h2 h3
    (fun p hp => hargs _ (List.of_mem_zip hp).2) h4
  have hd : List.drop args.length f.inputs = [] := by rw [← hlen]; simp
  rw [hd]
  refine ⟨rfl, update_ok a1 _ _ fun _ => rfl, ?_, ?_, by rw [update_olen, a2], a3, a4, ents', a5, a6⟩
  · rw [update_obj, a2, h1]; simp
  · intro b hb
    rw [update_obj, if_neg (Ne.symm hb), a2]

/-- the rest of the heap is as before -/
theorem Loaded.grow {m m0 m' : Mem} {a i : Nat} {f : FObj} {ents : List (Name × Nat)} {args : List Nat} (h : Loaded m a f i ents args m')
    (hg : Grow0 m0 m) (ha : m0.objs.length ≤ a) (hi : m0.maps.length ≤ i) : Grow0 m0 m' :=
  ⟨by rw [h.olen]; exact hg.olen, by rw [h.mlen]; exact hg.mlen, fun b hb => by rw [h.others b (by omega)]; exact hg.objs b hb,
    fun j hj hs => by rw [h.maps j (by omega)]; exact hg.maps j hj hs⟩

theorem body_move {U : FObj → Prop} {m m' : Mem} (ho : ∀ (o : Nat) (f : FObj), m.objs[o]? = some f → U f → m'.objs[o]? = some f)
    (hm : ∀ (o : Nat) (f : FObj) (i : Nat), m.objs[o]? = some f → U f → f.fmap = some i → m'.maps[i]? = m.maps[i]?) :
    ∀ (g : Factors) (o : Nat), Body U m g o → Body U m' g o := by
  have leaf : ∀ {x : Factor} {o : Nat}, Leaf U m x o → Leaf U m' x o := by
    rintro x o ⟨f, i, ents, h1, u, h2, h3, h4⟩
    exact ⟨f, i, ents, ho _ _ h1 u, u, h2, by rw [hm _ _ _ h1 u h2]; exact h3, h4⟩
  intro g
  induction g with
  | nil => exact fun _ h => h.elim
  | cons x g ih =>
   cases g with
   | nil => exact fun o h => leaf h
   | cons y rest =>
    rintro o ⟨f, i, ents, h1, u, h2, h3, h4, h5, a, b, h6, h7, h8, h9⟩
    exact ⟨f, i, ents, ho _ _ h1 u, u, h2, by rw [hm _ _ _ h1 u h2]; exact h3, h4, h5, a, b, h6, h7, leaf h8, ih b h9⟩

/-- values do not change when arguments are loaded into a function -/
theorem Loaded.val {m m' : Mem} {a i : Nat} {f : FObj} {ents : List (Name × Nat)} {args : List Nat} (h : Loaded m a f i ents args m') (hok : MemOK m)
    (h1 : m.objs[a]? = some f) (h2 : f.fmap = some i) (hc : f.context ≠ none) {g : Factors} {o : Nat} (hv : Val m g o) : Val m' g o := by
  have hne : ∀ (o : Nat) (f' : FObj), m.objs[o]? = some f' → Free f' → o ≠ a := by
    rintro o f' h3 h4 rfl
    rw [h1] at h3; cases h3
    exact hc h4
  obtain ⟨hb, f', h3, h4⟩ := hv
  obtain ⟨f'', k1, k2, -⟩ := hb.inputs
  rw [h3] at k1; cases k1
  refine ⟨body_move (fun o f' h3 h4 => by rw [h.others o (hne o f' h3 h4)]; exact h3) ?_ _ _ hb, f', by rw [h.others o (hne o f' h3 k2)]; exact h3, h4⟩
  intro o f' j h3 h4 h5
  apply h.maps
  rintro rfl
  exact hne o f' h3 h4 (hok.inj _ _ _ _ _ h3 h1 h5 h2)

/-- loops do not change when arguments are loaded into a function -/
theorem Loaded.loops {m m' : Mem} {a i : Nat} {f : FObj} {ents : List (Name × Nat)} {args : List Nat} (h : Loaded m a f i ents args m') (hok : MemOK m)
    (h1 : m.objs[a]? = some f) (h2 : f.fmap = some i) (h3 : m.maps[i]? = some ents) (hfor : ∀ k ∈ f.inputs, ¬ IsFor k) {j : Nat} {sts : List Stm}
    (hl : Loops m (fun x => a < x) a j sts) : Loops m' (fun x => a < x) a j sts := by
  have key : ∀ (b : Nat) (f' : FObj) (i' : Nat), a < b → m.objs[b]? = some f' → f'.fmap = some i' → i' ≠ i := by
    rintro b f' i' hb h4 h5 rfl
    have := hok.inj _ _ _ _ _ h4 h1 h5 h2
    omega
  refine loops_move (fun _ h _ => h) ?_ ?_ sts a j ?_ hl
  · rintro b ctx ins tasks vs as hb ⟨f', i', ents', k1, k2, k3, k4, k5⟩
    exact ⟨f', i', ents', by rw [h.others b (by omega)]; exact k1, k2, k3, by rw [h.maps _ (key b f' i' hb k1 k3)]; exact k4, k5⟩
  · rintro b ctx ins tasks vs as hb ⟨f', i', ents', k1, k2, k3, k4, k5⟩ k
    rw [own_eq k1 k3 k4, own_eq (by rw [h.others b (by omega)]; exact k1) k3 (by rw [h.maps _ (key b f' i' hb k1 k3)]; exact k4)]
  · intro k hk
    obtain ⟨ents', e1, e2⟩ := h.map
    rw [own_eq h1 h2 h3, own_eq h.obj h2 e1, e2]
    cases hz : (f.inputs.zip args).lookup k with
    | none => rfl
    | some v => exact (hfor k (List.of_mem_zip (mem_of_lookup hz)).1 hk).elim

theorem grow_drop {S : Nat → Prop} {a b c : Mem} (h : Grow0 a b) (h' : Grow S b c) (hs : ∀ i, S i → a.maps.length ≤ i) : Grow0 a c :=
  ⟨le_trans h.olen h'.olen, le_trans h.mlen h'.mlen, fun x hx => (h'.objs x (lt_of_lt_of_le hx h.olen)).trans (h.objs x hx),
    fun i hi hf => (h'.maps i (lt_of_lt_of_le hi h.mlen) fun hS => absurd (hs i hS) (by omega)).trans (h.maps i hi hf)⟩

/-! ### names -/

theorem word_names {F : Fun} (hw : ∀ p ∈ F.params, isWord p.1 = true) {x : Name} (hx : x ∈ F.names) :
    base x ∈ F.params.map Prod.fst ∧ ∃ p ∈ F.params, ∃ is, x = p.1 ++ indexText is := by
  simp only [Fun.names, List.mem_flatMap, List.mem_map] at hx
  obtain ⟨p, hp, is, -, rfl⟩ := hx
  rw [base_word (hw p hp)]
  exact ⟨List.mem_map_of_mem hp, p, hp, is, rfl⟩

theorem names_nodup {F : Fun} (hw : ∀ p ∈ F.params, isWord p.1 = true) (hn : (F.params.map Prod.fst).Nodup) : F.names.Nodup := by
  unfold Fun.names
  rw [List.nodup_flatMap]
  constructor
  · intro p _
    refine (List.nodup_map_iff_inj_on (APS.Parse.tuples_nodup p.2)).2 ?_
    intro a _ b _ h
    exact APS.Parse.indexText_inj a b (List.append_cancel_left h)
  · rw [List.Nodup, List.pairwise_map] at hn
    refine List.Pairwise.imp_of_mem ?_ hn
    intro p p' hp hp' hne x hx hx'
    simp only [List.mem_map] at hx hx'
    obtain ⟨is, -, rfl⟩ := hx
    obtain ⟨is', -, he⟩ := hx'
    have h1 := base_word (hw p hp) is
    rw [← he, base_word (hw p' hp') is'] at h1
    exact hne h1.symm

theorem stVars_base {st : Stm} (hw : ∀ y ∈ st.declares, isWord y = true) {x : Name} (hx : x ∈ stVars st) : base x ∈ st.declares := by
  cases st with
  | decl y e =>
    simp only [stVars, List.mem_singleton] at hx
    subst hx
    rw [base_word' (hw x (by simp [Stm.declares]))]; simp [Stm.declares]
  | declArr a es =>
    simp only [stVars, List.mem_map] at hx
    obtain ⟨i, -, rfl⟩ := hx
    rw [base_word (hw a (by simp [Stm.declares]))]; simp [Stm.declares]
  | assign => simp [stVars] at hx
  | call => simp [stVars] at hx
  | loop => simp [stVars] at hx
  | cond => simp [stVars] at hx

theorem stArrs_declares {st : Stm} {x : Name} (hx : x ∈ stArrs st) : x ∈ st.declares := by
  cases st <;> simp_all [stArrs, Stm.declares]

/-- a frame of a block: `pre` are the parameters -/
theorem block_bases {sts : List Stm} {pre : List Name} {a : Nat} (hw : ∀ y ∈ declared sts, isWord y = true) {y : Name}
    (hy : y ∈ (Frame.mk a (pre ++ vars sts) (arrs sts)).bases) : y ∈ pre.map base ∨ y ∈ declared sts := by
  simp only [Frame.bases, List.map_append, List.mem_append] at hy
  rcases hy with (hy | hy) | hy
  · exact Or.inl hy
  · right
    simp only [vars, List.mem_map, List.mem_flatMap] at hy
    obtain ⟨x, ⟨st, hst, hx⟩, rfl⟩ := hy
    have hw' : ∀ y ∈ st.declares, isWord y = true := fun y hy => hw y (List.mem_flatMap.mpr ⟨st, hst, hy⟩)
    exact List.mem_flatMap.mpr ⟨st, hst, stVars_base hw' hx⟩
  · right
    simp only [arrs, List.mem_flatMap] at hy
    obtain ⟨st, hst, hx⟩ := hy
    exact List.mem_flatMap.mpr ⟨st, hst, stArrs_declares hx⟩

theorem block_cov {P : List Fun} {sts : List Stm} {pre : List Name} {a : Nat} (hw : ∀ y ∈ declared sts, NameOK P y) (hn : (declared sts).Nodup)
    (hd : ∀ x ∈ pre, base x ∉ declared sts) {st : Stm} (hst : st ∈ sts) : StCov P ⟨a, pre ++ vars sts, arrs sts⟩ st := by
  have mem : ∀ {st : Stm} {y : Name}, st ∈ sts → y ∈ st.declares → y ∈ declared sts := fun h1 h2 => List.mem_flatMap.mpr ⟨_, h1, h2⟩
  refine ⟨?_, fun y hy => hw y (mem hst hy), ?_⟩
  · intro y hy
    have hwy := (hw y (mem hst hy)).word
    simp only [Frame.bases, List.map_append, List.mem_append]
    cases st with
    | decl x e =>
      simp only [Stm.declares, List.mem_singleton] at hy
      subst hy
      exact Or.inl (Or.inr (List.mem_map.mpr ⟨y, List.mem_flatMap.mpr ⟨_, hst, by simp [stVars]⟩, base_word' hwy⟩))
    | declArr x es =>
      simp only [Stm.declares, List.mem_singleton] at hy
      subst hy
      exact Or.inr (List.mem_flatMap.mpr ⟨_, hst, by simp [stArrs]⟩)
    | assign => simp [Stm.declares] at hy
    | call => simp [Stm.declares] at hy
    | loop => simp [Stm.declares] at hy
    | cond => simp [Stm.declares] at hy
  · intro y hy hb
    simp only [List.mem_append] at hy
    rcases hy with hy | hy
    · exact (hd y hy (mem hst hb)).elim
    · simp only [vars, List.mem_flatMap] at hy
      obtain ⟨st', hst', hx⟩ := hy
      by_cases he : st' = st
      · rw [← he]; exact hx
      · exfalso
        have h1 := stVars_base (fun y hy => (hw y (mem hst' hy)).word) hx
        have h2 := (List.nodup_flatMap.mp hn).2
        have : Std.Symm (fun a b : Stm => List.Disjoint a.declares b.declares) := ⟨fun _ _ h => List.disjoint_symm h⟩
        exact List.Pairwise.forall (R := fun a b : Stm => List.Disjoint a.declares b.declares) h2 hst' hst he h1 hb

/-! ### more names in sight -/

mutual
theorem okEx_mono {P : List Fun} {vis vis' : List Name} (h : ∀ y ∈ vis, y ∈ vis') : ∀ (e : Ex), okEx P vis e → okEx P vis' e
  | .num _, ho => ho
  | .var x, ho => h x ho
  | .paren e, ho => okEx_mono h e ho
  | .bin _ l r, ⟨h1, h2, h3, h4⟩ => ⟨h1, h2, okEx_mono h l h3, okEx_mono h r h4⟩
  | .arr a idx, ⟨h1, h2, h3⟩ => ⟨h a h1, h2, okExs_mono h idx h3⟩
  | .call _ args, ⟨h1, h2⟩ => ⟨okExs_mono h args h1, h2⟩
theorem okExs_mono {P : List Fun} {vis vis' : List Name} (h : ∀ y ∈ vis, y ∈ vis') : ∀ (es : List Ex), okExs P vis es → okExs P vis' es
  | [], _ => trivial
  | e :: es, ⟨h1, h2⟩ => ⟨okEx_mono h e h1, okExs_mono h es h2⟩
end

theorem find_mem {P : List Fun} (hn : (P.map Fun.name).Nodup) {F : Fun} (hF : F ∈ P) : find P F.name = .ok F := by
  have : P.find? (fun G => G.name = F.name) = some F := by
    induction P with
    | nil => simp at hF
    | cons G P ih =>
      simp only [List.map_cons, List.nodup_cons] at hn
      rw [List.find?_cons]
      rcases List.mem_cons.mp hF with rfl | hF
      · simp
      · have : G.name ≠ F.name := fun he => hn.1 (by rw [he]; exact List.mem_map_of_mem hF)
        simp only [this, decide_false]
        exact ih hn.2 hF
  simp only [find, this]

theorem lookup_zip {m : Mem} : ∀ (ns : List Name) (fs : List Factors) (as : List Nat), List.Forall₂ (Val m) fs as → ∀ {k : Name} {o : Nat},
    (ns.zip as).lookup k = some o → ∃ g, (ns.zip fs).lookup k = some g ∧ Val m g o := by
  intro ns
  induction ns with
  | nil => intro fs as _ k o h; simp at h
  | cons n ns ih =>
    intro fs as hv k o h
    cases hv with
    | nil => simp at h
    | cons h1 h2 =>
      simp only [List.zip_cons_cons, List.lookup_cons] at h ⊢
      split at h
      · cases h; exact ⟨_, rfl, h1⟩
      · exact ih _ _ h2 h

theorem lookup_zip_some : ∀ (ns : List Name) (as : List Nat), ns.length = as.length → ∀ {k : Name}, k ∈ ns → ((ns.zip as).lookup k).isSome := by
  intro ns
  induction ns with
  | nil => intro as _ k h; simp at h
  | cons n ns ih =>
    intro as hl k h
    cases as with
    | nil => simp at hl
    | cons a as =>
      simp only [List.zip_cons_cons, List.lookup_cons]
      split
      · rfl
      · rename_i hk
        exact ih as (by simpa using hl) ((List.mem_cons.mp h).resolve_left (by simpa using hk))

end APS.Prog
