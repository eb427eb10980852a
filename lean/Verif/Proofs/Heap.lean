import Verif.Proofs.Mono

/-! The heap of function objects: what its operations leave unchanged. -/
namespace APS.Prog
open APS.Lex (Token TokenType)
open APS.Parse (Constraint)
open APS.Circuit

/-! ### Go maps -/

theorem put_lookup {α} (k : Name) (v : α) (l : List (Name × α)) (k' : Name) :
    (put k v l).lookup k' = if k' = k then some v else l.lookup k' := by
  induction l with
  | nil =>
    simp only [put, List.lookup_cons, List.lookup_nil]
    by_cases h : k' = k
    · simp [h]
    · simp [h, beq_eq_false_iff_ne.mpr h]
  | cons p l ih =>
    obtain ⟨k1, v1⟩ := p
    simp only [put]
    split
    · rename_i h1
      subst h1
      simp only [List.lookup_cons]
      by_cases h : k' = k1
      · simp [h]
      · simp [h, beq_eq_false_iff_ne.mpr h]
    · rename_i h1
      simp only [List.lookup_cons, ih]
      by_cases h : k' = k
      · subst h
        have : (k' == k1) = false := beq_eq_false_iff_ne.mpr fun h => h1 h.symm
        simp [this]
      · simp [h]

theorem put_keys {α} (k : Name) (v : α) (l : List (Name × α)) :
    (put k v l).map Prod.fst = if k ∈ l.map Prod.fst then l.map Prod.fst else l.map Prod.fst ++ [k] := by
  induction l with
  | nil => simp [put]
  | cons p l ih =>
    obtain ⟨k1, v1⟩ := p
    simp only [put]
    split
    · rename_i h1; subst h1; simp
    · rename_i h1
      simp only [List.map_cons, ih]
      by_cases h : k ∈ l.map Prod.fst
      · rw [if_pos h, if_pos (List.mem_cons_of_mem _ h)]
      · rw [if_neg h, if_neg]
        · rfl
        · intro hc
          rcases List.mem_cons.mp hc with hc | hc
          · exact h1 hc.symm
          · exact h hc

theorem put_nodup {α} {k : Name} {v : α} {l : List (Name × α)} (h : (l.map Prod.fst).Nodup) :
    ((put k v l).map Prod.fst).Nodup := by
  rw [put_keys]
  split
  · exact h
  · rename_i hk
    rw [List.nodup_append]
    exact ⟨h, by simp, fun a ha b hb => by
      simp only [List.mem_singleton] at hb
      subst hb; rintro rfl; exact hk ha⟩

theorem put_mem {α} {k : Name} {v : α} {l : List (Name × α)} {p : Name × α} (h : p ∈ put k v l) : p = (k, v) ∨ p ∈ l := by
  induction l with
  | nil => simp [put] at h; exact Or.inl h
  | cons p1 l ih =>
    obtain ⟨k1, v1⟩ := p1
    simp only [put] at h
    split at h
    · rcases List.mem_cons.mp h with h | h
      · exact Or.inl h
      · exact Or.inr (List.mem_cons_of_mem _ h)
    · rcases List.mem_cons.mp h with h | h
      · exact Or.inr (by rw [h]; exact List.mem_cons_self)
      · rcases ih h with h | h
        · exact Or.inl h
        · exact Or.inr (List.mem_cons_of_mem _ h)

theorem lookup_of_mem {α} {l : List (Name × α)} (hn : (l.map Prod.fst).Nodup) {k : Name} {v : α} (h : (k, v) ∈ l) :
    l.lookup k = some v := by
  induction l with
  | nil => simp at h
  | cons p l ih =>
    obtain ⟨k1, v1⟩ := p
    simp only [List.map_cons, List.nodup_cons] at hn
    rw [List.lookup_cons]
    rcases List.mem_cons.mp h with h' | h'
    · cases h'; simp
    · have : k ≠ k1 := by rintro rfl; exact hn.1 (List.mem_map_of_mem (f := Prod.fst) h')
      rw [beq_eq_false_iff_ne.mpr this]
      exact ih hn.2 h'

theorem mem_of_lookup {α} {l : List (Name × α)} {k : Name} {v : α} (h : l.lookup k = some v) : (k, v) ∈ l := by
  induction l with
  | nil => simp at h
  | cons p l ih =>
    obtain ⟨m, g⟩ := p
    rw [List.lookup_cons] at h
    split at h
    · rename_i hb
      cases h
      rw [eq_of_beq hb]; exact List.mem_cons_self
    · exact List.mem_cons_of_mem _ (ih h)

theorem lookup_key {α} {l : List (Name × α)} {k : Name} (h : (l.lookup k).isSome) : k ∈ l.map Prod.fst := by
  obtain ⟨v, hv⟩ := Option.isSome_iff_exists.mp h
  exact List.mem_map_of_mem (f := Prod.fst) (mem_of_lookup hv)

/-! ### memories -/

/-- every object has its own map; maps have distinct keys and no dangling values -/
structure MemOK (m : Mem) : Prop where
  bound : ∀ (a : Nat) (o : FObj) (i : Nat), m.objs[a]? = some o → o.fmap = some i → i < m.maps.length
  inj : ∀ (a b : Nat) (o p : FObj) (i : Nat), m.objs[a]? = some o → m.objs[b]? = some p → o.fmap = some i → p.fmap = some i → a = b
  nodup : ∀ (i : Nat) (mp : List (Name × Nat)), m.maps[i]? = some mp → (mp.map Prod.fst).Nodup
  vals : ∀ (i : Nat) (mp : List (Name × Nat)) k v, m.maps[i]? = some mp → (k, v) ∈ mp → v < m.objs.length

/-- `m'` continues `m`; only the maps of `S` may have changed -/
structure Grow (S : Nat → Prop) (m m' : Mem) : Prop where
  olen : m.objs.length ≤ m'.objs.length
  mlen : m.maps.length ≤ m'.maps.length
  objs : ∀ a, a < m.objs.length → m'.objs[a]? = m.objs[a]?
  maps : ∀ i, i < m.maps.length → ¬ S i → m'.maps[i]? = m.maps[i]?

/-- no map changes -/
abbrev Grow0 := Grow fun _ => False

theorem Grow.refl (S : Nat → Prop) (m : Mem) : Grow S m m := ⟨le_refl _, le_refl _, fun _ _ => rfl, fun _ _ _ => rfl⟩

theorem Grow.trans {S : Nat → Prop} {a b c : Mem} (h : Grow S a b) (h' : Grow S b c) : Grow S a c :=
  ⟨le_trans h.olen h'.olen, le_trans h.mlen h'.mlen,
    fun x hx => (h'.objs x (lt_of_lt_of_le hx h.olen)).trans (h.objs x hx),
    fun i hi hs => (h'.maps i (lt_of_lt_of_le hi h.mlen) hs).trans (h.maps i hi hs)⟩

theorem Grow.weaken {S T : Nat → Prop} {a b : Mem} (h : Grow S a b) (hi : ∀ i, i < a.maps.length → S i → T i) : Grow T a b :=
  ⟨h.olen, h.mlen, h.objs, fun i hl hs => h.maps i hl fun hS => hs (hi i hl hS)⟩

theorem Grow.obj {S : Nat → Prop} {m m' : Mem} (h : Grow S m m') {a : Nat} {o : FObj} (ho : m.objs[a]? = some o) :
    m'.objs[a]? = some o := by
  have : a < m.objs.length := (List.getElem?_eq_some_iff.mp ho).1
  rw [h.objs a this, ho]

theorem Grow.map {S : Nat → Prop} {m m' : Mem} (h : Grow S m m') {i : Nat} {mp : List (Name × Nat)} (hi : m.maps[i]? = some mp)
    (hs : ¬ S i) : m'.maps[i]? = some mp := by
  have : i < m.maps.length := (List.getElem?_eq_some_iff.mp hi).1
  rw [h.maps i this hs, hi]

theorem lt_of_obj {m : Mem} {a : Nat} {o : FObj} (h : m.objs[a]? = some o) : a < m.objs.length :=
  (List.getElem?_eq_some_iff.mp h).1

theorem obj_of_lt {m : Mem} {a : Nat} (h : a < m.objs.length) : ∃ o, m.objs[a]? = some o :=
  ⟨m.objs[a], List.getElem?_eq_some_iff.mpr ⟨h, rfl⟩⟩

/-! #### operations -/

theorem newCircuit_grow (m : Mem) (n : Name) (ctx : Option Nat) : Grow0 m (m.newCircuit n ctx).2 :=
  ⟨by simp [Mem.newCircuit], by simp [Mem.newCircuit],
    fun a ha => by simp only [Mem.newCircuit]; rw [List.getElem?_append_left ha],
    fun i hi _ => by simp only [Mem.newCircuit]; rw [List.getElem?_append_left hi]⟩

theorem newCircuit_obj (m : Mem) (n : Name) (ctx : Option Nat) :
    (m.newCircuit n ctx).2.objs[m.objs.length]? = some { name := n, context := ctx, fmap := some m.maps.length } := by
  simp [Mem.newCircuit]

theorem newCircuit_map (m : Mem) (n : Name) (ctx : Option Nat) : (m.newCircuit n ctx).2.maps[m.maps.length]? = some [] := by
  simp [Mem.newCircuit]

theorem newCircuit_ok {m : Mem} (h : MemOK m) (n : Name) (ctx : Option Nat) : MemOK (m.newCircuit n ctx).2 := by
  have obj : ∀ {a o}, (m.newCircuit n ctx).2.objs[a]? = some o → m.objs[a]? = some o ∨
      (a = m.objs.length ∧ o = { name := n, context := ctx, fmap := some m.maps.length }) := by
    intro a o ho
    simp only [Mem.newCircuit, List.getElem?_append] at ho
    split at ho
    · exact Or.inl ho
    · rename_i hl
      rcases Nat.lt_or_ge a (m.objs.length + 1) with h1 | h1
      · have : a = m.objs.length := by omega
        subst this; simp at ho; exact Or.inr ⟨rfl, ho.symm⟩
      · have : ([({ name := n, context := ctx, fmap := some m.maps.length } : FObj)] : List FObj)[a - m.objs.length]? = none := by
          rw [List.getElem?_eq_none_iff]; simp; omega
        rw [this] at ho; cases ho
  have mapq : ∀ {i : Nat} {mp : List (Name × Nat)}, (m.newCircuit n ctx).2.maps[i]? = some mp → m.maps[i]? = some mp ∨ mp = [] := by
    intro i mp ho
    simp only [Mem.newCircuit, List.getElem?_append] at ho
    split at ho
    · exact Or.inl ho
    · rw [List.getElem?_singleton] at ho
      split at ho
      · cases ho; exact Or.inr rfl
      · cases ho
  have l1 : (m.newCircuit n ctx).2.maps.length = m.maps.length + 1 := by simp [Mem.newCircuit]
  have l2 : (m.newCircuit n ctx).2.objs.length = m.objs.length + 1 := by simp [Mem.newCircuit]
  refine ⟨?_, ?_, ?_, ?_⟩
  · intro a o i ho hi
    rw [l1]
    rcases obj ho with ho | ⟨-, rfl⟩
    · have := h.bound a o i ho hi; omega
    · cases hi; omega
  · intro a b o p i ho hp hi hj
    rcases obj ho with ho | ⟨rfl, rfl⟩ <;> rcases obj hp with hp | ⟨rfl, rfl⟩
    · exact h.inj a b o p i ho hp hi hj
    · cases hj; have := h.bound _ _ _ ho hi; omega
    · cases hi; have := h.bound _ _ _ hp hj; omega
    · rfl
  · intro i mp hi
    rcases mapq hi with hi | rfl
    · exact h.nodup i mp hi
    · simp
  · intro i mp k v hi hk
    rw [l2]
    rcases mapq hi with hi | rfl
    · have := h.vals i mp k v hi hk; omega
    · simp at hk

theorem update_obj (m : Mem) (a : Nat) (g : FObj → FObj) (b : Nat) :
    (m.update a g).objs[b]? = if a = b then (m.objs[b]?).map g else m.objs[b]? := by
  simp only [Mem.update, List.getElem?_modify]
  split <;> simp

theorem update_maps (m : Mem) (a : Nat) (g : FObj → FObj) : (m.update a g).maps = m.maps := rfl

theorem update_olen (m : Mem) (a : Nat) (g : FObj → FObj) : (m.update a g).objs.length = m.objs.length := by
  simp [Mem.update]

theorem update_ok {m : Mem} (h : MemOK m) (a : Nat) (g : FObj → FObj) (hg : ∀ o, (g o).fmap = o.fmap) : MemOK (m.update a g) := by
  have obj : ∀ {b : Nat} {o : FObj}, (m.update a g).objs[b]? = some o → ∃ o' : FObj, m.objs[b]? = some o' ∧ o.fmap = o'.fmap := by
    intro b o ho
    rw [update_obj] at ho
    split at ho
    · simp only [Option.map_eq_some_iff] at ho
      obtain ⟨o', h1, rfl⟩ := ho
      exact ⟨o', h1, hg o'⟩
    · exact ⟨o, ho, rfl⟩
  refine ⟨?_, ?_, h.nodup, ?_⟩
  · intro b o i ho hi
    obtain ⟨o', h1, h2⟩ := obj ho
    exact h.bound b o' i h1 (h2 ▸ hi)
  · intro b c o p i ho hp hi hj
    obtain ⟨o', h1, h2⟩ := obj ho
    obtain ⟨p', h3, h4⟩ := obj hp
    exact h.inj b c o' p' i h1 h3 (h2 ▸ hi) (h4 ▸ hj)
  · intro i mp k v hi hk
    rw [update_olen]
    exact h.vals i mp k v hi hk

theorem set_eq {m m' : Mem} {a : Nat} {k : Name} {v : Nat} (h : m.setFunction a k v = some m') :
    ∃ o i, m.objs[a]? = some o ∧ o.fmap = some i ∧ m' = { m with maps := m.maps.modify i (put k v) } := by
  simp only [Mem.setFunction, Option.bind_eq_bind, Option.bind_eq_some_iff] at h
  obtain ⟨o, ho, i, hi, he⟩ := h
  cases he
  exact ⟨o, i, ho, hi, rfl⟩

theorem modify_map (m : Mem) (i : Nat) (k : Name) (v : Nat) (j : Nat) :
    ({ m with maps := m.maps.modify i (put k v) } : Mem).maps[j]? = if i = j then (m.maps[j]?).map (put k v) else m.maps[j]? := by
  simp only [List.getElem?_modify]
  split <;> simp

theorem modify_ok {m : Mem} (h : MemOK m) (i : Nat) (k : Name) {v : Nat} (hv : v < m.objs.length) :
    MemOK { m with maps := m.maps.modify i (put k v) } := by
  have mq : ∀ {j : Nat} {mp : List (Name × Nat)}, ({ m with maps := m.maps.modify i (put k v) } : Mem).maps[j]? = some mp →
      ∃ mp' : List (Name × Nat), m.maps[j]? = some mp' ∧ (mp = mp' ∨ mp = put k v mp') := by
    intro j mp hj
    rw [modify_map] at hj
    split at hj
    · simp only [Option.map_eq_some_iff] at hj
      obtain ⟨mp', h1, rfl⟩ := hj
      exact ⟨mp', h1, Or.inr rfl⟩
    · exact ⟨mp, hj, Or.inl rfl⟩
  refine ⟨?_, h.inj, ?_, ?_⟩
  · intro a o j ho hj
    simpa using h.bound a o j ho hj
  · intro j mp hj
    obtain ⟨mp', h1, rfl | rfl⟩ := mq hj
    · exact h.nodup j _ h1
    · exact put_nodup (h.nodup j _ h1)
  · intro j mp k' v' hj hk
    obtain ⟨mp', h1, rfl | rfl⟩ := mq hj
    · exact h.vals j _ k' v' h1 hk
    · rcases put_mem hk with hk | hk
      · cases hk; exact hv
      · exact h.vals j _ k' v' h1 hk

theorem modify_grow (m : Mem) (i : Nat) (k : Name) (v : Nat) :
    Grow (· = i) m { m with maps := m.maps.modify i (put k v) } :=
  ⟨le_refl _, by simp, fun _ _ => rfl, fun j _ hj => by rw [modify_map, if_neg]; exact fun h => hj h.symm⟩

/-- what an object has under a name -/
theorem own_eq {m : Mem} {a : Nat} {o : FObj} {i : Nat} {mp : List (Name × Nat)} (ho : m.objs[a]? = some o)
    (hi : o.fmap = some i) (hm : m.maps[i]? = some mp) (k : Name) : m.ownFunction a k = mp.lookup k := by
  simp [Mem.ownFunction, ho, hi, hm]

end APS.Prog
