import Verif.Proofs.Heap

/-! `flatCopy` copies the tree of functions below an object to new objects. -/
namespace APS.Prog
open APS.Lex (Token TokenType)
open APS.Parse (Constraint)
open APS.Circuit

/-- The object `c` of `m'` is a copy of the object `a` of `m`, up to `isNumber`, `value` and the context; objects and maps of
the copy are at `lo`, `lom` or above; the functions in it are copied likewise and have the copy as context. -/
def CopyOf : Nat → Nat → Nat → Mem → Nat → Mem → Nat → Prop
  | 0, _, _, _, _, _, _ => False
  | n + 1, lo, lom, m, a, m', c => lo ≤ c ∧ ∃ (f : FObj) (i : Nat) (ents : List (Name × Nat)) (f' : FObj) (j : Nat)
      (ents' : List (Name × Nat)),
      m.objs[a]? = some f ∧ f.fmap = some i ∧ m.maps[i]? = some ents ∧
      m'.objs[c]? = some f' ∧ f'.fmap = some j ∧ lom ≤ j ∧ m'.maps[j]? = some ents' ∧
      f'.inputs = f.inputs ∧ f'.cmap = f.cmap ∧ f'.tasks = f.tasks ∧ f'.isNumber = false ∧
      (∀ k, (ents'.lookup k).isSome → (ents.lookup k).isSome) ∧
      ∀ k v, ents.lookup k = some v → ∃ w, ents'.lookup k = some w ∧ CopyOf n (c + 1) (j + 1) m v m' w ∧
        ∃ g, m'.objs[w]? = some g ∧ g.context = some c

theorem copy_target {m m' m'' : Mem} : ∀ (n lo lom a c : Nat), CopyOf n lo lom m a m' c →
    (∀ b, c < b → b < m'.objs.length → m''.objs[b]? = m'.objs[b]?) →
    (∀ f', m'.objs[c]? = some f' → ∃ ctx, m''.objs[c]? = some { f' with context := ctx }) →
    (∀ i, lom ≤ i → i < m'.maps.length → m''.maps[i]? = m'.maps[i]?) → CopyOf n lo lom m a m'' c := by
  intro n
  induction n with
  | zero => intro lo lom a c h; exact h.elim
  | succ n ih =>
    intro lo lom a c h ho hr hm
    obtain ⟨hlo, f, i, ents, f', j, ents', h1, h2, h3, h4, h5, h6, h7, h8, h9, h10, h11, h12, h13⟩ := h
    obtain ⟨ctx, hr'⟩ := hr f' h4
    have hj : j < m'.maps.length := (List.getElem?_eq_some_iff.mp h7).1
    refine ⟨hlo, f, i, ents, { f' with context := ctx }, j, ents', h1, h2, h3, hr', h5, h6, ?_, h8, h9, h10, h11, h12, ?_⟩
    · rw [hm j h6 hj, h7]
    · intro k v hk
      obtain ⟨w, hw, hc, g, hg, hgc⟩ := h13 k v hk
      have hcw : c < w := by
        cases n with
        | zero => exact hc.elim
        | succ n => exact hc.1
      have hwl := lt_of_obj hg
      refine ⟨w, hw, ih _ _ _ _ hc ?_ ?_ ?_, g, ?_, hgc⟩
      · exact fun b hb hbl => ho b (by omega) hbl
      · intro f1 hf1
        exact ⟨f1.context, by rw [ho w hcw hwl, hf1]⟩
      · exact fun x hx hxl => hm x (by omega) hxl
      · rw [ho w hcw hwl, hg]

theorem copy_source {m m1 m' : Mem} (hg : Grow0 m m1) (hok : MemOK m) : ∀ (n lo lom a c : Nat), a < m.objs.length →
    CopyOf n lo lom m1 a m' c → CopyOf n lo lom m a m' c := by
  intro n
  induction n with
  | zero => intro lo lom a c _ h; exact h.elim
  | succ n ih =>
    intro lo lom a c ha h
    obtain ⟨hlo, f, i, ents, f', j, ents', h1, h2, h3, h4, h5, h6, h7, h8, h9, h10, h11, h12, h13⟩ := h
    have h1' : m.objs[a]? = some f := by rw [← hg.objs a ha]; exact h1
    have hi := hok.bound _ _ _ h1' h2
    have h3' : m.maps[i]? = some ents := by rw [← hg.maps i hi (by simp)]; exact h3
    refine ⟨hlo, f, i, ents, f', j, ents', h1', h2, h3', h4, h5, h6, h7, h8, h9, h10, h11, h12, ?_⟩
    intro k v hk
    obtain ⟨w, hw, hc, g⟩ := h13 k v hk
    exact ⟨w, hw, ih _ _ _ _ (hok.vals _ _ _ _ h3' (mem_of_lookup hk)) hc, g⟩

/-- one entry of the map -/
def copyEntry (n : Nat) (c : Nat) (m : Mem) (p : Name × Nat) : Option Mem := do
  let (w, m) ← flatCopy n m p.2
  let m := m.update w fun g => { g with context := some c }
  m.setFunction c p.1 w

theorem flatCopy_eq {n : Nat} {m m' : Mem} {a c : Nat} (h : flatCopy (n + 1) m a = some (c, m')) :
    ∃ f i ents, m.objs[a]? = some f ∧ f.fmap = some i ∧ m.maps[i]? = some ents ∧ c = m.objs.length ∧
      ents.foldlM (copyEntry n c) ((m.newCircuit f.name f.context).2.update c
        fun g => { g with inputs := f.inputs, cmap := f.cmap, tasks := f.tasks }) = some m' := by
  simp only [flatCopy, Option.bind_eq_bind, Option.bind_eq_some_iff] at h
  obtain ⟨f, h1, i, h2, ents, h3, m1, h4, he⟩ := h
  cases he
  exact ⟨f, i, ents, h1, h2, h3, rfl, h4⟩

/-- state of the copy after some entries -/
structure Filled (n : Nat) (m : Mem) (mc : Mem) (c j : Nat) (pre : List (Name × Nat)) (mt : Mem) : Prop where
  ok : MemOK mt
  olen : mc.objs.length ≤ mt.objs.length
  mlen : mc.maps.length ≤ mt.maps.length
  objs : ∀ b, b < mc.objs.length → mt.objs[b]? = mc.objs[b]?
  maps : ∀ i, i < mc.maps.length → i ≠ j → mt.maps[i]? = mc.maps[i]?
  ents : ∃ ents' : List (Name × Nat), mt.maps[j]? = some ents' ∧ (∀ k, (ents'.lookup k).isSome → k ∈ pre.map Prod.fst) ∧
    ∀ k v, (k, v) ∈ pre → ∃ w, ents'.lookup k = some w ∧ CopyOf n (c + 1) (j + 1) m v mt w ∧
      ∃ g, mt.objs[w]? = some g ∧ g.context = some c

theorem flatCopy_spec : ∀ (n : Nat) {m m' : Mem} {a c : Nat}, MemOK m → flatCopy n m a = some (c, m') →
    c = m.objs.length ∧ MemOK m' ∧ Grow0 m m' ∧ CopyOf n m.objs.length m.maps.length m a m' c ∧
      ∃ f f', m.objs[a]? = some f ∧ m'.objs[c]? = some f' ∧ f'.context = f.context := by
  intro n
  induction n with
  | zero => intro m m' a c _ h; simp [flatCopy] at h
  | succ n ih =>
    intro m m' a c hok h
    obtain ⟨f, i, ents, h1, h2, h3, rfl, h4⟩ := flatCopy_eq h
    set mc := (m.newCircuit f.name f.context).2.update m.objs.length
        (fun g => { g with inputs := f.inputs, cmap := f.cmap, tasks := f.tasks }) with hmc
    have lmc : mc.objs.length = m.objs.length + 1 := by simp [mc, update_olen, Mem.newCircuit]
    have mmc : mc.maps.length = m.maps.length + 1 := by simp [mc, update_maps, Mem.newCircuit]
    have okc : MemOK mc := update_ok (newCircuit_ok hok _ _) _ _ fun _ => rfl
    have oc : ∀ b, b < m.objs.length → mc.objs[b]? = m.objs[b]? := by
      intro b hb
      rw [hmc, update_obj, if_neg (by omega)]
      exact (newCircuit_grow m _ _).objs b hb
    have root : mc.objs[m.objs.length]? = some
        { name := f.name, context := f.context, fmap := some m.maps.length, inputs := f.inputs, cmap := f.cmap,
          tasks := f.tasks } := by
      rw [hmc, update_obj, if_pos rfl, newCircuit_obj]; rfl
    have mc' : ∀ x, x < m.maps.length → mc.maps[x]? = m.maps[x]? := by
      intro x hx
      rw [hmc, update_maps]
      exact (newCircuit_grow m _ _).maps x hx (by simp)
    have mj : mc.maps[m.maps.length]? = some [] := by rw [hmc, update_maps, newCircuit_map]
    have hnd := hok.nodup _ _ h3
    -- the loop
    have loop : ∀ (post : List (Name × Nat)) (pre : List (Name × Nat)) (mt : Mem), pre ++ post = ents →
        Filled n m mc m.objs.length m.maps.length pre mt → post.foldlM (copyEntry n m.objs.length) mt = some m' →
        Filled n m mc m.objs.length m.maps.length ents m' := by
      intro post
      induction post with
      | nil =>
        intro pre mt hp hf hl
        simp at hl hp
        subst hl hp
        exact hf
      | cons p post ihp =>
        intro pre mt hp hf hl
        obtain ⟨k, v⟩ := p
        rw [List.foldlM_cons] at hl
        obtain ⟨mt', he, hl⟩ := Option.bind_eq_some_iff.mp hl
        refine ihp (pre ++ [(k, v)]) mt' (by rw [← hp]; simp) ?_ hl
        simp only [copyEntry, Option.bind_eq_bind, Option.bind_eq_some_iff, Prod.exists] at he
        obtain ⟨w, m2, hw, hs⟩ := he
        obtain ⟨rfl, ok2, g2, c2, fv, fw, -, hfw, -⟩ := ih hf.ok hw
        have hmem : (k, v) ∈ ents := by rw [← hp]; simp
        have hv : v < m.objs.length := hok.vals _ _ _ _ h3 hmem
        have hknew : k ∉ pre.map Prod.fst := by
          rw [← hp, List.map_append, List.nodup_append] at hnd
          intro hk
          exact hnd.2.2 k hk k (by simp) rfl
        have gmt : Grow0 m mt := by
          refine ⟨by have := hf.olen; omega, by have := hf.mlen; omega, fun b hb => ?_, fun x hx _ => ?_⟩
          · rw [hf.objs b (by omega), oc b hb]
          · rw [hf.maps x (by omega) (by omega), mc' x hx]
        set m3 := m2.update mt.objs.length (fun g => { g with context := some m.objs.length }) with hm3
        have o3 : ∀ b, m3.objs[b]? = if mt.objs.length = b then (m2.objs[b]?).map (fun g => { g with context := some m.objs.length }) else m2.objs[b]? :=
          fun b => by rw [hm3, update_obj]
        obtain ⟨oc3, i3, ho3, hi3, rfl⟩ := set_eq hs
        have hroot3 : m3.objs[m.objs.length]? = mc.objs[m.objs.length]? := by
          have : m.objs.length < mt.objs.length := by have := hf.olen; omega
          rw [o3, if_neg (by omega), g2.objs _ this, hf.objs _ (by omega)]
        rw [hroot3, root] at ho3
        cases ho3
        simp only [Option.some.injEq] at hi3
        subst hi3
        have ok3 : MemOK m3 := update_ok ok2 _ _ fun _ => rfl
        have hwl : mt.objs.length < m2.objs.length := lt_of_obj hfw
        have mlt : mt.maps.length ≤ m2.maps.length := g2.mlen
        have hjl : m.maps.length < mt.maps.length := by have := hf.mlen; omega
        obtain ⟨ents', e1, e2, e3⟩ := hf.ents
        have ej : m3.maps[m.maps.length]? = some ents' := by
          rw [hm3, update_maps, g2.maps _ hjl (by simp), e1]
        refine ⟨modify_ok ok3 _ _ (by rw [hm3, update_olen]; exact hwl), ?_, ?_, ?_, ?_, put k mt.objs.length ents', ?_, ?_, ?_⟩
        · have e : m3.objs.length = m2.objs.length := by rw [hm3, update_olen]
          exact le_trans hf.olen (e ▸ g2.olen)
        · simp only [List.length_modify]
          rw [hm3, update_maps]
          exact le_trans hf.mlen mlt
        · intro b hb
          have : b < mt.objs.length := lt_of_lt_of_le hb hf.olen
          rw [show ({ m3 with maps := m3.maps.modify m.maps.length (put k mt.objs.length) } : Mem).objs = m3.objs from rfl,
            o3, if_neg (by omega), g2.objs b this, hf.objs b hb]
        · intro x hx hxj
          rw [modify_map, if_neg (fun h => hxj h.symm), hm3, update_maps, g2.maps x (lt_of_lt_of_le hx hf.mlen) (by simp), hf.maps x hx hxj]
        · rw [modify_map, if_pos rfl, ej]; rfl
        · intro k' hk'
          rw [put_lookup] at hk'
          rw [List.map_append, List.mem_append]
          split at hk'
          · rename_i hkk; right; simp [hkk]
          · exact Or.inl (e2 k' hk')
        · intro k' v' hk'
          rcases List.mem_append.mp hk' with hk2 | hk2
          · have hk'' := hk2
            obtain ⟨w', hw', hc', g, hg, hgc⟩ := e3 k' v' hk2
            have hne : k' ≠ k := by
              rintro rfl; exact hknew (List.mem_map_of_mem (f := Prod.fst) hk'')
            have hw'l := lt_of_obj hg
            refine ⟨w', by rw [put_lookup, if_neg hne, hw'], ?_, g, ?_, hgc⟩
            · refine copy_target _ _ _ _ _ hc' ?_ ?_ ?_
              · intro b hb hbl
                change m3.objs[b]? = _
                rw [o3, if_neg (by omega), g2.objs b hbl]
              · intro f1 hf1
                refine ⟨f1.context, ?_⟩
                change m3.objs[w']? = _
                rw [o3, if_neg (by omega), g2.objs w' hw'l, hf1]
              · intro x hx hxl
                rw [modify_map, if_neg (by omega), hm3, update_maps, g2.maps x hxl (by simp)]
            · change m3.objs[w']? = _
              rw [o3, if_neg (by omega), g2.objs w' hw'l, hg]
          · simp only [List.mem_singleton, Prod.mk.injEq] at hk2
            obtain ⟨rfl, rfl⟩ := hk2
            have hwobj : m3.objs[mt.objs.length]? = some { fw with context := some m.objs.length } := by
              rw [o3, if_pos rfl, hfw]; rfl
            refine ⟨mt.objs.length, by rw [put_lookup, if_pos rfl], ?_, _, hwobj, rfl⟩
            have c3 : CopyOf n (m.objs.length + 1) (m.maps.length + 1) mt v' m2 mt.objs.length := by
              cases n with
              | zero => exact c2.elim
              | succ n =>
                obtain ⟨_, f, i, ents, f', j, ents', h1, h2, h3, h4, h5, h6, h7⟩ := c2
                exact ⟨by have := hf.olen; omega, f, i, ents, f', j, ents', h1, h2, h3, h4, h5, by omega, h7⟩
            refine copy_target _ _ _ _ _ (copy_source gmt hok _ _ _ _ _ hv c3) ?_ ?_ ?_
            · intro b hb hbl
              change m3.objs[b]? = _
              rw [o3, if_neg (by omega)]
            · intro f1 hf1
              rw [hfw] at hf1
              cases hf1
              exact ⟨_, hwobj⟩
            · intro x hx hxl
              rw [modify_map, if_neg (by omega), hm3, update_maps]
    have start : Filled n m mc m.objs.length m.maps.length [] mc :=
      ⟨okc, le_refl _, le_refl _, fun _ _ => rfl, fun _ _ _ => rfl, [], mj, by simp, by simp⟩
    have hF := loop ents [] mc rfl start h4
    obtain ⟨ents', e1, e2, e3⟩ := hF.ents
    have hroot : m'.objs[m.objs.length]? = some
        { name := f.name, context := f.context, fmap := some m.maps.length, inputs := f.inputs, cmap := f.cmap,
          tasks := f.tasks } := by
      rw [hF.objs _ (by omega), root]
    refine ⟨rfl, hF.ok, ⟨?_, ?_, ?_, ?_⟩, ⟨le_refl _, f, i, ents, _, _, ents', h1, h2, h3, hroot, rfl, le_refl _, e1, rfl, rfl, rfl, rfl, ?_, ?_⟩,
      f, _, h1, hroot, rfl⟩
    · have := hF.olen; omega
    · have := hF.mlen; omega
    · intro b hb; rw [hF.objs b (by omega), oc b hb]
    · intro x hx _; rw [hF.maps x (by omega) (by omega), mc' x hx]
    · intro k hk
      obtain ⟨p, hp, rfl⟩ := List.mem_map.mp (e2 k hk)
      rw [lookup_of_mem hnd (k := p.1) (v := p.2) hp]; rfl
    · intro k v hk
      exact e3 k v (mem_of_lookup hk)

end APS.Prog
