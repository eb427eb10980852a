import Verif.Proofs.Copy
import Verif.Proofs.Sym

/-!
Values of variables are stored as function objects (`store`); calling a copy of the object gives the value back
(`rereadSum`) and changes nothing.
-/
namespace APS.Prog
open APS.Lex (Token TokenType)
open APS.Parse (Constraint)
open APS.Circuit
open APS.LangSpec (builtins)

/-- the task of an object that stores one factor -/
def oneTask (x : Factor) : Constraint :=
  if x.tok.isNum = true ∨ x.mul = 1 then node .ret [] [.mk (tokOf x.tok) []]
  else node .ret [] [node .arithmetic ['*'], node .number (intStr x.mul), .mk (tokOf x.tok) []]

/-- name of the object that stores a form -/
def sumName : Factors → Name
  | [x] => x.tok.ident
  | _ => []

/-- the object `o` stores one factor -/
def Leaf (U : FObj → Prop) (m : Mem) (x : Factor) (o : Nat) : Prop :=
  ∃ (f : FObj) (i : Nat) (ents : List (Name × Nat)), m.objs[o]? = some f ∧ U f ∧ f.fmap = some i ∧ m.maps[i]? = some ents ∧
      f.inputs = [] ∧ f.tasks = [oneTask x] ∧ ents = []

/-- the object `o` stores the form -/
def Body (U : FObj → Prop) (m : Mem) : Factors → Nat → Prop
  | [], _ => False
  | [x], o => Leaf U m x o
  | x :: y :: rest, o => ∃ (f : FObj) (i : Nat) (ents : List (Name × Nat)), m.objs[o]? = some f ∧ U f ∧ f.fmap = some i ∧
      m.maps[i]? = some ents ∧ f.inputs = [] ∧
      f.tasks = [node .ret [] [node .arithmetic ['+'], node .functionCall x.tok.ident, node .functionCall (sumName (y :: rest))]] ∧
      ∃ a b, ents.lookup x.tok.ident = some a ∧ ents.lookup (sumName (y :: rest)) = some b ∧ Leaf U m x a ∧
        Body U m (y :: rest) b

/-- stored values belong to no function -/
abbrev Free (f : FObj) : Prop := f.context = none

/-- the object `o` is the value `g` of a variable -/
def Val (m : Mem) (g : Factors) (o : Nat) : Prop :=
  Body Free m g o ∧ ∃ f : FObj, m.objs[o]? = some f ∧ f.isNumber = isSingleNumber g ∧
    ∀ x, g = [x] → x.tok.isNum = true → f.name = x.tok.ident ∧ f.value = x.mul

theorem Body.lt {U : FObj → Prop} {m : Mem} {g : Factors} {o : Nat} (h : Body U m g o) : o < m.objs.length := by
  match g, h with
  | [x], ⟨f, _, _, h, _⟩ => exact lt_of_obj h
  | x :: y :: rest, ⟨f, _, _, h, _⟩ => exact lt_of_obj h

theorem Body.inputs {U : FObj → Prop} {m : Mem} {g : Factors} {o : Nat} (h : Body U m g o) :
    ∃ f : FObj, m.objs[o]? = some f ∧ U f ∧ f.inputs = [] := by
  match g, h with
  | [x], ⟨f, _, _, h, u, _, _, hi, _⟩ => exact ⟨f, h, u, hi⟩
  | x :: y :: rest, ⟨f, _, _, h, u, _, _, hi, _⟩ => exact ⟨f, h, u, hi⟩

theorem body_grow {U : FObj → Prop} {S : Nat → Prop} {m m' : Mem} (hg : Grow S m m')
    (hs : ∀ (o : Nat) (f : FObj) (i : Nat), m.objs[o]? = some f → U f → f.fmap = some i → ¬ S i) :
    ∀ (g : Factors) (o : Nat), Body U m g o → Body U m' g o := by
  have leaf : ∀ {x : Factor} {o : Nat}, Leaf U m x o → Leaf U m' x o := by
    rintro x o ⟨f, i, ents, h1, u, h2, h3, h4⟩
    exact ⟨f, i, ents, hg.obj h1, u, h2, hg.map h3 (hs _ _ _ h1 u h2), h4⟩
  intro g
  induction g with
  | nil => exact fun _ h => h.elim
  | cons x g ih =>
   cases g with
   | nil => exact fun o h => leaf h
   | cons y rest =>
    rintro o ⟨f, i, ents, h1, u, h2, h3, h4, h5, a, b, h6, h7, h8, h9⟩
    exact ⟨f, i, ents, hg.obj h1, u, h2, hg.map h3 (hs _ _ _ h1 u h2), h4, h5, a, b, h6, h7,
      leaf h8, ih b h9⟩

theorem body_grow0 {U : FObj → Prop} {m m' : Mem} (hg : Grow0 m m') {g : Factors} {o : Nat} (h : Body U m g o) : Body U m' g o :=
  body_grow hg (fun _ _ _ _ _ _ => id) g o h

theorem Val.grow {S : Nat → Prop} {m m' : Mem} (hg : Grow S m m')
    (hs : ∀ (o : Nat) (f : FObj) (i : Nat), m.objs[o]? = some f → Free f → f.fmap = some i → ¬ S i) {g : Factors} {o : Nat}
    (h : Val m g o) : Val m' g o := by
  obtain ⟨h1, f, h2, h3⟩ := h
  exact ⟨body_grow hg hs _ _ h1, f, hg.obj h2, h3⟩

theorem Val.grow0 {m m' : Mem} (hg : Grow0 m m') {g : Factors} {o : Nat} (h : Val m g o) : Val m' g o :=
  h.grow hg (fun _ _ _ _ _ _ => id)

theorem body_copy {U : FObj → Prop} {m m' : Mem} : ∀ (g : Factors) (n lo lom o c : Nat), Body U m g o → CopyOf n lo lom m o m' c →
    Body (fun _ => True) m' g c := by
  have leaf : ∀ {x : Factor} {n lo lom o c : Nat}, Leaf U m x o → CopyOf n lo lom m o m' c → Leaf (fun _ => True) m' x c := by
    intro x n lo lom o c hb hc
    obtain ⟨f, i, ents, h1, -, h2, h3, h4, h5, rfl⟩ := hb
    match n, hc with
    | n + 1, ⟨_, f0, i0, ents0, f', j, ents', k1, k2, k3, k4, k5, _, k6, k7, _, k8, _, k9, _⟩ =>
      rw [h1] at k1; cases k1
      rw [h2] at k2; cases k2
      rw [h3] at k3; cases k3
      refine ⟨f', j, ents', k4, trivial, k5, k6, k7.trans h4, k8.trans h5, ?_⟩
      match ents', k9 with
      | [], _ => rfl
      | (k, v) :: _, k9 => have := k9 k (by simp [List.lookup]); simp at this
  intro g
  induction g with
  | nil => exact fun _ _ _ _ _ h _ => h.elim
  | cons x g ih =>
   cases g with
   | nil => exact fun _ _ _ _ _ h hc => leaf h hc
   | cons y rest =>
    intro n lo lom o c hb hc
    obtain ⟨f, i, ents, h1, -, h2, h3, h4, h5, a, b, h6, h7, h8, h9⟩ := hb
    match n, hc with
    | n + 1, ⟨_, f0, i0, ents0, f', j, ents', k1, k2, k3, k4, k5, _, k6, k7, _, k8, _, _, k9⟩ =>
      rw [h1] at k1; cases k1
      rw [h2] at k2; cases k2
      rw [h3] at k3; cases k3
      obtain ⟨a', ha, ca, -⟩ := k9 _ _ h6
      obtain ⟨b', hb, cb, -⟩ := k9 _ _ h7
      exact ⟨f', j, ents', k4, trivial, k5, k6, k7.trans h4, k8.trans h5, a', b', ha, hb,
        leaf h8 ca, ih _ _ _ _ _ h9 cb⟩

/-! ### storing -/

/-- the factors of a form have different names, at most one is a number -/
structure Sep (g : Factors) : Prop where
  names : (g.map (·.tok.ident)).Nodup
  ne : ∀ x ∈ g, x.tok.ident ≠ []
  one : g.Pairwise fun x y => ¬ (x.tok.isNum = true ∧ y.tok.isNum = true)

theorem Sep.tail {x : Factor} {g : Factors} (h : Sep (x :: g)) : Sep g :=
  ⟨(List.nodup_cons.mp h.names).2, fun y hy => h.ne y (List.mem_cons_of_mem _ hy), (List.pairwise_cons.mp h.one).2⟩

theorem Sep.head {x : Factor} {g : Factors} (h : Sep (x :: g)) : x.tok.ident ≠ sumName g := by
  have h1 := (List.nodup_cons.mp h.names).1
  match g with
  | [] => exact h.ne x List.mem_cons_self
  | [y] => simpa [sumName] using h1
  | y :: z :: g => exact h.ne x List.mem_cons_self

theorem storeOne_eq (m : Mem) (x : Factor) :
    storeOne m x = (m.objs.length, (m.newCircuit x.tok.ident none).2.update m.objs.length fun g =>
      { g with tasks := [oneTask x], isNumber := g.isNumber || x.tok.isNum, value := if x.tok.isNum then x.mul else g.value }) := by
  unfold storeOne oneTask
  simp only [Mem.newCircuit]
  by_cases h : x.tok.isNum = true
  · simp [h]
  · by_cases h1 : x.mul = 1
    · simp [h, h1]
    · simp [h, h1]

theorem storeOne_spec {m : Mem} (hok : MemOK m) (x : Factor) {o : Nat} {m' : Mem} (h : storeOne m x = (o, m')) :
    o = m.objs.length ∧ MemOK m' ∧ Grow0 m m' ∧ Val m' [x] o ∧ ∃ f : FObj, m'.objs[o]? = some f ∧ f.name = x.tok.ident := by
  rw [storeOne_eq] at h
  cases h
  have hobj : ((m.newCircuit x.tok.ident none).2.update m.objs.length fun g =>
      { g with tasks := [oneTask x], isNumber := g.isNumber || x.tok.isNum, value := if x.tok.isNum then x.mul else g.value }).objs[m.objs.length]? =
      some { name := x.tok.ident, fmap := some m.maps.length, tasks := [oneTask x], isNumber := x.tok.isNum,
             value := if x.tok.isNum then x.mul else 0 } := by
    rw [update_obj, if_pos rfl, newCircuit_obj]; simp
  have hmap : ((m.newCircuit x.tok.ident none).2.update m.objs.length fun g =>
      { g with tasks := [oneTask x], isNumber := g.isNumber || x.tok.isNum, value := if x.tok.isNum then x.mul else g.value }).maps[m.maps.length]? =
      some [] := by
    rw [update_maps, newCircuit_map]
  refine ⟨rfl, update_ok (newCircuit_ok hok _ _) _ _ fun _ => rfl, ?_, ⟨⟨_, _, _, hobj, rfl, rfl, hmap, rfl, rfl, rfl⟩, _, hobj, rfl, ?_⟩,
    _, hobj, rfl⟩
  · have g := newCircuit_grow m x.tok.ident none
    refine ⟨by rw [update_olen]; exact g.olen, by rw [update_maps]; exact g.mlen, fun b hb => ?_, fun i hi hs => ?_⟩
    · rw [update_obj, if_neg (by omega)]; exact g.objs b hb
    · rw [update_maps]; exact g.maps i hi hs
  · intro y hy hn
    cases hy
    simp [hn]

theorem store_spec (q : Nat) : ∀ (g : Factors) {m m' : Mem} {o : Nat}, MemOK m → g ≠ [] → Sep g → store q g m = some (o, m') →
    m.objs.length ≤ o ∧ MemOK m' ∧ Grow0 m m' ∧ Val m' g o ∧ ∃ f : FObj, m'.objs[o]? = some f ∧ f.name = sumName g := by
  intro g
  induction g with
  | nil => intro _ _ _ _ h; exact (h rfl).elim
  | cons x g ih =>
   cases g with
   | nil =>
    intro m m' o hok _ _ h
    simp only [store, Option.some.injEq] at h
    obtain ⟨rfl, h⟩ := storeOne_spec hok x h
    exact ⟨le_refl _, h⟩
   | cons y rest =>
    intro m m' o hok _ hsep h
    simp only [store, Option.bind_eq_bind, Option.bind_eq_some_iff, Prod.exists] at h
    obtain ⟨b, m2, h2, h3⟩ := h
    obtain ⟨h11, ok1, g1, v1, fa, hfa, na⟩ := storeOne_spec hok x (o := (storeOne m x).1) (m' := (storeOne m x).2) rfl
    obtain ⟨h21, ok2, g2, v2, fb, hfb, nb⟩ := ih ok1 (by simp) hsep.tail h2
    have hfa2 := g2.obj hfa
    unfold combine at h3
    rw [hfa2, hfb] at h3
    have hnn : (fa.isNumber && fb.isNumber) = false := by
      obtain ⟨_, f1, e1, e2, -⟩ := v1
      rw [hfa] at e1; cases e1
      obtain ⟨_, f2, e3, e4, -⟩ := v2
      rw [hfb] at e3; cases e3
      rw [e2, e4]
      match rest with
      | [] =>
        have := (List.pairwise_cons.mp hsep.one).1 y List.mem_cons_self
        simp only [isSingleNumber]
        by_contra hh
        simp at hh
        exact this hh
      | z :: rest => simp [isSingleNumber]
    simp only [Option.bind_eq_bind, Option.bind_some, hnn, Bool.false_eq_true, if_false] at h3
    simp only [Option.bind_eq_some_iff] at h3
    obtain ⟨m3, s3, m4, s4, he⟩ := h3
    have hr : (m2.newCircuit [] none).1 = m2.objs.length := rfl
    rw [hr] at s3 s4 he
    simp only [Option.pure_def, Option.some.injEq, Prod.mk.injEq] at he
    obtain ⟨rfl, rfl⟩ := he
    set n2 := (m2.newCircuit [] none).2 with hn2
    have okn : MemOK n2 := newCircuit_ok ok2 _ _
    have gn : Grow0 m2 n2 := newCircuit_grow _ _ _
    have on : n2.objs[m2.objs.length]? = some { name := [], context := none, fmap := some m2.maps.length } := newCircuit_obj _ _ _
    have ln : n2.objs.length = m2.objs.length + 1 := by simp [hn2, Mem.newCircuit]
    have mn : n2.maps.length = m2.maps.length + 1 := by simp [hn2, Mem.newCircuit]
    obtain ⟨o3, i3, p3, p4, rfl⟩ := set_eq s3
    rw [on] at p3; cases p3; cases p4
    have la : (storeOne m x).1 < m2.objs.length := lt_of_obj hfa2
    have lb : b < m2.objs.length := lt_of_obj hfb
    have ok3 := modify_ok okn m2.maps.length fa.name (v := (storeOne m x).1) (by omega)
    obtain ⟨o4, i4, p5, p6, rfl⟩ := set_eq s4
    have p5' : n2.objs[m2.objs.length]? = some o4 := p5
    rw [on] at p5'; cases p5'; cases p6
    have ok4 := modify_ok ok3 m2.maps.length fb.name (v := b) (by simp only; omega)
    set n4 : Mem := { objs := n2.objs, maps := (n2.maps.modify m2.maps.length (put fa.name (storeOne m x).1)).modify m2.maps.length (put fb.name b) } with hn4
    have map4 : n4.maps[m2.maps.length]? = some (put fb.name b (put fa.name (storeOne m x).1 [])) := by
      have e : n2.maps[m2.maps.length]? = some [] := newCircuit_map _ _ _
      simp only [hn4, List.getElem?_modify, e]
      simp
    have mapo : ∀ i, i < m2.maps.length → n4.maps[i]? = m2.maps[i]? := by
      intro i hi
      have e := gn.maps i hi (by simp)
      simp only [hn4, List.getElem?_modify, if_neg (show ¬ m2.maps.length = i by omega)]
      rw [e]; simp
    set tsk := [node .ret [] [node .arithmetic ['+'], node .functionCall fa.name, node .functionCall fb.name]] with htsk
    have gall : Grow0 m2 (n4.update m2.objs.length fun g => { g with tasks := tsk }) := by
      refine ⟨?_, ?_, fun a ha => ?_, fun i hi _ => ?_⟩
      · rw [update_olen]; exact gn.olen
      · rw [update_maps]; simp only [hn4, List.length_modify]; omega
      · rw [update_obj, if_neg (by omega)]
        exact gn.objs a ha
      · rw [update_maps, mapo i hi]
    have hobj : (n4.update m2.objs.length fun g => { g with tasks := tsk }).objs[m2.objs.length]? =
        some { name := [], context := none, fmap := some m2.maps.length, tasks := tsk } := by
      rw [update_obj, if_pos rfl]
      rw [show n4.objs[m2.objs.length]? = n2.objs[m2.objs.length]? from rfl, on]; rfl
    have hne : x.tok.ident ≠ sumName (y :: rest) := hsep.head
    have l0 : m.objs.length ≤ m2.objs.length := le_trans g1.olen g2.olen
    refine ⟨l0, update_ok ok4 _ _ fun _ => rfl, (g1.trans g2).trans gall, ⟨⟨_, _, _, hobj, rfl, rfl, (by rw [update_maps, map4]), rfl, ?_, (storeOne m x).1, b, ?_, ?_, ?_, ?_⟩,
      _, hobj, rfl, ?_⟩, _, hobj, rfl⟩
    · simp only [htsk, na, nb]
    · rw [put_lookup, if_neg (by rw [nb]; exact hne), put_lookup, if_pos na.symm]
    · rw [put_lookup, if_pos nb.symm]
    · exact body_grow0 (g := [x]) (g2.trans gall) v1.1
    · exact body_grow0 gall v2.1
    · intro z hz; cases hz

end APS.Prog
