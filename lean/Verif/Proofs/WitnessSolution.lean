import Verif.Proofs.WitnessFinal

/-! A solution vector for a program that evaluates. -/
namespace APS.Circuit
open APS.Spec APS.Avl APS.Avl.Tree

variable {q : Nat} {P : List Name} {rand : Bool} {s : St} {m : IndexMap} {sp : SplitMap} {gx : ZMod q → ZMod q}

/-- what compilation guarantees about the returned form `f` and the final state `s` of a program with inputs `I` -/
structure Made (q : Nat) (I : List Name) (f : Factors) (s : St) : Prop where
  wf : WF I s
  known : KnownF (I ++ s.c.computed) f
  att : SplitAtt I s
  attF : AttF I s f
  seq : NoConfusion s → ZoSeq (Fq.bitLen q) s.c.gates

theorem execute_made [Fact q.Prime] {H : Name → Nat} {p : Prog} {f : Factors} (hok : ProgOK p)
    (h : execute H q p = some (f, s)) : Made q p.inputs f s :=
  ⟨(execute_wf hok h).1, (execute_wf hok h).2.2, (execute_att hok h).1, (execute_att hok h).2, execute_zoSeq hok h⟩

theorem compiled_of_run {I : List Name} {f : Factors} (hM : Made q I f s) (hr : RunOK I P rand s)
    (hrin : randIn ∉ oneName :: P ∧ randIn ∉ I ∧ randIn ∉ s.c.computed)
    (hb : buildIndex (oneName :: P) I s.c.gates rand = some (m, sp))
    (hidx : IndexSpec (oneName :: P) I s.c.gates rand m)
    (hgo : ∀ g ∈ s.c.gates, GateOK m g) : Compiled (q := q) I P rand s m sp := by
  have hw := hM.wf
  refine ⟨hw, hM.att, hr.conf, hr.const, hidx, hr.one, hr.disj, hrin, fun hrt => hr.rnd hrt _ (by simp),
    buildIndex_split hb hr.publics (fun hrt n hn => ?_) (fun g hg ht => ?_), hM.seq hr.conf, hgo⟩
  · obtain ⟨a, b, c⟩ := hr.rnd hrt n (by simpa using hn)
    refine ⟨a, b, fun g hg _ he => c ?_⟩
    rw [hw.comp, ← he]
    exact List.mem_map.mpr ⟨g, hg, rfl⟩
  · have := (hw.forms g hg).shape
    simp only [GateShape, ht] at this
    exact this.2.2.2.2

theorem getD_witnessOf {m : IndexMap} (hi : IdxInv m) (ν : Name → ZMod q) {n : Name} (hn : m.has n = true) :
    (witnessOf q m ν).getD (m.get n) 0 = ((ν n).val : Int) := by
  obtain ⟨i, hl⟩ := List.getElem?_of_mem (has_iff.mp hn)
  rw [get_of_getElem hi hl, witnessOf, List.getD_eq_getElem?_getD, List.getElem?_map]
  rw [List.getElem?_map] at hl
  cases hm : m[i]? with
  | none => simp [hm] at hl
  | some e =>
    simp [hm] at hl
    subst hl
    simp

theorem Compiled.solution [Fact q.Prime] {I : List Name} {f : Factors} (hM : Made q I f s)
    (hC : Compiled (q := q) I P rand s m sp) {vals : Name → ZMod q} {v : ZMod q}
    (hv : ∃ ν : Name → ZMod q, (∀ n ∈ I, ν n = vals n) ∧ Models gx ν s ∧ formVal ν f = v) {rnd : Int} (hr0 : 0 ≤ rnd) (hr1 : rnd < q) :
    ∃ t, Solution gx m rand s rnd t ∧ (∀ n ∈ I, t.getD (m.get n) 0 = ((vals n).val : Int)) ∧
      formVal (valsOf q m t) f = v := by
  have : NeZero q := ⟨(Fact.out : q.Prime).ne_zero⟩
  obtain ⟨ν, n1, n2, n3⟩ := hv
  have hw := hM.wf
  have hi := hC.idx
  let ν1 : Name → ZMod q := fun n => if n = oneName then 1 else if rand = true ∧ n = randIn then (rnd : ZMod q)
    else if rand = true ∧ n = randOut then (rnd : ZMod q) * rnd + gx rnd else ν n
  have hν1 : ∀ n ∈ I ++ s.c.computed, ν n = ν1 n := by
    intro n hn
    have e1 : n ≠ oneName := by
      rintro rfl
      rcases List.mem_append.mp hn with hn | hn
      exacts [hC.one.1 hn, hC.one.2 hn]
    have e3 : ¬ (rand = true ∧ n = randIn) := by
      rintro ⟨-, rfl⟩
      rcases List.mem_append.mp hn with hn | hn
      exacts [hC.rin.2.1 hn, hC.rin.2.2 hn]
    have e4 : ¬ (rand = true ∧ n = randOut) := by
      rintro ⟨hr, rfl⟩
      rcases List.mem_append.mp hn with hn | hn
      exacts [(hC.rout hr).2.1 hn, (hC.rout hr).2.2 hn]
    simp only [ν1, if_neg e1, if_neg e3, if_neg e4]
  have hvals : ∀ n, m.has n = true → valsOf q m (witnessOf q m ν1) n = ν1 n := fun n hn => valsOf_witnessOf hi.inv ν1 hn
  have hatt : ∀ n, Att I s n → valsOf q m (witnessOf q m ν1) n = ν n := by
    intro n hn
    rw [hvals n (att_has hC.conf hi hn), hν1 n]
    rcases hC.att_cases hn with hI | ⟨g, hg, -, rfl⟩
    · exact List.mem_append_left _ hI
    · exact List.mem_append_right _ (hC.computed_of_mem hg)
  have hF : ∀ F : Factors, AttF I s F → formVal (valsOf q m (witnessOf q m ν1)) F = formVal ν F := fun F hF =>
    formVal_congr fun n hn => hatt n (hF n hn)
  have hident : ∀ g ∈ s.c.gates, g.noNew = false → valsOf q m (witnessOf q m ν1) g.ident = ν g.ident := fun g hg hn =>
    hatt _ (Or.inr ⟨g, Or.inl hg, hn, rfl⟩)
  have harith : ∀ g ∈ s.c.gates, (g.typ = .sumCheck ∨ g.typ = .zeroOrOne) →
      valsOf q m (witnessOf q m ν1) g.arith.ident = ν g.arith.ident := fun g hg ht =>
    hatt _ ((hC.att g (Or.inl hg)).arith ht (hC.const g hg ht))
  refine ⟨witnessOf q m ν1, ⟨by simp [witnessOf], ?_, ?_, ⟨?_, ?_, ?_⟩, ?_, ?_⟩, ?_, ?_⟩
  · intro x hx
    obtain ⟨e, -, rfl⟩ := List.mem_map.mp hx
    exact ⟨by positivity, by exact_mod_cast ZMod.val_lt _⟩
  · have := getD_witnessOf hi.inv ν1 hC.has_one.1
    rw [hC.has_one.2] at this
    rw [this]
    simp only [ν1, if_true]
    have h1 := (Fact.out : q.Prime).one_lt
    rw [ZMod.val_one'' (by omega)]; rfl
  · intro g hg
    have hg1 := n2.holds g hg
    have hsh := (hw.forms g hg).shape
    have ha := hC.att g (Or.inl hg)
    have fl := hF g.left ha.left
    have fr := hF g.right ha.right
    have fe := hF g.expo ha.expo
    have fo := hF g.out ha.out
    unfold GateHolds at hg1 ⊢
    unfold GateShape at hsh
    cases ht : g.typ <;> rw [ht] at hsh <;> simp only [ht] at hg1 ⊢
    · rw [fl, fr, fo]; exact hg1
    · rw [fe, hident g hg hsh.2.2.2]; exact hg1
    · rw [fl, fr]; exact hg1
    · rw [fl, fo]; exact hg1
    · rw [fl, harith g hg (Or.inl ht)]; exact hg1
    · rw [hident g hg hsh.2.2.2.2]; exact hg1
  · intro g hg ht
    obtain ⟨i, h1, h2⟩ := n2.zo g hg ht
    exact ⟨i, h1, by rw [hident g hg (hC.zo_new hg ht), harith g hg (Or.inr ht)]; exact h2⟩
  · intro g hg ht
    rw [hF _ (hC.att g (Or.inl hg)).right]
    exact n2.quot g hg ht
  · intro hrt
    have hI := hvals randIn ((hi.names _).mpr (Or.inr (Or.inr (Or.inr ⟨hrt, Or.inl rfl⟩))))
    have hO := hvals randOut ((hi.names _).mpr (Or.inr (Or.inr (Or.inr ⟨hrt, Or.inr rfl⟩))))
    rw [RandHolds, hI, hO]
    have q1 : randIn ≠ oneName := fun he => hC.rin.1 (he ▸ List.mem_cons_self)
    have q2 : randOut ≠ oneName := fun he => (hC.rout hrt).1 (he ▸ List.mem_cons_self)
    simp [ν1, q1, q2, hrt, show randOut ≠ randIn by decide]
  · intro hrt
    rw [getD_witnessOf hi.inv ν1 ((hi.names _).mpr (Or.inr (Or.inr (Or.inr ⟨hrt, Or.inl rfl⟩))))]
    have q1 : randIn ≠ oneName := fun he => hC.rin.1 (he ▸ List.mem_cons_self)
    simp only [ν1, if_neg q1, hrt, true_and, if_true]
    rw [ZMod.val_intCast, Int.emod_eq_of_lt hr0 hr1]
  · intro n hn
    rw [getD_witnessOf hi.inv ν1 ((hi.names n).mpr (Or.inr (Or.inl hn))), ← hν1 n (List.mem_append_left _ hn), n1 n hn]
  · rw [hF f hM.attF, n3]

end APS.Circuit
