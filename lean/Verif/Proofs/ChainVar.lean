import Verif.Proofs.Chain
import Verif.Proofs.ParseArray

/-! Names of variables; assignment to a variable of a frame. -/
namespace APS.Prog
open APS.Lex (Token TokenType)
open APS.Parse (Constraint)
open APS.Circuit
open APS.LangSpec (builtins Stm Fun isWord)
open APS.ParseSpec (Ex indexText tree trees tuples)

theorem isWord_nobrk {w : Name} (h : isWord w = true) : '[' ∉ w := by
  cases w with
  | nil => cases h
  | cons c cs =>
    simp only [isWord, Bool.and_eq_true, List.all_eq_true] at h
    have hbad : APS.Lex.isLetter '[' = false ∧ APS.Lex.isDigit '[' = false := by decide
    intro hm
    rcases List.mem_cons.mp hm with hm | hm
    · have := h.1; rw [← hm] at this; simp [hbad.1] at this
    · have := h.2 _ hm; simp [hbad.1, hbad.2] at this

theorem isWord_notFor {w : Name} (h : isWord w = true) (t : Name) : ¬ IsFor (w ++ t) := by
  rintro ⟨i, hi⟩
  have hi : ∃ r, w ++ t = Nat.toDigits 10 i ++ r := by
    rcases hi with hi | hi <;> exact ⟨_, hi⟩
  obtain ⟨rr, hi⟩ := hi
  cases w with
  | nil => cases h
  | cons c cs =>
    simp only [isWord, Bool.and_eq_true] at h
    have hd : c.isDigit = true := by
      have hne : Nat.toDigits 10 i ≠ [] := Nat.toDigits_ne_nil
      cases hl : Nat.toDigits 10 i with
      | nil => exact (hne hl).elim
      | cons d ds =>
        rw [hl] at hi
        simp only [List.cons_append, List.cons.injEq] at hi
        rw [hi.1]
        exact Nat.isDigit_of_mem_toDigits (b := 10) (n := i) (by omega) (by omega) (by rw [hl]; simp)
    have hr := isDigit_range hd
    have h1 := h.1
    simp only [APS.Lex.isLetter, Bool.or_eq_true, Bool.and_eq_true, decide_eq_true_eq, beq_iff_eq] at h1
    have e0 : '0'.toNat = 48 := rfl
    have e9 : '9'.toNat = 57 := rfl
    rcases h1 with (⟨h1, -⟩ | ⟨h1, -⟩) | h1
    · have : 'a'.toNat ≤ c.toNat := h1
      have ea : 'a'.toNat = 97 := rfl
      omega
    · have : 'A'.toNat ≤ c.toNat := h1
      have ea : 'A'.toNat = 65 := rfl
      omega
    · subst h1
      have : '_'.toNat = 95 := rfl
      omega

theorem base_word {w : Name} (h : isWord w = true) (ks : List Nat) : base (w ++ indexText ks) = w := by
  have hb := isWord_nobrk h
  unfold base
  have hall : ∀ c ∈ w, (c != '[') = true := by
    intro c hc
    simp only [bne_iff_ne, ne_eq]
    rintro rfl; exact hb hc
  rw [List.takeWhile_append_of_pos hall]
  cases ks with
  | nil => simp [indexText]
  | cons k ks => simp [indexText]

theorem base_word' {w : Name} (h : isWord w = true) : base w = w := by
  have := base_word h []
  simpa [indexText] using this

/-- names that may be declared in a program -/
structure NameOK (P : List Fun) (y : Name) : Prop where
  word : isWord y = true
  user : y ∉ builtins
  fn : y ∉ P.map Fun.name

/-- the names of all frames are proper -/
def NamesOK (P : List Fun) (ch : List Frame) : Prop := ∀ F ∈ ch, ∀ y ∈ F.bases, NameOK P y

theorem own_var {m : Mem} {ch : List Frame} (hc : Chain m ch) {F : Frame} (hF : F ∈ ch) {x : Name} (hx : ¬ IsFor x)
    (h : (m.ownFunction F.addr x).isSome) : x ∈ F.vs ∧ base x ∈ F.bases := by
  obtain ⟨ctx, ins, tasks, f, i, ents, h1, h2, h3, h4, h5, h6, h7, h8, h9⟩ := hc.mem F hF
  rw [own_eq h1 h3 h4] at h
  have := (h8 x h).resolve_right hx
  exact ⟨this, List.mem_append_left _ (List.mem_map_of_mem this)⟩

theorem own_of_var {m : Mem} {ch : List Frame} (hc : Chain m ch) {F : Frame} (hF : F ∈ ch) {x : Name} (h : x ∈ F.vs) :
    (m.ownFunction F.addr x).isSome := by
  obtain ⟨ctx, ins, tasks, f, i, ents, h1, h2, h3, h4, h5, h6, h7, h8, h9⟩ := hc.mem F hF
  rw [own_eq h1 h3 h4]
  exact h7 x h

theorem set_own {m m' : Mem} (hok : MemOK m) {a : Nat} {x : Name} {v : Nat} (h : m.setFunction a x v = some m') (b : Nat) (k : Name) :
    m'.ownFunction b k = if b = a ∧ k = x then some v else m.ownFunction b k := by
  obtain ⟨o, i, h1, h2, rfl⟩ := set_eq h
  have hi := hok.bound _ _ _ h1 h2
  unfold Mem.ownFunction
  simp only [Option.bind_eq_bind]
  cases hb : m.objs[b]? with
  | none =>
    have : b ≠ a := by rintro rfl; rw [h1] at hb; cases hb
    simp [this]
  | some p =>
    simp only [Option.bind_some]
    cases hp : p.fmap with
    | none =>
      have : b ≠ a := by rintro rfl; rw [h1] at hb; cases hb; rw [h2] at hp; cases hp
      simp [this]
    | some j =>
      simp only [Option.bind_some]
      by_cases hba : b = a
      · subst hba
        rw [h1] at hb; cases hb
        rw [h2] at hp; cases hp
        obtain ⟨mp, hmp⟩ : ∃ mp, m.maps[i]? = some mp := ⟨_, List.getElem?_eq_some_iff.mpr ⟨hi, rfl⟩⟩
        simp only [List.getElem?_modify, hmp, if_true, Option.map_eq_map, Option.map_some, Option.bind_some, put_lookup, true_and]
      · have hij : i ≠ j := by
          rintro rfl
          exact hba (hok.inj _ _ _ _ _ hb h1 hp h2)
        simp [List.getElem?_modify, hij, hba]

/-- assignment to a variable -/
theorem set_var {m m' : Mem} {ch : List Frame} {E : Frame} {x : Name} {a : Nat} {f : Factors} {V : Name → Prop} {env : Env} (hok : MemOK m)
    (hc : Chain m ch) (hE : E ∈ ch) (hx : (m.ownFunction E.addr x).isSome) (hfor : ¬ IsFor x) (hrep : Rep m ch V env) (hval : Val m f a)
    (h : m.setFunction E.addr x a = some m') :
    MemOK m' ∧ Step ch m m' ∧ Rep m' ch (fun y => V y ∨ y = x) ((x, f) :: env) := by
  have hown := set_own hok h
  obtain ⟨o, i, h1, h2, rfl⟩ := set_eq h
  have hl : a < m.objs.length := hval.1.lt
  have hg : Grow (Fr m ch) m { m with maps := m.maps.modify i (put x a) } :=
    (modify_grow m i x a).weaken fun j _ hj => by subst hj; exact ⟨E, hE, o, h1, h2⟩
  refine ⟨modify_ok hok i x hl, ⟨hg, ?_, ?_, ?_⟩, ?_⟩
  · intro F hF k
    rw [hown]
    split
    · rename_i hh; rw [hh.1, hh.2]; simp [hx]
    · rfl
  · intro F hF k hk
    rw [hown, if_neg]
    rintro ⟨-, rfl⟩; exact hfor hk
  · intro F hF hv f' i' k1 k2
    show (m.maps.modify i (put x a))[i']? = m.maps[i']?
    have hne : i ≠ i' := by
      rintro rfl
      have he := hok.inj _ _ _ _ _ k1 h1 k2 h2
      have := (own_var hc hF hfor (by rw [he]; exact hx)).1
      rw [hv] at this; cases this
    simp [List.getElem?_modify, hne]
  · intro F hF y b hy hb
    rw [hown] at hb
    have vg : ∀ {g : Factors} {o : Nat}, Val m g o → Val { m with maps := m.maps.modify i (put x a) } g o := fun hv =>
      hv.grow hg fun o f i h1 hf h2 => free_not_fr hok hc h1 hf h2
    by_cases hyx : y = x
    · subst hyx
      refine ⟨f, by simp, ?_⟩
      have hFE : F.addr = E.addr := by
        by_contra hne
        rw [if_neg (fun hh => hne hh.1)] at hb
        exact hne (hc.unique hF hE (own_var hc hF hfor (by rw [hb]; rfl)).2 (own_var hc hE hfor hx).2).1
      rw [if_pos ⟨hFE, rfl⟩] at hb
      cases hb
      exact vg hval
    · rw [if_neg (fun hh => hyx hh.2)] at hb
      obtain ⟨g, e1, e2⟩ := hrep F hF y b (hy.resolve_right hyx) hb
      refine ⟨g, ?_, vg e2⟩
      rw [List.lookup_cons]
      have : (y == x) = false := by simpa using hyx
      rw [this]; exact e1

end APS.Prog
