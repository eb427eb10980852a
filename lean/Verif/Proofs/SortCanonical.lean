import Verif.Proofs.Factors
import Mathlib.Data.List.Sort

/-! Sorting factors by their text yields a text that does not depend on the original order. -/
namespace APS.Circuit

theorem strLt_irrefl : ∀ a : Name, strLt a a = false := by
  intro a
  induction a with
  | nil => rfl
  | cons c cs ih => simp [strLt, ih]

theorem strLt_trans : ∀ {a b c : Name}, strLt a b = true → strLt b c = true → strLt a c = true := by
  intro a
  induction a with
  | nil =>
    intro b c h1 h2
    cases c with
    | nil => cases b <;> simp [strLt] at h2
    | cons z zs => rfl
  | cons x xs ih =>
    intro b c h1 h2
    cases b with
    | nil => simp [strLt] at h1
    | cons y ys =>
      cases c with
      | nil => simp [strLt] at h2
      | cons z zs =>
        simp only [strLt] at h1 h2 ⊢
        split at h1 <;> split at h2 <;> (try split at h1) <;> (try split at h2) <;> (try cases h1) <;> (try cases h2) <;>
          split <;> (try rfl) <;> (try omega) <;> split <;> (try omega)
        exact ih h1 h2

theorem strLt_total : ∀ {a b : Name}, strLt a b = false → strLt b a = false → a = b := by
  intro a
  induction a with
  | nil => intro b h1 h2; cases b <;> simp_all [strLt]
  | cons x xs ih =>
    intro b h1 h2
    cases b with
    | nil => simp [strLt] at h2
    | cons y ys =>
      simp only [strLt] at h1 h2
      split at h1
      · cases h1
      · split at h1
        · rename_i hlt; rw [if_pos hlt] at h2; cases h2
        · rename_i h3 h4
          rw [if_neg h4, if_neg h3] at h2
          have : x = y := Char.toNat_inj.mp (by omega)
          rw [this, ih h1 h2]

/-- descending order on texts: `a` may stand before `b` -/
def Desc (a b : Name) : Prop := strLt a b = false

theorem desc_antisymm {a b : Name} (h1 : Desc a b) (h2 : Desc b a) : a = b := strLt_total h1 h2

theorem desc_of_lt {a b : Name} (h : strLt a b = true) : Desc b a := by
  unfold Desc
  cases hb : strLt b a with
  | false => rfl
  | true => have := strLt_trans h hb; rw [strLt_irrefl] at this; cases this

theorem desc_trans {a b c : Name} (h1 : Desc a b) (h2 : Desc b c) : Desc a c := by
  unfold Desc at *
  cases hac : strLt a c with
  | false => rfl
  | true =>
    -- a < c ; c ≤ b ; b ≤ a
    cases hcb : strLt c b with
    | true => have := strLt_trans hac hcb; rw [this] at h1; cases h1
    | false =>
      have := strLt_total h2 hcb
      subst this
      rw [hac] at h1; cases h1

theorem insertDesc_sorted (x : Factor) (l : Factors) (h : l.Pairwise fun a b => Desc a.str b.str) :
    (insertDesc x l).Pairwise fun a b => Desc a.str b.str := by
  induction l with
  | nil => simp [insertDesc]
  | cons y ys ih =>
    rw [List.pairwise_cons] at h
    unfold insertDesc
    by_cases hlt : strLt x.str y.str = true
    · rw [if_pos hlt, List.pairwise_cons]
      refine ⟨fun z hz => ?_, ih h.2⟩
      rcases List.mem_cons.mp ((insertDesc_perm x ys).subset hz) with rfl | hz
      · exact desc_of_lt hlt
      · exact h.1 z hz
    · rw [if_neg hlt, List.pairwise_cons]
      have hxy : Desc x.str y.str := by unfold Desc; simpa using hlt
      refine ⟨fun z hz => ?_, List.pairwise_cons.mpr h⟩
      rcases List.mem_cons.mp hz with rfl | hz
      · exact hxy
      · exact desc_trans hxy (h.1 z hz)

theorem sortF_sorted (l : Factors) : (sortF l).Pairwise fun a b => Desc a.str b.str := by
  have : ∀ (l acc : Factors), (acc.Pairwise fun a b => Desc a.str b.str) →
      (l.foldl (fun acc x => insertDesc x acc) acc).Pairwise fun a b => Desc a.str b.str := by
    intro l
    induction l with
    | nil => intro acc h; exact h
    | cons x xs ih => intro acc h; exact ih _ (insertDesc_sorted x acc h)
  exact this l [] List.Pairwise.nil

theorem sortF_text {l l' : Factors} (h : l.Perm l') : (sortF l).flatMap Factor.str = (sortF l').flatMap Factor.str := by
  have hp : ((sortF l).map Factor.str).Perm ((sortF l').map Factor.str) :=
    ((sortF_perm l).trans (h.trans (sortF_perm l').symm)).map _
  have : (sortF l).map Factor.str = (sortF l').map Factor.str :=
    hp.eq_of_pairwise (le := Desc) (fun a b _ _ => desc_antisymm) (List.pairwise_map.mpr (sortF_sorted l))
      (List.pairwise_map.mpr (sortF_sorted l'))
  rw [List.flatMap_def, List.flatMap_def, this]

end APS.Circuit
