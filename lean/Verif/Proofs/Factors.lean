import Verif.Spec.Circuit
import Verif.Model.Compile
import Verif.Proofs.Dense
import Verif.Props.Field

/-! Helper lemmas about linear forms. -/
namespace APS.Circuit
open APS.Spec

variable {q : Nat} (ν : Name → ZMod q)

@[simp] theorem formVal_nil : formVal ν [] = 0 := rfl
@[simp] theorem formVal_cons (f : Factor) (l : Factors) : formVal ν (f :: l) = factorVal ν f + formVal ν l := rfl
@[simp] theorem formVal_append (l r : Factors) : formVal ν (l ++ r) = formVal ν l + formVal ν r := by
  simp [formVal]
theorem formVal_perm {l r : Factors} (h : l.Perm r) : formVal ν l = formVal ν r :=
  (h.map _).sum_eq

@[simp] theorem factorVal_numF (v : Int) : factorVal ν (numF v) = (v : ZMod q) := by simp [factorVal, numF]
@[simp] theorem factorVal_argF (n : Name) (v : Int) : factorVal ν (argF n v) = (v : ZMod q) * ν n := by
  simp [factorVal, argF]

theorem insertDesc_perm (x : Factor) (l : Factors) : (insertDesc x l).Perm (x :: l) := by
  induction l with
  | nil => exact .refl _
  | cons y ys ih =>
    unfold insertDesc
    split
    · exact (ih.cons y).trans (List.Perm.swap x y ys)
    · exact .refl _

theorem sortF_perm (l : Factors) : (sortF l).Perm l := by
  have : ∀ (l acc : Factors), (l.foldl (fun acc x => insertDesc x acc) acc).Perm (l ++ acc) := by
    intro l
    induction l with
    | nil => intro acc; exact .refl _
    | cons x xs ih =>
      intro acc
      refine (ih _).trans ?_
      refine ((insertDesc_perm x acc).append_left xs).trans ?_
      exact List.perm_middle
  simpa [sortF] using this l []

@[simp] theorem formVal_sortF (l : Factors) : formVal ν (sortF l) = formVal ν l := formVal_perm ν (sortF_perm l)

theorem addFactor_val {l r s : Factor} (h : addFactor q l r = some s) :
    factorVal ν s = factorVal ν l + factorVal ν r := by
  unfold addFactor at h
  split at h
  · rename_i hn
    simp only [Bool.and_eq_true] at hn
    cases h
    rw [factorVal_numF]; unfold Fq.add
    rw [cast_emod]; simp [factorVal, hn.1, hn.2]
  · split at h
    · rename_i h1 h2
      cases h
      unfold Fq.add
      simp only [factorVal, cast_emod, h2.1, h2.2]
      push_cast; ring
    · cases h

theorem addInto_val {l : Factor} {r r' : Factors} (h : addInto q l r = some r') :
    formVal ν r' = factorVal ν l + formVal ν r := by
  induction r generalizing r' with
  | nil => simp [addInto] at h
  | cons x xs ih =>
    unfold addInto at h
    split at h
    · rename_i s hs
      cases h
      simp only [formVal_cons, addFactor_val ν hs]; ring
    · cases hx : addInto q l xs with
      | none => simp [hx] at h
      | some y =>
        simp only [hx, Option.map_some, Option.some.injEq] at h
        subst h
        simp only [formVal_cons, ih hx]; ring

theorem addLoop_val (l r : Factors) :
    formVal ν (addLoop q l r).1 + formVal ν (addLoop q l r).2 = formVal ν l + formVal ν r := by
  induction l generalizing r with
  | nil => simp [addLoop]
  | cons x xs ih =>
    unfold addLoop
    split
    · rename_i r' hr'
      rw [ih, addInto_val ν hr', formVal_cons]; ring
    · have := ih r
      simp only [formVal_cons]
      rw [add_assoc, this]; ring

theorem formVal_filter_ne (l : Factors) : formVal ν (l.filter (fun f => f.mul ≠ 0)) = formVal ν l := by
  induction l with
  | nil => rfl
  | cons x xs ih =>
    by_cases hx : x.mul = 0
    · rw [List.filter_cons_of_neg (by simp [hx]), ih]; simp [factorVal, hx]
    · rw [List.filter_cons_of_pos (by simp [hx])]; simp only [formVal_cons, ih]

theorem addFactors_val (l r : Factors) : formVal ν (addFactors q l r) = formVal ν l + formVal ν r := by
  unfold addFactors
  have h := addLoop_val (q := q) ν l r
  have h2 : formVal ν ((addLoop q l r).1 ++ (addLoop q l r).2.filter (fun f => f.mul ≠ 0)) =
      formVal ν l + formVal ν r := by
    rw [formVal_append, formVal_filter_ne, h]
  simp only []
  split
  · rename_i he
    rw [he] at h2
    simpa using h2
  · exact h2

theorem negateFactors_val (l : Factors) : formVal ν (negateFactors l) = - formVal ν l := by
  induction l with
  | nil => simp [negateFactors]
  | cons x xs ih =>
    have : negateFactors (x :: xs) = (if x.tok.isNum then numF (-x.mul) else { x with mul := -x.mul }) :: negateFactors xs := rfl
    rw [this, formVal_cons, formVal_cons, ih]
    have : factorVal ν (if x.tok.isNum then numF (-x.mul) else { x with mul := -x.mul }) = - factorVal ν x := by
      split
      · rename_i h; rw [factorVal_numF]; simp [factorVal, h]
      · rename_i h; simp [factorVal, h]
    rw [this]; ring

theorem isSingleNumber_iff {l : Factors} : isSingleNumber l = true ↔ ∃ f, l = [f] ∧ f.tok.isNum = true := by
  unfold isSingleNumber
  split
  · simp
  · rename_i h
    simp only [Bool.false_eq_true, false_iff, not_exists, not_and]
    intro f hf; exact absurd hf (h f)

/-- a number times anything -/
theorem mulOne_val {l r : Factor} (h : l.tok.isNum = true ∨ r.tok.isNum = true) :
    ∃ s, mulOne q l r = some s ∧ factorVal ν s = factorVal ν l * factorVal ν r := by
  unfold mulOne
  rcases hl : l.tok.isNum with _ | _ <;> rcases hr : r.tok.isNum with _ | _
  · simp [hl, hr] at h
  · refine ⟨_, by simp; rfl, ?_⟩
    simp only [factorVal, Fq.mul, cast_emod, hl, hr]; push_cast; simp; ring
  · refine ⟨_, by simp; rfl, ?_⟩
    simp only [factorVal, Fq.mul, cast_emod, hl, hr]; push_cast; simp; ring
  · refine ⟨_, by simp; rfl, ?_⟩
    rw [factorVal_numF]
    simp only [factorVal, Fq.mul, cast_emod, hl, hr]; push_cast; simp; ring

theorem mapM_mulRow {r : Factor} : ∀ (l : Factors), (∀ f ∈ l, f.tok.isNum = true ∨ r.tok.isNum = true) →
    ∃ s, (l.mapM fun f => mulRow q f [r] f) = some s ∧ s.length = l.length ∧
      formVal ν s = formVal ν l * factorVal ν r := by
  intro l
  induction l with
  | nil => intro _; exact ⟨[], by simp, by simp⟩
  | cons x xs ih =>
    intro h
    obtain ⟨s, hs, hlen, hv⟩ := ih (fun f hf => h f (List.mem_cons_of_mem _ hf))
    obtain ⟨y, hy, hyv⟩ := mulOne_val ν (h x (List.mem_cons_self))
    refine ⟨y :: s, ?_, by simp [hlen], ?_⟩
    · rw [List.mapM_cons, hs]
      simp [mulRow, hy]
    · simp only [formVal_cons, hyv, hv]; ring

theorem mulFactors_val {l r : Factors} (hl : l ≠ []) (hr : r ≠ [])
    (h : isSingleNumber l = true ∨ isSingleNumber r = true) :
    ∃ s, mulFactors q l r = some s ∧ s ≠ [] ∧ formVal ν s = formVal ν l * formVal ν r := by
  have main : ∀ (a : Factors) (b : Factor), a ≠ [] → (∀ f ∈ a, f.tok.isNum = true ∨ b.tok.isNum = true) →
      ∃ s, (a.mapM fun f => mulRow q f [b] f) = some s ∧ s ≠ [] ∧ formVal ν s = formVal ν a * factorVal ν b := by
    intro a b ha hab
    obtain ⟨s, hs, hlen, hv⟩ := mapM_mulRow (q := q) ν (r := b) a hab
    refine ⟨s, hs, ?_, hv⟩
    rintro rfl
    exact ha (List.eq_nil_of_length_eq_zero (by simpa using hlen.symm))
  unfold mulFactors
  rcases h with h | h
  · obtain ⟨f, rfl, hf⟩ := isSingleNumber_iff.mp h
    by_cases hlt : [f].length < r.length
    · simp only [hlt, if_true]
      obtain ⟨s, hs, hne, hv⟩ := main r f hr (fun _ _ => Or.inr hf)
      exact ⟨s, hs, hne, by rw [hv]; simp; ring⟩
    · simp only [hlt, if_false]
      obtain ⟨b, rfl⟩ : ∃ b, r = [b] := by
        match r, hr, hlt with
        | [b], _, _ => exact ⟨b, rfl⟩
        | a :: b :: c, _, hlt => simp at hlt
      obtain ⟨s, hs, hne, hv⟩ := main [f] b (by simp) (fun x hx => by simp at hx; subst hx; exact Or.inl hf)
      exact ⟨s, hs, hne, by rw [hv]; simp⟩
  · obtain ⟨f, rfl, hf⟩ := isSingleNumber_iff.mp h
    have hlt : ¬ l.length < [f].length := by
      have := List.length_pos_iff.mpr hl
      simp; omega
    simp only [hlt, if_false]
    obtain ⟨s, hs, hne, hv⟩ := main l f hl (fun _ _ => Or.inr hf)
    exact ⟨s, hs, hne, by rw [hv]; simp⟩

theorem gcdLoop_dvd (g : Int) (l : Factors) : (gcdLoop g l ∣ g) ∧ ∀ f ∈ l, gcdLoop g l ∣ f.mul := by
  induction l generalizing g with
  | nil => simp [gcdLoop]
  | cons x xs ih =>
    unfold gcdLoop
    obtain ⟨h1, h2⟩ := ih (Int.gcd x.mul g)
    refine ⟨h1.trans (Int.gcd_dvd_right _ _), ?_⟩
    intro f hf
    rcases List.mem_cons.mp hf with rfl | hf
    · exact h1.trans (Int.gcd_dvd_left _ _)
    · exact h2 f hf

theorem extractGCD_val {l l' : Factors} {g : Int} (h : extractGCD l = some (l', g)) :
    formVal ν l = (g : ZMod q) * formVal ν l' ∧ l'.length = l.length ∧ l'.map (·.tok) = l.map (·.tok) := by
  cases l with
  | nil => simp [extractGCD] at h
  | cons f fs =>
    simp only [extractGCD] at h
    split at h
    · cases h
    · simp only [Option.some.injEq, Prod.mk.injEq] at h
      obtain ⟨h1, h2⟩ := h
      subst h1
      have hd : ∀ x ∈ f :: fs, g ∣ x.mul := by
        intro x hx
        rw [← h2]
        rcases List.mem_cons.mp hx with rfl | hx
        · exact (gcdLoop_dvd _ _).1
        · exact (gcdLoop_dvd _ _).2 x hx
      rw [h2]
      refine ⟨?_, by simp, by simp [Function.comp_def]⟩
      generalize f :: fs = l at hd
      induction l with
      | nil => simp
      | cons x xs ih =>
        rw [List.map_cons, formVal_cons, formVal_cons, ih (fun y hy => hd y (List.mem_cons_of_mem _ hy)), mul_add]
        congr 1
        obtain ⟨k, hk⟩ := hd x List.mem_cons_self
        by_cases hg : g = 0
        · subst hg; simp [factorVal, hk]
        · have : x.mul / g = k := by rw [hk]; exact Int.mul_ediv_cancel_left k hg
          simp only [factorVal, this]
          rw [hk]; push_cast; ring

theorem factorSignature_val {l l' : Factors} {g : Int} (h : factorSignature l = some (g, l')) :
    formVal ν l = (g : ZMod q) * formVal ν l' := by
  unfold factorSignature at h
  split at h
  · cases h
  · rename_i f' g' hx
    simp only [Option.some.injEq, Prod.mk.injEq] at h
    obtain ⟨rfl, rfl⟩ := h
    rw [formVal_sortF]
    exact (extractGCD_val ν hx).1

theorem extractConstant_val {l r l' r' : Factors} {k : Int} (h : extractConstant q l r = some (k, l', r')) :
    formVal ν l * formVal ν r = (k : ZMod q) * (formVal ν l' * formVal ν r') := by
  unfold extractConstant at h
  cases h1 : factorSignature l with
  | none => simp [h1] at h
  | some p =>
    cases h2 : factorSignature r with
    | none => simp [h1, h2] at h
    | some p' =>
      obtain ⟨g, a⟩ := p
      obtain ⟨g', b⟩ := p'
      simp only [h1, h2, Option.bind_eq_bind, Option.bind_some, Option.pure_def, Option.some.injEq,
        Prod.mk.injEq] at h
      obtain ⟨rfl, rfl, rfl⟩ := h
      rw [factorSignature_val ν h1, factorSignature_val ν h2]
      unfold Fq.mul
      rw [cast_emod]; push_cast; ring

end APS.Circuit
