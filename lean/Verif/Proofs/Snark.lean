import Verif.Spec.Snark
import Verif.Props.Dense

/-! Proofs about the proof system: exponents of keys and proofs. -/
namespace APS.Snark
open Polynomial APS.Spec APS.Circuit

variable {G1 G2 GT : Type} [AddCommGroup G1] [AddCommGroup G2] [AddCommGroup GT] {api : Api G1 G2 GT} {q : Nat}
  {g1 : G1} {g2 : G2}

/-! ### generic sums -/

/-- `k ↦ k•g` on residues -/
noncomputable def expo {G : Type} [AddCommGroup G] (q : Nat) (g : G) (h : q • g = 0) : ZMod q →+ G :=
  ZMod.lift q ⟨zmultiplesHom G g, by simpa using h⟩

theorem expo_cast {G : Type} [AddCommGroup G] {q : Nat} {g : G} (h : q • g = 0) (k : Int) :
    expo q g h (k : ZMod q) = k • g := by
  unfold expo
  rw [ZMod.lift_coe]; simp

theorem expo_smul {G : Type} [AddCommGroup G] {q : Nat} {g : G} (h : q • g = 0) (k : Int) (s : ZMod q) :
    k • expo q g h s = expo q g h ((k : ZMod q) * s) := by
  rw [← map_zsmul]; congr 1; simp

theorem scaleAll_spec {G : Type} {mul : G → Int → G} {φ : ZMod q → G}
    (hmul : ∀ s k, 0 ≤ k → mul (φ s) k = φ ((k : ZMod q) * s)) :
    ∀ (bs : List (ZMod q)) (ks : List Int), ks.length ≤ bs.length → (∀ k ∈ ks, 0 ≤ k) →
      scaleAll mul (bs.map φ) ks = some ((List.zipWith (fun (k : Int) b => (k : ZMod q) * b) ks bs).map φ)
  | _, [], _, _ => by simp [scaleAll]
  | [], _ :: _, h, _ => by simp at h
  | b :: bs, k :: ks, h, hk => by
    have := scaleAll_spec hmul bs ks (by simpa using h) (fun k h => hk k (by simp [h]))
    simp [scaleAll, this, hmul b k (hk k (by simp))]

theorem foldl_safe {G : Type} [AddCommGroup G] {addTo : G → G → G} {φ : ZMod q →+ G} (hinj : Function.Injective φ)
    (hadd : ∀ a b : G, a ≠ b ∨ a = 0 → addTo a b = a + b) :
    ∀ (ts : List (ZMod q)) (s : ZMod q),
      (∀ k, k < ts.length → s + (ts.take k).sum = ts.getD k 0 → s + (ts.take k).sum = 0) →
      (ts.map φ).foldl addTo (φ s) = φ (s + ts.sum)
  | [], s, _ => by simp
  | t :: ts, s, h => by
    have h0 : φ s ≠ φ t ∨ φ s = 0 := by
      by_cases e : s = t
      · right
        have := h 0 (by simp) (by simpa using e)
        rw [show s = 0 by simpa using this]; simp
      · exact Or.inl (fun he => e (hinj he))
    rw [List.map_cons, List.foldl_cons, hadd _ _ h0, ← map_add, foldl_safe hinj hadd ts (s + t), List.sum_cons, add_assoc]
    intro k hk he
    have := h (k + 1) (by simpa using hk) (by simpa [add_assoc] using he)
    simpa [add_assoc] using this

theorem accumulate_safe {G : Type} [AddCommGroup G] {addTo : G → G → G} {φ : ZMod q →+ G} (hinj : Function.Injective φ)
    (hadd : ∀ a b : G, a ≠ b ∨ a = 0 → addTo a b = a + b) {ts : List (ZMod q)} (hne : ts ≠ []) (hs : SafeSeq ts) :
    accumulate addTo (ts.map φ) = some (φ ts.sum) := by
  cases ts with
  | nil => exact absurd rfl hne
  | cons t ts =>
    rw [List.map_cons, accumulate, foldl_safe hinj hadd ts t, List.sum_cons]
    intro k hk he
    have := hs (k + 1) (by omega) (by simpa using hk) (by simpa using he)
    simpa using this

/-- extending an accumulation by one term -/
theorem accumulate_snoc {G : Type} [AddCommGroup G] {addTo : G → G → G} {φ : ZMod q →+ G} (hinj : Function.Injective φ)
    (hadd : ∀ a b : G, a ≠ b ∨ a = 0 → addTo a b = a + b) {ts : List (ZMod q)} (t : ZMod q) (hne : ts ≠ [])
    (hs : SafeSeq (ts ++ [t])) :
    accumulate addTo (ts.map φ) = some (φ ts.sum) ∧ addTo (φ ts.sum) (φ t) = φ (ts ++ [t]).sum := by
  have h1 : SafeSeq ts := by
    intro k h0 hk he
    have := hs k h0 (by simp; omega) (by
      rw [List.take_append_of_le_length (by omega), he, List.getD_append _ _ _ _ hk])
    rwa [List.take_append_of_le_length (by omega)] at this
  refine ⟨accumulate_safe hinj hadd hne h1, ?_⟩
  have hl := List.length_pos_iff.2 hne
  have := hs ts.length hl (by simp)
  rw [List.take_left] at this
  rw [hadd, ← map_add]
  · simp
  · by_cases e : ts.sum = t
    · right; rw [this (by rw [e]; simp)]; simp
    · exact Or.inl (fun he => e (hinj he))

/-! ### interpolation at spec level -/

section Poly
variable [Fact q.Prime]

theorem natCast_inj {n : Nat} (hn : n ≤ q) : Set.InjOn (fun j : Nat => (j : ZMod q)) (Finset.range n) := by
  intro a ha b hb h
  have ha' : a < q := lt_of_lt_of_le (by simpa using ha) hn
  have hb' : b < q := lt_of_lt_of_le (by simpa using hb) hn
  have := (ZMod.natCast_eq_natCast_iff' a b q).1 h
  rwa [Nat.mod_eq_of_lt ha', Nat.mod_eq_of_lt hb'] at this

theorem through_eval {n : Nat} (hn : n ≤ q) (v : Nat → ZMod q) {j : Nat} (hj : j < n) :
    (through n v).eval (j : ZMod q) = v j :=
  Lagrange.eval_interpolate_at_node v (natCast_inj hn) (by simpa using hj)

theorem through_degree {n : Nat} (hn : n ≤ q) (v : Nat → ZMod q) : (through (q := q) n v).degree < n := by
  have := Lagrange.degree_interpolate_lt v (natCast_inj hn)
  rwa [Finset.card_range] at this

theorem through_unique {n : Nat} (hn : n ≤ q) {v : Nat → ZMod q} {p : (ZMod q)[X]} (hd : p.degree < n)
    (hp : ∀ j, j < n → p.eval (j : ZMod q) = v j) : p = through n v := by
  refine Lagrange.eq_interpolate_of_eval_eq v (natCast_inj hn) (by simpa using hd) ?_
  intro i hi
  exact hp i (by simpa using hi)

theorem through_congr {n : Nat} {v v' : Nat → ZMod q} (h : ∀ j < n, v j = v' j) :
    through (q := q) n v = through n v' := by
  unfold through
  exact Lagrange.interpolate_eq_of_values_eq_on v v' (fun i hi => h i (by simpa using hi))

theorem through_sum {n m : Nat} (w : Nat → ZMod q) (M : Nat → Nat → ZMod q) :
    (∑ i ∈ Finset.range m, C (w i) * through n (fun j => M j i)) = through n (fun j => rowVal m M w j) := by
  have : (fun j => rowVal m M w j) = ∑ i ∈ Finset.range m, w i • (fun j => M j i) := by
    ext j; simp [rowVal]
  unfold through
  rw [this, map_sum]
  refine Finset.sum_congr rfl fun i _ => ?_
  rw [map_smul, smul_eq_C_mul]

theorem vanish_monic (n : Nat) : (vanish q n).Monic := monic_prod_of_monic _ _ (fun i _ => monic_X_sub_C _)

theorem vanish_natDegree (n : Nat) : (vanish q n).natDegree = n := by
  unfold vanish
  rw [natDegree_prod_of_monic _ _ (fun i _ => monic_X_sub_C _)]; simp only [natDegree_X_sub_C]; simp

theorem vanish_dvd_iff {n : Nat} (hn : n ≤ q) (p : (ZMod q)[X]) :
    vanish q n ∣ p ↔ ∀ j < n, p.eval (j : ZMod q) = 0 := by
  constructor
  · rintro ⟨r, rfl⟩ j hj
    rw [eval_mul]
    have : (vanish q n).eval (j : ZMod q) = 0 := by
      unfold vanish
      rw [eval_prod]
      exact Finset.prod_eq_zero (i := j) (by simpa using hj) (by simp)
    rw [this, zero_mul]
  · intro h
    unfold vanish
    refine Finset.prod_dvd_of_coprime ?_ ?_
    · intro a ha b hb hab
      refine isCoprime_X_sub_C_of_isUnit_sub (IsUnit.mk0 _ (sub_ne_zero.2 fun he => hab ?_))
      exact natCast_inj hn ha hb he
    · intro j hj
      rw [dvd_iff_isRoot]; exact h j (by simpa using hj)

/-- the combined polynomial in terms of gate values -/
theorem comb_eval (S : Sys q) (hn : S.n ≤ q) (gx : ZMod q → ZMod q) (w : Nat → ZMod q) {j : Nat} (hj : j < S.n) :
    (S.comb gx w).eval (j : ZMod q) =
      rowVal S.m S.L w j * rowVal S.m S.R w j + gx (rowVal S.m S.E w j) - rowVal S.m S.O w j := by
  unfold Sys.comb Sys.col
  rw [through_sum, through_sum, through_sum]
  simp [through_eval hn _ hj]

theorem comb_dvd_iff (S : Sys q) (hn : S.n ≤ q) (gx : ZMod q → ZMod q) (w : Nat → ZMod q) :
    vanish q S.n ∣ S.comb gx w ↔ S.Sat gx w := by
  rw [vanish_dvd_iff hn]
  refine forall_congr' fun j => forall_congr' fun hj => ?_
  rw [comb_eval S hn gx w hj, sub_eq_zero]; rfl

end Poly
end APS.Snark
