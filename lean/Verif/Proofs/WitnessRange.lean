import Verif.Model.Witness
import Verif.Proofs.Witness

/-! The numbers a witness calculation writes are field elements. -/
namespace APS.Circuit
open APS.Avl

variable {q : Nat}

/-- length `n`, all entries reduced -/
def WIn (q n : Nat) (s : WState) : Prop := s.w.length = n ∧ ∀ v ∈ s.w, 0 ≤ v ∧ v < (q : Int)

theorem put_in {n : Nat} {s s' : WState} {i : Nat} {v : Int} (hs : WIn q n s) (hv : 0 ≤ v ∧ v < (q : Int)) (h : s.put i v = some s') :
    WIn q n s' := by
  unfold WState.put at h
  split at h
  · cases h
    refine ⟨by simpa using hs.1, fun u hu => ?_⟩
    rcases List.mem_or_eq_of_mem_set hu with h | h
    · exact hs.2 u h
    · subst h; exact hv
  · cases h

theorem bit_in (hq : 1 < q) (x : Int) (i : Nat) : 0 ≤ bitOf x i ∧ bitOf x i < (q : Int) := by
  rcases bitOf_cases x i with h | h <;> rw [h] <;> omega

theorem putInputs_in {n : Nat} {m : IndexMap} : ∀ {inputs : List (Name × Int)} {s s' : WState}, WIn q n s →
    (∀ e ∈ inputs, 0 ≤ e.2 ∧ e.2 < (q : Int)) → putInputs m inputs s = some s' → WIn q n s'
  | [], s, s', hs, _, h => by cases h; exact hs
  | (k, v) :: rest, s, s', hs, hv, h => by
    unfold putInputs at h
    split at h
    · cases h
    · rename_i s1 h1
      exact putInputs_in (put_in hs (hv (k, v) (by simp)) h1) (fun e he => hv e (by simp [he])) h

theorem putBits_in (hq : 1 < q) {n : Nat} {father : Nat} : ∀ {zs : List Nat} {b : Nat} {s s' : WState}, WIn q n s →
    putBits father b zs s = some s' → WIn q n s'
  | [], _, s, s', hs, h => by cases h; exact hs
  | z :: zs, b, s, s', hs, h => by
    unfold putBits at h
    split at h
    · cases h
    · rename_i s1 h1
      exact putBits_in hq (put_in hs (bit_in hq _ _) h1) h

theorem initSplits_in (hq : 1 < q) {n : Nat} {m : IndexMap} : ∀ {sp : SplitMap} {s s' : WState} {inv inv' : InvSplit}, WIn q n s →
    initSplits m sp (s, inv) = some (s', inv') → WIn q n s'
  | [], s, s', _, _, hs, h => by cases h; exact hs
  | (k, zs) :: rest, s, s', inv, inv', hs, h => by
    unfold initSplits at h
    split at h
    · cases h
    · rename_i b hb
      split at h
      · cases h
      · rename_i s1 h1
        refine initSplits_in hq ?_ h
        split at h1
        · exact putBits_in hq hs h1
        · cases h1; exact hs

theorem initWitness_in (hq : 1 < q) {m : IndexMap} {sp : SplitMap} {rnd : Int} {inputs : List (Name × Int)} {s : WState} {inv : InvSplit}
    (hr : 0 ≤ rnd ∧ rnd < (q : Int)) (hi : ∀ e ∈ inputs, 0 ≤ e.2 ∧ e.2 < (q : Int)) (h : initWitness m sp rnd inputs = some (s, inv)) :
    WIn q m.length s := by
  unfold initWitness at h
  simp only [Option.bind_eq_bind, Option.bind_eq_some_iff] at h
  obtain ⟨s1, h1, s2, h2, s3, h3, h4⟩ := h
  have a0 : WIn q m.length ⟨List.replicate m.length 0, List.replicate m.length false⟩ :=
    ⟨by simp, fun v hv => by have := (List.mem_replicate.1 hv).2; omega⟩
  have a1 := put_in a0 (by omega) h1
  have a2 : WIn q m.length s2 := by
    split at h2
    · exact put_in a1 hr h2
    · cases h2; exact a1
  exact initSplits_in hq (putInputs_in a2 hi h3) h4

theorem foldlM_in {A B : Type} {P : A → Prop} {f : A → B → Option A} (hf : ∀ a b a', P a → f a b = some a' → P a') :
    ∀ {l : List B} {a a' : A}, P a → l.foldlM f a = some a' → P a'
  | [], a, a', ha, h => by cases h; exact ha
  | b :: l, a, a', ha, h => by
    simp only [List.foldlM_cons, Option.bind_eq_bind, Option.bind_eq_some_iff] at h
    obtain ⟨a1, h1, h2⟩ := h
    exact foldlM_in hf (hf _ _ _ ha h1) h2

/-- a scan keeps the entries reduced -/
def ScanIn (q n : Nat) {α : Type} (scan : α → WState → Option (α × List Nat × WState)) : Prop :=
  ∀ a s r, WIn q n s → scan a s = some r → WIn q n r.2.2

theorem scanD_in (hq : 1 < q) {n : Nat} (inv : InvSplit) : ScanIn q n (scanD inv) := by
  intro a s r hs h
  refine foldlM_in (P := fun acc : List Int × List Nat × WState => WIn q n acc.2.2) (f := scanStepD inv) ?_ hs h
  intro acc e acc' ha h
  unfold scanStepD at h
  split at h
  · cases h; exact ha
  · split at h
    · cases h
    · cases h; exact ha
    · split at h
      · simp only at h
        split at h
        · cases h
        · rename_i s1 h1
          cases h
          exact put_in ha (bit_in hq _ _) h1
      · cases h; exact ha

theorem scanS_in (hq : 1 < q) {n : Nat} (inv : InvSplit) : ScanIn q n (scanS inv) := by
  intro a s r hs h
  refine foldlM_in (P := fun acc : Tree × List Nat × WState => WIn q n acc.2.2) (f := scanStepS inv) ?_ hs h
  intro acc e acc' ha h
  unfold scanStepS at h
  split at h
  · cases h
  · obtain ⟨t, -, rfl⟩ := Option.map_eq_some_iff.1 h; exact ha
  · split at h
    · simp only at h
      split at h
      · cases h
      · rename_i s1 h1
        obtain ⟨t, -, rfl⟩ := Option.map_eq_some_iff.1 h
        exact put_in ha (bit_in hq _ _) h1
    · cases h; exact ha

theorem scanRow_in {α : Type} {n : Nat} {scan : α → WState → Option (α × List Nat × WState)} (hsc : ScanIn q n scan) {row : Row α}
    {s : WState} {c : Scanned α} (hs : WIn q n s) (h : scanRow scan row s = some c) : WIn q n c.s := by
  unfold scanRow at h
  split at h
  · cases h
  · rename_i h1
    split at h
    · cases h
    · rename_i h2
      split at h
      · cases h
      · rename_i h3
        split at h
        · cases h
        · rename_i h4
          cases h
          exact hsc _ _ _ (hsc _ _ _ (hsc _ _ _ (hsc _ _ _ hs h1) h2) h3) h4

theorem div_in (hq : 0 < q) {a b r : Int} (h : Fq.div q a b = some r) : 0 ≤ r ∧ r < (q : Int) := by
  unfold Fq.div at h
  split at h
  · cases h
  · cases h
    exact ⟨Int.emod_nonneg _ (by omega), Int.emod_lt_of_pos _ (by omega)⟩

theorem solve_in (hq : 0 < q) {α : Type} {n : Nat} {gx : Int → Int} {sum : α → List Int → Option Int} {get : α → Nat → Option Int}
    {row : Row α} {c : Scanned α} {s : WState} (hs : WIn q n c.s) (h : solve q gx sum get row c = some s) : WIn q n s := by
  unfold solve at h
  split at h
  · simp only [Option.bind_eq_bind, Option.bind_eq_some_iff] at h
    obtain ⟨sr, -, h⟩ := h
    split at h
    · cases h
    · simp only [Option.bind_eq_some_iff] at h
      obtain ⟨a, -, b, -, c', -, d, -, r, hr, h⟩ := h
      unfold solveFactor at hr
      simp only [Option.bind_eq_bind, Option.bind_eq_some_iff] at hr
      obtain ⟨_, -, hr⟩ := hr
      exact put_in hs (div_in hq hr) h
  · simp only [Option.bind_eq_bind, Option.bind_eq_some_iff] at h
    obtain ⟨sr, -, h⟩ := h
    split at h
    · cases h
    · simp only [Option.bind_eq_some_iff] at h
      obtain ⟨a, -, b, -, c', -, d, -, r, hr, h⟩ := h
      unfold solveFactor at hr
      simp only [Option.bind_eq_bind, Option.bind_eq_some_iff] at hr
      obtain ⟨_, -, hr⟩ := hr
      exact put_in hs (div_in hq hr) h
  · simp only [Option.bind_eq_bind, Option.bind_eq_some_iff] at h
    obtain ⟨a, -, b, -, c', -, d, -, e, -, r, hr, h⟩ := h
    exact put_in hs (div_in hq hr) h
  · cases h; exact hs

theorem check_in {α : Type} {n : Nat} {gx : Int → Int} {scan : α → WState → Option (α × List Nat × WState)} (hsc : ScanIn q n scan)
    {sum : α → List Int → Option Int} {row : Row α} {s s' : WState} (hs : WIn q n s) (h : check q gx scan sum row s = some s') : WIn q n s' := by
  unfold check at h
  simp only [Option.bind_eq_bind, Option.bind_eq_some_iff] at h
  obtain ⟨c, hc, h⟩ := h
  have hc' := scanRow_in hsc hs hc
  split at h
  · cases h
  · simp only [Option.bind_eq_some_iff] at h
    obtain ⟨o, -, a, -, b, -, d, -, h⟩ := h
    split at h
    · cases h
    · cases h; exact hc'

theorem calculateWitness_in (hq : 1 < q) {gx : Int → Int} {r : R1CS (List Int)} {rnd : Int} {inputs : List (Name × Int)} {w : List Int}
    (hr : 0 ≤ rnd ∧ rnd < (q : Int)) (hi : ∀ e ∈ inputs, 0 ≤ e.2 ∧ e.2 < (q : Int)) (h : calculateWitness q gx r rnd inputs = some w) :
    w.length = r.witnessLength ∧ ∀ v ∈ w, 0 ≤ v ∧ v < (q : Int) := by
  unfold calculateWitness at h
  simp only [Option.bind_eq_bind, Option.bind_eq_some_iff, Prod.exists] at h
  obtain ⟨s, inv, h1, s', h2, h3⟩ := h
  cases h3
  refine foldlM_in (P := WIn q r.index.length) ?_ (initWitness_in hq hr hi h1) h2
  intro s row s' hs h
  unfold stepD at h
  simp only [Option.bind_eq_bind, Option.bind_eq_some_iff] at h
  obtain ⟨c, hc, h⟩ := h
  have hc' := scanRow_in (scanD_in hq inv) hs hc
  split at h
  · cases h
  · split at h
    · exact check_in (scanD_in hq inv) hc' h
    · exact solve_in (by omega) hc' h

theorem calculateSparseWitness_in (hq : 1 < q) {gx : Int → Int} {r : R1CS Tree} {rnd : Int} {inputs : List (Name × Int)} {w : List Int}
    (hr : 0 ≤ rnd ∧ rnd < (q : Int)) (hi : ∀ e ∈ inputs, 0 ≤ e.2 ∧ e.2 < (q : Int)) (h : calculateSparseWitness q gx r rnd inputs = some w) :
    w.length = r.witnessLength ∧ ∀ v ∈ w, 0 ≤ v ∧ v < (q : Int) := by
  unfold calculateSparseWitness at h
  simp only [Option.bind_eq_bind, Option.bind_eq_some_iff, Prod.exists] at h
  obtain ⟨s, inv, h1, s', h2, h3⟩ := h
  cases h3
  refine foldlM_in (P := WIn q r.index.length) ?_ (initWitness_in hq hr hi h1) h2
  intro s row s' hs h
  unfold stepS at h
  simp only [Option.bind_eq_bind, Option.bind_eq_some_iff] at h
  obtain ⟨c, hc, h⟩ := h
  have hc' := scanRow_in (scanS_in hq inv) hs hc
  split at h
  · cases h
  · simp only [Option.bind_eq_some_iff] at h
    obtain ⟨s1, h4, h5⟩ := h
    exact check_in (scanS_in hq inv) (solve_in (by omega) hc' h4) h5

end APS.Circuit
