import Verif.Props.Snark

/-!
C94: the setup needs a private wire, and the shape of the key.
-/
namespace APS.Snark
open APS.Circuit

variable {G1 G2 GT : Type}

/-- the sizes of the parts of a key for `pub` public signals, `wires` wires and `gates` constraints -/
structure KeySizes (pub wires gates : Nat) (pk : Pk G1 G2 GT) : Prop where
  pubs : pk.rleoGamma.length = pub
  rest : pk.rleoDelta.length = wires - pub
  le : pk.LE.length = wires
  e : pk.Ex.length = wires
  r : pk.Rx.length = wires
  powers1 : pk.powersX1.length = gates - 1 + 1
  powers2 : pk.powersX2.length = gates - 1 + 1
  quotient : pk.powersXDD.length = gates - 1 + 1

theorem powersLoop_length (q : Nat) (x t : Int) (k : Nat) : (powersLoop q x t k).length = k := by
  induction k generalizing t with
  | zero => rfl
  | succ k ih => simp [powersLoop, ih]

theorem setupFrom_sizes {api : Api G1 G2 GT} {q pub gates : Nat} {tox : Toxic} {vals : List (Int × Int × Int × Int)} {pk : Pk G1 G2 GT}
    (hp : pub ≤ vals.length) (h : setupFrom api q pub gates tox vals = some pk) : KeySizes pub vals.length gates pk := by
  simp only [setupFrom, Option.bind_eq_bind, Option.bind_eq_some_iff, Option.pure_def, Option.some.injEq] at h
  obtain ⟨_, _, _, _, _, _, _, _, rfl⟩ := h
  constructor <;> simp [powersLoop_length, hp]

theorem mapM_len {α β : Type} {f : α → Option β} {l : List α} {r : List β} (h : l.mapM f = some r) : r.length = l.length := by
  induction l generalizing r with
  | nil => simp at h; subst h; rfl
  | cons a l ih =>
    simp only [List.mapM_cons, Option.bind_eq_bind, Option.bind_eq_some_iff, Option.pure_def, Option.some.injEq] at h
    obtain ⟨b, _, bs, hb, rfl⟩ := h
    simp [ih hb]

theorem eapLoop_length {q : Nat} {L R E O : List (List Int)} {cols} (h : eapLoop q L R E O = some cols) : cols.length = L.length := by
  induction L generalizing R E O cols with
  | nil => simp [eapLoop] at h; subst h; rfl
  | cons l L ih =>
    cases R <;> cases E <;> cases O <;> simp only [eapLoop, reduceCtorEq] at h
    simp only [Option.bind_eq_bind, Option.bind_eq_some_iff, Option.pure_def, Option.some.injEq] at h
    obtain ⟨_, _, _, _, _, _, _, _, rest, hr, rfl⟩ := h
    simp [ih hr]

theorem eapLoopS_length {q d : Nat} {L R E O : List APS.Avl.Tree} {cols} (h : eapLoopS q d L R E O = some cols) : cols.length = L.length := by
  induction L generalizing R E O cols with
  | nil => simp [eapLoopS] at h; subst h; rfl
  | cons l L ih =>
    cases R <;> cases E <;> cases O <;> simp only [eapLoopS, reduceCtorEq] at h
    simp only [Option.bind_eq_bind, Option.bind_eq_some_iff, Option.pure_def, Option.some.injEq] at h
    obtain ⟨_, _, _, _, _, _, _, _, rest, hr, rfl⟩ := h
    simp [ih hr]

/-- C94 (dense): whatever the groups, the system, the number of public signals and the secrets: if there are not more wires than
public signals there is no key; and a key has exactly one public element per public signal, one private element per other wire,
and as many powers as there are constraints. -/
theorem C94_key_shape (api : Api G1 G2 GT) (q pub : Nat) (t : Transposed) (tox : Toxic) :
    (t.L.length ≤ pub → trustedSetup api q pub t tox = none) ∧
    ∀ pk, trustedSetup api q pub t tox = some pk →
      t.witnessLength ≤ t.L.length ∧ (t.witnessLength = t.L.length → pub < t.witnessLength ∧ KeySizes pub t.witnessLength t.numberOfGates pk) := by
  unfold trustedSetup er1csToEAP
  constructor
  · intro h
    cases hc : eapLoop q t.L t.R t.E t.O with
    | none => rfl
    | some cols => simp [eapLoop_length hc, h]
  · intro pk h
    simp only [Option.bind_eq_bind, Option.bind_eq_some_iff] at h
    obtain ⟨cols, hc, h⟩ := h
    have hl := eapLoop_length hc
    split at h
    · simp at h
    split at h
    · simp at h
    rename_i h1 h2
    simp only [Option.bind_eq_some_iff] at h
    obtain ⟨vals, hv, h⟩ := h
    have hvl := mapM_len hv
    rw [List.length_take] at hvl
    refine ⟨by omega, fun he => ⟨by omega, ?_⟩⟩
    have := setupFrom_sizes (by omega) h
    rwa [show vals.length = t.witnessLength by omega] at this

/-- C94 (sparse). -/
theorem C94_key_shape_sparse (api : Api G1 G2 GT) (q pub : Nat) (t : TransposedS) (tox : Toxic) :
    (t.L.length ≤ pub → trustedSetupSparse api q pub t tox = none) ∧
    ∀ pk, trustedSetupSparse api q pub t tox = some pk →
      t.witnessLength ≤ t.L.length ∧ (t.witnessLength = t.L.length → pub < t.witnessLength ∧ KeySizes pub t.witnessLength t.numberOfGates pk) := by
  unfold trustedSetupSparse er1csToEAPSparse
  constructor
  · intro h
    cases hc : eapLoopS q t.witnessLength t.L t.R t.E t.O with
    | none => rfl
    | some cols => simp [eapLoopS_length hc, h]
  · intro pk h
    simp only [Option.bind_eq_bind, Option.bind_eq_some_iff] at h
    obtain ⟨cols, hc, h⟩ := h
    have hl := eapLoopS_length hc
    split at h
    · simp at h
    split at h
    · simp at h
    rename_i h1 h2
    simp only [Option.bind_eq_some_iff] at h
    obtain ⟨vals, hv, h⟩ := h
    have hvl := mapM_len hv
    rw [List.length_take] at hvl
    refine ⟨by omega, fun he => ⟨by omega, ?_⟩⟩
    have := setupFrom_sizes (by omega) h
    rwa [show vals.length = t.witnessLength by omega] at this

/-- C94: the verifier rejects every proof that comes with another number of public signals than the key was made for. -/
theorem C94_signal_count (api : Api G1 G2 GT) {q pub : Nat} {t : Transposed} {tox : Toxic} {pk : Pk G1 G2 GT} (ht : t.L.length = t.witnessLength)
    (h : trustedSetup api q pub t tox = some pk) (pf : Proof G1 G2) (signals : List Int) (hs : signals.length ≠ pub) :
    verifyProof api pk pf signals = some false := by
  obtain ⟨-, h2⟩ := ((C94_key_shape api q pub t tox).2 pk h)
  have := (h2 ht.symm).2.pubs
  unfold verifyProof
  rw [this, if_pos hs]

/-- three public signals of four wires give a key, four do not -/
example : ((transposeR1CS cubeSys).bind fun t => trustedSetup (toyApi 101) 101 3 t toxEx).isSome = true ∧
    ((transposeR1CS cubeSys).map fun t => (t.L.length, t.witnessLength)) = some (4, 4) ∧
    ((transposeR1CS cubeSys).bind fun t => trustedSetup (toyApi 101) 101 4 t toxEx).isSome = false := by decide

end APS.Snark
