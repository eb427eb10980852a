import Verif.Spec.ParserSem
import Mathlib.Data.Nat.Digits.Lemmas
import Mathlib.Algebra.BigOperators.Group.List.Basic
import Mathlib.Data.List.Nodup
import Mathlib.Order.Lex
import Mathlib.Data.List.Lex

namespace APS.Parse
open APS.ParseSpec

theorem arrayStringBuild_eq : ∀ (ds : List Nat) (res : List Char),
    arrayStringBuild ds res = (tuples ds).map fun is => res ++ indexText is := by
  intro ds
  induction ds with
  | nil => intro res; simp [arrayStringBuild, tuples, indexText]
  | cons d ds ih =>
    intro res
    simp only [arrayStringBuild, tuples, List.map_flatMap, ih, List.map_map]
    congr 1
    funext j
    congr 1
    funext is
    simp [indexText]

theorem tuples_length (ds : List Nat) : (tuples ds).length = ds.prod := by
  induction ds with
  | nil => simp [tuples]
  | cons d ds ih => simp [tuples, ih]

theorem mem_tuples : ∀ (ds is : List Nat), is ∈ tuples ds ↔ List.Forall₂ (· < ·) is ds := by
  intro ds
  induction ds with
  | nil => intro is; simp [tuples]
  | cons d ds ih =>
    intro is
    simp only [tuples, List.mem_flatMap, List.mem_range, List.mem_map, ih]
    constructor
    · rintro ⟨j, hj, x, hx, rfl⟩; exact .cons hj hx
    · intro h
      cases h with
      | cons h1 h2 => exact ⟨_, h1, _, h2, rfl⟩

theorem tuples_sorted (ds : List Nat) : (tuples ds).Pairwise (List.Lex (· < ·)) := by
  induction ds with
  | nil => simp [tuples]
  | cons d ds ih =>
    simp only [tuples, List.pairwise_flatMap]
    refine ⟨fun j _ => ?_, ?_⟩
    · rw [List.pairwise_map]
      exact ih.imp fun h => .cons h
    · refine List.pairwise_lt_range.imp ?_
      intro a b hab x hx y hy
      simp only [List.mem_map] at hx hy
      obtain ⟨x, _, rfl⟩ := hx
      obtain ⟨y, _, rfl⟩ := hy
      exact .rel hab

theorem digits_nobrk (n : Nat) : ']' ∉ Nat.toDigits 10 n := by
  intro h
  have := Nat.isDigit_of_mem_toDigits (by norm_num) (by norm_num) h
  simp [Char.isDigit] at this

theorem indexText_inj : ∀ (a b : List Nat), indexText a = indexText b → a = b := by
  intro a
  induction a with
  | nil =>
    intro b h
    cases b with
    | nil => rfl
    | cons j b => simp [indexText] at h
  | cons i a ih =>
    intro b ht
    cases b with
    | nil => simp [indexText] at ht
    | cons j b =>
      simp only [indexText, List.flatMap_cons, List.cons_append, List.append_assoc, List.cons.injEq, true_and,
        List.singleton_append] at ht
      have key : ∀ (x y u v : List Char), ']' ∉ x → ']' ∉ y → x ++ ']' :: u = y ++ ']' :: v → x = y ∧ u = v := by
        intro x
        induction x with
        | nil =>
          intro y u v _ hy h
          cases y with
          | nil => simpa using h
          | cons c y => simp at h; simp [← h.1] at hy
        | cons c x ih =>
          intro y u v hx hy h
          cases y with
          | nil => simp at h; simp [h.1] at hx
          | cons e y =>
            simp at h hx hy
            obtain ⟨h1, h2⟩ := ih y u v hx.2 hy.2 h.2
            exact ⟨by rw [h.1, h1], h2⟩
      obtain ⟨h1, h2⟩ := key _ _ _ _ (digits_nobrk i) (digits_nobrk j) ht
      have h3 := congrArg (fun l => Nat.ofDigitChars 10 l 0) h1
      simp [Nat.ofDigitChars_toDigits] at h3
      rw [h3, ih b h2]

theorem tuples_len (ds is : List Nat) (h : is ∈ tuples ds) : is.length = ds.length :=
  ((mem_tuples ds is).1 h).length_eq

theorem tuples_nodup (ds : List Nat) : (tuples ds).Nodup := by
  induction ds with
  | nil => simp [tuples]
  | cons d ds ih =>
    simp only [tuples, List.nodup_flatMap]
    refine ⟨fun j _ => ih.map (fun a b h => by simpa using h), ?_⟩
    refine (List.nodup_range (n := d)).imp ?_
    intro a b hab x hx hy
    simp only [List.mem_map] at hx hy
    obtain ⟨x', _, rfl⟩ := hx
    obtain ⟨y', _, h⟩ := hy
    simp at h
    exact hab h.1.symm

theorem build_nodup (ds : List Nat) (name : List Char) : (arrayStringBuild ds name).Nodup := by
  rw [arrayStringBuild_eq]
  refine (List.nodup_map_iff_inj_on (tuples_nodup ds)).2 ?_
  intro a _ b _ h
  exact indexText_inj a b (List.append_cancel_left h)

theorem names_inj {n m : List Char} (hn : '[' ∉ n) (hm : '[' ∉ m) {a b : List Nat} (ha : a ≠ []) (hb : b ≠ [])
    (h : n ++ indexText a = m ++ indexText b) : n = m ∧ a = b := by
  have key : ∀ (x y u v : List Char), '[' ∉ x → '[' ∉ y → x ++ '[' :: u = y ++ '[' :: v → x = y ∧ u = v := by
    intro x
    induction x with
    | nil =>
      intro y u v _ hy h
      cases y with
      | nil => simpa using h
      | cons c y => simp at h; simp [← h.1] at hy
    | cons c x ih =>
      intro y u v hx hy h
      cases y with
      | nil => simp at h; simp [h.1] at hx
      | cons e y =>
        simp at h hx hy
        obtain ⟨h1, h2⟩ := ih y u v hx.2 hy.2 h.2
        exact ⟨by rw [h.1, h1], h2⟩
  cases a with
  | nil => exact absurd rfl ha
  | cons i a =>
    cases b with
    | nil => exact absurd rfl hb
    | cons j b =>
      have h' : n ++ '[' :: (Nat.toDigits 10 i ++ [']'] ++ indexText a) = m ++ '[' :: (Nat.toDigits 10 j ++ [']'] ++ indexText b) := by
        simpa [indexText] using h
      obtain ⟨rfl, h2⟩ := key _ _ _ _ hn hm h'
      refine ⟨rfl, indexText_inj _ _ ?_⟩
      simpa [indexText] using h2

end APS.Parse
