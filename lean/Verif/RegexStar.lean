import Verif.RegexSimp

/-!
# Repetition of a character class
-/

namespace Rustextile

theorem all_star_cons (U : Uni) (g n : Bool) (it : List Item) (pre xs : Str) (x : Char) (s : Caps) :
    (Re.star g (.set n it)).all U ⟨pre, x :: xs⟩ s =
      if g then
        (if evalSet U n it x then (Re.star g (.set n it)).all U ⟨x :: pre, xs⟩ s else []) ++ [(⟨pre, x :: xs⟩, s)]
      else
        (⟨pre, x :: xs⟩, s) :: (if evalSet U n it x then (Re.star g (.set n it)).all U ⟨x :: pre, xs⟩ s else []) := by
  simp only [Re.all, starAll]
  split <;> split <;> simp

theorem all_star_nil (U : Uni) (g : Bool) (r : Re) (pre : Str) (s : Caps) :
    (Re.star g r).all U ⟨pre, []⟩ s = [(⟨pre, []⟩, s)] := rfl

theorem Adv.nil_iff {a b : Cur} : Adv a [] b ↔ b = a := by
  constructor
  · intro h; cases a; cases b; simp [Adv] at h; simp [h]
  · rintro rfl; exact Adv.refl _

theorem Adv.cons_iff {pre xs w : Str} {x y : Char} {b : Cur} :
    Adv ⟨pre, x :: xs⟩ (y :: w) b ↔ y = x ∧ Adv ⟨x :: pre, xs⟩ w b := by
  simp only [Adv, List.cons_append, List.cons.injEq, List.reverse_cons, List.append_assoc]
  constructor
  · rintro ⟨⟨rfl, h1⟩, h2⟩; exact ⟨rfl, h1, h2⟩
  · rintro ⟨rfl, h1, h2⟩; exact ⟨⟨rfl, h1⟩, h2⟩

/-- A repeated class matches the texts over the class. -/
theorem mem_star_set {U : Uni} {g n : Bool} {it : List Item} {s : Caps} {p : Cur × Caps} :
    ∀ {rest pre : Str}, p ∈ (Re.star g (.set n it)).all U ⟨pre, rest⟩ s ↔
      ∃ w, (∀ x ∈ w, evalSet U n it x = true) ∧ Adv ⟨pre, rest⟩ w p.1 ∧ p.2 = s
  | [], pre => by
    rw [all_star_nil, List.mem_singleton]
    constructor
    · rintro rfl; exact ⟨[], by simp, Adv.refl _, rfl⟩
    · rintro ⟨w, _, h2, h3⟩
      have : w = [] := by have := h2.1; simp at this; exact this.1
      subst this
      cases p; rw [Adv.nil_iff] at h2; simp_all
  | x :: xs, pre => by
    have ih := @mem_star_set U g n it s p xs (x :: pre)
    have key : p ∈ (Re.star g (.set n it)).all U ⟨pre, x :: xs⟩ s ↔
        (evalSet U n it x = true ∧ p ∈ (Re.star g (.set n it)).all U ⟨x :: pre, xs⟩ s) ∨ p = (⟨pre, x :: xs⟩, s) := by
      rw [all_star_cons]
      cases g <;> by_cases h : evalSet U n it x = true <;> simp [h, or_comm]
    rw [key, ih]
    constructor
    · rintro (⟨h, w, h1, h2, h3⟩ | rfl)
      · exact ⟨x :: w, by simpa using ⟨h, h1⟩, Adv.cons_iff.2 ⟨rfl, h2⟩, h3⟩
      · exact ⟨[], by simp, Adv.refl _, rfl⟩
    · rintro ⟨w, h1, h2, h3⟩
      cases w with
      | nil => right; cases p; rw [Adv.nil_iff] at h2; simp_all
      | cons y w =>
        obtain ⟨rfl, h2⟩ := Adv.cons_iff.1 h2
        exact .inl ⟨h1 y (by simp), w, fun z hz => h1 z (by simp [hz]), h2, h3⟩

/-- The first choice of a greedy repetition: as many characters as possible. -/
theorem star_greedy_head {U : Uni} {n : Bool} {it : List Item} {s : Caps} :
    ∀ {w rest pre : Str}, (∀ x ∈ w, evalSet U n it x = true) →
      (∀ x, rest.head? = some x → evalSet U n it x = false) →
      ∃ l, (Re.star true (.set n it)).all U ⟨pre, w ++ rest⟩ s = (⟨w.reverse ++ pre, rest⟩, s) :: l
  | [], [], pre, _, _ => ⟨[], rfl⟩
  | [], x :: xs, pre, _, h => by
    refine ⟨[], ?_⟩
    rw [List.nil_append, all_star_cons]
    simp [h x rfl]
  | x :: w, rest, pre, hw, h => by
    obtain ⟨l, hl⟩ := star_greedy_head (s := s) (w := w) (pre := x :: pre) (fun y hy => hw y (by simp [hy])) h
    refine ⟨l ++ [(⟨pre, x :: (w ++ rest)⟩, s)], ?_⟩
    rw [List.cons_append, all_star_cons]
    simp [hw x (by simp), hl]

end Rustextile
