import Verif.RegexStar

/-!
# Lazy repetition of a character class up to a character
-/

namespace Rustextile

/-- `[...]*?d` takes the text up to the first `d`, if only characters of the class come
before it. -/
theorem all_lazy_until {U : Uni} {n : Bool} {it : List Item} {d : Char} {s : Caps} : ∀ (t pre : Str),
    (∃ b r l, t = b ++ d :: r ∧ d ∉ b ∧ (∀ c ∈ b, evalSet U n it c = true) ∧
      (Re.seq (.star false (.set n it)) (.set false [.chr d])).all U ⟨pre, t⟩ s = (⟨d :: (b.reverse ++ pre), r⟩, s) :: l) ∨
    ((∀ b r, t = b ++ d :: r → ∃ c ∈ b, evalSet U n it c = false) ∧
      (Re.seq (.star false (.set n it)) (.set false [.chr d])).all U ⟨pre, t⟩ s = [])
  | [], pre => by
    right
    refine ⟨fun b r e => by simp at e, ?_⟩
    rw [all_seq, all_star_nil]
    simp [all_set_nil]
  | x :: xs, pre => by
    by_cases hx : x = d
    · left
      subst hx
      have : ∃ l, (Re.seq (.star false (.set n it)) (.set false [.chr x])).all U ⟨pre, x :: xs⟩ s =
          (⟨x :: pre, xs⟩, s) :: l := by
        rw [all_seq, all_star_cons]
        simp only [Bool.false_eq_true, if_false, List.flatMap_cons, all_set_cons, evalSet_chr, BEq.rfl, if_true,
          List.singleton_append]
        exact ⟨_, rfl⟩
      obtain ⟨l, hl⟩ := this
      exact ⟨[], xs, l, rfl, by simp, by simp, hl⟩
    · have key : (Re.seq (.star false (.set n it)) (.set false [.chr d])).all U ⟨pre, x :: xs⟩ s =
          if evalSet U n it x then (Re.seq (.star false (.set n it)) (.set false [.chr d])).all U ⟨x :: pre, xs⟩ s else [] := by
        rw [all_seq, all_star_cons]
        simp only [Bool.false_eq_true, if_false, List.flatMap_cons, all_set_cons, evalSet_chr, beq_iff_eq, hx,
          List.nil_append]
        split <;> simp [all_seq]
      rw [key]
      by_cases he : evalSet U n it x = true
      · rw [if_pos he]
        rcases all_lazy_until (U := U) (n := n) (it := it) (d := d) (s := s) xs (x :: pre) with
          ⟨b, r, l, e, h1, h2, h3⟩ | ⟨h1, h2⟩
        · left
          refine ⟨x :: b, r, l, by rw [e]; rfl, ?_, ?_, ?_⟩
          · simp only [List.mem_cons, not_or]; exact ⟨fun h => hx h.symm, h1⟩
          · simpa using ⟨he, h2⟩
          · rw [h3]; simp
        · right
          refine ⟨?_, h2⟩
          intro b r e
          cases b with
          | nil => simp only [List.nil_append, List.cons.injEq] at e; exact absurd e.1 hx
          | cons y b =>
            simp only [List.cons_append, List.cons.injEq] at e
            obtain ⟨c, hc, h⟩ := h1 b r e.2
            exact ⟨c, by simp [hc], h⟩
      · right
        rw [if_neg he]
        refine ⟨?_, rfl⟩
        intro b r e
        cases b with
        | nil => simp only [List.nil_append, List.cons.injEq] at e; exact absurd e.1 hx
        | cons y b =>
          simp only [List.cons_append, List.cons.injEq] at e
          exact ⟨y, by simp, by rw [← e.1]; simpa using he⟩

end Rustextile
