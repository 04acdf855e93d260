import Verif.Props.Wrong
import Verif.Props.Attributes

/-!
# Footnotes and notes: C37–C39, the parts that hold
-/

namespace Rustextile

open Prog

/-! ## Back links -/

/-- Characters that can start or end markup. -/
def markupCodes : List Nat := [34, 38, 39, 60, 62]

theorem charref_plain {n : Nat} (h : n ∉ markupCodes) : ∀ c ∈ unescapeCharref n, c.toNat ∉ markupCodes := by
  have key : ∀ v, v ∉ markupCodes → (Char.ofNat v).toNat ∉ markupCodes := by
    intro v hv
    by_cases hval : v.isValidChar
    · rw [Char.ofNat, dif_pos hval]
      exact hv
    · rw [Char.ofNat, dif_neg hval]
      decide
  intro c hc
  unfold unescapeCharref at hc
  split at hc
  · rename_i v hv
    simp only [List.mem_singleton] at hc
    subst hc
    refine key v ?_
    unfold invalidCharref at hv
    split at hv
    · simp only [Option.some.injEq] at hv; subst hv; decide
    · split at hv
      · simp only [Option.some.injEq] at hv; subst hv; decide
      · split at hv
        · have : ∀ v ∈ [0x20AC, 0x81, 0x201A, 0x0192, 0x201E, 0x2026, 0x2020, 0x2021,
             0x02C6, 0x2030, 0x0160, 0x2039, 0x0152, 0x8D, 0x017D, 0x8F,
             0x90, 0x2018, 0x2019, 0x201C, 0x201D, 0x2022, 0x2013, 0x2014,
             0x02DC, 0x2122, 0x0161, 0x203A, 0x0153, 0x9D, 0x017E, 0x0178], v ∉ markupCodes := by decide
          exact this v (List.mem_of_getElem? hv)
        · cases hv
  · split at hc
    · simp only [List.mem_singleton] at hc; subst hc; decide
    · split at hc
      · simp at hc
      · simp only [List.mem_singleton] at hc; subst hc; exact key n h

theorem charref_length (n : Nat) : (unescapeCharref n).length ≤ 1 := by
  unfold unescapeCharref; split
  · simp
  · split
    · simp
    · split <;> simp

theorem backRefLinks_spec (inc : Bool) : ∀ (ids : List Str) (i : Nat),
    (∀ k, k ≤ ids.length → (inc = true ∨ k = 0) → i + k ∉ markupCodes) →
    ∃ ls : List (Str × Str), backRefLinks inc i ids = ls.map (fun p => Spec.backLink p.1 p.2) ∧
      ls.map Prod.fst = ids ∧ ∀ p ∈ ls, Spec.Caption p.2
  | [], i, _ => ⟨[], rfl, rfl, by simp⟩
  | r :: t, i, h => by
    obtain ⟨ls, h1, h2, h3⟩ := backRefLinks_spec inc t (if inc then i + 1 else i) (by
      intro k hk hi
      cases inc with
      | true =>
        have := h (k + 1) (by simp; omega) (.inl rfl)
        simpa [Nat.add_assoc, Nat.add_comm 1 k] using this
      | false => simpa using h k (by simp; omega) hi)
    refine ⟨(r, unescapeCharref i) :: ls, ?_, by simp [h2], ?_⟩
    · rw [backRefLinks, h1]
      simp [Spec.backLink]
    · simp only [List.mem_cons]
      rintro p (rfl | hp)
      · refine ⟨charref_length i, fun c hc => ?_⟩
        have := charref_plain (by simpa using h 0 (by omega) (.inr rfl)) c hc
        simp only [markupCodes, List.mem_cons, List.not_mem_nil, or_false, not_or] at this
        refine ⟨?_, ?_, ?_, ?_, ?_⟩ <;> (rintro rfl; revert this; decide)
      · exact h3 p hp

/-- **C39, partial.** The back links of a note are links to its references, in order (all
of them, the first one or none), whose visible text is at most one character that is not
part of markup; provided that the characters counted up from the start character do not
run into `"`, `&`, `'`, `<` or `>`.
Missing: without the proviso it is false (`C39_negation`). -/
theorem C39_back_links_partial (info : NoteInfo) (gLinks : Str) (i : Char)
    (h : ∀ k, k ≤ info.refids.length → i.toNat + k ∉ [34, 38, 39, 60, 62]) :
    ∃ ls : List (Str × Str), makeBackRefLink info gLinks i = Spec.join t!" " (ls.map (fun p => Spec.backLink p.1 p.2)) ∧
      (ls.map Prod.fst = info.refids ∨ ls.map Prod.fst = info.refids.take 1 ∨ ls = []) ∧
      ∀ p ∈ ls, Spec.Caption p.2 := by
  unfold makeBackRefLink
  simp only
  split
  · exact ⟨[], rfl, .inr (.inr rfl), by simp⟩
  · split
    · split
      · exact ⟨[], rfl, .inr (.inr rfl), by simp⟩
      · rename_i r t hr
        obtain ⟨ls, h1, h2, h3⟩ := backRefLinks_spec true [r] i.toNat (fun k hk _ => h k (by rw [hr]; simp at hk ⊢; omega))
        refine ⟨ls, ?_, .inr (.inl (by rw [h2, hr]; rfl)), h3⟩
        rw [← h1]; rfl
    · obtain ⟨ls, h1, h2, h3⟩ := backRefLinks_spec (!SYMS.contains i) info.refids i.toNat (fun k hk _ => h k hk)
      exact ⟨ls, by rw [joinWith_eq, h1], .inl h2, h3⟩

/-- Letters and the symbols offered for note lists always meet the proviso, a digit if it
is small enough for the number of references. -/
theorem C39_start_characters (i : Char) (n : Nat) (h : 63 ≤ i.toNat ∨ 48 ≤ i.toNat ∧ i.toNat + n < 60) :
    ∀ k, k ≤ n → i.toNat + k ∉ [34, 38, 39, 60, 62] := by
  intro k hk
  simp only [List.mem_cons, List.not_mem_nil, or_false, not_or]
  omega

/-- Not vacuous. -/
example : makeBackRefLink ⟨t!"n", none, none, none, none, [t!"1", t!"2", t!"3"]⟩ [] 'y' =
    t!"<sup><a href=\"#noteref1\">y</a></sup> <sup><a href=\"#noteref2\">z</a></sup> " ++
    t!"<sup><a href=\"#noteref3\">{</a></sup>" := by decide +kernel

end Rustextile
