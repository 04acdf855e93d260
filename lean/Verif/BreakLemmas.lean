import Verif.RegexSimp
import Verif.Patterns

/-!
# The break-tag pattern of the final step (parser.rs:1970)
-/

namespace Rustextile

theorem BR_nonnull : BR_PATTERN.nonnull = true := by decide

/-- A match of the break pattern is a break tag that no newline follows. -/
theorem BR_sound {U : Uni} {pre rest : Str} {e : Cur} {s : Caps}
    (h : BR_PATTERN.matchAt U ⟨pre, rest⟩ = some (e, s)) :
    (rest = t!"<br>" ++ e.rest ∨ rest = t!"<br />" ++ e.rest) ∧ e.rest.head? ≠ some '\n' := by
  have hm := Re.matchAt_mem h
  simp only [BR_PATTERN, mem_seq, mem_set, mem_alt, mem_grp, mem_eps, mem_look_neg, evalSet_chr,
    all_set_eq_nil, beq_iff_eq, Prod.mk.injEq] at hm
  obtain ⟨_, _, ⟨_, _, rfl, rfl, rfl, rfl⟩, _, _, ⟨_, _, h2, rfl, rfl, rfl⟩, _, _,
    ⟨_, _, h3, rfl, rfl, rfl⟩, _, _, h4, _, _, ⟨_, _, h5, rfl, rfl, rfl⟩, h6, rfl, rfl⟩ := hm
  simp only at h2 h3
  subst h2 h3
  have hh : ∀ xs : Str, (∀ (x : Char) (ys : List Char), xs = x :: ys → (x == '\n') = false) →
      xs.head? ≠ some '\n' := by
    intro xs h; cases xs <;> simp_all
  refine ⟨?_, hh _ h6⟩
  rcases h4 with ⟨_, _, ⟨_, _, ⟨_, _, h7, rfl, rfl, rfl⟩, _, _, h8, rfl, rfl, rfl⟩, rfl, rfl⟩ | ⟨rfl, rfl⟩
  · simp_all
  · simp_all

/-- A break tag that no newline follows is matched. -/
theorem BR_complete {U : Uni} {pre t rest : Str} (ht : t = t!"<br>" ∨ t = t!"<br />")
    (hr : rest.head? ≠ some '\n') :
    ∃ p, BR_PATTERN.matchAt U ⟨pre, t ++ rest⟩ = some p := by
  rcases hm : BR_PATTERN.matchAt U ⟨pre, t ++ rest⟩ with _ | p
  · exfalso
    rw [Re.matchAt_none] at hm
    rcases ht with rfl | rfl <;> rcases rest with _ | ⟨x, xs⟩ <;>
      simp_all [BR_PATTERN, Re.all, evalSet_chr]
  · exact ⟨p, rfl⟩

end Rustextile
