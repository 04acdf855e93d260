import Verif.AttrValues
import Verif.Demo

/-!
# The attributes of blocks
-/

namespace Rustextile

/-- C54. The HTML attributes of every well formed list of block attributes, in both modes, for all
elements but those of tables. -/
theorem C54_attributes {U : Uni} (hU : UniOk U) {a : Spec.Atts} (h : a.Ok) {el : Option Str}
    (hel : el ∉ [some t!"td", some t!"tr", some t!"col"]) (restricted : Bool) :
    (BAttrs.parse U a.source el restricted).map BAttrs.toStr = .ok (a.html restricted) := by
  rw [parse_atts hU h hel restricted]
  exact congrArg Except.ok (atts_text h restricted)

/-- `>((){color:red;margin:0 1px}(foo bar#baz)[en-us]` -/
def exAtts : Spec.Atts where
  align := some .right
  left := 2
  right := 1
  groups := [.style [t!"color:red", t!"margin:0 1px"], .classes t!"foo bar" (some t!"baz"), .lang t!"en-us"]

theorem exAtts_ok : exAtts.Ok := by
  refine ⟨?_, by simp [exAtts, Spec.Group.kind]⟩
  intro g hg
  simp only [exAtts, List.mem_cons, List.not_mem_nil, or_false] at hg
  rcases hg with rfl | rfl | rfl
  · refine ⟨by decide, ?_⟩
    simp only [List.mem_cons, List.not_mem_nil, or_false]
    rintro d (rfl | rfl)
    · exact ⟨by decide, by decide, by decide, by unfold Spec.StyleChar Spec.NameChar; decide⟩
    · exact ⟨by decide, by decide, by decide, by unfold Spec.StyleChar Spec.NameChar; decide⟩
  · refine ⟨by unfold Spec.NameChar; decide, by decide, ?_⟩
    intro j hj
    injection hj with hj
    subst hj
    exact ⟨by decide, by unfold Spec.NameChar; decide⟩
  · exact ⟨by decide, by unfold Spec.NameChar; decide⟩

theorem C54_attributes_ex : (BAttrs.parse demoUni t!">((){color:red;margin:0 1px}(foo bar#baz)[en-us]" none false).map BAttrs.toStr =
    .ok t!" class=\"foo bar\" id=\"baz\" lang=\"en-us\" style=\"color:red; margin:0 1px; padding-left:2em; padding-right:1em; text-align:right;\"" :=
  C54_attributes UniOk.demo exAtts_ok (el := none) (by decide) false

theorem C54_attributes_ex_restricted : (BAttrs.parse demoUni t!">((){color:red;margin:0 1px}(foo bar#baz)[en-us]" none true).map BAttrs.toStr =
    .ok t!" lang=\"en-us\" style=\"padding-left:2em; padding-right:1em; text-align:right;\"" :=
  C54_attributes UniOk.demo exAtts_ok (el := none) (by decide) true

end Rustextile
