import Verif.RegexScan
import Verif.Parser

/-!
# The patterns are what their sources say

`Verif/Patterns.lean` quotes the patterns of the crate and has them parsed while the
file is elaborated.  Here the kernel repeats the parsing: every `NAME` is the expression
of `NAME_src`.  It also checks the two side conditions of the matcher of
`Verif/Regex.lean`: no pattern repeats an expression that matches the empty text, and
the body of every look-behind has a fixed length.
-/

namespace Rustextile

set_option maxRecDepth 100000

/-! ## Parsing -/

theorem LONE_AMP_RE_parsed : (parseRe LONE_AMP_RE_src).map Pat.re = some LONE_AMP_RE := by decide +kernel
theorem DIVIDER_RE_parsed : (parseRe DIVIDER_RE_src).map Pat.re = some DIVIDER_RE := by decide +kernel
theorem ENTITY_RE_parsed : (parseRe ENTITY_RE_src).map Pat.re = some ENTITY_RE := by decide +kernel
theorem UNWRAPPABLE_RE_parsed : (parseRe UNWRAPPABLE_RE_src).map Pat.re = some UNWRAPPABLE_RE := by decide +kernel
theorem WRAPPED_RE_parsed : (parseRe WRAPPED_RE_src).map Pat.re = some WRAPPED_RE := by decide +kernel
theorem PHRASING_RE_parsed : (parseRe PHRASING_RE_src).map Pat.re = some PHRASING_RE := by decide +kernel
theorem CSS_CLASS_NAME_RE_parsed : (parseRe CSS_CLASS_NAME_RE_src).map Pat.re = some CSS_CLASS_NAME_RE := by decide +kernel
theorem COLSPAN_RE_parsed : (parseRe COLSPAN_RE_src).map Pat.re = some COLSPAN_RE := by decide +kernel
theorem ROWSPAN_RE_parsed : (parseRe ROWSPAN_RE_src).map Pat.re = some ROWSPAN_RE := by decide +kernel
theorem ATTR_VALIGN_RE_parsed : (parseRe ATTR_VALIGN_RE_src).map Pat.re = some ATTR_VALIGN_RE := by decide +kernel
theorem ATTR_STYLE_RE_parsed : (parseRe ATTR_STYLE_RE_src).map Pat.re = some ATTR_STYLE_RE := by decide +kernel
theorem ATTR_LANG_RE_parsed : (parseRe ATTR_LANG_RE_src).map Pat.re = some ATTR_LANG_RE := by decide +kernel
theorem ATTR_ACLASS_RE_parsed : (parseRe ATTR_ACLASS_RE_src).map Pat.re = some ATTR_ACLASS_RE := by decide +kernel
theorem CSS_ID_RE_parsed : (parseRe CSS_ID_RE_src).map Pat.re = some CSS_ID_RE := by decide +kernel
theorem ATTR_PADDING_LEFT_RE_parsed : (parseRe ATTR_PADDING_LEFT_RE_src).map Pat.re = some ATTR_PADDING_LEFT_RE := by decide +kernel
theorem ATTR_PADDING_RIGHT_RE_parsed : (parseRe ATTR_PADDING_RIGHT_RE_src).map Pat.re = some ATTR_PADDING_RIGHT_RE := by decide +kernel
theorem ATTR_COL_RE_parsed : (parseRe ATTR_COL_RE_src).map Pat.re = some ATTR_COL_RE := by decide +kernel
theorem CSS_CLASSES_RE_parsed : (parseRe CSS_CLASSES_RE_src).map Pat.re = some CSS_CLASSES_RE := by decide +kernel
theorem ATTR_HALIGN_RE_parsed : (parseRe ATTR_HALIGN_RE_src).map Pat.re = some ATTR_HALIGN_RE := by decide +kernel
theorem FNID_RE_parsed : (parseRe FNID_RE_src).map Pat.re = some FNID_RE := by decide +kernel
theorem CODE_LANG_RE_parsed : (parseRe CODE_LANG_RE_src).map Pat.re = some CODE_LANG_RE := by decide +kernel
theorem NOTEDEF_RE_parsed : (parseRe NOTEDEF_RE_src).map Pat.re = some NOTEDEF_RE := by decide +kernel
theorem COMPONENTS_RE_parsed : (parseRe COMPONENTS_RE_src).map Pat.re = some COMPONENTS_RE := by decide +kernel
theorem CAPTION_RE_parsed : (parseRe CAPTION_RE_src).map Pat.re = some CAPTION_RE := by decide +kernel
theorem GRPMATCH_RE_parsed : (parseRe GRPMATCH_RE_src).map Pat.re = some GRPMATCH_RE := by decide +kernel
theorem RMTCH_RE_parsed : (parseRe RMTCH_RE_src).map Pat.re = some RMTCH_RE := by decide +kernel
theorem CMTCH_RE_parsed : (parseRe CMTCH_RE_src).map Pat.re = some CMTCH_RE := by decide +kernel
theorem CELL_A_PATTERN_RE_parsed : (parseRe CELL_A_PATTERN_RE_src).map Pat.re = some CELL_A_PATTERN_RE := by decide +kernel
theorem COLGROUP_RE_parsed : (parseRe COLGROUP_RE_src).map Pat.re = some COLGROUP_RE := by decide +kernel
theorem HEADING_RE_parsed : (parseRe HEADING_RE_src).map Pat.re = some HEADING_RE := by decide +kernel
theorem SPAN_B_RE_parsed : (parseRe SPAN_B_RE_src).map Pat.re = some SPAN_B_RE := by decide +kernel
theorem SPAN_STRONG_RE_parsed : (parseRe SPAN_STRONG_RE_src).map Pat.re = some SPAN_STRONG_RE := by decide +kernel
theorem SPAN_CITE_RE_parsed : (parseRe SPAN_CITE_RE_src).map Pat.re = some SPAN_CITE_RE := by decide +kernel
theorem SPAN_DEL_RE_parsed : (parseRe SPAN_DEL_RE_src).map Pat.re = some SPAN_DEL_RE := by decide +kernel
theorem SPAN_I_RE_parsed : (parseRe SPAN_I_RE_src).map Pat.re = some SPAN_I_RE := by decide +kernel
theorem SPAN_EM_RE_parsed : (parseRe SPAN_EM_RE_src).map Pat.re = some SPAN_EM_RE := by decide +kernel
theorem SPAN_SPAN_RE_parsed : (parseRe SPAN_SPAN_RE_src).map Pat.re = some SPAN_SPAN_RE := by decide +kernel
theorem SPAN_INS_RE_parsed : (parseRe SPAN_INS_RE_src).map Pat.re = some SPAN_INS_RE := by decide +kernel
theorem SPAN_SUB_RE_parsed : (parseRe SPAN_SUB_RE_src).map Pat.re = some SPAN_SUB_RE := by decide +kernel
theorem SPAN_SUP_RE_parsed : (parseRe SPAN_SUP_RE_src).map Pat.re = some SPAN_SUP_RE := by decide +kernel
theorem SP_NOTEXTILE_RE_parsed : (parseRe SP_NOTEXTILE_RE_src).map Pat.re = some SP_NOTEXTILE_RE := by decide +kernel
theorem SP_EQ_RE_parsed : (parseRe SP_EQ_RE_src).map Pat.re = some SP_EQ_RE := by decide +kernel
theorem SP_CODE_RE_parsed : (parseRe SP_CODE_RE_src).map Pat.re = some SP_CODE_RE := by decide +kernel
theorem SP_AT_RE_parsed : (parseRe SP_AT_RE_src).map Pat.re = some SP_AT_RE := by decide +kernel
theorem SP_PRE_RE_parsed : (parseRe SP_PRE_RE_src).map Pat.re = some SP_PRE_RE := by decide +kernel
theorem SP_COMMENT_RE_parsed : (parseRe SP_COMMENT_RE_src).map Pat.re = some SP_COMMENT_RE := by decide +kernel
theorem GL_DIM_RE_parsed : (parseRe GL_DIM_RE_src).map Pat.re = some GL_DIM_RE := by decide +kernel
theorem GL_APOS_RE_parsed : (parseRe GL_APOS_RE_src).map Pat.re = some GL_APOS_RE := by decide +kernel
theorem GL_88_RE_parsed : (parseRe GL_88_RE_src).map Pat.re = some GL_88_RE := by decide +kernel
theorem GL_SOPENB_RE_parsed : (parseRe GL_SOPENB_RE_src).map Pat.re = some GL_SOPENB_RE := by decide +kernel
theorem GL_SCLOSE_RE_parsed : (parseRe GL_SCLOSE_RE_src).map Pat.re = some GL_SCLOSE_RE := by decide +kernel
theorem GL_SOPEN_RE_parsed : (parseRe GL_SOPEN_RE_src).map Pat.re = some GL_SOPEN_RE := by decide +kernel
theorem GL_DOPENB_RE_parsed : (parseRe GL_DOPENB_RE_src).map Pat.re = some GL_DOPENB_RE := by decide +kernel
theorem GL_DCLOSE_RE_parsed : (parseRe GL_DCLOSE_RE_src).map Pat.re = some GL_DCLOSE_RE := by decide +kernel
theorem GL_DOPEN_RE_parsed : (parseRe GL_DOPEN_RE_src).map Pat.re = some GL_DOPEN_RE := by decide +kernel
theorem GL_ELLIPSIS_RE_parsed : (parseRe GL_ELLIPSIS_RE_src).map Pat.re = some GL_ELLIPSIS_RE := by decide +kernel
theorem GL_AMP_RE_parsed : (parseRe GL_AMP_RE_src).map Pat.re = some GL_AMP_RE := by decide +kernel
theorem GL_EMDASH_RE_parsed : (parseRe GL_EMDASH_RE_src).map Pat.re = some GL_EMDASH_RE := by decide +kernel
theorem GL_ENDASH_RE_parsed : (parseRe GL_ENDASH_RE_src).map Pat.re = some GL_ENDASH_RE := by decide +kernel
theorem GL_TM_RE_parsed : (parseRe GL_TM_RE_src).map Pat.re = some GL_TM_RE := by decide +kernel
theorem GL_R_RE_parsed : (parseRe GL_R_RE_src).map Pat.re = some GL_R_RE := by decide +kernel
theorem GL_C_RE_parsed : (parseRe GL_C_RE_src).map Pat.re = some GL_C_RE := by decide +kernel
theorem GL_12_RE_parsed : (parseRe GL_12_RE_src).map Pat.re = some GL_12_RE := by decide +kernel
theorem GL_14_RE_parsed : (parseRe GL_14_RE_src).map Pat.re = some GL_14_RE := by decide +kernel
theorem GL_34_RE_parsed : (parseRe GL_34_RE_src).map Pat.re = some GL_34_RE := by decide +kernel
theorem GL_DEG_RE_parsed : (parseRe GL_DEG_RE_src).map Pat.re = some GL_DEG_RE := by decide +kernel
theorem GL_PM_RE_parsed : (parseRe GL_PM_RE_src).map Pat.re = some GL_PM_RE := by decide +kernel
theorem GL_ACR_RE_parsed : (parseRe GL_ACR_RE_src).map Pat.re = some GL_ACR_RE := by decide +kernel
theorem NOTELIST_RE_parsed : (parseRe NOTELIST_RE_src).map Pat.re = some NOTELIST_RE := by decide +kernel
theorem URL_TOKEN_TAIL_parsed : (parseRe URL_TOKEN_TAIL_src).map Pat.re = some URL_TOKEN_TAIL := by decide +kernel
theorem OSPAN_TOKEN_TAIL_parsed : (parseRe OSPAN_TOKEN_TAIL_src).map Pat.re = some OSPAN_TOKEN_TAIL := by decide +kernel
theorem CSPAN_TOKEN_TAIL_parsed : (parseRe CSPAN_TOKEN_TAIL_src).map Pat.re = some CSPAN_TOKEN_TAIL := by decide +kernel
theorem RESTRICTED_URLREF_RE_parsed : (parseRe RESTRICTED_URLREF_RE_src).map Pat.re = some RESTRICTED_URLREF_RE := by decide +kernel
theorem UNRESTRICTED_URLREF_RE_parsed : (parseRe UNRESTRICTED_URLREF_RE_src).map Pat.re = some UNRESTRICTED_URLREF_RE := by decide +kernel
theorem IMAGE_RE_parsed : (parseRe IMAGE_RE_src).map Pat.re = some IMAGE_RE := by decide +kernel
theorem SLICE_RE_parsed : (parseRe SLICE_RE_src).map Pat.re = some SLICE_RE := by decide +kernel
theorem START_NOSPACE_RE_parsed : (parseRe START_NOSPACE_RE_src).map Pat.re = some START_NOSPACE_RE := by decide +kernel
theorem END_NOSPACE_RE_parsed : (parseRe END_NOSPACE_RE_src).map Pat.re = some END_NOSPACE_RE := by decide +kernel
theorem TABLE_RE_parsed : (parseRe TABLE_RE_src).map Pat.re = some TABLE_RE := by decide +kernel
theorem RCLIST_RE_parsed : (parseRe RCLIST_RE_src).map Pat.re = some RCLIST_RE := by decide +kernel
theorem RCLIST_SPLIT_RE_parsed : (parseRe RCLIST_SPLIT_RE_src).map Pat.re = some RCLIST_SPLIT_RE := by decide +kernel
theorem ATTR_CONTENT_RE_parsed : (parseRe ATTR_CONTENT_RE_src).map Pat.re = some ATTR_CONTENT_RE := by decide +kernel
theorem XM_RE_parsed : (parseRe XM_RE_src).map Pat.re = some XM_RE := by decide +kernel
theorem LISTS_RE_parsed : (parseRe LISTS_RE_src).map Pat.re = some LISTS_RE := by decide +kernel
theorem LISTS_SPLIT_RE_parsed : (parseRe LISTS_SPLIT_RE_src).map Pat.re = some LISTS_SPLIT_RE := by decide +kernel
theorem LINE_PARSER_RE_parsed : (parseRe LINE_PARSER_RE_src).map Pat.re = some LINE_PARSER_RE := by decide +kernel
theorem LIST_START_RE_parsed : (parseRe LIST_START_RE_src).map Pat.re = some LIST_START_RE := by decide +kernel
theorem TAG_LI_RE_parsed : (parseRe TAG_LI_RE_src).map Pat.re = some TAG_LI_RE := by decide +kernel
theorem TAG_DT_RE_parsed : (parseRe TAG_DT_RE_src).map Pat.re = some TAG_DT_RE := by decide +kernel
theorem TAG_DD_RE_parsed : (parseRe TAG_DD_RE_src).map Pat.re = some TAG_DD_RE := by decide +kernel
theorem TAG_TD_RE_parsed : (parseRe TAG_TD_RE_src).map Pat.re = some TAG_TD_RE := by decide +kernel
theorem TAG_TH_RE_parsed : (parseRe TAG_TH_RE_src).map Pat.re = some TAG_TH_RE := by decide +kernel
theorem TAG_P_RE_parsed : (parseRe TAG_P_RE_src).map Pat.re = some TAG_P_RE := by decide +kernel
theorem BR_NL_RE_parsed : (parseRe BR_NL_RE_src).map Pat.re = some BR_NL_RE := by decide +kernel
theorem NEWLINE_RE_parsed : (parseRe NEWLINE_RE_src).map Pat.re = some NEWLINE_RE := by decide +kernel
theorem FOOTNOTE_RE_parsed : (parseRe FOOTNOTE_RE_src).map Pat.re = some FOOTNOTE_RE := by decide +kernel
theorem NOTEREF_RE_parsed : (parseRe NOTEREF_RE_src).map Pat.re = some NOTEREF_RE := by decide +kernel
theorem GLYPH_SPLIT_RE_parsed : (parseRe GLYPH_SPLIT_RE_src).map Pat.re = some GLYPH_SPLIT_RE := by decide +kernel
theorem LINK_PRE_RE_parsed : (parseRe LINK_PRE_RE_src).map Pat.re = some LINK_PRE_RE := by decide +kernel
theorem LINK_BLOCK_RE_parsed : (parseRe LINK_BLOCK_RE_src).map Pat.re = some LINK_BLOCK_RE := by decide +kernel
theorem URL_TIGHT_RE_parsed : (parseRe URL_TIGHT_RE_src).map Pat.re = some URL_TIGHT_RE := by decide +kernel
theorem URL_END_RE_parsed : (parseRe URL_END_RE_src).map Pat.re = some URL_END_RE := by decide +kernel
theorem URL_TAG_RE_parsed : (parseRe URL_TAG_RE_src).map Pat.re = some URL_TAG_RE := by decide +kernel
theorem TEXTILE_TAG_RE_parsed : (parseRe TEXTILE_TAG_RE_src).map Pat.re = some TEXTILE_TAG_RE := by decide +kernel
theorem TEXTILE_LIGHT_TAG_RE_parsed : (parseRe TEXTILE_LIGHT_TAG_RE_src).map Pat.re = some TEXTILE_LIGHT_TAG_RE := by decide +kernel
theorem MULTI_ENDLINE_RE_parsed : (parseRe MULTI_ENDLINE_RE_src).map Pat.re = some MULTI_ENDLINE_RE := by decide +kernel
theorem BR_TAG_RE_parsed : (parseRe BR_TAG_RE_src).map Pat.re = some BR_TAG_RE := by decide +kernel
theorem QUOTED_RE_parsed : (parseRe QUOTED_RE_src).map Pat.re = some QUOTED_RE := by decide +kernel
theorem CR_RE_parsed : (parseRe CR_RE_src).map Pat.re = some CR_RE := by decide +kernel
theorem BLANK_LINE_RE_parsed : (parseRe BLANK_LINE_RE_src).map Pat.re = some BLANK_LINE_RE := by decide +kernel
theorem DYN_3PLUS_RE_parsed : (parseRe DYN_3PLUS_RE_src).map Pat.re = some DYN_3PLUS_RE := by decide +kernel
theorem BR_PATTERN_parsed : (parseRe BR_PATTERN_src).map Pat.re = some BR_PATTERN := by decide +kernel
theorem LINK_TAIL_parsed : (parseReAt 2 LINK_TAIL_src).map Pat.re = some LINK_TAIL := by decide +kernel

/-- All patterns. -/
def allPatterns : List Re := [LONE_AMP_RE, DIVIDER_RE, ENTITY_RE, UNWRAPPABLE_RE, WRAPPED_RE, PHRASING_RE, CSS_CLASS_NAME_RE, COLSPAN_RE, ROWSPAN_RE, ATTR_VALIGN_RE, ATTR_STYLE_RE, ATTR_LANG_RE, ATTR_ACLASS_RE, CSS_ID_RE, ATTR_PADDING_LEFT_RE, ATTR_PADDING_RIGHT_RE, ATTR_COL_RE, CSS_CLASSES_RE, ATTR_HALIGN_RE, FNID_RE, CODE_LANG_RE, NOTEDEF_RE, COMPONENTS_RE, CAPTION_RE, GRPMATCH_RE, RMTCH_RE, CMTCH_RE, CELL_A_PATTERN_RE, COLGROUP_RE, HEADING_RE, SPAN_B_RE, SPAN_STRONG_RE, SPAN_CITE_RE, SPAN_DEL_RE, SPAN_I_RE, SPAN_EM_RE, SPAN_SPAN_RE, SPAN_INS_RE, SPAN_SUB_RE, SPAN_SUP_RE, SP_NOTEXTILE_RE, SP_EQ_RE, SP_CODE_RE, SP_AT_RE, SP_PRE_RE, SP_COMMENT_RE, GL_DIM_RE, GL_APOS_RE, GL_88_RE, GL_SOPENB_RE, GL_SCLOSE_RE, GL_SOPEN_RE, GL_DOPENB_RE, GL_DCLOSE_RE, GL_DOPEN_RE, GL_ELLIPSIS_RE, GL_AMP_RE, GL_EMDASH_RE, GL_ENDASH_RE, GL_TM_RE, GL_R_RE, GL_C_RE, GL_12_RE, GL_14_RE, GL_34_RE, GL_DEG_RE, GL_PM_RE, GL_ACR_RE, NOTELIST_RE, URL_TOKEN_TAIL, OSPAN_TOKEN_TAIL, CSPAN_TOKEN_TAIL, RESTRICTED_URLREF_RE, UNRESTRICTED_URLREF_RE, IMAGE_RE, SLICE_RE, START_NOSPACE_RE, END_NOSPACE_RE, TABLE_RE, RCLIST_RE, RCLIST_SPLIT_RE, ATTR_CONTENT_RE, XM_RE, LISTS_RE, LISTS_SPLIT_RE, LINE_PARSER_RE, LIST_START_RE, TAG_LI_RE, TAG_DT_RE, TAG_DD_RE, TAG_TD_RE, TAG_TH_RE, TAG_P_RE, BR_NL_RE, NEWLINE_RE, FOOTNOTE_RE, NOTEREF_RE, GLYPH_SPLIT_RE, LINK_PRE_RE, LINK_BLOCK_RE, URL_TIGHT_RE, URL_END_RE, URL_TAG_RE, TEXTILE_TAG_RE, TEXTILE_LIGHT_TAG_RE, MULTI_ENDLINE_RE, BR_TAG_RE, QUOTED_RE, CR_RE, BLANK_LINE_RE, DYN_3PLUS_RE, BR_PATTERN, LINK_TAIL]

/-! ## Repetitions -/

/-- No repeated expression matches the empty text. -/
def Re.starsOk : Re → Bool
  | .star _ r => r.nonnull && r.starsOk
  | .seq a b => a.starsOk && b.starsOk
  | .alt a b => a.starsOk && b.starsOk
  | .grp _ r => r.starsOk
  | .look _ r => r.starsOk
  | .behind _ _ r => r.starsOk
  | _ => true

theorem patterns_star_nonnull : ∀ r ∈ allPatterns, r.starsOk = true := by decide +kernel

theorem flatMap_congr_mem {α β : Type} {f g : α → List β} : ∀ {l : List α}, (∀ x ∈ l, f x = g x) →
    l.flatMap f = l.flatMap g
  | [], _ => rfl
  | x :: l, h => by
    rw [List.flatMap_cons, List.flatMap_cons, h x (by simp), flatMap_congr_mem (fun y hy => h y (by simp [hy]))]

theorem starAll_fuel {ab : Cur → Caps → List (Cur × Caps)}
    (h : ∀ c s p, p ∈ ab c s → p.1.rest.length < c.rest.length) (g : Bool) :
    ∀ (f f' : Str) (c : Cur) (s : Caps), c.rest.length ≤ f.length → c.rest.length ≤ f'.length →
      starAll ab g f c s = starAll ab g f' c s
  | [], [], c, s, _, _ => rfl
  | [], y :: f', c, s, h1, _ => by
    have : ab c s = [] := by
      cases hb : ab c s with
      | nil => rfl
      | cons p l => have := h c s p (by rw [hb]; simp); simp at h1; simp [h1] at this
    cases g <;> simp [starAll, this]
  | x :: f, [], c, s, _, h1 => by
    have : ab c s = [] := by
      cases hb : ab c s with
      | nil => rfl
      | cons p l => have := h c s p (by rw [hb]; simp); simp at h1; simp [h1] at this
    cases g <;> simp [starAll, this]
  | x :: f, y :: f', c, s, h1, h2 => by
    have e : (ab c s).flatMap (fun p => starAll ab g f p.1 p.2) =
        (ab c s).flatMap (fun p => starAll ab g f' p.1 p.2) := by
      refine flatMap_congr_mem ?_
      intro p hp
      have := h c s p hp
      simp only [List.length_cons] at h1 h2
      exact starAll_fuel h g f f' p.1 p.2 (by omega) (by omega)
    cases g <;> simp only [starAll, Bool.false_eq_true, if_true, if_false, e]

theorem Re.nonnull_shorter {U : Uni} {r : Re} (h : r.nonnull = true) (c : Cur) (s : Caps) (p : Cur × Caps)
    (hp : p ∈ r.all U c s) : p.1.rest.length < c.rest.length := by
  obtain ⟨w, hw⟩ := Re.all_adv U r c s p hp
  have := Re.nonnull_all r h c s p w hp hw
  have hl := hw.len
  have : 0 < w.length := List.length_pos_iff.2 this
  omega

/-- The bound on the number of repetitions is never active: a repetition of an
expression that does not match the empty text is once the expression and then the
repetition again, or nothing. -/
theorem star_unbounded {U : Uni} {r : Re} (h : r.nonnull = true) (g : Bool) (c : Cur) (s : Caps) :
    (Re.star g r).all U c s =
      if g then (r.all U c s).flatMap (fun p => (Re.star g r).all U p.1 p.2) ++ [(c, s)]
      else (c, s) :: (r.all U c s).flatMap (fun p => (Re.star g r).all U p.1 p.2) := by
  have e : ∀ f : Str, c.rest.length ≤ f.length →
      (r.all U c s).flatMap (fun p => starAll (fun c s => r.all U c s) g f.tail p.1 p.2) =
      (r.all U c s).flatMap (fun p => (Re.star g r).all U p.1 p.2) := by
    intro f hf
    refine flatMap_congr_mem ?_
    intro p hp
    have := Re.nonnull_shorter h c s p hp
    simp only [Re.all]
    exact starAll_fuel (fun c s p hp => Re.nonnull_shorter h c s p hp) g _ _ _ _ (by simp; omega) (by omega)
  have e2 : (Re.star g r).all U c s = starAll (fun c s => r.all U c s) g (' ' :: c.rest) c s := by
    simp only [Re.all]
    exact starAll_fuel (fun c s p hp => Re.nonnull_shorter h c s p hp) g _ _ _ _ (by simp) (by simp)
  rw [e2, starAll]
  have := e (' ' :: c.rest) (by simp)
  simp only [List.tail_cons] at this
  rw [this]

/-! ## Look-behind -/

/-- The length of all matches of an expression, if it is fixed. -/
def Re.fixed : Re → Option Nat
  | .set _ _ => some 1
  | .seq a b =>
    match a.fixed, b.fixed with
    | some m, some n => some (m + n)
    | _, _ => none
  | .alt a b =>
    match a.fixed, b.fixed with
    | some m, some n => if m = n then some m else none
    | _, _ => none
  | .grp _ r => r.fixed
  | .star _ _ => none
  | .bref _ => none
  | _ => some 0

theorem Re.fixed_len {U : Uni} : ∀ (r : Re) (n : Nat), r.fixed = some n → ∀ c s p, p ∈ r.all U c s →
    c.rest.length = n + p.1.rest.length := by
  intro r
  induction r with
  | set neg items =>
    intro n hn c s p hp
    simp only [Re.fixed, Option.some.injEq] at hn
    simp only [Re.all] at hp
    split at hp
    · simp at hp
    · rename_i x xs hx
      split at hp
      · simp at hp; subst hp; simp [hx]; omega
      · simp at hp
  | seq a b iha ihb =>
    intro n hn c s p hp
    simp only [Re.fixed] at hn
    split at hn
    · rename_i m k ha hb
      simp only [Option.some.injEq] at hn
      simp only [Re.all, List.mem_flatMap] at hp
      obtain ⟨q, hq, hp⟩ := hp
      have := iha m ha c s q hq
      have := ihb k hb q.1 q.2 p hp
      omega
    · simp at hn
  | alt a b iha ihb =>
    intro n hn c s p hp
    simp only [Re.fixed] at hn
    split at hn
    · rename_i m k ha hb
      split at hn
      · rename_i hmk
        simp only [Option.some.injEq] at hn
        simp only [Re.all, List.mem_append] at hp
        rcases hp with hp | hp
        · have := iha m ha c s p hp; omega
        · have := ihb k hb c s p hp; omega
      · simp at hn
    · simp at hn
  | grp k r ih =>
    intro n hn c s p hp
    simp only [Re.all, List.mem_map] at hp
    obtain ⟨q, hq, rfl⟩ := hp
    exact ih n hn c s q hq
  | star g r => intro n hn; simp [Re.fixed] at hn
  | bref k => intro n hn; simp [Re.fixed] at hn
  | eps | bot | eot | wordb | bol | eol =>
    intro n hn c s p hp
    simp only [Re.fixed, Option.some.injEq] at hn
    have : p.1 = c := by
      simp only [Re.all] at hp
      grind
    rw [this]; omega
  | look neg r ih =>
    intro n hn c s p hp
    simp only [Re.fixed, Option.some.injEq] at hn
    have : p.1 = c := by
      simp only [Re.all] at hp
      grind
    rw [this]; omega
  | behind neg m r ih =>
    intro n hn c s p hp
    simp only [Re.fixed, Option.some.injEq] at hn
    have : p.1 = c := by
      simp only [Re.all] at hp
      grind
    rw [this]; omega

/-- Every look-behind steps back by the length of its body. -/
def Re.behindsOk : Re → Bool
  | .behind _ n r => r.fixed == some n && r.behindsOk
  | .star _ r => r.behindsOk
  | .seq a b => a.behindsOk && b.behindsOk
  | .alt a b => a.behindsOk && b.behindsOk
  | .grp _ r => r.behindsOk
  | .look _ r => r.behindsOk
  | _ => true

theorem patterns_behind_fixed : ∀ r ∈ allPatterns, r.behindsOk = true := by decide +kernel

end Rustextile
