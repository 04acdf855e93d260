import Verif.RegexCaps
import Verif.Props.Failures

/-!
# Attributes: C21, C22
-/

namespace Rustextile

theorem replaceAux_sublist (n : Str) : ∀ (k : Nat) (s : Str), (replaceAux n [] k s).Sublist s
  | _, [] => by cases ‹Nat› <;> simp [replaceAux]
  | k + 1, c :: t => by
    rw [replaceAux]; exact (replaceAux_sublist n k t).cons c
  | 0, c :: t => by
    rw [replaceAux]
    split
    · rw [List.nil_append]; exact (replaceAux_sublist n _ t).cons c
    · exact (replaceAux_sublist n 0 t).cons_cons c

/-- Deleting the occurrences of a text leaves a part of the text. -/
theorem replaceStr_sublist (n s : Str) : (replaceStr n [] s).Sublist s := replaceAux_sublist n 0 s

theorem OneRun.sublist {c : Char} {s t : Str} (h : Spec.OneRun c t) (hs : s.Sublist t) : Spec.OneRun c s := by
  obtain ⟨a, n, b, rfl, ha, hb⟩ := h
  obtain ⟨s1, s2, rfl, h1, h2⟩ := List.sublist_append_iff.1 hs
  obtain ⟨s3, s4, rfl, h3, h4⟩ := List.sublist_append_iff.1 h2
  obtain ⟨m, -, rfl⟩ := List.sublist_replicate_iff.1 h3
  exact ⟨s1, m, s4, rfl, fun h => ha (h1.subset h), fun h => hb (h4.subset h)⟩

/-- A run of one character, as an expression. -/
abbrev runRe (c : Char) : Re := .grp 1 (.seq (.set false [.chr c]) (.star true (.set false [.chr c])))

theorem runRe_none {U : Uni} {c : Char} {t : Str} (h : c ∉ t) : (runRe c).captures U t = none := by
  cases hm : (runRe c).captures U t with
  | none => rfl
  | some m =>
    obtain ⟨a, rest, e, -, ht⟩ := Re.captures_takes hm
    obtain ⟨u, v, e1, hu, -⟩ := ht.lang
    obtain rfl := lang_chr.1 hu
    exact absurd (by rw [e, e1]; simp) h

theorem runRe_some {U : Uni} {c : Char} {a b : Str} {n : Nat} (ha : c ∉ a) (hb : c ∉ b) :
    ∃ s, (runRe c).captures U (a ++ (List.replicate (n + 1) c ++ b)) = some ⟨a, List.replicate (n + 1) c, s⟩ := by
  have hsk : Skips U (runRe c) [] a (List.replicate (n + 1) c ++ b) := by
    intro u x v e
    rw [Re.matchAt_none]
    simp only [Re.all, List.map_eq_nil_iff]
    have hx : x ≠ c := by rintro rfl; exact ha (by simp [e])
    simp [evalSet_chr, hx]
  have hit : ∃ s, (runRe c).matchAt U ⟨a.reverse, List.replicate (n + 1) c ++ b⟩ =
      some (⟨(List.replicate (n + 1) c).reverse ++ a.reverse, b⟩, s) := by
    obtain ⟨l, hl⟩ := star_greedy_head (U := U) (n := false) (it := [.chr c]) (s := [])
      (w := List.replicate n c) (rest := b) (pre := c :: a.reverse)
      (by intro x hx; rw [evalSet_chr, List.eq_of_mem_replicate hx]; simp)
      (by
        intro x hx
        rw [evalSet_chr]
        have : x ≠ c := by rintro rfl; exact hb (List.mem_of_mem_head? hx)
        simpa using this)
    have hs : (Re.seq (.set false [.chr c]) (.star true (.set false [.chr c]))).all U
        ⟨a.reverse, c :: (List.replicate n c ++ b)⟩ [] = (⟨(List.replicate n c).reverse ++ c :: a.reverse, b⟩, []) :: l := by
      rw [all_seq_set_cons, evalSet_chr, if_pos (by simp), hl]
    rw [Re.matchAt_eq]
    simp only [List.replicate_succ, List.cons_append]
    rw [show ∀ cu s, (runRe c).all U cu s = ((Re.seq (.set false [.chr c]) (.star true (.set false [.chr c]))).all U cu s).map
      (fun p => (p.1, (1, between cu p.1) :: p.2)) from fun _ _ => rfl, hs]
    exact ⟨_, by simp; rfl⟩
  obtain ⟨s, hs⟩ := hit
  refine ⟨s, Re.captures_eq (rest := b) ?_ (by simp)⟩
  rw [Re.search_skips hsk]
  simp only [List.append_nil]
  exact Re.search_hit hs

theorem replicate_ne {c : Char} {n : Nat} : List.replicate (n + 1) c ≠ [] := by simp [List.replicate_succ]

/-- Deleting the only run of a character. -/
theorem replaceStr_run {c : Char} {b : Str} {n : Nat} (hb : c ∉ b) : ∀ {a : Str}, c ∉ a →
    c ∉ replaceStr (List.replicate (n + 1) c) [] (a ++ (List.replicate (n + 1) c ++ b))
  | [], _ => by
    rw [List.nil_append, replaceStr_hit replicate_ne, List.nil_append]
    exact fun h => hb ((replaceStr_sublist _ _).subset h)
  | x :: a, ha => by
    rw [List.cons_append, replaceStr_miss]
    · simp only [List.mem_cons, not_or] at ha ⊢
      exact ⟨ha.1, replaceStr_run hb ha.2⟩
    · have : c ≠ x := by rintro rfl; exact ha (by simp)
      simp [List.replicate_succ, List.isPrefixOf, this]

theorem padding_none {U : Uni} {c : Char} {side t : Str} (h : Spec.OneRun c t) :
    c ∉ (paddingStyle U (runRe c) side t).2 := by
  obtain ⟨a, n, b, rfl, ha, hb⟩ := h
  unfold paddingStyle
  cases n with
  | zero =>
    have : c ∉ a ++ (List.replicate 0 c ++ b) := by simp [ha, hb]
    rw [runRe_none this]
    exact this
  | succ n =>
    obtain ⟨s, hs⟩ := runRe_some (U := U) (n := n) ha hb
    rw [hs]
    exact replaceStr_run hb ha

theorem padding_sublist (U : Uni) (re : Re) (side t : Str) : (paddingStyle U re side t).2.Sublist t := by
  unfold paddingStyle; split
  · exact replaceStr_sublist _ _
  · exact List.Sublist.refl _

theorem explicit_sublist (U : Uni) (t : Str) (r : Bool) : (explicitStyle U t r).2.Sublist t := by
  unfold explicitStyle; split
  · exact List.Sublist.refl _
  · split
    · exact replaceStr_sublist _ _
    · exact List.Sublist.refl _

theorem lang_sublist (U : Uni) (t : Str) : (langAttr U t).2.Sublist t := by
  unfold langAttr; split
  · exact replaceStr_sublist _ _
  · exact List.Sublist.refl _

theorem aclass_sublist (U : Uni) (t : Str) (r : Bool) : (aclassAttr U t r).2.Sublist t := by
  unfold aclassAttr; split
  · exact replaceStr_sublist _ _
  · exact List.Sublist.refl _

/-- What the alignment pattern captures. -/
theorem halign_caps {U : Uni} {t : Str} {m : Mat} (h : ATTR_HALIGN_RE.captures U t = some m) :
    m.grp 1 = t!"<" ∨ m.grp 1 = t!">" ∨ m.grp 1 = t!"<>" ∨ m.grp 1 = t!"=" ∨
      ∃ x ∈ t, (x = '(' ∨ x = ')') ∧ (m.grp 1).head? = some x := by
  obtain ⟨a, rest, e, -, ht⟩ := Re.captures_takes h
  rw [show ATTR_HALIGN_RE = .grp 1 (.alt (.seq (.set false [.chr '<']) (.look true (.set false [.chr '>'])))
    (.alt (.seq (.behind true 1 (.set false [.chr '<'])) (.set false [.chr '>']))
      (.alt (.seq (.set false [.chr '<']) (.set false [.chr '>']))
        (.alt (.set false [.chr '='])
          (.seq (.seq (.set false [.chr '(', .chr ')']) (.star true (.set false [.chr '(', .chr ')'])))
            (.look true (.set false [.chr ' ']))))))) from rfl] at ht
  obtain ⟨s1, ht, e1⟩ := ht.grp
  have hg : m.grp 1 = m.whole := by simp [Mat.grp, Mat.get?, e1, alLookup]
  rw [hg]
  rcases ht.lang with ⟨u, v, e2, hu, hv⟩ | ⟨u, v, e2, hu, hv⟩ | ⟨u, v, e2, hu, hv⟩ | hu | ⟨u, v, e2, ⟨u1, u2, e3, h1, h2⟩, hv⟩
  · left; rw [e2, lang_chr.1 hu, lang_look.1 hv]; rfl
  · right; left; rw [e2, lang_behind.1 hu, lang_chr.1 hv]; rfl
  · right; right; left; rw [e2, lang_chr.1 hu, lang_chr.1 hv]; rfl
  · right; right; right; left; rw [lang_chr.1 hu]
  · right; right; right; right
    obtain ⟨x, rfl, hx⟩ := lang_set.1 h1
    refine ⟨x, by rw [e, e2, e3]; simp, ?_, by rw [e2, e3]; rfl⟩
    simpa [evalSet, Item.eval_chr] using hx

theorem halign_ok {U : Uni} {t : Str} (h1 : '(' ∉ t) (h2 : ')' ∉ t) : ∃ l, halignStyle U t = .ok l := by
  unfold halignStyle
  split
  · rename_i m hm
    rcases halign_caps hm with h | h | h | h | ⟨x, hx, rfl | rfl, -⟩
    · rw [h]; exact ⟨_, rfl⟩
    · rw [h]; exact ⟨_, rfl⟩
    · rw [h]; exact ⟨_, rfl⟩
    · rw [h]; exact ⟨_, rfl⟩
    · exact absurd hx h1
    · exact absurd hx h2
  · exact ⟨_, rfl⟩

theorem valign_caps {U : Uni} {t : Str} {m : Mat} (h : ATTR_VALIGN_RE.captures U t = some m) :
    m.whole = t!"-" ∨ m.whole = t!"^" ∨ m.whole = t!"~" := by
  obtain ⟨a, rest, e, -, ht⟩ := Re.captures_takes h
  rw [show ATTR_VALIGN_RE = .seq .bot (.set false [.chr '-', .chr '^', .chr '~']) from rfl] at ht
  obtain ⟨u, v, e2, hu, hv⟩ := ht.lang
  obtain ⟨x, rfl, hx⟩ := lang_set.1 hv
  rw [e2, lang_bot.1 hu]
  simp [evalSet, Item.eval_chr] at hx
  rcases hx with rfl | rfl | rfl <;> simp

/-- Vertical alignment never fails. -/
theorem valign_ok (U : Uni) (t : Str) (e : Option Str) : ∃ l, valignStyle U t e = .ok l ∧
    ∀ d ∈ l, ∃ w, (w = t!"top" ∨ w = t!"middle" ∨ w = t!"bottom") ∧ d = t!"vertical-align:" ++ w := by
  unfold valignStyle
  split
  · split
    · rename_i m hm
      rcases valign_caps hm with h | h | h <;> rw [h]
      · exact ⟨_, rfl, by simp⟩
      · exact ⟨_, rfl, by simp⟩
      · exact ⟨_, rfl, by simp⟩
    · exact ⟨_, rfl, by simp⟩
  · exact ⟨_, rfl, by simp⟩

/-- **C22, partial.** Attribute strings in which all opening parentheses are next to each
other, and all closing ones, never fail: class and id, left and right padding, style,
language and alignment in any order and combination with this restriction.
Missing: nothing else is true in general (see `C22_negation`). -/
theorem C22_attributes_partial (U : Uni) (attrs : Str) (element : Option Str) (restricted : Bool)
    (ho : Spec.OneRun '(' attrs) (hc : Spec.OneRun ')' attrs) :
    ∃ a, BAttrs.parse U attrs element restricted = .ok a := by
  unfold BAttrs.parse
  split
  · exact ⟨_, rfl⟩
  · obtain ⟨l1, h1, -⟩ := valign_ok U attrs element
    simp only [h1]
    have hs : (aclassAttr U (langAttr U (explicitStyle U attrs restricted).2).2 restricted).2.Sublist attrs :=
      (aclass_sublist _ _ _).trans ((lang_sublist _ _).trans (explicit_sublist _ _ _))
    generalize (aclassAttr U (langAttr U (explicitStyle U attrs restricted).2).2 restricted).2 = t at hs
    have hl : '(' ∉ (paddingStyle U ATTR_PADDING_LEFT_RE t!"padding-left:" t).2 :=
      padding_none (OneRun.sublist ho hs)
    have hls := padding_sublist U ATTR_PADDING_LEFT_RE t!"padding-left:" t
    generalize (paddingStyle U ATTR_PADDING_LEFT_RE t!"padding-left:" t).2 = t1 at hl hls
    have hr : ')' ∉ (paddingStyle U ATTR_PADDING_RIGHT_RE t!"padding-right:" t1).2 :=
      padding_none (OneRun.sublist hc (hls.trans hs))
    have hrs := padding_sublist U ATTR_PADDING_RIGHT_RE t!"padding-right:" t1
    obtain ⟨l, hl⟩ := halign_ok (U := U) (fun h => hl (hrs.subset h)) hr
    rw [hl]
    exact ⟨_, rfl⟩

/-- Not vacuous: padding on both sides, a class, a style and an alignment. -/
example : Spec.OneRun '(' t!"<>(((box#one){color:red})" ∧ Spec.OneRun ')' t!"(((box#one))){color:red}<>" ∧
    BAttrs.parse demoUni t!"<>(((box#one))){color:red}" none false =
      .ok { cls := some t!"box", id := some t!"one"
            style := some t!"color:red; padding-left:2em; padding-right:2em; text-align:justify;" } := by
  refine ⟨⟨t!"<>", 3, t!"box#one){color:red})", rfl, by decide, by decide⟩,
    ⟨t!"(((box#one", 3, t!"{color:red}<>", rfl, by decide, by decide⟩, by decide +kernel⟩

/-! ## Restricted mode -/

theorem halign_decl {U : Uni} {t : Str} {l : List Str} (h : halignStyle U t = .ok l) :
    ∀ d ∈ l, ∃ w, (w = t!"left" ∨ w = t!"center" ∨ w = t!"right" ∨ w = t!"justify") ∧ d = t!"text-align:" ++ w := by
  unfold halignStyle at h
  split at h
  · split at h
    · rename_i m hm a ha
      simp only [Except.ok.injEq] at h
      subst h
      simp only [List.mem_singleton]
      rintro d rfl
      refine ⟨a, ?_, rfl⟩
      unfold halignWord at ha
      split at ha
      · simp at ha; exact .inl ha.symm
      · split at ha
        · simp at ha; exact .inr (.inl ha.symm)
        · split at ha
          · simp at ha; exact .inr (.inr (.inl ha.symm))
          · split at ha
            · simp at ha; exact .inr (.inr (.inr ha.symm))
            · cases ha
    · cases h
  · simp only [Except.ok.injEq] at h; subst h; simp

theorem padding_decl {U : Uni} {re : Re} {side t : Str} : ∀ d ∈ (paddingStyle U re side t).1,
    ∃ n, d = side ++ natStr n ++ t!"em" := by
  unfold paddingStyle; split
  · simp only [List.mem_singleton]; rintro d rfl; exact ⟨_, rfl⟩
  · simp

theorem own_digits (n : Nat) : natStr n ≠ [] ∧ ∀ c ∈ natStr n, '0' ≤ c ∧ c ≤ '9' := by
  refine ⟨natStr_ne_nil n, fun c hc => ?_⟩
  have := natStr_digits n c hc
  simp only [isDigitC, Bool.and_eq_true, decide_eq_true_eq] at this
  exact ⟨this.1, this.2⟩

theorem joinWith_eq (sep : Str) : ∀ l, joinWith sep l = Spec.join sep l
  | [] => rfl
  | [_] => rfl
  | x :: y :: r => by rw [joinWith, Spec.join, joinWith_eq sep (y :: r)]

/-- The attributes of restricted mode. -/
structure Tame (a : BAttrs) : Prop where
  cls : a.cls = none
  id : a.id = none
  style : ∀ s, a.style = some s → Spec.OwnStyle s

theorem parse_tame {U : Uni} {attrs : Str} {element : Option Str} {a : BAttrs}
    (h : BAttrs.parse U attrs element true = .ok a) : Tame a := by
  unfold BAttrs.parse at h
  split at h
  · simp only [Except.ok.injEq] at h; subst h; exact ⟨rfl, rfl, nofun⟩
  · obtain ⟨l1, h1, hd⟩ := valign_ok U attrs element
    simp only [h1] at h
    have hac : ∀ t, (aclassAttr U t true).1 = (none, none) := by
      intro t; unfold aclassAttr; split <;> rfl
    have hex : (explicitStyle U attrs true).1 = [] := rfl
    split at h
    · cases h
    · rename_i l3 h3
      simp only [Except.ok.injEq] at h
      subst h
      refine ⟨by simp [hac], by simp [hac], ?_⟩
      intro s hs
      simp only [hex] at hs
      split at hs
      · cases hs
      · rename_i hne
        simp only [Option.some.injEq] at hs
        refine ⟨_, ?_, ?_, by rw [← hs, joinWith_eq]⟩
        · intro e; exact hne (by rw [e]; rfl)
        intro d hmem
        simp only [List.mem_append, List.append_nil] at hmem
        rcases hmem with ((hm | hm) | hm) | hm
        · obtain ⟨w, hw, rfl⟩ := hd d hm
          exact .inr (.inr ⟨w, by rcases hw with rfl | rfl | rfl <;> simp, rfl⟩)
        · obtain ⟨n, rfl⟩ := padding_decl d hm
          exact .inl ⟨natStr n, (own_digits n).1, (own_digits n).2, .inl (by simp [Spec.paddingLeft])⟩
        · obtain ⟨n, rfl⟩ := padding_decl d hm
          exact .inl ⟨natStr n, (own_digits n).1, (own_digits n).2, .inr (by simp [Spec.paddingRight])⟩
        · obtain ⟨w, hw, rfl⟩ := halign_decl h3 d hm
          exact .inr (.inl ⟨w, by rcases hw with rfl | rfl | rfl | rfl <;> simp, rfl⟩)

theorem mem_btInsert {k v : Str} {p : Str × Str} : ∀ {l : List (Str × Str)}, p ∈ btInsert k v l → p = (k, v) ∨ p ∈ l
  | [], h => by simp [btInsert] at h; exact .inl h
  | (k', v') :: t, h => by
    unfold btInsert at h
    split at h
    · simp only [List.mem_cons] at h ⊢
      rcases h with h | h
      · next e => subst e; exact .inl h
      · exact .inr (.inr h)
    · split at h
      · simp only [List.mem_cons] at h ⊢
        rcases h with h | h | h
        · exact .inl h
        · exact .inr (.inl h)
        · exact .inr (.inr h)
      · simp only [List.mem_cons] at h ⊢
        rcases h with h | h
        · exact .inr (.inl h)
        · rcases mem_btInsert h with h | h
          · exact .inl h
          · exact .inr (.inr h)

theorem mem_addOpt {k : Str} {o : Option Str} {l : HtmlAttrs} {p : Str × Str} (h : p ∈ HtmlAttrs.addOpt k o l) :
    (∃ v, o = some v ∧ p = (k, v)) ∨ p ∈ l := by
  unfold HtmlAttrs.addOpt at h
  split at h
  · rcases mem_btInsert h with h | h
    · exact .inl ⟨_, rfl, h⟩
    · exact .inr h
  · exact .inr h

/-- **C21.** In restricted mode, whatever the user writes as attributes of whatever
element, the attributes made of it contain no class and no id, and a style only consists
of the declarations the parser makes for padding and alignment. -/
theorem C21_restricted_attributes (U : Uni) (attrs : Str) (element : Option Str) (a : BAttrs)
    (h : BAttrs.parse U attrs element true = .ok a) (k v : Str) (hk : (k, v) ∈ a.html) :
    k ≠ t!"class" ∧ k ≠ t!"id" ∧ (k = t!"style" → Spec.OwnStyle v) := by
  have ht := parse_tame h
  unfold BAttrs.html at hk
  rcases mem_addOpt hk with ⟨v', e, hp⟩ | hk
  · simp only [Prod.mk.injEq] at hp; rw [hp.1]; exact ⟨by decide, by decide, fun h => absurd h (by decide)⟩
  rcases mem_addOpt hk with ⟨v', e, hp⟩ | hk
  · simp only [Prod.mk.injEq] at hp; rw [hp.1, hp.2]; exact ⟨by decide, by decide, fun _ => ht.style _ e⟩
  iterate 3
    rcases mem_addOpt hk with ⟨v', e, hp⟩ | hk
    · simp only [Prod.mk.injEq] at hp; rw [hp.1]; exact ⟨by decide, by decide, fun h => absurd h (by decide)⟩
  rcases mem_addOpt hk with ⟨v', e, hp⟩ | hk
  · rw [ht.id] at e; cases e
  rcases mem_addOpt hk with ⟨v', e, hp⟩ | hk
  · simp only [Prod.mk.injEq] at hp; rw [hp.1]; exact ⟨by decide, by decide, fun h => absurd h (by decide)⟩
  rcases mem_addOpt hk with ⟨v', e, hp⟩ | hk
  · rw [ht.cls] at e; cases e
  · simp at hk

/-- Not vacuous: class, id and style are dropped, padding, alignment and language are kept. -/
example : BAttrs.parse demoUni t!"(((box#one){color:red}[en]>" none true =
      .ok { lang := some t!"en", style := some t!"padding-left:2em; text-align:right;" } ∧
    (BAttrs.parse demoUni t!"(((box#one){color:red}[en]>" none true).map BAttrs.toStr =
      .ok t!" lang=\"en\" style=\"padding-left:2em; text-align:right;\"" := by
  constructor <;> decide +kernel

/-- The restriction to restricted mode is needed. -/
example : BAttrs.parse demoUni t!"(((box#one){color:red}[en]>" none false =
      .ok { lang := some t!"en", cls := some t!"box", id := some t!"one"
            style := some t!"color:red; padding-left:2em; text-align:right;" } := by
  decide +kernel

end Rustextile
