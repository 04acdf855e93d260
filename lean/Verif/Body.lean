import Verif.NodeDoc

/-!
# Blocks whose text contains tags

What the block parser does with a text in which `graf` has put tags.
-/

namespace Rustextile

open Prog

/-- A tag that can stand in the text of a block. -/
structure Inner (w : Str) : Prop where
  nonl : '\n' ∉ w
  free : BrFree w
  list : Free t!"<p>notelist" w

/-- Text with tags. -/
inductive Woven : Str → Prop
  | nil : Woven []
  | chr {c : Char} {t : Str} : c ≠ '<' → Woven t → Woven (c :: t)
  | tag {w t : Str} : Inner w → Woven t → Woven (w ++ t)

theorem Woven.append {a b : Str} (ha : Woven a) (hb : Woven b) : Woven (a ++ b) := by
  induction ha with
  | nil => exact hb
  | chr hc _ ih => exact .chr hc ih
  | tag hw _ ih => rw [List.append_assoc]; exact .tag hw ih

theorem Woven.text {w t : Str} (hw : '<' ∉ w) (ht : Woven t) : Woven (w ++ t) := by
  induction w with
  | nil => exact ht
  | cons c w ih => simp at hw; exact .chr (fun e => hw.1 e.symm) (ih hw.2)

theorem Woven.brFree {t : Str} (h : Woven t) : BrFree t := by
  induction h with
  | nil => exact .of_lt (by simp)
  | chr hc _ ih => exact BrFree.append (a := [_]) (.of_lt (by simpa using Ne.symm hc)) ih
  | tag hw _ ih => exact hw.free.append ih

theorem Woven.list {t : Str} (h : Woven t) : Free t!"<p>notelist" t := by
  induction h with
  | nil => exact Free.nil
  | chr hc _ ih => exact Free.append (a := [_]) (.of_head rfl (by simpa using Ne.symm hc)) ih
  | tag hw _ ih => exact hw.list.append ih

theorem brNl_none {U : Uni} {pre rest : Str}
    (h : ∀ x, rest ≠ t!"<br" ++ x ∧ rest ≠ t!"<bR" ++ x ∧ rest ≠ t!"<Br" ++ x ∧ rest ≠ t!"<BR" ++ x) :
    BR_NL_RE.matchAt U ⟨pre, rest⟩ = none := by
  rw [Re.matchAt_none]
  cases hl : BR_NL_RE.all U ⟨pre, rest⟩ [] with
  | nil => rfl
  | cons p l =>
    exfalso
    obtain ⟨w, hw, lw⟩ := Re.all_lang BR_NL_RE ⟨pre, rest⟩ [] p (by rw [hl]; simp)
    change (Re.seq (.set false [.chr '<']) (.seq (.set false [.chr 'b', .chr 'B']) (.seq (.set false [.chr 'r', .chr 'R']) _))).lang U w at lw
    rw [lang_seq] at lw
    obtain ⟨_, _, rfl, h1, _, _, rfl, ⟨b, rfl, hb⟩, _, v, rfl, ⟨r, rfl, hr⟩, -⟩ := lw
    rw [lang_chr] at h1
    subst h1
    have e := hw.1
    simp only at e
    have hb' : b = 'b' ∨ b = 'B' := by simpa [evalSet, Item.eval_chr] using hb
    have hr' : r = 'r' ∨ r = 'R' := by simpa [evalSet, Item.eval_chr] using hr
    have := h (v ++ p.1.rest)
    rcases hb' with rfl | rfl <;> rcases hr' with rfl | rfl <;> simp [e] at this

theorem brNl_search {U : Uni} {t : Str} (h : BrFree t) : BR_NL_RE.search U [] t = none := by
  refine skips_none (by decide) ?_
  intro u x v e
  apply brNl_none
  intro y
  exact ⟨h.1.at e y, h.2.1.at e y, h.2.2.1.at e y, h.2.2.2.at e y⟩

theorem brText_woven {C : Ctx} {t : Str} (hw : Woven t) (h : lined t = true) : brText C t = brk C.cfg.brTag t := by
  unfold brText
  rw [Re.replaceTempl_none _ (brNl_search hw.brFree)]
  exact Re.replaceTempl_eq NEWLINE_nonnull (brk_scan (fun w s => brTag_templ _ w s) h _)

theorem lined_right {w t : Str} (h : lined (w ++ t) = true) : lined t = true := by
  induction w with
  | nil => exact h
  | cons c w ih => exact ih (lined_tail h)

theorem broken_woven {br z oz t : Str} (hz : Broken br z oz) (hw : Woven t) (h : lined t = true) :
    Broken br (brk br t ++ z) (brk (br ++ t!"\n") t ++ oz) := by
  induction hw with
  | nil => simpa [brk] using hz
  | @chr c t hlt _ ih =>
    have ih := ih (lined_tail h)
    by_cases hc : c = '\n'
    · subst hc
      obtain ⟨d, t', rfl, h1, h2⟩ := lined_nl h
      have hd : d ≠ '\n' := by rintro rfl; revert h1; decide
      rw [brk_nl, brk_nl]
      have := Broken.br (br := br) (by rw [brk_cons hd]; simp [hd]) ih
      simpa using this
    · rw [brk_cons hc, brk_cons hc]
      exact .text (w := [c]) (.of_lt (by simpa using Ne.symm hlt)) ih
  | @tag w t hi _ ih =>
    rw [brk_append, brk_append, brk_nonl hi.nonl, brk_nonl hi.nonl, List.append_assoc, List.append_assoc]
    exact .text hi.free (ih (lined_right h))

/-- Output of the block parser for a text with tags. -/
theorem br_woven {C : Ctx} {a z tag att t : Str} (ht : tag ∈ brTags) (hatt : '>' ∉ att) (hb : BrFree (openTagA tag att))
    (hw : Woven t) (h : lined t = true)
    (ha : BrFree a) (hz : BrFree z) (hpa : noPTag a = true) (hpz : noPTag z = true)
    (hzc : containsStr (closeTag tag) (closeTag tag ++ z).tail = false) :
    BR_TAG_RE.replaceTempl C.U C.cfg.brTag (doPBr C (a ++ (openTagA tag att ++ (t ++ (closeTag tag ++ z))))) =
      a ++ (openTagA tag att ++ (brk C.cfg.brTag t ++ (closeTag tag ++ z))) := by
  rw [doPBr_atts ht hatt hpa hpz, brText_woven hw h]
  · exact (Broken.text ha (.text hb (broken_woven (.single ((brFree_tags tag ht).2.append hz)) hw h))).replace
  · intro v r e hv z' hr
    cases v with
    | nil => exact hv rfl
    | cons y v =>
      rw [e, List.cons_append, List.tail_cons, containsStr_iff.2 ⟨v, z', by rw [hr]⟩] at hzc
      cases hzc

theorem free_brk_woven {br t : Str} (hb : Free t!"<p>notelist" br) (hw : Woven t) : Free t!"<p>notelist" (brk br t) := by
  induction hw with
  | nil => exact Free.nil
  | @chr c t hlt _ ih =>
    by_cases hc : c = '\n'
    · subst hc; rw [brk_nl]; exact hb.append ih
    · rw [brk_cons hc]
      exact Free.append (a := [c]) (Free.of_head rfl (by simpa using Ne.symm hlt)) ih
  | @tag w t hi _ ih => rw [brk_append, brk_nonl hi.nonl]; exact hi.list.append ih

/-- No list of notes is asked for. -/
theorem nolist_woven {C : Ctx} {z tag att uid t : Str} (hw : Woven t) (hn : tag = t!"p" → att = [] → ¬ Spec.notelistWord <+: t)
    (hz : free t!"<p>notelist" z = true) (htag : tag ∈ brTags) (ha : TagText uid att) :
    containsStr t!"<p>notelist" (openTagA tag att ++ (brk C.cfg.brTag t ++ (closeTag tag ++ z))) = false := by
  have hbr : Free t!"<p>notelist" C.cfg.brTag := by rcases brTag_cases C.cfg with e | e <;> rw [e] <;> exact Free.of (by decide)
  have hb := free_brk_woven hbr hw
  have hc : Free t!"<p>notelist" (closeTag tag) := by
    simp only [brTags, List.mem_cons, List.not_mem_nil, or_false] at htag
    rcases htag with rfl | rfl | rfl | rfl | rfl | rfl | rfl <;> exact Free.of (by decide)
  by_cases he : tag = t!"p" ∧ att = []
  · obtain ⟨rfl, rfl⟩ := he
    rw [openTagA_nil]
    have hbh : ∃ b, C.cfg.brTag = '<' :: b := by rcases brTag_cases C.cfg with e | e <;> exact ⟨_, e⟩
    refine not_contains_cons (t := t!"p>" ++ (brk C.cfg.brTag t ++ (closeTag t!"p" ++ z))) ?_
      (not_contains_of_free (by simp) ((Free.of (by decide)).append (hb.append (hc.append (Free.of hz)))))
    intro hp
    rw [List.cons_append, List.cons_append] at hp
    simp only [List.cons_prefix_cons, true_and, List.nil_append] at hp
    exact hn rfl rfl (prefix_brk (r := t!"/p>" ++ z) hbh (by decide) (by decide) hp)
  · exact not_contains_of_free (by simp) ((free_notelist_open htag ha (fun e e' => he ⟨e, e'⟩)).append (hb.append (hc.append (Free.of hz))))

/-- What is known of the text of a block after `graf`. -/
structure BodyOut (C : Ctx) (u : Str) (k : Nat) (σ σ' : PState) (H : Str) : Prop where
  woven : Woven u
  lined : lined u = true
  ne : u ≠ []
  grow : Grows C.cfg.uid σ σ'
  index : σ'.refIndex ≤ σ.refIndex + 2 * k
  rep : ∀ τ : PState, Agrees C.cfg.uid σ' τ → σ'.refIndex < 2 ^ 32 → Rep C.cfg.uid τ (brk C.cfg.brTag u) H

/-- The same with the text before `graf`. -/
structure Body (C : Ctx) (src u : Str) (k : Nat) (σ σ' : PState) (H : Str) : Prop extends BodyOut C u k σ σ' H where
  runs : Runs C (graf C C.fuel src) u σ σ'

/-- What happens to a block. -/
structure BodyTo (C : Ctx) (b : Str) (n : Nat) (σ σ' : PState) (q h : Str) : Prop where
  step : StepTo C b σ σ' q
  grow : Grows C.cfg.uid σ σ'
  index : σ'.refIndex ≤ σ.refIndex + 2 * n
  rep : ∀ τ : PState, Agrees C.cfg.uid σ' τ → σ'.refIndex < 2 ^ 32 → Rep C.cfg.uid τ q h
  nolist : containsStr t!"<p>notelist" q = false

theorem tagText_nil (uid : Str) (h : uid ≠ []) : TagText uid [] :=
  ⟨by simp, by simp, .inl rfl, by cases uid with | nil => exact absurd rfl h | cons c t => rfl⟩

/-- The parts of `BodyTo` that are the same for all kinds of paragraphs and headings. -/
theorem BodyOut.element {C : Ctx} {base : Str} (D : DocCtx C base) {u : Str} {k : Nat} {σ σ' : PState} {H b tag att : Str}
    (hm : BodyOut C u k σ σ' H) (ht : tag ∈ brTags) (hT : TagText (uidOf base) att)
    (hn : tag = t!"p" → att = [] → ¬ Spec.notelistWord <+: u) (hb : trim b ≠ [])
    (hbody : ∀ s : BlkSt, s.ext = [] → s.tag = t!"p" → s.atts = [] → s.cite = none → s.eat = false →
      ∃ s1 anon, Runs C (blockBody C (graf C C.fuel) s b) (s1, anon, openTagA tag att ++ (u ++ closeTag tag)) σ σ' ∧ s1.ext = [] ∧ s1.eat = false ∧
        s1.out = s.out ∧ s1.whitespace = s.whitespace ∧ s1.eatWs = s.eatWs) :
    BodyTo C b k σ σ' (openTagA tag att ++ (brk C.cfg.brTag u ++ closeTag tag)) (openTagA tag att ++ (H ++ closeTag tag)) where
  step := by
    refine step_of_body (o := openTagA tag att ++ (u ++ closeTag tag)) hb ?_ hbody
    have := br_woven (C := C) (a := []) (z := []) (tag := tag) ht hT.nogt (brFree_open (brFree_start tag ht) hT.nolt) hm.woven hm.lined
      (.of_lt (by simp)) (.of_lt (by simp)) rfl rfl (by
      simp only [brTags, List.mem_cons, List.not_mem_nil, or_false] at ht
      rcases ht with rfl | rfl | rfl | rfl | rfl | rfl | rfl <;> decide)
    simpa using this
  grow := hm.grow
  index := hm.index
  rep := by
    intro τ h1 h2
    have h3 := (hm.rep τ h1 h2).append ((Rep.nil (uid := C.cfg.uid) (σ := τ)).text (tag_nocolon tag ht).2)
    rw [D.uid] at h3 ⊢
    have := Rep.openTagA D.plain (tag := tag) ((by decide : ∀ tag ∈ brTags, ':' ∉ tag) tag ht) hT h3
    simpa using this
  nolist := by
    have := nolist_woven (C := C) (z := []) hm.woven hn rfl ht hT
    simpa using this

/-- A paragraph without block tag. -/
theorem body_para {C : Ctx} {base : Str} (D : DocCtx C base) {src u : Str} {k : Nat} {σ σ' : PState} {H : Str}
    (hm : Body C src u k σ σ' H) (hb : Begins C src) (hw : (blockTagRe C).captures C.U src = none)
    (hraw : hasRawText C.U u = true) (hnl : ¬ Spec.notelistWord <+: u) :
    ∃ q, BodyTo C src k σ σ' q (openTag t!"p" ++ (H ++ closeTag t!"p")) := by
  obtain ⟨c, v, hcu, hc⟩ := hb.first
  have := hm.element D (b := src) (tag := t!"p") (by decide) (tagText_nil (uidOf base) (by simp [uidOf])) (fun _ _ => hnl)
    (by rw [hcu]; exact trim_ne hc) ?_
  · rw [openTagA_nil] at this; exact ⟨_, this⟩
  · intro s h1 h2 h3 h4 h5
    rw [blockBody_anonymous hw (.inr ⟨?_, hb.divider⟩)]
    · rw [h2, h3, h4, openTagA_nil]
      refine ⟨{ s with tag := t!"p", atts := [], cite := none, eat := false, lastClosing := [] }, true,
        (runs_blockNew (by decide) hb.ne hb.note hm.runs).bind ?_, ?_⟩
      · simp only [hraw]
        have : u.isEmpty = false := by simpa using hm.ne
        simp only [this, Bool.not_true, Bool.and_false, Bool.or_false, Bool.false_eq_true, if_false]
        rw [List.append_assoc]
        exact Runs.pure _ _
      · exact ⟨h1, rfl, rfl, rfl, rfl⟩
    · rw [hcu]
      have : c ≠ ' ' := by rintro rfl; revert hc; decide
      simp [startsWith, List.isPrefixOf, this.symm]

/-- A paragraph or heading with a block tag and attributes. -/
theorem body_styled {C : Ctx} {base : Str} (D : DocCtx C base) {tag src u : Str} {k : Nat} {σ σ' : PState} {H : Str}
    {a : Spec.Atts} (ha : a.Ok) (hclean : containsStr C.cfg.uid a.source = false) (hbe : a.Before src)
    (hm : Body C src u k σ σ' H) (hb : Begins C src)
    (ht : tag ∈ brTags) (ht' : tag ∈ plainTags C.cfg.lite) (hnl : tag = t!"p" → ¬ Spec.notelistWord <+: u) :
    ∃ q, BodyTo C (tag ++ (a.source ++ (t!". " ++ src))) k σ σ' q
      (openTagA tag (a.html C.cfg.restricted) ++ (H ++ closeTag tag)) := by
  have hT : TagText (uidOf base) (a.html C.cfg.restricted) := atts_tagText D.plain ha (by rw [← D.uid]; exact hclean) _
  obtain ⟨m, hm', g1, g2, g3, g4, g5⟩ := styled_captures C D.uni ht' ha hbe
  refine ⟨_, hm.element D ht hT (fun e _ => hnl e) ?_ ?_⟩
  · simp only [brTags, List.mem_cons, List.not_mem_nil, or_false] at ht
    rcases ht with rfl | rfl | rfl | rfl | rfl | rfl | rfl <;> exact trim_ne (by decide)
  · intro s h1 h2 h3 h4 h5
    rw [blockBody_tagged hm', g1, g2, g3, g4, g5]
    refine ⟨{ s with tag := tag, atts := a.source, ext := [], cite := none, eat := false, lastClosing := [] }, false,
      (runs_styled D.uni ha ht hb.ne hb.note hm.runs).bind ?_, ?_⟩
    · rw [h1]
      simp only [List.isEmpty_nil, if_true, List.nil_append, List.append_nil]
      rw [List.append_assoc]
      exact Runs.pure _ _
    · exact ⟨rfl, rfl, rfl, rfl, rfl⟩

end Rustextile
