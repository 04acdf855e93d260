import Verif.TagAtts
import Verif.Act
import Verif.SpecDocs

/-!
# Blocks with attributes
-/

namespace Rustextile

open Prog

/-! ## Opening tags with attributes -/

def openTagA (tag att : Str) : Str := '<' :: (tag ++ (att ++ t!">"))

theorem openTagA_nil (tag : Str) : openTagA tag [] = openTag tag := by simp [openTagA, openTag]

def pTagRe : Re := .alt (.set false [.chr 'p']) (.seq (.set false [.chr 'h']) (.set false [.range '1' '6']))

theorem pOpen_shape : pOpen = .seq (.set false [.chr '<']) (.seq (.grp 1 pTagRe)
    (.seq (.grp 2 (.star false (.set true [.chr '>']))) (.set false [.chr '>']))) := rfl

theorem pTagRe_lang (U : Uni) : ∀ tag ∈ brTags, pTagRe.lang U tag := by
  intro tag h
  simp only [brTags, List.mem_cons, List.not_mem_nil, or_false] at h
  have hs : ∀ d, evalSet U false [.range '1' '6'] d = true → pTagRe.lang U ['h', d] :=
    fun d hd => .inr ⟨['h'], [d], rfl, ⟨'h', rfl, by rw [evalSet_chr]; rfl⟩, ⟨d, rfl, hd⟩⟩
  rcases h with rfl | rfl | rfl | rfl | rfl | rfl | rfl
  · exact .inl ⟨'p', rfl, by rw [evalSet_chr]; rfl⟩
  all_goals exact hs _ rfl

theorem pTagRe_uniq {U : Uni} {w tag x y : Str} (hw : pTagRe.lang U w) (ht : tag ∈ brTags) (e : w ++ x = tag ++ y) : w = tag := by
  rcases hw with ⟨c, rfl, hc⟩ | ⟨_, _, rfl, ⟨c, rfl, hc⟩, ⟨d, rfl, hd⟩⟩ <;> rw [evalSet_chr, beq_iff_eq] at hc <;> subst hc <;>
    simp only [brTags, List.mem_cons, List.not_mem_nil, or_false] at ht
  · rcases ht with rfl | rfl | rfl | rfl | rfl | rfl | rfl <;> simp at e ⊢
  · rcases ht with rfl | rfl | rfl | rfl | rfl | rfl | rfl <;> simp at e ⊢ <;> exact e.1

theorem pOpen_atts (U : Uni) {pre t tag att : Str} (ht : tag ∈ brTags) (ha : '>' ∉ att) : ∃ l,
    pOpen.all U ⟨pre, openTagA tag att ++ t⟩ [] = (⟨(openTagA tag att).reverse ++ pre, t⟩, [(2, att), (1, tag)]) :: l := by
  have hset : ∀ c ∈ att, evalSet U true [.chr '>'] c = true := by
    intro c hc
    have : c ≠ '>' := by rintro rfl; exact ha hc
    have h2 := evalSet_chr U '>' c
    simp only [evalSet, List.any_cons, List.any_nil, Bool.or_false] at h2 ⊢
    simp at h2
    simp [h2, this]
  have hx : Takes U pOpen pre (openTagA tag att) t [] [(2, att), (1, tag)] := by
    rw [pOpen_shape]
    refine .mkSeq (u := ['<']) (v := tag ++ (att ++ t!">")) .mkChr (.mkSeq (u := tag) (.mkGrp (.of_lang (by decide) (pTagRe_lang U tag ht))) (.mkSeq (u := att) (.mkGrp (.of_lang (by decide) ?_)) .mkChr))
    refine ⟨att.map (fun c => [c]), (flatten_singles att).symm, ?_⟩
    intro w hw
    obtain ⟨c, hc, rfl⟩ := List.mem_map.1 hw
    exact ⟨c, rfl, hset c hc⟩
  have huniq : ∀ p ∈ pOpen.all U ⟨pre, openTagA tag att ++ t⟩ [], p = (⟨(openTagA tag att).reverse ++ pre, t⟩, [(2, att), (1, tag)]) := by
    rintro ⟨c, s⟩ hp
    obtain ⟨w, rest, e1, e2, h1⟩ := Takes.of_mem hp
    simp only at e2 h1
    rw [pOpen_shape] at h1
    obtain ⟨u, v, s1, rfl, h2, h3⟩ := h1.seq
    obtain ⟨rfl, rfl⟩ := h2.chr
    obtain ⟨w1, v1, s2, rfl, h4, h5⟩ := h3.seq
    obtain ⟨s3, h4', rfl⟩ := h4.grp
    have : s3 = [] := h4'.nogrp (by decide)
    subst this
    obtain ⟨w2, v2, s4, rfl, h6, h7⟩ := h5.seq
    obtain ⟨s5, h6', rfl⟩ := h6.grp
    have : s5 = _ := h6'.nogrp (by decide)
    subst this
    obtain ⟨rfl, rfl⟩ := h7.chr
    have e3 : w1 = tag := pTagRe_uniq h4'.lang ht (x := w2 ++ ('>' :: rest)) (y := att ++ ('>' :: t)) (by simpa [openTagA] using e1.symm)
    subst e3
    have e4 : att ++ '>' :: t = w2 ++ '>' :: rest := by simpa [openTagA] using e1
    have hw2 : '>' ∉ w2 := by
      intro hm
      obtain ⟨ws, e5, h8⟩ := h6'.lang
      rw [e5] at hm
      obtain ⟨z, hz, hm⟩ := List.mem_flatten.1 hm
      obtain ⟨c, rfl, hc⟩ := h8 z hz
      rw [List.mem_singleton] at hm
      subst hm
      simp [evalSet, Item.eval] at hc
    obtain ⟨rfl, e5⟩ := run_split (S := ['>']) (a := att) (b := w2) (by intro c hc hm; simp at hm; exact ha (hm ▸ hc))
      (by intro c hc hm; simp at hm; exact hw2 (hm ▸ hc)) (by simp) (by simp) e4
    simp at e5
    subst e5
    rw [e2]
    simp [openTagA]
  cases hl : pOpen.all U ⟨pre, openTagA tag att ++ t⟩ [] with
  | nil => unfold Takes at hx; rw [hl] at hx; cases hx
  | cons p l => rw [huniq p (by rw [hl]; simp)]; exact ⟨l, rfl⟩

theorem TAG_P_match_atts {U : Uni} {pre t z tag att : Str} (ht : tag ∈ brTags) (ha : '>' ∉ att)
    (hz : ∀ v r, closeTag tag ++ z = v ++ r → v ≠ [] → ∀ z', r ≠ closeTag tag ++ z') :
    TAG_P_RE.matchAt U ⟨pre, openTagA tag att ++ (t ++ (closeTag tag ++ z))⟩ =
      some (⟨(closeTag tag).reverse ++ (t.reverse ++ ((openTagA tag att).reverse ++ pre)), z⟩,
        [(4, closeTag tag), (3, t), (2, att), (1, tag)]) := by
  obtain ⟨l0, hl0⟩ := pOpen_atts U (pre := pre) (t := t ++ (closeTag tag ++ z)) ht ha
  rw [Re.matchAt_eq, TAG_P_all, hl0]
  rw [List.flatMap_cons]
  have h3 : between ⟨(openTagA tag att).reverse ++ pre, t ++ (closeTag tag ++ z)⟩
      ⟨t.reverse ++ ((openTagA tag att).reverse ++ pre), closeTag tag ++ z⟩ = t :=
    Adv.between (w := t) ⟨rfl, rfl⟩
  obtain ⟨l, hl⟩ := star_any_then (U := U) (s := [(2, att), (1, tag)]) (w := t) (pre := (openTagA tag att).reverse ++ pre)
    (rest := closeTag tag ++ z)
    (x := ((⟨(closeTag tag).reverse ++ (t.reverse ++ ((openTagA tag att).reverse ++ pre)), z⟩ : Cur),
        ([(4, closeTag tag), (3, t), (2, att), (1, tag)] : Caps))) (l := [])
    (fun q => pClose.all U q.1 ((3, between ⟨(openTagA tag att).reverse ++ pre, t ++ (closeTag tag ++ z)⟩ q.1) :: q.2))
    (by
      intro v r e hv
      refine pClose_miss U (tag := tag) (by simp [alLookup]) ?_
      exact hz v r e hv)
    (by
      simp only [h3]
      exact pClose_hit U (by simp [alLookup]))
  rw [hl]; rfl

theorem doPBr_atts {C : Ctx} {a t z tag att : Str} (ht : tag ∈ brTags) (hatt : '>' ∉ att)
    (ha : noPTag a = true) (hz : noPTag z = true) (hzc : ∀ v r, closeTag tag ++ z = v ++ r → v ≠ [] → ∀ z', r ≠ closeTag tag ++ z') :
    doPBr C (a ++ (openTagA tag att ++ (t ++ (closeTag tag ++ z)))) =
      a ++ (openTagA tag att ++ (brText C t ++ (closeTag tag ++ z))) := by
  unfold doPBr
  refine Re.replaceAll_eq TAG_P_nonnull (g := fun w s =>
    let text := BR_NL_RE.replaceTempl C.U t!"\n" (capGrp w s 3)
    let text := NEWLINE_RE.replaceTempl C.U C.cfg.brTag text
    t!"<" ++ capGrp w s 1 ++ capGrp w s 2 ++ t!">" ++ text ++ capGrp w s 4) (fun m => rfl) ?_
  refine Scan.of_skips (noPTag_skips (by simp [openTagA]) ha) ?_
  have hm := TAG_P_match_atts (U := C.U) (pre := a.reverse ++ []) (t := t) ht hatt hzc
  have e : openTagA tag att ++ (t ++ (closeTag tag ++ z)) = (openTagA tag att ++ (t ++ closeTag tag)) ++ z := by simp
  rw [e] at hm ⊢
  have := Scan.hit (g := fun w s =>
    let text := BR_NL_RE.replaceTempl C.U t!"\n" (capGrp w s 3)
    let text := NEWLINE_RE.replaceTempl C.U C.cfg.brTag text
    t!"<" ++ capGrp w s 1 ++ capGrp w s 2 ++ t!">" ++ text ++ capGrp w s 4)
    (r := TAG_P_RE) (U := C.U) (pre := a.reverse ++ []) (w := openTagA tag att ++ (t ++ closeTag tag)) (rest := z)
    (s := [(4, closeTag tag), (3, t), (2, att), (1, tag)]) (out := z) (by rw [hm]; simp) (by simp [openTagA])
    (Scan.of_none (noPTag_search hz))
  simp only [capGrp, Mat.grp, Mat.get?, alLookup] at this
  simpa [brText, openTagA, capGrp, Mat.grp, Mat.get?] using this

/-- A text that can follow the name in an opening tag. -/
structure TagText (uid att : Str) : Prop where
  nolt : '<' ∉ att
  nogt : '>' ∉ att
  start : att = [] ∨ ∃ u, att = ' ' :: u
  clean : containsStr uid att = false

theorem free_open {n tag att : Str} (ht : Free n ('<' :: tag)) (hn : n.head? = some '<') (h : '<' ∉ att) : Free n (openTagA tag att) := by
  have := ht.append (Free.of_head (w := att ++ t!">") hn (by simp [h]))
  simpa [openTagA] using this

theorem brFree_open {tag att : Str} (ht : BrFree ('<' :: tag)) (h : '<' ∉ att) : BrFree (openTagA tag att) :=
  ⟨free_open ht.1 rfl h, free_open ht.2.1 rfl h, free_open ht.2.2.1 rfl h, free_open ht.2.2.2 rfl h⟩

theorem brFree_start : ∀ tag ∈ brTags, BrFree ('<' :: tag) := by
  intro tag h
  simp only [brTags, List.mem_cons, List.not_mem_nil, or_false] at h
  rcases h with rfl | rfl | rfl | rfl | rfl | rfl | rfl <;> exact brFree_decide (by decide)

theorem br_mixed_atts {C : Ctx} (hU : UniOk C.U) {a z tag att t : Str} (ht : tag ∈ brTags) (hatt : '>' ∉ att) (hb : BrFree (openTagA tag att))
    (hA : mixA.Over t) (h : lined t = true)
    (ha : BrFree a) (hz : BrFree z) (hpa : noPTag a = true) (hpz : noPTag z = true)
    (hzc : containsStr (closeTag tag) (closeTag tag ++ z).tail = false) :
    BR_TAG_RE.replaceTempl C.U C.cfg.brTag (doPBr C (a ++ (openTagA tag att ++ (t ++ (closeTag tag ++ z))))) =
      a ++ (openTagA tag att ++ (brk C.cfg.brTag t ++ (closeTag tag ++ z))) := by
  rw [doPBr_atts ht hatt hpa hpz, brText_brk hU hA h]
  · refine (Broken.text ha (.text hb (broken_brk (.single ((brFree_tags tag ht).2.append hz)) h ?_))).replace
    intro hc
    exact Alpha.not_mem (A := mixA) (by decide) (by decide) (hA _ hc)
  · intro v r e hv z' hr
    cases v with
    | nil => exact hv rfl
    | cons y v =>
      rw [e, List.cons_append, List.tail_cons, containsStr_iff.2 ⟨v, z', by rw [hr]⟩] at hzc
      cases hzc

/-! ## The text of the attributes -/

theorem clean_of_infix {uid v w : Str} (h : containsStr uid w = false) (hi : v <:+: w) : containsStr uid v = false := by
  cases hc : containsStr uid v with
  | false => rfl
  | true =>
    obtain ⟨a, b, e⟩ := containsStr_iff.1 hc
    obtain ⟨x, y, e'⟩ := hi
    rw [containsStr_iff.2 ⟨x ++ a, b ++ y, by rw [← e', e]; simp⟩] at h
    exact h

theorem clean_attr {base k : Str} (hb : Spec.PlainBase base) (hk : ':' ∉ k) {o : Option Str} {rest : Str}
    (ho : ∀ v, o = some v → containsStr (uidOf base) v = false) (hr : containsStr (uidOf base) rest = false) :
    containsStr (uidOf base) (Spec.attr k o ++ rest) = false := by
  cases o with
  | none => exact hr
  | some v =>
    have hq : '"' ∉ uidOf base := sep_uid hb (by decide)
    have hne : uidOf base ≠ [] := by simp [uidOf]
    have h1 : containsStr (uidOf base) ((' ' :: k) ++ ['=']) = false :=
      containsStr_false_of_mem (c := ':') (by simp [uidOf]) (by simp [hk])
    have := containsStr_sep hq hne h1 (containsStr_sep hq hne (ho v rfl) hr)
    simpa [Spec.attr] using this

theorem clean_join {base : Str} (hb : Spec.PlainBase base) {rest : Str} (hr : containsStr (uidOf base) rest = false) :
    ∀ {ds : List Str}, (∀ d ∈ ds, containsStr (uidOf base) d = false) → containsStr (uidOf base) (Spec.join t!"; " ds ++ ';' :: rest) = false
  | [], _ => containsStr_sep (a := []) (sep_uid hb (by decide)) (by simp [uidOf]) rfl hr
  | [d], h => containsStr_sep (sep_uid hb (by decide)) (by simp [uidOf]) (h d (by simp)) hr
  | d :: e :: ds, h => by
    have ih := clean_join hb hr (ds := e :: ds) (fun x hx => h x (by simp [hx]))
    have hne : uidOf base ≠ [] := by simp [uidOf]
    have := containsStr_sep (c := ';') (sep_uid hb (by decide)) hne (h d (by simp))
      (containsStr_sep (a := []) (c := ' ') (sep_uid hb (by decide)) hne rfl ih)
    simpa [Spec.join] using this

theorem att_value_infix {a : Spec.Atts} {v : Str} (hv : a.cls = some v ∨ a.id = some v ∨ a.language = some v ∨ v ∈ a.declarations) :
    v <:+: a.source := by
  have hg : ∀ g ∈ a.groups, v <:+: g.source → v <:+: a.source := by
    intro g hg hi
    refine hi.trans ?_
    obtain ⟨x, y, e⟩ := List.append_of_mem hg
    exact ⟨a.marks ++ x.flatMap Spec.Group.source, y.flatMap Spec.Group.source, by simp [Spec.Atts.source, e]⟩
  rcases hv with hv | hv | hv | hv
  · obtain ⟨g, h1, e⟩ := List.exists_of_findSome?_eq_some hv
    refine hg g h1 ?_
    cases g with
    | classes n i =>
      by_cases hn : n = []
      · simp [hn] at e
      · simp only [hn, if_false, Option.some.injEq] at e
        subst e
        cases i with
        | none => exact ⟨['('], [')'], by simp [Spec.Group.source]⟩
        | some i => exact ⟨['('], ['#'] ++ (i ++ [')']), by simp [Spec.Group.source]⟩
    | style ds => simp at e
    | lang l => simp at e
  · obtain ⟨g, h1, e⟩ := List.exists_of_findSome?_eq_some hv
    refine hg g h1 ?_
    cases g with
    | classes n i =>
      simp only at e
      subst e
      exact ⟨['('] ++ (n ++ ['#']), [')'], by simp [Spec.Group.source]⟩
    | style ds => simp at e
    | lang l => simp at e
  · obtain ⟨g, h1, e⟩ := List.exists_of_findSome?_eq_some hv
    refine hg g h1 ?_
    cases g with
    | classes n i => simp at e
    | style ds => simp at e
    | lang l =>
      simp only [Option.some.injEq] at e
      subst e
      exact ⟨['['], [']'], by simp [Spec.Group.source]⟩
  · obtain ⟨g, h1, e⟩ := List.mem_flatMap.1 hv
    refine hg g h1 ?_
    cases g with
    | classes n i => simp at e
    | lang l => simp at e
    | style ds =>
      have hj : ∀ {ds : List Str}, v ∈ ds → v <:+: Spec.join t!";" ds := by
        intro ds
        induction ds with
        | nil => intro h; cases h
        | cons d ds ih =>
          intro h
          cases ds with
          | nil => rw [List.mem_singleton] at h; rw [h]; exact List.infix_rfl
          | cons e ds =>
            rcases List.mem_cons.1 h with rfl | h
            · exact ⟨[], ';' :: Spec.join t!";" (e :: ds), by simp [Spec.join]⟩
            · exact (ih h).trans ⟨d ++ t!";", [], by simp [Spec.join]⟩
      exact (hj e).trans ⟨['{'], ['}'], by simp [Spec.Group.source]⟩

theorem layout_clean {base : Str} {a : Spec.Atts} {d : Str} (hd : d ∈ a.layout) : containsStr (uidOf base) d = false := by
  apply containsStr_false_of_mem (c := 'R') (by simp [uidOf])
  intro hc
  have hnum : ∀ n, 'R' ∉ Spec.numeral n := by
    intro n h
    rw [natStr_numeral] at h
    have := natStr_digits n _ h
    revert this; decide
  simp only [Spec.Atts.layout, List.mem_append] at hd
  rcases hd with hd | hd | hd
  · split at hd
    · cases hd
    · simp only [List.mem_singleton] at hd
      subst hd
      simp [hnum, Spec.paddingLeft] at hc
  · split at hd
    · cases hd
    · simp only [List.mem_singleton] at hd
      subst hd
      simp [hnum, Spec.paddingRight] at hc
  · split at hd
    · cases hd
    · rename_i x _
      simp only [List.mem_singleton] at hd
      subst hd
      revert hc
      cases x <;> decide

theorem atts_tagText' {base : Str} (hb : Spec.PlainBase base) {a : Spec.Atts} (h : a.Ok)
    (hv : ∀ v, a.cls = some v ∨ a.id = some v ∨ a.language = some v ∨ v ∈ a.declarations → containsStr (uidOf base) v = false)
    (r : Bool) : TagText (uidOf base) (a.html r) := by
  have hval : ∀ {c : Char}, c ∉ styleChars ++ t!";" → c ∉ t!"classidangtye=\" " → c ∉ a.html r := by
    intro c h1 h2 hm
    have hat : ∀ {k : Str} {o : Option Str}, (∀ x ∈ k, x ∈ t!"classidangtye=\" ") → (∀ v, o = some v → ∀ x ∈ v, x ∈ styleChars ++ t!";") →
        c ∉ Spec.attr k o := by
      intro k o hk ho hm
      cases o with
      | none => cases hm
      | some v =>
        simp only [Spec.attr, List.mem_append] at hm
        rcases hm with hm | hm | hm | hm | hm
        · rw [List.mem_singleton] at hm; subst hm; exact h2 (by decide)
        · exact h2 (hk c hm)
        · exact h2 ((by decide : ∀ x ∈ ['=', '"'], x ∈ t!"classidangtye=\" ") c hm)
        · exact h1 (ho v rfl c hm)
        · rw [List.mem_singleton] at hm; subst hm; exact h2 (by decide)
    have up : ∀ {c : Char}, c ∈ styleChars → c ∈ styleChars ++ t!";" := fun h => List.mem_append_left _ h
    simp only [Spec.Atts.html, List.mem_append] at hm
    rcases hm with hm | hm | hm | hm
    · refine hat (by decide) ?_ hm
      intro v hv x hx
      cases r
      · exact up (cls_mem h (.inl hv) x hx)
      · cases hv
    · refine hat (by decide) ?_ hm
      intro v hv x hx
      cases r
      · exact up (cls_mem h (.inr (.inl hv)) x hx)
      · cases hv
    · exact hat (by decide) (fun v hv x hx => up (cls_mem h (.inr (.inr hv)) x hx)) hm
    · refine hat (by decide) ?_ hm
      intro v hv
      by_cases hs : (if r = true then [] else a.declarations) ++ a.layout = []
      · rw [if_pos hs] at hv; cases hv
      · rw [if_neg hs, Option.some.injEq] at hv; subst hv; exact styleText_mem h r
  refine ⟨hval (by decide +kernel) (by decide), hval (by decide +kernel) (by decide), ?_, ?_⟩
  · have hs : ∀ k o, Spec.attr k o = [] ∨ ∃ u, Spec.attr k o = ' ' :: u := by
      intro k o
      cases o with
      | none => exact .inl rfl
      | some v => exact .inr ⟨_, rfl⟩
    have ha : ∀ {x y : Str}, (x = [] ∨ ∃ u, x = ' ' :: u) → (y = [] ∨ ∃ u, y = ' ' :: u) → (x ++ y = [] ∨ ∃ u, x ++ y = ' ' :: u) := by
      intro x y hx hy
      rcases hx with rfl | ⟨u, rfl⟩
      · exact hy
      · exact .inr ⟨_, rfl⟩
    exact ha (hs _ _) (ha (hs _ _) (ha (hs _ _) (hs _ _)))
  · have hnil : containsStr (uidOf base) [] = false := containsStr_false_of_mem (c := ':') (by simp [uidOf]) (by simp)
    unfold Spec.Atts.html
    refine clean_attr hb (by decide) ?_ (clean_attr hb (by decide) ?_ (clean_attr hb (by decide) ?_ ?_))
    · intro v h; cases r
      · exact hv v (.inl h)
      · cases h
    · intro v h; cases r
      · exact hv v (.inr (.inl h))
      · cases h
    · intro v h; exact hv v (.inr (.inr (.inl h)))
    · have := clean_attr hb (k := t!"style") (by decide) (o := if (if r = true then [] else a.declarations) ++ a.layout = [] then none
        else some (Spec.join t!"; " ((if r = true then [] else a.declarations) ++ a.layout) ++ t!";")) (rest := []) ?_ hnil
      · rw [List.append_nil] at this; exact this
      · intro v he
        by_cases hs : (if r = true then [] else a.declarations) ++ a.layout = []
        · rw [if_pos hs] at he; cases he
        · rw [if_neg hs, Option.some.injEq] at he
          subst he
          refine clean_join hb hnil ?_
          intro d hd
          rcases List.mem_append.1 hd with hd | hd
          · cases r
            · exact hv d (.inr (.inr (.inr hd)))
            · cases hd
          · exact layout_clean hd

theorem atts_tagText {base : Str} (hb : Spec.PlainBase base) {a : Spec.Atts} (h : a.Ok) (hc : containsStr (uidOf base) a.source = false)
    (r : Bool) : TagText (uidOf base) (a.html r) :=
  atts_tagText' hb h (fun _ hv => clean_of_infix hc (att_value_infix hv)) r

/-- An opening tag stands for itself. -/
theorem Rep.openTagA {base : Str} {σ : PState} {tag att r h : Str} (hb : Spec.PlainBase base) (htag : ':' ∉ tag) (ha : TagText (uidOf base) att)
    (hr : Rep (uidOf base) σ r h) : Rep (uidOf base) σ (openTagA tag att ++ r) (openTagA tag att ++ h) := by
  refine RepK.chunk ?_ hr
  have hne : uidOf base ≠ [] := by simp [uidOf]
  have hl : containsStr (uidOf base) ('<' :: tag) = false := containsStr_false_of_mem (c := ':') (by simp [uidOf]) (by simp [htag])
  have hnil : containsStr (uidOf base) [] = false := containsStr_false_of_mem (c := ':') (by simp [uidOf]) (by simp)
  have : containsStr (uidOf base) ('<' :: ((tag ++ att) ++ ['>'])) = false := by
    rcases ha.start with e | ⟨u, e⟩
    · rw [e]
      exact containsStr_false_of_mem (c := ':') (by simp [uidOf]) (by simp [htag])
    · have h1 : containsStr (uidOf base) u = false := clean_of_infix ha.clean ⟨[' '], [], by simp [e]⟩
      have := containsStr_sep (c := ' ') (sep_uid hb (by decide)) hne hl (containsStr_sep (c := '>') (sep_uid hb (by decide)) hne h1 hnil)
      rw [e]; simpa using this
  have := Sealed.tag this
  simpa [Rustextile.openTagA] using this

/-! ## The source of the attributes -/

theorem plainTags_lang (b : Bool) (U : Uni) : ∀ tag ∈ plainTags b, (tagWords b).lang U tag := by
  have key : ∀ tag ∈ plainTags b, ((tagWords b).all U ⟨[], tag⟩ []).head? = some (⟨tag.reverse, []⟩, []) := by
    intro tag h
    cases b
    · simp only [plainTags, Bool.false_eq_true, if_false, List.mem_cons, List.not_mem_nil, or_false] at h
      rcases h with h | h | h | h | h | h | h | h | h | h | h | h <;> subst h <;> kernel_rfl
    · simp only [plainTags, if_true, List.mem_cons, List.not_mem_nil, or_false] at h
      rcases h with h | h | h <;> subst h <;> kernel_rfl
  intro tag h
  have : Takes U (tagWords b) [] tag [] [] [] := by
    unfold Takes
    rw [List.append_nil, List.append_nil]
    exact List.mem_of_head? (key tag h)
  exact this.lang

theorem atts_mem {a : Spec.Atts} (h : a.Ok) {c : Char} (hc : c ∈ a.source) : c ∈ styleChars ++ t!";<>=(){}[]" := by
  rcases List.mem_append.1 hc with hc | hc
  · exact (by decide +kernel : ∀ c ∈ t!"<>=()", c ∈ styleChars ++ t!";<>=(){}[]") c (marks_mem hc)
  · obtain ⟨g, hg, hc⟩ := List.mem_flatMap.1 hc
    rcases group_mem (h.1 g hg) hc with h1 | h1
    · rcases List.mem_append.1 h1 with h1 | h1
      · exact List.mem_append_left _ h1
      · rw [List.mem_singleton] at h1; subst h1; exact List.mem_append_right _ (by decide)
    · apply List.mem_append_right
      revert h1
      cases g.kind <;> rintro (rfl | rfl) <;> decide

theorem atts_not {a : Spec.Atts} (h : a.Ok) {c : Char} (hc : c ∉ styleChars ++ t!";<>=(){}[]") : c ∉ a.source := fun hm => hc (atts_mem h hm)

/-- Every bracket is closed. -/
def Shut (w : Str) : Prop := ∀ a o b, w = a ++ o :: b → o ∈ t!"([{" → closerOf o ∈ b

theorem Shut.append {u v : Str} (h : Shut u) (h' : Shut v) : Shut (u ++ v) := by
  intro a o b e ho
  rcases List.append_eq_append_iff.1 e with ⟨x, rfl, e2⟩ | ⟨x, rfl, e2⟩
  · exact h' x o b e2 ho
  · cases x with
    | nil => exact h' [] o b e2.symm ho
    | cons y x =>
      simp only [List.cons_append, List.cons.injEq] at e2
      obtain ⟨rfl, rfl⟩ := e2
      exact List.mem_append_left _ (h a o x rfl ho)

theorem Shut.flatMap {α : Type} {f : α → Str} : ∀ {l : List α}, (∀ x ∈ l, Shut (f x)) → Shut (l.flatMap f)
  | [], _ => by intro a o b e; simp at e
  | x :: l, h => by
    rw [List.flatMap_cons]
    exact (h x (by simp)).append (Shut.flatMap (fun y hy => h y (by simp [hy])))

theorem Shut.box {o : Char} {m : Str} (h : ∀ c ∈ m, c ∈ styleChars ++ t!";") : Shut (o :: (m ++ [closerOf o])) := by
  intro a x b e hx
  cases a with
  | nil =>
    simp only [List.nil_append, List.cons.injEq] at e
    obtain ⟨rfl, rfl⟩ := e
    simp
  | cons y a =>
    exfalso
    simp only [List.cons_append, List.cons.injEq] at e
    have hm : x ∈ m ++ [closerOf o] := by rw [e.2]; simp
    have h1 : ∀ x ∈ t!"([{", x ∉ styleChars ++ t!";" := by decide +kernel
    rcases List.mem_append.1 hm with hm | hm
    · exact h1 x hx (h x hm)
    · rw [List.mem_singleton] at hm
      unfold closerOf at hm
      subst hm
      revert hx
      split
      · decide
      · split <;> decide

theorem group_shut {g : Spec.Group} (h : g.Ok) : Shut g.source := by
  have hb : ∀ {o : Char} {m : Str}, g.source = o :: (m ++ [closerOf o]) → (∀ c ∈ m, c ∈ styleChars ++ t!";") → Shut g.source := by
    intro o m e hm
    rw [e]; exact Shut.box hm
  cases g with
  | classes n i =>
    have := clsText_style h
    refine hb (o := '(') (m := clsText n i) ?_ (fun c hc => List.mem_append_left _ (this c hc))
    cases i <;> simp [Spec.Group.source, clsText, closerOf]
  | style ds =>
    refine hb (o := '{') (m := Spec.join t!";" ds) (by simp [Spec.Group.source, closerOf]) ?_
    intro c hc
    have : c ∈ (Spec.Group.style ds).source := by simp [Spec.Group.source, hc]
    rcases group_mem h this with h1 | h1
    · exact h1
    · exfalso
      have hn : ∀ x ∈ t!"{}", x ∉ styleChars ++ t!";" := by decide +kernel
      refine join_nochar (c := c) (sep := [';']) ?_ (ls := ds) ?_ hc
      · rcases h1 with rfl | rfl <;> decide
      · intro d hd hcd
        have := List.mem_append_left t!";" (style_mem ((h.2 d hd).2.2.2 c hcd))
        rcases h1 with rfl | rfl
        · exact hn _ (by decide) this
        · exact hn _ (by decide) this
  | lang l =>
    refine hb (o := '[') (m := l) (by simp [Spec.Group.source, closerOf]) ?_
    intro c hc
    exact List.mem_append_left _ (List.mem_append_left _ (name_mem (h.2 c hc)))

/-- An unclosed bracket in the attributes is a padding. -/
theorem atts_open {a : Spec.Atts} (h : a.Ok) {x b : Str} {o : Char} (e : a.source = x ++ o :: b) (ho : o ∈ t!"([{") :
    closerOf o ∈ b ∨ (o = '(' ∧ a.left ≠ 0 ∧ ')' ∉ a.source) := by
  have hg : Shut (a.groups.flatMap Spec.Group.source) := Shut.flatMap (fun g hg => group_shut (h.1 g hg))
  have hin : ∀ y, a.marks = x ++ o :: y → closerOf o ∈ b ∨ (o = '(' ∧ a.left ≠ 0 ∧ ')' ∉ a.source) := by
    intro y e3
    have hom : o ∈ a.marks := by rw [e3]; simp
    have ho' : o = '(' := by
      have h1 := marks_mem hom
      revert h1 ho
      simp only [List.mem_cons, List.not_mem_nil, or_false]
      rintro (rfl | rfl | rfl) h1
      · rfl
      · revert h1; decide
      · revert h1; decide
    subst ho'
    rw [show closerOf '(' = ')' from rfl]
    by_cases hc : ')' ∈ a.source
    · left
      rw [e] at hc
      rcases List.mem_append.1 hc with hc | hc
      · exfalso
        rw [marks_eq] at e3
        have hal : ∀ c ∈ alignText a.align, c ≠ '(' ∧ c ≠ ')' := by
          intro c hc
          exact (by decide : ∀ c ∈ t!"<>=", c ≠ '(' ∧ c ≠ ')') c (align_mem hc)
        rcases List.append_eq_append_iff.1 e3 with ⟨u, rfl, e5⟩ | ⟨u, e4, e5⟩
        · rcases List.mem_append.1 hc with hc | hc
          · exact (hal _ hc).2 rfl
          · rcases List.append_eq_append_iff.1 e5 with ⟨v, rfl, e6⟩ | ⟨v, e6, e7⟩
            · have : '(' ∈ List.replicate a.right ')' := by rw [e6]; simp
              have := List.eq_of_mem_replicate this
              revert this; decide
            · have : ')' ∈ List.replicate a.left '(' := by rw [e6]; simp [hc]
              have := List.eq_of_mem_replicate this
              revert this; decide
        · exact (hal ')' (by rw [e4]; simp [hc])).2 rfl
      · rcases List.mem_cons.1 hc with hc | hc
        · exact absurd hc (by decide)
        · exact hc
    · refine .inr ⟨rfl, ?_, hc⟩
      intro h0
      rw [marks_eq] at hom
      rcases List.mem_append.1 hom with h1 | h1
      · have := align_mem h1; revert this; decide
      · rw [h0] at h1
        simp only [List.replicate_zero, List.nil_append] at h1
        have := List.eq_of_mem_replicate h1
        revert this; decide
  rcases List.append_eq_append_iff.1 (show a.marks ++ a.groups.flatMap Spec.Group.source = x ++ o :: b from e) with ⟨u, rfl, e2⟩ | ⟨u, e1, e2⟩
  · exact .inl (hg u o b e2 ho)
  · cases u with
    | nil =>
      exact .inl (hg [] o b e2.symm ho)
    | cons y u =>
      simp only [List.cons_append, List.cons.injEq] at e2
      obtain ⟨rfl, rfl⟩ := e2
      exact hin u e1

theorem styled_captures (C : Ctx) (hU : UniOk C.U) {tag t : Str} {a : Spec.Atts} (ht : tag ∈ plainTags C.cfg.lite) (h : a.Ok)
    (hb : a.Before t) : ∃ m, (blockTagRe C).captures C.U (tag ++ (a.source ++ (t!". " ++ t))) = some m ∧
      m.grp 1 = tag ∧ m.grp 2 = a.source ∧ m.grp 3 = [] ∧ m.get? 4 = none ∧ m.grp 5 = t := by
  have := tag_captures_atts C hU (tag := tag) (att := a.source) (t := t) (ext := false) (cite := none)
    (Takes.of_lang (by cases C.cfg.lite <;> decide +kernel) (plainTags_lang _ _ tag ht)) ?_
    (atts_not h (by decide +kernel)) (by simp) ?_
  · exact this
  · intro s
    refine atts_takes h ?_ (by simp)
    have : ∀ b, ∀ tag ∈ plainTags b, '<' ∉ tag := by decide
    intro e
    obtain ⟨u, hu⟩ := List.head?_eq_some_iff.1 e
    exact this _ tag ht (by rw [← List.mem_reverse, hu]; simp)
  · intro x o b e ho
    rcases atts_open h e ho with h1 | ⟨rfl, h2, h3⟩
    · exact .inl h1
    · refine .inr ⟨?_, by simp⟩
      rcases hb with h0 | h0 | h0
      · exact absurd h0 h2
      · exact absurd h0 h3
      · exact h0

/-! ## Blocks with attributes -/

theorem parseAttrs_atts {C : Ctx} (hU : UniOk C.U) {a : Spec.Atts} (h : a.Ok) :
    parseAttrs C a.source none = pure (attsOf C.cfg.restricted a) := by
  unfold parseAttrs
  rw [parse_atts hU h (by simp)]
  rfl

theorem notFootnote {C : Ctx} {tag attrs : Str} {a : BAttrs} (ht : tag ∈ plainTags false) (c : Str) :
    footnoteBlock C tag attrs a c = pure (tag, a, c) := by
  have : FNID_RE.captures C.U tag = none := by
    simp only [plainTags, Bool.false_eq_true, if_false, List.mem_cons, List.not_mem_nil, or_false] at ht
    rcases ht with rfl | rfl | rfl | rfl | rfl | rfl | rfl | rfl | rfl | rfl | rfl | rfl <;> kernel_rfl
  unfold footnoteBlock
  rw [this]

theorem runs_styled {C : Ctx} (hU : UniOk C.U) {g : Str → Prog Str} {tag t u : Str} {a : Spec.Atts} (h : a.Ok) {σ σ' : PState} (ht : tag ∈ brTags) (hne : t ≠ [])
    (hnd : NOTEDEF_RE.search C.U [] t = none) (hg : Runs C (g t) u σ σ') :
    Runs C (blockNew C g tag a.source none t)
      { innerOpening := openTagA tag (a.html C.cfg.restricted), innerClosing := closeTag tag, content := u } σ σ' := by
  unfold blockNew
  rw [parseAttrs_atts hU h, pure_bind]
  have h1 : (if tag = t!"p" then replaceP C NOTEDEF_RE (parseNoteDefs C g) t else pure t!"-" : Prog Str) =
      pure (if tag = t!"p" then t else t!"-") := by
    split
    · exact replaceP_none hnd
    · rfl
  rw [h1, pure_bind]
  rw [if_neg (by
    rintro ⟨h, h'⟩
    rw [if_pos h] at h'
    cases t
    · exact hne rfl
    · simp at h')]
  rw [notFootnote ((by decide : ∀ tag ∈ brTags, tag ∈ plainTags false) tag ht), pure_bind]
  have h3 : ∀ A : BAttrs, blockTagsOf C tag A A none t =
      pure { innerOpening := openTagA tag A.toStr, innerClosing := closeTag tag, content := t } := by
    intro A
    simp only [brTags, List.mem_cons, List.not_mem_nil, or_false] at ht
    rcases ht with rfl | rfl | rfl | rfl | rfl | rfl | rfl <;> simp [blockTagsOf, openTagA, closeTag]
  simp only [h3, pure_bind, atts_text h]
  exact hg.bind (Runs.pure _ _)

theorem runs_styled_quote {C : Ctx} (hU : UniOk C.U) {g : Str → Prog Str} {t u : Str} {a : Spec.Atts} (h : a.Ok) {σ σ' : PState}
    (hg : Runs C (g t) u σ σ') :
    Runs C (blockNew C g t!"bq" a.source none t)
      { outerOpening := openTagA t!"blockquote" (a.html C.cfg.restricted) ++ t!"\n", innerOpening := '\t' :: openTagA t!"p" (a.html C.cfg.restricted)
        innerClosing := t!"</p>", outerClosing := t!"\n</blockquote>", content := u } σ σ' := by
  unfold blockNew
  rw [parseAttrs_atts hU h, pure_bind]
  rw [if_neg (by decide), pure_bind, if_neg (by decide), notFootnote (by decide), pure_bind]
  have h3 : ∀ A : BAttrs, blockTagsOf C t!"bq" A A none t =
      pure { outerOpening := openTagA t!"blockquote" A.toStr ++ t!"\n", innerOpening := '\t' :: openTagA t!"p" A.toStr
             innerClosing := t!"</p>", outerClosing := t!"\n</blockquote>", content := t } := by
    intro A
    simp [blockTagsOf, openTagA, BAttrs.toStr]
  simp only [h3, pure_bind, atts_text h]
  exact hg.bind (Runs.pure _ _)

end Rustextile
