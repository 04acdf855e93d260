import Verif.StyledBlock

/-!
# Documents with attributes
-/

namespace Rustextile

open Prog

theorem free_notelist_open {uid tag att : Str} (ht : tag ∈ brTags) (h : TagText uid att) (hne : tag = t!"p" → att ≠ []) :
    Free t!"<p>notelist" (openTagA tag att) := by
  by_cases hp : tag = t!"p"
  · subst hp
    rcases h.start with e | ⟨u, e⟩
    · exact absurd e (hne rfl)
    · rw [e]
      have := (Free.of (n := t!"<p>notelist") (w := t!"<p ") (by decide)).append (Free.of_head (w := u ++ t!">") rfl (by
        have := h.nolt; rw [e] at this; simp at this ⊢; exact this))
      simpa [openTagA] using this
  · refine free_open ?_ rfl h.nolt
    simp only [brTags, List.mem_cons, List.not_mem_nil, or_false] at ht
    rcases ht with rfl | rfl | rfl | rfl | rfl | rfl | rfl
    · exact absurd rfl hp
    all_goals exact Free.of (by decide)

/-- A paragraph or heading with attributes has no `<p>notelist` in it. -/
theorem nolist_styled {C : Ctx} {base w0 z tag att uid : Str} {xs : List (Itm × Str)} (ht : ∀ p ∈ xs, p.1.isRaw = false)
    (hA : mixA.Over (w0 ++ mix (uidOf base) [] xs)) (hs : xs ≠ [] → AfterGap w0.reverse) (hn : tag = t!"p" → ¬ Spec.notelistWord <+: w0)
    (hz : free t!"<p>notelist" z = true) (htag : tag ∈ brTags) (ha : TagText uid att) :
    containsStr t!"<p>notelist" (openTagA tag att ++ (brk C.cfg.brTag (w0 ++ mix (uidOf base) [] xs) ++ (closeTag tag ++ z))) = false := by
  by_cases he : tag = t!"p" ∧ att = []
  · obtain ⟨rfl, rfl⟩ := he
    rw [openTagA_nil]
    exact nolist_p ht hA hs (hn rfl) hz
  · have hbr : Free t!"<p>notelist" C.cfg.brTag := by rcases brTag_cases C.cfg with e | e <;> rw [e] <;> exact Free.of (by decide)
    have hb := free_brk hbr rfl (fun h => Alpha.not_mem (A := mixA) (by decide) (by decide) (hA _ h))
    have hc : Free t!"<p>notelist" (closeTag tag) := by
      simp only [brTags, List.mem_cons, List.not_mem_nil, or_false] at htag
      rcases htag with rfl | rfl | rfl | rfl | rfl | rfl | rfl <;> exact Free.of (by decide)
    exact not_contains_of_free (by simp) ((free_notelist_open htag ha (fun e e' => he ⟨e, e'⟩)).append (hb.append (hc.append (Free.of hz))))

theorem inline_styled {C : Ctx} {base : Str} (D : DocCtx C base) {tag src w0 : Str} {P : List Part} {k : Nat} {σ σ1 : PState} {H : Str}
    {a : Spec.Atts} (ha : a.Ok) (hclean : containsStr C.cfg.uid a.source = false) (hbe : a.Before src)
    (hs : Source C src w0 P k σ σ1 H) (hb : Begins C src)
    (ht : tag ∈ brTags) (ht' : tag ∈ plainTags C.cfg.lite) (hnl : tag = t!"p" → ¬ Spec.notelistWord <+: w0)
    (hd : σ.spanDepth + 1 ≤ C.cfg.maxSpanDepth) :
    ∃ σ' q, BlockTo C (tag ++ (a.source ++ (t!". " ++ src))) k σ σ' q
      (openTagA tag (a.html C.cfg.restricted) ++ (H ++ closeTag tag)) := by
  obtain ⟨xs, σ', hm⟩ := marked_text D hs hd
  have hT : TagText (uidOf base) (a.html C.cfg.restricted) := atts_tagText D.plain ha (by rw [← D.uid]; exact hclean) _
  refine ⟨σ', openTagA tag (a.html C.cfg.restricted) ++ (brk C.cfg.brTag (w0 ++ mix (uidOf base) [] xs) ++ closeTag tag), ?_, hm.grow,
    hm.aux, hm.index, ?_, ?_⟩
  · obtain ⟨m, hm', g1, g2, g3, g4, g5⟩ := styled_captures C D.uni ht' ha hbe
    refine step_of_body (o := openTagA tag (a.html C.cfg.restricted) ++ (w0 ++ mix (uidOf base) [] xs ++ closeTag tag)) ?_ ?_ ?_
    · simp only [brTags, List.mem_cons, List.not_mem_nil, or_false] at ht
      rcases ht with rfl | rfl | rfl | rfl | rfl | rfl | rfl <;> exact trim_ne (by decide)
    · have := br_mixed_atts D.uni (a := []) (z := []) (tag := tag) ht hT.nogt (brFree_open (brFree_start tag ht) hT.nolt) hm.over hm.lined
        (.of_lt (by simp)) (.of_lt (by simp)) rfl rfl (by
        simp only [brTags, List.mem_cons, List.not_mem_nil, or_false] at ht
        rcases ht with rfl | rfl | rfl | rfl | rfl | rfl | rfl <;> decide)
      simpa using this
    · intro s h1 h2 h3 h4 h5
      rw [blockBody_tagged hm', g1, g2, g3, g4, g5]
      refine ⟨{ s with tag := tag, atts := a.source, ext := [], cite := none, eat := false, lastClosing := [] }, false,
        (runs_styled D.uni ha ht hb.ne hb.note hm.runs).bind ?_, ?_⟩
      · rw [h1]
        simp only [List.isEmpty_nil, if_true, List.nil_append, List.append_nil]
        rw [List.append_assoc]
        exact Runs.pure _ _
      · exact ⟨rfl, rfl, rfl, rfl, rfl⟩
  · intro τ h1 h2
    have h3 := (hm.rep τ h1 h2).append ((Rep.nil (uid := C.cfg.uid) (σ := τ)).text (tag_nocolon tag ht).2)
    rw [D.uid] at h3 ⊢
    have := Rep.openTagA D.plain (tag := tag) ((by decide : ∀ tag ∈ brTags, ':' ∉ tag) tag ht) hT h3
    simpa using this
  · have := nolist_styled (C := C) (z := []) hm.toks hm.over hm.start hnl rfl ht hT
    simpa using this

theorem inline_styled_quote {C : Ctx} {base : Str} (D : DocCtx C base) {src w0 : Str} {P : List Part} {k : Nat} {σ σ1 : PState} {H : Str}
    {a : Spec.Atts} (ha : a.Ok) (hclean : containsStr C.cfg.uid a.source = false) (hbe : a.Before src)
    (hs : Source C src w0 P k σ σ1 H)
    (hnl : ¬ Spec.notelistWord <+: w0) (hd : σ.spanDepth + 1 ≤ C.cfg.maxSpanDepth) :
    ∃ σ' q, BlockTo C (t!"bq" ++ (a.source ++ (t!". " ++ src))) k σ σ' q
      (openTagA t!"blockquote" (a.html C.cfg.restricted) ++ (t!"\n\t" ++ (openTagA t!"p" (a.html C.cfg.restricted) ++
        (H ++ (closeTag t!"p" ++ t!"\n</blockquote>"))))) := by
  obtain ⟨xs, σ', hm⟩ := marked_text D hs hd
  have hT : TagText (uidOf base) (a.html C.cfg.restricted) := atts_tagText D.plain ha (by rw [← D.uid]; exact hclean) _
  generalize hat : a.html C.cfg.restricted = att at *
  have hlt : '<' ∉ att ++ t!">\n\t" := by simp [hT.nolt]
  have hA : ∀ {n : Str}, n.head? = some '<' → Free n t!"<blockquote" → Free n (openTagA t!"blockquote" att ++ t!"\n\t") := by
    intro n hn hf
    have := hf.append (Free.of_head hn hlt)
    simpa [openTagA] using this
  refine ⟨σ', openTagA t!"blockquote" att ++ (t!"\n\t" ++ (openTagA t!"p" att ++ (brk C.cfg.brTag (w0 ++ mix (uidOf base) [] xs) ++
    (closeTag t!"p" ++ t!"\n</blockquote>")))), ?_, hm.grow, hm.aux, hm.index, ?_, ?_⟩
  · obtain ⟨m, hm', g1, g2, g3, g4, g5⟩ := styled_captures C D.uni (tag := t!"bq") (t := src)
      (by unfold plainTags; split <;> decide) ha hbe
    refine step_of_body (o := openTagA t!"blockquote" att ++ (t!"\n\t" ++ (openTagA t!"p" att ++ (w0 ++ mix (uidOf base) [] xs ++
      (closeTag t!"p" ++ t!"\n</blockquote>"))))) (trim_ne (by decide)) ?_ ?_
    · have := br_mixed_atts D.uni (a := openTagA t!"blockquote" att ++ t!"\n\t") (z := t!"\n</blockquote>") (tag := t!"p") (by decide) hT.nogt
        (brFree_open (brFree_start _ (by decide)) hT.nolt) hm.over hm.lined
        ⟨hA rfl (Free.of (by decide)), hA rfl (Free.of (by decide)), hA rfl (Free.of (by decide)), hA rfl (Free.of (by decide))⟩
        (brFree_decide (by decide)) (noPTag_free (hA rfl (Free.of (by decide))) (hA rfl (Free.of (by decide)))) rfl (by decide)
      simpa using this
    · intro s h1 h2 h3 h4 h5
      rw [blockBody_tagged hm', g1, g2, g3, g4, g5]
      have hr := runs_styled_quote D.uni ha hm.runs
      rw [hat] at hr
      refine ⟨{ s with tag := t!"bq", atts := a.source, ext := [], cite := none, eat := false, lastClosing := t!"\n</blockquote>" }, false,
        hr.bind ?_, ?_⟩
      · rw [h1]
        have e : ∀ x : Str, openTagA t!"blockquote" att ++ t!"\n" ++ '\t' :: openTagA t!"p" att ++ x ++ t!"</p>" ++ t!"\n</blockquote>" =
          openTagA t!"blockquote" att ++ (t!"\n\t" ++ (openTagA t!"p" att ++ (x ++ (closeTag t!"p" ++ t!"\n</blockquote>")))) := by
          intro x; simp [closeTag]
        simp only [List.isEmpty_nil, if_true, e]
        exact Runs.pure _ _
      · exact ⟨rfl, rfl, rfl, rfl, rfl⟩
  · intro τ h1 h2
    have h3 := (hm.rep τ h1 h2).append ((Rep.nil (uid := C.cfg.uid) (σ := τ)).text (w := closeTag t!"p" ++ t!"\n</blockquote>") (by decide))
    rw [D.uid] at h3 ⊢
    have := Rep.openTagA D.plain (tag := t!"blockquote") (by decide) hT
      ((Rep.openTagA D.plain (tag := t!"p") (by decide) hT h3).text (w := t!"\n\t") (by decide))
    simpa using this
  · have h1 := nolist_styled (C := C) (z := t!"\n</blockquote>") (tag := t!"p") hm.toks hm.over hm.start (fun _ => hnl) (by decide) (by decide) hT
    have h2 : containsStr t!"<p>notelist" (openTagA t!"blockquote" att) = false :=
      not_contains_of_free (by simp) (free_open (Free.of (by decide)) rfl hT.nolt)
    exact containsStr_sep (c := '\n') (b := '\t' :: _) (by decide) (by simp) h2
        (containsStr_sep (a := []) (c := '\t') (by decide) (by simp) (by decide) h1)

/-! ## Code and verbatim blocks -/

theorem codeLang_shape : CODE_LANG_RE = .seq .bot (.seq (.seq (.set false [.range 'a' 'z', .range 'A' 'Z', .range '0' '9', .chr '_', .chr '-'])
    (.star true (.set false [.range 'a' 'z', .range 'A' 'Z', .range '0' '9', .chr '_', .chr '-']))) .eot) := by kernel_rfl

theorem codeLang_match {U : Uni} {l : Str} (hne : l ≠ []) (h : ∀ c ∈ l, Spec.NameChar c) : CODE_LANG_RE.isMatch U l = true := by
  have hs : ∀ x ∈ l, evalSet U false [.range 'a' 'z', .range 'A' 'Z', .range '0' '9', .chr '_', .chr '-'] x = true := by
    intro x hx
    exact List.all_eq_true.1 (show nameChars.all (evalSet U false [.range 'a' 'z', .range 'A' 'Z', .range '0' '9', .chr '_', .chr '-']) = true
      by kernel_rfl) x (name_mem (h x hx))
  obtain ⟨c, u, rfl⟩ := List.exists_cons_of_ne_nil hne
  rw [codeLang_shape]
  have hb : Has U .bot [] [] (c :: u) := fun s => ⟨s, by simp [Re.all]⟩
  have he : Has U .eot ((c :: u).reverse ++ []) [] [] := fun s => ⟨s, by simp [Re.all]⟩
  have h1 : Has U (.seq (.set false [.range 'a' 'z', .range 'A' 'Z', .range '0' '9', .chr '_', .chr '-'])
    (.star true (.set false [.range 'a' 'z', .range 'A' 'Z', .range '0' '9', .chr '_', .chr '-']))) [] ([c] ++ u) ([] ++ []) :=
    Has.seq (Has.set (hs c (by simp))) (Has.star (fun x hx => hs x (by simp [hx])))
  have := Has.seq (v := (c :: u) ++ []) (rest := []) (by simpa using hb) (Has.seq h1 he)
  have := Has.isMatch this
  simpa using this

theorem noLang_cls (a : Spec.Atts) : a.noLang.cls = a.cls := by
  unfold Spec.Atts.cls Spec.Atts.noLang
  simp only
  induction a.groups with
  | nil => rfl
  | cons g gs ih =>
    cases g with
    | classes n i => simp only [List.filter_cons, if_true, List.findSome?_cons, ih]
    | style ds => simp_all
    | lang l => simp_all

theorem noLang_id (a : Spec.Atts) : a.noLang.id = a.id := by
  unfold Spec.Atts.id Spec.Atts.noLang
  simp only
  induction a.groups with
  | nil => rfl
  | cons g gs ih =>
    cases g with
    | classes n i => simp only [List.filter_cons, if_true, List.findSome?_cons, ih]
    | style ds => simp_all
    | lang l => simp_all

theorem noLang_declarations (a : Spec.Atts) : a.noLang.declarations = a.declarations := by
  unfold Spec.Atts.declarations Spec.Atts.noLang
  simp only
  induction a.groups with
  | nil => rfl
  | cons g gs ih => cases g <;> simp_all

theorem noLang_language (a : Spec.Atts) : a.noLang.language = none := by
  unfold Spec.Atts.language Spec.Atts.noLang
  simp only
  induction a.groups with
  | nil => rfl
  | cons g gs ih => cases g <;> simp_all

theorem noLang_layout (a : Spec.Atts) : a.noLang.layout = a.layout := rfl

theorem noLang_ok {a : Spec.Atts} (h : a.Ok) : a.noLang.Ok := by
  refine ⟨fun g hg => h.1 g (List.mem_filter.1 hg).1, ?_⟩
  exact List.Nodup.sublist (List.Sublist.map _ List.filter_sublist) h.2

theorem noLang_atts (r : Bool) (a : Spec.Atts) : attsOf r a.noLang = { attsOf r a with lang := none } := by
  unfold attsOf
  rw [noLang_cls, noLang_id, noLang_declarations, noLang_language, noLang_layout]

/-- The language as a class. -/
def langAtts (a : Spec.Atts) : Spec.Atts :=
  { groups := match a.language with | none => [] | some l => [.classes l none] }

theorem language_ok {a : Spec.Atts} (h : a.Ok) {l : Str} (hl : a.language = some l) : l ≠ [] ∧ ∀ c ∈ l, Spec.NameChar c := by
  obtain ⟨g, h1, e⟩ := List.exists_of_findSome?_eq_some hl
  cases g with
  | classes n i => simp at e
  | style ds => simp at e
  | lang x =>
    simp only [Option.some.injEq] at e
    subst e
    exact h.1 _ h1

theorem langAtts_ok {a : Spec.Atts} (h : a.Ok) : (langAtts a).Ok := by
  unfold langAtts
  cases hl : a.language with
  | none => exact ⟨by simp, by simp⟩
  | some l =>
    obtain ⟨h1, h2⟩ := language_ok h hl
    refine ⟨?_, by simp⟩
    intro g hg
    simp only [List.mem_singleton] at hg
    subst hg
    exact ⟨fun c hc => .inl (h2 c hc), fun e => absurd e h1, by simp⟩

theorem langAtts_html {a : Spec.Atts} (h : a.Ok) : (langAtts a).html false = Spec.attr t!"class" a.language := by
  unfold langAtts
  cases hl : a.language with
  | none => rfl
  | some l =>
    have := (language_ok h hl).1
    simp [Spec.Atts.html, Spec.Atts.cls, Spec.Atts.id, Spec.Atts.language, Spec.Atts.declarations, Spec.Atts.layout, this, Spec.attr]

/-- The tags and the text of a code or verbatim block. -/
def rawOpen (r : Bool) (tag : Str) (a : Spec.Atts) : Str :=
  if tag = t!"bc" then openTagA t!"pre" (a.noLang.html r) ++ openTagA t!"code" (Spec.attr t!"class" a.language)
  else if tag = t!"pre" then openTagA t!"pre" (a.html r) else []

def rawClose (tag : Str) : Str :=
  if tag = t!"bc" then t!"</code></pre>" else if tag = t!"pre" then t!"</pre>" else []

def rawValue (tag t : Str) : Str := if tag = t!"notextile" then t else encodeHtml t true false

theorem runs_raw {C : Ctx} (hU : UniOk C.U) {g : Str → Prog Str} {tag t : Str} {a : Spec.Atts} (h : a.Ok) {σ : PState}
    (ht : tag ∈ [t!"bc", t!"pre", t!"notextile"])
    (hg : ∀ σ n, Runs C (g (shelfKey C.cfg.uid n)) (shelfKey C.cfg.uid n) σ σ) :
    Runs C (blockNew C g tag a.source none t)
      { outerOpening := rawOpen C.cfg.restricted tag a, outerClosing := rawClose tag
        content := shelfKey C.cfg.uid (σ.refIndex + 1) } σ (σ.shelved C.cfg.uid (rawValue tag t)) := by
  unfold blockNew
  rw [parseAttrs_atts hU h, pure_bind]
  have hp : tag ≠ t!"p" := by rintro rfl; revert ht; decide
  have h3 : blockTagsOf C tag (attsOf C.cfg.restricted a) (attsOf C.cfg.restricted a) none t = (do
      let tok ← shelveP (rawValue tag t)
      pure { outerOpening := rawOpen C.cfg.restricted tag a, outerClosing := rawClose tag, content := tok }) := by
    simp only [List.mem_cons, List.not_mem_nil, or_false] at ht
    rcases ht with rfl | rfl | rfl
    · have e1 : HtmlAttrs.toStr ({ attsOf C.cfg.restricted a with lang := none } : BAttrs).html = a.noLang.html C.cfg.restricted := by
        rw [← noLang_atts]; exact atts_text (noLang_ok h) _
      have e2 : HtmlAttrs.toStr (match (attsOf C.cfg.restricted a).lang with
          | some lang => if CODE_LANG_RE.isMatch C.U lang then ({ cls := some lang } : BAttrs).html else []
          | none => []) = Spec.attr t!"class" a.language := by
        rw [show (attsOf C.cfg.restricted a).lang = a.language from rfl]
        rw [← langAtts_html h, ← atts_text (langAtts_ok h)]
        cases hl : a.language with
        | none => simp only [langAtts, hl]; rfl
        | some l =>
          obtain ⟨h1, h2⟩ := language_ok h hl
          simp only [codeLang_match h1 h2, if_true]
          have : attsOf false (langAtts a) = { cls := some l } := by
            have e : langAtts a = { groups := [.classes l none] } := by simp [langAtts, hl]
            rw [e]
            simp [attsOf, Spec.Atts.cls, Spec.Atts.id, Spec.Atts.language, Spec.Atts.declarations, Spec.Atts.layout, h1]
          rw [this]; rfl
      have : blockTagsOf C t!"bc" (attsOf C.cfg.restricted a) (attsOf C.cfg.restricted a) none t = (do
          let tok ← shelveP (encodeHtml t true false)
          pure { outerOpening := t!"<pre" ++ HtmlAttrs.toStr ({ attsOf C.cfg.restricted a with lang := none } : BAttrs).html ++ t!"><code" ++
                  HtmlAttrs.toStr (match (attsOf C.cfg.restricted a).lang with
                  | some lang => if CODE_LANG_RE.isMatch C.U lang then ({ cls := some lang } : BAttrs).html else []
                  | none => []) ++ t!">"
                 outerClosing := t!"</code></pre>", content := tok }) := rfl
      rw [this, e1, e2]
      simp [rawOpen, rawClose, rawValue, openTagA]
    · have : blockTagsOf C t!"pre" (attsOf C.cfg.restricted a) (attsOf C.cfg.restricted a) none t = (do
          let tok ← shelveP (encodeHtml t true false)
          pure { outerOpening := t!"<pre" ++ (attsOf C.cfg.restricted a).toStr ++ t!">", outerClosing := t!"</pre>", content := tok }) := rfl
      rw [this, atts_text h]
      simp [rawOpen, rawClose, rawValue, openTagA]
    · rfl
  rw [if_neg hp, pure_bind, if_neg (fun h => hp h.1), notFootnote ((by decide : ∀ tag ∈ [t!"bc", t!"pre", t!"notextile"], tag ∈ plainTags false) tag ht), pure_bind]
  simp only [h3, LawfulMonad.bind_assoc, pure_bind]
  refine (Runs.shelve _ _ _).bind ?_
  simp only [Bool.false_eq_true, if_false]
  exact (hg _ _).bind (Runs.pure _ _)

theorem attr_last (k : Str) (o : Option Str) : Spec.attr k o = [] ∨ ∃ u, Spec.attr k o = u ++ ['"'] := by
  cases o with
  | none => exact .inl rfl
  | some v => exact .inr ⟨' ' :: (k ++ (t!"=\"" ++ v)), by simp [Spec.attr]⟩

theorem html_last (r : Bool) (a : Spec.Atts) : a.html r = [] ∨ ∃ u, a.html r = u ++ ['"'] := by
  have ha : ∀ {x y : Str}, (x = [] ∨ ∃ u, x = u ++ ['"']) → (y = [] ∨ ∃ u, y = u ++ ['"']) → (x ++ y = [] ∨ ∃ u, x ++ y = u ++ ['"']) := by
    intro x y hx hy
    rcases hy with rfl | ⟨u, rfl⟩
    · rw [List.append_nil]; exact hx
    · exact .inr ⟨x ++ u, by simp⟩
  exact ha (attr_last _ _) (ha (attr_last _ _) (ha (attr_last _ _) (attr_last _ _)))

/-- A text in a tag of its own that is set aside. -/
theorem Rep.inTag {base : Str} {σ : PState} {tag att v r h : Str} {n : Nat} (hb : Spec.PlainBase base) (htag : ':' ∉ tag)
    (ha : TagText (uidOf base) att) (hl : att = [] ∨ ∃ u, att = u ++ ['"'])
    (hv : alLookup (shelfKey (uidOf base) n) σ.shelf = some v) (hc : containsStr (uidOf base) v = false) (hr : Rep (uidOf base) σ r h) :
    Rep (uidOf base) σ (Rustextile.openTagA tag att ++ (shelfKey (uidOf base) n ++ ('<' :: r))) (Rustextile.openTagA tag att ++ (v ++ ('<' :: h))) := by
  have hne : uidOf base ≠ [] := by simp [uidOf]
  have hnil : containsStr (uidOf base) [] = false := containsStr_false_of_mem (c := ':') (by simp [uidOf]) (by simp)
  have hs : Sealed (uidOf base) ('>' :: (v ++ ['<'])) := by
    refine ⟨⟨_, _, rfl, by decide⟩, ⟨'>' :: v, '<', rfl, by decide⟩, ?_⟩
    exact containsStr_sep (a := []) (sep_uid hb (by decide)) hne hnil (containsStr_sep (sep_uid hb (by decide)) hne hc hnil)
  have h6 : RepK (uidOf base) σ 0 (fun _ => True) (['>'] ++ (v ++ ['<'])) ('>' :: (v ++ ['<'])) := by
    have := RepK.chunk (d := 0) (P := fun _ => True) (σ := σ) hs .nil
    simpa using this
  have h7 : Rep (uidOf base) σ (['>'] ++ (shelfKey (uidOf base) n ++ (['<'] ++ r))) (('>' :: (v ++ ['<'])) ++ h) :=
    RepK.key (a := ['>']) (z := ['<']) (d := 2) (e := 0) (by omega) (fun _ => trivial) hv (by decide) (by decide) h6 hr
  have h8 : Rep (uidOf base) σ (('<' :: (tag ++ att)) ++ (['>'] ++ (shelfKey (uidOf base) n ++ (['<'] ++ r))))
      (('<' :: (tag ++ att)) ++ (('>' :: (v ++ ['<'])) ++ h)) := by
    rcases hl with rfl | ⟨u, rfl⟩
    · exact h7.text (by simp [htag])
    · refine RepK.chunk ⟨⟨_, _, rfl, by decide⟩, ⟨'<' :: (tag ++ u), '"', by simp, by decide⟩, ?_⟩ h7
      rcases ha.start with e | ⟨w, e⟩
      · simp at e
      · rw [e]
        have h1 : containsStr (uidOf base) w = false := clean_of_infix ha.clean ⟨[' '], [], by simp [e]⟩
        have := containsStr_sep (c := ' ') (a := '<' :: tag) (sep_uid hb (by decide)) hne
          (containsStr_false_of_mem (c := ':') (by simp [uidOf]) (by simp [htag])) h1
        simpa using this
  simpa [Rustextile.openTagA] using h8

theorem raw_tagText {base : Str} (hb : Spec.PlainBase base) {a : Spec.Atts} (h : a.Ok) (hc : containsStr (uidOf base) a.source = false) (r : Bool) :
    TagText (uidOf base) (a.noLang.html r) ∧ TagText (uidOf base) (Spec.attr t!"class" a.language) := by
  constructor
  · refine atts_tagText' hb (noLang_ok h) ?_ r
    rw [noLang_cls, noLang_id, noLang_declarations, noLang_language]
    intro v hv
    refine clean_of_infix hc (att_value_infix ?_)
    rcases hv with hv | hv | hv | hv
    · exact .inl hv
    · exact .inr (.inl hv)
    · cases hv
    · exact .inr (.inr (.inr hv))
  · rw [← langAtts_html h]
    refine atts_tagText hb (langAtts_ok h) ?_ false
    unfold langAtts
    cases hl : a.language with
    | none => exact containsStr_false_of_mem (c := ':') (by simp [uidOf]) (by simp [Spec.Atts.source, Spec.Atts.marks])
    | some l =>
      refine containsStr_false_of_mem (c := ':') (by simp [uidOf]) ?_
      intro hm
      simp [Spec.Atts.source, Spec.Atts.marks, Spec.Group.source] at hm
      have := name_mem ((language_ok h hl).2 _ hm)
      revert this; decide +kernel

theorem step_raw {C : Ctx} {base : Str} (D : DocCtx C base) {tag t : Str} {a : Spec.Atts} (h : a.Ok)
    (hc : containsStr C.cfg.uid a.source = false) (hbe : a.Before t)
    (ht : tag ∈ [t!"bc", t!"pre", t!"notextile"]) (ht' : tag ∈ plainTags C.cfg.lite) (σ : PState) :
    StepTo C (tag ++ (a.source ++ (t!". " ++ t))) σ (σ.shelved C.cfg.uid (rawValue tag t))
      (rawOpen C.cfg.restricted tag a ++ (shelfKey C.cfg.uid (σ.refIndex + 1) ++ rawClose tag)) ∧
    containsStr t!"<p>notelist" (rawOpen C.cfg.restricted tag a ++ (shelfKey C.cfg.uid (σ.refIndex + 1) ++ rawClose tag)) = false := by
  obtain ⟨m, hm, g1, g2, g3, g4, g5⟩ := styled_captures C D.uni ht' h hbe
  have hT := atts_tagText D.plain h (by rw [← D.uid]; exact hc) C.cfg.restricted
  obtain ⟨hT1, hT2⟩ := raw_tagText D.plain h (by rw [← D.uid]; exact hc) C.cfg.restricted
  have hk := key_nolt D (σ.refIndex + 1)
  have hf : ∀ {n : Str}, n.head? = some '<' → Free n t!"<pre" → Free n t!"<code" → Free n (rawOpen C.cfg.restricted tag a) := by
    intro n hn h1 h2
    unfold rawOpen
    split
    · exact (free_open h1 hn hT1.nolt).append (free_open h2 hn hT2.nolt)
    · split
      · exact free_open h1 hn hT.nolt
      · exact Free.nil
  have hz : ∀ {n : Str}, free n t!"</code></pre>" = true ∧ free n t!"</pre>" = true → Free n (rawClose tag) := by
    intro n hn
    unfold rawClose
    split
    · exact Free.of hn.1
    · split
      · exact Free.of hn.2
      · exact Free.nil
  have hall : ∀ {n : Str}, n.head? = some '<' → free n t!"<pre" = true ∧ free n t!"<code" = true → free n t!"</code></pre>" = true ∧ free n t!"</pre>" = true →
      Free n (rawOpen C.cfg.restricted tag a ++ (shelfKey C.cfg.uid (σ.refIndex + 1) ++ rawClose tag)) := by
    intro n hn h1 h2
    exact (hf hn (Free.of h1.1) (Free.of h1.2)).append ((Free.of_head hn hk).append (hz h2))
  refine ⟨step_of_body (o := rawOpen C.cfg.restricted tag a ++ (shelfKey C.cfg.uid (σ.refIndex + 1) ++ rawClose tag)) ?_ ?_ ?_,
    not_contains_of_free (by simp) (hall rfl (by decide) (by decide))⟩
  · simp only [List.mem_cons, List.not_mem_nil, or_false] at ht
    rcases ht with rfl | rfl | rfl <;> exact trim_ne (by decide)
  · rw [doPBr_noclose (not_contains_of_free (by simp) (hall rfl (by decide) (by decide)))
      (not_contains_of_free (by simp) (hall rfl (by decide) (by decide)))]
    exact Broken.replace (Broken.single ⟨hall rfl (by decide) (by decide), hall rfl (by decide) (by decide),
      hall rfl (by decide) (by decide), hall rfl (by decide) (by decide)⟩)
  · intro s h1 h2 h3 h4 h5
    rw [blockBody_tagged hm, g1, g2, g3, g4, g5]
    refine ⟨{ s with tag := tag, atts := a.source, ext := [], cite := none, eat := false, lastClosing := rawClose tag }, false,
      (runs_raw D.uni h ht (fun σ n => (leaves_key D.uni (by have := D.fuel; omega) D.plain D.uid n).runs σ)).bind ?_, ?_⟩
    · rw [h1]
      simp only [List.isEmpty_nil, if_true, List.append_nil]
      rw [List.append_assoc]
      exact Runs.pure _ _
    · exact ⟨rfl, rfl, rfl, rfl, rfl⟩

theorem rep_raw {C : Ctx} {base : Str} (D : DocCtx C base) {tag t : Str} {a : Spec.Atts} (h : a.Ok)
    (hc : containsStr C.cfg.uid a.source = false) (ht : tag ∈ [t!"bc", t!"pre", t!"notextile"]) (hct : containsStr C.cfg.uid t = false)
    (hv : tag = t!"notextile" → ':' ∉ t ∨ Sealed C.cfg.uid t) {τ : PState} {n : Nat}
    (hl : alLookup (shelfKey C.cfg.uid n) τ.shelf = some (rawValue tag t)) :
    Rep C.cfg.uid τ (rawOpen C.cfg.restricted tag a ++ (shelfKey C.cfg.uid n ++ rawClose tag))
      (rawOpen C.cfg.restricted tag a ++ (rawValue tag t ++ rawClose tag)) := by
  have hT := atts_tagText D.plain h (by rw [← D.uid]; exact hc) C.cfg.restricted
  obtain ⟨hT1, hT2⟩ := raw_tagText D.plain h (by rw [← D.uid]; exact hc) C.cfg.restricted
  obtain ⟨c1, c2, -, -, -, -, c7, -⟩ := uid_chars D.plain
  rw [D.uid] at hl hct hv ⊢
  have hr : ∀ w : Str, ':' ∉ w → Rep (uidOf base) τ w w := by
    intro w hw
    have := (Rep.nil (uid := uidOf base) (σ := τ)).text hw
    simpa using this
  simp only [List.mem_cons, List.not_mem_nil, or_false] at ht
  rcases ht with rfl | rfl | rfl
  · have := Rep.inTag D.plain (tag := t!"code") (by decide) hT2 (attr_last _ _) hl (containsStr_enc c1 c2 c7 hct) (hr t!"/code></pre>" (by decide))
    have := Rep.openTagA D.plain (tag := t!"pre") (by decide) hT1 this
    simpa [rawOpen, rawClose, rawValue] using this
  · have := Rep.inTag D.plain (tag := t!"pre") (by decide) hT (html_last _ _) hl (containsStr_enc c1 c2 c7 hct) (hr t!"/pre>" (by decide))
    simpa [rawOpen, rawClose, rawValue] using this
  · have := Rep.shelf (r := []) (h := []) hl (by simpa [rawValue] using hv rfl) Rep.nil
    simpa [rawOpen, rawClose, rawValue] using this

end Rustextile
