import Verif.SpecCite
import Verif.ClassDoc

/-!
# Quotations with addresses
-/

namespace Rustextile

open Prog

/-- The `cite` attribute, and those after it. -/
def citeAtt (u att : Str) : Str := t!" cite=\"" ++ (u ++ (t!"\"" ++ att))

theorem cite_captures (C : Ctx) (hU : UniOk C.U) {u t : Str} {a : Spec.Atts} (h : a.Ok) (hb : a.Before (u ++ t))
    (hu : u ≠ [] ∧ ∀ c ∈ u, isWs c = false) : ∃ m, (blockTagRe C).captures C.U (t!"bq" ++ (a.source ++ (t!".:" ++ (u ++ (t!" " ++ t))))) = some m ∧
      m.grp 1 = t!"bq" ∧ m.grp 2 = a.source ∧ m.grp 3 = [] ∧ m.get? 4 = some u ∧ m.grp 5 = t := by
  have := tag_captures_atts C hU (tag := t!"bq") (att := a.source) (t := t) (ext := false) (cite := some u)
    (Takes.of_lang (by cases C.cfg.lite <;> decide +kernel) (plainTags_lang _ _ t!"bq" (by cases C.cfg.lite <;> decide))) ?_
    (atts_not h (by decide +kernel)) (by rintro _ ⟨⟩; exact hu) ?_
  · simpa [tagMid, citeMid] using this
  · intro s
    exact atts_takes h (by decide) (by simp)
  · intro x o b e ho
    rcases atts_open h e ho with h1 | ⟨rfl, h2, h3⟩
    · exact .inl h1
    · have : ')' ∉ u ++ t := by
        rcases hb with h0 | h0 | h0
        · exact absurd h0 h2
        · exact absurd h0 h3
        · exact h0
      refine .inr ⟨?_, ?_⟩
      · rw [show closerOf '(' = ')' from rfl]; exact fun hc => this (by simp [hc])
      · rintro _ ⟨⟩; rw [show closerOf '(' = ')' from rfl]; exact fun hc => this (by simp [hc])

theorem insert_cite (v : Str) {a : Spec.Atts} (r : Bool) :
    HtmlAttrs.insert t!"cite" v (attsOf r a).html = (t!"cite", v) :: (attsOf r a).html := by
  have key : ∀ c i l s : Option Str, HtmlAttrs.insert t!"cite" v ({ cls := c, id := i, lang := l, style := s } : BAttrs).html =
      (t!"cite", v) :: ({ cls := c, id := i, lang := l, style := s } : BAttrs).html := by
    intro c i l s
    rw [toStr_four]
    cases c <;> cases i <;> cases l <;> cases s <;> rfl
  exact key _ _ _ _

/-- The block that is made of a quotation with an address. -/
def citeBlk (open' att u : Str) : Blk :=
  { outerOpening := openTagA t!"blockquote" open' ++ t!"\n", innerOpening := '\t' :: openTagA t!"p" att
    innerClosing := t!"</p>", outerClosing := t!"\n</blockquote>", content := u }

theorem runs_cited {C : Ctx} {base : Str} (D : DocCtx C base) {g : Str → Prog Str} {t u url href : Str} {a : Spec.Atts} (h : a.Ok) {σ σ' : PState}
    (hu : url ≠ []) (hr : C.cfg.restricted = true → '&' ∉ url) (hl : Spec.Reads C.E.urlParse C.E.urlJoin url href) (hs : Spec.NoSpacers href)
    (hg : Runs C (g t) u (σ.cached (Spec.escape true href)) σ') :
    Runs C (blockNew C g t!"bq" a.source (some url) t)
      (citeBlk (citeAtt (urlTok C.cfg.uid (σ.refIndex + 1)) (a.html C.cfg.restricted)) (a.html C.cfg.restricted) u) σ σ' := by
  unfold blockNew
  rw [parseAttrs_atts D.uni h, pure_bind]
  rw [if_neg (by decide), pure_bind, if_neg (by decide), notFootnote (by decide), pure_bind]
  have e1 : UrlString.toHtml C.E (.raw url) = Spec.escape true href := by
    have : url.isEmpty = false := by cases url; exact absurd rfl hu; rfl
    simp only [UrlString.toHtml, UrlString.toStr, reads_to hl, this, Bool.false_eq_true, if_false]
    exact enc_spacers hs
  have h2 : Runs C (unrestrictUrl C url) url σ σ := by
    unfold unrestrictUrl
    split
    · rename_i hres; rw [reverse_none (hr hres)]; exact Runs.pure _ _
    · exact Runs.pure _ _
  have h3 := runs_shelveUrl (C := C) (.raw url) σ
  rw [e1] at h3
  have e2 : HtmlAttrs.toStr (HtmlAttrs.insert t!"cite" (urlTok C.cfg.uid (σ.refIndex + 1)) (attsOf C.cfg.restricted a).html) =
      citeAtt (urlTok C.cfg.uid (σ.refIndex + 1)) (a.html C.cfg.restricted) := by
    rw [insert_cite, ← atts_text h, BAttrs.toStr]
    have := quoteattr_plain (t := urlTok C.cfg.uid (σ.refIndex + 1)) (by rw [D.uid]; exact urlTok_chars D.plain _)
    simp [HtmlAttrs.toStr, attrText, this, citeAtt]
  refine Runs.bind (a := citeBlk (citeAtt (urlTok C.cfg.uid (σ.refIndex + 1)) (a.html C.cfg.restricted)) (a.html C.cfg.restricted) t)
    (σ' := σ.cached (Spec.escape true href)) ?_ ?_
  · unfold blockTagsOf
    rw [if_pos rfl]
    refine Runs.bind (a := HtmlAttrs.insert t!"cite" (urlTok C.cfg.uid (σ.refIndex + 1)) (attsOf C.cfg.restricted a).html) (h2.bind (h3.bind (Runs.pure _ _))) ?_
    rw [e2, atts_text h]
    have := Runs.pure (C := C) (citeBlk (citeAtt (urlTok C.cfg.uid (σ.refIndex + 1)) (a.html C.cfg.restricted)) (a.html C.cfg.restricted) t) (σ.cached (Spec.escape true href))
    simpa [openTagA, citeBlk] using this
  · simp only [citeBlk, Bool.false_eq_true, if_false]
    exact hg.bind (Runs.pure _ _)

theorem citeAtt_chars {base : Str} (hb : Spec.PlainBase base) {n : Nat} {att : Str} {c : Char} (hc : c ∈ t!"<>\n") (h : c ∉ att) :
    c ∉ citeAtt (urlTok (uidOf base) n) att := by
  have h1 : c ∉ urlTok (uidOf base) n := fun hm => urlTok_chars hb n c hm ((by decide : ∀ c ∈ t!"<>\n", c ∈ t!"&<>\"'\n\r\t") c hc)
  have h2 : c ∉ t!" cite=\"" ∧ c ∉ t!"\"" := (by decide : ∀ c ∈ t!"<>\n", c ∉ t!" cite=\"" ∧ c ∉ t!"\"") c hc
  simp only [citeAtt, List.mem_append, not_or]
  exact ⟨h2.1, h1, h2.2, h⟩

theorem rep_cited {base : Str} {σ : PState} {n : Nat} {att o r h : Str} (hb : Spec.PlainBase base) (ha : TagText (uidOf base) att)
    (hn : n < 2 ^ 32) (ho : alLookup n σ.refCache = some o)
    (hr : Rep (uidOf base) σ r h) : Rep (uidOf base) σ (openTagA t!"blockquote" (citeAtt (urlTok (uidOf base) n) att) ++ r)
      (openTagA t!"blockquote" (citeAtt o att) ++ h) := by
  have hne : uidOf base ≠ [] := by simp [uidOf]
  have hnil : containsStr (uidOf base) [] = false := containsStr_false_of_mem (c := ':') (by simp [uidOf]) (by simp)
  have hs : Sealed (uidOf base) ('"' :: (att ++ ['>'])) := by
    refine ⟨⟨_, _, rfl, by decide⟩, ⟨'"' :: att, '>', by simp, by decide⟩, ?_⟩
    have := containsStr_sep (a := []) (c := '"') (sep_uid hb (by decide)) hne hnil (containsStr_sep (c := '>') (sep_uid hb (by decide)) hne ha.clean hnil)
    simpa using this
  have h1 : Rep (uidOf base) σ _ _ := RepK.url hn ho (RepK.chunk hs hr)
  have := h1.text (w := t!"<blockquote cite=") (by decide)
  simpa [openTagA, citeAtt] using this

/-- A quotation with an address. -/
theorem inline_cited {C : Ctx} {base : Str} (D : DocCtx C base) {src w0 url href : Str} {P : List Part} {k : Nat} {σ σ1 : PState} {H : Str}
    {a : Spec.Atts} (ha : a.Ok) (hclean : containsStr C.cfg.uid a.source = false) (hbe : a.Before (url ++ src))
    (hu : url ≠ [] ∧ ∀ c ∈ url, isWs c = false) (hr : C.cfg.restricted = true → '&' ∉ url) (hl : Spec.Reads C.E.urlParse C.E.urlJoin url href) (hsp : Spec.NoSpacers href)
    (hs : Source C src w0 P k (σ.cached (Spec.escape true href)) σ1 H)
    (hnl : ¬ Spec.notelistWord <+: w0) (hd : σ.spanDepth + 1 ≤ C.cfg.maxSpanDepth) :
    ∃ σ' q, BlockTo C (t!"bq" ++ (a.source ++ (t!".:" ++ (url ++ (t!" " ++ src))))) (k + 1) σ σ' q
      (openTagA t!"blockquote" (citeAtt (Spec.escape true href) (a.html C.cfg.restricted)) ++ (t!"\n\t" ++ (openTagA t!"p" (a.html C.cfg.restricted) ++
        (H ++ (closeTag t!"p" ++ t!"\n</blockquote>"))))) := by
  obtain ⟨xs, σ', hm⟩ := marked_text D hs (show (σ.cached (Spec.escape true href)).spanDepth + 1 ≤ C.cfg.maxSpanDepth from hd)
  have hT : TagText (uidOf base) (a.html C.cfg.restricted) := atts_tagText D.plain ha (by rw [← D.uid]; exact hclean) _
  generalize hat : a.html C.cfg.restricted = att at *
  generalize hci : citeAtt (urlTok (uidOf base) (σ.refIndex + 1)) att = cit
  have clt : '<' ∉ cit := hci ▸ citeAtt_chars D.plain (by decide) hT.nolt
  have cgt : '>' ∉ cit := hci ▸ citeAtt_chars D.plain (by decide) hT.nogt
  have hlt : '<' ∉ cit ++ t!">\n\t" := by simp [clt]
  have hA : ∀ {n : Str}, n.head? = some '<' → Free n t!"<blockquote" → Free n (openTagA t!"blockquote" cit ++ t!"\n\t") := by
    intro n hn hf
    have := hf.append (Free.of_head hn hlt)
    simpa [openTagA] using this
  have hgr : Grow C.cfg.uid σ σ' := (Grow.cached _ _ _).trans hm.grow
  refine ⟨σ', openTagA t!"blockquote" cit ++ (t!"\n\t" ++ (openTagA t!"p" att ++ (brk C.cfg.brTag (w0 ++ mix (uidOf base) [] xs) ++
    (closeTag t!"p" ++ t!"\n</blockquote>")))), ?_, hgr, hm.aux, ?_, ?_, ?_⟩
  · obtain ⟨m, hm', g1, g2, g3, g4, g5⟩ := cite_captures C D.uni (t := src) ha hbe hu
    refine step_of_body (o := openTagA t!"blockquote" cit ++ (t!"\n\t" ++ (openTagA t!"p" att ++ (w0 ++ mix (uidOf base) [] xs ++
      (closeTag t!"p" ++ t!"\n</blockquote>"))))) (trim_ne (by decide)) ?_ ?_
    · have := br_mixed_atts D.uni (a := openTagA t!"blockquote" cit ++ t!"\n\t") (z := t!"\n</blockquote>") (tag := t!"p") (by decide) hT.nogt
        (brFree_open (brFree_start _ (by decide)) hT.nolt) hm.over hm.lined
        ⟨hA rfl (Free.of (by decide)), hA rfl (Free.of (by decide)), hA rfl (Free.of (by decide)), hA rfl (Free.of (by decide))⟩
        (brFree_decide (by decide)) (noPTag_free (hA rfl (Free.of (by decide))) (hA rfl (Free.of (by decide)))) rfl (by decide)
      simpa using this
    · intro s h1 h2 h3 h4 h5
      rw [blockBody_tagged hm', g1, g2, g3, g4, g5]
      have hr := runs_cited D ha hu.1 hr hl hsp hm.runs
      rw [hat, D.uid, hci] at hr
      refine ⟨{ s with tag := t!"bq", atts := a.source, ext := [], cite := some url, eat := false, lastClosing := t!"\n</blockquote>" }, false,
        hr.bind ?_, ?_⟩
      · rw [h1]
        have e : ∀ x : Str, openTagA t!"blockquote" cit ++ t!"\n" ++ '\t' :: openTagA t!"p" att ++ x ++ t!"</p>" ++ t!"\n</blockquote>" =
          openTagA t!"blockquote" cit ++ (t!"\n\t" ++ (openTagA t!"p" att ++ (x ++ (closeTag t!"p" ++ t!"\n</blockquote>")))) := by
          intro x; simp [closeTag]
        simp only [List.isEmpty_nil, if_true, citeBlk, e]
        exact Runs.pure _ _
      · exact ⟨rfl, rfl, rfl, rfl, rfl⟩
  · have := hm.index
    simp only [PState.cached] at this
    omega
  · intro τ h1 h2
    have h3 := (hm.rep τ h1 h2).append ((Rep.nil (uid := C.cfg.uid) (σ := τ)).text (w := closeTag t!"p" ++ t!"\n</blockquote>") (by decide))
    have hx := hm.grow.index
    have ho : alLookup (σ.refIndex + 1) τ.refCache = some (Spec.escape true href) := by
      rw [((h1.before hm.grow) (σ.refIndex + 1) (by simp [PState.cached])).1]
      simp [PState.cached, alLookup_imInsert]
    rw [D.uid] at h3 ⊢
    have := rep_cited D.plain hT (show σ.refIndex + 1 < 2 ^ 32 by simp only [PState.cached] at hx; omega) ho
      ((Rep.openTagA D.plain (tag := t!"p") (by decide) hT h3).text (w := t!"\n\t") (by decide))
    rw [hci] at this
    simpa using this
  · have h1 := nolist_styled (C := C) (z := t!"\n</blockquote>") (tag := t!"p") hm.toks hm.over hm.start (fun _ => hnl) (by decide) (by decide) hT
    have h2 : containsStr t!"<p>notelist" (openTagA t!"blockquote" cit) = false :=
      not_contains_of_free (by simp) (free_open (Free.of (by decide)) rfl clt)
    exact containsStr_sep (c := '\n') (b := '\t' :: _) (by decide) (by simp) h2
        (containsStr_sep (a := []) (c := '\t') (by decide) (by simp) (by decide) h1)

theorem ascii_nows {c : Char} (h : 33 ≤ c.toNat ∧ c.toNat ≤ 126) : isWs c = false := by
  have key : ∀ n : Fin 127, 33 ≤ n.1 → isWs (Char.ofNat n.1) = false := by decide +kernel
  have := key ⟨c.toNat, by omega⟩ h.1
  simpa using this

/-- The text as it is seen. -/
def citedSeen (restricted : Bool) (q : Spec.Cited) : Str :=
  t!"bq" ++ (q.atts.source ++ (t!".:" ++ (q.url ++ (t!" " ++ (q.body restricted).source))))

theorem body_ok {up : Char → Bool} {lite r : Bool} {q : Spec.Cited} (h : q.Ok up lite r) (r' : Bool) :
    (q.body r').Ok up lite ∧ ¬ Spec.notelistWord <+: (q.body r').source ∧ q.atts.Before (q.url ++ (q.body r').source) := by
  unfold Spec.Cited.body
  split
  · refine ⟨escaped_marked h.text, ?_, ?_⟩
    · intro hp
      rw [← enc_marked h.text] at hp
      exact h.nolist (prefix_enc (by decide) hp)
    · rcases h.before with h1 | h1 | h1
      · exact .inl h1
      · exact .inr (.inl h1)
      · refine .inr (.inr ?_)
        rw [← enc_marked h.text]
        intro hm
        rcases List.mem_append.1 hm with hm | hm
        · exact h1 (by simp [hm])
        · exact h1 (by simp [enc_mem (by decide) hm])
  · exact ⟨h.text, h.nolist, h.before⟩

theorem cited_seen {up : Char → Bool} {lite r : Bool} {q : Spec.Cited} (h : q.Ok up lite r) :
    (if r then encodeHtml q.source false false else q.source) = citedSeen r q := by
  unfold citedSeen Spec.Cited.body
  split
  · rename_i hr
    have hw := h.written
    rw [hr] at hw
    simp only [Spec.Cited.source]
    rw [enc_append, enc_append, enc_append, enc_append, enc_append, enc_atts h.atts hw, enc_marked h.text, enc_id (h.plain hr)]
    rfl
  · rfl

theorem act_cited {C : Ctx} {base : Str} (D : DocCtx C base) {q : Spec.Cited} (h : q.Ok C.U.isLu C.cfg.lite C.cfg.restricted)
    (hl : Spec.Reads C.E.urlParse C.E.urlJoin q.url q.href) (hR : q.text.Resolved (Spec.Resolves C.E.urlParse C.E.urlJoin C.cfg.restricted) C.cfg.rel)
    (htok : ¬ C.cfg.uid <:+: citedSeen C.cfg.restricted q)
    {P : PState → Prop} (hP : ∀ σ σ', Keeps σ σ' → σ'.aux = σ.aux → P σ → P σ') :
    Act C P P (citedSeen C.cfg.restricted q) (q.text.parts.length + 1) (q.html C.cfg.brTag C.cfg.restricted) := by
  obtain ⟨b1, b2, b3⟩ := body_ok h C.cfg.restricted
  have hR' : (q.body C.cfg.restricted).Resolved (Spec.Resolves C.E.urlParse C.E.urlJoin C.cfg.restricted) C.cfg.rel := by
    unfold Spec.Cited.body
    split
    · exact escaped_resolved hR
    · exact hR
  have hlen : (q.body C.cfg.restricted).parts.length = q.text.parts.length := by
    unfold Spec.Cited.body
    split <;> simp [Spec.Marked.escaped]
  have hca : containsStr C.cfg.uid q.atts.source = false := contains_of_not (fun ⟨x, y, e⟩ => htok ⟨t!"bq" ++ x, y ++ (t!".:" ++ (q.url ++ (t!" " ++ (q.body C.cfg.restricted).source))), by
    unfold citedSeen; rw [← e]; simp⟩)
  have hct : ¬ C.cfg.uid <:+: (q.body C.cfg.restricted).source := fun ⟨x, y, e⟩ => htok ⟨t!"bq" ++ (q.atts.source ++ (t!".:" ++ (q.url ++ (t!" " ++ x)))), y, by
    unfold citedSeen; rw [← e]; simp⟩
  have hlt : '<' ∉ q.atts.html C.cfg.restricted := (atts_tagText D.plain h.atts (by rw [← D.uid]; exact hca) _).nolt
  obtain ⟨a1, a2⟩ := atts_nonl h.atts
  have hu : q.url ≠ [] ∧ ∀ c ∈ q.url, isWs c = false := ⟨h.url.1, fun c hc => ascii_nows (h.url.2 c hc)⟩
  have u1 : '\n' ∉ q.url := fun hc => absurd (hu.2 _ hc) (by decide)
  have u2 : '\r' ∉ q.url := fun hc => absurd (hu.2 _ hc) (by decide)
  have clt : '<' ∉ citeAtt (Spec.escape true q.href) (q.atts.html C.cfg.restricted) := by
    have : '<' ∉ Spec.escape true q.href := by rw [escape_eq]; exact enc_nolt
    simp [citeAtt, this, hlt]
  refine ⟨?_, ⟨'b', _, rfl, by decide⟩, ?_, ?_⟩
  · obtain ⟨k1, k2⟩ := marked_lined b1
    have hln : lined ('q' :: (q.atts.source ++ (t!".:" ++ (q.url ++ (t!" " ++ (q.body C.cfg.restricted).source))))) = true :=
      lined_text (w := ['q']) (by decide) (lined_text a1 (lined_text (by decide) (lined_text u1 (lined_text (by decide) k1))))
    have := lines_of _ (p := t!"b") hln (by simp [a2, k2, u2]) (by decide) (blank_not (by decide))
    simpa [citedSeen] using this
  · intro σ hσ hd
    obtain ⟨σ', x, hq⟩ := inline_cited D h.atts hca b3 hu (fun hr hm => h.plain hr _ hm (by simp)) hl h.href
      (marked_source D b1 hR' hct (σ.cached (Spec.escape true q.href))) (notelist_merge D b1 _ b2) hd
    rw [hlen] at hq
    refine ⟨σ', x, _, hq.step, hq.grow.toGrows, hP _ _ (hq.grow.keeps (by rw [hq.aux])) hq.aux hσ, hq.index, hq.rep, hq.nolist, ?_⟩
    intro r hr
    simp only [List.append_assoc]
    rw [tidyBreaks_free (free_open (Free.of (by decide)) rfl clt), tidyBreaks_free (Free.of (by decide)),
      tidy_styled b1 (by decide) hlt, tidyBreaks_free (Free.of (by decide))]
    simp [Spec.Cited.html, elementWith_eq, closeTag, citeAtt, Spec.attr]
  · have := styled_end (openTagA t!"blockquote" (citeAtt (Spec.escape true q.href) (q.atts.html C.cfg.restricted)) ++ (t!"\n\t" ++
      (Spec.elementWith t!"p" (q.atts.html C.cfg.restricted) ((q.body C.cfg.restricted).html C.cfg.brTag) ++ t!"\n"))) t!"blockquote" (by decide)
    rw [List.append_assoc] at this
    simp only [Spec.Cited.html]
    rw [elementWith_eq t!"blockquote"]
    simpa [citeAtt, Spec.attr] using this

/-! ## Documents -/

/-- The text of a block as it is seen. -/
def citeSeen (restricted : Bool) : Spec.CiteBlock → Str
  | .other b => classSeen restricted b
  | .cited q => citedSeen restricted q

def citeKinds (cfg : Cfg) (base : Str) : Kinds Spec.CiteBlock where
  src := Spec.CiteBlock.source
  seen := citeSeen cfg.restricted
  marks := Spec.CiteBlock.marks
  html := fun N M b => b.html cfg.html5 cfg.brTag cfg.restricted (useAlignClass cfg) base N M
  numbers := fun N b => b.numbers N cfg.restricted
  notes := fun M b => b.notes M cfg.restricted

theorem cite_seen {C : Ctx} (hU : UniOk C.U) {b : Spec.CiteBlock} (h : b.Ok C.U.isLu C.U.isNd C.cfg.lite C.cfg.restricted) :
    (if C.cfg.restricted then encodeHtml b.source false false else b.source) = citeSeen C.cfg.restricted b := by
  cases b with
  | other b => exact class_seen hU h
  | cited q => exact cited_seen h

theorem act_cite {C : Ctx} {base : Str} (D : DocCtx C base) (hp : C.cfg.linkPrefix = base ++ t!"-") (hcap : C.cfg.capsTempl = capsTemplate C.cfg.uid)
    (hz : C.cfg.getSizes = false) (hno : C.cfg.noimage = false)
    {ok : Char → Prop} (ha : ∀ c, c.toNat < 128 → ok c) {b : Spec.CiteBlock} (hL : Lowers C.U ok)
    (h : b.Ok C.U.isLu C.U.isNd C.cfg.lite C.cfg.restricted) (hc : ∀ c ∈ b.chars, ok c)
    (hR : b.Resolved (Spec.Resolves C.E.urlParse C.E.urlJoin C.cfg.restricted) (Spec.Reads C.E.urlParse C.E.urlJoin) C.cfg.rel)
    (hsrc : ¬ C.cfg.uid <:+: b.source) (htok : ¬ C.cfg.uid <:+: citeSeen C.cfg.restricted b) (N : Spec.Numbers) (M : Spec.Notes) :
    Act C (fun σ => Num N σ ∧ FnState base {} M σ) (fun σ => Num (b.numbers N C.cfg.restricted) σ ∧ FnState base {} (b.notes M C.cfg.restricted) σ)
      (citeSeen C.cfg.restricted b) b.marks (b.html C.cfg.html5 C.cfg.brTag C.cfg.restricted (useAlignClass C.cfg) base N M) := by
  have hP : ∀ (N : Spec.Numbers) (M : Spec.Notes) (σ σ' : PState), Keeps σ σ' → σ'.aux = σ.aux → (Num N σ ∧ FnState base {} M σ) → (Num N σ' ∧ FnState base {} M σ') :=
    fun N M σ σ' hk e ⟨h1, h2⟩ => ⟨h1.aux e, h2.keeps hk⟩
  cases b with
  | other b => exact act_class D hp hcap hz hno ha hL h hc hR hsrc htok N M
  | cited q => exact act_cited D h hR.1 hR.2 htok (hP N M)

/-- What `parse` makes of documents with quotations with addresses. -/
theorem parse_cites {E : Env} {fuel : Nat} {cfg : Cfg} {base : Str} (D : DocCtx ⟨E, cfg, fuel⟩ base) (hp : cfg.linkPrefix = base ++ t!"-")
    (hcap : cfg.capsTempl = capsTemplate cfg.uid)
    (hz : cfg.getSizes = false) (hno : cfg.noimage = false)
    (hbt : cfg.blockTags = true) (hsan : cfg.sanitizer = none) (hdep : 1 ≤ cfg.maxSpanDepth) {ok : Char → Prop}
    (ha : ∀ c, c.toNat < 128 → ok c) (hL : Lowers E.U ok) {ds : List (Spec.CiteBlock × Nat)}
    (hne : ds ≠ []) (h : ∀ d ∈ ds, d.1.Ok E.U.isLu E.U.isNd cfg.lite cfg.restricted) (hc : ∀ d ∈ ds, ∀ c ∈ d.1.chars, ok c)
    (hR : ∀ d ∈ ds, d.1.Resolved (Spec.Resolves E.urlParse E.urlJoin cfg.restricted) (Spec.Reads E.urlParse E.urlJoin) cfg.rel)
    (htok : ¬ cfg.uid <:+: Spec.citeSource ds) (hn : 2 * Spec.citeMarks ds < 2 ^ 32) :
    parseFresh E fuel cfg (Spec.citeSource ds) = .ok (Spec.citeDocHtml cfg.html5 cfg.brTag cfg.restricted (useAlignClass cfg) base ds) := by
  have := parse_kinds D hbt hsan hdep (β := Spec.CiteBlock)
    (citeKinds cfg base) hne
    (fun d hd => cite_seen (C := ⟨E, cfg, fuel⟩) D.uni (h d hd))
    (fun d hd h1 h2 N M => act_cite D hp hcap hz hno ha hL (h _ hd) (hc _ hd) (hR _ hd) h1 h2 N M) htok hn
  have e : ∀ (ds : List (Spec.CiteBlock × Nat)) N M, Kinds.docHtml (citeKinds cfg base) N M ds =
      Spec.citeHtml cfg.html5 cfg.brTag cfg.restricted (useAlignClass cfg) base N M ds := by
    intro ds
    induction ds with
    | nil => intro _ _; rfl
    | cons d ds ih => intro N M; simp only [Kinds.docHtml, Spec.citeHtml, ih]; rfl
  rw [e] at this
  exact this

end Rustextile
