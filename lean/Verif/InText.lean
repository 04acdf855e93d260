import Verif.SignDoc

/-!
# Blocks and documents from texts that the first stages reduce

Paragraphs, headings and quotations for any text for which `Source` is known, and documents
of any kind of blocks.
-/

namespace Rustextile

open Prog

variable {aux0 : Aux}

/-- A text that is seen as `S`, and its HTML before and after newlines have been put after break tags. -/
structure InText (C : Ctx) (S : Str) (k : Nat) (NL : Prop) (mid html : Str) : Prop where
  lined : lined S = true
  nocr : '\r' ∉ S
  begins : Begins C S
  source : ∀ σ, ∃ w P σ1, Source C S w P k σ σ1 mid ∧ (NL → ¬ Spec.notelistWord <+: w)
  tidy : ∀ z : Str, z.head? ≠ some '\n' → Spec.tidyBreaks C.cfg.brTag (mid ++ z) = html ++ Spec.tidyBreaks C.cfg.brTag z

theorem InText.lines {C : Ctx} {S : Str} {k : Nat} {NL : Prop} {mid html : Str} (h : InText C S k NL mid html) :
    (∃ ls, ls ≠ [] ∧ (∀ l ∈ ls, Spec.RawLine l) ∧ S = Spec.join t!"\n" ls) ∧ ∃ c u, S = c :: u ∧ isWs c = false := by
  obtain ⟨c, u, e, hc⟩ := h.begins.first
  refine ⟨?_, c, u, e, hc⟩
  have k1 := h.lined
  have k2 := h.nocr
  rw [e] at k1 k2 ⊢
  have := lines_of u (p := [c]) (lined_tail k1) k2 (by simp; rintro rfl; revert hc; decide) (blank_not hc)
  simpa using this

theorem InText.tagLines {C : Ctx} {S : Str} {k : Nat} {NL : Prop} {mid html : Str} (h : InText C S k NL mid html) {p : Str} (h1 : '\n' ∉ p ∧ '\r' ∉ p)
    (h2 : ∃ c u, p = c :: u ∧ isWs c = false) :
    (∃ ls, ls ≠ [] ∧ (∀ l ∈ ls, Spec.RawLine l) ∧ p ++ S = Spec.join t!"\n" ls) ∧ ∃ c u, p ++ S = c :: u ∧ isWs c = false := by
  obtain ⟨c, u, rfl, hc⟩ := h2
  refine ⟨?_, c, _, rfl, hc⟩
  have k2 := h.nocr
  exact lines_of _ (p := c :: u) h.lined (by simp at h1; simp [h1, k2]) h1.1 (blank_not hc)

theorem act_inPara {C : Ctx} {base : Str} (D : DocCtx C base) {S : Str} {k : Nat} {NL : Prop} {mid html : Str} (h : InText C S k NL mid html) (hn : NL)
    (hs : Spec.NoBlockStart C.U.isNd C.cfg.lite S) {P : PState → Prop} (hP : ∀ σ σ', Keeps σ σ' → σ'.aux = σ.aux → P σ → P σ') :
    Act C P P S k (Spec.elementWith t!"p" [] html) := by
  obtain ⟨l1, l2⟩ := h.lines
  refine ⟨l1, l2, ?_, ?_⟩
  · intro σ hσ hd
    obtain ⟨w, Q, σ1, hsrc, hw⟩ := h.source σ
    obtain ⟨σ', q, hq⟩ := inline_para D hsrc h.begins (tag_none_of hs) (hw hn) hd
    refine ⟨σ', q, _, hq.step, hq.grow.toGrows, hP _ _ (hq.grow.keeps (by rw [hq.aux])) hq.aux hσ, hq.index, hq.rep, hq.nolist, ?_⟩
    intro r _
    rw [List.append_assoc, List.append_assoc, tidyBreaks_free (brFree_tags t!"p" (by decide)).1.1, h.tidy _ (by simp [closeTag]),
      tidyBreaks_free (brFree_tags t!"p" (by decide)).2.1, elementWith_eq, openTagA_nil]
    simp
  · rw [elementWith_eq, ← List.append_assoc]
    exact styled_end _ t!"p" (by decide)

theorem act_inStyled {C : Ctx} {base : Str} (D : DocCtx C base) {S : Str} {k : Nat} {NL : Prop} {mid html : Str} (h : InText C S k NL mid html)
    {tag : Str} {a : Spec.Atts} (ha : a.Ok) (hb : a.Before S) (ht : tag ∈ t!"p" :: (if C.cfg.lite then [] else [t!"h1", t!"h2", t!"h3", t!"h4", t!"h5", t!"h6"]))
    (hn : tag = t!"p" → NL) (htok : ¬ C.cfg.uid <:+: tag ++ (a.source ++ (t!". " ++ S))) {P : PState → Prop} (hP : ∀ σ σ', Keeps σ σ' → σ'.aux = σ.aux → P σ → P σ') :
    Act C P P (tag ++ (a.source ++ (t!". " ++ S))) k (Spec.elementWith tag (a.html C.cfg.restricted) html) := by
  obtain ⟨m1, m2⟩ := tagged_mem ht
  have hca : containsStr C.cfg.uid a.source = false := contains_of_not (fun hi => htok (infix_source (.inl hi)))
  have hlt : '<' ∉ a.html C.cfg.restricted := (atts_tagText D.plain ha (by rw [← D.uid]; exact hca) _).nolt
  obtain ⟨a1, a2⟩ := atts_nonl ha
  obtain ⟨g1, g2, -, g3⟩ := tagged_chars tag m1
  have hl := h.tagLines (p := tag ++ (a.source ++ t!". ")) ⟨by simp [a1, g1], by simp [a2, g2]⟩ (by
    obtain ⟨c, u, rfl, hc⟩ := g3; exact ⟨c, _, rfl, hc⟩)
  rw [show tag ++ (a.source ++ t!". ") ++ S = tag ++ (a.source ++ (t!". " ++ S)) by simp] at hl
  refine ⟨hl.1, hl.2, ?_, ?_⟩
  · intro σ hσ hd
    obtain ⟨w, Q, σ1, hsrc, hw⟩ := h.source σ
    obtain ⟨σ', q, hq⟩ := inline_styled D ha hca hb hsrc h.begins m1 m2 (fun e => hw (hn e)) hd
    refine ⟨σ', q, _, hq.step, hq.grow.toGrows, hP _ _ (hq.grow.keeps (by rw [hq.aux])) hq.aux hσ, hq.index, hq.rep, hq.nolist, ?_⟩
    intro r _
    rw [List.append_assoc, List.append_assoc, tidyBreaks_free (free_open (brFree_start tag m1).1 rfl hlt), h.tidy _ (by simp [closeTag]),
      tidyBreaks_free (brFree_tags tag m1).2.1, elementWith_eq]
    simp
  · rw [elementWith_eq, ← List.append_assoc]
    exact styled_end _ tag g1

theorem act_inQuoted {C : Ctx} {base : Str} (D : DocCtx C base) {S : Str} {k : Nat} {NL : Prop} {mid html : Str} (h : InText C S k NL mid html)
    {a : Spec.Atts} (ha : a.Ok) (hb : a.Before S) (hn : NL) (htok : ¬ C.cfg.uid <:+: t!"bq" ++ (a.source ++ (t!". " ++ S)))
    {P : PState → Prop} (hP : ∀ σ σ', Keeps σ σ' → σ'.aux = σ.aux → P σ → P σ') :
    Act C P P (t!"bq" ++ (a.source ++ (t!". " ++ S))) k (Spec.elementWith t!"blockquote" (a.html C.cfg.restricted)
      (t!"\n\t" ++ (Spec.elementWith t!"p" (a.html C.cfg.restricted) html ++ t!"\n"))) := by
  have hca : containsStr C.cfg.uid a.source = false := contains_of_not (fun hi => htok (infix_source (.inl hi)))
  have hlt : '<' ∉ a.html C.cfg.restricted := (atts_tagText D.plain ha (by rw [← D.uid]; exact hca) _).nolt
  obtain ⟨a1, a2⟩ := atts_nonl ha
  have hl := h.tagLines (p := t!"bq" ++ (a.source ++ t!". ")) ⟨by simp [a1], by simp [a2]⟩ ⟨_, _, rfl, by decide⟩
  rw [show t!"bq" ++ (a.source ++ t!". ") ++ S = t!"bq" ++ (a.source ++ (t!". " ++ S)) by simp] at hl
  refine ⟨hl.1, hl.2, ?_, ?_⟩
  · intro σ hσ hd
    obtain ⟨w, Q, σ1, hsrc, hw⟩ := h.source σ
    obtain ⟨σ', q, hq⟩ := inline_styled_quote D ha hca hb hsrc (hw hn) hd
    refine ⟨σ', q, _, hq.step, hq.grow.toGrows, hP _ _ (hq.grow.keeps (by rw [hq.aux])) hq.aux hσ, hq.index, hq.rep, hq.nolist, ?_⟩
    intro r _
    simp only [List.append_assoc]
    rw [tidyBreaks_free (free_open (Free.of (by decide)) rfl hlt), tidyBreaks_free (Free.of (by decide)),
      tidyBreaks_free (free_open (brFree_start t!"p" (by decide)).1 rfl hlt), h.tidy _ (by simp [closeTag]),
      tidyBreaks_free (brFree_tags t!"p" (by decide)).2.1, tidyBreaks_free (Free.of (by decide))]
    simp [elementWith_eq, closeTag]
  · rw [elementWith_eq, ← List.append_assoc]
    exact styled_end _ t!"blockquote" (by decide)

/-! ## Documents -/

/-- Blocks of some kind: the text as written and as it is seen, and what they give. -/
structure Kinds (β : Type) where
  src : β → Str
  seen : β → Str
  marks : β → Nat
  html : Spec.Numbers → Spec.Notes → β → Str
  numbers : Spec.Numbers → β → Spec.Numbers
  notes : Spec.Notes → β → Spec.Notes

def Kinds.docHtml {β : Type} (K : Kinds β) : Spec.Numbers → Spec.Notes → List (β × Nat) → List (Str × Nat)
  | _, _, [] => []
  | N, M, d :: ds => (K.html N M d.1, d.2) :: K.docHtml (K.numbers N d.1) (K.notes M d.1) ds

theorem kinds_acts {C : Ctx} {base : Str} {β : Type} (K : Kinds β) : ∀ {ds : List (β × Nat)} (_ : ds ≠ [])
    (_ : ∀ d ∈ ds, ∀ N M, Act C (fun σ => Num N σ ∧ FnState base aux0 M σ) (fun σ => Num (K.numbers N d.1) σ ∧ FnState base aux0 (K.notes M d.1) σ) (K.seen d.1) (K.marks d.1) (K.html N M d.1))
    (N : Spec.Numbers) (M : Spec.Notes),
    Acts C (fun σ => Num N σ ∧ FnState base aux0 M σ) (ds.map (fun d => (K.seen d.1, d.2))) (ds.map (fun d => K.marks d.1)).sum (K.docHtml N M ds)
  | [], hne, _, _, _ => absurd rfl hne
  | [d], _, h, N, M => by
    have := Acts.one (k := d.2) (h d (by simp) N M)
    simpa [Kinds.docHtml] using this
  | d :: e :: ds, _, h, N, M => by
    have ih := kinds_acts K (ds := e :: ds) (by simp) (fun x hx => h x (List.mem_cons_of_mem _ hx)) (K.numbers N d.1) (K.notes M d.1)
    have := Acts.cons (k := d.2) (h d (by simp) N M) ih
    simpa [Kinds.docHtml] using this

/-- What `parse` makes of documents of blocks of any kind. -/
theorem parse_kinds {E : Env} {fuel : Nat} {cfg : Cfg} {base : Str} (D : DocCtx ⟨E, cfg, fuel⟩ base)
    (hbt : cfg.blockTags = true) (hsan : cfg.sanitizer = none) (hdep : 1 ≤ cfg.maxSpanDepth) {β : Type} (K : Kinds β) {ds : List (β × Nat)} (hne : ds ≠ [])
    (hs : ∀ d ∈ ds, (if cfg.restricted then encodeHtml (K.src d.1) false false else K.src d.1) = K.seen d.1)
    (h : ∀ d ∈ ds, ¬ cfg.uid <:+: K.src d.1 → ¬ cfg.uid <:+: K.seen d.1 → ∀ N M, Act ⟨E, cfg, fuel⟩ (fun σ => Num N σ ∧ FnState base {} M σ)
      (fun σ => Num (K.numbers N d.1) σ ∧ FnState base {} (K.notes M d.1) σ) (K.seen d.1) (K.marks d.1) (K.html N M d.1))
    (htok : ¬ cfg.uid <:+: Spec.glue (ds.map (fun d => (K.src d.1, d.2)))) (hn : 2 * (ds.map (fun d => K.marks d.1)).sum < 2 ^ 32) :
    parseFresh E fuel cfg (Spec.glue (ds.map (fun d => (K.src d.1, d.2)))) = .ok (Spec.glue (K.docHtml (fun _ => 1) ⟨[], 0⟩ ds)) := by
  have e1 : (if cfg.restricted then encodeHtml (Spec.glue (ds.map (fun d => (K.src d.1, d.2)))) false false else Spec.glue (ds.map (fun d => (K.src d.1, d.2)))) =
      Spec.glue (ds.map (fun d => (K.seen d.1, d.2))) := by
    by_cases hr : cfg.restricted = true
    · rw [if_pos hr, enc_glue, List.map_map]
      congr 1
      apply List.map_congr_left
      intro d hd
      have := hs d hd
      rw [if_pos hr] at this
      simp only [Function.comp]
      rw [this]
    · rw [if_neg hr]
      congr 1
      apply List.map_congr_left
      intro d hd
      have := hs d hd
      rw [if_neg hr] at this
      rw [this]
  have htok' : containsStr cfg.uid (Spec.glue (ds.map (fun d => (K.seen d.1, d.2)))) = false := by
    have h0 := contains_of_not htok
    rw [← e1]
    split
    · obtain ⟨c1, c2, -, -, -, -, c7, -⟩ := uid_chars D.plain
      have hu : cfg.uid = uidOf base := D.uid
      rw [hu] at h0 ⊢
      exact containsStr_enc c1 c2 c7 h0
    · exact h0
  refine parse_acts D hbt hsan hdep (P := fun σ => Num (fun _ => 1) σ ∧ FnState base {} ⟨[], 0⟩ σ) ⟨fun _ => rfl, fun _ => rfl, rfl, rfl⟩
    (kinds_acts K hne (fun d hd => h d hd ?_ ?_) _ _) e1 htok hn
  · intro hi
    exact htok (hi.trans (glue_infix (ps := ds.map (fun d => (K.src d.1, d.2))) (p := (K.src d.1, d.2)) (List.mem_map.2 ⟨d, hd, rfl⟩)))
  · rintro ⟨a, b, e⟩
    have := clean_of_infix htok' (glue_infix (ps := ds.map (fun d => (K.seen d.1, d.2))) (p := (K.seen d.1, d.2)) (List.mem_map.2 ⟨d, hd, rfl⟩))
    rw [containsStr_iff.2 ⟨a, b, by rw [← e]; simp⟩] at this
    cases this

end Rustextile
