import Verif.RawDoc
import Verif.SpecInline

/-!
# Texts without blocks

The branch of `parse` for `set_block_tags(false)`, on a text with marked parts.
-/

namespace Rustextile

open Prog

theorem brk_same : ∀ t : Str, brk t!"\n" t = t
  | [] => rfl
  | c :: t => by
    by_cases h : c = '\n'
    · subst h; rw [brk_nl, brk_same t]; rfl
    · rw [brk_cons h, brk_same t]

theorem inline_html {U : Uni} {lite : Bool} (r : Bool) {t : Spec.ClassText} (h : t.Ok U.isLu lite) :
    t.inlineHtml r = t.lead ++ clForm (clTagged r) t.parts := by
  have key : ∀ {ps : List Spec.ClassPart}, (∀ p ∈ ps, ClPart U lite p) →
      ps.flatMap (fun p => p.html r ++ p.after) = clForm (clTagged r) ps := by
    intro ps
    induction ps with
    | nil => intro _; rfl
    | cons p ps ih =>
      intro hP
      have hp := hP p (by simp)
      have e : p.html r = clTagged r p := by
        rw [Spec.ClassPart.html, elementWith_eq, ← (cl_marker hp).2]; rfl
      rw [clForm_cons, List.flatMap_cons, ih (fun q hq => hP q (by simp [hq])), e]
      simp
  rw [Spec.ClassText.inlineHtml, key (cl_parts h)]

/-- The text after marked parts have been replaced and glyphs have been looked for. -/
theorem runs_inlineBody {C : Ctx} {base : Str} (D : DocCtx C base) (hbt : C.cfg.blockTags = false) (hdep : 1 ≤ C.cfg.maxSpanDepth)
    {t : Spec.ClassText} (h : t.Ok C.U.isLu false) (hn : 2 * t.parts.length < 2 ^ 32) :
    ∃ σ', Runs C (parseBody C t.source) (t.inlineHtml C.cfg.restricted) {} σ' := by
  -- the ends of texts are as if `lite` were not set
  let C0 : Ctx := ⟨C.E, { C.cfg with lite := false }, C.fuel⟩
  have D0 : DocCtx C0 base := ⟨D.uni, D.fuel, D.plain, D.uid⟩
  have hT : TextOk C0 t.lead (t.parts.map clPart) := cl_textOk D0 h
  have hz : ∀ c ∈ t!"\n\n", Safe c := fun c hc => linesA_safe (tableEnd_over C0 c hc)
  have hsnd : (t.parts.map clDr).map Prod.snd = rawItems (t.parts.map clPart) := by simp [rawItems, clDr, clPart]
  obtain ⟨xs, σ', h1, h2, h3, h4, h5, h6⟩ := runs_spanA (C := C) (σ := {}) D.uni (by rw [D.uid]; exact uid_safe D.plain)
    (fun c hc => mixA_safe (hT.over c hc)) hz hdep (xs := t.parts.map clDr)
    ⟨by rw [hsnd]; exact hT.mixOk, by intro p hp; obtain ⟨q, hq, rfl⟩ := List.mem_map.1 hp; exact atts_simple (h.groups q hq)⟩
    (by intro p hp; obtain ⟨q, hq, rfl⟩ := List.mem_map.1 hp; trivial)
    (fun hne => hT.start (by intro e; apply hne; simp at e; simp [e]))
  have hsk : (xs.map Prod.snd).map skel = t.parts.map clPart := by
    rw [drSkel_snd h2, hsnd, skel_raw]
  have htoks : ∀ p ∈ xs.map Prod.snd, p.1.isRaw = false := by
    intro p hp; obtain ⟨q, hq, rfl⟩ := List.mem_map.1 hp; exact h3 q hq
  rw [drMix_end _ _ (t.parts.map clDr), drMix_end _ _ xs, drMix_toks _ _ h3, ← List.append_assoc, ← List.append_assoc, cl_drMix, D.uid] at h1
  have hd : Done C.U t!"\n\n" (t.lead ++ mix (uidOf base) [] (xs.map Prod.snd)) := done_mix (C := C0) D.uni D.plain hT.toInlineOk htoks hsk
  have hq : QUOTED_RE.search C.U [] (t.source ++ t!"\n\n") = none := by
    obtain ⟨g0, g1, -⟩ := clM_ok
    exact Auto.search_none D.uni g0 (List.all_eq_true.1 g1 QUOTED_RE (by simp [earlyPatterns])) (by decide) (clM_source h (by simp))
  have hix : σ'.refIndex < 2 ^ 32 := by
    rw [h6, hsnd]
    have : raws (rawItems (t.parts.map clPart)) = t.parts.length := by
      unfold raws rawItems
      rw [List.countP_map, List.countP_eq_length.2, List.length_map]
      intro p _; rfl
    rw [this]
    simpa using hn
  have hr : Rep C.cfg.uid σ' (t.lead ++ mix (uidOf base) [] (xs.map Prod.snd)) (t.inlineHtml C.cfg.restricted) := by
    have := (rep_drMix D.plain (br := t!"\n") (by decide) (Agrees.refl (uidOf base) σ') hix h3 h4 (cl_parts h) (by rw [h2, List.map_map]; rfl)).text
      (brk_nocolon (br := t!"\n") (by decide) (prose_nochar h.plain.lead (by decide) (by decide)))
    rw [D.uid, inline_html _ h]
    simp only [brk_same] at this
    exact this
  refine ⟨σ', ?_⟩
  unfold parseBody
  rw [if_neg (by rw [hbt]; simp)]
  refine Runs.bind (a := t.lead ++ mix (uidOf base) [] (xs.map Prod.snd)) (σ' := σ') ?_ ?_
  · unfold glyphQuotedQuote
    rw [replaceP_none hq, pure_bind]
    refine h1.bind ?_
    rw [glyphs_none hd.glyph hd.lt hd.gt hd.last (by simp)]
    exact Runs.pure _ _
  · have := runs_tags D (ShelfInv.ok (σ := σ') (h5.grow.toGrows.inv (ShelfInv.empty rfl))) (h5.grow (uid := C.cfg.uid)).toGrows.urls hr
    exact this

theorem parse_inline {E : Env} {fuel : Nat} {cfg : Cfg} {base : Str} (D : DocCtx ⟨E, cfg, fuel⟩ base)
    (hbt : cfg.blockTags = false) (hsan : cfg.sanitizer = none) (hdep : 1 ≤ cfg.maxSpanDepth) {t : Spec.ClassText} (h : t.Ok E.U.isLu false)
    (hn : 2 * t.parts.length < 2 ^ 32) : parseFresh E fuel cfg t.source = .ok (t.inlineHtml cfg.restricted) := by
  have hg : Spec.glue [(t.source, 0)] = t.source := by simp [Spec.glue]
  obtain ⟨k1, -⟩ := normalize_lines (U := E.U) (ps := [(t.source, 0)]) (by simpa using cl_lines h)
  rw [hg] at k1
  have hprep : prepare ⟨E, cfg, fuel⟩ t.source = t.source := by
    unfold prepare
    simp only [enc_class h, ite_self]
    rw [show (Ctx.U ⟨E, cfg, fuel⟩) = E.U from rfl, k1, replaceStr_none]
    rw [show cfg.uid = uidOf base from D.uid]
    exact containsStr_false_of_mem (c := ':') (by simp [uidOf]) (cl_nocolon h)
  obtain ⟨σ', hr⟩ := runs_inlineBody D hbt hdep h hn
  obtain ⟨w', e, -, -⟩ := hr { cache := [] } (Cache.valid_nil _) rfl
  have hnb : ¬ Spec.Blank t.source := by
    obtain ⟨c, u, e, hc⟩ := cl_first h
    intro hB
    have := (isWs_iff c).2 (hB c (by rw [e]; simp))
    rw [hc] at this; cases this
  unfold parseFresh
  rw [parse_nonblank hnb]
  simp only
  rw [hprep, e]
  simp only
  rw [finish_eq, show (⟨E, cfg, fuel⟩ : Ctx).cfg.sanitizer = none from hsan]
  simp only
  have ht : Spec.tidyBreaks (Cfg.brTag cfg) (t.inlineHtml cfg.restricted) = t.inlineHtml cfg.restricted := by
    have := tidyBreaks_free (br := cfg.brTag) (w := t.inlineHtml cfg.restricted) (t := []) (by
      rw [inline_html _ h]; exact (cl_wovenH h _).brFree.1)
    simpa [show Spec.tidyBreaks cfg.brTag [] = [] from rfl] using this
  rw [ht, ← dropFinalNewlines_eq, trimEndP_of_last]
  intro c hc
  rw [inline_html _ h] at hc
  simpa using lined_last (cl_linedH h cfg.restricted) c hc

end Rustextile
