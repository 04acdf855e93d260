import Verif.InlineSource

/-!
# Blocks with inline markup, from their description
-/

namespace Rustextile

open Prog

/-! ## The beginning of a text -/

theorem inline_start {up : Char → Bool} {lite : Bool} {i : Spec.Inline} {a : Str} (h : i.Ok up lite a) :
    ∃ c u, i.source = c :: u ∧ c ∈ startChars := by
  cases i with
  | marked m x =>
    have : ∀ m ∈ markers, ∃ c, m.head? = some c ∧ c ∈ startChars := by
      intro m hm
      simp only [markers, List.mem_cons, List.not_mem_nil, or_false] at hm
      rcases hm with rfl | rfl | rfl | rfl | rfl | rfl | rfl | rfl | rfl | rfl <;> exact ⟨_, rfl, by decide⟩
    obtain ⟨c, hc, hs⟩ := this m (part_marker h.1).1
    obtain ⟨u, rfl⟩ := List.head?_eq_some_iff.1 hc
    exact ⟨c, _, by simp [Spec.Inline.source]; rfl, hs⟩
  | code x => exact ⟨'@', _, by simp [Spec.Inline.source]; rfl, by decide⟩
  | verbatim x => exact ⟨'=', _, by simp [Spec.Inline.source]; rfl, by decide⟩
  | link x u r l => exact ⟨'"', _, by simp [Spec.Inline.source]; rfl, by decide⟩

/-- The elements of a text. -/
def elems (ps : List Spec.Part) : Str := ps.flatMap (fun p => p.inl.source ++ p.after)

theorem elems_start {up : Char → Bool} {lite : Bool} {ps : List Spec.Part} (h : ∀ p ∈ ps, p.Ok up lite) :
    ∀ c r, elems ps = c :: r → c ∈ startChars := by
  intro c r e
  cases ps with
  | nil => cases e
  | cons p ps =>
    obtain ⟨x, u, hx, hs⟩ := inline_start (h p (by simp)).inl
    simp [elems, hx] at e
    rw [← e.1]; exact hs

theorem elems_ne {up : Char → Bool} {lite : Bool} {ps : List Spec.Part} (h : ∀ p ∈ ps, p.Ok up lite) (hne : ps ≠ []) : elems ps ≠ [] := by
  cases ps with
  | nil => exact absurd rfl hne
  | cons p ps =>
    obtain ⟨x, u, hx, hs⟩ := inline_start (h p (by simp)).inl
    simp [elems, hx]

theorem source_elems (t : Spec.Marked) : t.source = t.lead ++ elems t.parts := rfl

theorem first_of {up : Char → Bool} {lite : Bool} {t : Spec.Marked} (h : t.Ok up lite) :
    ∃ c u, t.source = c :: u ∧ isWs c = false ∧ (linesA.Mem c ∨ c ∈ startChars) := by
  obtain ⟨c, u, e, h1, h2⟩ := h.first
  refine ⟨c, u, e, ?_⟩
  rw [source_elems] at e
  cases hl : t.lead with
  | nil =>
    rw [hl, List.nil_append] at e
    have := elems_start h.parts c u e
    exact ⟨(by decide : ∀ c ∈ startChars, isWs c = false) c this, .inr this⟩
  | cons d l =>
    rw [hl, List.cons_append, List.cons.injEq] at e
    have hd : d ∈ t.lead := by rw [hl]; simp
    rw [← e.1]
    refine ⟨?_, .inl (prose_over h.lead d hd)⟩
    exact (plain_nows ((h.lead.chars d hd).resolve_right (by rw [e.1]; exact h2)) (by rw [e.1]; exact h1)).1

theorem word_in_lead {k lead r : Str} (hr : ∀ c r', r = c :: r' → c ∉ k) (h : k <+: lead ++ r) : k <+: lead := by
  cases r with
  | nil => simpa using h
  | cons c r => exact prefix_nochar (hr c r rfl) h

/-- Characters with which a text with inline elements begins. -/
def headA : Alpha := ⟨asciiAlnum ++ t!" ,./$\n*?-_%+~^@=!\"([", true⟩

theorem headA_wf : headA.wf = true := by decide

theorem divider_shape : ∃ r, DIVIDER_RE = .seq .bot r ∧ r.nonnull = true ∧ r.avoid headA = true := ⟨_, rfl, by decide +kernel, by decide +kernel⟩

theorem marked_begins {C : Ctx} (hU : UniOk C.U) {t : Spec.Marked} (h : t.Ok C.U.isLu C.cfg.lite) : Begins C t.source := by
  obtain ⟨c, u, e, hc, hm⟩ := first_of h
  refine ⟨⟨c, u, e, hc⟩, ?_, ?_⟩
  · obtain ⟨r, hr⟩ : ∃ r, NOTEDEF_RE = .seq .bot (lits t!"note#" r) := ⟨_, rfl⟩
    rw [hr]
    apply Re.search_bot
    apply lits_none
    intro hp
    rw [source_elems] at hp
    have := word_in_lead (fun c r e => (by decide : ∀ c ∈ startChars, c ∉ t!"note#") c (elems_start h.parts c r e)) hp
    exact prose_nochar h.lead (c := '#') (by decide) (by decide) (this.subset (by decide))
  · obtain ⟨r, hr, h1, h2⟩ := divider_shape
    rw [hr]
    apply Re.isMatch_none
    apply Re.search_bot
    cases hl : r.all C.U ⟨[], t.source⟩ [] with
    | nil => rfl
    | cons p l =>
      exfalso
      obtain ⟨w, hw, lw⟩ := Re.all_lang r ⟨[], t.source⟩ [] p (by rw [hl]; simp)
      have hne := Re.nonnull_lang h1 lw
      cases w with
      | nil => exact hne rfl
      | cons x w =>
        have hx := Re.avoid_lang hU headA_wf h2 lw x w rfl
        have e' : t.source = x :: w ++ p.1.rest := hw.1
        rw [e] at e'
        simp at e'
        rw [← e'.1] at hx
        rcases hm with hm | hm
        · exact hx (Alpha.mono (by decide) rfl hm)
        · exact hx (.inl ((by decide : ∀ c ∈ startChars, c ∈ headA.ascii) c hm))

theorem notelist_merge {C : Ctx} {base : Str} (D : DocCtx C base) {t : Spec.Marked} (h : t.Ok C.U.isLu C.cfg.lite) (σ : PState)
    (hn : ¬ Spec.notelistWord <+: t.source) :
    ¬ Spec.notelistWord <+: (merge C.cfg.uid t.lead (slots3 C.cfg.uid σ t).1).1 := by
  intro hp
  by_cases hne : t.parts = []
  · have h1 := slots3_after C.cfg.uid σ t
    rw [hne, List.map_nil, List.map_eq_nil_iff] at h1
    rw [h1] at hp
    rw [source_elems, hne] at hn
    simp only [elems, List.flatMap_nil, List.append_nil] at hn
    exact hn hp
  · rcases h.before hne with e | e
    · rw [e] at hp
      cases hL : (slots3 C.cfg.uid σ t).1 with
      | nil =>
        have h1 := slots3_after C.cfg.uid σ t
        rw [hL, List.map_nil] at h1
        exact hne (List.map_eq_nil_iff.1 h1.symm)
      | cons p L =>
        rw [hL] at hp
        obtain ⟨q, hq, ha, ⟨m, x, hi, hp'⟩ | ⟨n, hp', -⟩⟩ := slots3_mem (p := p) (uid := C.cfg.uid) (σ := σ) (t := t) (by rw [hL]; simp)
        · obtain ⟨s, a⟩ := p
          simp only at hp'
          subst hp'
          rw [merge] at hp
          have hp : Spec.notelistWord <+: [] := hp
          exact absurd hp (by decide)
        · obtain ⟨s, a⟩ := p
          simp only at hp'
          subst hp'
          obtain ⟨z, hz⟩ := merge_prefix C.cfg.uid L ([] ++ (Slot.str C.cfg.uid (.key n q.inl.html) ++ a))
          rw [show merge C.cfg.uid [] ((Slot.key n q.inl.html, a) :: L) =
            merge C.cfg.uid ([] ++ (Slot.str C.cfg.uid (.key n q.inl.html) ++ a)) L from rfl, ← hz] at hp
          obtain ⟨r, hr⟩ := key_cons (base := base) n
          rw [show Slot.str C.cfg.uid (.key n q.inl.html) = shelfKey C.cfg.uid n from rfl, D.uid, hr] at hp
          unfold Spec.notelistWord at hp
          simp at hp
    · obtain ⟨u, c, e, hc⟩ := ends_ws e
      obtain ⟨z, hz⟩ := merge_prefix C.cfg.uid (slots3 C.cfg.uid σ t).1 t.lead
      rw [← hz, e, List.append_assoc] at hp
      have hcn : c ∉ Spec.notelistWord := by
        intro hm
        have : ∀ c ∈ Spec.notelistWord, isWs c = false := by decide
        rw [this c hm] at hc; cases hc
      refine hn ((prefix_nochar hcn hp).trans ?_)
      rw [source_elems, e]
      exact ⟨[c] ++ elems t.parts, by simp⟩

/-! ## Blocks -/

/-- The block before newlines are put after the break tags. -/
def richMid (br : Str) : Spec.Rich → Str
  | .para t => openTag t!"p" ++ (bodyMid br t ++ closeTag t!"p")
  | .tagged tag t => openTag tag ++ (bodyMid br t ++ closeTag tag)
  | .quote t => t!"<blockquote>\n\t" ++ (openTag t!"p" ++ (bodyMid br t ++ (closeTag t!"p" ++ t!"\n</blockquote>")))

theorem body_infix (b : Spec.Rich) : b.body.source <:+: b.source := by
  cases b with
  | para t => exact List.infix_rfl
  | tagged tag t => exact ⟨tag ++ t!". ", [], by simp [Spec.Rich.body, Spec.Rich.source]⟩
  | quote t => exact ⟨t!"bq" ++ t!". ", [], by simp [Spec.Rich.body, Spec.Rich.source]⟩

theorem rich_step {C : Ctx} {base : Str} (D : DocCtx C base) {b : Spec.Rich} (h : b.Ok C.U.isLu C.U.isNd C.cfg.lite)
    (hR : b.body.Resolved (Spec.Resolves C.E.urlParse C.E.urlJoin C.cfg.restricted) C.cfg.rel)
    (htok : ¬ C.cfg.uid <:+: b.source) {σ : PState} (hd : σ.spanDepth + 1 ≤ C.cfg.maxSpanDepth) :
    ∃ σ' q, BlockTo C b.source b.body.parts.length σ σ' q (richMid C.cfg.brTag b) := by
  have htok' : ¬ C.cfg.uid <:+: b.body.source := fun hi => htok (hi.trans (body_infix b))
  obtain ⟨ht, hb⟩ := h
  cases b with
  | para t =>
    refine inline_para D (marked_source D ht hR htok' σ) (marked_begins D.uni ht) ?_ (notelist_merge D ht σ hb.2) hd
    have := tag_none_raw D.uni (prose_over ht.lead) (elems_start ht.parts) (fun hne => start_of ht (by rintro e; rw [e] at hne; exact hne rfl)) hb.1
    exact this
  | tagged tag t =>
    exact inline_tagged D (marked_source D ht hR htok' σ) (marked_begins D.uni ht) (tagged_mem hb.1).1 (tagged_mem hb.1).2
      (fun e => notelist_merge D ht σ (hb.2 e)) hd
  | quote t => exact inline_quote D (marked_source D ht hR htok' σ) (notelist_merge D ht σ hb) hd

/-! ## Lines -/

theorem lined_elems {up : Char → Bool} {lite : Bool} : ∀ {ps : List Spec.Part} {w : Str}, (∀ p ∈ ps, p.Ok up lite) → linedW w = true →
    (w ++ elems ps).getLast? ≠ some '\n' → lined (w ++ elems ps) = true
  | [], w, _, hw, hl => by
    refine lined_append hw rfl (fun e => ?_)
    rw [show w ++ elems [] = w by simp [elems]] at hl
    exact absurd e hl
  | p :: ps, w, hp, hw, hl => by
    have hok := hp p (by simp)
    obtain ⟨c, u, e, hc⟩ := inline_start hok.inl
    have e1 : elems (p :: ps) = p.inl.source ++ (p.after ++ elems ps) := by simp [elems]
    have hnl : '\n' ∉ p.inl.source := by
      have hi := hok.inl
      cases hi' : p.inl with
      | marked m x => rw [hi'] at hi; exact marked_nl hi
      | code x => rw [hi'] at hi; simp [Spec.Inline.source, hi.2.1.nonl]
      | verbatim x => rw [hi'] at hi; simp [Spec.Inline.source, hi.2.1.nonl]
      | link x u r l => rw [hi'] at hi; exact link_nonl hi
    refine lined_append hw ?_ (fun _ => ⟨c, u ++ (p.after ++ elems ps), by rw [e1, e]; rfl, (by decide : ∀ c ∈ startChars, lineStart c = true) c hc⟩)
    rw [e1]
    refine lined_text hnl (lined_elems (fun q hq => hp q (by simp [hq])) (prose_lined (up := up) hok.after.chars hok.after.lines) ?_)
    intro hc
    rw [e1, ← List.append_assoc, getLast_append_ne (by intro e; rw [e] at hc; simp at hc)] at hl
    exact hl hc

theorem marked_lined {up : Char → Bool} {lite : Bool} {t : Spec.Marked} (h : t.Ok up lite) : lined t.source = true ∧ '\r' ∉ t.source := by
  refine ⟨lined_elems h.parts (prose_lined (up := up) h.lead.chars h.lead.lines) ?_, ?_⟩
  · intro e
    obtain ⟨u, hu⟩ := List.getLast?_eq_some_iff.1 e
    exact h.last u hu
  · intro hr
    rw [source_elems] at hr
    rcases List.mem_append.1 hr with hr | hr
    · exact prose_nochar h.lead (by decide) (by decide) hr
    · obtain ⟨p, hp, hr⟩ := List.mem_flatMap.1 hr
      have hok := h.parts p hp
      rcases List.mem_append.1 hr with hr | hr
      · have hi := hok.inl
        cases hi' : p.inl with
        | marked m x => rw [hi'] at hi hr; exact marked_nochar hi (by decide) (by decide) hr
        | code x => rw [hi'] at hi hr; simp [Spec.Inline.source, hi.2.1.nocr] at hr
        | verbatim x => rw [hi'] at hi hr; simp [Spec.Inline.source, hi.2.1.nocr] at hr
        | link x u r l => rw [hi'] at hi hr; exact link_nochar hi (by decide) (by decide) hr
      · exact prose_nochar hok.after (by decide) (by decide) hr

theorem rich_lined {C : Ctx} {b : Spec.Rich} (h : b.Ok C.U.isLu C.U.isNd C.cfg.lite) : lined b.source = true ∧ '\r' ∉ b.source ∧
    ∃ c u, b.source = c :: u ∧ isWs c = false := by
  obtain ⟨ht, hb⟩ := h
  obtain ⟨k1, k2⟩ := marked_lined ht
  cases b with
  | para t => obtain ⟨c, u, e, hc, -⟩ := first_of ht; exact ⟨k1, k2, c, u, e, hc⟩
  | tagged tag t =>
    have hm := (tagged_mem hb.1).1
    have h1 : ∀ tag ∈ brTags, '\n' ∉ tag ∧ '\r' ∉ tag := by decide
    refine ⟨lined_text (h1 tag hm).1 (lined_text (by decide) k1), ?_, ?_⟩
    · have k2' : '\r' ∉ t.source := k2
      simp [Spec.Rich.source, (h1 tag hm).2, k2']
    · simp only [brTags, List.mem_cons, List.not_mem_nil, or_false] at hm
      rcases hm with rfl | rfl | rfl | rfl | rfl | rfl | rfl <;> exact ⟨_, _, rfl, by decide⟩
  | quote t =>
    have k2' : '\r' ∉ t.source := k2
    exact ⟨lined_text (w := t!"bq. ") (by decide) k1, by simp [Spec.Rich.source, k2'], ⟨_, _, rfl, by decide⟩⟩

theorem rich_lines {C : Ctx} {b : Spec.Rich} (h : b.Ok C.U.isLu C.U.isNd C.cfg.lite) :
    ∃ ls, ls ≠ [] ∧ (∀ l ∈ ls, Spec.RawLine l) ∧ b.source = Spec.join t!"\n" ls := by
  obtain ⟨h2, hr, c, u, e, hc⟩ := rich_lined h
  rw [e] at h2 hr ⊢
  exact lines_of u (p := [c]) (lined_tail h2) hr (by simp; rintro rfl; revert hc; decide) (blank_not hc)

theorem normalize_lines {U : Uni} {ps : List (Str × Nat)} (hl : ∀ p ∈ ps, ∃ ls, ls ≠ [] ∧ (∀ l ∈ ls, Spec.RawLine l) ∧ p.1 = Spec.join t!"\n" ls) :
    normalizeNewlines U (Spec.glue ps) = Spec.glue ps ∧ ∀ p ∈ ps, Chunk p.1 := by
  have hch : ∀ p ∈ ps, Chunk p.1 := by
    intro p hp
    obtain ⟨ls, h1, h2, h3⟩ := hl p hp
    rw [h3]; exact chunk_lines h1 h2
  refine ⟨?_, hch⟩
  have hr : '\r' ∉ Spec.glue ps := by
    refine glue_nochar (by decide) ?_
    intro p hp
    obtain ⟨ls, h1, h2, h3⟩ := hl p hp
    rw [h3]; exact join_nochar (by decide) (fun l hl => (h2 l hl).2.1)
  rw [normalize_eq, unixNewlines_id hr, clear_glue hl]
  unfold trimP trimStartP
  rw [dropWhile_of_head]
  · apply trimEndP_of_last
    intro c hc
    have := glue_last (fun p hp => ⟨(hch p hp).ne, (hch p hp).last⟩)
    rw [hc] at this
    simpa using this
  · intro c hc
    have := glue_head hch
    rw [hc] at this
    simpa using this

/-! ## The end of the conversion -/

theorem tidy_brk {br z : Str} (hb : br = t!"<br>" ∨ br = t!"<br />") : ∀ {w : Str}, linedW w = true → '<' ∉ w →
    (w.getLast? = some '\n' → z.head? ≠ some '\n') →
    Spec.tidyBreaks br (brk br w ++ z) = Spec.breakLines br w ++ Spec.tidyBreaks br z
  | [], _, _, _ => rfl
  | c :: w, h, hl, hz => by
    simp at hl
    have hw : linedW w = true := by
      cases w with
      | nil => rfl
      | cons d w => simp only [linedW, Bool.and_eq_true] at h; exact h.2
    have hz' : w.getLast? = some '\n' → z.head? ≠ some '\n' := by
      intro e; apply hz
      cases w with
      | nil => simp at e
      | cons d w => rw [List.getLast?_cons_cons]; exact e
    have ih := tidy_brk hb hw hl.2 hz'
    by_cases hc : c = '\n'
    · subst hc
      rw [brk_nl, List.append_assoc, tidyBreaks_br hb, ih]
      · simp [Spec.breakLines]
      · cases w with
        | nil => exact hz rfl
        | cons d w =>
          simp only [linedW, Bool.and_eq_true, Bool.or_eq_true, bne_self_eq_false, Bool.false_eq_true, false_or] at h
          have hd : d ≠ '\n' := by rintro rfl; exact absurd h.1 (by decide)
          rw [brk_cons hd]; simp [hd]
    · rw [brk_cons hc, List.cons_append, show c :: (brk br w ++ z) = [c] ++ (brk br w ++ z) from rfl,
        tidyBreaks_free (Free.of_head rfl (by simpa using hl.1)), ih]
      simp [Spec.breakLines, hc]

theorem span_free : ∀ m ∈ markers, free t!"<br" (openTag (tagName m)) = true ∧ free t!"<br" (closeTag (tagName m)) = true := by
  decide

/-- No break tag starts in the HTML of an element. -/
theorem inline_free {up : Char → Bool} {lite : Bool} {i : Spec.Inline} {a : Str} (h : i.Ok up lite a) : Free t!"<br" i.html := by
  cases i with
  | marked m x =>
    obtain ⟨h1, h2⟩ := part_marker h.1
    obtain ⟨f1, f2⟩ := span_free m h1
    have e : (Spec.Inline.marked m x).html = openTag (tagName m) ++ (x ++ closeTag (tagName m)) := by
      simp [Spec.Inline.html, Spec.element, openTag, closeTag, h2]
    rw [e]
    exact (Free.of f1).append ((Free.of_head rfl (fun hc => Alpha.not_mem (by decide) (by decide) ((words_prose h.2.1).1 _ hc))).append (Free.of f2))
  | code x =>
    rw [code_html]
    exact ((Free.of (by decide)).append (Free.of_head rfl enc_nolt)).append (Free.of (by decide))
  | link x u r l =>
    have e : (Spec.Inline.link x u r l).html = t!"<a href=\"" ++ (Spec.escape true r ++ (t!"\"" ++ (relAttr l ++ (t!">" ++ (x ++ t!"</a>"))))) := by
      cases l <;> simp [Spec.Inline.html, Spec.linkTag, Spec.htmlAttr, relAttr]
    rw [e, escape_eq]
    have h1 : '<' ∉ relAttr l := by
      cases l with
      | none => simp [relAttr]
      | some y =>
        have : '<' ∉ y := fun hc => absurd (h.rel y rfl '<' hc) (by decide)
        simp [relAttr, this]
    exact (Free.of (by decide)).append ((Free.of_head rfl enc_nolt).append ((Free.of (by decide)).append ((Free.of_head rfl h1).append
      ((Free.of (by decide)).append ((Free.of_head rfl (fun hc => Alpha.not_mem (by decide) (by decide) ((words_prose h.words).1 _ hc))).append
        (Free.of (by decide)))))))
  | verbatim x =>
    obtain ⟨-, -, -, ⟨h1, h2⟩, -⟩ := h
    intro u v e hv
    simp only [Spec.Inline.html] at e
    refine ⟨?_, ?_⟩
    · rintro ⟨y, rfl⟩
      exact h1 ⟨u, y, by rw [e]; simp⟩
    · rintro ⟨y, hy⟩
      match v, hv, hy with
      | [z], _, hy => simp at hy; exact (h2 u).1 (by rw [e, ← hy.1])
      | [z, z'], _, hy => simp at hy; exact (h2 u).2 (by rw [e, ← hy.1, ← hy.2.1])
      | [z, z', z''], _, hy => simp at hy; exact h1 ⟨u, [], by rw [e, ← hy.1, ← hy.2.1, ← hy.2.2.1]; simp⟩
      | z :: z' :: z'' :: z3 :: v, _, hy => simp at hy

theorem inline_nonl {up : Char → Bool} {lite : Bool} {i : Spec.Inline} {a : Str} (h : i.Ok up lite a) : i.html.head? ≠ some '\n' := by
  cases i with
  | marked m x => simp [Spec.Inline.html, Spec.element]
  | code x => simp [Spec.Inline.html, Spec.element]
  | link x u r l => simp [Spec.Inline.html, Spec.linkTag]
  | verbatim x =>
    intro e
    obtain ⟨u, hu⟩ := List.head?_eq_some_iff.1 e
    exact h.2.1.nonl (by rw [show x = '\n' :: u from hu]; simp)

theorem brk_head {br z : Str} (hb : br = t!"<br>" ∨ br = t!"<br />") (hz : z.head? ≠ some '\n') {w : Str} : (brk br w ++ z).head? ≠ some '\n' := by
  cases w with
  | nil => exact hz
  | cons c w =>
    by_cases hc : c = '\n'
    · subst hc
      rw [brk_nl]
      rcases hb with rfl | rfl <;> simp
    · rw [brk_cons hc]; simpa using hc

theorem tidy_parts {up : Char → Bool} {lite : Bool} {br z : Str} (hb : br = t!"<br>" ∨ br = t!"<br />") (hz : z.head? ≠ some '\n') :
    ∀ {ps : List Spec.Part}, (∀ p ∈ ps, p.Ok up lite) →
    Spec.tidyBreaks br (ps.flatMap (fun p => p.inl.html ++ brk br p.after) ++ z) =
      ps.flatMap (fun p => p.inl.html ++ Spec.breakLines br p.after) ++ Spec.tidyBreaks br z ∧
    (ps.flatMap (fun p => p.inl.html ++ brk br p.after) ++ z).head? ≠ some '\n'
  | [], _ => ⟨by simp, hz⟩
  | p :: ps, h => by
    obtain ⟨ih, ih'⟩ := tidy_parts hb hz (ps := ps) (fun q hq => h q (by simp [hq]))
    have hp := h p (by simp)
    have e : (p :: ps).flatMap (fun p => p.inl.html ++ brk br p.after) ++ z =
        p.inl.html ++ (brk br p.after ++ (ps.flatMap (fun p => p.inl.html ++ brk br p.after) ++ z)) := by simp
    refine ⟨?_, ?_⟩
    · rw [e, tidyBreaks_free (inline_free hp.inl), tidy_brk hb (prose_lined (up := up) hp.after.chars hp.after.lines)
        (prose_nochar hp.after (by decide) (by decide)) (fun _ => ih'), ih]
      simp
    · rw [e]
      have := inline_nonl hp.inl
      cases hh : p.inl.html with
      | nil => exact brk_head hb ih'
      | cons c u => rw [hh] at this; simpa using this

theorem tidy_text {C : Ctx} {t : Spec.Marked} (h : t.Ok C.U.isLu C.cfg.lite) {z : Str} (hz : z.head? ≠ some '\n') :
    Spec.tidyBreaks C.cfg.brTag (bodyMid C.cfg.brTag t ++ z) = t.html C.cfg.brTag ++ Spec.tidyBreaks C.cfg.brTag z := by
  obtain ⟨h1, h2⟩ := tidy_parts (brTag_cases C.cfg) hz (ps := t.parts) h.parts
  rw [bodyMid, List.append_assoc, tidy_brk (brTag_cases C.cfg) (prose_lined (up := C.U.isLu) h.lead.chars h.lead.lines)
    (prose_nochar h.lead (by decide) (by decide)) (fun _ => h2), h1]
  simp [Spec.Marked.html]

theorem rich_turns {C : Ctx} {b : Spec.Rich} (h : b.Ok C.U.isLu C.U.isNd C.cfg.lite) :
    Turns (Spec.tidyBreaks C.cfg.brTag) (richMid C.cfg.brTag b) (b.html C.cfg.brTag) := by
  have ht : ∀ tag ∈ brTags, Free t!"<br" (openTag tag) ∧ Free t!"<br" (closeTag tag) := by
    intro tag ht
    exact ⟨(brFree_tags tag ht).1.1, (brFree_tags tag ht).2.1⟩
  intro r hr
  obtain ⟨h1, h2⟩ := h
  cases b with
  | para t =>
    simp only [richMid, List.append_assoc]
    rw [tidyBreaks_free (ht t!"p" (by decide)).1, tidy_text (t := t) h1 (by simp [closeTag]), tidyBreaks_free (ht t!"p" (by decide)).2]
    simp [Spec.Rich.html, Spec.element, openTag, closeTag]
  | tagged tag t =>
    have hm := (tagged_mem h2.1).1
    simp only [richMid, List.append_assoc]
    rw [tidyBreaks_free (ht tag hm).1, tidy_text (t := t) h1 (by simp [closeTag]), tidyBreaks_free (ht tag hm).2]
    simp [Spec.Rich.html, Spec.element, openTag, closeTag]
  | quote t =>
    simp only [richMid, List.append_assoc]
    rw [tidyBreaks_free (Free.of (by decide)), tidyBreaks_free (ht t!"p" (by decide)).1, tidy_text (t := t) h1 (by simp [closeTag]),
      tidyBreaks_free (ht t!"p" (by decide)).2, tidyBreaks_free (Free.of (by decide))]
    simp [Spec.Rich.html, Spec.element, openTag, closeTag]

theorem rich_end {br : Str} (b : Spec.Rich) : b.html br ≠ [] ∧ (b.html br).getLast? ≠ some '\n' := by
  have key : ∀ tag t : Str, Spec.element tag t ≠ [] ∧ (Spec.element tag t).getLast? ≠ some '\n' := by
    intro tag t
    have : Spec.element tag t = '<' :: (tag ++ t!">" ++ t ++ t!"</" ++ tag) ++ ['>'] := by simp [Spec.element]
    rw [this, List.getLast?_append]
    simp
  cases b <;> exact key _ _

/-! ## Restricted mode: the source is escaped first -/

theorem entity_chars {q : Bool} {c : Char} : encChar q false c = [c] ∨
    ∃ e, encChar q false c = '&' :: e ++ [';'] ∧ ∀ x ∈ e, x ∈ t!"ampltgquo#39" := by
  unfold encChar
  simp only [Bool.false_and, Bool.false_eq_true, if_false]
  (repeat' split) <;> first
    | exact .inl rfl
    | exact .inr ⟨t!"amp", rfl, by decide⟩
    | exact .inr ⟨t!"lt", rfl, by decide⟩
    | exact .inr ⟨t!"gt", rfl, by decide⟩
    | exact .inr ⟨t!"quot", rfl, by decide⟩
    | exact .inr ⟨t!"#39", rfl, by decide⟩

theorem enc_mem {c : Char} {t : Str} (hc : c ∉ t!"&;ampltgquo#39") (h : c ∈ encodeHtml t false false) : c ∈ t := by
  obtain ⟨x, hx, hm⟩ := List.mem_flatMap.1 h
  rcases entity_chars (q := false) (c := x) with e | ⟨e', e, he⟩
  · rw [e] at hm; simp at hm; rw [hm]; exact hx
  · exfalso
    rw [e] at hm
    simp only [List.cons_append, List.mem_cons, List.mem_append, List.not_mem_nil, or_false] at hm
    apply hc
    rcases hm with rfl | hm | rfl
    · decide
    · exact (by decide : ∀ x ∈ t!"ampltgquo#39", x ∈ t!"&;ampltgquo#39") c (he c hm)
    · decide

theorem enc_cons (c : Char) (t : Str) : encodeHtml (c :: t) false false = encChar false false c ++ encodeHtml t false false := rfl

/-- A word that does not begin inside an entity. -/
theorem infix_enc {k : Str} {d : Char} (h0 : k.head? = some d) (hd : d ∉ t!"&;ampltgquo#39") (hk : '&' ∉ k) : ∀ {t : Str},
    k <:+: encodeHtml t false false → k <:+: t
  | [], ⟨a, b, e⟩ => by
    have : k = [] := by
      have e : a ++ k ++ b = [] := e
      simp at e
      exact e.2.1
    rw [this] at h0; cases h0
  | c :: t, h => by
    obtain ⟨a, b, e⟩ := h
    by_cases ha : a = []
    · subst ha
      exact (prefix_enc (q := false) hk ⟨b, by simpa using e⟩).isInfix
    · have key : k <:+: encodeHtml t false false := by
        rw [enc_cons, List.append_assoc] at e
        rw [List.append_eq_append_iff] at e
        rcases e with ⟨z, h1, h2⟩ | ⟨z, h1, h2⟩
        · cases z with
          | nil => exact ⟨[], b, by simpa using h2⟩
          | cons y z =>
            exfalso
            obtain ⟨k', rfl⟩ := List.head?_eq_some_iff.1 h0
            simp only [List.cons_append, List.cons.injEq] at h2
            have hy : d ∈ encChar false false c := by rw [h1, ← h2.1]; simp
            rcases entity_chars (q := false) (c := c) with e | ⟨e', e, he⟩
            · rw [e] at h1
              cases a with
              | nil => exact ha rfl
              | cons x a => simp at h1
            · rw [e] at hy
              simp only [List.cons_append, List.mem_cons, List.mem_append, List.not_mem_nil, or_false] at hy
              apply hd
              rcases hy with rfl | hy | rfl
              · decide
              · exact (by decide : ∀ x ∈ t!"ampltgquo#39", x ∈ t!"&;ampltgquo#39") d (he d hy)
              · decide
        · exact ⟨z, b, by rw [h2]; simp⟩
      obtain ⟨x, y, e'⟩ := infix_enc h0 hd hk key
      exact ⟨c :: x, y, by rw [← e']; rfl⟩

theorem enc_first {c : Char} {t : Str} : ∃ d u, encodeHtml (c :: t) false false = d :: u ∧ (d = c ∨ d = '&') := by
  rw [enc_cons]
  rcases entity_chars (q := false) (c := c) with e | ⟨e', e, -⟩
  · exact ⟨c, _, by rw [e]; rfl, .inl rfl⟩
  · exact ⟨'&', _, by rw [e]; rfl, .inr rfl⟩

theorem enc_last {c : Char} {t : Str} : ∃ u d, encodeHtml (t ++ [c]) false false = u ++ [d] ∧ (d = c ∨ d = ';') := by
  rw [enc_append]
  have : encodeHtml [c] false false = encChar false false c := by simp [encodeHtml]
  rw [this]
  rcases entity_chars (q := false) (c := c) with e | ⟨e', e, -⟩
  · exact ⟨_, c, by rw [e], .inl rfl⟩
  · exact ⟨encodeHtml t false false ++ '&' :: e', ';', by rw [e]; simp, .inr rfl⟩

theorem enc_ends {c : Char} (hc : c ≠ ';') {t u : Str} (h : encodeHtml t false false = u ++ [c]) : ∃ v, t = v ++ [c] := by
  rcases List.eq_nil_or_concat t with rfl | ⟨v, x, rfl⟩
  · simp [encodeHtml] at h
  · rw [List.concat_eq_append] at h ⊢
    obtain ⟨u', d, e, hd⟩ := enc_last (c := x) (t := v)
    rw [e] at h
    have := (List.append_inj' h rfl).2
    simp at this
    subst this
    rcases hd with rfl | rfl
    · exact ⟨v, rfl⟩
    · exact absurd rfl hc

theorem escaped_quoted {x : Str} (h : Spec.Quoted x) : Spec.Quoted (Spec.escape false x) := by
  rw [escape_eq]
  refine ⟨fun hm => h.nonl (enc_mem (by decide) hm), fun hm => h.nocr (enc_mem (by decide) hm),
    fun hi => h.noeq (infix_enc (d := '=') rfl (by decide) (by decide) hi), ?_⟩
  intro hi
  exact enc_nolt (hi.subset (by simp))

theorem escaped_inline {up : Char → Bool} {lite : Bool} {i : Spec.Inline} {a : Str} (h : i.Ok up lite a) : i.escaped.Ok up lite a := by
  cases i with
  | marked m x => exact h
  | link x u r l => exact h
  | code x =>
    refine ⟨h.1, escaped_quoted h.2.1, ?_, ?_⟩
    · rw [escape_eq]; exact fun hm => h.2.2.1 (enc_mem (by decide) hm)
    · rw [escape_eq]; exact fun hi => enc_nolt (hi.subset (by simp))
  | verbatim x =>
    refine ⟨h.1, escaped_quoted h.2.1, ?_, ⟨?_, ?_⟩, ?_⟩
    · intro u e
      rw [escape_eq] at e
      obtain ⟨v, hv⟩ := enc_ends (by decide) e
      exact h.2.2.1 v hv
    · rw [escape_eq]; exact fun hi => enc_nolt (hi.subset (by simp))
    · intro u
      rw [escape_eq]
      exact ⟨fun e => enc_nolt (by rw [e]; simp), fun e => enc_nolt (by rw [e]; simp)⟩
    · intro hc
      rw [escape_eq] at hc ⊢
      obtain ⟨⟨c, u, e, h1⟩, v, d, e', h2⟩ := h.2.2.2.2 (enc_mem (by decide) hc)
      refine ⟨?_, ?_⟩
      · obtain ⟨y, z, hy, hyc⟩ := enc_first (c := c) (t := u)
        refine ⟨y, z, by rw [e]; exact hy, ?_⟩
        rcases hyc with rfl | rfl
        · exact h1
        · decide
      · obtain ⟨y, z, hy, hyc⟩ := enc_last (c := d) (t := v)
        refine ⟨y, z, by rw [e']; exact hy, ?_⟩
        rcases hyc with rfl | rfl
        · exact h2
        · decide

theorem raw_plain {c : Char} (h : rawA.Mem c) : c ∉ t!"&<>\"'" := by
  intro hm
  have : ∀ c ∈ t!"&<>\"'", c ∉ rawA.ascii ∧ c.toNat < 128 := by decide
  exact Alpha.not_mem (this c hm).1 (this c hm).2 h

theorem enc_prose {up : Char → Bool} {a : Str} (h : Spec.Prose up a) : encodeHtml a false false = a :=
  enc_id (fun c hc => raw_plain (linesA_raw (prose_over h c hc)))

theorem enc_quotes {t : Str} (h : ∀ c ∈ t, c ∉ t!"&<>") : encodeHtml t false false = t := by
  induction t with
  | nil => rfl
  | cons c t ih =>
    have hc := h c (by simp)
    simp only [List.mem_cons, List.not_mem_nil, or_false, not_or] at hc
    rw [enc_cons, ih (fun d hd => h d (List.mem_cons_of_mem _ hd))]
    simp [encChar, hc]

theorem enc_inline {up : Char → Bool} {lite : Bool} {i : Spec.Inline} {a : Str} (h : i.Ok up lite a) :
    encodeHtml i.source false false = i.escaped.source := by
  cases i with
  | marked m x =>
    apply enc_id
    intro c hc hm
    have : ∀ c ∈ t!"&<>\"'", c ∉ rawA.ascii ∧ c.toNat < 128 := by decide
    exact marked_nochar h (this c hm).1 (this c hm).2 hc
  | link x u r l =>
    simp only [Spec.Inline.escaped]
    apply enc_quotes
    intro c hc hm
    have : ∀ c ∈ t!"&<>", c ∉ linkA.ascii ∧ c.toNat < 128 := by decide
    exact link_nochar h (this c hm).1 (this c hm).2 hc
  | code x =>
    simp only [Spec.Inline.source, Spec.Inline.escaped, escape_eq, enc_append]
    rfl
  | verbatim x =>
    simp only [Spec.Inline.source, Spec.Inline.escaped, escape_eq, enc_append]
    rfl

theorem enc_elems {up : Char → Bool} {lite : Bool} : ∀ {ps : List Spec.Part}, (∀ p ∈ ps, p.Ok up lite) →
    encodeHtml (elems ps) false false = elems (ps.map (fun p => { p with inl := p.inl.escaped }))
  | [], _ => rfl
  | p :: ps, h => by
    have ih := enc_elems (ps := ps) (fun q hq => h q (by simp [hq]))
    have hp := h p (by simp)
    have e : elems (p :: ps) = p.inl.source ++ (p.after ++ elems ps) := by simp [elems]
    rw [e, enc_append, enc_append, enc_inline hp.inl, enc_prose hp.after, ih]
    simp [elems]

theorem enc_marked {up : Char → Bool} {lite : Bool} {t : Spec.Marked} (h : t.Ok up lite) :
    encodeHtml t.source false false = t.escaped.source := by
  rw [source_elems, enc_append, enc_prose h.lead, enc_elems h.parts]
  rfl

theorem escaped_marked {up : Char → Bool} {lite : Bool} {t : Spec.Marked} (h : t.Ok up lite) : t.escaped.Ok up lite where
  lead := h.lead
  parts := by
    intro p hp
    obtain ⟨q, hq, rfl⟩ := List.mem_map.1 hp
    exact ⟨escaped_inline (h.parts q hq).inl, (h.parts q hq).after⟩
  before := fun hne => h.before (by rintro e; simp [Spec.Marked.escaped, e] at hne)
  between := by
    intro p hp
    simp only [Spec.Marked.escaped, ← List.map_dropLast] at hp
    obtain ⟨q, hq, rfl⟩ := List.mem_map.1 hp
    exact h.between q hq
  first := by
    obtain ⟨c, u, e, h1, h2⟩ := h.first
    rw [← enc_marked h, e]
    obtain ⟨d, v, e', hd⟩ := enc_first (c := c) (t := u)
    refine ⟨d, v, e', ?_⟩
    rcases hd with rfl | rfl
    · exact ⟨h1, h2⟩
    · decide
  last := by
    intro u e
    rw [← enc_marked h] at e
    obtain ⟨v, hv⟩ := enc_ends (by decide) e
    exact h.last v hv

theorem escaped_resolved {R : Str → Str → Prop} {rel : Option Str} {t : Spec.Marked} (h : t.Resolved R rel) : t.escaped.Resolved R rel := by
  intro p hp
  obtain ⟨q, hq, rfl⟩ := List.mem_map.1 hp
  have := h q hq
  cases hi : q.inl <;> simp only [hi, Spec.Inline.escaped] at this ⊢ <;> first | exact this | trivial

theorem rich_resolved {R : Str → Str → Prop} {rel : Option Str} {b : Spec.Rich} (h : b.body.Resolved R rel) : b.escaped.body.Resolved R rel := by
  cases b <;> exact escaped_resolved h

theorem blockWord_noamp {U : Uni} (hU : UniOk U) {lite : Bool} {w : Str} (h : Spec.blockWord U.isNd lite w) : '&' ∉ w := by
  unfold Spec.blockWord at h
  split at h
  · unfold Spec.liteWord at h; revert w; decide
  · rcases h with h | ⟨d, ds, rfl, hds⟩
    · revert w; decide
    · intro hc
      simp only [List.mem_cons] at hc
      rcases hc with hc | hc | hc
      · revert hc; decide
      · revert hc; decide
      · have := hds '&' (by simpa using hc)
        rw [hU.dec '&' (by decide)] at this
        revert this; decide

theorem escaped_rich {C : Ctx} (hU : UniOk C.U) {b : Spec.Rich} (h : b.Ok C.U.isLu C.U.isNd C.cfg.lite) :
    b.escaped.Ok C.U.isLu C.U.isNd C.cfg.lite ∧ encodeHtml b.source false false = b.escaped.source := by
  obtain ⟨ht, hb⟩ := h
  have hn : ∀ t : Spec.Marked, t.Ok C.U.isLu C.cfg.lite → ¬ Spec.notelistWord <+: t.source → ¬ Spec.notelistWord <+: t.escaped.source := by
    intro t ht hn hp
    rw [← enc_marked ht] at hp
    exact hn (prefix_enc (by decide) hp)
  cases b with
  | para t =>
    have ht : t.Ok C.U.isLu C.cfg.lite := ht
    refine ⟨⟨escaped_marked ht, ?_, hn t ht hb.2⟩, enc_marked ht⟩
    intro w u e hw
    have e : t.escaped.source = w ++ '.' :: u := e
    rw [← enc_marked ht] at e
    obtain ⟨v, hv⟩ := prefix_enc (q := false) (k := w ++ ['.']) (t := t.source) (by simp [blockWord_noamp hU hw]) ⟨u, by rw [e]; simp⟩
    exact hb.1 w v (by rw [← hv]; simp) hw
  | tagged tag t =>
    have ht : t.Ok C.U.isLu C.cfg.lite := ht
    refine ⟨⟨escaped_marked ht, hb.1, fun e => hn t ht (hb.2 e)⟩, ?_⟩
    have hp : ∀ tag ∈ brTags, encodeHtml tag false false = tag := by decide
    simp only [Spec.Rich.source, Spec.Rich.escaped]
    rw [enc_append, enc_append, enc_marked ht, hp tag (tagged_mem hb.1).1]
    rfl
  | quote t =>
    have ht : t.Ok C.U.isLu C.cfg.lite := ht
    refine ⟨⟨escaped_marked ht, hn t ht hb⟩, ?_⟩
    simp only [Spec.Rich.source, Spec.Rich.escaped]
    rw [enc_append, enc_append, enc_marked ht]
    rfl

end Rustextile
