import Verif.ClassText

/-!
# Documents with classes in marked parts
-/

namespace Rustextile

open Prog

/-! ## The text between the parts -/

def clPart (p : Spec.ClassPart) : Part := (p.marker, p.text, p.after)

theorem cl_merge (uid : Str) : ∀ (ps : List Spec.ClassPart) (w : Str),
    merge uid w (ps.map (fun p => (Slot.inl (.marked p.marker p.text), p.after))) = (w, ps.map clPart)
  | [], w => rfl
  | p :: ps, w => by
    have ih := cl_merge uid ps p.after
    simp only [List.map_cons, merge, ih]
    rfl

theorem cl_plain (t : Spec.ClassText) : t.lead ++ rawText (t.parts.map clPart) = t.plain.source := by
  simp [Spec.ClassText.plain, Spec.Marked.source, rawText, List.flatMap_map, clPart, Spec.Inline.source]

theorem cl_textOk {C : Ctx} {base : Str} (D : DocCtx C base) {t : Spec.ClassText} (h : t.Ok C.U.isLu C.cfg.lite) :
    TextOk C t.lead (t.parts.map clPart) := by
  have hm := merge_ok D (t.parts.map (fun p => (Slot.inl (.marked p.marker p.text), p.after))) true t.lead (prose_lead h.plain.lead true)
    (by
      intro p hp
      obtain ⟨q, hq, rfl⟩ := List.mem_map.1 hp
      have := cl_parts h q hq
      exact ⟨this.after, this.inl⟩)
    (fun hne => start_of h.plain (by
      intro e
      apply hne
      simp [Spec.ClassText.plain] at e
      simp [e]))
    (by
      intro p hp
      rw [← List.map_dropLast] at hp
      obtain ⟨q, hq, rfl⟩ := List.mem_map.1 hp
      exact cl_between h q hq)
  rw [cl_merge] at hm
  refine hm.text ?_ ?_
  · rw [cl_plain]
    obtain ⟨c, u, e, -⟩ := h.plain.first
    rw [e]; simp
  · rw [cl_plain]
    rintro c hc rfl
    obtain ⟨u, hu⟩ := List.getLast?_eq_some_iff.1 hc
    exact h.plain.last u hu

/-- The last text without marks. -/
def lastGap : Str → List Spec.ClassPart → Str
  | w, [] => w
  | _, p :: ps => lastGap p.after ps

theorem lastGap_suffix : ∀ (ps : List Spec.ClassPart) (w : Str), ∃ u, t!"" ++ (w ++ rawText (ps.map clPart)) = u ++ lastGap w ps
  | [], w => ⟨[], by simp [rawText, lastGap]⟩
  | p :: ps, w => by
    obtain ⟨u, e⟩ := lastGap_suffix ps p.after
    refine ⟨w ++ (p.marker ++ (p.text ++ (p.marker ++ u))), ?_⟩
    rw [List.nil_append] at e ⊢
    rw [show rawText ((p :: ps).map clPart) = p.marker ++ (p.text ++ (p.marker ++ (p.after ++ rawText (ps.map clPart)))) by simp [rawText, clPart], e]
    simp [lastGap]

theorem cl_last {U : Uni} {lite : Bool} {t : Spec.ClassText} (h : t.Ok U.isLu lite) : (lastGap t.lead t.parts).getLast? ≠ some '\n' := by
  intro e
  obtain ⟨v, hv⟩ := List.getLast?_eq_some_iff.1 e
  obtain ⟨u, hu⟩ := lastGap_suffix t.parts t.lead
  rw [List.nil_append, cl_plain, hv] at hu
  exact h.plain.last (u ++ v) (by rw [hu]; simp)

theorem lined_form {f : Spec.ClassPart → Str} : ∀ {ps : List Spec.ClassPart} {w : Str}, linedW w = true → (∀ p ∈ ps, linedW p.after = true) →
    (∀ p ∈ ps, '\n' ∉ f p ∧ ∃ c u, f p = c :: u ∧ lineStart c = true) → (lastGap w ps).getLast? ≠ some '\n' → lined (w ++ clForm f ps) = true
  | [], w, hw, _, _, hl => by
    have := lined_append (r := []) hw rfl (fun e => absurd e hl)
    simpa [clForm] using this
  | p :: ps, w, hw, hg, hf, hl => by
    obtain ⟨h1, c, u, e, hc⟩ := hf p (by simp)
    have ih := lined_form (f := f) (ps := ps) (hg p (by simp)) (fun q hq => hg q (by simp [hq])) (fun q hq => hf q (by simp [hq])) hl
    rw [clForm_cons]
    exact lined_append hw (lined_text h1 ih) (fun _ => ⟨c, u ++ (p.after ++ clForm f ps), by rw [e]; rfl, hc⟩)

/-! ## The tags -/

theorem atts_html_not {p : Spec.ClassPart} (h : ∀ n i, p.group = some (n, i) → Spec.GroupOk n i) (r : Bool) {c : Char}
    (h1 : c ∉ grpA.ascii) (h2 : c ∉ t!"classid=\" ") : c ∉ p.atts.html r := by
  have hm : ∀ {c : Char}, Spec.isLetterOrDigit c = true → c ∈ grpA.ascii := fun hc => by
    have := label_mem hc
    simp only [grpA, List.mem_append]; exact .inl this
  simp only [List.mem_cons, List.not_mem_nil, or_false, not_or] at h2
  cases hg : p.group with
  | none => simp [Spec.ClassPart.atts, hg, Spec.Atts.html, Spec.attr, Spec.Atts.cls, Spec.Atts.id, Spec.Atts.language, Spec.Atts.declarations, Spec.Atts.layout]
  | some q =>
    obtain ⟨n, i⟩ := q
    obtain ⟨-, g2, g3⟩ := h n i hg
    have hn : c ∉ n := by
      intro hc
      rcases g2 c hc with h | rfl
      · exact h1 (hm h)
      · exact h1 (by decide +kernel)
    have hi : ∀ j, i = some j → c ∉ j := fun j hj hc => h1 (hm ((g3 j hj).2 c hc))
    cases r
    · by_cases hn' : n = [] <;> cases i <;>
        simp [Spec.ClassPart.atts, hg, Spec.Atts.html, Spec.attr, Spec.Atts.cls, Spec.Atts.id, Spec.Atts.language, Spec.Atts.declarations, Spec.Atts.layout, hn', hn, h2] <;>
        exact hi _ rfl
    · simp [Spec.ClassPart.atts, hg, Spec.Atts.html, Spec.attr, Spec.Atts.cls, Spec.Atts.id, Spec.Atts.language, Spec.Atts.declarations, Spec.Atts.layout]

/-- A marked part with its tags. -/
def clTagged (r : Bool) (p : Spec.ClassPart) : Str :=
  openTagA (tagName p.marker) (p.atts.html r) ++ (p.text ++ closeTag (tagName p.marker))

theorem tagName_chars : ∀ m ∈ markers, ∀ c ∈ t!":<>\n\r", c ∉ tagName m := by decide

theorem cl_marker {U : Uni} {lite : Bool} {p : Spec.ClassPart} (h : ClPart U lite p) : p.marker ∈ markers ∧ tagName p.marker = Spec.inlineElement p.marker :=
  part_marker h.inl.1

theorem text_chars {U : Uni} {lite : Bool} {p : Spec.ClassPart} (h : ClPart U lite p) {c : Char} (hc : c ∈ t!":<>\n\r") : c ∉ p.text := by
  intro hm
  have := h.inl.2.1.chars c hm
  exact absurd this (by rw [(by decide : ∀ c ∈ t!":<>\n\r", Spec.ordinaryChar c = false) c hc]; decide)

theorem clOpen_chars {U : Uni} {lite : Bool} {p : Spec.ClassPart} (h : ClPart U lite p) (r : Bool) {c : Char} (hc : c ∈ t!":\n\r") :
    c ∉ openTagA (tagName p.marker) (p.atts.html r) ∧ c ∉ closeTag (tagName p.marker) := by
  have h1 := tagName_chars _ (cl_marker h).1 c ((by decide : ∀ c ∈ t!":\n\r", c ∈ t!":<>\n\r") c hc)
  have h2 := atts_html_not h.group r ((by decide +kernel : ∀ c ∈ t!":\n\r", c ∉ grpA.ascii) c hc) ((by decide : ∀ c ∈ t!":\n\r", c ∉ t!"classid=\" ") c hc)
  have h3 : ∀ x ∈ t!"</>", c ≠ x := fun x hx e => absurd hx ((by decide : ∀ c ∈ t!":\n\r", c ∉ t!"</>") x (e ▸ hc))
  simp only [List.mem_cons, List.not_mem_nil, or_false, forall_eq_or_imp, forall_eq] at h3
  simp [openTagA, closeTag, h1, h2, h3]

theorem atts_html_start (p : Spec.ClassPart) (r : Bool) : p.atts.html r = [] ∨ ∃ u, p.atts.html r = ' ' :: u := by
  cases hg : p.group with
  | none => simp [Spec.ClassPart.atts, hg, Spec.Atts.html, Spec.attr, Spec.Atts.cls, Spec.Atts.id, Spec.Atts.language, Spec.Atts.declarations, Spec.Atts.layout]
  | some q =>
    obtain ⟨n, i⟩ := q
    cases r
    · by_cases hn' : n = [] <;> cases i <;>
        simp [Spec.ClassPart.atts, hg, Spec.Atts.html, Spec.attr, Spec.Atts.cls, Spec.Atts.id, Spec.Atts.language, Spec.Atts.declarations, Spec.Atts.layout, hn']
    · simp [Spec.ClassPart.atts, hg, Spec.Atts.html, Spec.attr, Spec.Atts.cls, Spec.Atts.id, Spec.Atts.language, Spec.Atts.declarations, Spec.Atts.layout]

theorem openTagA_space (tag u : Str) : openTagA tag (' ' :: u) = openTagA (tag ++ t!" ") u := by simp [openTagA]

theorem clOpen_inner {U : Uni} {lite : Bool} {p : Spec.ClassPart} (h : ClPart U lite p) (r : Bool) :
    Inner (openTagA (tagName p.marker) (p.atts.html r)) ∧ Inner (closeTag (tagName p.marker)) := by
  have hlt : '<' ∉ p.atts.html r := atts_html_not h.group r (by decide +kernel) (by decide)
  have hn := clOpen_chars h r (c := '\n') (by decide)
  have hm := (cl_marker h).1
  have hst := atts_html_start p r
  revert hlt hn hst
  generalize p.atts.html r = a
  intro hlt hn hst
  simp only [markers, List.mem_cons, List.not_mem_nil, or_false] at hm
  refine ⟨⟨hn.1, ?_, ?_⟩, ⟨hn.2, ?_, ?_⟩⟩
  · rcases hst with rfl | ⟨u, rfl⟩
    · rcases hm with e | e | e | e | e | e | e | e | e | e <;> rw [e] <;> exact ⟨.of (by decide), .of (by decide), .of (by decide), .of (by decide)⟩
    · rw [openTagA_space]
      refine brFree_open ?_ (by simpa using hlt)
      rcases hm with e | e | e | e | e | e | e | e | e | e <;> rw [e] <;> exact ⟨.of (by decide), .of (by decide), .of (by decide), .of (by decide)⟩
  · refine free_open ?_ rfl hlt
    rcases hm with e | e | e | e | e | e | e | e | e | e <;> rw [e] <;> exact .of (by decide)
  · rcases hm with e | e | e | e | e | e | e | e | e | e <;> rw [e] <;> exact ⟨.of (by decide), .of (by decide), .of (by decide), .of (by decide)⟩
  · rcases hm with e | e | e | e | e | e | e | e | e | e <;> rw [e] <;> exact .of (by decide)

theorem woven_form {U : Uni} {lite : Bool} (r : Bool) : ∀ {ps : List Spec.ClassPart}, (∀ p ∈ ps, ClPart U lite p) → Woven (clForm (clTagged r) ps)
  | [], _ => .nil
  | p :: ps, h => by
    have hp := h p (by simp)
    obtain ⟨i1, i2⟩ := clOpen_inner hp r
    rw [clForm_cons]
    simp only [clTagged, List.append_assoc]
    exact .tag i1 (.text (text_chars hp (by decide)) (.tag i2 (.text (prose_nochar hp.after (by decide) (by decide))
      (woven_form r (fun q hq => h q (by simp [hq]))))))

/-- The placeholders stand for the tags. -/
theorem rep_drMix {U : Uni} {lite : Bool} {base : Str} (hb : Spec.PlainBase base) {r : Bool} {σ τ : PState} {br : Str} (hbr : ':' ∉ br)
    (hσ : Agrees (uidOf base) σ τ) (hn : σ.refIndex < 2 ^ 32) :
    ∀ {xs : List Dr} {ps : List Spec.ClassPart}, (∀ p ∈ xs, p.2.1.isRaw = false) → (∀ p ∈ xs, KnownA r σ p) → (∀ p ∈ ps, ClPart U lite p) →
    xs.map Dr.skel = ps.map (fun p => (p.atts, clPart p)) →
    Rep (uidOf base) τ (brk br (mix (uidOf base) [] (xs.map Prod.snd))) (brk br (clForm (clTagged r) ps))
  | [], [], _, _, _, _ => .nil
  | [], _ :: _, _, _, _, e => by simp at e
  | _ :: _, [], _, _, _, e => by simp at e
  | (a, .raw m t, g) :: xs, _, ht, _, _, _ => by have := ht _ List.mem_cons_self; cases this
  | (a, .tok n m t, g) :: xs, p :: ps, ht, hk, hP, e => by
    rw [List.map_cons, List.map_cons] at e
    obtain ⟨e1, e2⟩ := List.cons.inj e
    simp only [Dr.skel, skel, Itm.mark, Itm.text, clPart, Prod.mk.injEq] at e1
    obtain ⟨rfl, rfl, rfl, rfl⟩ := e1
    have hp := hP p (by simp)
    have ih := rep_drMix hb hbr hσ hn (xs := xs) (ps := ps) (fun q hq => ht q (by simp [hq])) (fun q hq => hk q (by simp [hq]))
      (fun q hq => hP q (by simp [hq])) e2
    obtain ⟨k1, k2, k3⟩ := hk _ List.mem_cons_self
    have hc := clOpen_chars hp r (c := ':') (by decide)
    have hnl := clOpen_chars hp r (c := '\n') (by decide)
    have hse : ∀ {x : Str}, ':' ∉ x → containsStr (uidOf base) x = false := fun h => containsStr_false_of_mem (c := ':') (by simp [uidOf]) h
    have s1 : Sealed (uidOf base) (openTagA (tagName p.marker) (p.atts.html r)) := by
      have := Sealed.tag (uid := uidOf base) (m := tagName p.marker ++ p.atts.html r) (hse (by simpa [openTagA] using hc.1))
      simpa [openTagA] using this
    have s2 := (span_sealed (base := base) (cl_marker hp).1).2
    have h2 := ih.text (brk_nocolon hbr (prose_nochar hp.after (c := ':') (by decide) (by decide)))
    have h3 : Rep (uidOf base) τ (cspan (uidOf base) (n + 1) ++ _) (closeTag (tagName p.marker) ++ _) :=
      RepK.closing (by omega) (by rw [(hσ _ k1).1, k3]) s2 h2
    have h4 : Rep (uidOf base) τ (ospan (uidOf base) n ++ _) (openTagA (tagName p.marker) (p.atts.html r) ++ _) :=
      RepK.opening (by omega) (by rw [(hσ _ (by omega)).1, k2]) s1 (h3.text (text_chars hp (c := ':') (by decide)))
    have ht' : '\n' ∉ p.text := text_chars hp (by decide)
    rw [List.map_cons, mix_cons, clForm_cons]
    simp only [Itm.str, clTagged, brk_append, brk_nonl (ospan_nonl hb n), brk_nonl ht', brk_nonl (cspan_nonl hb _), brk_nonl hnl.1, brk_nonl hnl.2,
      List.append_assoc]
    simpa using h4

/-! ## Blocks -/

def clDr (p : Spec.ClassPart) : Dr := (p.atts, .raw p.marker p.text, p.after)

theorem cl_drMix (uid : Str) (t : Spec.ClassText) : t.lead ++ drMix uid [] (t.parts.map clDr) = t.source := by
  simp [drMix, Spec.ClassText.source, List.flatMap_map, clDr, Dr.str, Spec.ClassPart.source]

theorem cl_nocolon {U : Uni} {lite : Bool} {t : Spec.ClassText} (h : t.Ok U.isLu lite) : ':' ∉ t.source := by
  intro hc
  unfold Spec.ClassText.source at hc
  rcases List.mem_append.1 hc with hc | hc
  · exact prose_nochar h.plain.lead (c := ':') (by decide) (by decide) hc
  · obtain ⟨p, hp, hc⟩ := List.mem_flatMap.1 hc
    have hP := cl_parts h p hp
    have hm := (by decide : ∀ m ∈ markers, ':' ∉ m) _ (cl_marker hP).1
    simp only [Spec.ClassPart.source, List.mem_append] at hc
    rcases hc with (hc | hc | hc | hc) | hc
    · exact hm hc
    · rcases (atts_simple hP.group).chars _ hc with h | h
      · revert h; decide +kernel
      · revert h; decide
    · exact text_chars hP (c := ':') (by decide) hc
    · exact hm hc
    · exact prose_nochar hP.after (c := ':') (by decide) (by decide) hc

theorem cl_source_line {U : Uni} {lite : Bool} {p : Spec.ClassPart} (h : ClPart U lite p) :
    ('\n' ∉ p.source ∧ '\r' ∉ p.source) ∧ ∃ c u, p.source = c :: u ∧ lineStart c = true := by
  obtain ⟨c, u, e, h1, h2⟩ := marker_start (cl_marker h).1
  have hr := (by decide : ∀ m ∈ markers, '\r' ∉ m) _ (cl_marker h).1
  have ha : ∀ c ∈ t!"\n\r", c ∉ p.atts.source := by
    intro c hc hm
    rcases (atts_simple h.group).chars _ hm with h | h
    · exact (by decide +kernel : ∀ c ∈ t!"\n\r", c ∉ asciiAlnum) c hc h
    · exact (by decide : ∀ c ∈ t!"\n\r", c ∉ t!"()# ") c hc h
  refine ⟨⟨?_, ?_⟩, c, u ++ (p.atts.source ++ (p.text ++ p.marker)), by simp [Spec.ClassPart.source, e], h1⟩
  · simp [Spec.ClassPart.source, h2, ha, text_chars h (c := '\n') (by decide)]
  · simp [Spec.ClassPart.source, hr, ha, text_chars h (c := '\r') (by decide)]

theorem cl_lined {U : Uni} {lite : Bool} {t : Spec.ClassText} (h : t.Ok U.isLu lite) : lined t.source = true ∧ '\r' ∉ t.source := by
  refine ⟨?_, ?_⟩
  · exact lined_form (f := Spec.ClassPart.source) (prose_lined (up := U.isLu) h.plain.lead.chars h.plain.lead.lines)
      (fun p hp => prose_lined (up := U.isLu) (cl_parts h p hp).after.chars (cl_parts h p hp).after.lines)
      (fun p hp => ⟨(cl_source_line (cl_parts h p hp)).1.1, (cl_source_line (cl_parts h p hp)).2⟩) (cl_last h)
  · intro hc
    unfold Spec.ClassText.source at hc
    rcases List.mem_append.1 hc with hc | hc
    · exact prose_nochar h.plain.lead (c := '\r') (by decide) (by decide) hc
    · obtain ⟨p, hp, hc⟩ := List.mem_flatMap.1 hc
      rcases List.mem_append.1 hc with hc | hc
      · exact (cl_source_line (cl_parts h p hp)).1.2 hc
      · exact prose_nochar (cl_parts h p hp).after (c := '\r') (by decide) (by decide) hc

/-- The first character of the text. -/
theorem cl_first {U : Uni} {lite : Bool} {t : Spec.ClassText} (h : t.Ok U.isLu lite) : ∃ c u, t.source = c :: u ∧ isWs c = false := by
  obtain ⟨c, u, e, h1, h2⟩ := h.plain.first
  have hl : ∀ c u, t.lead = c :: u → c ≠ ' ' → c ≠ '\n' → isWs c = false := by
    intro c u e h1 h2
    rcases h.plain.lead.chars c (by rw [Spec.ClassText.plain, e]; simp) with h | h
    · exact (plain_nows h h1).1
    · exact absurd h h2
  cases hd : t.lead with
  | cons x y =>
    refine ⟨x, _, by rw [Spec.ClassText.source, hd]; rfl, ?_⟩
    rw [show t.plain.source = x :: (y ++ _) by rw [Spec.Marked.source]; simp only [Spec.ClassText.plain, hd]; rfl] at e
    obtain ⟨rfl, -⟩ := List.cons.inj e
    exact hl x y hd h1 h2
  | nil =>
    cases hp : t.parts with
    | nil => simp [Spec.Marked.source, Spec.ClassText.plain, hd, hp] at e
    | cons p ps =>
      obtain ⟨-, x, y, ex, hx⟩ := cl_source_line (cl_parts h p (by rw [hp]; simp))
      refine ⟨x, y ++ (p.after ++ clForm Spec.ClassPart.source ps), by simp [Spec.ClassText.source, hd, hp, ex, clForm], ?_⟩
      simp [lineStart] at hx; exact hx.1

theorem cl_begins {C : Ctx} (hU : UniOk C.U) {lite : Bool} {t : Spec.ClassText} (h : t.Ok C.U.isLu lite) : Begins C t.source := by
  obtain ⟨h0, -, -, -, -, h5, h6⟩ := clM_ok
  have hr := clM_source h (n := []) (by simp)
  rw [List.append_nil] at hr
  exact ⟨cl_first h, Auto.search_none hU h0 h5 (by decide) hr, Re.isMatch_none (Auto.search_none hU h0 h6 (by decide) hr)⟩

theorem prefix_to_brk (br : Str) : ∀ {k w : Str}, '\n' ∉ k → k <+: w → k <+: brk br w
  | [], _, _, _ => List.nil_prefix
  | c :: k, [], _, h => by simp at h
  | c :: k, d :: w, hn, h => by
    simp only [List.cons_prefix_cons] at h
    obtain ⟨rfl, h⟩ := h
    simp at hn
    rw [brk_cons (Ne.symm hn.1)]
    exact List.cons_prefix_cons.2 ⟨rfl, prefix_to_brk br hn.2 h⟩

/-- The text of a block after `graf`. -/
theorem cl_body {C : Ctx} {base : Str} (D : DocCtx C base) {t : Spec.ClassText} (h : t.Ok C.U.isLu C.cfg.lite) {σ : PState}
    (hd : σ.spanDepth + 1 ≤ C.cfg.maxSpanDepth) :
    ∃ u σ', Body C t.source u t.parts.length σ σ' (brk C.cfg.brTag (t.lead ++ clForm (clTagged C.cfg.restricted) t.parts)) ∧
      hasRawText C.U u = true ∧ (¬ Spec.notelistWord <+: t.lead → ¬ Spec.notelistWord <+: u) ∧ Ext σ σ' := by
  obtain ⟨f, hf⟩ : ∃ f, C.fuel = f + 1 := ⟨C.fuel - 1, by have := D.fuel; omega⟩
  have hT := cl_textOk D h
  have hz : ∀ c ∈ tableEnd C, Safe c := fun c hc => linesA_safe (tableEnd_over C c hc)
  have hsnd : (t.parts.map clDr).map Prod.snd = rawItems (t.parts.map clPart) := by simp [rawItems, clDr, clPart]
  obtain ⟨xs, σ', h1, h2, h3, h4, h5, h6⟩ := runs_spanA (C := C) D.uni (by rw [D.uid]; exact uid_safe D.plain)
    (fun c hc => mixA_safe (hT.over c hc)) hz hd (xs := t.parts.map clDr)
    ⟨by rw [hsnd]; exact hT.mixOk, by intro p hp; obtain ⟨q, hq, rfl⟩ := List.mem_map.1 hp; exact atts_simple (h.groups q hq)⟩
    (by intro p hp; obtain ⟨q, hq, rfl⟩ := List.mem_map.1 hp; trivial)
    (fun hne => hT.start (by intro e; apply hne; simp at e; simp [e]))
  have hsk : (xs.map Prod.snd).map skel = t.parts.map clPart := by
    rw [drSkel_snd h2, hsnd, skel_raw]
  have htoks : ∀ p ∈ xs.map Prod.snd, p.1.isRaw = false := by
    intro p hp; obtain ⟨q, hq, rfl⟩ := List.mem_map.1 hp; exact h3 q hq
  have hov : mixA.Over (t.lead ++ mix (uidOf base) [] (xs.map Prod.snd)) := mix_over D.plain hT.over htoks (by
    rw [hsk]; intro q hq; exact ⟨(hT.parts q hq).over, (hT.parts q hq).gapOver⟩)
  have hstart : xs.map Prod.snd ≠ [] → AfterGap t.lead.reverse := fun hne => hT.start (by
    intro e; rw [e] at hsk; exact hne (List.map_eq_nil_iff.1 hsk))
  rw [drMix_end _ _ (t.parts.map clDr), drMix_end _ _ xs, drMix_toks _ _ h3, ← List.append_assoc, ← List.append_assoc, cl_drMix, D.uid] at h1
  refine ⟨t.lead ++ mix (uidOf base) [] (xs.map Prod.snd), σ', ⟨⟨?_, ?_, ?_, h5.grow.toGrows, ?_, ?_⟩, ?_⟩, hasRawText_mix D.uni hov, ?_, h5⟩
  · have := Woven.text (t := []) (w := t.lead ++ mix (uidOf base) [] (xs.map Prod.snd)) (fun hc => Alpha.not_mem (A := mixA) (by decide) (by decide) (hov _ hc)) .nil
    simpa using this
  · refine lined_mix D.plain htoks ?_ hT.lead ?_
    · rw [hsk]; intro q hq; exact ⟨(hT.parts q hq).nonl, hT.gaps q hq⟩
    · intro e
      have := mix_last htoks e
      rw [hsk] at this
      exact hT.last _ this rfl
  · intro e
    rw [List.append_eq_nil_iff] at e
    cases hxs : xs with
    | nil =>
      rw [hxs] at hsk
      refine hT.ne ?_
      rw [e.1, ← hsk]; rfl
    | cons p ys =>
      obtain ⟨a, i, g⟩ := p
      rw [hxs] at e htoks
      cases i with
      | raw m t => have := htoks (.raw m t, g) (by simp); cases this
      | tok n m t => rw [List.map_cons, mix_cons] at e; simp [Itm.str, ospan] at e
  · rw [h6, hsnd]
    have : raws (rawItems (t.parts.map clPart)) = t.parts.length := by
      unfold raws rawItems
      rw [List.countP_map, List.countP_eq_length.2, List.length_map]
      intro p _; rfl
    rw [this]
    exact Nat.le_refl _
  · intro τ hτ hn
    rw [D.uid] at hτ ⊢
    rw [brk_append, brk_append]
    exact (rep_drMix D.plain (brTag_nocolon _) hτ hn h3 h4 (cl_parts h) (by rw [h2, List.map_map]; rfl)).text
      (brk_nocolon (brTag_nocolon _) (prose_nochar h.plain.lead (by decide) (by decide)))
  · rw [hf]
    have hm := cl_mild D.uni h
    refine runs_graf hm (runs_early (by have := D.fuel; omega) hm.early ?_ σ) h1 ?_
    · exact containsStr_false_of_mem (c := ':') (by simp) (cl_nocolon h)
    · exact done_mix D.uni D.plain hT.toInlineOk htoks hsk
  · intro hn hc
    exact hn (notelist_mix (base := base) (br := t!"<br>") (r := []) ⟨_, rfl⟩ htoks hstart ((prefix_to_brk _ (by decide) hc).trans (List.prefix_append _ _)))

theorem breakLines_two (br a b : Str) : Spec.breakLines br (a ++ b) = Spec.breakLines br a ++ Spec.breakLines br b := by simp [Spec.breakLines]

theorem cl_linedH {U : Uni} {lite : Bool} {t : Spec.ClassText} (h : t.Ok U.isLu lite) (r : Bool) : lined (t.lead ++ clForm (clTagged r) t.parts) = true :=
  lined_form (f := clTagged r) (prose_lined (up := U.isLu) h.plain.lead.chars h.plain.lead.lines)
    (fun p hp => prose_lined (up := U.isLu) (cl_parts h p hp).after.chars (cl_parts h p hp).after.lines)
    (fun p hp => by
      have hP := cl_parts h p hp
      have hn := clOpen_chars hP r (c := '\n') (by decide)
      refine ⟨?_, '<', _, by simp [clTagged, openTagA]; rfl, by decide⟩
      simp [clTagged, hn, text_chars hP (c := '\n') (by decide)]) (cl_last h)

theorem cl_wovenH {U : Uni} {lite : Bool} {t : Spec.ClassText} (h : t.Ok U.isLu lite) (r : Bool) : Woven (t.lead ++ clForm (clTagged r) t.parts) :=
  .text (prose_nochar h.plain.lead (by decide) (by decide)) (woven_form r (cl_parts h))

theorem cl_html {U : Uni} {lite : Bool} (br : Str) (r : Bool) {t : Spec.ClassText} (h : t.Ok U.isLu lite) :
    t.html br r = Spec.breakLines br (t.lead ++ clForm (clTagged r) t.parts) := by
  have key : ∀ {ps : List Spec.ClassPart}, (∀ p ∈ ps, ClPart U lite p) →
      ps.flatMap (fun p => p.html r ++ Spec.breakLines br p.after) = Spec.breakLines br (clForm (clTagged r) ps) := by
    intro ps
    induction ps with
    | nil => intro _; rfl
    | cons p ps ih =>
      intro hP
      have hp := hP p (by simp)
      have hn := clOpen_chars hp r (c := '\n') (by decide)
      have hx : '\n' ∉ clTagged r p := by simp [clTagged, hn, text_chars hp (c := '\n') (by decide)]
      have e : p.html r = clTagged r p := by
        rw [Spec.ClassPart.html, elementWith_eq, ← (cl_marker hp).2]; rfl
      rw [clForm_cons, breakLines_two, breakLines_two, breakLines_nonl hx, List.flatMap_cons, ih (fun q hq => hP q (by simp [hq])), e]
      simp
  rw [Spec.ClassText.html, key (cl_parts h), breakLines_two]

theorem cl_lines {U : Uni} {lite : Bool} {t : Spec.ClassText} (h : t.Ok U.isLu lite) :
    ∃ ls, ls ≠ [] ∧ (∀ l ∈ ls, Spec.RawLine l) ∧ t.source = Spec.join t!"\n" ls := by
  obtain ⟨c, u, e, hc⟩ := cl_first h
  obtain ⟨k1, k2⟩ := cl_lined h
  rw [e] at k1 k2 ⊢
  have := lines_of u (p := [c]) (lined_tail k1) k2 (by simp; rintro rfl; revert hc; decide) (blank_not hc)
  simpa using this

theorem cl_tagLines {U : Uni} {lite : Bool} {t : Spec.ClassText} (h : t.Ok U.isLu lite) {p : Str} (h1 : '\n' ∉ p ∧ '\r' ∉ p) (h2 : ∃ c u, p = c :: u ∧ isWs c = false) :
    (∃ ls, ls ≠ [] ∧ (∀ l ∈ ls, Spec.RawLine l) ∧ p ++ t.source = Spec.join t!"\n" ls) ∧ ∃ c u, p ++ t.source = c :: u ∧ isWs c = false := by
  obtain ⟨k1, k2⟩ := cl_lined h
  obtain ⟨c, u, rfl, hc⟩ := h2
  refine ⟨?_, c, _, rfl, hc⟩
  exact lines_of _ (p := c :: u) k1 (by simp at k2 h1; simp [h1, k2]) h1.1 (blank_not hc)

theorem act_clPara {C : Ctx} {base : Str} (D : DocCtx C base) {t : Spec.ClassText} (h : t.Ok C.U.isLu C.cfg.lite)
    (hs : Spec.NoBlockStart C.U.isNd C.cfg.lite t.source) (hn : ¬ Spec.notelistWord <+: t.lead)
    {P : PState → Prop} (hP : ∀ σ σ', Keeps σ σ' → σ'.aux = σ.aux → P σ → P σ') :
    Act C P P t.source t.parts.length (Spec.elementWith t!"p" [] (t.html C.cfg.brTag C.cfg.restricted)) := by
  rw [cl_html _ _ h]
  refine act_woven (tag := t!"p") (att := []) ⟨cl_lines h, cl_first h⟩ (by decide) (by simp) (cl_linedH h _) (cl_wovenH h _) ?_
  intro σ hσ hd
  obtain ⟨u, σ', hb, h1, h2, h3⟩ := cl_body D h hd
  obtain ⟨q, hq⟩ := body_para D hb (cl_begins D.uni h) (tag_none_of hs) h1 (h2 hn)
  exact ⟨σ', q, by rw [openTagA_nil]; exact hq, hP _ _ ((h3.grow (uid := C.cfg.uid)).keeps (by rw [h3.aux])) h3.aux hσ⟩

theorem act_clStyled {C : Ctx} {base : Str} (D : DocCtx C base) {t : Spec.ClassText} (h : t.Ok C.U.isLu C.cfg.lite)
    {tag : Str} {a : Spec.Atts} (ha : a.Ok) (hb : a.left = 0)
    (ht : tag ∈ t!"p" :: (if C.cfg.lite then [] else [t!"h1", t!"h2", t!"h3", t!"h4", t!"h5", t!"h6"]))
    (hn : tag = t!"p" → ¬ Spec.notelistWord <+: t.lead) (htok : ¬ C.cfg.uid <:+: tag ++ (a.source ++ (t!". " ++ t.source)))
    {P : PState → Prop} (hP : ∀ σ σ', Keeps σ σ' → σ'.aux = σ.aux → P σ → P σ') :
    Act C P P (tag ++ (a.source ++ (t!". " ++ t.source))) t.parts.length (Spec.elementWith tag (a.html C.cfg.restricted) (t.html C.cfg.brTag C.cfg.restricted)) := by
  obtain ⟨m1, m2⟩ := tagged_mem ht
  have hca : containsStr C.cfg.uid a.source = false := contains_of_not (fun hi => htok (infix_source (.inl hi)))
  have hlt : '<' ∉ a.html C.cfg.restricted := (atts_tagText D.plain ha (by rw [← D.uid]; exact hca) _).nolt
  obtain ⟨a1, a2⟩ := atts_nonl ha
  obtain ⟨g1, g2, -, g3⟩ := tagged_chars tag m1
  have hl := cl_tagLines h (p := tag ++ (a.source ++ t!". ")) ⟨by simp [a1, g1], by simp [a2, g2]⟩ (by
    obtain ⟨c, u, rfl, hc⟩ := g3; exact ⟨c, _, rfl, hc⟩)
  rw [show tag ++ (a.source ++ t!". ") ++ t.source = tag ++ (a.source ++ (t!". " ++ t.source)) by simp] at hl
  rw [cl_html _ _ h]
  refine act_woven hl m1 hlt (cl_linedH h _) (cl_wovenH h _) ?_
  intro σ hσ hd
  obtain ⟨u, σ', hb', h1, h2, h3⟩ := cl_body D h hd
  obtain ⟨q, hq⟩ := body_styled D ha hca (.inl hb) hb' (cl_begins D.uni h) m1 m2 (fun e => h2 (hn e))
  exact ⟨σ', q, hq, hP _ _ ((h3.grow (uid := C.cfg.uid)).keeps (by rw [h3.aux])) h3.aux hσ⟩

/-! ## Documents -/

/-- The text of a block as it is seen. -/
def classSeen (restricted : Bool) : Spec.ClassBlock → Str
  | .other b => capSeen restricted b
  | b => b.source

def classKinds (cfg : Cfg) (base : Str) : Kinds Spec.ClassBlock where
  src := Spec.ClassBlock.source
  seen := classSeen cfg.restricted
  marks := Spec.ClassBlock.marks
  html := fun N M b => b.html cfg.html5 cfg.brTag cfg.restricted (useAlignClass cfg) base N M
  numbers := fun N b => b.numbers N cfg.restricted
  notes := fun M b => b.notes M cfg.restricted

theorem clM_over : ∀ {t : Str} {q : Nat}, clM.Run q t → ∀ c ∈ t, c ∉ t!"&<>\"'"
  | [], _, _, _, hc => by cases hc
  | x :: t, q, ⟨e, he, hx, hr⟩, c, hc => by
    rcases List.mem_cons.1 hc with rfl | hc
    · intro hm
      have key : ∀ s ∈ clM, ∀ e ∈ s.2, ∀ c ∈ t!"&<>\"'", c ∉ e.1.ascii := by decide +kernel
      have hs : ∃ s ∈ clM, e ∈ s.2 := by
        unfold Auto.step at he
        cases hg : clM[q]? with
        | none => rw [hg] at he; simp at he
        | some s => rw [hg] at he; exact ⟨s, List.mem_of_getElem? hg, he⟩
      obtain ⟨s, h1, h2⟩ := hs
      exact Alpha.not_mem (key s h1 e h2 c hm) ((by decide : ∀ c ∈ t!"&<>\"'", c.toNat < 128) c hm) hx
    · exact clM_over hr c hc

theorem enc_class {U : Uni} {lite : Bool} {t : Spec.ClassText} (h : t.Ok U.isLu lite) : encodeHtml t.source false false = t.source := by
  have hr := clM_source h (n := []) (by simp)
  rw [List.append_nil] at hr
  exact enc_id (clM_over hr)

theorem class_seen {C : Ctx} (hU : UniOk C.U) {b : Spec.ClassBlock} (h : b.Ok C.U.isLu C.U.isNd C.cfg.lite C.cfg.restricted) :
    (if C.cfg.restricted then encodeHtml b.source false false else b.source) = classSeen C.cfg.restricted b := by
  cases b with
  | other b => exact cap_seen hU h
  | para t =>
    split
    · exact enc_class h.1
    · rfl
  | styled tag a t =>
    split
    · rename_i hr
      obtain ⟨h1, h3, h4, h5, h6, h7⟩ := h
      rw [hr] at h4
      simp only [Spec.ClassBlock.source, classSeen]
      rw [enc_append, enc_append, enc_append, (tagged_chars tag (tagged_mem h6).1).2.2.1, enc_atts h3 h4, enc_class h1]
      rfl
    · rfl

theorem act_cap {C : Ctx} {base : Str} (D : DocCtx C base) (hp : C.cfg.linkPrefix = base ++ t!"-") (hcap : C.cfg.capsTempl = capsTemplate C.cfg.uid)
    (hz : C.cfg.getSizes = false) (hno : C.cfg.noimage = false)
    {ok : Char → Prop} (ha : ∀ c, c.toNat < 128 → ok c) {b : Spec.CapBlock} (hL : Lowers C.U ok)
    (h : b.Ok C.U.isLu C.U.isNd C.cfg.lite C.cfg.restricted) (hc : ∀ c ∈ b.chars, ok c)
    (hR : b.Resolved (Spec.Resolves C.E.urlParse C.E.urlJoin C.cfg.restricted) (Spec.Reads C.E.urlParse C.E.urlJoin) C.cfg.rel)
    (hsrc : ¬ C.cfg.uid <:+: b.source) (htok : ¬ C.cfg.uid <:+: capSeen C.cfg.restricted b) (N : Spec.Numbers) (M : Spec.Notes) :
    Act C (fun σ => Num N σ ∧ FnState base {} M σ) (fun σ => Num (b.numbers N C.cfg.restricted) σ ∧ FnState base {} (b.notes M C.cfg.restricted) σ)
      (capSeen C.cfg.restricted b) b.marks (b.html C.cfg.html5 C.cfg.brTag C.cfg.restricted (useAlignClass C.cfg) base N M) := by
  cases b with
  | other b => exact act_dl D hp hz hno ha hL h hc hR hsrc htok N M
  | para t => exact act_capPara D hcap h.1 h.2.1 h.2.2 _
  | styled tag a t =>
    obtain ⟨k1, k2, k3, k4, k5, k6⟩ := h
    exact act_capStyled D hcap k1 k2 k4 k5 k6 hsrc _

theorem act_class {C : Ctx} {base : Str} (D : DocCtx C base) (hp : C.cfg.linkPrefix = base ++ t!"-") (hcap : C.cfg.capsTempl = capsTemplate C.cfg.uid)
    (hz : C.cfg.getSizes = false) (hno : C.cfg.noimage = false)
    {ok : Char → Prop} (ha : ∀ c, c.toNat < 128 → ok c) {b : Spec.ClassBlock} (hL : Lowers C.U ok)
    (h : b.Ok C.U.isLu C.U.isNd C.cfg.lite C.cfg.restricted) (hc : ∀ c ∈ b.chars, ok c)
    (hR : b.Resolved (Spec.Resolves C.E.urlParse C.E.urlJoin C.cfg.restricted) (Spec.Reads C.E.urlParse C.E.urlJoin) C.cfg.rel)
    (hsrc : ¬ C.cfg.uid <:+: b.source) (htok : ¬ C.cfg.uid <:+: classSeen C.cfg.restricted b) (N : Spec.Numbers) (M : Spec.Notes) :
    Act C (fun σ => Num N σ ∧ FnState base {} M σ) (fun σ => Num (b.numbers N C.cfg.restricted) σ ∧ FnState base {} (b.notes M C.cfg.restricted) σ)
      (classSeen C.cfg.restricted b) b.marks (b.html C.cfg.html5 C.cfg.brTag C.cfg.restricted (useAlignClass C.cfg) base N M) := by
  have hP : ∀ (N : Spec.Numbers) (M : Spec.Notes) (σ σ' : PState), Keeps σ σ' → σ'.aux = σ.aux → (Num N σ ∧ FnState base {} M σ) → (Num N σ' ∧ FnState base {} M σ') :=
    fun N M σ σ' hk e ⟨h1, h2⟩ => ⟨h1.aux e, h2.keeps hk⟩
  cases b with
  | other b => exact act_cap D hp hcap hz hno ha hL h hc hR hsrc htok N M
  | para t => exact act_clPara D h.1 h.2.1 h.2.2 (hP N M)
  | styled tag a t =>
    obtain ⟨k1, k2, k3, k4, k5, k6⟩ := h
    exact act_clStyled D k1 k2 k4 k5 k6 hsrc (hP N M)

/-- What `parse` makes of documents with classes in marked parts. -/
theorem parse_classes {E : Env} {fuel : Nat} {cfg : Cfg} {base : Str} (D : DocCtx ⟨E, cfg, fuel⟩ base) (hp : cfg.linkPrefix = base ++ t!"-")
    (hcap : cfg.capsTempl = capsTemplate cfg.uid)
    (hz : cfg.getSizes = false) (hno : cfg.noimage = false)
    (hbt : cfg.blockTags = true) (hsan : cfg.sanitizer = none) (hdep : 1 ≤ cfg.maxSpanDepth) {ok : Char → Prop}
    (ha : ∀ c, c.toNat < 128 → ok c) (hL : Lowers E.U ok) {ds : List (Spec.ClassBlock × Nat)}
    (hne : ds ≠ []) (h : ∀ d ∈ ds, d.1.Ok E.U.isLu E.U.isNd cfg.lite cfg.restricted) (hc : ∀ d ∈ ds, ∀ c ∈ d.1.chars, ok c)
    (hR : ∀ d ∈ ds, d.1.Resolved (Spec.Resolves E.urlParse E.urlJoin cfg.restricted) (Spec.Reads E.urlParse E.urlJoin) cfg.rel)
    (htok : ¬ cfg.uid <:+: Spec.classSource ds) (hn : 2 * Spec.classMarks ds < 2 ^ 32) :
    parseFresh E fuel cfg (Spec.classSource ds) = .ok (Spec.classDocHtml cfg.html5 cfg.brTag cfg.restricted (useAlignClass cfg) base ds) := by
  have := parse_kinds D hbt hsan hdep (β := Spec.ClassBlock)
    (classKinds cfg base) hne
    (fun d hd => class_seen (C := ⟨E, cfg, fuel⟩) D.uni (h d hd))
    (fun d hd h1 h2 N M => act_class D hp hcap hz hno ha hL (h _ hd) (hc _ hd) (hR _ hd) h1 h2 N M) htok hn
  have e : ∀ (ds : List (Spec.ClassBlock × Nat)) N M, Kinds.docHtml (classKinds cfg base) N M ds =
      Spec.classHtml cfg.html5 cfg.brTag cfg.restricted (useAlignClass cfg) base N M ds := by
    intro ds
    induction ds with
    | nil => intro _ _; rfl
    | cons d ds ih => intro N M; simp only [Kinds.docHtml, Spec.classHtml, ih]; rfl
  rw [e] at this
  exact this

end Rustextile
