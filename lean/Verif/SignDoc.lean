import Verif.SignRun
import Verif.TableDoc

/-!
# Documents with signs
-/

namespace Rustextile

open Prog

variable {aux0 : Aux}

/-! ## The text -/

theorem sgBase_of {U : Uni} {t : Spec.SgText} (h : t.Ok U.isLu) : SgBase U [] t.lead t.parts where
  word := h.texts _ (by simp [Spec.SgText.texts])
  texts p hp := h.texts _ (by simp only [Spec.SgText.texts, List.mem_cons, List.mem_map]; exact .inr ⟨p, hp, rfl⟩)
  fit := by rw [List.append_nil, List.head?_reverse]; exact h.fit

theorem form_nonl {k : Nat} {s : Spec.Sign} {b : Option Char} {a : Str} (hf : s.Fits b a) : '\n' ∉ form k s ∧ '\r' ∉ form k s := by
  rcases mem_constSigns s with h | ⟨ds, rfl⟩ | ⟨n, rfl⟩
  · have key : ∀ s ∈ constSigns, ('\n' ∉ s.source ∧ '\r' ∉ s.source) ∧ ('\n' ∉ s.html ∧ '\r' ∉ s.html) := by decide +kernel
    unfold form
    split
    · exact (key s h).2
    · exact (key s h).1
  · have hd : ∀ c, Spec.isDecimal c = false → c ∉ ds := fun c hc hm => by have := hf.2.2.1 c hm; rw [hc] at this; cases this
    have key : ('\n' ∉ form k (.decade []) ∧ '\r' ∉ form k (.decade [])) := by
      unfold form
      split <;> decide +kernel
    rw [form_decade]
    simp only [List.mem_append, not_or]
    exact ⟨⟨key.1, hd _ (by decide)⟩, ⟨key.2, hd _ (by decide)⟩⟩
  · have hd : ∀ c, Spec.isLowerLetter c = false → c ∉ n := fun c hc hm => by have := hf.2 c hm; rw [hc] at this; cases this
    rw [form_entity]
    simp [hd '\n' (by decide), hd '\r' (by decide)]

theorem form_first (k : Nat) (s : Spec.Sign) : ∃ c f, form k s = c :: f ∧ (lineStart c = true ∨ s = .enDash) := by
  rcases mem_constSigns s with h | ⟨ds, rfl⟩ | ⟨n, rfl⟩
  · have key : ∀ s ∈ constSigns, s = .enDash ∨ ((s.source.head?.map lineStart) = some true ∧ (s.html.head?.map lineStart) = some true) := by decide +kernel
    have e : (∃ c f, form k s = c :: f ∧ lineStart c = true) ∨ s = .enDash := by
      rcases key s h with e | ⟨h1, h2⟩
      · exact .inr e
      · left
        have : (form k s).head?.map lineStart = some true := by unfold form; split <;> assumption
        cases hfm : form k s with
        | nil => rw [hfm] at this; cases this
        | cons c f => rw [hfm] at this; exact ⟨c, f, rfl, by simpa using this⟩
    rcases e with ⟨c, f, e, h⟩ | rfl
    · exact ⟨c, f, e, .inl h⟩
    · unfold form
      split <;> exact ⟨_, _, rfl, .inr rfl⟩
  · rw [form_decade]
    unfold form
    split <;> exact ⟨_, _, rfl, .inl (by decide)⟩
  · rw [form_entity]
    exact ⟨_, _, rfl, .inl (by decide)⟩

theorem lined_signs {U : Uni} (k : Nat) : ∀ {ps : List (Spec.Sign × Str)} {w : Str}, Spec.Prose U.isLu w → (∀ p ∈ ps, Spec.Prose U.isLu p.2) →
    Spec.AllFit w.getLast? ps → ¬ Spec.EndsInSpace (w ++ Spec.partsSource ps) → lined (w ++ formText k ps) = true ∧ '\r' ∉ w ++ formText k ps
  | [], w, hw, _, _, hl => by
    simp only [Spec.partsSource, List.flatMap_nil, List.append_nil] at hl
    refine ⟨lined_append (prose_lined (up := U.isLu) hw.chars hw.lines) rfl (fun e => absurd rfl (nospace_last hl _ e)), ?_⟩
    simp only [formText, List.flatMap_nil, List.append_nil]
    exact prose_nochar hw (by decide) (by decide)
  | (s, v) :: ps, w, hw, ht, ha, hl => by
    have hl' : ¬ Spec.EndsInSpace (v ++ Spec.partsSource ps) := by
      rintro ⟨u, c, e, hc⟩
      exact hl ⟨w ++ (s.source ++ u), c, by simp only [Spec.partsSource, List.flatMap_cons] at e ⊢; rw [List.append_assoc s.source, e]; simp, hc⟩
    obtain ⟨i1, i2⟩ := lined_signs k (ht (s, v) (by simp)) (fun p hp => ht p (by simp [hp])) ha.2.2 hl'
    have hnl := form_nonl (k := k) ha.1
    rw [formText_cons]
    refine ⟨lined_append (prose_lined (up := U.isLu) hw.chars hw.lines) (lined_text hnl.1 i1) ?_, ?_⟩
    · intro e
      obtain ⟨c, f, e1, h1⟩ := form_first k s
      refine ⟨c, _, by rw [e1]; rfl, ?_⟩
      rcases h1 with h1 | rfl
      · exact h1
      · have h2 := ha.1.1
        rw [e] at h2
        obtain ⟨d, hd, h3⟩ := h2
        cases hd
        exact absurd rfl h3
    · rw [List.mem_append, List.mem_append, not_or, not_or]
      exact ⟨prose_nochar hw (by decide) (by decide), hnl.2, i2⟩

theorem lined_last : ∀ {t : Str}, lined t = true → ∀ c, t.getLast? = some c → c ≠ '\n'
  | [], _, c, hc => by simp at hc
  | [d], h, c, hc => by simp at hc; subst hc; simpa [lined] using h
  | d :: e :: t, h, c, hc => lined_last (lined_tail h) c (by rwa [List.getLast?_cons_cons] at hc)

/-- What is known of the source and of the HTML of a text with signs. -/
structure SgFacts (C : Ctx) (t : Spec.SgText) : Prop where
  quiet : FnQuiet C.U t.source
  footnote : ∀ n, n = [] ∨ n = t!"\n\n" → FOOTNOTE_RE.search C.U [] (t.source ++ n) = none
  glyph : (C.cfg.restricted = true → ∀ p ∈ t.parts, p.1 ≠ .ampersand) → glyphText C t.source = t.lead ++ Spec.partsHtml t.parts
  first : ∃ c u, t.source = c :: u ∧ isWs c = false
  lined : lined t.source = true
  nocr : '\r' ∉ t.source
  linedH : Rustextile.lined (t.lead ++ Spec.partsHtml t.parts) = true
  over : sgA.Over t.source
  overH : sgHtmlA.Over (t.lead ++ Spec.partsHtml t.parts)

theorem sign_first {U : Uni} {t : Spec.SgText} (h : t.Ok U.isLu) : ∃ c u, t.source = c :: u ∧ isWs c = false := by
  obtain ⟨c, u, e, h1, h2⟩ := h.first
  refine ⟨c, u, e, ?_⟩
  have hB := sgBase_of h
  have := formText_over hB 0 c (by rw [formText_zero]; change c ∈ t.source; rw [e]; simp)
  rcases this with hc | hc
  · exact (by decide +kernel : ∀ c ∈ sgA.ascii, c ≠ ' ' → c ≠ '\n' → isWs c = false) c hc h1 h2
  · exact hc.2.2.1

theorem sgFacts {C : Ctx} (hU : UniOk C.U) {t : Spec.SgText} (h : t.Ok C.U.isLu) : SgFacts C t := by
  have hB := sgBase_of h
  obtain ⟨k1, k2, k3, k4, k5, k6, k7⟩ := sgM_ok
  have hrun : ∀ k, k ≤ 1 → ∀ n : Str, (∀ c ∈ n, c = '\n') → sgM.Run 0 (t.lead ++ (formText k t.parts ++ n)) := fun k hk n hn =>
    signs_run hk hn hB.word hB.texts h.fit (SgFine.easy (by simp)) (fun _ _ => rfl) (by simp)
  have hrun0 : ∀ n : Str, (∀ c ∈ n, c = '\n') → sgM.Run 0 (t.source ++ n) := by
    intro n hn
    have := hrun 0 (by omega) n hn
    rw [formText_zero, ← List.append_assoc] at this
    exact this
  have hl0 := lined_signs 0 hB.word hB.texts h.fit h.last
  have hl22 := lined_signs 22 hB.word hB.texts h.fit h.last
  rw [formText_zero] at hl0
  rw [formText_last] at hl22
  refine ⟨?_, ?_, ?_, sign_first h, hl0.1, hl0.2, hl22.1, ?_, partsHtml_over hB⟩
  · refine fnQuiet_of hU ⟨k1, k2, k3, ?_, k5, k6⟩ (by decide) hrun0
    rw [List.all_eq_true] at k4 ⊢
    exact fun r hr => k4 r (List.mem_filter.1 hr).1
  · intro n hn
    refine Auto.search_none hU k1 (List.all_eq_true.1 k4 _ (by decide +kernel)) (by decide) (hrun0 n ?_)
    rcases hn with rfl | rfl <;> simp
  · intro hr
    refine glyphText_signs hU hB hr ?_
    have := Auto.search_none hU k1 k7 (by decide) (hrun 1 (by omega) [] (by simp))
    rwa [List.append_nil] at this
  · have := formText_over hB 0
    rwa [formText_zero] at this

/-! ## Running `graf` -/

theorem runs_glyphs {C : Ctx} {base : Str} (D : DocCtx C base) {t o : Str} (hq : FnQuiet C.U t)
    (hfn : ∀ n, n = [] ∨ n = t!"\n\n" → FOOTNOTE_RE.search C.U [] (t ++ n) = none) (hcol : ':' ∉ t) (hlt : '<' ∉ t)
    (hl : ∀ c, t.getLast? = some c → c ≠ '\n') (hg : glyphText C t = o) (ho : ∀ c, o.getLast? = some c → c ≠ '\n') (σ : PState) :
    Runs C (graf C C.fuel t) o σ σ := by
  have hf := D.fuel
  obtain ⟨f, hf'⟩ : ∃ f, C.fuel = f + 1 := ⟨C.fuel - 1, by omega⟩
  have hnl : tableEnd C = [] ∨ tableEnd C = t!"\n\n" := by unfold tableEnd; split <;> simp
  rw [hf']
  have hlate : ∀ r ∈ latePatterns, r.search C.U [] (t ++ tableEnd C) = none := by
    intro r hr
    by_cases e : r = FOOTNOTE_RE
    · rw [e]; exact hfn _ hnl
    · exact hq.late _ hnl r hr e
  refine graf_split (runs_early (by omega) hq.early ?_ σ) ?_
  · refine containsStr_false_of_mem (c := ':') (by simp [D.colon]) hcol
  unfold grafLate
  refine (runs_table hq.table σ).bind ?_
  refine Runs.bind (a := t ++ tableEnd C) (σ' := σ) ((Leaves.unless fun _ => Leaves.replaceP (hlate _ (by simp [latePatterns]))).runs σ) ?_
  refine Runs.bind (a := t ++ tableEnd C) (σ' := σ) ((Leaves.unless fun _ => Leaves.replaceP (hlate _ (by simp [latePatterns]))).runs σ) ?_
  refine Runs.bind (a := t ++ tableEnd C) (σ' := σ) ((Leaves.span (fun r hr => hlate r (by simp [latePatterns, hr]))).runs σ) ?_
  refine Runs.bind (a := t ++ tableEnd C) (σ' := σ) (Runs.none (hlate _ (by decide +kernel)) σ) ?_
  refine Runs.bind (a := t ++ tableEnd C) (σ' := σ) (Runs.none (hlate _ (by decide +kernel)) σ) ?_
  have := glyphs_weave (C := C) (ps := []) (w := t) (n := tableEnd C) hlt (by simp) (by rw [weave_nil]; exact hl) (tableEnd_nl C)
  rw [weave_nil, List.map_nil, weave_nil, hg] at this
  rw [this, trimEndP_of_last (by simpa using ho)]
  exact Runs.pure _ _

theorem sg_body {C : Ctx} {base : Str} (D : DocCtx C base) {t : Spec.SgText} (h : t.Ok C.U.isLu)
    (hr : C.cfg.restricted = true → ∀ p ∈ t.parts, p.1 ≠ .ampersand) (σ : PState) :
    Body C t.source (t.lead ++ Spec.partsHtml t.parts) 0 σ σ (brk C.cfg.brTag (t.lead ++ Spec.partsHtml t.parts)) := by
  have F := sgFacts (C := C) D.uni h
  have hno : ∀ c, c ∉ sgA.ascii → c.toNat < 128 → c ∉ t.source := fun c h1 h2 hm => Alpha.not_mem h1 h2 (F.over c hm)
  have hnoH : ∀ c, c ∉ sgHtmlA.ascii → c.toNat < 128 → c ∉ t.lead ++ Spec.partsHtml t.parts := fun c h1 h2 hm => Alpha.not_mem h1 h2 (F.overH c hm)
  refine ⟨⟨?_, F.linedH, ?_, Grows.of_same rfl rfl rfl rfl rfl, by omega, ?_⟩,
    runs_glyphs D F.quiet F.footnote (hno _ (by decide) (by decide)) (hno _ (by decide) (by decide)) (lined_last F.lined) (F.glyph hr) (lined_last F.linedH) σ⟩
  · have := Woven.text (hnoH '<' (by decide) (by decide)) .nil
    rwa [List.append_nil] at this
  · intro e
    obtain ⟨e1, e2⟩ := List.append_eq_nil_iff.1 e
    obtain ⟨c, u, e3, -⟩ := F.first
    unfold Spec.SgText.source at e3
    rw [e1] at e3
    cases hp : t.parts with
    | nil => rw [hp] at e3; simp [Spec.partsSource] at e3
    | cons p ps =>
      rw [hp] at e2
      obtain ⟨c, f, e4, -⟩ := form_first 22 p.1
      rw [form_last] at e4
      simp [Spec.partsHtml, e4] at e2
  · intro τ _ _
    have := (Rep.nil (uid := C.cfg.uid) (σ := τ)).text (w := brk C.cfg.brTag (t.lead ++ Spec.partsHtml t.parts))
      (brk_nocolon (brTag_nocolon _) (hnoH ':' (by decide) (by decide)))
    simpa using this

/-! ## The text in its element -/

def sgOutM : Auto := [
  (true, [(inkA, 1), (oneA '&', 1)]),
  (true, [(linesA, 1), (⟨t!"&#;", false⟩, 1)])]

set_option maxRecDepth 100000 in
theorem sgOutM_ok : sgOutM.wf = true ∧ sgOutM.avoids UNWRAPPABLE_RE = true ∧ sgOutM.avoids DIVIDER_RE = true ∧ sgOutM.avoids WRAPPED_RE = true := by
  decide +kernel

theorem sgOutM_text : ∀ {w : Str}, sgHtmlA.Over w → sgOutM.Run 1 w
  | [], _ => rfl
  | c :: w, h => by
    have hr := sgOutM_text (w := w) (fun x hx => h x (by simp [hx]))
    rcases h c (by simp) with hc | hc
    · rcases List.mem_append.1 hc with hc | hc
      · exact ⟨(linesA, 1), by simp [sgOutM, Auto.step], .inl hc, hr⟩
      · exact ⟨(⟨t!"&#;", false⟩, 1), by simp [sgOutM, Auto.step], .inl hc, hr⟩
    · exact ⟨(linesA, 1), by simp [sgOutM, Auto.step], .inr hc, hr⟩

theorem html_first {s : Spec.Sign} : ∃ c f, s.html = c :: f ∧ (c = '&' ∨ s = .enDash) := by
  cases s <;> first | exact ⟨_, _, rfl, .inl rfl⟩ | exact ⟨_, _, rfl, .inr rfl⟩

theorem sgHtml_first {U : Uni} {t : Spec.SgText} (h : t.Ok U.isLu) : ∃ c u, t.lead ++ Spec.partsHtml t.parts = c :: u ∧ (inkA.Mem c ∨ c = '&') := by
  obtain ⟨c, u, e, h1, h2⟩ := h.first
  unfold Spec.SgText.source at e
  cases hl : t.lead with
  | cons d v =>
    rw [hl] at e
    simp at e
    refine ⟨d, _, rfl, .inl ?_⟩
    rw [e.1]
    rcases ink_or_gap (prose_over (sgBase_of h).word c (by rw [hl]; simp [e.1])) with hc | ⟨-, rfl | rfl⟩
    · exact hc
    · exact absurd rfl h1
    · exact absurd rfl h2
  | nil =>
    cases hp : t.parts with
    | nil => rw [hl, hp] at e; simp [Spec.partsSource] at e
    | cons p ps =>
      have hf := h.fit
      rw [hl, hp] at hf
      obtain ⟨c, f, e4, h4⟩ := html_first (s := p.1)
      refine ⟨c, _, by simp only [Spec.partsHtml, List.flatMap_cons, e4]; rfl, ?_⟩
      rcases h4 with h4 | h4
      · exact .inr h4
      · have := hf.1
        rw [h4] at this
        obtain ⟨⟨d, e, -⟩, -⟩ := this
        cases e

theorem hasRawText_sg {U : Uni} (hU : UniOk U) {t : Spec.SgText} (h : t.Ok U.isLu) : hasRawText U (t.lead ++ Spec.partsHtml t.parts) = true := by
  have hr : sgOutM.Run 0 (t.lead ++ Spec.partsHtml t.parts) := by
    have hov := partsHtml_over (sgBase_of h)
    obtain ⟨c, u, e, hc⟩ := sgHtml_first h
    rw [e] at hov ⊢
    have hr := sgOutM_text (w := u) (fun x hx => hov x (by simp [hx]))
    rcases hc with hc | rfl
    · exact ⟨(inkA, 1), by simp [sgOutM, Auto.step], hc, hr⟩
    · exact ⟨(oneA '&', 1), by simp [sgOutM, Auto.step], oneA_mem _, hr⟩
  obtain ⟨h1, h2, h3, h4⟩ := sgOutM_ok
  unfold hasRawText
  rw [Re.isMatch_none (Auto.search_none hU h1 h2 (by decide) hr), Re.isMatch_none (Auto.search_none hU h1 h3 (by decide) hr),
    Re.captures_none (Auto.search_none hU h1 h4 (by decide) hr)]
  rfl

theorem notelist_sg {t : Spec.SgText} (hn : ¬ Spec.notelistWord <+: t.lead) : ¬ Spec.notelistWord <+: t.lead ++ Spec.partsHtml t.parts := by
  intro h
  apply hn
  have hx : ∀ {k w x : Str}, '&' ∉ k → ' ' ∉ k → (x = [] ∨ ∃ c y, x = c :: y ∧ (c = '&' ∨ c = ' ')) → k <+: w ++ x → k <+: w := by
    intro k
    induction k with
    | nil => intro w x _ _ _ _; exact List.nil_prefix
    | cons c k ih =>
      intro w x hk hk' hx hp
      cases w with
      | nil =>
        exfalso
        rcases hx with rfl | ⟨d, y, rfl, hd⟩
        · simp at hp
        · simp only [List.nil_append, List.cons_prefix_cons] at hp
          rcases hd with rfl | rfl
          · exact hk (by simp [hp.1])
          · exact hk' (by simp [hp.1])
      | cons d w =>
        simp only [List.cons_append, List.cons_prefix_cons] at hp ⊢
        exact ⟨hp.1, ih (fun hm => hk (by simp [hm])) (fun hm => hk' (by simp [hm])) hx hp.2⟩
  refine hx (by decide) (by decide) ?_ h
  cases t.parts with
  | nil => exact .inl rfl
  | cons p ps =>
    obtain ⟨c, f, e4, h4⟩ := html_first (s := p.1)
    refine .inr ⟨c, _, by simp only [Spec.partsHtml, List.flatMap_cons, e4]; rfl, ?_⟩
    rcases h4 with h4 | h4
    · exact .inl h4
    · rw [h4] at e4
      have : some ' ' = some c := congrArg List.head? e4
      exact .inr (Option.some.inj this).symm

theorem sg_begins {C : Ctx} (hU : UniOk C.U) {t : Spec.SgText} (h : t.Ok C.U.isLu) : Begins C t.source := by
  have F := sgFacts (C := C) hU h
  exact ⟨F.first, F.quiet.notedef, Re.isMatch_none F.quiet.divider⟩

theorem sg_lines {C : Ctx} (hU : UniOk C.U) {t : Spec.SgText} (h : t.Ok C.U.isLu) :
    ∃ ls, ls ≠ [] ∧ (∀ l ∈ ls, Spec.RawLine l) ∧ t.source = Spec.join t!"\n" ls := by
  have F := sgFacts (C := C) hU h
  obtain ⟨c, u, e, hc⟩ := F.first
  have k1 := F.lined
  have k2 := F.nocr
  rw [e] at k1 k2 ⊢
  have := lines_of u (p := [c]) (lined_tail k1) k2 (by simp; rintro rfl; revert hc; decide) (blank_not hc)
  simpa using this

theorem sg_tagLines {C : Ctx} (hU : UniOk C.U) {t : Spec.SgText} (h : t.Ok C.U.isLu) {p : Str} (h1 : '\n' ∉ p ∧ '\r' ∉ p) (h2 : ∃ c u, p = c :: u ∧ isWs c = false) :
    (∃ ls, ls ≠ [] ∧ (∀ l ∈ ls, Spec.RawLine l) ∧ p ++ t.source = Spec.join t!"\n" ls) ∧ ∃ c u, p ++ t.source = c :: u ∧ isWs c = false := by
  have F := sgFacts (C := C) hU h
  obtain ⟨c, u, rfl, hc⟩ := h2
  refine ⟨?_, c, _, rfl, hc⟩
  have k2 := F.nocr
  exact lines_of _ (p := c :: u) F.lined (by simp at k2 h1; simp [h1, k2]) h1.1 (blank_not hc)

/-- An element with a text without tags. -/
theorem act_element {C : Ctx} {P P' : PState → Prop} {src tag att w : Str} {n : Nat}
    (hl : (∃ ls, ls ≠ [] ∧ (∀ l ∈ ls, Spec.RawLine l) ∧ src = Spec.join t!"\n" ls) ∧ ∃ c u, src = c :: u ∧ isWs c = false)
    (ht : tag ∈ brTags) (ha : '<' ∉ att) (hw : lined w = true) (hw' : '<' ∉ w)
    (h : ∀ σ : PState, P σ → σ.spanDepth + 1 ≤ C.cfg.maxSpanDepth → ∃ σ' q, BodyTo C src n σ σ' q (openTagA tag att ++ (brk C.cfg.brTag w ++ closeTag tag)) ∧ P' σ') :
    Act C P P' src n (Spec.elementWith tag att (Spec.breakLines C.cfg.brTag w)) := by
  have hW : ∀ {w : Str}, lined w = true → linedW w = true := by
    intro w
    induction w with
    | nil => simp [linedW]
    | cons c w ih =>
      intro h
      cases w with
      | nil => rfl
      | cons d w => simp only [lined, linedW, Bool.and_eq_true] at h ⊢; exact ⟨h.1, ih h.2⟩
  refine ⟨hl.1, hl.2, ?_, ?_⟩
  · intro σ hP hd
    obtain ⟨σ', q, h1, h2⟩ := h σ hP hd
    refine ⟨σ', q, _, h1.step, h1.grow, h2, h1.index, h1.rep, h1.nolist, ?_⟩
    intro r _
    rw [List.append_assoc, List.append_assoc, tidyBreaks_free (free_open (brFree_start tag ht).1 rfl ha),
      tidy_brk (brTag_cases C.cfg) (hW hw) hw' (fun e => absurd rfl (lined_last hw _ e)),
      tidyBreaks_free (brFree_tags tag ht).2.1, elementWith_eq]
    simp
  · rw [elementWith_eq, ← List.append_assoc]
    exact styled_end _ tag (tagged_chars tag ht).1

theorem act_sgPara {C : Ctx} {base : Str} (D : DocCtx C base) {t : Spec.SgText} (h : t.Ok C.U.isLu)
    (hr : C.cfg.restricted = true → ∀ p ∈ t.parts, p.1 ≠ .ampersand)
    (hs : Spec.NoBlockStart C.U.isNd C.cfg.lite t.source) (hn : ¬ Spec.notelistWord <+: t.lead) (P : PState → Prop) :
    Act C P P t.source 0 (Spec.elementWith t!"p" [] (t.html C.cfg.brTag)) := by
  have F := sgFacts (C := C) D.uni h
  refine act_element (tag := t!"p") (att := []) ⟨sg_lines D.uni h, F.first⟩ (by decide) (by simp) F.linedH
    (fun hm => Alpha.not_mem (by decide) (by decide) (F.overH _ hm)) ?_
  intro σ hσ _
  obtain ⟨q, hq⟩ := body_para D (sg_body D h hr σ) (sg_begins D.uni h) (tag_none_of hs) (hasRawText_sg D.uni h) (notelist_sg hn)
  exact ⟨σ, q, by rw [openTagA_nil]; exact hq, hσ⟩

theorem act_sgStyled {C : Ctx} {base : Str} (D : DocCtx C base) {t : Spec.SgText} (h : t.Ok C.U.isLu)
    (hr : C.cfg.restricted = true → ∀ p ∈ t.parts, p.1 ≠ .ampersand) {tag : Str} {a : Spec.Atts} (ha : a.Ok) (hb : a.left = 0)
    (ht : tag ∈ t!"p" :: (if C.cfg.lite then [] else [t!"h1", t!"h2", t!"h3", t!"h4", t!"h5", t!"h6"]))
    (hn : tag = t!"p" → ¬ Spec.notelistWord <+: t.lead) (htok : ¬ C.cfg.uid <:+: tag ++ (a.source ++ (t!". " ++ t.source))) (P : PState → Prop) :
    Act C P P (tag ++ (a.source ++ (t!". " ++ t.source))) 0 (Spec.elementWith tag (a.html C.cfg.restricted) (t.html C.cfg.brTag)) := by
  have F := sgFacts (C := C) D.uni h
  obtain ⟨m1, m2⟩ := tagged_mem ht
  have hca : containsStr C.cfg.uid a.source = false := contains_of_not (fun hi => htok (infix_source (.inl hi)))
  have hlt : '<' ∉ a.html C.cfg.restricted := (atts_tagText D.plain ha (by rw [← D.uid]; exact hca) _).nolt
  obtain ⟨a1, a2⟩ := atts_nonl ha
  obtain ⟨g1, g2, -, g3⟩ := tagged_chars tag m1
  have hl := sg_tagLines D.uni h (p := tag ++ (a.source ++ t!". ")) ⟨by simp [a1, g1], by simp [a2, g2]⟩ (by
    obtain ⟨c, u, rfl, hc⟩ := g3; exact ⟨c, _, rfl, hc⟩)
  rw [show tag ++ (a.source ++ t!". ") ++ t.source = tag ++ (a.source ++ (t!". " ++ t.source)) by simp] at hl
  refine act_element hl m1 hlt F.linedH (fun hm => Alpha.not_mem (by decide) (by decide) (F.overH _ hm)) ?_
  intro σ hσ _
  obtain ⟨q, hq⟩ := body_styled D ha hca (.inl hb) (sg_body D h hr σ) (sg_begins D.uni h) m1 m2 (fun e => notelist_sg (hn e))
  exact ⟨σ, q, hq, hσ⟩

/-! ## Escaping -/

def ampEnc (t : Str) : Str := encodeHtml t false false

theorem ampEnc_cons {c : Char} {t : Str} (h : c ∉ t!"&<>") : ampEnc (c :: t) = c :: ampEnc t := by
  unfold ampEnc
  rw [enc_cons]
  have : encChar false false c = [c] := by
    simp at h
    simp [encChar, h]
  rw [this]; rfl

theorem ampEnc_head (c : Char) (t : Str) : ∃ d u, ampEnc (c :: t) = d :: u ∧ (d = c ∨ d = '&') := enc_first

/-- The text starts with a character that is not escaped. -/
theorem ampEnc_start {t u : Str} {c : Char} (h : ampEnc t = c :: u) (hc : c ≠ '&') : ∃ v, t = c :: v ∧ ampEnc v = u := by
  cases t with
  | nil => cases h
  | cons d t =>
    have key : encChar false false d = [d] ∨ ∃ e, encChar false false d = '&' :: e := by
      rcases entity_chars (q := false) (c := d) with e | ⟨e', e, -⟩
      · exact .inl e
      · exact .inr ⟨_, e⟩
    unfold ampEnc at h
    rw [enc_cons] at h
    rcases key with e | ⟨f, e⟩
    · rw [e] at h
      obtain ⟨rfl, rfl⟩ := List.cons.inj h
      exact ⟨t, rfl, rfl⟩
    · rw [e] at h
      exact absurd (List.cons.inj h).1.symm hc

theorem ampEnc_noTimes {t : Str} (h : Spec.NoTimes t) : Spec.NoTimes (ampEnc t) := by
  intro x u hx
  have hx' : x ≠ '&' := by rcases hx with rfl | rfl <;> decide
  constructor
  · intro e
    obtain ⟨v, rfl, -⟩ := ampEnc_start e hx'
    exact (h x v hx).1 rfl
  · intro e
    obtain ⟨v, rfl, e1⟩ := ampEnc_start e (by decide)
    obtain ⟨v, rfl, -⟩ := ampEnc_start e1 hx'
    exact (h x v hx).2 rfl

theorem ampEnc_startsIn {l t : Str} (hl : ∀ c ∈ t!"&<>", c ∉ l) (h : Spec.StartsIn l t) : Spec.StartsIn l (ampEnc t) := by
  intro c u e
  cases t with
  | nil => cases e
  | cons d t =>
    have hd := h d t rfl
    rw [ampEnc_cons (fun hm => hl d hm hd)] at e
    obtain ⟨rfl, -⟩ := List.cons.inj e
    exact hd

theorem ampEnc_next {t : Str} {c : Char} (hc : c ≠ '&') (h : t.head? ≠ some c) : (ampEnc t).head? ≠ some c := by
  intro e
  cases ht : ampEnc t with
  | nil => rw [ht] at e; cases e
  | cons d u =>
    rw [ht] at e
    simp at e
    subst e
    obtain ⟨v, rfl, -⟩ := ampEnc_start ht hc
    exact h rfl

theorem letter_plain {c : Char} (h : Spec.isLetterOrDigit c = true) : c ∉ t!"&<>" := by
  intro hm
  exact absurd h ((by decide : ∀ c ∈ t!"&<>", ¬ Spec.isLetterOrDigit c = true) c hm)

theorem fits_enc {s : Spec.Sign} {b : Option Char} {a : Str} (h : s.Fits b a) : s.escaped.Fits b (ampEnc a) := by
  have hle : ∀ c, Spec.isLetter c = true → Spec.isLetterOrDigit c = true := fun c hc => by simp [Spec.isLetterOrDigit, hc]
  cases s with
  | apostrophe =>
    obtain ⟨h1, h2, c, u, rfl, h3, h4⟩ := h
    refine ⟨h1, ampEnc_noTimes h2, c, ampEnc u, ampEnc_cons (letter_plain h3), h3, ?_⟩
    rintro ⟨d, v, e, hd⟩
    obtain ⟨u', rfl, e1⟩ := ampEnc_start e (by decide)
    obtain ⟨v', rfl, -⟩ := ampEnc_start e1 (by rintro rfl; revert hd; decide)
    exact h4 ⟨d, v', rfl, hd⟩
  | openSingle =>
    obtain ⟨h1, c, u, rfl, h3, h4⟩ := h
    exact ⟨h1, c, ampEnc u, ampEnc_cons (letter_plain (hle c h3)), h3, ampEnc_next (by decide) h4⟩
  | openDouble =>
    obtain ⟨h1, c, u, rfl, h3, h4⟩ := h
    exact ⟨h1, c, ampEnc u, ampEnc_cons (letter_plain h3), h3, ampEnc_next (by decide) h4⟩
  | closeSingle => exact ⟨h.1, ampEnc_startsIn (by decide) h.2.1, ampEnc_noTimes h.2.2⟩
  | closeDouble => exact ⟨h.1, ampEnc_startsIn (by decide) h.2.1, ampEnc_noTimes h.2.2⟩
  | decade ds => exact ⟨h.1, h.2.1, h.2.2.1, ampEnc_startsIn (by decide) h.2.2.2.1, ampEnc_noTimes h.2.2.2.2⟩
  | ellipsis => exact ⟨h.1, ampEnc_next (by decide) h.2⟩
  | ampersand => exact ⟨by simp, by decide⟩
  | entity n => exact h
  | emDash => trivial
  | enDash =>
    obtain ⟨h1, c, u, rfl, h2⟩ := h
    obtain ⟨d, v, e, hd⟩ := ampEnc_head c u
    refine ⟨h1, d, v, e, ?_⟩
    rcases hd with rfl | rfl
    · exact h2
    · decide
  | mark sq cap m =>
    refine ⟨ampEnc_noTimes h.1, ?_, h.2.2⟩
    intro hs c u e
    by_cases hc : c = '&'
    · subst hc; decide
    · obtain ⟨v, rfl, -⟩ := ampEnc_start e hc
      exact h.2.1 hs c v rfl

theorem enc_sign {s : Spec.Sign} {b : Option Char} {a : Str} (h : s.Fits b a) (hs : ∀ n, s ≠ .entity n) : encodeHtml s.source false false = s.escaped.source := by
  rcases mem_constSigns s with hc | ⟨ds, rfl⟩ | ⟨n, rfl⟩
  · exact (by decide +kernel : ∀ s ∈ constSigns, encodeHtml s.source false false = s.escaped.source) s hc
  · change encodeHtml ('\'' :: ds) false false = '\'' :: ds
    rw [enc_cons, enc_id (t := ds)]
    · rfl
    · intro c hc hm
      have := h.2.2.1 c hc
      rw [(by decide +kernel : ∀ d ∈ t!"&<>\"'", Spec.isDecimal d = false) c hm] at this; cases this
  · exact absurd rfl (hs n)

def escParts (ps : List (Spec.Sign × Str)) : List (Spec.Sign × Str) := ps.map (fun p => (p.1.escaped, p.2))

theorem enc_parts {U : Uni} : ∀ {ps : List (Spec.Sign × Str)} {b : Option Char}, (∀ p ∈ ps, Spec.Prose U.isLu p.2) → Spec.AllFit b ps →
    (∀ p ∈ ps, ∀ n, p.1 ≠ .entity n) → ampEnc (Spec.partsSource ps) = Spec.partsSource (escParts ps) ∧ Spec.AllFit b (escParts ps)
  | [], _, _, _, _ => ⟨rfl, trivial⟩
  | (s, v) :: ps, b, ht, ha, hs => by
    obtain ⟨i1, i2⟩ := enc_parts (ps := ps) (b := v.getLast?) (fun p hp => ht p (by simp [hp])) ha.2.2 (fun p hp => hs p (by simp [hp]))
    have hv := enc_prose (ht (s, v) (by simp))
    have hsv := enc_sign ha.1 (hs (s, v) (by simp))
    refine ⟨?_, ?_, ?_, i2⟩
    · unfold ampEnc at i1 ⊢
      simp only [Spec.partsSource, escParts, List.flatMap_cons, List.map_cons, enc_append] at i1 ⊢
      simp only at hv hsv
      rw [i1, hsv, hv]
    · have := fits_enc ha.1
      simp only at hv
      unfold ampEnc at this i1
      rw [enc_append, hv, i1] at this
      exact this
    · intro hne
      exact ha.2.1 (by rintro rfl; exact hne rfl)

theorem escaped_sgText {U : Uni} {t : Spec.SgText} (h : t.Ok U.isLu) (hb : t.Bare) :
    t.escaped.Ok U.isLu ∧ encodeHtml t.source false false = t.escaped.source ∧ ∀ p ∈ t.escaped.parts, p.1 ≠ .ampersand := by
  have hB := sgBase_of h
  obtain ⟨i1, i2⟩ := enc_parts hB.texts h.fit hb
  have hs : encodeHtml t.source false false = t.escaped.source := by
    unfold Spec.SgText.source
    rw [enc_append, enc_prose hB.word]
    exact congrArg (t.lead ++ ·) i1
  refine ⟨⟨?_, i2, ?_, ?_⟩, hs, ?_⟩
  · intro w hw
    apply h.texts w
    simpa [Spec.SgText.texts, Spec.SgText.escaped, Function.comp_def] using hw
  · obtain ⟨c, u, e, h1, h2⟩ := h.first
    rw [← hs, e]
    obtain ⟨d, v, e', hd⟩ := ampEnc_head c u
    refine ⟨d, v, e', ?_⟩
    rcases hd with rfl | rfl
    · exact ⟨h1, h2⟩
    · decide
  · rintro ⟨u, c, e, hc⟩
    rw [← hs] at e
    rcases List.eq_nil_or_concat t.source with h0 | ⟨v, x, h0⟩
    · rw [h0] at e; simp [encodeHtml] at e
    · rw [List.concat_eq_append] at h0
      obtain ⟨v', d, e', hd⟩ := enc_last (c := x) (t := v)
      rw [h0, e'] at e
      have hcd : d = c := by
        have := congrArg List.getLast? e
        simpa using this
      subst hcd
      rcases hd with rfl | rfl
      · exact h.last ⟨v, d, h0, hc⟩
      · revert hc; decide
  · intro p hp
    obtain ⟨q, -, rfl⟩ := List.mem_map.1 hp
    cases q.1 <;> simp [Spec.Sign.escaped]

theorem noBlockStart_enc {U : Uni} (hU : UniOk U) {lite : Bool} {t : Str} (h : Spec.NoBlockStart U.isNd lite t) :
    Spec.NoBlockStart U.isNd lite (encodeHtml t false false) := by
  intro w c u e hc hw
  have hamp : '&' ∉ w := by
    have hw' : Spec.fullWord U.isNd w := by
      cases lite
      · exact hw
      · left
        simp only [Spec.blockWord, if_true, Spec.liteWord, List.mem_cons, List.not_mem_nil, or_false] at hw
        rcases hw with rfl | rfl | rfl <;> decide
    rcases hw' with hw | ⟨d, ds, rfl, hd⟩
    · exact fun hm => (by decide +kernel : ∀ w ∈ _, '&' ∉ w) w hw hm
    · intro hm
      simp only [List.mem_cons] at hm
      have : '&' ∈ d :: ds := by
        rcases hm with hm | hm | hm
        · exact absurd hm (by decide)
        · exact absurd hm (by decide)
        · simpa using hm
      have := hd _ this
      rw [hU.dec _ (by decide)] at this
      revert this; decide
  have hc' : c ≠ '&' := by rintro rfl; revert hc; decide
  have key : ∀ {w t : Str}, '&' ∉ w → ampEnc t = w ++ c :: u → ∃ v, t = w ++ c :: v := by
    intro w
    induction w with
    | nil =>
      intro t _ e
      obtain ⟨v, e, -⟩ := ampEnc_start e hc'
      exact ⟨v, e⟩
    | cons x w ih =>
      intro t hm e
      simp at hm
      obtain ⟨v, rfl, e1⟩ := ampEnc_start e (fun e => hm.1 e.symm)
      obtain ⟨v', rfl⟩ := ih (by simpa using hm.2) e1
      exact ⟨v', rfl⟩
  obtain ⟨v, rfl⟩ := key hamp e
  exact h w c v rfl hc hw

/-! ## Documents -/

/-- What is required of the blocks after escaping. -/
def SgSeen (C : Ctx) : Spec.SgBlock → Prop
  | .other b => b.Ok C.U.isLu C.U.isNd C.cfg.lite C.cfg.restricted
  | .para t => t.Ok C.U.isLu ∧ (C.cfg.restricted = true → ∀ p ∈ t.parts, p.1 ≠ .ampersand) ∧ Spec.NoBlockStart C.U.isNd C.cfg.lite t.source ∧ ¬ Spec.notelistWord <+: t.lead
  | .styled tag a t => t.Ok C.U.isLu ∧ (C.cfg.restricted = true → ∀ p ∈ t.parts, p.1 ≠ .ampersand) ∧ a.Ok ∧ a.left = 0 ∧
      tag ∈ t!"p" :: (if C.cfg.lite then [] else [t!"h1", t!"h2", t!"h3", t!"h4", t!"h5", t!"h6"]) ∧ (tag = t!"p" → ¬ Spec.notelistWord <+: t.lead)

theorem sgSeen_plain {C : Ctx} {b : Spec.SgBlock} (hr : ¬ C.cfg.restricted = true) (h : b.Ok C.U.isLu C.U.isNd C.cfg.lite C.cfg.restricted) : SgSeen C b := by
  cases b with
  | other b => exact h
  | para t => exact ⟨h.1, fun e => absurd e hr, h.2.2⟩
  | styled tag a t => exact ⟨h.1, fun e => absurd e hr, h.2.2.1, h.2.2.2.2⟩

theorem sgSeen_escaped {C : Ctx} (hU : UniOk C.U) {b : Spec.SgBlock} (hr : C.cfg.restricted = true) (h : b.Ok C.U.isLu C.U.isNd C.cfg.lite C.cfg.restricted) :
    SgSeen C b.escaped ∧ encodeHtml b.source false false = b.escaped.source := by
  cases b with
  | other b =>
    have h : b.Ok C.U.isLu C.U.isNd C.cfg.lite C.cfg.restricted := h
    rw [hr] at h
    obtain ⟨h1, h2⟩ := escaped_tb hU h
    exact ⟨by change Spec.TbBlock.Ok _ _ _ _ _; rw [hr]; exact h1, h2⟩
  | para t =>
    obtain ⟨h1, h2, h3, h4⟩ := h
    obtain ⟨k1, k2, k3⟩ := escaped_sgText h1 (h2 hr)
    exact ⟨⟨k1, fun _ => k3, by rw [← k2]; exact noBlockStart_enc hU h3, h4⟩, k2⟩
  | styled tag a t =>
    obtain ⟨h1, h2, h3, h4, h5, h6, h7⟩ := h
    obtain ⟨k1, k2, k3⟩ := escaped_sgText h1 (h2 hr)
    rw [hr] at h4
    refine ⟨⟨k1, fun _ => k3, h3, h5, h6, h7⟩, ?_⟩
    simp only [Spec.SgBlock.source, Spec.SgBlock.escaped]
    rw [enc_append, enc_append, enc_append, (tagged_chars tag (tagged_mem h6).1).2.2.1, enc_atts h3 h4, k2]
    rfl

theorem sg_escaped {b : Spec.SgBlock} : b.escaped.chars = b.chars ∧ b.escaped.marks = b.marks := by
  cases b with
  | other b => exact tb_escaped
  | _ => exact ⟨rfl, rfl⟩

theorem act_sg {C : Ctx} {base : Str} (D : DocCtx C base) (hp : C.cfg.linkPrefix = base ++ t!"-") {ok : Char → Prop} (ha : ∀ c, c.toNat < 128 → ok c)
    {b : Spec.SgBlock} (hL : Lowers C.U ok) (h : SgSeen C b)
    (hc : ∀ c ∈ b.chars, ok c)
    (hR : b.Resolved (Spec.Resolves C.E.urlParse C.E.urlJoin C.cfg.restricted) C.cfg.rel)
    (htok : ¬ C.cfg.uid <:+: b.source) (N : Spec.Numbers) (M : Spec.Notes) :
    Act C (fun σ => Num N σ ∧ FnState base aux0 M σ) (fun σ => Num (b.numbers N) σ ∧ FnState base aux0 (b.notes M) σ) b.source b.marks
      (b.html C.cfg.brTag C.cfg.restricted base N M) := by
  cases b with
  | other b => exact act_tb D hp ha hL h hc hR htok N M
  | para t => exact act_sgPara D h.1 h.2.1 h.2.2.1 h.2.2.2 _
  | styled tag a t => exact act_sgStyled D h.1 h.2.1 h.2.2.1 h.2.2.2.1 h.2.2.2.2.1 h.2.2.2.2.2 htok _

theorem sg_acts {C : Ctx} {base : Str} (D : DocCtx C base) (hp : C.cfg.linkPrefix = base ++ t!"-") {ok : Char → Prop} (ha : ∀ c, c.toNat < 128 → ok c)
    (hL : Lowers C.U ok) :
    ∀ {ds : List (Spec.SgBlock × Nat)} (_ : ds ≠ [])
    (_ : ∀ d ∈ ds, SgSeen C d.1) (_ : ∀ d ∈ ds, ∀ c ∈ d.1.chars, ok c)
    (_ : ∀ d ∈ ds, d.1.Resolved (Spec.Resolves C.E.urlParse C.E.urlJoin C.cfg.restricted) C.cfg.rel)
    (_ : ∀ d ∈ ds, ¬ C.cfg.uid <:+: d.1.source) (N : Spec.Numbers) (M : Spec.Notes),
    Acts C (fun σ => Num N σ ∧ FnState base aux0 M σ) (ds.map (fun d => (d.1.source, d.2))) (Spec.sgMarks ds) (Spec.sgHtml C.cfg.brTag C.cfg.restricted base N M ds)
  | [], hne, _, _, _, _, _, _ => absurd rfl hne
  | [d], _, h, hc, hR, htok, N, M => by
    have := Acts.one (k := d.2) (act_sg (aux0 := aux0) D hp ha hL (h d (by simp)) (hc d (by simp)) (hR d (by simp)) (htok d (by simp)) N M)
    simpa [Spec.sgMarks, Spec.sgHtml] using this
  | d :: e :: ds, _, h, hc, hR, htok, N, M => by
    have ih := sg_acts D hp ha hL (ds := e :: ds) (by simp) (fun x hx => h x (List.mem_cons_of_mem _ hx))
      (fun x hx => hc x (List.mem_cons_of_mem _ hx)) (fun x hx => hR x (List.mem_cons_of_mem _ hx))
      (fun x hx => htok x (List.mem_cons_of_mem _ hx)) (d.1.numbers N) (d.1.notes M)
    have := Acts.cons (k := d.2) (act_sg (aux0 := aux0) D hp ha hL (h d (by simp)) (hc d (by simp)) (hR d (by simp)) (htok d (by simp)) N M) ih
    simpa [Spec.sgMarks, Spec.sgHtml] using this

theorem sg_resolved {R : Str → Str → Prop} {rel : Option Str} {b : Spec.SgBlock} (h : b.Resolved R rel) : b.escaped.Resolved R rel := by
  cases b with
  | other b =>
    cases b with
    | other b =>
      cases b with
      | node b => exact node_resolved h
      | _ => trivial
    | _ => trivial
  | _ => trivial

/-- What `parse` makes of documents with signs. -/
theorem parse_signs {E : Env} {fuel : Nat} {cfg : Cfg} {base : Str} (D : DocCtx ⟨E, cfg, fuel⟩ base) (hp : cfg.linkPrefix = base ++ t!"-")
    (hbt : cfg.blockTags = true) (hsan : cfg.sanitizer = none) (hdep : 1 ≤ cfg.maxSpanDepth) {ok : Char → Prop}
    (ha : ∀ c, c.toNat < 128 → ok c) (hL : Lowers E.U ok) {ds : List (Spec.SgBlock × Nat)}
    (hne : ds ≠ []) (h : ∀ d ∈ ds, d.1.Ok E.U.isLu E.U.isNd cfg.lite cfg.restricted) (hc : ∀ d ∈ ds, ∀ c ∈ d.1.chars, ok c)
    (hR : ∀ d ∈ ds, d.1.Resolved (Spec.Resolves E.urlParse E.urlJoin cfg.restricted) cfg.rel)
    (htok : ¬ cfg.uid <:+: Spec.sgSource ds) (hn : 2 * Spec.sgMarks ds < 2 ^ 32) :
    parseFresh E fuel cfg (Spec.sgSource ds) = .ok (Spec.sgDocHtml cfg.brTag cfg.restricted base ds) := by
  have key : ∃ es : List (Spec.SgBlock × Nat), Spec.sgSeen cfg.restricted ds = es ∧
      (if cfg.restricted then encodeHtml (Spec.sgSource ds) false false else Spec.sgSource ds) = Spec.sgSource es ∧ es ≠ [] ∧
      (∀ d ∈ es, SgSeen ⟨E, cfg, fuel⟩ d.1) ∧
      (∀ d ∈ es, ∀ c ∈ d.1.chars, ok c) ∧
      (∀ d ∈ es, d.1.Resolved (Spec.Resolves E.urlParse E.urlJoin cfg.restricted) cfg.rel) ∧ Spec.sgMarks es = Spec.sgMarks ds := by
    refine ⟨_, rfl, ?_⟩
    unfold Spec.sgSeen
    by_cases hr : cfg.restricted = true
    · rw [if_pos hr, if_pos hr]
      have hok := fun d hd => sgSeen_escaped (C := ⟨E, cfg, fuel⟩) D.uni hr (h d hd)
      refine ⟨?_, by simp [hne], ?_, ?_, ?_, ?_⟩
      · simp only [Spec.sgSource, enc_glue, List.map_map]
        congr 1
        apply List.map_congr_left
        intro d hd
        simp only [Function.comp]
        rw [(hok d hd).2]
      · intro d hd
        obtain ⟨x, hx, rfl⟩ := List.mem_map.1 hd
        exact (hok x hx).1
      · intro d hd
        obtain ⟨x, hx, rfl⟩ := List.mem_map.1 hd
        rw [sg_escaped.1]; exact hc x hx
      · intro d hd
        obtain ⟨x, hx, rfl⟩ := List.mem_map.1 hd
        exact sg_resolved (hR x hx)
      · simp only [Spec.sgMarks, List.map_map]
        congr 1
        apply List.map_congr_left
        intro d _
        exact sg_escaped.2
    · rw [if_neg hr, if_neg hr]
      exact ⟨rfl, hne, fun d hd => sgSeen_plain (C := ⟨E, cfg, fuel⟩) hr (h d hd), hc, hR, rfl⟩
  obtain ⟨es, e0, e1, e2, e4, e5, e6, e7⟩ := key
  have htok' : containsStr cfg.uid (Spec.sgSource es) = false := by
    have h0 := contains_of_not htok
    rw [← e1]
    split
    · obtain ⟨c1, c2, -, -, -, -, c7, -⟩ := uid_chars D.plain
      have hu : cfg.uid = uidOf base := D.uid
      rw [hu] at h0 ⊢
      exact containsStr_enc c1 c2 c7 h0
    · exact h0
  rw [Spec.sgDocHtml, e0]
  refine parse_acts D hbt hsan hdep (P := fun σ => Num (fun _ => 1) σ ∧ FnState base {} ⟨[], 0⟩ σ) ⟨fun _ => rfl, fun _ => rfl, rfl, rfl⟩
    (sg_acts D hp ha hL e2 e4 e5 e6 ?_ _ _) e1 htok (by rw [e7]; exact hn)
  rintro d hd ⟨a, b, e⟩
  have := clean_of_infix htok' (glue_infix (ps := es.map (fun d => (d.1.source, d.2))) (p := (d.1.source, d.2)) (List.mem_map.2 ⟨d, hd, rfl⟩))
  rw [containsStr_iff.2 ⟨a, b, by rw [← e]; simp⟩] at this
  cases this

end Rustextile
