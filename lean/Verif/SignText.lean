import Verif.SignGlyph

/-!
# The replacement of signs as a whole
-/

namespace Rustextile

variable {U : Uni}

/-! ## Lone ampersands -/

theorem lone_near0 : Near0 U LONE_AMP_RE (setsK [t!"&"]) := by
  intro w rest h
  rw [LONE_shape] at h
  obtain ⟨u, v, rfl, h1, -⟩ := lang_seq.1 h
  rw [lang_chr.1 h1]
  simp [setsK, coreAt]

theorem form_zero (s : Spec.Sign) : form 0 s = s.source := by simp [form]

theorem source_head (s : Spec.Sign) : ∃ c f, s.source = c :: f ∧ c ∈ t!"'\".&- ([" := by
  cases s with
  | mark sq cap m => exact ⟨_, _, rfl, by cases sq <;> decide⟩
  | _ => exact ⟨_, _, rfl, by decide⟩

theorem stage_lone {w : Str} {ps : List (Spec.Sign × Str)} (h : SgBase U [] w ps) : Stage U LONE_AMP_RE t!"&amp;" 0 w ps := by
  have hK : Outside (setsK [t!"&"]) := outside_chr (by decide)
  refine stage_of (by kernel_rfl) (J := fun _ _ _ => True) ?_ ?_ h trivial
  · intro pre w s v ps h _
    have hv := prose_over h.next
    rcases mem_constSigns s with hs | ⟨ds, rfl⟩ | ⟨n, rfl⟩
    · by_cases hs' : s = .ampersand
      · subst hs'
        have := deal_hit (U := U) (r := LONE_AMP_RE) (tm := t!"&amp;") (k := 0) (J := fun _ _ _ => True) (pre := pre) (w0 := w) (x := []) (y := []) (v' := v)
          (s := .ampersand) (ps := ps) (c := []) rfl (by decide) trivial (lone_near0.skips hK (prose_over h.word)) ?_ (by rfl)
        · simpa using this
        · refine lone_hit ?_ ?_
          · cases v with
            | nil =>
              have : ps = [] := Classical.byContradiction (fun hp => h.after hp rfl)
              subst this; simp [formText]
            | cons c v =>
              simp
              rintro rfl
              exact absurd (hv '#' (by simp)) (Alpha.not_mem (by decide) (by decide))
          · intro l r e
            rcases List.append_eq_append_iff.1 e with ⟨l', rfl, e'⟩ | ⟨l', rfl, e'⟩
            · cases ps with
              | nil => simp [formText] at e'
              | cons p ps =>
                obtain ⟨s2, v2⟩ := p
                obtain ⟨c, f, hc, hm⟩ := source_head s2
                rw [formText_cons, form_zero, hc] at e'
                cases l' with
                | nil =>
                  simp only [List.cons_append, List.nil_append, List.cons.injEq] at e'
                  rw [e'.1] at hm; exact absurd hm (by decide)
                | cons a l' =>
                  simp only [List.cons_append, List.cons.injEq] at e'
                  exact ⟨c, by simp [e'.1], hm⟩
            · cases l' with
              | nil =>
                cases ps with
                | nil => simp [formText] at e'
                | cons p ps =>
                  obtain ⟨s2, v2⟩ := p
                  obtain ⟨c, f, hc, hm⟩ := source_head s2
                  rw [formText_cons, form_zero, hc] at e'
                  simp only [List.cons_append, List.nil_append, List.cons.injEq] at e'
                  rw [← e'.1] at hm; exact absurd hm (by decide)
              | cons a l' =>
                simp only [List.cons_append, List.cons.injEq] at e'
                rw [← e'.1] at hv
                exact absurd (hv ';' (by simp)) (Alpha.not_mem (by decide) (by decide))
      · have h0 : signStage s ≠ 0 := by
          intro e
          exact hs' (by simpa using stage_signs e (by decide) (by decide) (l := [.ampersand]) (by decide))
        exact deal_inert0 lone_near0 hK h h0 trivial ((by decide +kernel : ∀ s ∈ constSigns, signStage s ≠ 0 → inertF (setsK [t!"&"]) (form 0 s) = true) s hs h0)
    · refine deal_inert0 lone_near0 hK h (fun e => by cases e) trivial ?_
      rw [form_decade]
      exact inertF_append (inertF_digits hK.noAlnum h.fits.2.2.1) (by decide +kernel)
    · refine deal_skip (fun e => by cases e) trivial (Skips.append (lone_near0.skips hK (prose_over h.word)) ?_)
      rw [form_entity]
      refine Skips.cons ?_ (lone_near0.skips_form ?_)
      · have := lone_miss (U := U) (pre := w.reverse ++ pre) (rest := v ++ formText 0 ps) h.fits.1 h.fits.2
        simpa using this
      · refine inertF_append (by decide +kernel) ?_
        obtain ⟨k, K', e, hk⟩ := hK.noAlnum
        rw [e]
        exact inertF_of (fun c hc => hk c (.inr (h.fits.2 c hc)))
  · intro pre w hw
    exact lone_near0.skips hK (prose_over hw)

/-! ## The characters of the text -/

def sgA : Alpha := ⟨linesA.ascii ++ t!"'\"&#;-([])+", true⟩
def sgHtmlA : Alpha := ⟨linesA.ascii ++ t!"&#;", true⟩

theorem sgA_lines {c : Char} (h : linesA.Mem c) : sgA.Mem c ∧ sgHtmlA.Mem c := by
  rcases h with h | h
  · exact ⟨.inl (by simp [sgA, h]), .inl (by simp [sgHtmlA, h])⟩
  · exact ⟨.inr h, .inr h⟩

theorem form_over {k : Nat} {s : Spec.Sign} {b : Option Char} {a : Str} (hf : s.Fits b a) : sgA.Over (form k s) := by
  rcases mem_constSigns s with h | ⟨ds, rfl⟩ | ⟨n, rfl⟩
  · have key : ∀ s ∈ constSigns, (∀ c ∈ s.source, c ∈ sgA.ascii) ∧ ∀ c ∈ s.html, c ∈ sgA.ascii := by decide +kernel
    unfold form
    intro c hc
    split at hc
    · exact .inl ((key s h).2 c hc)
    · exact .inl ((key s h).1 c hc)
  · rw [form_decade]
    intro c hc
    rcases List.mem_append.1 hc with hc | hc
    · have key : (∀ c ∈ (Spec.Sign.decade []).source, c ∈ sgA.ascii) ∧ ∀ c ∈ (Spec.Sign.decade []).html, c ∈ sgA.ascii := by decide +kernel
      unfold form at hc
      split at hc
      · exact .inl (key.2 c hc)
      · exact .inl (key.1 c hc)
    · exact (sgA_lines (dig_lines (hf.2.2.1 c hc))).1
  · rw [form_entity]
    intro c hc
    simp at hc
    rcases hc with rfl | hc | rfl
    · exact .inl (by decide)
    · exact (sgA_lines (low_lines (hf.2 c hc))).1
    · exact .inl (by decide)

theorem html_over {s : Spec.Sign} {b : Option Char} {a : Str} (hf : s.Fits b a) : sgHtmlA.Over s.html := by
  rcases mem_constSigns s with h | ⟨ds, rfl⟩ | ⟨n, rfl⟩
  · have key : ∀ s ∈ constSigns, ∀ c ∈ s.html, c ∈ sgHtmlA.ascii := by decide +kernel
    exact fun c hc => .inl (key s h c hc)
  · intro c hc
    rcases List.mem_append.1 hc with hc | hc
    · exact .inl ((by decide +kernel : ∀ c ∈ Spec.charRef t!"8217", c ∈ sgHtmlA.ascii) c hc)
    · exact (sgA_lines (dig_lines (hf.2.2.1 c hc))).2
  · intro c hc
    change c ∈ '&' :: (n ++ [';']) at hc
    simp at hc
    rcases hc with rfl | hc | rfl
    · exact .inl (by decide)
    · exact (sgA_lines (low_lines (hf.2 c hc))).2
    · exact .inl (by decide)

theorem allFit_mem : ∀ {ps : List (Spec.Sign × Str)} {b : Option Char}, Spec.AllFit b ps → ∀ p ∈ ps, ∃ b a, p.1.Fits b a
  | [], _, _, p, hp => by cases hp
  | q :: ps, b, h, p, hp => by
    rcases List.mem_cons.1 hp with rfl | hp
    · exact ⟨_, _, h.1⟩
    · exact allFit_mem h.2.2 p hp

theorem formText_over {pre w : Str} {ps : List (Spec.Sign × Str)} (h : SgBase U pre w ps) (k : Nat) : sgA.Over (w ++ formText k ps) := by
  intro c hc
  rcases List.mem_append.1 hc with hc | hc
  · exact (sgA_lines (prose_over h.word c hc)).1
  · simp only [formText, List.mem_flatMap, List.mem_append] at hc
    obtain ⟨p, hp, hc⟩ := hc
    rcases hc with hc | hc
    · obtain ⟨b, a, hf⟩ := allFit_mem h.fit p hp
      exact form_over hf c hc
    · exact (sgA_lines (prose_over (h.texts p hp) c hc)).1

theorem partsHtml_over {pre w : Str} {ps : List (Spec.Sign × Str)} (h : SgBase U pre w ps) : sgHtmlA.Over (w ++ Spec.partsHtml ps) := by
  intro c hc
  rcases List.mem_append.1 hc with hc | hc
  · exact (sgA_lines (prose_over h.word c hc)).2
  · simp only [Spec.partsHtml, List.mem_flatMap, List.mem_append] at hc
    obtain ⟨p, hp, hc⟩ := hc
    rcases hc with hc | hc
    · obtain ⟨b, a, hf⟩ := allFit_mem h.fit p hp
      exact html_over hf c hc
    · exact (sgA_lines (prose_over (h.texts p hp) c hc)).2

theorem formText_zero (ps : List (Spec.Sign × Str)) : formText 0 ps = Spec.partsSource ps := by
  unfold formText Spec.partsSource
  simp only [form_zero]

theorem form_last (s : Spec.Sign) : form 22 s = s.html := by
  rcases mem_constSigns s with h | ⟨ds, rfl⟩ | ⟨n, rfl⟩
  · exact (by decide +kernel : ∀ s ∈ constSigns, form 22 s = s.html) s h
  · rfl
  · rfl

theorem formText_last (ps : List (Spec.Sign × Str)) : formText 22 ps = Spec.partsHtml ps := by
  unfold formText Spec.partsHtml
  congr 1
  funext p
  rw [form_last]

theorem formText_noAmp {ps : List (Spec.Sign × Str)} (h : ∀ p ∈ ps, p.1 ≠ .ampersand) : formText 1 ps = formText 0 ps := by
  induction ps with
  | nil => rfl
  | cons p ps ih =>
    obtain ⟨s, v⟩ := p
    have h0 : signStage s ≠ 0 := by
      intro e
      exact h (s, v) (by simp) (by simpa using stage_signs e (by decide) (by decide) (l := [.ampersand]) (by decide))
    rw [formText_cons, formText_cons, ih (fun p hp => h p (by simp [hp])), form_succ h0]

/-! ## Capitals -/

/-- No three capitals stand together. -/
def NoCaps (U : Uni) (t : Str) : Prop := ∀ a x y z b, t = a ++ x :: y :: z :: b → ¬ (U.isLu x = true ∧ U.isLu y = true ∧ U.isLu z = true)

theorem NoCaps.sep {w rest : Str} {c : Char} (hw : NoCaps U w) (hc : U.isLu c = false) (hr : NoCaps U rest) : NoCaps U (w ++ c :: rest) := by
  intro a x y z b e hl
  rcases List.append_eq_append_iff.1 e with ⟨l, rfl, e'⟩ | ⟨l, rfl, e'⟩
  · cases l with
    | nil => simp at e'; rw [e'.1] at hc; rw [hc] at hl; exact absurd hl.1 (by simp)
    | cons q l => simp at e'; exact hr l x y z b e'.2 hl
  · rcases l with _ | ⟨x1, _ | ⟨x2, _ | ⟨x3, l⟩⟩⟩
    · simp at e'; rw [← e'.1] at hc; rw [hc] at hl; exact absurd hl.1 (by simp)
    · simp at e'; rw [← e'.2.1] at hc; rw [hc] at hl; exact absurd hl.2.1 (by simp)
    · simp at e'; rw [← e'.2.2.1] at hc; rw [hc] at hl; exact absurd hl.2.2 (by simp)
    · simp at e'
      obtain ⟨rfl, rfl, rfl, -⟩ := e'
      exact hw a x y z l (by simp) hl

theorem NoCaps.form {f rest : Str} (hf : ∀ c ∈ f, U.isLu c = false) (hr : NoCaps U rest) : NoCaps U (f ++ rest) := by
  induction f with
  | nil => exact hr
  | cons c f ih =>
    exact NoCaps.sep (w := []) (fun a x y z b e => by simp at e) (hf c (by simp)) (ih (fun x hx => hf x (by simp [hx])))

theorem notUp (hU : UniOk U) {c : Char} (h : c.toNat < 128) (h' : isUp c = false) : U.isLu c = false := by rw [hU.upper c h, h']

theorem html_lower (hU : UniOk U) {s : Spec.Sign} {b : Option Char} {a : Str} (hf : s.Fits b a) : ∃ c f, s.html = c :: f ∧ U.isLu c = false ∧ ∀ x ∈ f, U.isLu x = false := by
  have hd : ∀ c, Spec.isDecimal c = true → U.isLu c = false := by
    intro c hc
    simp [Spec.isDecimal] at hc
    exact notUp hU (by omega) (by simp [isUp]; omega)
  have hl : ∀ c, Spec.isLowerLetter c = true → U.isLu c = false := by
    intro c hc
    simp [Spec.isLowerLetter] at hc
    exact notUp hU (by omega) (by simp [isUp]; omega)
  have hall : ∀ c ∈ s.html, U.isLu c = false := by
    rcases mem_constSigns s with h | ⟨ds, rfl⟩ | ⟨n, rfl⟩
    · intro c hc
      have := (by decide +kernel : ∀ s ∈ constSigns, ∀ c ∈ s.html, c.toNat < 128 ∧ isUp c = false) s h c hc
      exact notUp hU this.1 this.2
    · intro c hc
      rcases List.mem_append.1 hc with hc | hc
      · have := (by decide +kernel : ∀ c ∈ Spec.charRef t!"8217", c.toNat < 128 ∧ isUp c = false) c hc
        exact notUp hU this.1 this.2
      · exact hd c (hf.2.2.1 c hc)
    · intro c hc
      change c ∈ '&' :: (n ++ [';']) at hc
      simp at hc
      rcases hc with rfl | hc | rfl
      · exact notUp hU (by decide) (by decide)
      · exact hl c (hf.2 c hc)
      · exact notUp hU (by decide) (by decide)
  have hne : ∃ c f, s.html = c :: f := by cases s <;> exact ⟨_, _, rfl⟩
  obtain ⟨c, f, e⟩ := hne
  rw [e] at hall
  exact ⟨c, f, e, hall c (by simp), fun x hx => hall x (by simp [hx])⟩

theorem noCaps_html (hU : UniOk U) : ∀ {ps : List (Spec.Sign × Str)} {w pre : Str}, SgBase U pre w ps → NoCaps U (w ++ Spec.partsHtml ps)
  | [], w, _, h => by
    have : w ++ Spec.partsHtml [] = w := by simp [Spec.partsHtml]
    rw [this]
    exact h.word.caps
  | (s, v) :: ps, w, pre, h => by
    obtain ⟨c, f, e, hc, hf⟩ := html_lower hU h.fits
    have ih := noCaps_html hU (SgBase.tail (f := []) (y := []) (v' := v) h)
    have : w ++ Spec.partsHtml ((s, v) :: ps) = w ++ c :: (f ++ (v ++ Spec.partsHtml ps)) := by
      simp [Spec.partsHtml, e]
    rw [this]
    exact NoCaps.sep h.word.caps hc (NoCaps.form hf ih)

/-! ## All patterns -/

theorem glyphText_signs {C : Ctx} (hU : UniOk C.U) {w : Str} {ps : List (Spec.Sign × Str)} (h : SgBase C.U [] w ps)
    (hr : C.cfg.restricted = true → ∀ p ∈ ps, p.1 ≠ .ampersand) (hdim : GL_DIM_RE.search C.U [] (w ++ formText 1 ps) = none) :
    glyphText C (w ++ Spec.partsSource ps) = w ++ Spec.partsHtml ps := by
  have hraw : (if C.cfg.restricted then w ++ Spec.partsSource ps
    else replaceStr t!">" t!"&gt;" (replaceStr t!"<" t!"&lt;" (LONE_AMP_RE.replaceTempl C.U t!"&amp;" (w ++ Spec.partsSource ps)))) = w ++ formText 1 ps := by
    rw [← formText_zero]
    split
    · rename_i hc
      rw [formText_noAmp (hr hc)]
    · have hno : ∀ c, c ∉ sgA.ascii → c.toNat < 128 → c ∉ w ++ formText 1 ps := fun c h1 h2 hm =>
        absurd (formText_over h 1 c hm) (Alpha.not_mem h1 h2)
      rw [stage_lone h, replaceStr_none (containsStr_false_of_mem (c := '<') (by simp) (hno _ (by decide) (by decide))),
        replaceStr_none (containsStr_false_of_mem (c := '>') (by simp) (hno _ (by decide) (by decide)))]
  have hacr : GL_ACR_RE.search C.U [] (w ++ formText 22 ps) = none := by
    rw [formText_last]
    exact Re.need_search hU (A := sgHtmlA) (r := GL_ACR_RE) (by decide) (by decide +kernel) (partsHtml_over h) []
  have hcaps : DYN_3PLUS_RE.search C.U [] (w ++ formText 22 ps) = none := by
    rw [formText_last]
    exact caps_none (noCaps_html hU h) []
  have hdim' : GL_DIM_RE.replaceTempl C.U t!"$1&#215;$2" (w ++ formText 1 ps) = w ++ formText 2 ps := by
    rw [Re.replaceTempl_none _ hdim]
    have : formText 2 ps = formText 1 ps := by
      unfold formText
      congr 1
      funext p
      rw [form_succ (signStage_ne 1 (by simp) p.1)]
    rw [this]
  unfold glyphText
  simp only [hraw, glyphReplacers, List.cons_append, List.nil_append, multiReplace]
  have s2 := stage_apos hU h
  have s3 := stage_decade hU h
  have s4 := stage_sopenb h
  have s5 := stage_sclose h
  have s6 := stage_sopen h
  have s7 := stage_dopenb h
  have s8 := stage_dclose h
  have s9 := stage_dopen h
  have s10 := stage_ellipsis h
  have s11 := stage_amp h
  have s12 := stage_em h
  have s13 := stage_en h
  have s14 := stage_tm hU h
  have s15 := stage_r hU h
  have s16 := stage_c hU h
  have s17 := stage_half h
  have s18 := stage_quarter h
  have s19 := stage_three h
  have s20 := stage_deg h
  have s21 := stage_pm h
  unfold Stage at s2 s3 s4 s5 s6 s7 s8 s9 s10 s11 s12 s13 s14 s15 s16 s17 s18 s19 s20 s21
  rw [hdim', s2, s3, s4, s5, s6, s7, s8, s9, s10, s11, s12, s13, s14, s15, s16, s17, s18, s19, s20, s21,
    Re.replaceTempl_none _ hacr, Re.replaceTempl_none _ hcaps, formText_last]

end Rustextile
