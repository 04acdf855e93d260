import Verif.Footnote

/-!
# Footnotes in documents
-/

namespace Rustextile

open Prog

variable {aux0 : Aux}

/-! ## The tags -/

def attChars : Str := asciiAlnum ++ t!" =\"#-"

theorem fnAttr_chars {n v : Str} (hn : ∀ c ∈ n, c ∈ asciiAlnum) (hv : ∀ c ∈ v, c ∈ asciiAlnum ++ t!"-#") : ∀ c ∈ Spec.attr n (some v), c ∈ attChars := by
  have k1 : ∀ c ∈ asciiAlnum, c ∈ attChars := by decide +kernel
  have k2 : ∀ c ∈ asciiAlnum ++ t!"-#", c ∈ attChars := by decide +kernel
  intro c hc
  simp only [Spec.attr, List.mem_append, List.mem_cons, List.not_mem_nil, or_false] at hc
  rcases hc with rfl | hc | (rfl | rfl) | hc | rfl
  · decide +kernel
  · exact k1 c (hn c hc)
  · decide +kernel
  · decide +kernel
  · exact k2 c (hv c hc)
  · decide +kernel

theorem hrefAtts_chars {base : Str} (hb : Spec.PlainBase base) (N : Spec.Notes) (l : Str) : ∀ c ∈ hrefAtts base N l, c ∈ attChars :=
  fnAttr_chars (by decide +kernel) (fn_chars hb t!"#fn" (by decide +kernel) _)

theorem supAtts_chars {base : Str} (hb : Spec.PlainBase base) (N : Spec.Notes) (l : Str) : ∀ c ∈ supAtts base N l, c ∈ attChars := by
  intro c hc
  unfold supAtts at hc
  rcases List.mem_append.1 hc with hc | hc
  · exact fnAttr_chars (by decide +kernel) (by decide +kernel) c hc
  · cases h : N.number l with
    | some k => rw [h] at hc; cases hc
    | none => rw [h] at hc; exact fnAttr_chars (by decide +kernel) (fn_chars hb t!"fnrev" (by decide +kernel) _) c hc

theorem attChars_not {d : Char} (hd : d ∉ attChars) {att : Str} (h : ∀ c ∈ att, c ∈ attChars) : d ∉ att := fun hm => hd (h d hm)

/-- Tags of references. -/
theorem open_ok {U : Uni} (hU : UniOk U) {tag att : Str} (ht : tag ∈ [t!"sup", t!"a"]) (h : ∀ c ∈ att, c ∈ attChars) :
    SplitTag U (openTagA tag att) ∧ Inner (openTagA tag att) := by
  have h1 : '>' ∉ att := attChars_not (by decide +kernel) h
  have h2 : '<' ∉ att := attChars_not (by decide +kernel) h
  have h3 : '\n' ∉ att := attChars_not (by decide +kernel) h
  have hw : ∀ c, c = 's' ∨ c = 'a' → evalSet U false splitStart c = true := by
    have k1 : U.isWord 's' = true := by rw [hU.word 's' (by decide)]; decide
    have k2 : U.isWord 'a' = true := by rw [hU.word 'a' (by decide)]; decide
    rintro c (rfl | rfl) <;> simp [evalSet, splitStart, Item.eval, UC.eval, k1, k2]
  simp only [List.mem_cons, List.not_mem_nil, or_false] at ht
  rcases ht with rfl | rfl
  · exact ⟨⟨'s', 'u' :: 'p' :: att, by simp [openTagA], hw _ (.inl rfl), by simp [h1], by simp [h3]⟩,
      by simp [openTagA, h3], brFree_open (brFree_decide (by decide)) h2, free_open (Free.of (by decide)) rfl h2⟩
  · exact ⟨⟨'a', att, by simp [openTagA], hw _ (.inr rfl), h1, h3⟩,
      by simp [openTagA, h3], brFree_open (brFree_decide (by decide)) h2, free_open (Free.of (by decide)) rfl h2⟩

theorem close_ok {U : Uni} {tag : Str} (ht : tag ∈ [t!"sup", t!"a"]) : SplitTag U (closeTag tag) ∧ Inner (closeTag tag) := by
  have hw : evalSet U false splitStart '/' = true := by simp [evalSet, splitStart, Item.eval]
  simp only [List.mem_cons, List.not_mem_nil, or_false] at ht
  rcases ht with rfl | rfl
  · exact ⟨⟨'/', t!"sup", rfl, hw, by decide, by decide⟩, by decide, brFree_decide (by decide), Free.of (by decide)⟩
  · exact ⟨⟨'/', t!"a", rfl, hw, by decide, by decide⟩, by decide, brFree_decide (by decide), Free.of (by decide)⟩

theorem prose_nil (U : Uni) : Spec.Prose U.isLu [] ∧ ¬ Spec.EndsInSpace [] := by
  refine ⟨⟨by simp, ?_, ?_, ?_, ?_⟩, ?_⟩
  · intro a x y z b e; simp at e
  · intro a b e; simp at e
  · intro a d x b _ _; constructor <;> intro e <;> simp at e
  · intro a c b e; simp at e
  · rintro ⟨u, c, e, -⟩; simp at e

theorem prose_label {U : Uni} (hU : UniOk U) {l : Str} (h : ∀ c ∈ l, Spec.isDecimal c = true) : Spec.Prose U.isLu l ∧ ¬ Spec.EndsInSpace l := by
  have hd : ∀ c, Spec.isDecimal c = true → 48 ≤ c.toNat ∧ c.toNat ≤ 57 := fun c hc => by simpa [Spec.isDecimal] using hc
  have hx : ∀ c : Char, c ∈ l → c ≠ '.' ∧ c ≠ 'x' ∧ c ≠ 'X' ∧ c ≠ ' ' ∧ c ≠ '\n' := by
    intro c hc
    have := hd c (h c hc)
    refine ⟨?_, ?_, ?_, ?_, ?_⟩ <;> rintro rfl <;> revert this <;> decide
  refine ⟨⟨?_, ?_, ?_, ?_, ?_⟩, ?_⟩
  · intro c hc
    have := hd c (h c hc)
    left; simp [Spec.ordinaryChar, this]
  · intro a x y z b e hu
    have h1 := hd x (h x (by rw [e]; simp))
    have h2 := hU.upper x (by omega)
    rw [hu.1] at h2
    simp [isUp] at h2
    omega
  · intro a b e
    exact absurd rfl (hx '.' (by rw [e]; simp)).1
  · intro a d x b _ hxx
    constructor <;> intro e <;> have := hx x (by rw [e]; simp) <;> rcases hxx with rfl | rfl <;> simp at this
  · intro a c b e
    exact absurd rfl (hx '\n' (by rw [e]; simp)).2.2.2.2
  · rintro ⟨u, c, e, hc⟩
    have := hx c (by rw [e]; simp)
    rcases hc with rfl | rfl <;> simp at this

theorem fn_woven {C : Ctx} {base : Str} (hU : UniOk C.U) (hb : Spec.PlainBase base) : ∀ {rs : List (Str × Str)} {w : Str} {N : Spec.Notes}, FnOk C.U w rs →
    WovenOk C w (fnPairs base N rs)
  | [], w, N, h => ⟨h.lead, by simp [fnPairs], by simp [fnPairs]⟩
  | r :: rs, w, N, h => by
    have ih := fn_woven (C := C) hU hb (N := N.refer r.1) h.tail
    have key : ∀ p ∈ refPairs base N r, (SplitTag C.U p.1 ∧ Inner p.1) ∧ Spec.Prose C.U.isLu p.2 ∧ ¬ Spec.EndsInSpace p.2 := by
      intro p hp
      simp only [refPairs, List.mem_cons, List.not_mem_nil, or_false] at hp
      rcases hp with rfl | rfl | rfl | rfl
      · exact ⟨open_ok hU (by simp) (supAtts_chars hb _ _), prose_nil _⟩
      · exact ⟨open_ok hU (by simp) (hrefAtts_chars hb _ _), prose_label hU (h.labels r (by simp)).2⟩
      · exact ⟨close_ok (by simp), prose_nil _⟩
      · exact ⟨close_ok (by simp), h.texts r (by simp)⟩
    refine ⟨h.lead, ?_, ?_⟩ <;> intro p hp <;> simp only [fnPairs, List.mem_append] at hp <;> rcases hp with hp | hp
    · exact (key p hp).1
    · exact ih.tags p hp
    · exact (key p hp).2
    · exact ih.texts p hp

/-- Characters that do not occur in the output. -/
theorem fn_nochar {U : Uni} {base : Str} (hb : Spec.PlainBase base) {d : Char} (h1 : d ∉ linesA.ascii) (h2 : d.toNat < 128) (h3 : d ∉ attChars) (h4 : d ∉ t!"<>/") :
    ∀ {rs : List (Str × Str)} {w : Str} {N : Spec.Notes}, FnOk U w rs → d ∉ weave w (fnPairs base N rs)
  | [], w, N, h => by rw [fnPairs, weave_nil]; exact prose_nochar h.lead.1 h1 h2
  | r :: rs, w, N, h => by
    rw [fnPairs_cons, refHtml_eq]
    have ih := fn_nochar (N := N.refer r.1) hb h1 h2 h3 h4 h.tail
    have k1 := attChars_not h3 (supAtts_chars hb N r.1)
    have k2 := attChars_not h3 (hrefAtts_chars hb N r.1)
    have k3 : d ∉ w := prose_nochar h.lead.1 h1 h2
    have k4 : d ∉ r.1 := fun hm => by
      rcases digA_of ((h.labels r (by simp)).2 d hm) with hd | hd
      · exact h1 ((by decide +kernel : ∀ c ∈ digA.ascii, c ∈ linesA.ascii) d hd)
      · exact absurd hd.1 (by decide)
    have k5 : d ∉ asciiAlnum := fun hm => h3 ((by decide +kernel : ∀ c ∈ asciiAlnum, c ∈ attChars) d hm)
    have k6 : ∀ c ∈ t!"sup", c ∈ asciiAlnum := by decide +kernel
    have k7 : d ≠ 's' ∧ d ≠ 'u' ∧ d ≠ 'p' ∧ d ≠ 'a' := by
      refine ⟨?_, ?_, ?_, ?_⟩ <;> rintro rfl <;> exact k5 (by decide +kernel)
    simp only [List.mem_cons, List.not_mem_nil, or_false, not_or] at h4
    simp [openTagA, closeTag, k1, k2, k3, k4, ih, k7, h4]

/-! ## The text is not a whole element -/

def fnAttA : Alpha := ⟨attChars, false⟩

/-- Text with the elements of references. -/
def outM : Auto := [
  (true, [(inkA, 1)]),
  (true, [(linesA, 1), (oneA '<', 2)]),
  (false, [(oneA 's', 3), (oneA 'a', 7), (oneA '/', 6)]),
  (false, [(oneA 'u', 4)]),
  (false, [(oneA 'p', 7)]),
  (false, [(fnAttA, 5), (oneA '>', 1)]),
  (false, [(oneA 'a', 7), (oneA 's', 3)]),
  (false, [(oneA ' ', 5), (oneA '>', 1)])]

set_option maxRecDepth 100000 in
theorem outM_ok : outM.wf = true ∧ outM.avoids UNWRAPPABLE_RE = true ∧ outM.avoids DIVIDER_RE = true ∧ outM.avoids WRAPPED_RE = true := by
  decide +kernel

theorem outM_text {rest : Str} (hr : outM.Run 1 rest) : ∀ {w : Str}, linesA.Over w → outM.Run 1 (w ++ rest)
  | [], _ => hr
  | c :: w, h => ⟨(linesA, 1), by simp [outM, Auto.step], h c (by simp), outM_text hr (fun x hx => h x (by simp [hx]))⟩

theorem outM_att {rest : Str} (hr : outM.Run 1 rest) : ∀ {w : Str}, (∀ c ∈ w, c ∈ attChars) → outM.Run 5 (w ++ '>' :: rest)
  | [], _ => ⟨(oneA '>', 1), by simp [outM, Auto.step], oneA_mem _, hr⟩
  | c :: w, h => ⟨(fnAttA, 5), by simp [outM, Auto.step], .inl (h c (by simp)), outM_att hr (fun x hx => h x (by simp [hx]))⟩

theorem outM_open {tag att rest : Str} (ht : tag ∈ [t!"sup", t!"a"]) (h : ∀ c ∈ att, c ∈ attChars) (h0 : ∃ r, att = ' ' :: r) (hr : outM.Run 1 rest) :
    outM.Run 1 (openTagA tag att ++ rest) := by
  have h1 : outM.Run 7 (att ++ '>' :: rest) := by
    obtain ⟨r, rfl⟩ := h0
    exact ⟨(oneA ' ', 5), by simp [outM, Auto.step], oneA_mem _, outM_att hr (fun c hc => h c (by simp [hc]))⟩
  rw [show openTagA tag att ++ rest = '<' :: (tag ++ (att ++ '>' :: rest)) by simp [openTagA]]
  refine ⟨(oneA '<', 2), by simp [outM, Auto.step], oneA_mem _, ?_⟩
  simp only [List.mem_cons, List.not_mem_nil, or_false] at ht
  rcases ht with rfl | rfl
  · exact ⟨(oneA 's', 3), by simp [outM, Auto.step], oneA_mem _, (oneA 'u', 4), by simp [outM, Auto.step], oneA_mem _,
      (oneA 'p', 7), by simp [outM, Auto.step], oneA_mem _, h1⟩
  · exact ⟨(oneA 'a', 7), by simp [outM, Auto.step], oneA_mem _, h1⟩

theorem outM_close {tag rest : Str} (ht : tag ∈ [t!"sup", t!"a"]) (hr : outM.Run 1 rest) :
    outM.Run 1 (closeTag tag ++ rest) := by
  have h1 : outM.Run 7 ('>' :: rest) := ⟨(oneA '>', 1), by simp [outM, Auto.step], oneA_mem _, hr⟩
  rw [show closeTag tag ++ rest = '<' :: '/' :: (tag ++ ('>' :: rest)) by simp [closeTag]]
  refine ⟨(oneA '<', 2), by simp [outM, Auto.step], oneA_mem _, (oneA '/', 6), by simp [outM, Auto.step], oneA_mem _, ?_⟩
  simp only [List.mem_cons, List.not_mem_nil, or_false] at ht
  rcases ht with rfl | rfl
  · exact ⟨(oneA 's', 3), by simp [outM, Auto.step], oneA_mem _, (oneA 'u', 4), by simp [outM, Auto.step], oneA_mem _,
      (oneA 'p', 7), by simp [outM, Auto.step], oneA_mem _, h1⟩
  · exact ⟨(oneA 'a', 7), by simp [outM, Auto.step], oneA_mem _, h1⟩

theorem outM_run {U : Uni} {base : Str} (hb : Spec.PlainBase base) : ∀ {rs : List (Str × Str)} {w : Str} {N : Spec.Notes},
    FnOk U w rs → outM.Run 1 (weave w (fnPairs base N rs))
  | [], w, N, h => by
    rw [fnPairs, weave_nil]
    have := outM_text (rest := []) (by rfl) (prose_over h.lead.1)
    rwa [List.append_nil] at this
  | r :: rs, w, N, h => by
    rw [fnPairs_cons, refHtml_eq]
    have ih := outM_run (N := N.refer r.1) hb h.tail
    refine outM_text ?_ (prose_over h.lead.1)
    simp only [List.append_assoc]
    refine outM_open (by simp) (supAtts_chars hb _ _) ⟨_, rfl⟩ (outM_open (by simp) (hrefAtts_chars hb _ _) ⟨_, rfl⟩ (outM_text ?_ ?_))
    · exact outM_close (by simp) (outM_close (by simp) ih)
    · intro c hc
      rcases digA_of ((h.labels r (by simp)).2 c hc) with hd | hd
      · exact .inl ((by decide +kernel : ∀ c ∈ digA.ascii, c ∈ linesA.ascii) c hd)
      · exact absurd hd.1 (by decide)

theorem hasRawText_fn {U : Uni} (hU : UniOk U) {base : Str} (hb : Spec.PlainBase base) {rs : List (Str × Str)} {w : Str} {N : Spec.Notes}
    (h : FnOk U w rs) (hw : ∃ c u, w = c :: u ∧ c ≠ ' ' ∧ c ≠ '\n') : hasRawText U (weave w (fnPairs base N rs)) = true := by
  have hr : outM.Run 0 (weave w (fnPairs base N rs)) := by
    obtain ⟨c, u, rfl, h1, h2⟩ := hw
    have := outM_run hb (N := N) h
    have hc : inkA.Mem c := by
      rcases ink_or_gap (prose_over h.lead.1 c (by simp)) with hc | ⟨-, rfl | rfl⟩
      · exact hc
      · exact absurd rfl h1
      · exact absurd rfl h2
    have key : ∀ {t : Str}, outM.Run 1 (c :: t) → outM.Run 0 (c :: t) := by
      rintro t ⟨e, he, hm, hr⟩
      refine ⟨(inkA, 1), by simp [outM, Auto.step], hc, ?_⟩
      simp [outM, Auto.step] at he
      rcases he with rfl | rfl
      · exact hr
      · exfalso
        have : c = '<' := by
          rcases hm with hm | hm
          · simpa [oneA] using hm
          · exact absurd hm.1 (by simp [oneA])
        subst this
        rcases hc with hc | hc
        · revert hc; decide +kernel
        · exact absurd hc.2.1 (by decide)
    cases hps : fnPairs base N rs with
    | nil => rw [hps, weave_nil] at this; rw [weave_nil]; exact key this
    | cons p ps => rw [hps] at this; exact key this
  obtain ⟨h1, h2, h3, h4⟩ := outM_ok
  unfold hasRawText
  rw [Re.isMatch_none (Auto.search_none hU h1 h2 (by decide) hr), Re.isMatch_none (Auto.search_none hU h1 h3 (by decide) hr),
    Re.captures_none (Auto.search_none hU h1 h4 (by decide) hr)]
  rfl

/-! ## Text of blocks -/

/-- The texts with break tags. -/
def weaveHtml (br w : Str) (ps : List (Str × Str)) : Str := Spec.breakLines br w ++ ps.flatMap (fun p => p.1 ++ Spec.breakLines br p.2)

theorem weaveHtml_cons (br w g v : Str) (ps : List (Str × Str)) :
    weaveHtml br w ((g, v) :: ps) = Spec.breakLines br w ++ (g ++ weaveHtml br v ps) := by simp [weaveHtml]

theorem tidy_weave {C : Ctx} {br : Str} (hb : br = t!"<br>" ∨ br = t!"<br />") {z : Str} : ∀ {ps : List (Str × Str)} {w : Str}, WovenOk C w ps →
    Spec.tidyBreaks br (brk br (weave w ps) ++ z) = weaveHtml br w ps ++ Spec.tidyBreaks br z
  | [], w, h => by
    rw [weave_nil, tidy_brk hb (prose_lined (up := C.U.isLu) h.lead.1.chars h.lead.1.lines) (prose_nochar h.lead.1 (by decide) (by decide))
      (fun e => absurd rfl (nospace_last h.lead.2 _ e))]
    simp [weaveHtml]
  | (g, v) :: ps, w, h => by
    have ht := h.tags (g, v) (by simp)
    have ih := tidy_weave (C := C) hb (z := z) (ps := ps) (w := v) ⟨h.texts (g, v) (by simp), fun p hp => h.tags p (by simp [hp]), fun p hp => h.texts p (by simp [hp])⟩
    rw [weave_cons, brk_append, brk_append, List.append_assoc, List.append_assoc,
      tidy_brk hb (prose_lined (up := C.U.isLu) h.lead.1.chars h.lead.1.lines) (prose_nochar h.lead.1 (by decide) (by decide))
      (fun e => absurd rfl (nospace_last h.lead.2 _ e)), brk_nonl ht.2.nonl, tidyBreaks_free ht.2.free.1, ih, weaveHtml_cons]
    simp

theorem breakLines_nonl {br w : Str} (h : '\n' ∉ w) : Spec.breakLines br w = w := by
  induction w with
  | nil => rfl
  | cons c w ih =>
    simp at h
    have : c ≠ '\n' := fun e => h.1 e.symm
    have ih := ih h.2
    unfold Spec.breakLines at ih ⊢
    rw [List.flatMap_cons, if_neg this, ih]; rfl

theorem fnHtml_eq {U : Uni} (br base : Str) : ∀ {rs : List (Str × Str)} {w : Str} {N : Spec.Notes}, FnOk U w rs →
    weaveHtml br w (fnPairs base N rs) = Spec.breakLines br w ++ Spec.refsHtml br base N rs
  | [], w, N, _ => by simp [weaveHtml, fnPairs, Spec.refsHtml]
  | r :: rs, w, N, h => by
    have ih := fnHtml_eq br base (N := N.refer r.1) h.tail
    have hl : Spec.breakLines br r.1 = r.1 := breakLines_nonl (fun hm => by
      have := (h.labels r (by simp)).2 _ hm; revert this; decide)
    have h0 : Spec.breakLines br [] = [] := rfl
    simp only [Spec.refsHtml, refHtml_eq, List.append_assoc, ← ih, fnPairs, refPairs, List.cons_append, List.nil_append, weaveHtml_cons, hl, h0]

theorem graf_body {C : Ctx} {base : Str} (D : DocCtx C base) (hp : C.cfg.linkPrefix = base ++ t!"-") {pfx w w0 : Str} {rs ps : List (Str × Str)}
    {N : Spec.Notes} {σ : PState} (hq : FnQuiet C.U (pfx ++ (w ++ refsSource rs))) (hpfx : '[' ∉ pfx ∧ ':' ∉ pfx)
    (h : FnOk C.U w rs) (hw : w ≠ []) (hσ : FnState base aux0 N σ) (ho : pfx ++ weave w (fnPairs base N rs) = weave w0 ps) (hps : WovenOk C w0 ps) :
    ∃ σ', Body C (pfx ++ (w ++ refsSource rs)) (weave w0 ps) 0 σ σ' (brk C.cfg.brTag (weave w0 ps)) ∧ FnState base aux0 (fnNotes N rs) σ' ∧ σ'.aux = σ.aux := by
  have hcol : ':' ∉ w ++ refsSource rs := by
    have : ∀ {rs : List (Str × Str)} {w : Str}, FnOk C.U w rs → ':' ∉ w ++ refsSource rs := by
      intro rs
      induction rs with
      | nil => intro w h; simp [refsSource]; exact prose_nochar h.lead.1 (by decide) (by decide)
      | cons r rs ih =>
        intro w h
        have h1 := ih h.tail
        have h2 : ':' ∉ w := prose_nochar h.lead.1 (by decide) (by decide)
        have h3 : ':' ∉ r.1 := fun hm => by have := (h.labels r (by simp)).2 _ hm; revert this; decide
        rw [refsSource_cons]
        simp at h1
        simp [h1, h2, h3]
    exact this h
  have hout : ∀ d, d ∉ linesA.ascii → d.toNat < 128 → d ∉ attChars → d ∉ t!"<>/" → d ∉ pfx → d ∉ weave w0 ps := by
    intro d h1 h2 h3 h4 h5
    rw [← ho, List.mem_append, not_or]
    exact ⟨h5, fn_nochar D.plain h1 h2 h3 h4 h⟩
  have k1 := hout ':' (by decide) (by decide) (by decide +kernel) (by decide) hpfx.2
  have k2 := hout '[' (by decide) (by decide) (by decide +kernel) (by decide) hpfx.1
  obtain ⟨σ', g1, g2, g3, g4, g5⟩ := graf_fn D hp hq hpfx.1 (by rw [List.mem_append, not_or]; exact ⟨hpfx.2, hcol⟩) h hw hσ ho hps k2
  refine ⟨σ', ⟨⟨woven_weave hps, lined_weave hps, ?_, g3, by omega, ?_⟩, g1⟩, g2, g5⟩
  · rw [← ho]
    cases w with
    | nil => exact absurd rfl hw
    | cons c w => intro e; simp [weave] at e
  · intro τ _ _
    have := (Rep.nil (uid := C.cfg.uid) (σ := τ)).text (w := brk C.cfg.brTag (weave w0 ps)) (brk_nocolon (brTag_nocolon _) k1)
    simpa using this

/-! ## Blocks with references -/

theorem fnOk_of {U : Uni} {t : Spec.FnText} (h : t.Ok U.isLu) : FnOk U t.lead t.refs :=
  ⟨h.texts _ (by simp [Spec.FnText.texts]), fun r hr => h.texts _ (by simp only [Spec.FnText.texts, List.mem_cons, List.mem_map]; exact .inr ⟨r, hr, rfl⟩), h.labels⟩

theorem fnSource_eq (t : Spec.FnText) : t.source = t.lead ++ refsSource t.refs := rfl

theorem fnLead_ne {upper : Char → Bool} {t : Spec.FnText} (h : t.Ok upper) : t.lead ≠ [] := by
  obtain ⟨c, u, e, -⟩ := h.first; rw [e]; simp

theorem fnFirst {U : Uni} {t : Spec.FnText} (h : t.Ok U.isLu) : ∃ c u, t.source = c :: u ∧ isWs c = false := by
  obtain ⟨c, u, e, h1, h2⟩ := h.first
  refine ⟨c, u ++ refsSource t.refs, by rw [fnSource_eq, e]; rfl, ?_⟩
  have := prose_over (h.texts t.lead (by simp [Spec.FnText.texts])).1 c (by rw [e]; simp)
  rcases ink_or_gap this with hc | ⟨-, rfl | rfl⟩
  · rcases hc with hc | hc
    · exact (by decide +kernel : ∀ c ∈ inkA.ascii, isWs c = false) c hc
    · exact hc.2.2.1
  · exact absurd rfl h1
  · exact absurd rfl h2

/-- The source of such a text. -/
theorem fn_lined {U : Uni} : ∀ {rs : List (Str × Str)} {w : Str}, FnOk U w rs → lined (w ++ refsSource rs) = true ∧ '\r' ∉ w ++ refsSource rs
  | [], w, h => by
    refine ⟨lined_append (prose_lined (up := U.isLu) h.lead.1.chars h.lead.1.lines) rfl (fun e => absurd rfl (nospace_last h.lead.2 _ e)), ?_⟩
    simp [refsSource]
    exact prose_nochar h.lead.1 (by decide) (by decide)
  | r :: rs, w, h => by
    obtain ⟨h1, h2⟩ := fn_lined h.tail
    have h3 : ∀ d, Spec.isDecimal d = false → d ∉ r.1 := fun d hd hm => by
      have := (h.labels r (by simp)).2 _ hm; rw [hd] at this; cases this
    rw [refsSource_cons]
    have e : '[' :: (r.1 ++ ']' :: (r.2 ++ refsSource rs)) = ('[' :: (r.1 ++ t!"]")) ++ (r.2 ++ refsSource rs) := by simp
    constructor
    · refine lined_append (prose_lined (up := U.isLu) h.lead.1.chars h.lead.1.lines) ?_ (fun e => absurd rfl (nospace_last h.lead.2 _ e))
      rw [e]
      exact lined_text (by simp [h3 '\n' (by decide)]) h1
    · rw [e]
      simp at h2
      simp [h2, h3 '\r' (by decide), prose_nochar h.lead.1 (by decide : '\r' ∉ linesA.ascii) (by decide)]

theorem fn_tagLines {U : Uni} {t : Spec.FnText} (h : t.Ok U.isLu) {p : Str} (h1 : '\n' ∉ p ∧ '\r' ∉ p) (h2 : ∃ c u, p = c :: u ∧ isWs c = false) :
    (∃ ls, ls ≠ [] ∧ (∀ l ∈ ls, Spec.RawLine l) ∧ p ++ t.source = Spec.join t!"\n" ls) ∧ ∃ c u, p ++ t.source = c :: u ∧ isWs c = false := by
  obtain ⟨k1, k2⟩ := fn_lined (fnOk_of h)
  obtain ⟨c, u, rfl, hc⟩ := h2
  refine ⟨?_, c, _, rfl, hc⟩
  exact lines_of _ (p := c :: u) k1 (by simp at k2 h1; simp [h1, k2, fnSource_eq]) h1.1 (blank_not hc)

theorem fn_lines {U : Uni} {t : Spec.FnText} (h : t.Ok U.isLu) :
    ∃ ls, ls ≠ [] ∧ (∀ l ∈ ls, Spec.RawLine l) ∧ t.source = Spec.join t!"\n" ls := by
  obtain ⟨k1, k2⟩ := fn_lined (fnOk_of h)
  rw [← fnSource_eq] at k1 k2
  obtain ⟨c, u, e, hc⟩ := fnFirst h
  rw [e] at k1 k2 ⊢
  have := lines_of u (p := [c]) (lined_tail k1) k2 (by simp; rintro rfl; revert hc; decide) (blank_not hc)
  simpa using this

theorem fn_begins {C : Ctx} (hU : UniOk C.U) {t : Spec.FnText} (h : t.Ok C.U.isLu) : Begins C t.source := by
  have := fnQuiet hU (fnOk_of h) (fnLead_ne h)
  exact ⟨fnFirst h, this.notedef, Re.isMatch_none this.divider⟩

theorem notelist_fn {base : Str} {t : Spec.FnText} {N : Spec.Notes} (hn : ¬ Spec.notelistWord <+: t.lead) :
    ¬ Spec.notelistWord <+: weave t.lead (fnPairs base N t.refs) := by
  intro h
  apply hn
  have hx : ∀ {k w x : Str}, '<' ∉ k → (x = [] ∨ ∃ y, x = '<' :: y) → k <+: w ++ x → k <+: w := by
    intro k
    induction k with
    | nil => intro w x _ _ _; exact List.nil_prefix
    | cons c k ih =>
      intro w x hk hx hp
      cases w with
      | nil =>
        exfalso
        rcases hx with rfl | ⟨y, rfl⟩
        · simp at hp
        · simp only [List.nil_append, List.cons_prefix_cons] at hp
          exact hk (by simp [hp.1])
      | cons d w =>
        simp only [List.cons_append, List.cons_prefix_cons] at hp ⊢
        exact ⟨hp.1, ih (fun hm => hk (by simp [hm])) hx hp.2⟩
  refine hx (by decide) ?_ h
  cases t.refs with
  | nil => exact .inl rfl
  | cons r rs => exact .inr ⟨_, rfl⟩

/-- A block made of an element with a text with tags. -/
theorem act_body {C : Ctx} {base : Str} (D : DocCtx C base) {P P' : PState → Prop} {src tag att w : Str} {ps : List (Str × Str)} {n : Nat}
    (hl : (∃ ls, ls ≠ [] ∧ (∀ l ∈ ls, Spec.RawLine l) ∧ src = Spec.join t!"\n" ls) ∧ ∃ c u, src = c :: u ∧ isWs c = false)
    (ht : tag ∈ brTags) (ha : '<' ∉ att) (hps : WovenOk C w ps)
    (h : ∀ σ : PState, P σ → σ.spanDepth + 1 ≤ C.cfg.maxSpanDepth → ∃ σ' q, BodyTo C src n σ σ' q (openTagA tag att ++ (brk C.cfg.brTag (weave w ps) ++ closeTag tag)) ∧ P' σ') :
    Act C P P' src n (Spec.elementWith tag att (weaveHtml C.cfg.brTag w ps)) := by
  refine ⟨hl.1, hl.2, ?_, ?_⟩
  · intro σ hP hd
    obtain ⟨σ', q, h1, h2⟩ := h σ hP hd
    refine ⟨σ', q, _, h1.step, h1.grow, h2, h1.index, h1.rep, h1.nolist, ?_⟩
    intro r _
    rw [List.append_assoc, List.append_assoc, tidyBreaks_free (free_open (brFree_start tag ht).1 rfl ha), tidy_weave (brTag_cases C.cfg) hps,
      tidyBreaks_free (brFree_tags tag ht).2.1, elementWith_eq]
    simp
  · rw [elementWith_eq, ← List.append_assoc]
    exact styled_end _ tag (tagged_chars tag ht).1

theorem act_fnPara {C : Ctx} {base : Str} (D : DocCtx C base) (hp : C.cfg.linkPrefix = base ++ t!"-") {t : Spec.FnText} (h : t.Ok C.U.isLu)
    (hs : Spec.NoBlockStart C.U.isNd C.cfg.lite t.source) (hn : ¬ Spec.notelistWord <+: t.lead) (N : Spec.Numbers) (M : Spec.Notes) :
    Act C (fun σ => Num N σ ∧ FnState base aux0 M σ) (fun σ => Num N σ ∧ FnState base aux0 (t.notes M) σ) t.source 0
      (Spec.elementWith t!"p" [] (t.html C.cfg.brTag base M)) := by
  have hf := fnOk_of h
  have := act_body D (P := fun σ => Num N σ ∧ FnState base aux0 M σ) (P' := fun σ => Num N σ ∧ FnState base aux0 (t.notes M) σ) (tag := t!"p") (att := []) (n := 0)
    ⟨fn_lines h, fnFirst h⟩ (by decide) (by simp)
    (fn_woven (C := C) D.uni D.plain hf (N := M)) ?_
  · rwa [fnHtml_eq _ _ hf] at this
  · intro σ hσ _
    obtain ⟨σ', g1, g2, g3⟩ := graf_body D hp (pfx := []) (fnQuiet D.uni hf (fnLead_ne h)) (by simp) hf (fnLead_ne h) hσ.2 rfl (fn_woven D.uni D.plain hf)
    obtain ⟨q, hq⟩ := body_para D g1 (fn_begins D.uni h) (tag_none_of hs) (hasRawText_fn D.uni D.plain hf h.first) (notelist_fn hn)
    exact ⟨σ', q, by rw [openTagA_nil]; exact hq, Num.aux hσ.1 g3, g2⟩

theorem act_fnStyled {C : Ctx} {base : Str} (D : DocCtx C base) (hp : C.cfg.linkPrefix = base ++ t!"-") {t : Spec.FnText} (h : t.Ok C.U.isLu)
    {tag : Str} {a : Spec.Atts} (ha : a.Ok) (hb : a.left = 0)
    (ht : tag ∈ t!"p" :: (if C.cfg.lite then [] else [t!"h1", t!"h2", t!"h3", t!"h4", t!"h5", t!"h6"]))
    (hn : tag = t!"p" → ¬ Spec.notelistWord <+: t.lead) (htok : ¬ C.cfg.uid <:+: tag ++ (a.source ++ (t!". " ++ t.source))) (N : Spec.Numbers) (M : Spec.Notes) :
    Act C (fun σ => Num N σ ∧ FnState base aux0 M σ) (fun σ => Num N σ ∧ FnState base aux0 (t.notes M) σ) (tag ++ (a.source ++ (t!". " ++ t.source))) 0
      (Spec.elementWith tag (a.html C.cfg.restricted) (t.html C.cfg.brTag base M)) := by
  have hf := fnOk_of h
  obtain ⟨m1, m2⟩ := tagged_mem ht
  have hca : containsStr C.cfg.uid a.source = false := contains_of_not (fun hi => htok (infix_source (.inl hi)))
  have hlt : '<' ∉ a.html C.cfg.restricted := (atts_tagText D.plain ha (by rw [← D.uid]; exact hca) _).nolt
  obtain ⟨a1, a2⟩ := atts_nonl ha
  obtain ⟨g1, g2, -, g3⟩ := tagged_chars tag m1
  have hl := fn_tagLines h (p := tag ++ (a.source ++ t!". ")) ⟨by simp [a1, g1], by simp [a2, g2]⟩ (by
    obtain ⟨c, u, rfl, hc⟩ := g3; exact ⟨c, _, rfl, hc⟩)
  rw [show tag ++ (a.source ++ t!". ") ++ t.source = tag ++ (a.source ++ (t!". " ++ t.source)) by simp] at hl
  have := act_body D (P := fun σ => Num N σ ∧ FnState base aux0 M σ) (P' := fun σ => Num N σ ∧ FnState base aux0 (t.notes M) σ) (n := 0)
    hl m1 hlt (fn_woven (C := C) D.uni D.plain hf (N := M)) ?_
  · rwa [fnHtml_eq _ _ hf] at this
  · intro σ hσ _
    obtain ⟨σ', g1, g2, g3⟩ := graf_body D hp (pfx := []) (fnQuiet D.uni hf (fnLead_ne h)) (by simp) hf (fnLead_ne h) hσ.2 rfl (fn_woven D.uni D.plain hf)
    obtain ⟨q, hq⟩ := body_styled D ha hca (.inl hb) g1 (fn_begins D.uni h) m1 m2 (fun e => notelist_fn (hn e))
    exact ⟨σ', q, hq, Num.aux hσ.1 g3, g2⟩

/-! ## Footnotes -/

theorem fn_word {U : Uni} (hU : UniOk U) {l : Str} (hl : l ≠ []) (hd : ∀ c ∈ l, Spec.isDecimal c = true) : (tagWords false).lang U (t!"fn" ++ l) := by
  change (Re.alt (Re.lit t!"bq") (.alt (Re.lit t!"bc") (.alt (Re.lit t!"notextile") (.alt (Re.lit t!"pre")
      (.alt (.seq (.set false [.chr 'h']) (.set false [.range '1' '6']))
      (.alt (.seq (.set false [.chr 'f']) (.seq (.set false [.chr 'n']) (.seq (.set false [.cls .digit])
        (.star true (.set false [.cls .digit])))))
      (.alt (Re.lit t!"p") (Re.lit t!"###")))))))).lang U (t!"fn" ++ l)
  have he : ∀ c ∈ l, evalSet U false [.cls .digit] c = true := by
    intro c hc
    have h := hd c hc
    simp only [Spec.isDecimal, Bool.and_eq_true, decide_eq_true_eq] at h
    have h1 := hU.dec c (by omega)
    simp [evalSet, Item.eval, UC.eval, h1, isDig, h]
  obtain ⟨c, u, rfl⟩ := List.exists_cons_of_ne_nil hl
  rw [lang_alt, lang_alt, lang_alt, lang_alt, lang_alt, lang_alt]
  refine .inr (.inr (.inr (.inr (.inr (.inl ?_)))))
  refine lang_seq.2 ⟨t!"f", 'n' :: c :: u, rfl, lang_chr.2 rfl, lang_seq.2 ⟨t!"n", c :: u, rfl, lang_chr.2 rfl, lang_seq.2 ⟨[c], u, rfl, lang_set.2 ⟨c, rfl, he c (by simp)⟩, ?_⟩⟩⟩
  rw [lang_star_set]
  exact fun x hx => he x (by simp [hx])

theorem FNID_shape : FNID_RE = .seq (.set false [.chr 'f']) (.seq (.set false [.chr 'n'])
    (.grp 1 (.seq (.set false [.cls .N]) (.star true (.set false [.cls .N]))))) := by kernel_rfl

theorem fnid_captures {U : Uni} (hU : UniOk U) {l : Str} (hl : l ≠ []) (hd : ∀ c ∈ l, Spec.isDecimal c = true) :
    ∃ m, FNID_RE.captures U (t!"fn" ++ l) = some m ∧ m.grp 1 = l := by
  have : FNID_RE.matchAt U ⟨[], (t!"fn" ++ l) ++ []⟩ = some (⟨(t!"fn" ++ l).reverse ++ [], []⟩, [(1, l)]) := by
    rw [FNID_shape]
    apply Heads.matchAt
    rw [show t!"fn" ++ l = ['f'] ++ (['n'] ++ l) from rfl]
    refine Heads.seq .chr (Heads.seq .chr (Heads.grp (s' := []) (Heads.plus hl ?_ ?_)))
    · intro x hx; exact digit_eval hU (hd x hx)
    · intro x hx; simp at hx
  rw [List.append_nil] at this
  have hs := Re.search_hit this
  exact ⟨_, by rw [Re.captures, hs], rfl⟩

theorem parseAttrs_back (C : Ctx) : parseAttrs C t!"^" none = pure {} := by
  unfold parseAttrs
  have : BAttrs.parse C.U t!"^" none C.cfg.restricted = .ok {} := by cases C.cfg.restricted <;> rfl
  rw [this]
  rfl

/-- The mark at the end of the tag. -/
def backMark (back : Bool) : Str := if back then ['^'] else []

theorem back_takes {U : Uni} (back : Bool) {pre rest : Str} {s : Caps} : Takes U tagAtts pre (backMark back) rest s s := by
  rw [tagAtts_shape]
  have hg : ∀ pre, Takes U (.seq groupsRe (.star true alignRe)) pre [] rest s s := fun pre =>
    Takes.mkSeq (u := []) (v := []) (Takes.of_lang (by decide) (groups_lang (gs := []) (by simp) (by simp))) .mkStop
  cases back with
  | false => exact Takes.mkSeq (u := []) (v := []) .mkStop (hg _)
  | true =>
    refine Takes.mkSeq (u := ['^']) (v := []) (Takes.mkMore (u := ['^']) (v := []) (by simp) ?_ .mkStop) (hg _)
    rw [align_shape]
    exact .mkRight (.mkSet rfl)

theorem note_captures (C : Ctx) (hU : UniOk C.U) (hlite : C.cfg.lite = false) {l t : Str} (hl : l ≠ []) (hd : ∀ c ∈ l, Spec.isDecimal c = true) (back : Bool) :
    ∃ m, (blockTagRe C).captures C.U (t!"fn" ++ (l ++ (backMark back ++ (t!". " ++ t)))) = some m ∧
      m.grp 1 = t!"fn" ++ l ∧ m.grp 2 = backMark back ∧ m.grp 3 = [] ∧ m.get? 4 = none ∧ m.grp 5 = t := by
  have := tag_captures_atts C hU (tag := t!"fn" ++ l) (att := backMark back) (t := t) (ext := false) (cite := none)
    (by rw [hlite]; exact Takes.of_lang (by decide +kernel) (fn_word hU hl hd)) (fun s => back_takes back)
    (by cases back <;> decide) (by simp) (by
      intro a o b e ho
      have : o ∈ backMark back := by rw [e]; simp
      cases back <;> simp [backMark] at this
      subst this; exact absurd ho (by decide))
  simpa [tagMid, citeMid] using this

/-- The number before the text of a footnote, followed by a space. -/
def notePfx (base : Str) (k : Nat) (l : Str) (back : Bool) : Str := Spec.noteMark base k l back ++ t!" "

theorem footnote_runs {C : Ctx} {base : Str} (hU : UniOk C.U) (hb : Spec.PlainBase base) (hp : C.cfg.linkPrefix = base ++ t!"-")
    {N : Spec.Notes} {σ : PState} (hσ : FnState base aux0 N σ) {l : Str} (hl : l ≠ []) (hd : ∀ c ∈ l, Spec.isDecimal c = true) (back : Bool) (t : Str) :
    ∃ σ1, Runs C (footnoteBlock C (t!"fn" ++ l) (backMark back) {} t) (t!"p", { cls := some t!"footnote", id := some (Spec.fnName base (N.ofNote l)) },
        notePfx base (N.ofNote l) l back ++ t) σ σ1 ∧
      FnState base aux0 (N.define l) σ1 ∧ Grows C.cfg.uid σ σ1 ∧ σ1.refIndex = σ.refIndex ∧ σ1.aux = σ.aux := by
  obtain ⟨m, hm, hg⟩ := fnid_captures hU hl hd
  have hsup : ∀ content atts, generateTag C.U t!"sup" (some content) atts = openTagA t!"sup" (joinAttrs atts) ++ (content ++ closeTag t!"sup") :=
    fun content atts => genTag_eq hU (by simp) (by decide +kernel)
  have ha : ∀ content atts, generateTag C.U t!"a" (some content) atts = openTagA t!"a" (joinAttrs atts) ++ (content ++ closeTag t!"a") :=
    fun content atts => genTag_eq hU (by simp) (by decide +kernel)
  have hhref : ∀ k, joinAttrs [(t!"href", t!"#fnrev" ++ Spec.noteId base k)] = Spec.attr Spec.hrefAttr (some ('#' :: Spec.fnrevName base k)) := by
    intro k
    rw [joinAttrs_eq (by simp; decide) (by
      intro a ha
      rw [List.mem_singleton] at ha; subst ha
      exact fn_chars hb t!"#fnrev" (by decide +kernel) k)]
    simp [Spec.fnrevName, Spec.hrefAttr]
  have fin : ∀ k, (if (!(backMark back).contains '^') = true then generateTag C.U t!"sup" (some l) [] else
      generateTag C.U t!"sup" (some (generateTag C.U t!"a" (some l) [(t!"href", t!"#fnrev" ++ Spec.noteId base k)])) []) ++ t!" " ++ t =
      notePfx base k l back ++ t := by
    intro k
    simp only [hsup, ha, hhref, show joinAttrs [] = [] from rfl]
    cases back <;> simp [backMark, notePfx, Spec.noteMark, elementWith_eq, Spec.supTag]
  unfold footnoteBlock
  rw [hm]
  simp only [hg]
  cases hN : N.number l with
  | some k =>
    refine ⟨σ, ?_, ?_, ⟨rfl, Nat.le_refl _, .refl _ _, id, rfl⟩, rfl, rfl⟩
    · refine Runs.bind (runs_getSt σ) ?_
      simp only [hσ.look l, hN, Option.map_some]
      refine Runs.bind (Runs.pure _ _) ?_
      simp only [fin]
      have : N.ofNote l = k := by unfold Spec.Notes.ofNote; rw [hN]
      rw [this]
      exact Runs.pure _ _
    · have : N.define l = N := by unfold Spec.Notes.define; rw [hN]
      rw [this]; exact hσ
  | none =>
    refine ⟨{ σ with linkIndex := σ.linkIndex + 1 }, ?_, ?_, ⟨rfl, Nat.le_refl _, fun _ _ => ⟨rfl, rfl⟩, fun h => h, rfl⟩, rfl, rfl⟩
    · refine Runs.bind (runs_getSt σ) ?_
      simp only [hσ.look l, hN, Option.map_none]
      refine Runs.bind (Runs.bind (runs_incLink σ) (Runs.pure _ _)) ?_
      simp only [linkId hp, fin]
      have : N.ofNote l = σ.linkIndex + 1 := by unfold Spec.Notes.ofNote; rw [hN, hσ.link]
      rw [this]
      exact Runs.pure _ _
    · have : N.define l = ⟨N.seen, N.last + 1⟩ := by unfold Spec.Notes.define; rw [hN]
      rw [this]
      exact ⟨hσ.look, by simp [hσ.link], hσ.rest⟩

def nameA : Alpha := ⟨asciiAlnum, false⟩

/-- States that read a given text. -/
def chain (s : Str) (q : Nat) : Auto := s.zipIdx.map (fun p => (false, [(oneA p.1, q + p.2 + 1)]))

/-- The text of a footnote. -/
def defM : Auto :=
  chain t!"<sup>" 0 ++ [
  (false, [(digA, 6), (oneA '<', 7)]),
  (false, [(digA, 6), (oneA '<', 23)])] ++
  chain t!"a href=\"#" 7 ++ [
  (false, [(nameA, 16), (oneA '-', 17)]),
  (false, [(digA, 18)]),
  (false, [(digA, 18), (oneA '"', 19)]),
  (false, [(oneA '>', 20)]),
  (false, [(digA, 21)]),
  (false, [(digA, 21), (oneA '<', 23)]),
  (false, [(oneA '<', 23)]),
  (false, [(oneA '/', 24)]),
  (false, [(oneA 'a', 25), (oneA 's', 26)]),
  (false, [(oneA '>', 22)]),
  (false, [(oneA 'u', 27)]),
  (false, [(oneA 'p', 28)]),
  (false, [(oneA '>', 29)]),
  (false, [(oneA ' ', 30)]),
  (true, [(inkA, 31), (gapA, 32)]),
  (true, [(inkA, 31), (gapA, 32), (oneA '[', 33)]),
  (true, [(inkA, 31), (gapA, 32)]),
  (false, [(digA, 34)]),
  (false, [(digA, 34), (oneA ']', 31)])]

set_option maxRecDepth 100000 in
theorem defM_ok : defM.wf = true ∧ earlyPatterns.all (defM.avoids ·) = true ∧ defM.avoids TABLE_RE = true ∧
    (latePatterns.filter (fun r => r != FOOTNOTE_RE)).all (defM.avoids ·) = true ∧ defM.avoids NOTEDEF_RE = true ∧ defM.avoids DIVIDER_RE = true := by
  decide +kernel

theorem hasFn_defM : HasFn defM 31 32 33 34 := by
  refine ⟨⟨?_, ?_, ?_, rfl⟩, ⟨?_, ?_, rfl⟩, ?_, ?_, ?_⟩ <;> simp [defM, chain, Auto.step]

/-- Steps that read one given character. -/
theorem run_one {M : Auto} {q q' : Nat} {c : Char} {t : Str} (h : (oneA c, q') ∈ M.step q) (hr : M.Run q' t) : M.Run q (c :: t) :=
  ⟨_, h, oneA_mem c, hr⟩

/-- Steps that stay in a state. -/
theorem run_loop {M : Auto} {A : Alpha} {q : Nat} (h : (A, q) ∈ M.step q) {t : Str} (hr : M.Run q t) : ∀ {w : Str}, A.Over w → M.Run q (w ++ t)
  | [], _ => hr
  | c :: w, hw => ⟨_, h, hw c (by simp), run_loop h hr (fun x hx => hw x (by simp [hx]))⟩

theorem run_plus {M : Auto} {A : Alpha} {p q : Nat} (hp : (A, q) ∈ M.step p) (h : (A, q) ∈ M.step q) {t : Str} (hr : M.Run q t) {w : Str} (hw : A.Over w)
    (hne : w ≠ []) : M.Run p (w ++ t) := by
  obtain ⟨c, u, rfl⟩ := List.exists_cons_of_ne_nil hne
  exact ⟨_, hp, hw c (by simp), run_loop h hr (fun x hx => hw x (by simp [hx]))⟩

theorem defM_close {rest : Str} (hr : defM.Run 30 rest) : defM.Run 23 (t!"/sup> " ++ rest) := by
  have k : ∀ q c q', (oneA c, q') ∈ defM.step q → ∀ t, defM.Run q' t → defM.Run q (c :: t) := fun q c q' h t ht => run_one h ht
  refine k 23 '/' 24 ?_ _ (k 24 's' 26 ?_ _ (k 26 'u' 27 ?_ _ (k 27 'p' 28 ?_ _ (k 28 '>' 29 ?_ _ (k 29 ' ' 30 ?_ _ hr))))) <;>
    simp [defM, chain, Auto.step]

theorem defM_run {base : Str} (hb : Spec.PlainBase base) {k : Nat} {l rest : Str} (hl : l ≠ []) (hd : ∀ c ∈ l, Spec.isDecimal c = true) (back : Bool)
    (hr : defM.Run 30 rest) : defM.Run 0 (notePfx base k l back ++ rest) := by
  have hk : ∀ q c q', (oneA c, q') ∈ defM.step q → ∀ t, defM.Run q' t → defM.Run q (c :: t) := fun q c q' h t ht => run_one h ht
  have hc := defM_close hr
  have hdl : digA.Over l := fun c hc => digA_of (hd c hc)
  have hdk : digA.Over (Spec.numeral k) := fun c hc => .inl (numeral_mem hc)
  have hkn : Spec.numeral k ≠ [] := by rw [natStr_numeral]; exact natStr_ne_nil k
  have hn : nameA.Over (t!"fnrev" ++ base) := by
    intro c hc
    left
    rcases List.mem_append.1 hc with hc | hc
    · exact (by decide +kernel : ∀ c ∈ t!"fnrev", c ∈ asciiAlnum) c hc
    · have := hb.chars c hc
      have h1 : ∀ n < 128, ((65 ≤ n ∧ n ≤ 90) ∨ (97 ≤ n ∧ n ≤ 122) ∨ (48 ≤ n ∧ n ≤ 57)) → Char.ofNat n ∈ asciiAlnum := by decide +kernel
      have := h1 c.toNat (by omega) this
      rwa [Char.ofNat_toNat] at this
  have hsup : ∀ t, defM.Run 5 t → defM.Run 0 (t!"<sup>" ++ t) := by
    intro t ht
    refine hk 0 '<' 1 ?_ _ (hk 1 's' 2 ?_ _ (hk 2 'u' 3 ?_ _ (hk 3 'p' 4 ?_ _ (hk 4 '>' 5 ?_ _ ht)))) <;> simp [defM, chain, Auto.step]
  cases back with
  | false =>
    rw [show notePfx base k l false ++ rest = t!"<sup>" ++ (l ++ ('<' :: (t!"/sup> " ++ rest))) by
      simp [notePfx, Spec.noteMark, Spec.elementWith, Spec.supTag]]
    refine hsup _ (run_plus (A := digA) (q := 6) ?_ ?_ (hk 6 '<' 23 ?_ _ hc) hdl hl) <;> simp [defM, chain, Auto.step]
  | true =>
    rw [show notePfx base k l true ++ rest = t!"<sup>" ++ ('<' :: (t!"a href=\"#" ++ ((t!"fnrev" ++ base) ++ ('-' :: (Spec.numeral k ++ ('"' :: '>' ::
      (l ++ ('<' :: '/' :: 'a' :: '>' :: '<' :: (t!"/sup> " ++ rest))))))))) by
      simp [notePfx, Spec.noteMark, Spec.elementWith, Spec.supTag, Spec.attr, Spec.hrefAttr, Spec.fnrevName, Spec.noteId]]
    have h1 : defM.Run 20 (l ++ ('<' :: '/' :: 'a' :: '>' :: '<' :: (t!"/sup> " ++ rest))) := by
      refine run_plus (A := digA) (q := 21) ?_ ?_ (hk 21 '<' 23 ?_ _ (hk 23 '/' 24 ?_ _ (hk 24 'a' 25 ?_ _ (hk 25 '>' 22 ?_ _ (hk 22 '<' 23 ?_ _ hc))))) hdl hl <;>
        simp [defM, chain, Auto.step]
    have h2 : defM.Run 16 ((t!"fnrev" ++ base) ++ ('-' :: (Spec.numeral k ++ ('"' :: '>' :: (l ++ ('<' :: '/' :: 'a' :: '>' :: '<' :: (t!"/sup> " ++ rest))))))) := by
      refine run_loop (A := nameA) ?_ (hk 16 '-' 17 ?_ _ (run_plus (A := digA) (q := 18) ?_ ?_ (hk 18 '"' 19 ?_ _ (hk 19 '>' 20 ?_ _ h1)) hdk hkn)) hn <;>
        simp [defM, chain, Auto.step]
    refine hsup _ (hk 5 '<' 7 ?_ _ (hk 7 'a' 8 ?_ _ (hk 8 ' ' 9 ?_ _ (hk 9 'h' 10 ?_ _ (hk 10 'r' 11 ?_ _ (hk 11 'e' 12 ?_ _ (hk 12 'f' 13 ?_ _
      (hk 13 '=' 14 ?_ _ (hk 14 '"' 15 ?_ _ (hk 15 '#' 16 ?_ _ h2)))))))))) <;> simp [defM, chain, Auto.step]

theorem note_quiet {U : Uni} (hU : UniOk U) {base : Str} (hb : Spec.PlainBase base) {k : Nat} {l : Str} (hl : l ≠ []) (hd : ∀ c ∈ l, Spec.isDecimal c = true)
    (back : Bool) {w : Str} {rs : List (Str × Str)} (h : FnOk U w rs) (hw : w ≠ []) : FnQuiet U (notePfx base k l back ++ (w ++ refsSource rs)) := by
  refine fnQuiet_of hU defM_ok (by decide) ?_
  intro n hn
  rw [List.append_assoc, List.append_assoc]
  refine defM_run hb hl hd back (hasFn_defM.run hn h ?_ (fun e => absurd e hw))
  constructor <;> simp [defM, chain, Auto.step]

def backAtts (base : Str) (k : Nat) : Str := Spec.attr Spec.hrefAttr (some ('#' :: Spec.fnrevName base k))

theorem backAtts_chars {base : Str} (hb : Spec.PlainBase base) (k : Nat) : ∀ c ∈ backAtts base k, c ∈ attChars :=
  fnAttr_chars (by decide +kernel) (fn_chars hb t!"#fnrev" (by decide +kernel) _)

/-- The tags of the number, and the texts between them and after them. -/
def notePairs (base : Str) (k : Nat) (l : Str) (back : Bool) (w : Str) : List (Str × Str) :=
  if back then [(openTag t!"sup", []), (openTagA t!"a" (backAtts base k), l), (closeTag t!"a", []), (closeTag t!"sup", ' ' :: w)]
  else [(openTag t!"sup", l), (closeTag t!"sup", ' ' :: w)]

theorem note_weave (base : Str) (k : Nat) (l : Str) (back : Bool) (w : Str) (ps : List (Str × Str)) :
    notePfx base k l back ++ weave w ps = weave [] (notePairs base k l back w ++ ps) := by
  cases back <;> simp [notePfx, Spec.noteMark, elementWith_eq, notePairs, weave, Spec.supTag, openTagA_nil, backAtts]

theorem prose_space {U : Uni} (hU : UniOk U) {w : Str} (h : Spec.Prose U.isLu w ∧ ¬ Spec.EndsInSpace w) (h0 : ∃ c u, w = c :: u ∧ c ≠ ' ' ∧ c ≠ '\n') :
    Spec.Prose U.isLu (' ' :: w) ∧ ¬ Spec.EndsInSpace (' ' :: w) := by
  obtain ⟨hp, he⟩ := h
  have hs : U.isLu ' ' = false := by rw [hU.upper ' ' (by decide)]; decide
  refine ⟨⟨?_, ?_, ?_, ?_, ?_⟩, ?_⟩
  · intro c hc
    rcases List.mem_cons.1 hc with rfl | hc
    · left; decide
    · exact hp.chars c hc
  · intro a x y z b e hu
    cases a with
    | nil => simp at e; rw [← e.1, hs] at hu; exact absurd hu.1 (by simp)
    | cons d a => simp at e; exact hp.caps a x y z b e.2 hu
  · intro a b e
    cases a with
    | nil => simp at e
    | cons d a => simp at e; exact hp.dots a b e.2
  · intro a d x b hd hx
    constructor <;> intro e
    · cases a with
      | nil => simp at e; rw [← e.1] at hd; revert hd; decide
      | cons f a => simp at e; exact (hp.dims a d x b hd hx).1 e.2
    · cases a with
      | nil => simp at e; rw [← e.1] at hd; revert hd; decide
      | cons f a => simp at e; exact (hp.dims a d x b hd hx).2 e.2
  · intro a c b e
    cases a with
    | nil => simp at e
    | cons f a => simp at e; exact hp.lines a c b e.2
  · rintro ⟨u, c, e, hc⟩
    cases u with
    | nil => obtain ⟨x, v, rfl, -⟩ := h0; simp at e
    | cons f u => simp at e; exact he ⟨u, c, e.2, hc⟩

theorem note_woven {C : Ctx} {base : Str} (hU : UniOk C.U) (hb : Spec.PlainBase base) {k : Nat} {l : Str} (hd : ∀ c ∈ l, Spec.isDecimal c = true)
    (back : Bool) {w : Str} {rs : List (Str × Str)} {N : Spec.Notes} (h : FnOk C.U w rs) (h0 : ∃ c u, w = c :: u ∧ c ≠ ' ' ∧ c ≠ '\n') :
    WovenOk C [] (notePairs base k l back w ++ fnPairs base N rs) := by
  have hw := fn_woven (C := C) hU hb (N := N) h
  have key : ∀ p ∈ notePairs base k l back w, (SplitTag C.U p.1 ∧ Inner p.1) ∧ Spec.Prose C.U.isLu p.2 ∧ ¬ Spec.EndsInSpace p.2 := by
    have h1 := open_ok (U := C.U) hU (tag := t!"sup") (att := []) (by simp) (by simp)
    rw [openTagA_nil] at h1
    intro p hp
    unfold notePairs at hp
    cases back with
    | true =>
      simp only [if_true, List.mem_cons, List.not_mem_nil, or_false] at hp
      rcases hp with rfl | rfl | rfl | rfl
      · exact ⟨h1, prose_nil _⟩
      · exact ⟨open_ok hU (by simp) (backAtts_chars hb _), prose_label hU hd⟩
      · exact ⟨close_ok (by simp), prose_nil _⟩
      · exact ⟨close_ok (by simp), prose_space hU h.lead h0⟩
    | false =>
      simp only [Bool.false_eq_true, if_false, List.mem_cons, List.not_mem_nil, or_false] at hp
      rcases hp with rfl | rfl
      · exact ⟨h1, prose_label hU hd⟩
      · exact ⟨close_ok (by simp), prose_space hU h.lead h0⟩
  refine ⟨prose_nil _, ?_, ?_⟩ <;> intro p hp <;> rcases List.mem_append.1 hp with hp | hp
  · exact (key p hp).1
  · exact hw.tags p hp
  · exact (key p hp).2
  · exact hw.texts p hp

theorem note_html {U : Uni} (br base : Str) {k : Nat} {l : Str} (hd : ∀ c ∈ l, Spec.isDecimal c = true) (back : Bool) {w : Str} {rs : List (Str × Str)}
    {N : Spec.Notes} (h : FnOk U w rs) :
    weaveHtml br [] (notePairs base k l back w ++ fnPairs base N rs) =
      Spec.noteMark base k l back ++ (' ' :: (Spec.breakLines br w ++ Spec.refsHtml br base N rs)) := by
  have h1 := fnHtml_eq br base (N := N) h
  have hl : Spec.breakLines br l = l := breakLines_nonl (fun hm => by have := hd _ hm; revert this; decide)
  have hs : ∀ v, Spec.breakLines br (' ' :: v) = ' ' :: Spec.breakLines br v := fun v => rfl
  have h0 : Spec.breakLines br [] = [] := rfl
  rw [← h1]
  cases back <;> simp [notePairs, weaveHtml, Spec.noteMark, elementWith_eq, hl, hs, h0, Spec.supTag, openTagA_nil, backAtts]

/-- The attributes of a footnote. -/
def noteAtts (base : Str) (k : Nat) : Str :=
  Spec.attr Spec.classAttr (some Spec.footnoteWord) ++ Spec.attr Spec.idAttr (some (Spec.fnName base k))

theorem noteAtts_chars {base : Str} (hb : Spec.PlainBase base) (k : Nat) : ∀ c ∈ noteAtts base k, c ∈ attChars := by
  intro c hc
  rcases List.mem_append.1 hc with hc | hc
  · exact fnAttr_chars (by decide +kernel) (by decide +kernel) c hc
  · exact fnAttr_chars (by decide +kernel) (fn_chars hb t!"fn" (by decide +kernel) _) c hc

theorem noteAtts_eq {base : Str} (hb : Spec.PlainBase base) (k : Nat) :
    ({ cls := some t!"footnote", id := some (Spec.fnName base k) } : BAttrs).toStr = noteAtts base k := by
  rw [BAttrs.toStr, HtmlAttrs.toStr, toStr_four]
  simp only [Option.toList, List.map_cons, List.map_nil, List.append_nil, List.cons_append, List.nil_append]
  simp only [List.flatMap_cons, List.flatMap_nil, List.append_nil]
  rw [attrText_name (by decide +kernel), attrText_name (v := Spec.fnName base k) (fn_chars hb t!"fn" (by decide +kernel) _)]
  rfl

theorem noteAtts_tagText {base : Str} (hb : Spec.PlainBase base) (k : Nat) : TagText (uidOf base) (noteAtts base k) := by
  have h := noteAtts_chars hb k
  refine ⟨attChars_not (by decide +kernel) h, attChars_not (by decide +kernel) h, .inr ⟨_, rfl⟩, ?_⟩
  exact containsStr_false_of_mem (c := ':') (by simp [uidOf]) (attChars_not (by decide +kernel) h)

theorem runs_note {C : Ctx} {base : Str} (D : DocCtx C base) {g : Str → Prog Str} {l t pfx u : Str} {back : Bool} {k : Nat} {σ σ1 σ' : PState}
    (h1 : Runs C (footnoteBlock C (t!"fn" ++ l) (backMark back) {} t) (t!"p", { cls := some t!"footnote", id := some (Spec.fnName base k) }, pfx) σ σ1)
    (hg : Runs C (g pfx) u σ1 σ') :
    Runs C (blockNew C g (t!"fn" ++ l) (backMark back) none t)
      { innerOpening := openTagA t!"p" (noteAtts base k), innerClosing := closeTag t!"p", content := u } σ σ' := by
  have hp : t!"fn" ++ l ≠ t!"p" := by simp
  unfold blockNew
  have ha : parseAttrs C (backMark back) none = pure {} := by
    cases back
    · exact parseAttrs_nil C none
    · exact parseAttrs_back C
  rw [ha, pure_bind, if_neg hp, pure_bind, if_neg (fun h => hp h.1)]
  refine h1.bind ?_
  have h3 : blockTagsOf C t!"p" {} { cls := some t!"footnote", id := some (Spec.fnName base k) } none pfx =
      pure { innerOpening := openTagA t!"p" (noteAtts base k), innerClosing := closeTag t!"p", content := pfx } := by
    simp [blockTagsOf, openTagA, closeTag, noteAtts_eq D.plain]
  simp only [h3, pure_bind]
  exact hg.bind (Runs.pure _ _)

theorem act_note {C : Ctx} {base : Str} (D : DocCtx C base) (hp : C.cfg.linkPrefix = base ++ t!"-") (hlite : C.cfg.lite = false) {t : Spec.FnText} (h : t.Ok C.U.isLu)
    {l : Str} (hl : l ≠ []) (hd : ∀ c ∈ l, Spec.isDecimal c = true) (back : Bool) (N : Spec.Numbers) (M : Spec.Notes) :
    Act C (fun σ => Num N σ ∧ FnState base aux0 M σ) (fun σ => Num N σ ∧ FnState base aux0 (t.notes (M.define l)) σ)
      (t!"fn" ++ (l ++ (backMark back ++ (t!". " ++ t.source)))) 0
      (Spec.elementWith t!"p" (noteAtts base (M.ofNote l)) (Spec.noteMark base (M.ofNote l) l back ++ (' ' :: t.html C.cfg.brTag base (M.define l)))) := by
  have hf := fnOk_of h
  have hln : ∀ d, Spec.isDecimal d = false → d ∉ l := fun d h hm => by have := hd _ hm; rw [h] at this; cases this
  have hlines := fn_tagLines h (p := t!"fn" ++ (l ++ (backMark back ++ t!". "))) ⟨by cases back <;> simp [backMark, hln '\n' (by decide)], by cases back <;> simp [backMark, hln '\r' (by decide)]⟩ ⟨_, _, rfl, by decide⟩
  rw [show t!"fn" ++ (l ++ (backMark back ++ t!". ")) ++ t.source = t!"fn" ++ (l ++ (backMark back ++ (t!". " ++ t.source))) by simp] at hlines
  have hT := noteAtts_tagText D.plain (M.ofNote l)
  have hw := note_woven (C := C) D.uni D.plain (k := M.ofNote l) hd back (N := M.define l) hf h.first
  have := act_body D (P := fun σ => Num N σ ∧ FnState base aux0 M σ) (P' := fun σ => Num N σ ∧ FnState base aux0 (t.notes (M.define l)) σ) (tag := t!"p") (n := 0)
    hlines (by decide) hT.nolt hw ?_
  · rwa [note_html _ _ hd back hf] at this
  · intro σ hσ _
    obtain ⟨σ1, r1, r2, r3, r4, r5⟩ := footnote_runs D.uni D.plain hp hσ.2 hl hd back t.source
    obtain ⟨σ', g1, g2, g3⟩ := graf_body D hp (note_quiet D.uni D.plain (k := M.ofNote l) hl hd back hf (fnLead_ne h))
      (by
        have h1 := attChars_not (d := '[') (by decide +kernel) (backAtts_chars D.plain (M.ofNote l))
        have h2 := attChars_not (d := ':') (by decide +kernel) (backAtts_chars D.plain (M.ofNote l))
        unfold backAtts at h1 h2
        cases back <;> simp [notePfx, Spec.noteMark, Spec.elementWith, Spec.supTag, hln '[' (by decide), hln ':' (by decide), h1, h2]) hf (fnLead_ne h) r2
      (note_weave _ _ _ _ _ _) hw
    obtain ⟨m, hm, e1, e2, e3, e4, e5⟩ := note_captures C D.uni hlite (t := t.source) hl hd back
    have gb : Body C (notePfx base (M.ofNote l) l back ++ t.source) (weave [] (notePairs base (M.ofNote l) l back t.lead ++ fnPairs base (M.define l) t.refs)) 0 σ1 σ'
        (brk C.cfg.brTag (weave [] (notePairs base (M.ofNote l) l back t.lead ++ fnPairs base (M.define l) t.refs))) := g1
    have hn := runs_note D (g := graf C C.fuel) r1 gb.runs
    have ho : BodyOut C (weave [] (notePairs base (M.ofNote l) l back t.lead ++ fnPairs base (M.define l) t.refs)) 0 σ σ'
        (brk C.cfg.brTag (weave [] (notePairs base (M.ofNote l) l back t.lead ++ fnPairs base (M.define l) t.refs))) :=
      ⟨gb.woven, gb.lined, gb.ne, r3.trans gb.grow, by have := gb.index; omega, gb.rep⟩
    refine ⟨σ', _, ho.element D (b := t!"fn" ++ (l ++ (backMark back ++ (t!". " ++ t.source)))) (by decide) hT ?_ (trim_ne (by decide)) ?_,
      Num.aux hσ.1 (g3.trans r5), g2⟩
    · intro _ e; cases e
    · intro s h1 h2 h3 h4 h5
      rw [blockBody_tagged hm, e1, e2, e3, e4, e5]
      refine ⟨{ s with tag := t!"fn" ++ l, atts := backMark back, ext := [], cite := none, eat := false, lastClosing := [] }, false, hn.bind ?_, ?_⟩
      · rw [h1]
        simp only [List.isEmpty_nil, if_true, List.nil_append, List.append_nil]
        rw [List.append_assoc]
        exact Runs.pure _ _
      · exact ⟨rfl, rfl, rfl, rfl, rfl⟩

/-! ## Documents -/

theorem act_fn {C : Ctx} {base : Str} (D : DocCtx C base) (hp : C.cfg.linkPrefix = base ++ t!"-") {ok : Char → Prop} (ha : ∀ c, c.toNat < 128 → ok c)
    {b : Spec.FnBlock} (hL : ∀ k t, b = .node (.piece (.list k t)) → Lowers C.U ok) (h : b.Ok C.U.isLu C.U.isNd C.cfg.lite C.cfg.restricted)
    (hc : ∀ c ∈ b.itemChars, ok c)
    (hR : b.Resolved (Spec.Resolves C.E.urlParse C.E.urlJoin C.cfg.restricted) C.cfg.rel)
    (htok : ¬ C.cfg.uid <:+: b.source) (N : Spec.Numbers) (M : Spec.Notes) :
    Act C (fun σ => Num N σ ∧ FnState base aux0 M σ) (fun σ => Num (b.numbers N) σ ∧ FnState base aux0 (b.notes M) σ) b.source b.marks
      (b.html C.cfg.brTag C.cfg.restricted base N M) := by
  cases b with
  | node b => exact act_node D ha (fun k t e => hL k t (by rw [e])) h hc hR htok N (fun σ σ' hk hs => hs.keeps hk)
  | para t => exact act_fnPara D hp h.1 h.2.1 h.2.2 N M
  | styled tag a t =>
    obtain ⟨h1, h2, h3, h4, h5, h6⟩ := h
    exact act_fnStyled D hp h1 h2 h4 h5 h6 htok N M
  | note l back t =>
    obtain ⟨h1, h2, h3, h4⟩ := h
    exact act_note D hp h4 h1 h2 h3 back N M

theorem fn_acts {C : Ctx} {base : Str} (D : DocCtx C base) (hp : C.cfg.linkPrefix = base ++ t!"-") {ok : Char → Prop} (ha : ∀ c, c.toNat < 128 → ok c) :
    ∀ {ds : List (Spec.FnBlock × Nat)} (_ : ds ≠ []) (_ : ∀ d ∈ ds, ∀ k t, d.1 = .node (.piece (.list k t)) → Lowers C.U ok)
    (_ : ∀ d ∈ ds, d.1.Ok C.U.isLu C.U.isNd C.cfg.lite C.cfg.restricted) (_ : ∀ d ∈ ds, ∀ c ∈ d.1.itemChars, ok c)
    (_ : ∀ d ∈ ds, d.1.Resolved (Spec.Resolves C.E.urlParse C.E.urlJoin C.cfg.restricted) C.cfg.rel)
    (_ : ∀ d ∈ ds, ¬ C.cfg.uid <:+: d.1.source) (N : Spec.Numbers) (M : Spec.Notes),
    Acts C (fun σ => Num N σ ∧ FnState base aux0 M σ) (ds.map (fun d => (d.1.source, d.2))) (Spec.fnMarks ds) (Spec.fnHtml C.cfg.brTag C.cfg.restricted base N M ds)
  | [], hne, _, _, _, _, _, _, _ => absurd rfl hne
  | [d], _, hL, h, hc, hR, htok, N, M => by
    have := Acts.one (k := d.2) (act_fn (aux0 := aux0) D hp ha (hL d (by simp)) (h d (by simp)) (hc d (by simp)) (hR d (by simp)) (htok d (by simp)) N M)
    simpa [Spec.fnMarks, Spec.fnHtml] using this
  | d :: e :: ds, _, hL, h, hc, hR, htok, N, M => by
    have ih := fn_acts D hp ha (ds := e :: ds) (by simp) (fun x hx => hL x (List.mem_cons_of_mem _ hx)) (fun x hx => h x (List.mem_cons_of_mem _ hx))
      (fun x hx => hc x (List.mem_cons_of_mem _ hx)) (fun x hx => hR x (List.mem_cons_of_mem _ hx))
      (fun x hx => htok x (List.mem_cons_of_mem _ hx)) (d.1.numbers N) (d.1.notes M)
    have := Acts.cons (k := d.2) (act_fn (aux0 := aux0) D hp ha (hL d (by simp)) (h d (by simp)) (hc d (by simp)) (hR d (by simp)) (htok d (by simp)) N M) ih
    simpa [Spec.fnMarks, Spec.fnHtml] using this

theorem enc_fn {U : Uni} : ∀ {rs : List (Str × Str)} {w : Str}, FnOk U w rs → encodeHtml (w ++ refsSource rs) false false = w ++ refsSource rs := by
  intro rs w h
  apply enc_id
  have : ∀ d ∈ t!"&<>\"'", ∀ {rs : List (Str × Str)} {w : Str}, FnOk U w rs → d ∉ w ++ refsSource rs := by
    intro d hd rs
    have hd1 : d ∉ linesA.ascii := (by decide +kernel : ∀ d ∈ t!"&<>\"'", d ∉ linesA.ascii) d hd
    have hd2 : d.toNat < 128 := (by decide +kernel : ∀ d ∈ t!"&<>\"'", d.toNat < 128) d hd
    have hd3 : Spec.isDecimal d = false ∧ d ≠ '[' ∧ d ≠ ']' := (by decide +kernel : ∀ d ∈ t!"&<>\"'", Spec.isDecimal d = false ∧ d ≠ '[' ∧ d ≠ ']') d hd
    induction rs with
    | nil => intro w h; simp [refsSource]; exact prose_nochar h.lead.1 hd1 hd2
    | cons r rs ih =>
      intro w h
      have h1 := ih h.tail
      have h2 : d ∉ w := prose_nochar h.lead.1 hd1 hd2
      have h3 : d ∉ r.1 := fun hm => by have := (h.labels r (by simp)).2 _ hm; rw [hd3.1] at this; cases this
      rw [refsSource_cons]
      simp at h1
      simp [h1, h2, h3, hd3]
  intro c hc hm
  exact this c hm h hc

theorem escaped_fn {C : Ctx} (hU : UniOk C.U) {b : Spec.FnBlock} (h : b.Ok C.U.isLu C.U.isNd C.cfg.lite true) :
    b.escaped.Ok C.U.isLu C.U.isNd C.cfg.lite true ∧ encodeHtml b.source false false = b.escaped.source := by
  cases b with
  | node b => exact escaped_node hU h
  | para t => exact ⟨h, enc_fn (fnOk_of h.1)⟩
  | styled tag a t =>
    refine ⟨h, ?_⟩
    obtain ⟨h1, h2, h3, h4, h5, h6⟩ := h
    obtain ⟨m1, m2⟩ := tagged_mem h5
    simp only [Spec.FnBlock.source, Spec.FnBlock.escaped]
    rw [enc_append, enc_append, enc_append, (tagged_chars tag m1).2.2.1, enc_atts h2 h3, fnSource_eq, enc_fn (fnOk_of h1)]
    rfl
  | note l back t =>
    refine ⟨h, ?_⟩
    obtain ⟨h1, h2, h3, h4⟩ := h
    have hl : encodeHtml l false false = l := by
      apply enc_id
      intro c hc hm
      have := h3 c hc
      rw [(by decide +kernel : ∀ d ∈ t!"&<>\"'", Spec.isDecimal d = false) c hm] at this; cases this
    simp only [Spec.FnBlock.source, Spec.FnBlock.escaped]
    rw [enc_append, enc_append, enc_append, enc_append, hl, fnSource_eq, enc_fn (fnOk_of h1)]
    cases back <;> rfl

theorem fn_escaped {b : Spec.FnBlock} : b.escaped.itemChars = b.itemChars ∧ b.escaped.marks = b.marks := by
  cases b with
  | node b => exact ⟨node_chars b, node_marks b⟩
  | _ => exact ⟨rfl, rfl⟩

/-- What `parse` makes of documents with footnotes. -/
theorem parse_footnotes {E : Env} {fuel : Nat} {cfg : Cfg} {base : Str} (D : DocCtx ⟨E, cfg, fuel⟩ base) (hp : cfg.linkPrefix = base ++ t!"-")
    (hbt : cfg.blockTags = true) (hsan : cfg.sanitizer = none) (hdep : 1 ≤ cfg.maxSpanDepth) {ok : Char → Prop}
    (ha : ∀ c, c.toNat < 128 → ok c) {ds : List (Spec.FnBlock × Nat)} (hL : ∀ d ∈ ds, ∀ k t, d.1 = .node (.piece (.list k t)) → Lowers E.U ok)
    (hne : ds ≠ []) (h : ∀ d ∈ ds, d.1.Ok E.U.isLu E.U.isNd cfg.lite cfg.restricted) (hc : ∀ d ∈ ds, ∀ c ∈ d.1.itemChars, ok c)
    (hR : ∀ d ∈ ds, d.1.Resolved (Spec.Resolves E.urlParse E.urlJoin cfg.restricted) cfg.rel)
    (htok : ¬ cfg.uid <:+: Spec.fnSource ds) (hn : 2 * Spec.fnMarks ds < 2 ^ 32) :
    parseFresh E fuel cfg (Spec.fnSource ds) = .ok (Spec.fnDocHtml cfg.brTag cfg.restricted base ds) := by
  have key : ∃ es : List (Spec.FnBlock × Nat), Spec.fnSeen cfg.restricted ds = es ∧
      (if cfg.restricted then encodeHtml (Spec.fnSource ds) false false else Spec.fnSource ds) = Spec.fnSource es ∧ es ≠ [] ∧
      (∀ d ∈ es, ∀ k t, d.1 = .node (.piece (.list k t)) → Lowers E.U ok) ∧ (∀ d ∈ es, d.1.Ok E.U.isLu E.U.isNd cfg.lite cfg.restricted) ∧
      (∀ d ∈ es, ∀ c ∈ d.1.itemChars, ok c) ∧
      (∀ d ∈ es, d.1.Resolved (Spec.Resolves E.urlParse E.urlJoin cfg.restricted) cfg.rel) ∧ Spec.fnMarks es = Spec.fnMarks ds := by
    refine ⟨_, rfl, ?_⟩
    unfold Spec.fnSeen
    by_cases hr : cfg.restricted = true
    · rw [if_pos hr, if_pos hr]
      have h' : ∀ d ∈ ds, d.1.Ok E.U.isLu E.U.isNd cfg.lite true := by rw [← hr]; exact h
      have hok := fun d hd => escaped_fn (C := ⟨E, cfg, fuel⟩) D.uni (h' d hd)
      refine ⟨?_, by simp [hne], ?_, ?_, ?_, ?_, ?_⟩
      · simp only [Spec.fnSource, enc_glue, List.map_map]
        congr 1
        apply List.map_congr_left
        intro d hd
        simp only [Function.comp]
        rw [(hok d hd).2]
      · intro d hd k t e
        obtain ⟨x, hx, rfl⟩ := List.mem_map.1 hd
        obtain ⟨b, j⟩ := x
        cases b with
        | node b =>
          simp only [Spec.FnBlock.escaped, Spec.FnBlock.node.injEq] at e
          exact hL _ hx k t (by rw [node_list e])
        | _ => cases e
      · intro d hd
        obtain ⟨x, hx, rfl⟩ := List.mem_map.1 hd
        rw [hr]; exact (hok x hx).1
      · intro d hd
        obtain ⟨x, hx, rfl⟩ := List.mem_map.1 hd
        rw [fn_escaped.1]; exact hc x hx
      · intro d hd
        obtain ⟨x, hx, rfl⟩ := List.mem_map.1 hd
        obtain ⟨b, j⟩ := x
        cases b with
        | node b => exact node_resolved (hR _ hx)
        | _ => trivial
      · simp only [Spec.fnMarks, List.map_map]
        congr 1
        apply List.map_congr_left
        intro d _
        exact fn_escaped.2
    · rw [if_neg hr, if_neg hr]
      exact ⟨rfl, hne, hL, h, hc, hR, rfl⟩
  obtain ⟨es, e0, e1, e2, e3, e4, e5, e6, e7⟩ := key
  have htok' : containsStr cfg.uid (Spec.fnSource es) = false := by
    have h0 := contains_of_not htok
    rw [← e1]
    split
    · obtain ⟨c1, c2, -, -, -, -, c7, -⟩ := uid_chars D.plain
      have hu : cfg.uid = uidOf base := D.uid
      rw [hu] at h0 ⊢
      exact containsStr_enc c1 c2 c7 h0
    · exact h0
  rw [Spec.fnDocHtml, e0]
  refine parse_acts D hbt hsan hdep (P := fun σ => Num (fun _ => 1) σ ∧ FnState base {} ⟨[], 0⟩ σ) ⟨fun _ => rfl, fun _ => rfl, rfl, rfl⟩
    (fn_acts D hp ha e2 e3 e4 e5 e6 ?_ _ _) e1 htok (by rw [e7]; exact hn)
  rintro d hd ⟨a, b, e⟩
  have := clean_of_infix htok' (glue_infix (ps := es.map (fun d => (d.1.source, d.2))) (p := (d.1.source, d.2)) (List.mem_map.2 ⟨d, hd, rfl⟩))
  rw [containsStr_iff.2 ⟨a, b, by rw [← e]; simp⟩] at this
  cases this

end Rustextile
