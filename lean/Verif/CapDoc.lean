import Verif.CapText
import Verif.DefDoc

/-!
# Documents with words in capitals
-/

namespace Rustextile

open Prog

/-! ## Texts with tags in their elements -/

theorem tidy_woven {br z t : Str} (hb : br = t!"<br>" ∨ br = t!"<br />") (hw : Woven t) (h : lined t = true) :
    Spec.tidyBreaks br (brk br t ++ z) = Spec.breakLines br t ++ Spec.tidyBreaks br z := by
  induction hw with
  | nil => rfl
  | @chr c t hlt _ ih =>
    have ih := ih (lined_tail h)
    by_cases hc : c = '\n'
    · subst hc
      obtain ⟨d, t', rfl, h1, h2⟩ := lined_nl h
      have hd : d ≠ '\n' := by rintro rfl; revert h1; decide
      rw [brk_cons hd] at ih
      rw [brk_nl, brk_cons hd, List.append_assoc]
      rw [tidyBreaks_br hb, ih]
      · simp [Spec.breakLines]
      · simpa using hd
    · rw [brk_cons hc]
      have := tidyBreaks_free (br := br) (w := [c]) (t := brk br t ++ z) (Free.of_head rfl (by simpa using Ne.symm hlt))
      simp only [List.cons_append, List.nil_append] at this ⊢
      rw [this, ih]
      simp [Spec.breakLines, hc]
  | @tag w t hi _ ih =>
    rw [brk_append, brk_nonl hi.nonl, List.append_assoc, tidyBreaks_free hi.free.1, ih (lined_right h)]
    have : Spec.breakLines br (w ++ t) = Spec.breakLines br w ++ Spec.breakLines br t := by simp [Spec.breakLines]
    rw [this, breakLines_nonl hi.nonl, List.append_assoc]

/-- An element with a text with tags. -/
theorem act_woven {C : Ctx} {P P' : PState → Prop} {src tag att w : Str} {n : Nat}
    (hl : (∃ ls, ls ≠ [] ∧ (∀ l ∈ ls, Spec.RawLine l) ∧ src = Spec.join t!"\n" ls) ∧ ∃ c u, src = c :: u ∧ isWs c = false)
    (ht : tag ∈ brTags) (ha : '<' ∉ att) (hw : lined w = true) (hw' : Woven w)
    (h : ∀ σ : PState, P σ → σ.spanDepth + 1 ≤ C.cfg.maxSpanDepth → ∃ σ' q, BodyTo C src n σ σ' q (openTagA tag att ++ (brk C.cfg.brTag w ++ closeTag tag)) ∧ P' σ') :
    Act C P P' src n (Spec.elementWith tag att (Spec.breakLines C.cfg.brTag w)) := by
  refine ⟨hl.1, hl.2, ?_, ?_⟩
  · intro σ hP hd
    obtain ⟨σ', q, h1, h2⟩ := h σ hP hd
    refine ⟨σ', q, _, h1.step, h1.grow, h2, h1.index, h1.rep, h1.nolist, ?_⟩
    intro r _
    rw [List.append_assoc, List.append_assoc, tidyBreaks_free (free_open (brFree_start tag ht).1 rfl ha),
      tidy_woven (brTag_cases C.cfg) hw' hw, tidyBreaks_free (brFree_tags tag ht).2.1, elementWith_eq]
    simp
  · rw [elementWith_eq, ← List.append_assoc]
    exact styled_end _ tag (tagged_chars tag ht).1

/-! ## The forms of the words -/

/-- The HTML of a word, with a mark in front of the capitals. -/
def capsWith (m : Str) (html5 : Bool) : Spec.Caps → Str
  | .word w tail => openTagA Spec.capsTag Spec.capsClass ++ (m ++ (w ++ (closeTag Spec.capsTag ++ tail)))
  | .acronym w title => openTagA (Spec.acronymTag html5) (Spec.titleStart ++ (title ++ t!"\"")) ++
      (openTagA Spec.capsTag Spec.capsClass ++ (m ++ (w ++ (closeTag Spec.capsTag ++ closeTag (Spec.acronymTag html5)))))

theorem capsWith_out (uid : Str) (html5 : Bool) (k : Spec.Caps) : capsWith (uid ++ t!":glyph:") html5 k = capsOut uid html5 k := by
  cases k <;> simp [capsWith, capsOut, openTagA, closeTag, Spec.capsTag, Spec.capsClass]

theorem capsWith_html (html5 : Bool) (k : Spec.Caps) : capsWith [] html5 k = k.html html5 := by
  cases k <;> simp [capsWith, Spec.Caps.html, elementWith_eq]

def capForm (f : Spec.Caps → Str) (ps : List (Spec.Caps × Str)) : Str := ps.flatMap (fun p => f p.1 ++ p.2)

theorem capForm_cons (f : Spec.Caps → Str) (k : Spec.Caps) (v : Str) (ps : List (Spec.Caps × Str)) :
    capForm f ((k, v) :: ps) = f k ++ (v ++ capForm f ps) := by simp [capForm]

theorem capForm_source (ps : List (Spec.Caps × Str)) : capForm Spec.Caps.source ps = Spec.capSource ps := rfl
theorem capForm_out (uid : Str) (html5 : Bool) (ps : List (Spec.Caps × Str)) : capForm (capsWith (uid ++ t!":glyph:") html5) ps = capOut uid html5 ps := by
  simp only [capForm, capOut, capsWith_out]
theorem capForm_html (html5 : Bool) (ps : List (Spec.Caps × Str)) : capForm (capsWith [] html5) ps = Spec.capHtml html5 ps := by
  simp only [capForm, Spec.capHtml, capsWith_html]

theorem lined_caps {U : Uni} {f : Spec.Caps → Str}
    (hf : ∀ k v, Spec.Caps.Ok v k → ('\n' ∉ f k ∧ '\r' ∉ f k) ∧ ∃ c u, f k = c :: u ∧ lineStart c = true) :
    ∀ {ps : List (Spec.Caps × Str)} {w : Str}, Spec.Prose U.isLu w → (∀ p ∈ ps, Spec.Prose U.isLu p.2) →
    Spec.AllApart ps → ¬ Spec.EndsInSpace (w ++ Spec.capSource ps) → lined (w ++ capForm f ps) = true ∧ '\r' ∉ w ++ capForm f ps
  | [], w, hw, _, _, hl => by
    simp only [Spec.capSource, List.flatMap_nil, List.append_nil] at hl
    refine ⟨lined_append (prose_lined (up := U.isLu) hw.chars hw.lines) rfl (fun e => absurd rfl (nospace_last hl _ e)), ?_⟩
    simp only [capForm, List.flatMap_nil, List.append_nil]
    exact prose_nochar hw (by decide) (by decide)
  | (s, v) :: ps, w, hw, ht, ha, hl => by
    have hl' : ¬ Spec.EndsInSpace (v ++ Spec.capSource ps) := by
      rintro ⟨u, c, e, hc⟩
      exact hl ⟨w ++ (s.source ++ u), c, by simp only [Spec.capSource, List.flatMap_cons] at e ⊢; rw [List.append_assoc s.source, e]; simp, hc⟩
    obtain ⟨i1, i2⟩ := lined_caps hf (ht _ List.mem_cons_self) (fun p hp => ht p (by simp [hp])) ha.2.2 hl'
    obtain ⟨hnl, c, f', e1, h1⟩ := hf s v ha.1
    rw [capForm_cons]
    refine ⟨lined_append (prose_lined (up := U.isLu) hw.chars hw.lines) (lined_text hnl.1 i1) (fun _ => ⟨c, _, by rw [e1]; rfl, h1⟩), ?_⟩
    rw [List.mem_append, List.mem_append, not_or, not_or]
    exact ⟨prose_nochar hw (by decide) (by decide), hnl.2, i2⟩

theorem capital_not {c : Char} (hc : Spec.isCapital c = false) {w : Str} (h : ∀ x ∈ w, Spec.isCapital x = true) : c ∉ w :=
  fun hm => by have := h _ hm; rw [hc] at this; cases this

theorem lower_not {c : Char} (hc : Spec.isLowerLetter c = false) {w : Str} (h : ∀ x ∈ w, Spec.isLowerLetter x = true) : c ∉ w :=
  fun hm => by have := h _ hm; rw [hc] at this; cases this

theorem title_not {c : Char} (hc : Spec.ordinaryChar c = false) {w : Str} (h : ∀ x ∈ w, Spec.ordinaryChar x = true) : c ∉ w :=
  fun hm => by have := h _ hm; rw [hc] at this; cases this

theorem capital_start {c : Char} (h : Spec.isCapital c = true) : lineStart c = true := by
  have h1 := capital_ws h
  have : c ≠ '|' := by rintro rfl; revert h; decide
  simp [lineStart, h1, this]

theorem caps_source_line {k : Spec.Caps} {v : Str} (h : k.Ok v) : ('\n' ∉ k.source ∧ '\r' ∉ k.source) ∧ ∃ c u, k.source = c :: u ∧ lineStart c = true := by
  cases k with
  | word w tail =>
    obtain ⟨h1, h2, h3, -⟩ := h
    refine ⟨?_, ?_⟩
    · simp only [Spec.Caps.source, List.mem_append, not_or]
      exact ⟨⟨capital_not (by decide) h2, lower_not (by decide) h3⟩, ⟨capital_not (by decide) h2, lower_not (by decide) h3⟩⟩
    · cases w with
      | nil => simp at h1
      | cons c w => exact ⟨c, _, rfl, capital_start (h2 c (by simp))⟩
  | acronym w title =>
    obtain ⟨h1, h2, -, h3⟩ := h
    refine ⟨?_, ?_⟩
    · simp [Spec.Caps.source, capital_not (c := '\n') (by decide) h2, title_not (c := '\n') (by decide) h3,
        capital_not (c := '\r') (by decide) h2, title_not (c := '\r') (by decide) h3]
    · cases w with
      | nil => simp at h1
      | cons c w => exact ⟨c, _, rfl, capital_start (h2 c (by simp))⟩

theorem acrTag_chars (html5 : Bool) (c : Char) (h : c ∈ t!"\n\r:<") : c ∉ Spec.acronymTag html5 := by
  cases html5 <;> revert c <;> decide

theorem caps_with_line {m : Str} (hm : '\n' ∉ m ∧ '\r' ∉ m) (html5 : Bool) {k : Spec.Caps} {v : Str} (h : k.Ok v) :
    ('\n' ∉ capsWith m html5 k ∧ '\r' ∉ capsWith m html5 k) ∧ ∃ c u, capsWith m html5 k = c :: u ∧ lineStart c = true := by
  have t1 := acrTag_chars html5 '\n' (by decide)
  have t2 := acrTag_chars html5 '\r' (by decide)
  cases k with
  | word w tail =>
    obtain ⟨h1, h2, h3, -⟩ := h
    refine ⟨?_, '<', _, rfl, by decide⟩
    simp [capsWith, openTagA, closeTag, Spec.capsTag, Spec.capsClass, hm, capital_not (c := '\n') (by decide) h2, lower_not (c := '\n') (by decide) h3,
        capital_not (c := '\r') (by decide) h2, lower_not (c := '\r') (by decide) h3]
  | acronym w title =>
    obtain ⟨h1, h2, -, h3⟩ := h
    refine ⟨?_, '<', _, rfl, by decide⟩
    simp [capsWith, openTagA, closeTag, Spec.capsTag, Spec.capsClass, Spec.titleStart, hm, t1, t2,
      capital_not (c := '\n') (by decide) h2, title_not (c := '\n') (by decide) h3,
        capital_not (c := '\r') (by decide) h2, title_not (c := '\r') (by decide) h3]

theorem caps_inner (html5 : Bool) : Inner (openTagA Spec.capsTag Spec.capsClass) ∧ Inner (closeTag Spec.capsTag) ∧ Inner (closeTag (Spec.acronymTag html5)) := by
  have key : ∀ w : Str, '\n' ∉ w → free t!"<br" w = true → free t!"<bR" w = true → free t!"<Br" w = true → free t!"<BR" w = true → free t!"<p>notelist" w = true → Inner w :=
    fun w h1 h2 h3 h4 h5 h6 => ⟨h1, ⟨.of h2, .of h3, .of h4, .of h5⟩, .of h6⟩
  refine ⟨?_, ?_, ?_⟩
  · apply key <;> decide
  · apply key <;> decide
  · cases html5 <;> apply key <;> decide

theorem title_inner (html5 : Bool) {title : Str} (h : ∀ c ∈ title, Spec.ordinaryChar c = true) :
    Inner (openTagA (Spec.acronymTag html5) (Spec.titleStart ++ (title ++ t!"\""))) := by
  have hlt : '<' ∉ Spec.titleStart ++ (title ++ t!"\"") := by simp [Spec.titleStart, title_not (c := '<') (by decide) h]
  refine ⟨?_, brFree_open ?_ hlt, free_open ?_ rfl hlt⟩
  · simp [openTagA, Spec.titleStart, title_not (c := '\n') (by decide) h, acrTag_chars html5 '\n' (by decide)]
  · cases html5 <;> exact ⟨.of (by decide), .of (by decide), .of (by decide), .of (by decide)⟩
  · cases html5 <;> exact .of (by decide)

theorem woven_caps {U : Uni} {m : Str} (hm : '<' ∉ m) (html5 : Bool) : ∀ {ps : List (Spec.Caps × Str)}, Spec.AllApart ps → (∀ p ∈ ps, Spec.Prose U.isLu p.2) →
    Woven (capForm (capsWith m html5) ps)
  | [], _, _ => .nil
  | (k, v) :: ps, ha, ht => by
    have ih := woven_caps hm html5 ha.2.2 (fun p hp => ht p (by simp [hp]))
    have hv : '<' ∉ v := prose_nochar (ht _ List.mem_cons_self) (by decide) (by decide)
    obtain ⟨i1, i2, i3⟩ := caps_inner html5
    rw [capForm_cons]
    cases k with
    | word w tail =>
      obtain ⟨⟨h1, h2, h3, -⟩, -⟩ := ha
      simp only [capsWith, List.append_assoc]
      exact .tag i1 (.text hm (.text (capital_not (by decide) h2) (.tag i2 (.text (lower_not (by decide) h3) (.text hv ih)))))
    | acronym w title =>
      obtain ⟨⟨h1, h2, -, h3⟩, -⟩ := ha
      simp only [capsWith, List.append_assoc]
      have hT := title_inner html5 h3
      exact .tag hT (.tag i1 (.text hm (.text (capital_not (by decide) h2) (.tag i2 (.tag i3 (.text hv ih))))))

theorem rep_caps {U : Uni} {uid br : Str} (hu : '\n' ∉ uid ∧ '\r' ∉ uid) (hbr : ':' ∉ br) (html5 : Bool) {τ : PState} : ∀ {ps : List (Spec.Caps × Str)}, Spec.AllApart ps → (∀ p ∈ ps, Spec.Prose U.isLu p.2) →
    Rep uid τ (brk br (capForm (capsWith (uid ++ t!":glyph:") html5) ps)) (brk br (capForm (capsWith [] html5) ps))
  | [], _, _ => .nil
  | (k, v) :: ps, ha, ht => by
    have ih := rep_caps hu hbr html5 (τ := τ) ha.2.2 (fun p hp => ht p (by simp [hp]))
    have hv : ':' ∉ brk br v := brk_nocolon hbr (prose_nochar (ht _ List.mem_cons_self) (by decide) (by decide))
    have t1 := acrTag_chars html5 ':' (by decide)
    have g : ∀ {r h a : Str}, ':' ∉ a → Rep uid τ r h → Rep uid τ (a ++ (t!"<span class=\"caps\">" ++ (uid ++ (t!":glyph:" ++ r)))) (a ++ (t!"<span class=\"caps\">" ++ h)) := by
      intro r h a ha hr
      have h1 : Rep uid τ ('>' :: (uid ++ (t!":glyph:" ++ r))) ('>' :: h) := RepK.glyph hr
      exact Rep.text (Rep.text (w := t!"<span class=\"caps\"") h1 (by decide)) ha
    rw [capForm_cons, capForm_cons, brk_append, brk_append, brk_append, brk_append,
      brk_nonl (caps_with_line (m := []) (by simp) html5 ha.1).1.1, brk_nonl (caps_with_line (m := uid ++ t!":glyph:") ?_ html5 ha.1).1.1]
    · cases k with
      | word w tail =>
        obtain ⟨⟨h1, h2, h3, -⟩, -⟩ := ha
        have := g (a := []) (by simp) (Rep.text (w := w ++ (closeTag Spec.capsTag ++ tail)) (Rep.text ih hv) (by
          simp [closeTag, Spec.capsTag, capital_not (c := ':') (by decide) h2, lower_not (c := ':') (by decide) h3]))
        simpa [capsWith, openTagA, Spec.capsTag, Spec.capsClass] using this
      | acronym w title =>
        obtain ⟨⟨h1, h2, -, h3⟩, -⟩ := ha
        have := g (a := openTagA (Spec.acronymTag html5) (Spec.titleStart ++ (title ++ t!"\""))) (by
            simp [openTagA, Spec.titleStart, t1, title_not (c := ':') (by decide) h3])
          (Rep.text (w := w ++ (closeTag Spec.capsTag ++ closeTag (Spec.acronymTag html5))) (Rep.text ih hv) (by
          simp [closeTag, Spec.capsTag, t1, capital_not (c := ':') (by decide) h2]))
        simpa [capsWith, openTagA, Spec.capsTag, Spec.capsClass] using this
    · simp [hu]

/-! ## The text is not a whole element -/

/-- The state after a text, taking the first of the steps. -/
def Auto.walk (M : Auto) : Nat → Str → Option Nat
  | q, [] => some q
  | q, c :: t => match (M.step q).find? (fun e => e.1.ascii.contains c) with
    | some e => M.walk e.2 t
    | none => none

theorem Auto.walk_run {M : Auto} : ∀ {w : Str} {q q' : Nat}, M.walk q w = some q' → ∀ {r : Str}, M.Run q' r → M.Run q (w ++ r)
  | [], q, q', h, r, hr => by cases h; exact hr
  | c :: w, q, q', h, r, hr => by
    unfold Auto.walk at h
    split at h
    · rename_i e he
      have h1 := List.find?_some he
      exact ⟨e, List.mem_of_find?_eq_some he, .inl (by simpa using h1), Auto.walk_run h hr⟩
    · cases h

def capOutM : Auto := [
  (true, [(linesA, 0), (oneA ':', 0), (oneA '<', 1)]),
  (false, [(oneA 's', 2), (oneA 'a', 6), (oneA '/', 12)]),
  (false, [(oneA 'p', 3)]),
  (false, [(oneA 'a', 4)]),
  (false, [(oneA 'n', 5)]),
  (false, [(oneA ' ', 15), (oneA '>', 0)]),
  (false, [(oneA 'b', 7), (oneA 'c', 9)]),
  (false, [(oneA 'b', 8)]),
  (false, [(oneA 'r', 5)]),
  (false, [(oneA 'r', 10)]),
  (false, [(oneA 'o', 11)]),
  (false, [(oneA 'n', 13)]),
  (false, [(oneA 's', 2), (oneA 'a', 6)]),
  (false, [(oneA 'y', 14)]),
  (false, [(oneA 'm', 5)]),
  (false, [(linesA, 15), (⟨t!"=\"", false⟩, 15), (oneA '>', 0)])]

set_option maxRecDepth 100000 in
theorem capOutM_ok : capOutM.wf = true ∧ capOutM.avoids UNWRAPPABLE_RE = true ∧ capOutM.avoids DIVIDER_RE = true := by
  decide +kernel

theorem capOutM_text {q : Nat} (hq : q = 0 ∨ q = 15) {rest : Str} (hr : capOutM.Run q rest) : ∀ {w : Str}, linesA.Over w → capOutM.Run q (w ++ rest)
  | [], _ => hr
  | c :: w, h => ⟨(linesA, q), by rcases hq with rfl | rfl <;> simp [capOutM, Auto.step], h c (by simp), capOutM_text hq hr (fun x hx => h x (by simp [hx]))⟩

theorem capOutM_run {U : Uni} {uid : Str} (hu : capOutM.walk 0 uid = some 0) (html5 : Bool) : ∀ {ps : List (Spec.Caps × Str)}, Spec.AllApart ps → (∀ p ∈ ps, Spec.Prose U.isLu p.2) →
    capOutM.Run 0 (capForm (capsWith (uid ++ t!":glyph:") html5) ps)
  | [], _, _ => rfl
  | (k, v) :: ps, ha, ht => by
    have ih := capOutM_run hu html5 ha.2.2 (fun p hp => ht p (by simp [hp]))
    have hv := capOutM_text (.inl rfl) ih (prose_over (ht _ List.mem_cons_self))
    have hm : ∀ {w r : Str}, (∀ c ∈ w, Spec.isCapital c = true) → capOutM.Run 0 r →
        capOutM.Run 0 (openTagA Spec.capsTag Spec.capsClass ++ (uid ++ (t!":glyph:" ++ (w ++ (closeTag Spec.capsTag ++ r))))) := by
      intro w r hw hr
      refine Auto.walk_run (q' := 0) (by decide +kernel) (Auto.walk_run hu (Auto.walk_run (q' := 0) (by decide +kernel)
        (capOutM_text (.inl rfl) (Auto.walk_run (q' := 0) (by decide +kernel) hr) (fun c hc => capital_lines (hw c hc)))))
    rw [capForm_cons]
    cases k with
    | word w tail =>
      obtain ⟨⟨h1, h2, h3, -⟩, -⟩ := ha
      simp only [capsWith, List.append_assoc]
      exact hm h2 (capOutM_text (.inl rfl) hv (fun c hc => low_linesA (h3 c hc)))
    | acronym w title =>
      obtain ⟨⟨h1, h2, -, h3⟩, -⟩ := ha
      have e1 : capOutM.walk 0 ('<' :: (Spec.acronymTag html5 ++ Spec.titleStart)) = some 15 := by cases html5 <;> decide +kernel
      have e2 : capOutM.walk 0 (closeTag (Spec.acronymTag html5)) = some 0 := by cases html5 <;> decide +kernel
      have := Auto.walk_run e1 (capOutM_text (.inr rfl) (Auto.walk_run (M := capOutM) (q := 15) (q' := 0) (w := t!"\">") (by decide +kernel) (hm h2 (Auto.walk_run e2 hv)))
        (fun c hc => linesA_iff.2 (.inl (plainA_iff.2 (h3 c hc)))))
      simpa [capsWith, openTagA] using this

theorem uid_walk {base : Str} (hb : Spec.PlainBase base) : capOutM.walk 0 (uidOf base) = some 0 := by
  have key : ∀ {w : Str}, (∀ c ∈ w, c ∈ asciiAlnum) → ∀ {r : Str} {q : Nat}, capOutM.walk 0 r = some q → capOutM.walk 0 (w ++ r) = some q := by
    intro w
    induction w with
    | nil => intro _ r q h; exact h
    | cons c w ih =>
      intro h r q hr
      have h1 := ih (fun x hx => h x (by simp [hx])) hr
      have h2 : (capOutM.step 0).find? (fun e => e.1.ascii.contains c) = some (linesA, 0) := (by decide +kernel : ∀ c ∈ asciiAlnum, (capOutM.step 0).find? (fun e => e.1.ascii.contains c) = some (linesA, 0)) c (h c (by simp))
      simp only [List.cons_append, Auto.walk, h2]
      exact h1
  have h1 : ∀ c ∈ base, c ∈ asciiAlnum := fun c hc => by
    have := hb.chars c hc
    refine alnum_mem ?_
    rcases this with h | h | h
    · exact .inr (.inl h)
    · exact .inl h
    · exact .inr (.inr h)
  have h2 : capOutM.walk 0 (t!"textileRef" ++ (t!":" ++ (base ++ t!":"))) = some 0 := by
    refine key (by decide) ?_
    have h3 := key h1 (r := t!":") (q := 0) (by decide +kernel)
    have h4 : (capOutM.step 0).find? (fun e => e.1.ascii.contains ':') = some (oneA ':', 0) := by decide +kernel
    simp only [List.cons_append, List.nil_append, Auto.walk, h4]
    exact h3
  simpa [uidOf] using h2

theorem WRAPPED_shape : WRAPPED_RE = .seq .bot (.seq (.set false [.chr '<']) (.seq (.alt (.set false [.chr '/']) .eps)
    (.seq (.grp 1 (.seq (.set true [.cls .space, .chr '<', .chr '>', .chr '/']) (.star true (.set true [.cls .space, .chr '<', .chr '>', .chr '/']))))
    (.seq (.star false (.set true [.chr '<', .chr '>'])) (.seq (.set false [.chr '>'])
    (.seq (.alt (.seq (.star true (.set true [])) (.seq (.set false [.chr '<']) (.seq (.set false [.chr '/']) (.seq (.bref 1) (.seq (.star false (.set false [.cls .space]))
      (.set false [.chr '>'])))))) .eps) .eot)))))) := by kernel_rfl

theorem Takes.bref {U : Uni} {n : Nat} {pre w rest : Str} {s s' : Caps} (h : Takes U (.bref n) pre w rest s s') : alLookup n s = some w ∧ s' = s := by
  unfold Takes Re.all at h
  split at h
  · cases h
  · rename_i v hv
    split at h
    · simp only [List.mem_singleton, Prod.mk.injEq] at h
      refine ⟨?_, h.2⟩
      rw [hv]
      have h1 := h.1
      simp only [Cur.adv, Cur.mk.injEq] at h1
      have := List.append_cancel_right h1.1
      rw [List.reverse_inj] at this
      rw [this]
    · cases h

/-- How a text looks that is an element. -/
theorem wrapped_takes {U : Uni} {t : Str} {m : Mat} (h : WRAPPED_RE.captures U t = some m) :
    ∃ u, t = '<' :: u ∧ ('<' ∉ u ∨ ∃ x ws, t = x ++ '<' :: '/' :: (m.grp 1 ++ (ws ++ t!">")) ∧ '<' ∉ m.grp 1 ∧ ∀ c ∈ ws, UC.space.eval U c = true) := by
  obtain ⟨a, rest, e, -, ht⟩ := Re.captures_takes h
  rw [WRAPPED_shape] at ht
  obtain ⟨u1, v1, s1, e1, t1, ht⟩ := ht.seq
  obtain ⟨ha, rfl, rfl⟩ := t1.bot
  simp at ha
  subst ha
  obtain ⟨u2, v2, s2, e2, t2, ht⟩ := ht.seq
  obtain ⟨rfl, rfl⟩ := t2.chr
  obtain ⟨u3, v3, s3, e3, t3, ht⟩ := ht.seq
  have h3 : s3 = [] ∧ '<' ∉ u3 := by
    rcases t3.alt with t3 | t3
    · obtain ⟨rfl, rfl⟩ := t3.chr; exact ⟨rfl, by simp⟩
    · obtain ⟨rfl, rfl⟩ := t3.eps; exact ⟨rfl, by simp⟩
  obtain ⟨rfl, n3⟩ := h3
  obtain ⟨g, v4, s4, e4, t4, ht⟩ := ht.seq
  obtain ⟨s4', t4', rfl⟩ := t4.grp
  have h4 : s4' = [] := t4'.nogrp (by decide)
  subst h4
  have hlt : ∀ {it : List Item} {x : Char}, .chr '<' ∈ it → evalSet U true it x = true → x ≠ '<' := by
    rintro it x hm hx rfl
    have : it.any (fun i => i.eval U '<') = true := List.any_eq_true.2 ⟨_, hm, by simp [Item.eval_chr]⟩
    simp [evalSet, this] at hx
  have n4 : '<' ∉ g := by
    obtain ⟨u, v, rfl, ⟨x, rfl, hx⟩, hv⟩ := t4'.lang
    rw [lang_star_set] at hv
    simp only [List.singleton_append, List.mem_cons, not_or]
    exact ⟨fun e => hlt (by simp) hx e.symm, fun hm => hlt (by simp) (hv _ hm) rfl⟩
  obtain ⟨u5, v5, s5, e5, t5, ht⟩ := ht.seq
  have h5 : s5 = [(1, g)] := t5.nogrp (by decide)
  subst h5
  have n5 : '<' ∉ u5 := by
    have hv := t5.lang
    rw [lang_star_set] at hv
    exact fun hm => hlt (by simp) (hv _ hm) rfl
  obtain ⟨u6, v6, s6, e6, t6, ht⟩ := ht.seq
  obtain ⟨rfl, rfl⟩ := t6.chr
  obtain ⟨u7, v7, s7, e7, t7, t8⟩ := ht.seq
  obtain ⟨h8, rfl, h8'⟩ := t8.eot
  subst h8
  subst e2 e3 e4 e5 e6 e7
  refine ⟨u3 ++ (g ++ (u5 ++ '>' :: u7)), by rw [e, e1]; simp, ?_⟩
  rcases t7.alt with t7 | t7
  · right
    obtain ⟨x, v, sa, ea, ta, t7⟩ := t7.seq
    obtain rfl : sa = [(1, g)] := ta.nogrp (by decide)
    obtain ⟨_, v, _, rfl, tb, t7⟩ := t7.seq
    obtain ⟨rfl, rfl⟩ := tb.chr
    obtain ⟨_, v, _, rfl, tb, t7⟩ := t7.seq
    obtain ⟨rfl, rfl⟩ := tb.chr
    obtain ⟨g', v, _, rfl, tb, t7⟩ := t7.seq
    obtain ⟨hg, rfl⟩ := tb.bref
    obtain rfl : g' = g := by simpa [alLookup] using hg.symm
    obtain ⟨ws, v, sa, rfl, tb, t7⟩ := t7.seq
    have hw := lang_star_set.1 tb.lang
    obtain rfl : sa = [(1, g')] := tb.nogrp (by decide)
    obtain ⟨rfl, rfl⟩ := t7.chr
    have hg1 : m.grp 1 = g' := by
      simp only [Mat.grp, Mat.get?, h8']
      rfl
    refine ⟨'<' :: (u3 ++ (g' ++ (u5 ++ '>' :: x))), ws, ?_, by rw [hg1]; exact n4, ?_⟩
    · rw [e, e1, ea, hg1]; simp
    · intro c hc
      have := hw c hc
      simpa [evalSet, Item.eval] using this
  · left
    obtain ⟨rfl, -⟩ := t7.eps
    simp [n3, n4, n5]

theorem cap_closing {U : Uni} {m : Str} (html5 : Bool) : ∀ {ps : List (Spec.Caps × Str)}, Spec.AllApart ps → (∀ p ∈ ps, Spec.Prose U.isLu p.2) → ps ≠ [] →
    (∃ a b, capForm (capsWith m html5) ps = '<' :: (a ++ '<' :: b)) ∧
    ((capForm (capsWith m html5) ps).getLast? ≠ some '>' ∨ ∃ x, ∃ tag ∈ [t!"span", t!"abbr", t!"acronym"], capForm (capsWith m html5) ps = x ++ closeTag tag)
  | [], _, _, h => absurd rfl h
  | (k, v) :: ps, ha, ht, _ => by
    constructor
    · rw [capForm_cons]
      cases k with
      | word w tail => exact ⟨Spec.capsTag ++ (Spec.capsClass ++ '>' :: (m ++ w)), _, by simp [capsWith, openTagA, closeTag]; rfl⟩
      | acronym w title => exact ⟨Spec.acronymTag html5 ++ (Spec.titleStart ++ (title ++ t!"\">")), _, by simp [capsWith, openTagA, closeTag]; rfl⟩
    · by_cases hne : ps = []
      · subst hne
        rw [capForm_cons, show capForm (capsWith m html5) [] = [] from rfl, List.append_nil]
        by_cases hv : v = []
        · subst hv
          rw [List.append_nil]
          cases k with
          | word w tail =>
            obtain ⟨⟨h1, h2, h3, -⟩, -⟩ := ha
            by_cases htl : tail = []
            · subst htl
              exact .inr ⟨_, t!"span", by simp, by simp only [capsWith, List.append_nil, ← List.append_assoc]; rfl⟩
            · left
              simp only [capsWith, ← List.append_assoc]
              rw [getLast_append_ne htl]
              intro e
              exact lower_not (c := '>') (by decide) h3 (List.mem_of_getLast? e)
          | acronym w title =>
            right
            refine ⟨_, Spec.acronymTag html5, by cases html5 <;> decide, by simp only [capsWith, ← List.append_assoc]; rfl⟩
        · left
          rw [getLast_append_ne hv]
          intro e
          exact prose_nochar (ht _ List.mem_cons_self) (c := '>') (by decide) (by decide) (List.mem_of_getLast? e)
      · obtain ⟨⟨a, b, e⟩, ih⟩ := cap_closing (m := m) html5 ha.2.2 (fun p hp => ht p (by simp [hp])) hne
        rw [capForm_cons]
        rcases ih with ih | ⟨x, tag, hm, ih⟩
        · left
          rw [← List.append_assoc, getLast_append_ne (by rw [e]; simp)]
          exact ih
        · exact .inr ⟨capsWith m html5 k ++ (v ++ x), tag, hm, by rw [ih]; simp⟩

theorem last_split {a b c d : Str} {x : Char} (hb : x ∉ b) (hd : x ∉ d) (h : a ++ x :: b = c ++ x :: d) : b = d := by
  rcases List.append_eq_append_iff.1 h with ⟨l, rfl, e⟩ | ⟨l, rfl, e⟩
  · cases l with
    | nil => exact (List.cons.inj e).2
    | cons y l =>
      obtain ⟨-, e⟩ := List.cons.inj e
      exact absurd (show x ∈ b by rw [e]; simp) hb
  · cases l with
    | nil => exact (List.cons.inj e).2.symm
    | cons y l =>
      obtain ⟨-, e⟩ := List.cons.inj e
      exact absurd (show x ∈ d by rw [e]; simp) hd

theorem hasRawText_cap {U : Uni} (hU : UniOk U) {uid : Str} (hu : capOutM.walk 0 uid = some 0) (html5 : Bool) {t : Spec.CapText} (h : t.Ok U.isLu) :
    hasRawText U (t.lead ++ capForm (capsWith (uid ++ t!":glyph:") html5) t.parts) = true := by
  obtain ⟨k1, k2, k3⟩ := capOutM_ok
  have hrun : capOutM.Run 0 (t.lead ++ capForm (capsWith (uid ++ t!":glyph:") html5) t.parts) :=
    capOutM_text (.inl rfl) (capOutM_run hu html5 h.apart h.texts) (prose_over h.lead)
  unfold hasRawText
  rw [Re.isMatch_none (Auto.search_none hU k1 k2 (by decide) hrun), Re.isMatch_none (Auto.search_none hU k1 k3 (by decide) hrun)]
  simp only [Bool.or_self, Bool.false_eq_true, if_false]
  split
  · rename_i m hm
    obtain ⟨u, e, hw⟩ := wrapped_takes hm
    have hlead : t.lead = [] := by
      cases hl : t.lead with
      | nil => rfl
      | cons c w =>
        rw [hl] at e
        have : c = '<' := (List.cons.inj e).1
        exact absurd (by rw [hl, this]; simp) (prose_nochar h.lead (c := '<') (by decide) (by decide))
    rw [hlead, List.nil_append] at e hw
    have hne : t.parts ≠ [] := by intro e'; rw [e'] at e; cases e
    obtain ⟨⟨a, b, e1⟩, h2⟩ := cap_closing (m := uid ++ t!":glyph:") html5 h.apart h.texts hne
    rcases hw with hw | ⟨x, ws, e2, hg, hws⟩
    · rw [e1] at e
      obtain ⟨-, rfl⟩ := List.cons.inj e
      simp at hw
    · rcases h2 with h2 | ⟨y, tag, ht, h2⟩
      · exfalso
        apply h2
        rw [e2]
        have : x ++ '<' :: '/' :: (m.grp 1 ++ (ws ++ t!">")) = (x ++ '<' :: '/' :: (m.grp 1 ++ ws)) ++ ['>'] := by simp
        rw [this, List.getLast?_concat]
      · rw [h2] at e2
        have hws' : ∀ c, c.toNat < 128 → isWs c = false → c ∉ ws := by
          intro c h1 h2 hm
          have := hws c hm
          have h3 : UC.space.eval U c = isWs c := rfl
          rw [h3, h2] at this
          cases this
        have := last_split (x := '<') (b := '/' :: (tag ++ t!">")) (d := '/' :: (m.grp 1 ++ (ws ++ t!">"))) (by
            simp only [List.mem_cons, List.not_mem_nil, or_false] at ht
            rcases ht with rfl | rfl | rfl <;> decide) (by simp [hg, hws' '<' (by decide) (by decide)]) (a := y) (c := x) (by simpa [closeTag] using e2)
        have e3 : tag ++ ['>'] = (m.grp 1 ++ ws) ++ ['>'] := by simpa using (List.cons.inj this).2
        have e4 : tag = m.grp 1 ++ ws := List.append_cancel_right e3
        have e5 : ws = [] := by
          rcases List.eq_nil_or_concat ws with h0 | ⟨v, z, h0⟩
          · exact h0
          · exfalso
            rw [List.concat_eq_append] at h0
            have hz : z ∈ tag := by rw [e4, h0]; simp
            have hz' : z ∈ ws := by rw [h0]; simp
            have hz2 : z.toNat < 128 ∧ isWs z = false := by
              exact (by decide : ∀ tag ∈ [t!"span", t!"abbr", t!"acronym"], ∀ z ∈ tag, z.toNat < 128 ∧ isWs z = false) tag ht z hz
            exact hws' z hz2.1 hz2.2 hz'
        rw [e5, List.append_nil] at e4
        rw [← e4]
        simp only [List.mem_cons, List.not_mem_nil, or_false] at ht
        rcases ht with rfl | rfl | rfl <;> kernel_rfl
  · rfl

/-! ## Blocks -/

theorem notelist_cap {m : Str} {html5 : Bool} {t : Spec.CapText} (hn : ¬ Spec.notelistWord <+: t.lead) :
    ¬ Spec.notelistWord <+: t.lead ++ capForm (capsWith m html5) t.parts := by
  intro h
  apply hn
  have hx : ∀ {k w x : Str}, '<' ∉ k → (x = [] ∨ ∃ y, x = '<' :: y) → k <+: w ++ x → k <+: w := by
    intro k
    induction k with
    | nil => intro w x _ _ _; exact List.nil_prefix
    | cons c k ih =>
      intro w x hk hx hp
      cases w with
      | nil =>
        exfalso
        rcases hx with rfl | ⟨y, rfl⟩
        · simp at hp
        · simp only [List.nil_append, List.cons_prefix_cons] at hp
          exact hk (by simp [hp.1])
      | cons d w =>
        simp only [List.cons_append, List.cons_prefix_cons] at hp ⊢
        exact ⟨hp.1, ih (fun hm => hk (by simp [hm])) hx hp.2⟩
  refine hx (by decide) ?_ h
  cases t.parts with
  | nil => exact .inl rfl
  | cons p ps =>
    obtain ⟨k, v⟩ := p
    rw [capForm_cons]
    cases k <;> exact .inr ⟨_, rfl⟩

theorem cap_first {U : Uni} {t : Spec.CapText} (h : t.Ok U.isLu) : ∃ c u, t.source = c :: u ∧ isWs c = false := by
  obtain ⟨c, u, e, h1, h2⟩ := h.first
  refine ⟨c, u, e, ?_⟩
  rcases capSource_over h c (by rw [e]; simp) with hc | hc
  · exact (by decide +kernel : ∀ c ∈ capA.ascii, c ≠ ' ' → c ≠ '\n' → isWs c = false) c hc h1 h2
  · exact hc.2.2.1

theorem cap_linedS {U : Uni} {t : Spec.CapText} (h : t.Ok U.isLu) : lined t.source = true ∧ '\r' ∉ t.source :=
  lined_caps (fun _ _ hk => caps_source_line hk) h.lead h.texts h.apart h.last

theorem cap_linedW {U : Uni} {m : Str} (hm : '\n' ∉ m ∧ '\r' ∉ m) (html5 : Bool) {t : Spec.CapText} (h : t.Ok U.isLu) :
    lined (t.lead ++ capForm (capsWith m html5) t.parts) = true :=
  (lined_caps (fun _ _ hk => caps_with_line hm html5 hk) h.lead h.texts h.apart h.last).1

theorem cap_woven {U : Uni} {m : Str} (hm : '<' ∉ m) (html5 : Bool) {t : Spec.CapText} (h : t.Ok U.isLu) :
    Woven (t.lead ++ capForm (capsWith m html5) t.parts) :=
  .text (prose_nochar h.lead (by decide) (by decide)) (woven_caps hm html5 h.apart h.texts)

theorem uid_plain {base : Str} (hb : Spec.PlainBase base) {c : Char} (h : c ∈ t!"$<\n\r") : c ∉ uidOf base := by
  intro hm
  have key : ∀ x ∈ uidOf base, x ∈ asciiAlnum ++ t!":" := by
    intro x hx
    unfold uidOf at hx
    rcases List.mem_append.1 hx with hx | hx
    · rcases List.mem_append.1 hx with hx | hx
      · exact (by decide +kernel : ∀ x ∈ t!"textileRef:", x ∈ asciiAlnum ++ t!":") x hx
      · have h1 : x ∈ asciiAlnum := by
          rcases hb.chars x hx with h | h | h
          · exact alnum_mem (.inr (.inl h))
          · exact alnum_mem (.inl h)
          · exact alnum_mem (.inr (.inr h))
        simp [h1]
    · exact (by decide +kernel : ∀ x ∈ t!":", x ∈ asciiAlnum ++ t!":") x hx
  exact absurd (key c hm) ((by decide +kernel : ∀ c ∈ t!"$<\n\r", c ∉ asciiAlnum ++ t!":") c h)

theorem cap_body {C : Ctx} {base : Str} (D : DocCtx C base) (hcap : C.cfg.capsTempl = capsTemplate C.cfg.uid) {t : Spec.CapText} (h : t.Ok C.U.isLu) (σ : PState) :
    Body C t.source (t.lead ++ capForm (capsWith (C.cfg.uid ++ t!":glyph:") C.cfg.html5) t.parts) 0 σ σ
      (brk C.cfg.brTag (t.lead ++ capForm (capsWith [] C.cfg.html5) t.parts)) := by
  have hu : ∀ c ∈ t!"$<\n\r", c ∉ C.cfg.uid := fun c hc => by rw [D.uid]; exact uid_plain D.plain hc
  have hm : ∀ c ∈ t!"$<\n\r", c ∉ C.cfg.uid ++ t!":glyph:" := fun c hc => by
    rw [List.mem_append, not_or]
    exact ⟨hu c hc, (by decide : ∀ c ∈ t!"$<\n\r", c ∉ t!":glyph:") c hc⟩
  have hq := cap_quiet D.uni h
  have ho := capSource_over h
  have hno : ∀ c, c ∉ capA.ascii → c.toNat < 128 → c ∉ t.source := fun c h1 h2 hm => Alpha.not_mem h1 h2 (ho c hm)
  have hlo := cap_linedW ⟨hm '\n' (by decide), hm '\r' (by decide)⟩ C.cfg.html5 h
  refine ⟨⟨cap_woven (hm '<' (by decide)) _ h, hlo, ?_, Grows.of_same rfl rfl rfl rfl rfl, by omega, ?_⟩,
    runs_glyphs D hq ?_ (hno _ (by decide) (by decide)) (hno _ (by decide) (by decide)) (lined_last (cap_linedS h).1)
      (by rw [glyphText_caps D.uni (hu '$' (by decide)) hcap h, capForm_out]) (lined_last hlo) σ⟩
  · intro e
    obtain ⟨e1, e2⟩ := List.append_eq_nil_iff.1 e
    obtain ⟨c, u, e3, -⟩ := cap_first h
    unfold Spec.CapText.source at e3
    rw [e1] at e3
    cases hp : t.parts with
    | nil => rw [hp] at e3; simp [Spec.capSource] at e3
    | cons p ps =>
      rw [hp, capForm_cons] at e2
      obtain ⟨k, v⟩ := p
      cases k <;> cases e2
  · intro τ _ _
    rw [brk_append, brk_append]
    exact Rep.text (rep_caps ⟨hu '\n' (by decide), hu '\r' (by decide)⟩ (brTag_nocolon _) C.cfg.html5 h.apart h.texts)
      (brk_nocolon (brTag_nocolon _) (prose_nochar h.lead (by decide) (by decide)))
  · intro n hn
    refine Re.need_search D.uni capA_wf (List.all_eq_true.1 cap_need.2.1 _ (by decide +kernel)) ?_ _
    rcases hn with rfl | rfl
    · rwa [List.append_nil]
    · exact Alpha.Over.append.2 ⟨ho, by intro c hc; simp at hc; subst hc; exact .inl (by decide)⟩

theorem cap_begins {C : Ctx} (hU : UniOk C.U) {t : Spec.CapText} (h : t.Ok C.U.isLu) : Begins C t.source := by
  have hq := cap_quiet hU h
  exact ⟨cap_first h, hq.notedef, Re.isMatch_none hq.divider⟩

theorem cap_lines {U : Uni} {t : Spec.CapText} (h : t.Ok U.isLu) :
    ∃ ls, ls ≠ [] ∧ (∀ l ∈ ls, Spec.RawLine l) ∧ t.source = Spec.join t!"\n" ls := by
  obtain ⟨c, u, e, hc⟩ := cap_first h
  obtain ⟨k1, k2⟩ := cap_linedS h
  rw [e] at k1 k2 ⊢
  have := lines_of u (p := [c]) (lined_tail k1) k2 (by simp; rintro rfl; revert hc; decide) (blank_not hc)
  simpa using this

theorem cap_tagLines {U : Uni} {t : Spec.CapText} (h : t.Ok U.isLu) {p : Str} (h1 : '\n' ∉ p ∧ '\r' ∉ p) (h2 : ∃ c u, p = c :: u ∧ isWs c = false) :
    (∃ ls, ls ≠ [] ∧ (∀ l ∈ ls, Spec.RawLine l) ∧ p ++ t.source = Spec.join t!"\n" ls) ∧ ∃ c u, p ++ t.source = c :: u ∧ isWs c = false := by
  obtain ⟨k1, k2⟩ := cap_linedS h
  obtain ⟨c, u, rfl, hc⟩ := h2
  refine ⟨?_, c, _, rfl, hc⟩
  exact lines_of _ (p := c :: u) k1 (by simp at k2 h1; simp [h1, k2]) h1.1 (blank_not hc)

theorem capText_html (html5 : Bool) (br : Str) (t : Spec.CapText) : t.html html5 br = Spec.breakLines br (t.lead ++ capForm (capsWith [] html5) t.parts) := by
  unfold Spec.CapText.html
  rw [capForm_html]

theorem act_capPara {C : Ctx} {base : Str} (D : DocCtx C base) (hcap : C.cfg.capsTempl = capsTemplate C.cfg.uid) {t : Spec.CapText} (h : t.Ok C.U.isLu)
    (hs : Spec.NoBlockStart C.U.isNd C.cfg.lite t.source) (hn : ¬ Spec.notelistWord <+: t.lead) (P : PState → Prop) :
    Act C P P t.source 0 (Spec.elementWith t!"p" [] (t.html C.cfg.html5 C.cfg.brTag)) := by
  rw [capText_html]
  refine act_woven (tag := t!"p") (att := []) ⟨cap_lines h, cap_first h⟩ (by decide) (by simp) (cap_linedW (by simp) _ h) (cap_woven (by simp) _ h) ?_
  intro σ hσ _
  obtain ⟨q, hq⟩ := body_para D (cap_body D hcap h σ) (cap_begins D.uni h) (tag_none_of hs)
    (hasRawText_cap D.uni (by rw [D.uid]; exact uid_walk D.plain) _ h) (notelist_cap hn)
  exact ⟨σ, q, by rw [openTagA_nil]; exact hq, hσ⟩

theorem act_capStyled {C : Ctx} {base : Str} (D : DocCtx C base) (hcap : C.cfg.capsTempl = capsTemplate C.cfg.uid) {t : Spec.CapText} (h : t.Ok C.U.isLu)
    {tag : Str} {a : Spec.Atts} (ha : a.Ok) (hb : a.left = 0)
    (ht : tag ∈ t!"p" :: (if C.cfg.lite then [] else [t!"h1", t!"h2", t!"h3", t!"h4", t!"h5", t!"h6"]))
    (hn : tag = t!"p" → ¬ Spec.notelistWord <+: t.lead) (htok : ¬ C.cfg.uid <:+: tag ++ (a.source ++ (t!". " ++ t.source))) (P : PState → Prop) :
    Act C P P (tag ++ (a.source ++ (t!". " ++ t.source))) 0 (Spec.elementWith tag (a.html C.cfg.restricted) (t.html C.cfg.html5 C.cfg.brTag)) := by
  obtain ⟨m1, m2⟩ := tagged_mem ht
  have hca : containsStr C.cfg.uid a.source = false := contains_of_not (fun hi => htok (infix_source (.inl hi)))
  have hlt : '<' ∉ a.html C.cfg.restricted := (atts_tagText D.plain ha (by rw [← D.uid]; exact hca) _).nolt
  obtain ⟨a1, a2⟩ := atts_nonl ha
  obtain ⟨g1, g2, -, g3⟩ := tagged_chars tag m1
  have hl := cap_tagLines h (p := tag ++ (a.source ++ t!". ")) ⟨by simp [a1, g1], by simp [a2, g2]⟩ (by
    obtain ⟨c, u, rfl, hc⟩ := g3; exact ⟨c, _, rfl, hc⟩)
  rw [show tag ++ (a.source ++ t!". ") ++ t.source = tag ++ (a.source ++ (t!". " ++ t.source)) by simp] at hl
  rw [capText_html]
  refine act_woven hl m1 hlt (cap_linedW (by simp) _ h) (cap_woven (by simp) _ h) ?_
  intro σ hσ _
  obtain ⟨q, hq⟩ := body_styled D ha hca (.inl hb) (cap_body D hcap h σ) (cap_begins D.uni h) m1 m2 (fun e => notelist_cap (hn e))
  exact ⟨σ, q, hq, hσ⟩

/-! ## Documents -/

/-- The text of a block as it is seen. -/
def capSeen (restricted : Bool) : Spec.CapBlock → Str
  | .other b => dlSeen restricted b
  | b => b.source

def capKinds (cfg : Cfg) (base : Str) : Kinds Spec.CapBlock where
  src := Spec.CapBlock.source
  seen := capSeen cfg.restricted
  marks := Spec.CapBlock.marks
  html := fun N M b => b.html cfg.html5 cfg.brTag cfg.restricted (useAlignClass cfg) base N M
  numbers := fun N b => b.numbers N cfg.restricted
  notes := fun M b => b.notes M cfg.restricted

theorem enc_cap {U : Uni} {t : Spec.CapText} (h : t.Ok U.isLu) : encodeHtml t.source false false = t.source := by
  refine enc_id ?_
  intro c hc hm
  rcases capSource_over h c hc with hx | hx
  · exact absurd hm ((by decide +kernel : ∀ c ∈ capA.ascii, c ∉ t!"&<>\"'") c hx)
  · exact absurd hx.2.1 ((by decide : ∀ c ∈ t!"&<>\"'", ¬ 128 ≤ c.toNat) c hm)

theorem cap_seen {C : Ctx} (hU : UniOk C.U) {b : Spec.CapBlock} (h : b.Ok C.U.isLu C.U.isNd C.cfg.lite C.cfg.restricted) :
    (if C.cfg.restricted then encodeHtml b.source false false else b.source) = capSeen C.cfg.restricted b := by
  cases b with
  | other b => exact dl_seen hU h
  | para t =>
    split
    · exact enc_cap h.1
    · rfl
  | styled tag a t =>
    split
    · rename_i hr
      obtain ⟨h1, h3, h4, h5, h6, h7⟩ := h
      rw [hr] at h4
      simp only [Spec.CapBlock.source, capSeen]
      rw [enc_append, enc_append, enc_append, (tagged_chars tag (tagged_mem h6).1).2.2.1, enc_atts h3 h4, enc_cap h1]
      rfl
    · rfl

theorem act_dl {C : Ctx} {base : Str} (D : DocCtx C base) (hp : C.cfg.linkPrefix = base ++ t!"-") (hz : C.cfg.getSizes = false) (hno : C.cfg.noimage = false)
    {ok : Char → Prop} (ha : ∀ c, c.toNat < 128 → ok c) {b : Spec.DlBlock} (hL : Lowers C.U ok)
    (h : b.Ok C.U.isLu C.U.isNd C.cfg.lite C.cfg.restricted) (hc : ∀ c ∈ b.chars, ok c)
    (hR : b.Resolved (Spec.Resolves C.E.urlParse C.E.urlJoin C.cfg.restricted) (Spec.Reads C.E.urlParse C.E.urlJoin) C.cfg.rel)
    (hsrc : ¬ C.cfg.uid <:+: b.source) (htok : ¬ C.cfg.uid <:+: dlSeen C.cfg.restricted b) (N : Spec.Numbers) (M : Spec.Notes) :
    Act C (fun σ => Num N σ ∧ FnState base {} M σ) (fun σ => Num (b.numbers N C.cfg.restricted) σ ∧ FnState base {} (b.notes M C.cfg.restricted) σ)
      (dlSeen C.cfg.restricted b) b.marks (b.html C.cfg.brTag C.cfg.restricted (useAlignClass C.cfg) base N M) := by
  cases b with
  | other b => exact act_tt D hp hz hno ha hL h hc hR hsrc htok N M
  | dlist l => exact act_dlist D h.1 h.2 hsrc _

/-- What `parse` makes of documents with words in capitals. -/
theorem parse_caps {E : Env} {fuel : Nat} {cfg : Cfg} {base : Str} (D : DocCtx ⟨E, cfg, fuel⟩ base) (hp : cfg.linkPrefix = base ++ t!"-")
    (hcap : cfg.capsTempl = capsTemplate cfg.uid)
    (hz : cfg.getSizes = false) (hno : cfg.noimage = false)
    (hbt : cfg.blockTags = true) (hsan : cfg.sanitizer = none) (hdep : 1 ≤ cfg.maxSpanDepth) {ok : Char → Prop}
    (ha : ∀ c, c.toNat < 128 → ok c) (hL : Lowers E.U ok) {ds : List (Spec.CapBlock × Nat)}
    (hne : ds ≠ []) (h : ∀ d ∈ ds, d.1.Ok E.U.isLu E.U.isNd cfg.lite cfg.restricted) (hc : ∀ d ∈ ds, ∀ c ∈ d.1.chars, ok c)
    (hR : ∀ d ∈ ds, d.1.Resolved (Spec.Resolves E.urlParse E.urlJoin cfg.restricted) (Spec.Reads E.urlParse E.urlJoin) cfg.rel)
    (htok : ¬ cfg.uid <:+: Spec.capsSource ds) (hn : 2 * Spec.capsMarks ds < 2 ^ 32) :
    parseFresh E fuel cfg (Spec.capsSource ds) = .ok (Spec.capsDocHtml cfg.html5 cfg.brTag cfg.restricted (useAlignClass cfg) base ds) := by
  have := parse_kinds D hbt hsan hdep (β := Spec.CapBlock)
    (capKinds cfg base) hne
    (fun d hd => cap_seen (C := ⟨E, cfg, fuel⟩) D.uni (h d hd))
    (fun d hd h1 h2 N M => by
      obtain ⟨b, k⟩ := d
      cases b with
      | other b => exact act_dl D hp hz hno ha hL (h _ hd) (hc _ hd) (hR _ hd) h1 h2 N M
      | para t => exact act_capPara D hcap (h _ hd).1 (h _ hd).2.1 (h _ hd).2.2 _
      | styled tag a t =>
        obtain ⟨k1, k2, k3, k4, k5, k6⟩ := h _ hd
        exact act_capStyled D hcap k1 k2 k4 k5 k6 h1 _) htok hn
  have e : ∀ (ds : List (Spec.CapBlock × Nat)) N M, Kinds.docHtml (capKinds cfg base) N M ds =
      Spec.capsHtml cfg.html5 cfg.brTag cfg.restricted (useAlignClass cfg) base N M ds := by
    intro ds
    induction ds with
    | nil => intro _ _; rfl
    | cons d ds ih => intro N M; simp only [Kinds.docHtml, Spec.capsHtml, ih]; rfl
  rw [e] at this
  exact this

end Rustextile
