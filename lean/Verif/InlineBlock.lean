import Verif.InlineText

/-!
# Blocks with inline markup

Line breaks, block tags and placeholders of paragraphs, headings and quotations that
contain marked parts.
-/

namespace Rustextile

open Prog

/-! ## Lines -/

/-- A character with which a line can begin. -/
def lineStart (c : Char) : Bool := !isWs c && c != '|'

/-- Each newline is followed by a character with which a line can begin. -/
def lined : Str → Bool
  | [] => true
  | [c] => c != '\n'
  | c :: d :: t => (c != '\n' || lineStart d) && lined (d :: t)

/-- The same, for a text that may end with a newline. -/
def linedW : Str → Bool
  | [] => true
  | [_] => true
  | c :: d :: t => (c != '\n' || lineStart d) && linedW (d :: t)

theorem lined_cons {c : Char} {r : Str} (h : lined r = true) (hc : c = '\n' → ∃ d r', r = d :: r' ∧ lineStart d = true) :
    lined (c :: r) = true := by
  cases r with
  | nil =>
    simp only [lined, bne_iff_ne, ne_eq]
    intro e; obtain ⟨d, r', e', -⟩ := hc e; cases e'
  | cons d r =>
    simp only [lined, Bool.and_eq_true, Bool.or_eq_true, bne_iff_ne, ne_eq]
    refine ⟨?_, h⟩
    by_cases e : c = '\n'
    · obtain ⟨d', r', e', h'⟩ := hc e; cases e'; exact .inr h'
    · exact .inl e

theorem lined_append : ∀ {g r : Str}, linedW g = true → lined r = true →
    (g.getLast? = some '\n' → ∃ d r', r = d :: r' ∧ lineStart d = true) → lined (g ++ r) = true
  | [], r, _, hr, _ => hr
  | [c], r, _, hr, h => lined_cons hr (fun e => h (by rw [e]; rfl))
  | c :: d :: g, r, hg, hr, h => by
    simp only [linedW, Bool.and_eq_true, Bool.or_eq_true, bne_iff_ne, ne_eq] at hg
    refine lined_cons (lined_append hg.2 hr (fun e => h (by rw [List.getLast?_cons_cons]; exact e))) ?_
    intro e
    exact ⟨d, g ++ r, rfl, hg.1.resolve_left (fun h => h e)⟩

theorem linedW_nonl : ∀ {w : Str}, '\n' ∉ w → linedW w = true
  | [], _ => rfl
  | [_], _ => rfl
  | c :: d :: w, h => by
    simp only [List.mem_cons, not_or] at h
    simp only [linedW, Bool.and_eq_true, Bool.or_eq_true, bne_iff_ne, ne_eq]
    exact ⟨.inl (fun e => h.1 e.symm), linedW_nonl (by simp [h.2])⟩

theorem lined_text {w r : Str} (h : '\n' ∉ w) (hr : lined r = true) : lined (w ++ r) = true :=
  lined_append (linedW_nonl h) hr (fun e => absurd (List.mem_of_getLast? e) h)

theorem lined_tail {c : Char} {t : Str} (h : lined (c :: t) = true) : lined t = true := by
  cases t with
  | nil => rfl
  | cons d t => simp only [lined, Bool.and_eq_true] at h; exact h.2

theorem lined_nl {t : Str} (h : lined ('\n' :: t) = true) : ∃ d t', t = d :: t' ∧ isWs d = false ∧ d ≠ '|' := by
  cases t with
  | nil => simp [lined] at h
  | cons d t =>
    simp only [lined, Bool.and_eq_true, Bool.or_eq_true, bne_self_eq_false, Bool.false_eq_true, false_or] at h
    have := h.1
    simp only [lineStart, Bool.and_eq_true, Bool.not_eq_true', bne_iff_ne, ne_eq] at this
    exact ⟨d, t, rfl, this⟩

theorem blank_not {c : Char} {t : Str} (h : isWs c = false) : ¬ Spec.BlankLine (c :: t) := by
  intro hb
  have := hb c (by simp)
  rcases this with rfl | rfl <;> revert h <;> decide

/-- Such a text as a list of lines. -/
theorem lines_of : ∀ (t : Str) {p : Str}, lined t = true → '\r' ∉ p ++ t → '\n' ∉ p → ¬ Spec.BlankLine p →
    ∃ ls, ls ≠ [] ∧ (∀ l ∈ ls, Spec.RawLine l) ∧ p ++ t = Spec.join t!"\n" ls
  | [], p, _, hr, hn, hb => ⟨[p], by simp, by simpa using ⟨hn, by simpa using hr, hb⟩, by simp [Spec.join]⟩
  | d :: t, p, h, hr, hn, hb => by
    by_cases hd : d = '\n'
    · subst hd
      obtain ⟨e, t', rfl, h1, h2⟩ := lined_nl h
      obtain ⟨ls, g1, g2, g3⟩ := lines_of t' (p := [e]) (lined_tail (lined_tail h))
        (by intro hm; exact hr (List.mem_append_right _ (List.mem_cons_of_mem _ hm)))
        (by simp; rintro rfl; revert h1; decide) (blank_not h1)
      refine ⟨p :: ls, by simp, ?_, ?_⟩
      · intro l hl
        rcases List.mem_cons.1 hl with rfl | hl
        · exact ⟨hn, fun hm => hr (List.mem_append_left _ hm), hb⟩
        · exact g2 l hl
      · rw [join_cons g1, ← g3]; simp
    · obtain ⟨ls, g1, g2, g3⟩ := lines_of t (p := p ++ [d]) (lined_tail h) (by simpa using hr)
        (by simp [hn]; exact fun e => hd e.symm) (fun hbl => hb (fun c hc => hbl c (List.mem_append_left _ hc)))
      exact ⟨ls, g1, g2, by simpa using g3⟩
termination_by t => t.length

/-! ## Break tags -/

/-- A break tag for each newline. -/
def brk (br t : Str) : Str := t.flatMap (fun c => if c = '\n' then br else [c])

theorem brk_append (br a b : Str) : brk br (a ++ b) = brk br a ++ brk br b := List.flatMap_append

theorem brk_cons {br t : Str} {c : Char} (h : c ≠ '\n') : brk br (c :: t) = c :: brk br t := by simp [brk, h]
theorem brk_nl (br t : Str) : brk br ('\n' :: t) = br ++ brk br t := by simp [brk]

theorem brk_nonl {br w : Str} (h : '\n' ∉ w) : brk br w = w := by
  induction w with
  | nil => rfl
  | cons c w ih =>
    simp at h
    rw [brk_cons (fun e => h.1 e.symm), ih h.2]

theorem brk_scan {U : Uni} {g : Str → Caps → Str} {br : Str} (hg : ∀ w s, g w s = br) : ∀ {t : Str}, lined t = true →
    ∀ pre, Scan U NEWLINE_RE g pre t (brk br t)
  | [], _, _ => .nil
  | c :: t, h, pre => by
    by_cases hc : c = '\n'
    · subst hc
      obtain ⟨d, t', rfl, h1, h2⟩ := lined_nl h
      have := Scan.hit (g := g) (w := t!"\n") (NEWLINE_hit (U := U) (pre := pre) (t := t') h1 h2) (by simp)
        (brk_scan hg (lined_tail h) _)
      rw [hg] at this
      rw [brk_nl]
      exact this
    · rw [brk_cons hc]
      exact .miss (NEWLINE_none hc) (brk_scan hg (lined_tail h) _)

theorem brText_brk {C : Ctx} (hU : UniOk C.U) {t : Str} (hA : mixA.Over t) (h : lined t = true) :
    brText C t = brk C.cfg.brTag t := by
  unfold brText
  rw [Re.replaceTempl_none _ (Re.need_search hU mixA_wf (need_mem mix_need (by simp)) hA _)]
  exact Re.replaceTempl_eq NEWLINE_nonnull (brk_scan (fun w s => brTag_templ _ w s) h _)

theorem broken_brk {br z oz : Str} (hz : Broken br z oz) : ∀ {t : Str}, lined t = true → '<' ∉ t →
    Broken br (brk br t ++ z) (brk (br ++ t!"\n") t ++ oz)
  | [], _, _ => by simpa [brk] using hz
  | c :: t, h, hl => by
    simp at hl
    have ih := broken_brk hz (t := t) (lined_tail h) hl.2
    by_cases hc : c = '\n'
    · subst hc
      obtain ⟨d, t', rfl, h1, h2⟩ := lined_nl h
      have hd : d ≠ '\n' := by rintro rfl; revert h1; decide
      rw [brk_nl, brk_nl]
      have := Broken.br (br := br) (by rw [brk_cons hd]; simp [hd]) ih
      simpa using this
    · rw [brk_cons hc, brk_cons hc]
      exact .text (w := [c]) (.of_lt (by simpa using hl.1)) ih

/-- Output of the block parser for a text with placeholders. -/
theorem br_mixed {C : Ctx} (hU : UniOk C.U) {a z tag t : Str} (ht : tag ∈ brTags) (hA : mixA.Over t) (h : lined t = true)
    (ha : BrFree a) (hz : BrFree z) (hpa : noPTag a = true) (hpz : noPTag z = true)
    (hzc : containsStr (closeTag tag) (closeTag tag ++ z).tail = false) :
    BR_TAG_RE.replaceTempl C.U C.cfg.brTag (doPBr C (a ++ (openTag tag ++ (t ++ (closeTag tag ++ z))))) =
      a ++ (openTag tag ++ (brk C.cfg.brTag t ++ (closeTag tag ++ z))) := by
  rw [doPBr_tag ht hpa hpz, brText_brk hU hA h]
  · refine (Broken.text ha (.text (brFree_tags tag ht).1 (broken_brk (.single ((brFree_tags tag ht).2.append hz)) h ?_))).replace
    intro hc
    exact Alpha.not_mem (A := mixA) (by decide) (by decide) (hA _ hc)
  · intro v r e hv z' hr
    cases v with
    | nil => exact hv rfl
    | cons y v =>
      rw [e, List.cons_append, List.tail_cons, containsStr_iff.2 ⟨v, z', by rw [hr]⟩] at hzc
      cases hzc

theorem hasRawText_mix {U : Uni} (hU : UniOk U) {t : Str} (hA : mixA.Over t) : hasRawText U t = true := by
  unfold hasRawText
  rw [Re.isMatch_none (Re.need_search hU mixA_wf (need_mem mix_need (by simp)) hA _),
    Re.isMatch_none (Re.need_search hU mixA_wf (need_mem mix_need (by simp)) hA _),
    Re.captures_none (Re.need_search hU mixA_wf (need_mem mix_need (by simp)) hA _)]
  rfl

/-! ## Marked texts -/

/-- A marked text that can stand in a block. -/
structure TextOk (C : Ctx) (w0 : Str) (P : List Part) : Prop extends InlineOk C w0 P where
  lead : linedW w0 = true
  gaps : ∀ p ∈ P, linedW p.2.2 = true
  ne : w0 ++ rawText P ≠ []

theorem marker_start {m : Str} (h : m ∈ markers) : ∃ c u, m = c :: u ∧ lineStart c = true ∧ '\n' ∉ m := by
  have : ∀ m ∈ markers, ∃ c u, m = c :: u ∧ lineStart c = true ∧ '\n' ∉ m := by
    intro m hm
    simp only [markers, List.mem_cons, List.not_mem_nil, or_false] at hm
    rcases hm with rfl | rfl | rfl | rfl | rfl | rfl | rfl | rfl | rfl | rfl <;> exact ⟨_, _, rfl, by decide, by decide⟩
  exact this m h

theorem lined_raw {U : Uni} : ∀ {P : List Part} {w : Str}, (∀ p ∈ P, PartOk U p) → linedW w = true →
    (∀ p ∈ P, linedW p.2.2 = true) → (w ++ rawText P).getLast? ≠ some '\n' → lined (w ++ rawText P) = true
  | [], w, _, hw, _, hl => by
    refine lined_append hw rfl (fun e => ?_)
    rw [show w ++ rawText [] = w by simp [rawText]] at hl
    exact absurd e hl
  | p :: P, w, hp, hw, hg, hl => by
    obtain ⟨c, u, e, h1, h2⟩ := marker_start (hp p (by simp)).mark
    have e1 : rawText (p :: P) = (p.1 ++ (p.2.1 ++ p.1)) ++ (p.2.2 ++ rawText P) := by simp [rawText]
    have e2 : ∃ r, rawText (p :: P) = c :: r := ⟨u ++ (p.2.1 ++ (p.1 ++ (p.2.2 ++ rawText P))), by rw [e1]; simp [e]⟩
    refine lined_append hw ?_ (fun _ => by obtain ⟨r, hr⟩ := e2; exact ⟨c, r, hr, h1⟩)
    rw [e1]
    refine lined_text (by simp [h2, (hp p (by simp)).nonl]) (lined_raw (fun q hq => hp q (by simp [hq])) (hg p (by simp))
      (fun q hq => hg q (by simp [hq])) ?_)
    intro hc
    rw [e1, ← List.append_assoc, getLast_append_ne (by intro e; rw [e] at hc; simp at hc)] at hl
    exact hl hc

theorem uid_nonl {base : Str} (hb : Spec.PlainBase base) : '\n' ∉ uidOf base := by
  intro h
  simp only [uidOf, List.mem_append] at h
  rcases h with (h | h) | h
  · revert h; decide
  · have := hb.chars _ h; revert this; decide
  · revert h; decide

theorem natStr_nonl (n : Nat) : '\n' ∉ natStr n := by
  intro h; have := natStr_alnum h; revert this; decide

theorem ospan_nonl {base : Str} (hb : Spec.PlainBase base) (n : Nat) : '\n' ∉ ospan (uidOf base) n := by
  simp [ospan, uid_nonl hb, natStr_nonl]

theorem cspan_nonl {base : Str} (hb : Spec.PlainBase base) (n : Nat) : '\n' ∉ cspan (uidOf base) n := by
  simp [cspan, uid_nonl hb, natStr_nonl]

theorem lined_mix {base : Str} (hb : Spec.PlainBase base) : ∀ {xs : List (Itm × Str)} {w : Str},
    (∀ p ∈ xs, p.1.isRaw = false) → (∀ q ∈ xs.map skel, '\n' ∉ q.2.1 ∧ linedW q.2.2 = true) → linedW w = true →
    (w ++ mix (uidOf base) [] xs).getLast? ≠ some '\n' → lined (w ++ mix (uidOf base) [] xs) = true
  | [], w, _, _, hw, hl => by
    rw [mix_nil, List.append_nil] at hl ⊢
    have := lined_append (r := []) hw rfl (fun e => absurd e hl)
    simpa using this
  | (.raw m t, g) :: xs, w, ht, _, _, _ => by have := ht _ (List.mem_cons_self ..); cases this
  | (.tok n m t, g) :: xs, w, ht, hg, hw, hl => by
    have hq := hg (skel (.tok n m t, g)) (by simp)
    simp only [skel, Itm.text] at hq
    rw [mix_cons] at hl ⊢
    refine lined_append hw ?_ (fun _ => ⟨'t', _, by simp [Itm.str, ospan, uidOf]; rfl, by decide⟩)
    refine lined_text ?_ (lined_mix hb (fun p hp => ht p (by simp [hp]))
      (fun q hq => hg q (by simp at hq ⊢; simp [hq])) hq.2 ?_)
    · simp only [Itm.str, List.mem_append, not_or]
      exact ⟨ospan_nonl hb n, hq.1, cspan_nonl hb _⟩
    · intro hc
      rw [← List.append_assoc, getLast_append_ne (by intro e; rw [e] at hc; simp at hc)] at hl
      exact hl hc

theorem brk_nocolon {br w : Str} (hb : ':' ∉ br) (h : ':' ∉ w) : ':' ∉ brk br w := by
  intro hc
  obtain ⟨c, h1, h2⟩ := List.mem_flatMap.1 hc
  split at h2
  · exact hb h2
  · simp at h2; subst h2; exact h h1

theorem linesA_nocolon {w : Str} (h : linesA.Over w) : ':' ∉ w := fun hc => Alpha.not_mem (by decide) (by decide) (h _ hc)

theorem brTag_nocolon (C : Ctx) : ':' ∉ C.cfg.brTag := by
  rcases brTag_cases C.cfg with e | e <;> rw [e] <;> decide

/-- What a marked text with placeholders for texts set aside stands for. -/
def PRep (uid : Str) (τ : PState) (br : Str) : Str → List Part → Str → Prop
  | w, [], H => Rep uid τ (brk br w) H
  | w, p :: P, H => ∃ hw H', Rep uid τ (brk br w) hw ∧ PRep uid τ br p.2.2 P H' ∧
      H = hw ++ (openTag (tagName p.1) ++ (p.2.1 ++ (closeTag (tagName p.1) ++ H')))

theorem span_sealed {base : Str} {m : Str} (hm : m ∈ markers) :
    Sealed (uidOf base) (openTag (tagName m)) ∧ Sealed (uidOf base) (closeTag (tagName m)) := by
  have hs : ∀ m ∈ markers, ':' ∉ openTag (tagName m) ∧ ':' ∉ closeTag (tagName m) := by decide
  have hc : ∀ {x : Str}, ':' ∉ x → containsStr (uidOf base) x = false := fun h => containsStr_false_of_mem (c := ':') (by simp [uidOf]) h
  obtain ⟨h1, h2⟩ := hs m hm
  refine ⟨?_, ?_⟩
  · have := Sealed.tag (uid := uidOf base) (m := tagName m) (hc (by simpa [openTag] using h1))
    simpa [openTag] using this
  · have := Sealed.tag (uid := uidOf base) (m := '/' :: tagName m) (hc (by simpa [closeTag] using h2))
    simpa [closeTag] using this

/-- The placeholders stand for the tags. -/
theorem rep_mix {base : Str} (hb : Spec.PlainBase base) {σ τ : PState} {br : Str}
    (hσ : Agrees (uidOf base) σ τ) (hn : σ.refIndex < 2 ^ 32) :
    ∀ {xs : List (Itm × Str)} {w H : Str}, (∀ p ∈ xs, p.1.isRaw = false) → (∀ p ∈ xs, Known σ p.1) →
    (∀ q ∈ xs.map skel, q.1 ∈ markers ∧ '\n' ∉ q.2.1 ∧ ':' ∉ q.2.1) → PRep (uidOf base) τ br w (xs.map skel) H →
    Rep (uidOf base) τ (brk br (w ++ mix (uidOf base) [] xs)) H
  | [], w, H, _, _, _, hp => by simpa [mix, PRep] using hp
  | (.raw m t, g) :: xs, _, _, ht, _, _, _ => by have := ht _ (List.mem_cons_self ..); cases this
  | (.tok n m t, g) :: xs, w, H, ht, hk, hg, hp => by
    have hq := hg (skel (.tok n m t, g)) (by simp)
    simp only [skel, Itm.text, Itm.mark] at hq
    obtain ⟨hw, H', h1, h2, rfl⟩ := hp
    have ih := rep_mix hb hσ hn (xs := xs) (fun p hp => ht p (by simp [hp])) (fun p hp => hk p (by simp [hp]))
      (fun q hq => hg q (by simp at hq ⊢; simp [hq])) h2
    obtain ⟨k1, k2, k3⟩ := hk _ (List.mem_cons_self ..)
    obtain ⟨s1, s2⟩ := span_sealed (base := base) hq.1
    have h3 : Rep (uidOf base) τ (cspan (uidOf base) (n + 1) ++ _) (closeTag (tagName m) ++ H') :=
      RepK.closing (by omega) (by rw [(hσ _ k1).1, k3]) s2 ih
    have h4 : Rep (uidOf base) τ (ospan (uidOf base) n ++ _) (openTag (tagName m) ++ _) :=
      RepK.opening (by omega) (by rw [(hσ _ (by omega)).1, k2]) s1 (h3.text hq.2.2)
    rw [mix_cons]
    simp only [Itm.str, brk_append, brk_nonl (ospan_nonl hb n), brk_nonl hq.2.1, brk_nonl (cspan_nonl hb _), List.append_assoc]
    have := h1.append h4
    simpa [skel, Itm.mark, Itm.text, brk_append] using this

/-! ## Kinds of blocks -/

/-- What happens to a block; at most two numbers are used for each element in it. -/
structure BlockTo (C : Ctx) (b : Str) (n : Nat) (σ σ' : PState) (q h : Str) : Prop where
  step : StepTo C b σ σ' q
  grow : Grow C.cfg.uid σ σ'
  aux : σ'.aux = σ.aux
  index : σ'.refIndex ≤ σ.refIndex + 2 * n
  rep : ∀ τ : PState, Agrees C.cfg.uid σ' τ → σ'.refIndex < 2 ^ 32 → Rep C.cfg.uid τ q h
  nolist : containsStr t!"<p>notelist" q = false

theorem tag_nocolon : ∀ tag ∈ brTags, ':' ∉ openTag tag ∧ ':' ∉ closeTag tag := by decide

theorem free_brk {n br : Str} (hb : Free n br) (hn : n.head? = some '<') : ∀ {t : Str}, '<' ∉ t → Free n (brk br t)
  | [], _ => Free.nil
  | c :: t, h => by
    simp at h
    by_cases hc : c = '\n'
    · subst hc; rw [brk_nl]; exact hb.append (free_brk hb hn h.2)
    · rw [brk_cons hc]
      exact Free.append (a := [c]) (Free.of_head hn (by simpa using h.1)) (free_brk hb hn h.2)

theorem prefix_brk {br k t r : Str} (hbr : ∃ b, br = '<' :: b) (hk : '<' ∉ k) (hn : '\n' ∉ k) (h : k <+: brk br t ++ '<' :: r) : k <+: t := by
  replace h := prefix_nochar hk h
  induction t generalizing k with
  | nil => exact h
  | cons c t ih =>
    by_cases hc : c = '\n'
    · subst hc
      obtain ⟨b, rfl⟩ := hbr
      rw [brk_nl] at h
      have := prefix_nochar (p := []) hk (by simpa using h)
      rw [List.prefix_nil.1 this]; exact List.nil_prefix
    · rw [brk_cons hc] at h
      cases k with
      | nil => exact List.nil_prefix
      | cons d k =>
        simp only [List.cons_prefix_cons] at h ⊢
        simp at hk hn
        exact ⟨h.1, ih hk.2 hn.2 h.2⟩

/-- The word `notelist` is not at the beginning of the text with placeholders. -/
theorem notelist_mix {base br r w0 : Str} (hbr : ∃ b, br = '<' :: b) {xs : List (Itm × Str)} (ht : ∀ p ∈ xs, p.1.isRaw = false)
    (hs : xs ≠ [] → AfterGap w0.reverse) (h : Spec.notelistWord <+: brk br (w0 ++ mix (uidOf base) [] xs) ++ '<' :: r) :
    Spec.notelistWord <+: w0 := by
  have h := prefix_brk hbr (by decide) (by decide) h
  cases xs with
  | nil => simpa [mix] using h
  | cons p xs =>
    obtain ⟨i, g⟩ := p
    rcases hs (by simp) with e | ⟨c, p, e, hc⟩
    · rw [List.reverse_eq_nil_iff] at e
      subst e
      cases i with
      | raw m t => have := ht _ (List.mem_cons_self ..); cases this
      | tok n m t =>
        rw [List.nil_append, mix_cons] at h
        simp only [Itm.str, ospan, uidOf, List.append_assoc, List.cons_append, List.nil_append] at h
        unfold Spec.notelistWord at h
        simp at h
    · have e' : w0 = p.reverse ++ [c] := by rw [← List.reverse_reverse w0, e]; simp
      rw [e', List.append_assoc] at h
      have hcn : c ∉ Spec.notelistWord := by
        intro hm
        have : ∀ c ∈ Spec.notelistWord, isWs c = false := by decide
        rw [this c hm] at hc; cases hc
      rw [e']
      exact (prefix_nochar hcn h).trans (List.prefix_append _ _)

theorem nolist_p {C : Ctx} {base w0 z : Str} {xs : List (Itm × Str)} (ht : ∀ p ∈ xs, p.1.isRaw = false)
    (hA : mixA.Over (w0 ++ mix (uidOf base) [] xs)) (hs : xs ≠ [] → AfterGap w0.reverse) (hn : ¬ Spec.notelistWord <+: w0)
    (hz : free t!"<p>notelist" z = true) :
    containsStr t!"<p>notelist" (openTag t!"p" ++ (brk C.cfg.brTag (w0 ++ mix (uidOf base) [] xs) ++ (closeTag t!"p" ++ z))) = false := by
  have hbr : Free t!"<p>notelist" C.cfg.brTag := by rcases brTag_cases C.cfg with e | e <;> rw [e] <;> exact Free.of (by decide)
  have hbh : ∃ b, C.cfg.brTag = '<' :: b := by rcases brTag_cases C.cfg with e | e <;> exact ⟨_, e⟩
  have hf : Free t!"<p>notelist" (t!"p>" ++ (brk C.cfg.brTag (w0 ++ mix (uidOf base) [] xs) ++ (closeTag t!"p" ++ z))) :=
    (Free.of (by decide)).append ((free_brk hbr rfl (fun h => Alpha.not_mem (A := mixA) (by decide) (by decide) (hA _ h))).append
      ((Free.of (by decide)).append (Free.of hz)))
  refine not_contains_cons (t := t!"p>" ++ (brk C.cfg.brTag (w0 ++ mix (uidOf base) [] xs) ++ (closeTag t!"p" ++ z))) ?_
    (not_contains_of_free (by simp) hf)
  intro hp
  rw [List.cons_append, List.cons_append] at hp
  simp only [List.cons_prefix_cons, true_and, List.nil_append] at hp
  exact hn (notelist_mix (r := t!"/p>" ++ z) hbh ht hs hp)

/-- What the first stages make of the text of a block: texts have been set aside, and in the
result `w ++ rawText P` there are only marked parts left; the whole stands for `H`. -/
structure Source (C : Ctx) (src w : Str) (P : List Part) (k : Nat) (σ σ1 : PState) (H : Str) : Prop where
  early : Runs C (grafEarly C src) (w ++ rawText P) σ σ1
  text : TextOk C w P
  grow : Grow C.cfg.uid σ σ1
  aux : σ1.aux = σ.aux
  index : σ1.refIndex + 2 * P.length ≤ σ.refIndex + 2 * k
  rep : ∀ τ : PState, Agrees C.cfg.uid σ1 τ → σ1.refIndex < 2 ^ 32 → PRep C.cfg.uid τ C.cfg.brTag w P H

/-- What is known of a marked text after `graf`. -/
structure Marked (C : Ctx) (base src w0 : Str) (k : Nat) (σ σ' : PState) (xs : List (Itm × Str)) (H : Str) : Prop where
  runs : Runs C (graf C C.fuel src) (w0 ++ mix (uidOf base) [] xs) σ σ'
  toks : ∀ p ∈ xs, p.1.isRaw = false
  start : xs ≠ [] → AfterGap w0.reverse
  over : mixA.Over (w0 ++ mix (uidOf base) [] xs)
  lined : lined (w0 ++ mix (uidOf base) [] xs) = true
  ne : w0 ++ mix (uidOf base) [] xs ≠ []
  grow : Grow C.cfg.uid σ σ'
  aux : σ'.aux = σ.aux
  index : σ'.refIndex ≤ σ.refIndex + 2 * k
  rep : ∀ τ : PState, Agrees C.cfg.uid σ' τ → σ'.refIndex < 2 ^ 32 →
    Rep C.cfg.uid τ (brk C.cfg.brTag (w0 ++ mix (uidOf base) [] xs)) H

theorem Ext.aux {σ σ' : PState} (h : Ext σ σ') : σ'.aux = σ.aux := by
  obtain ⟨k, c, rfl, -⟩ := h; rfl

theorem marked_text {C : Ctx} {base : Str} (D : DocCtx C base) {src w0 : Str} {P : List Part} {k : Nat} {σ σ1 : PState} {H : Str}
    (hs : Source C src w0 P k σ σ1 H) (hd : σ.spanDepth + 1 ≤ C.cfg.maxSpanDepth) :
    ∃ xs σ', Marked C base src w0 k σ σ' xs H := by
  have h := hs.text
  obtain ⟨xs, σ', h1, h2, h3, h4, h5, h6⟩ := graf_inline D h.toInlineOk hs.early (by rw [hs.grow.depth]; exact hd)
  refine ⟨xs, σ', ?_⟩
  rw [D.uid] at h1
  have hov : mixA.Over (w0 ++ mix (uidOf base) [] xs) := mix_over D.plain h.over h3 (by
    rw [h2]; intro q hq; exact ⟨(h.parts q hq).over, (h.parts q hq).gapOver⟩)
  refine ⟨h1, h3, fun hne => h.start (by rintro rfl; exact hne (List.map_eq_nil_iff.1 h2)), hov, ?_, ?_, hs.grow.trans h5.grow,
    h5.aux.trans hs.aux, by rw [h6]; exact hs.index, ?_⟩
  · refine lined_mix D.plain h3 ?_ h.lead ?_
    · rw [h2]; intro q hq; exact ⟨(h.parts q hq).nonl, h.gaps q hq⟩
    · intro e
      have := mix_last h3 e
      rw [h2] at this
      exact h.last _ this rfl
  · intro e
    rw [List.append_eq_nil_iff] at e
    cases xs with
    | nil =>
      refine h.ne ?_
      rw [e.1, ← h2]; rfl
    | cons p xs =>
      obtain ⟨i, g⟩ := p
      cases i with
      | raw m t => have := h3 _ (List.mem_cons_self ..); cases this
      | tok n m t => rw [mix_cons] at e; simp [Itm.str, ospan] at e
  · intro τ hτ hn
    have hr := hs.rep τ (hτ.before h5.grow) (by rw [h6] at hn; omega)
    rw [D.uid] at hτ hr ⊢
    refine rep_mix D.plain hτ hn h3 h4 ?_ (by rw [h2]; exact hr)
    rw [h2]; intro q hq
    exact ⟨(h.parts q hq).mark, (h.parts q hq).nonl, linesA_nocolon (h.parts q hq).over⟩

theorem Marked.tagged {C : Ctx} {base : Str} {src w0 : Str} {k : Nat} {σ σ' : PState}
    {xs : List (Itm × Str)} {H : Str} (hm : Marked C base src w0 k σ σ' xs H) {tag : Str} (ht : tag ∈ brTags) {b : Str}
    (hn : tag = t!"p" → ¬ Spec.notelistWord <+: w0)
    (hst : StepTo C b σ σ' (openTag tag ++ (brk C.cfg.brTag (w0 ++ mix (uidOf base) [] xs) ++ closeTag tag))) :
    BlockTo C b k σ σ' (openTag tag ++ (brk C.cfg.brTag (w0 ++ mix (uidOf base) [] xs) ++ closeTag tag))
      (openTag tag ++ (H ++ closeTag tag)) where
  step := hst
  grow := hm.grow
  aux := hm.aux
  index := hm.index
  rep := by
    intro τ h1 h2
    have := (hm.rep τ h1 h2).append ((Rep.nil (uid := C.cfg.uid) (σ := τ)).text (tag_nocolon tag ht).2)
    have := this.text (tag_nocolon tag ht).1
    simpa using this
  nolist := by
    by_cases hp : tag = t!"p"
    · subst hp
      have := nolist_p (C := C) (z := []) hm.toks hm.over hm.start (hn rfl) rfl
      simpa using this
    · have hbr : Free t!"<p>notelist" C.cfg.brTag := by rcases brTag_cases C.cfg with e | e <;> rw [e] <;> exact Free.of (by decide)
      have hb := free_brk hbr rfl (fun h => Alpha.not_mem (A := mixA) (by decide) (by decide) (hm.over _ h))
      have htg : Free t!"<p>notelist" (openTag tag) ∧ Free t!"<p>notelist" (closeTag tag) := by
        simp only [brTags, List.mem_cons, List.not_mem_nil, or_false] at ht
        rcases ht with rfl | rfl | rfl | rfl | rfl | rfl | rfl
        · exact absurd rfl hp
        all_goals exact ⟨Free.of (by decide), Free.of (by decide)⟩
      exact not_contains_of_free (by simp) (htg.1.append (hb.append htg.2))

/-- The source of a block: neither a block tag nor a note definition nor a rule. -/
structure Begins (C : Ctx) (src : Str) : Prop where
  first : ∃ c u, src = c :: u ∧ isWs c = false
  note : NOTEDEF_RE.search C.U [] src = none
  divider : DIVIDER_RE.isMatch C.U src = false

theorem Begins.ne {C : Ctx} {src : Str} (h : Begins C src) : src ≠ [] := by
  obtain ⟨c, u, e, -⟩ := h.first
  rw [e]; simp

theorem inline_para {C : Ctx} {base : Str} (D : DocCtx C base) {src w0 : Str} {P : List Part} {k : Nat} {σ σ1 : PState} {H : Str}
    (hs : Source C src w0 P k σ σ1 H) (hb : Begins C src) (hw : (blockTagRe C).captures C.U src = none)
    (hnl : ¬ Spec.notelistWord <+: w0) (hd : σ.spanDepth + 1 ≤ C.cfg.maxSpanDepth) :
    ∃ σ' q, BlockTo C src k σ σ' q (openTag t!"p" ++ (H ++ closeTag t!"p")) := by
  obtain ⟨xs, σ', hm⟩ := marked_text D hs hd
  obtain ⟨c, u, hcu, hc⟩ := hb.first
  refine ⟨σ', _, hm.tagged (by decide) (fun _ => hnl) ?_⟩
  refine step_of_body (o := openTag t!"p" ++ (w0 ++ mix (uidOf base) [] xs ++ closeTag t!"p")) (by rw [hcu]; exact trim_ne hc) ?_ ?_
  · have := br_mixed D.uni (a := []) (z := []) (tag := t!"p") (by decide) hm.over hm.lined (.of_lt (by simp)) (.of_lt (by simp)) rfl rfl (by decide)
    simpa using this
  · intro s h1 h2 h3 h4 h5
    rw [blockBody_anonymous hw (.inr ⟨?_, hb.divider⟩)]
    · rw [h2, h3, h4]
      refine ⟨{ s with tag := t!"p", atts := [], cite := none, eat := false, lastClosing := [] }, true,
        (runs_blockNew (by decide) hb.ne hb.note hm.runs).bind ?_, ?_⟩
      · simp only [hasRawText_mix D.uni hm.over]
        have : (w0 ++ mix (uidOf base) [] xs).isEmpty = false := by simpa using hm.ne
        simp only [this, Bool.not_true, Bool.and_false, Bool.or_false, Bool.false_eq_true, if_false]
        rw [List.append_assoc]
        exact Runs.pure _ _
      · exact ⟨h1, rfl, rfl, rfl, rfl⟩
    · rw [hcu]
      have : c ≠ ' ' := by rintro rfl; revert hc; decide
      simp [startsWith, List.isPrefixOf, this.symm]

theorem inline_tagged {C : Ctx} {base : Str} (D : DocCtx C base) {tag src w0 : Str} {P : List Part} {k : Nat} {σ σ1 : PState} {H : Str}
    (hs : Source C src w0 P k σ σ1 H) (hb : Begins C src)
    (ht : tag ∈ brTags) (ht' : tag ∈ plainTags C.cfg.lite) (hnl : tag = t!"p" → ¬ Spec.notelistWord <+: w0)
    (hd : σ.spanDepth + 1 ≤ C.cfg.maxSpanDepth) :
    ∃ σ' q, BlockTo C (tag ++ (t!". " ++ src)) k σ σ' q (openTag tag ++ (H ++ closeTag tag)) := by
  obtain ⟨xs, σ', hm⟩ := marked_text D hs hd
  refine ⟨σ', _, hm.tagged ht hnl ?_⟩
  obtain ⟨m, hm', g1, g2, g3, g4, g5⟩ := tag_captures C src ht'
  refine step_of_body (o := openTag tag ++ (w0 ++ mix (uidOf base) [] xs ++ closeTag tag)) ?_ ?_ ?_
  · simp only [brTags, List.mem_cons, List.not_mem_nil, or_false] at ht
    rcases ht with rfl | rfl | rfl | rfl | rfl | rfl | rfl <;> exact trim_ne (by decide)
  · have := br_mixed D.uni (a := []) (z := []) (tag := tag) ht hm.over hm.lined (.of_lt (by simp)) (.of_lt (by simp)) rfl rfl (by
      simp only [brTags, List.mem_cons, List.not_mem_nil, or_false] at ht
      rcases ht with rfl | rfl | rfl | rfl | rfl | rfl | rfl <;> decide)
    simpa using this
  · intro s h1 h2 h3 h4 h5
    rw [blockBody_tagged hm', g1, g2, g3, g4, g5]
    refine ⟨{ s with tag := tag, atts := [], ext := [], cite := none, eat := false, lastClosing := [] }, false,
      (runs_blockNew ht hb.ne hb.note hm.runs).bind ?_, ?_⟩
    · rw [h1]
      simp only [List.isEmpty_nil, if_true, List.nil_append, List.append_nil]
      rw [List.append_assoc]
      exact Runs.pure _ _
    · exact ⟨rfl, rfl, rfl, rfl, rfl⟩

theorem inline_quote {C : Ctx} {base : Str} (D : DocCtx C base) {src w0 : Str} {P : List Part} {k : Nat} {σ σ1 : PState} {H : Str}
    (hs : Source C src w0 P k σ σ1 H)
    (hnl : ¬ Spec.notelistWord <+: w0) (hd : σ.spanDepth + 1 ≤ C.cfg.maxSpanDepth) :
    ∃ σ' q, BlockTo C (t!"bq" ++ (t!". " ++ src)) k σ σ' q
      (t!"<blockquote>\n\t" ++ (openTag t!"p" ++ (H ++ (closeTag t!"p" ++ t!"\n</blockquote>")))) := by
  obtain ⟨xs, σ', hm⟩ := marked_text D hs hd
  refine ⟨σ', t!"<blockquote>\n\t" ++ (openTag t!"p" ++ (brk C.cfg.brTag (w0 ++ mix (uidOf base) [] xs) ++
    (closeTag t!"p" ++ t!"\n</blockquote>"))), ?_, hm.grow, hm.aux, hm.index, ?_, ?_⟩
  · obtain ⟨m, hm', g1, g2, g3, g4, g5⟩ := tag_captures C src (tag := t!"bq")
      (by unfold plainTags; split <;> decide)
    refine step_of_body (o := t!"<blockquote>\n\t" ++ (openTag t!"p" ++ (w0 ++ mix (uidOf base) [] xs ++ (closeTag t!"p" ++ t!"\n</blockquote>"))))
      (trim_ne (by decide)) ?_ ?_
    · exact br_mixed D.uni (by decide) hm.over hm.lined (brFree_decide (by decide)) (brFree_decide (by decide)) rfl rfl (by decide)
    · intro s h1 h2 h3 h4 h5
      rw [blockBody_tagged hm', g1, g2, g3, g4, g5]
      refine ⟨{ s with tag := t!"bq", atts := [], ext := [], cite := none, eat := false, lastClosing := t!"\n</blockquote>" }, false,
        (runs_blockNew_bq hm.runs).bind ?_, ?_⟩
      · rw [h1]
        have e : ∀ x : Str, t!"<blockquote>\n" ++ t!"\t<p>" ++ x ++ t!"</p>" ++ t!"\n</blockquote>" =
          t!"<blockquote>\n\t" ++ (openTag t!"p" ++ (x ++ (closeTag t!"p" ++ t!"\n</blockquote>"))) := by
          intro x; simp [openTag, closeTag]
        simp only [List.isEmpty_nil, if_true, e]
        exact Runs.pure _ _
      · exact ⟨rfl, rfl, rfl, rfl, rfl⟩
  · intro τ h1 h2
    have := (hm.rep τ h1 h2).append ((Rep.nil (uid := C.cfg.uid) (σ := τ)).text (w := closeTag t!"p" ++ t!"\n</blockquote>") (by decide))
    have := this.text (w := t!"<blockquote>\n\t" ++ openTag t!"p") (by decide)
    simpa using this
  · have := nolist_p (C := C) (z := t!"\n</blockquote>") hm.toks hm.over hm.start hnl (by decide)
    refine not_contains_cons (t := t!"blockquote>\n\t" ++ _) ?_ ?_
    · rintro ⟨x, hx⟩; simp at hx
    · exact containsStr_sep (a := t!"blockquote>") (c := '\n') (b := '\t' :: _) (by decide) (by simp) (by decide)
        (containsStr_sep (a := []) (c := '\t') (by decide) (by simp) (by decide) this)

end Rustextile
