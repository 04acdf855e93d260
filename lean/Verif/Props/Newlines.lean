import Verif.RegexStar
import Verif.Props.Whole
import Verif.Props.Html

/-!
# Line endings and blank lines: C06–C08
-/

namespace Rustextile

/-! ## Carriage returns -/

theorem CR_nonnull : CR_RE.nonnull = true := by decide

theorem CR_none {U : Uni} {pre rest : Str} (h : rest.head? ≠ some '\r') : CR_RE.matchAt U ⟨pre, rest⟩ = none := by
  rw [Re.matchAt_none]
  cases rest with
  | nil => rfl
  | cons x xs =>
    have : (x == '\r') = false := by simpa using h
    simp [CR_RE, Re.all, evalSet_chr, this]

theorem CR_crlf {U : Uni} {pre t : Str} :
    CR_RE.matchAt U ⟨pre, '\r' :: '\n' :: t⟩ = some (⟨'\n' :: '\r' :: pre, t⟩, []) := by
  rw [Re.matchAt_eq]; simp [CR_RE, Re.all, evalSet_chr]

theorem CR_cr {U : Uni} {pre t : Str} (h : t.head? ≠ some '\n') :
    CR_RE.matchAt U ⟨pre, '\r' :: t⟩ = some (⟨'\r' :: pre, t⟩, []) := by
  rw [Re.matchAt_eq]
  cases t with
  | nil => simp [CR_RE, Re.all, evalSet_chr]
  | cons x xs =>
    have : x ≠ '\n' := by simpa using h
    simp [CR_RE, Re.all, evalSet_chr, this]

theorem CR_scan {U : Uni} {g : Str → Caps → Str} (hg : ∀ w s, g w s = t!"\n") (text : Str) : ∀ pre,
    Scan U CR_RE g pre text (Spec.unixNewlines text) := by
  fun_induction Spec.unixNewlines text with
  | case1 t ih =>
    intro pre
    have := Scan.hit (g := g) (w := t!"\r\n") CR_crlf (by simp) (ih ('\n' :: '\r' :: pre))
    rw [hg] at this; exact this
  | case2 t h ih =>
    intro pre
    have := Scan.hit (g := g) (w := t!"\r") (CR_cr (pre := pre) (t := t) ?_) (by simp) (ih ('\r' :: pre))
    · rw [hg] at this; exact this
    · intro ht; cases t with
      | nil => simp at ht
      | cons x xs => simp at ht; exact h xs (by rw [ht])
  | case3 c t h1 h2 ih =>
    intro pre
    refine .miss (CR_none ?_) (ih _)
    intro h; simp at h; exact h2 h
  | case4 => intro pre; exact .nil

theorem CR_replace (U : Uni) (text : Str) : CR_RE.replaceTempl U t!"\n" text = Spec.unixNewlines text :=
  Re.replaceTempl_eq CR_nonnull (CR_scan (fun w s => templ_lit (by decide) w s) text [])

theorem unixNewlines_no_cr (t : Str) : '\r' ∉ Spec.unixNewlines t := by
  fun_induction Spec.unixNewlines t with
  | case1 t ih => simpa using ih
  | case2 t _ ih => simpa using ih
  | case3 c t h1 h2 ih =>
    simp only [List.mem_cons, not_or]
    exact ⟨fun e => h2 e.symm, ih⟩
  | case4 => simp

theorem unixNewlines_id {t : Str} (h : '\r' ∉ t) : Spec.unixNewlines t = t := by
  fun_induction Spec.unixNewlines t with
  | case1 t ih => simp at h
  | case2 t _ ih => simp at h
  | case3 c t h1 h2 ih => rw [ih (by simp at h; exact h.2)]
  | case4 => rfl

/-! ## Blank lines -/

theorem lines_ne_nil (t : Str) : Spec.lines t ≠ [] := by
  cases t with
  | nil => simp [Spec.lines]
  | cons c t => unfold Spec.lines; split <;> (try split) <;> simp

theorem lines_noNl : ∀ {l : Str}, '\n' ∉ l → Spec.lines l = [l]
  | [], _ => rfl
  | c :: l, h => by
    simp at h
    rw [Spec.lines, if_neg (fun e => h.1 e.symm), lines_noNl h.2]

theorem lines_cut : ∀ {l t : Str}, '\n' ∉ l → Spec.lines (l ++ '\n' :: t) = l :: Spec.lines t
  | [], t, _ => by simp [Spec.lines]
  | c :: l, t, h => by
    simp at h
    rw [List.cons_append, Spec.lines, if_neg (fun e => h.1 e.symm), lines_cut h.2]

theorem clearLines_cons {l : Str} {ls : List Str} (h : ls ≠ []) :
    Spec.clearLines (l :: ls) = (if Spec.BlankLine l then [] else l) ++ '\n' :: Spec.clearLines ls := by
  cases ls with
  | nil => exact absurd rfl h
  | cons m ls => rfl

theorem cut_lines (t : Str) : '\n' ∉ t ∨ ∃ l u, '\n' ∉ l ∧ t = l ++ '\n' :: u := by
  induction t with
  | nil => left; simp
  | cons c t ih =>
    by_cases hc : c = '\n'
    · right; exact ⟨[], t, by simp, by simp [hc]⟩
    · rcases ih with h | ⟨l, u, h, rfl⟩
      · left; simp only [List.mem_cons, not_or]; exact ⟨fun e => hc e.symm, h⟩
      · right; refine ⟨c :: l, u, ?_, rfl⟩
        simp only [List.mem_cons, not_or]; exact ⟨fun e => hc e.symm, h⟩

theorem BLANK_nonnull : BLANK_LINE_RE.nonnull = true := by decide

theorem evalSet_blank {U : Uni} {c : Char} :
    evalSet U false [.chr ' ', .chr '\t'] c = true ↔ c = ' ' ∨ c = '\t' := by
  simp [evalSet, Item.eval_chr]

/-- A match of the pattern: at the start of a line, blanks and a newline. -/
theorem BLANK_sound {U : Uni} {pre rest : Str} {e : Cur} {s : Caps}
    (h : BLANK_LINE_RE.matchAt U ⟨pre, rest⟩ = some (e, s)) :
    (pre = [] ∨ pre.head? = some '\n') ∧ ∃ l, Spec.BlankLine l ∧ Adv ⟨pre, rest⟩ (l ++ t!"\n") e := by
  have hm := Re.matchAt_mem h
  simp only [BLANK_LINE_RE, mem_seq, mem_set, evalSet_chr, mem_bol, beq_iff_eq, Prod.mk.injEq] at hm
  obtain ⟨_, _, ⟨hp, rfl, rfl⟩, c', s', hstar, x, xs, hr, rfl, rfl, rfl⟩ := hm
  obtain ⟨w, hw, ha, _⟩ := mem_star_set.1 hstar
  refine ⟨hp, w, fun c hc => evalSet_blank.1 (hw c hc), ha.trans ?_⟩
  exact ⟨by simpa using hr, by simp⟩

theorem BLANK_complete {U : Uni} {pre l t : Str} (hp : pre = [] ∨ pre.head? = some '\n') (hl : Spec.BlankLine l) :
    ∃ s, BLANK_LINE_RE.matchAt U ⟨pre, (l ++ t!"\n") ++ t⟩ = some (⟨(l ++ t!"\n").reverse ++ pre, t⟩, s) := by
  have hne : BLANK_LINE_RE.matchAt U ⟨pre, (l ++ t!"\n") ++ t⟩ ≠ none := by
    intro hm
    rw [Re.matchAt_none] at hm
    have : ((⟨'\n' :: (l.reverse ++ pre), t⟩, []) : Cur × Caps) ∈
        BLANK_LINE_RE.all U ⟨pre, (l ++ t!"\n") ++ t⟩ [] := by
      simp only [BLANK_LINE_RE, mem_seq, mem_set, evalSet_chr, mem_bol, beq_iff_eq, Prod.mk.injEq]
      refine ⟨_, _, ⟨hp, rfl, rfl⟩, ⟨l.reverse ++ pre, '\n' :: t⟩, [], mem_star_set.2 ⟨l, ?_, ?_, rfl⟩,
        '\n', t, rfl, rfl, rfl, rfl⟩
      · intro x hx; exact evalSet_blank.2 (hl x hx)
      · exact ⟨by simp, by simp⟩
    rw [hm] at this; simp at this
  cases hm : BLANK_LINE_RE.matchAt U ⟨pre, (l ++ t!"\n") ++ t⟩ with
  | none => exact absurd hm hne
  | some q =>
    obtain ⟨e, s⟩ := q
    obtain ⟨_, l', hl', ha⟩ := BLANK_sound hm
    have hll : l = l' := by
      have h1 : (l ++ t!"\n") ++ t = (l' ++ t!"\n") ++ e.rest := ha.1
      have nl : ∀ m : Str, Spec.BlankLine m → '\n' ∉ m := by
        intro m hm hn; have := hm _ hn; simp at this
      have h2 : Spec.lines ((l ++ t!"\n") ++ t) = l :: Spec.lines t := by
        rw [List.append_assoc]; exact lines_cut (nl l hl)
      have h3 : Spec.lines ((l' ++ t!"\n") ++ e.rest) = l' :: Spec.lines e.rest := by
        rw [List.append_assoc]; exact lines_cut (nl l' hl')
      rw [h1, h3] at h2
      simp at h2; exact h2.1.symm
    subst hll
    refine ⟨s, ?_⟩
    have : Adv ⟨pre, (l ++ t!"\n") ++ t⟩ (l ++ t!"\n") ⟨(l ++ t!"\n").reverse ++ pre, t⟩ := ⟨rfl, rfl⟩
    rw [ha.eq this]

/-- Nowhere in a line that is not blank, or in the last line. -/
theorem BLANK_skips {U : Uni} {l w t : Str} (hw : '\n' ∉ l) (hr : w ++ t = [] ∨ (w = t!"\n" ∧ ¬ Spec.BlankLine l)) :
    ∀ {p l' pre : Str}, p ++ l' = l → (p = [] → pre = [] ∨ pre.head? = some '\n') → (p ≠ [] → pre.head? = p.getLast?) →
      Skips U BLANK_LINE_RE pre (l' ++ w) t
  | p, [], pre, hp, h0, h1 => by
    simp at hp; subst hp
    rcases hr with h | ⟨rfl, hb⟩
    · simp at h; rw [h.1]; exact Skips.nil
    · refine Skips.cons ?_ Skips.nil
      cases hm : BLANK_LINE_RE.matchAt U ⟨pre, [] ++ '\n' :: t⟩ with
      | none => simpa using hm
      | some q =>
        exfalso
        have := (BLANK_sound (e := q.1) (s := q.2) hm).1
        have hpn : p ≠ [] := by rintro rfl; exact hb (by intro c hc; simp at hc)
        rw [h1 hpn] at this
        rcases this with h | h
        · subst h; have := h1 hpn; simp at this; exact hpn (List.getLast?_eq_none_iff.1 this.symm)
        · exact hw (List.mem_of_getLast? h)
  | p, x :: l', pre, hp, h0, h1 => by
    have ih := BLANK_skips (U := U) hw hr (p := p ++ [x]) (l' := l') (pre := x :: pre) (by simp [← hp]) (by simp) (by simp)
    refine Skips.cons ?_ ih
    cases hm : BLANK_LINE_RE.matchAt U ⟨pre, x :: (l' ++ w ++ t)⟩ with
    | none => rfl
    | some q =>
      exfalso
      obtain ⟨h2, m, hm', ha⟩ := BLANK_sound (e := q.1) (s := q.2) hm
      have hpe : p = [] := by
        rcases Classical.em (p = []) with h | h
        · exact h
        · rw [h1 h] at h2
          rcases h2 with h2 | h2
          · subst h2; have := h1 h; simp at this; exact absurd (List.getLast?_eq_none_iff.1 this.symm) h
          · exact absurd (List.mem_of_getLast? h2) (fun h => hw (by rw [← hp]; simp [h]))
      subst hpe
      simp at hp; subst hp
      have e1 : x :: l' ++ (w ++ t) = m ++ '\n' :: q.1.rest := by simpa using ha.1
      have nl : '\n' ∉ m := by intro hn; have := hm' _ hn; simp at this
      rcases hr with h | ⟨rfl, hb⟩
      · rw [h] at e1
        have : '\n' ∈ x :: l' := by rw [List.append_nil] at e1; rw [e1]; simp
        exact hw this
      · have h2 : Spec.lines (x :: l' ++ (t!"\n" ++ t)) = (x :: l') :: Spec.lines t := lines_cut hw
        rw [e1, lines_cut nl] at h2
        simp at h2
        exact hb (h2.1 ▸ hm')

theorem BLANK_scan {U : Uni} {g : Str → Caps → Str} (hg : ∀ w s, g w s = t!"\n") : ∀ (n : Nat) (text pre : Str),
    text.length < n → (pre = [] ∨ pre.head? = some '\n') →
    Scan U BLANK_LINE_RE g pre text (Spec.clearBlankLines text)
  | 0, _, _, h, _ => by omega
  | n + 1, text, pre, hn, hp => by
    rcases cut_lines text with h | ⟨l, u, h, rfl⟩
    · have e : Spec.clearBlankLines text = text := by rw [Spec.clearBlankLines, lines_noNl h]; rfl
      rw [e]
      have := BLANK_skips (U := U) (l := text) (w := []) (t := []) h (.inl rfl) (p := []) (l' := text) (pre := pre) rfl
        (fun _ => hp) (by simp)
      simpa using Scan.of_skips (g := g) this Scan.nil
    · have e : Spec.clearBlankLines (l ++ '\n' :: u) =
          (if Spec.BlankLine l then [] else l) ++ '\n' :: Spec.clearBlankLines u := by
        rw [Spec.clearBlankLines, lines_cut h, clearLines_cons (lines_ne_nil u)]; rfl
      have hl : u.length < n := by simp at hn; omega
      rw [e]
      by_cases hb : Spec.BlankLine l
      · obtain ⟨s, hm⟩ := BLANK_complete (U := U) (t := u) hp hb
        have ih := BLANK_scan (U := U) hg n u ((l ++ t!"\n").reverse ++ pre) hl (by right; simp)
        have := Scan.hit (g := g) hm (by simp) ih
        rw [hg] at this
        simpa [hb] using this
      · have ih := BLANK_scan (U := U) hg n u ((l ++ t!"\n").reverse ++ pre) hl (by right; simp)
        have hs := BLANK_skips (U := U) (l := l) (w := t!"\n") (t := u) h (.inr ⟨rfl, hb⟩) (p := []) (l' := l) (pre := pre) rfl
          (fun _ => hp) (by simp)
        have := Scan.of_skips (g := g) hs ih
        simpa [hb] using this

theorem BLANK_replace (U : Uni) (text : Str) : BLANK_LINE_RE.replaceTempl U t!"\n" text = Spec.clearBlankLines text :=
  Re.replaceTempl_eq BLANK_nonnull
    (BLANK_scan (fun w s => templ_lit (by decide) w s) (text.length + 1) text [] (by omega) (.inl rfl))

theorem normalize_eq (U : Uni) (text : Str) :
    normalizeNewlines U text = trimP (· == '\n') (Spec.clearBlankLines (Spec.unixNewlines text)) := by
  unfold normalizeNewlines
  simp only [multiReplace, CR_replace, BLANK_replace]

/-! ## Escaping does not interfere -/

/-- A replacement of characters that concerns neither blanks nor line ends. -/
structure Harmless (f : Char → Str) : Prop where
  keep : ∀ c, c = ' ' ∨ c = '\t' ∨ c = '\n' ∨ c = '\r' → f c = [c]
  ne : ∀ c, f c ≠ []
  other : ∀ c, ¬ (c = ' ' ∨ c = '\t' ∨ c = '\n' ∨ c = '\r') → ∀ x ∈ f c, ¬ (x = ' ' ∨ x = '\t' ∨ x = '\n' ∨ x = '\r')

theorem harmless_enc : Harmless (encChar false false) where
  keep := by rintro c (rfl | rfl | rfl | rfl) <;> decide
  ne c := by unfold encChar; (repeat' split) <;> simp
  other c hc x hx := by
    unfold encChar at hx; revert hx
    (repeat' split) <;> intro hx <;> simp only [List.mem_cons, List.mem_singleton, List.not_mem_nil, or_false] at hx <;>
      first
      | (subst hx; exact hc)
      | (simp_all; done)
      | (rcases hx with rfl | rfl | rfl | rfl | rfl | rfl <;> decide)
      | (rcases hx with rfl | rfl | rfl | rfl | rfl <;> decide)
      | (rcases hx with rfl | rfl | rfl | rfl <;> decide)

theorem unixNewlines_append {w t : Str} (h : '\r' ∉ w) :
    Spec.unixNewlines (w ++ t) = w ++ Spec.unixNewlines t := by
  induction w with
  | nil => rfl
  | cons c w ih =>
    simp at h
    rw [List.cons_append, Spec.unixNewlines, ih h.2]
    · rfl
    · intro u e; exact absurd e.symm h.1
    · intro e; exact absurd e.symm h.1

theorem Harmless.mem {f : Char → Str} (hf : Harmless f) {d : Char} (hd : d = ' ' ∨ d = '\t' ∨ d = '\n' ∨ d = '\r')
    {c : Char} : d ∈ f c ↔ c = d := by
  by_cases hc : c = ' ' ∨ c = '\t' ∨ c = '\n' ∨ c = '\r'
  · rw [hf.keep c hc, List.mem_singleton]; exact eq_comm
  · constructor
    · intro h; exact absurd hd (hf.other c hc d h)
    · rintro rfl; exact absurd hd hc

theorem Harmless.head {f : Char → Str} (hf : Harmless f) {d : Char} (hd : d = ' ' ∨ d = '\t' ∨ d = '\n' ∨ d = '\r')
    {t : Str} (h : (t.flatMap f).head? = some d) : t.head? = some d := by
  cases t with
  | nil => simp at h
  | cons c t =>
    rw [List.flatMap_cons] at h
    cases hc : f c with
    | nil => exact absurd hc (hf.ne c)
    | cons x xs =>
      rw [hc] at h; simp at h; subst h
      have : x ∈ f c := by rw [hc]; simp
      rw [hf.mem hd] at this; simp [this]

theorem unixNewlines_flatMap {f : Char → Str} (hf : Harmless f) (t : Str) :
    Spec.unixNewlines (t.flatMap f) = (Spec.unixNewlines t).flatMap f := by
  have hr : f '\r' = ['\r'] := hf.keep _ (by simp)
  have hn : f '\n' = ['\n'] := hf.keep _ (by simp)
  fun_induction Spec.unixNewlines t with
  | case1 t ih => simp only [List.flatMap_cons, hr, hn, ← ih]; rfl
  | case2 t h ih =>
    simp only [List.flatMap_cons, hr, hn, ← ih, List.cons_append, List.nil_append]
    rw [Spec.unixNewlines]
    intro u e
    have := hf.head (d := '\n') (by simp) (t := t) (by rw [e]; rfl)
    cases t with
    | nil => simp at this
    | cons x xs => simp at this; exact h xs (by rw [this])
  | case3 c t h1 h2 ih =>
    rw [List.flatMap_cons, List.flatMap_cons, unixNewlines_append, ih]
    intro h; rw [hf.mem (by simp)] at h; exact h2 h
  | case4 => rfl

theorem lines_append {w t : Str} (h : '\n' ∉ w) : ∃ l ls, Spec.lines t = l :: ls ∧ Spec.lines (w ++ t) = (w ++ l) :: ls := by
  induction w with
  | nil =>
    cases ht : Spec.lines t with
    | nil => exact absurd ht (lines_ne_nil t)
    | cons l ls => exact ⟨l, ls, rfl, ht⟩
  | cons c w ih =>
    simp at h
    obtain ⟨l, ls, h1, h2⟩ := ih h.2
    refine ⟨l, ls, h1, ?_⟩
    rw [List.cons_append, Spec.lines, if_neg (fun e => h.1 e.symm), h2]; rfl

theorem lines_flatMap {f : Char → Str} (hf : Harmless f) : ∀ t : Str,
    Spec.lines (t.flatMap f) = (Spec.lines t).map (·.flatMap f)
  | [] => rfl
  | c :: t => by
    have ih := lines_flatMap hf t
    rw [List.flatMap_cons]
    by_cases hc : c = '\n'
    · subst hc
      rw [hf.keep _ (by simp), Spec.lines, if_pos rfl]
      change Spec.lines ('\n' :: t.flatMap f) = _
      rw [Spec.lines, if_pos rfl, ih]; rfl
    · have : '\n' ∉ f c := by rw [hf.mem (by simp)]; exact hc
      obtain ⟨l, ls, h1, h2⟩ := lines_append (t := t.flatMap f) this
      rw [h2, Spec.lines, if_neg hc]
      cases ht : Spec.lines t with
      | nil => exact absurd ht (lines_ne_nil t)
      | cons m ms =>
        rw [ih, ht] at h1
        simp at h1
        simp [h1]

theorem blankLine_flatMap {f : Char → Str} (hf : Harmless f) (l : Str) :
    Spec.BlankLine (l.flatMap f) ↔ Spec.BlankLine l := by
  constructor
  · intro h c hc
    cases hfc : f c with
    | nil => exact absurd hfc (hf.ne c)
    | cons x xs =>
      have hx : x ∈ f c := by rw [hfc]; simp
      have := h x (List.mem_flatMap.2 ⟨c, hc, hx⟩)
      rcases this with rfl | rfl
      · rw [hf.mem (by simp)] at hx; exact .inl hx
      · rw [hf.mem (by simp)] at hx; exact .inr hx
  · intro h x hx
    obtain ⟨c, hc, hx⟩ := List.mem_flatMap.1 hx
    have hcb := h c hc
    rw [hf.keep c (by rcases hcb with h | h <;> simp [h])] at hx
    simp at hx; subst hx; exact hcb

theorem clearLines_flatMap {f : Char → Str} (hf : Harmless f) : ∀ ls : List Str,
    Spec.clearLines (ls.map (·.flatMap f)) = (Spec.clearLines ls).flatMap f
  | [] => rfl
  | [l] => rfl
  | l :: m :: ls => by
    have ih := clearLines_flatMap hf (m :: ls)
    simp only [List.map_cons] at ih ⊢
    rw [Spec.clearLines, ih, Spec.clearLines, List.flatMap_append, List.flatMap_cons, hf.keep '\n' (by simp)]
    by_cases h : Spec.BlankLine l
    · simp [h, (blankLine_flatMap hf l).2 h]
    · simp [h, mt (blankLine_flatMap hf l).1 h]

theorem clearBlankLines_flatMap {f : Char → Str} (hf : Harmless f) (t : Str) :
    Spec.clearBlankLines (t.flatMap f) = (Spec.clearBlankLines t).flatMap f := by
  unfold Spec.clearBlankLines
  rw [lines_flatMap hf, clearLines_flatMap hf]

theorem clearBlankLines_cut {l t : Str} (h : '\n' ∉ l) : Spec.clearBlankLines (l ++ '\n' :: t) =
    (if Spec.BlankLine l then [] else l) ++ '\n' :: Spec.clearBlankLines t := by
  rw [Spec.clearBlankLines, lines_cut h, clearLines_cons (lines_ne_nil t)]; rfl

theorem clearBlankLines_noNl {l : Str} (h : '\n' ∉ l) : Spec.clearBlankLines l = l := by
  rw [Spec.clearBlankLines, lines_noNl h]; rfl

theorem clearBlankLines_idem : ∀ (n : Nat) (t : Str), t.length < n →
    Spec.clearBlankLines (Spec.clearBlankLines t) = Spec.clearBlankLines t
  | 0, _, h => by omega
  | n + 1, t, hn => by
    rcases cut_lines t with h | ⟨l, u, h, rfl⟩
    · rw [clearBlankLines_noNl h, clearBlankLines_noNl h]
    · rw [clearBlankLines_cut h]
      have ih := clearBlankLines_idem n u (by simp at hn; omega)
      split
      · rw [clearBlankLines_cut (by simp), ih]; simp
      · rename_i hb
        rw [clearBlankLines_cut h, ih, if_neg hb]

theorem replicate_no_cr {n : Nat} : '\r' ∉ List.replicate n '\n' := by simp

theorem clearBlankLines_nls (n : Nat) (t : Str) :
    Spec.clearBlankLines (List.replicate n '\n' ++ t) = List.replicate n '\n' ++ Spec.clearBlankLines t := by
  induction n with
  | zero => rfl
  | succ n ih =>
    rw [List.replicate_succ, List.cons_append]
    have := clearBlankLines_cut (l := []) (t := List.replicate n '\n' ++ t) (by simp)
    simp at this
    rw [this, ih]; rfl

theorem lastLine_cut {l t : Str} (h : '\n' ∉ l) : Spec.lastLine (l ++ '\n' :: t) = Spec.lastLine t := by
  unfold Spec.lastLine
  rw [lines_cut h]
  cases ht : Spec.lines t with
  | nil => exact absurd ht (lines_ne_nil t)
  | cons m ms => simp

theorem clearBlankLines_end (k : Nat) : ∀ (n : Nat) (t : Str), t.length < n →
    (Spec.BlankLine (Spec.lastLine t) → Spec.lastLine t = []) →
    Spec.clearBlankLines (t ++ List.replicate k '\n') = Spec.clearBlankLines t ++ List.replicate k '\n'
  | 0, _, h, _ => by omega
  | n + 1, t, hn, hl => by
    cases k with
    | zero => simp
    | succ k =>
      rcases cut_lines t with h | ⟨l, u, h, rfl⟩
      · have hlast : Spec.lastLine t = t := by unfold Spec.lastLine; rw [lines_noNl h]; rfl
        rw [hlast] at hl
        have hnls : Spec.clearBlankLines (List.replicate k '\n') = List.replicate k '\n' := by
          have := clearBlankLines_nls k []
          simpa [Spec.clearBlankLines, Spec.lines, Spec.clearLines] using this
        rw [List.replicate_succ, clearBlankLines_cut h, clearBlankLines_noNl h, hnls]
        split
        · rename_i hb; rw [hl hb]
        · rfl
      · rw [lastLine_cut h] at hl
        have ih := clearBlankLines_end (k + 1) n u (by simp at hn; omega) hl
        rw [List.append_assoc, List.cons_append, clearBlankLines_cut h, ih, clearBlankLines_cut h]
        simp

theorem unixNewlines_end (k : Nat) (t : Str) : ∃ k',
    Spec.unixNewlines (t ++ List.replicate k '\n') = Spec.unixNewlines t ++ List.replicate k' '\n' := by
  have id : ∀ k, Spec.unixNewlines (List.replicate k '\n') = List.replicate k '\n' :=
    fun k => unixNewlines_id replicate_no_cr
  fun_induction Spec.unixNewlines t with
  | case1 t ih =>
    obtain ⟨k', h⟩ := ih
    exact ⟨k', by simp [Spec.unixNewlines, h]⟩
  | case2 t hno ih =>
    obtain ⟨k', h⟩ := ih
    cases t with
    | nil =>
      cases k with
      | zero => exact ⟨0, by simp [Spec.unixNewlines]⟩
      | succ k =>
        refine ⟨k, ?_⟩
        simp only [List.cons_append, List.nil_append, List.replicate_succ, Spec.unixNewlines, id]
    | cons x xs =>
      refine ⟨k', ?_⟩
      rw [List.cons_append, Spec.unixNewlines, h]
      · rfl
      · intro u e; simp at e; exact hno xs (by rw [e.1])
  | case3 c t h1 h2 ih =>
    obtain ⟨k', h⟩ := ih
    refine ⟨k', ?_⟩
    rw [List.cons_append, Spec.unixNewlines, h]
    · rfl
    · intro u e; exact absurd e h2
    · exact h2
  | case4 => exact ⟨k, by rw [List.nil_append, id]⟩

theorem trimP_nls (n k : Nat) (t : Str) :
    trimP (· == '\n') (List.replicate n '\n' ++ (t ++ List.replicate k '\n')) = trimP (· == '\n') t := by
  have hall : ∀ m, ∀ c ∈ List.replicate m '\n', (c == '\n') = true := by
    intro m c hc; simp at hc; simp [hc.2]
  unfold trimP trimStartP
  rw [dropWhile_append_of_all (hall n)]
  by_cases h : ∀ c ∈ t, (c == '\n') = true
  · rw [dropWhile_eq_nil.2 h, dropWhile_eq_nil.2]
    intro c hc
    rcases List.mem_append.1 hc with hc | hc
    · exact h c hc
    · exact hall k c hc
  · have : ∀ t : Str, (¬ ∀ c ∈ t, (c == '\n') = true) →
        (t ++ List.replicate k '\n').dropWhile (· == '\n') = t.dropWhile (· == '\n') ++ List.replicate k '\n' := by
      intro t
      induction t with
      | nil => intro h; exact absurd (by simp) h
      | cons c t ih =>
        intro h
        by_cases hc : (c == '\n') = true
        · simp only [List.cons_append, List.dropWhile_cons, hc, if_true]
          exact ih (fun hh => h (List.forall_mem_cons.2 ⟨hc, hh⟩))
        · simp only [List.cons_append, List.dropWhile_cons, hc]; simp
    rw [this t h, trimEndP_append_of_all (hall k)]

/-! ## The theorems -/

theorem parse_of_prepare {E : Env} {fuel : Nat} {t : Textile} {a b : Str} (ha : ¬ Spec.Blank a) (hb : ¬ Spec.Blank b)
    (h : prepare ⟨E, t.cfg, fuel⟩ a = prepare ⟨E, t.cfg, fuel⟩ b) : t.parse E fuel a = t.parse E fuel b := by
  rw [parse_nonblank ha, parse_nonblank hb, h]

theorem unix_blank (t : Str) : Spec.Blank (Spec.unixNewlines t) ↔ Spec.Blank t := by
  have c1 : '\r'.toNat ∈ Spec.whiteSpace := by decide
  have c2 : '\n'.toNat ∈ Spec.whiteSpace := by decide
  fun_induction Spec.unixNewlines t with
  | case1 t ih => simp only [Spec.Blank, List.forall_mem_cons] at ih ⊢; exact ⟨fun h => ⟨c1, c2, ih.1 h.2⟩, fun h => ⟨c2, ih.2 h.2.2⟩⟩
  | case2 t _ ih => simp only [Spec.Blank, List.forall_mem_cons] at ih ⊢; exact ⟨fun h => ⟨c1, ih.1 h.2⟩, fun h => ⟨c2, ih.2 h.2⟩⟩
  | case3 c t _ _ ih => simp only [Spec.Blank, List.forall_mem_cons] at ih ⊢; exact ⟨fun h => ⟨h.1, ih.1 h.2⟩, fun h => ⟨h.1, ih.2 h.2⟩⟩
  | case4 => rfl

/-- **C06.** Line ending conventions do not matter: a text and the same text with every
CRLF and every lone CR replaced by LF have the same result (and leave the same value). -/
theorem C06_line_endings (E : Env) (fuel : Nat) (t : Textile) (text : Str) (hb : ¬ Spec.Blank text) :
    t.parse E fuel (Spec.unixNewlines text) = t.parse E fuel text := by
  refine parse_of_prepare (mt (unix_blank text).1 hb) hb ?_
  unfold prepare
  simp only [normalize_eq]
  split
  · unfold encodeHtml
    rw [unixNewlines_flatMap harmless_enc, unixNewlines_flatMap harmless_enc, unixNewlines_id (unixNewlines_no_cr text)]
  · rw [unixNewlines_id (unixNewlines_no_cr text)]

example : parseFresh demoEnv 100 demoCfg t!"h1. a\r\n\r\nb\rc" = .ok t!"<h1>a</h1>\n\n<p>b<br>\nc</p>" := by
  decide +kernel

theorem flatMap_nls (k : Nat) : (List.replicate k '\n').flatMap (encChar false false) = List.replicate k '\n' := by
  induction k with
  | zero => rfl
  | succ k ih => rw [List.replicate_succ, List.flatMap_cons, ih]; rfl

/-- **C07, before the text.** Newlines added before the text do not matter. -/
theorem C07_leading (E : Env) (fuel : Nat) (t : Textile) (text : Str) (n : Nat) (hb : ¬ Spec.Blank text) :
    t.parse E fuel (List.replicate n '\n' ++ text) = t.parse E fuel text := by
  refine parse_of_prepare ?_ hb ?_
  · intro h; exact hb (fun c hc => h c (by simp [hc]))
  have key : ∀ s : Str, normalizeNewlines E.U (List.replicate n '\n' ++ s) = normalizeNewlines E.U s := by
    intro s
    rw [normalize_eq, normalize_eq, unixNewlines_append replicate_no_cr, clearBlankLines_nls]
    have := trimP_nls n 0 (Spec.clearBlankLines (Spec.unixNewlines s))
    simpa using this
  unfold prepare
  simp only
  change replaceStr _ _ (normalizeNewlines E.U _) = replaceStr _ _ (normalizeNewlines E.U _)
  congr 1
  split
  · unfold encodeHtml
    rw [List.flatMap_append, flatMap_nls]
    exact key _
  · exact key _

example : parseFresh demoEnv 100 demoCfg t!"\n\n# a\n " = .ok t!"<ol>\n\t<li>a</li>\n</ol>" := by decide +kernel

/-- **C07** (unless the last line consists of blanks only).  Newlines added before or
after the text do not matter.  Missing: texts whose last line is not empty but consists
of spaces and tabs; for them the statement does not hold (`C07_negation`). -/
theorem C07_outer_newlines_partial (E : Env) (fuel : Nat) (t : Textile) (text : Str) (n m : Nat) (hb : ¬ Spec.Blank text)
    (hl : Spec.BlankLine (Spec.lastLine (Spec.unixNewlines text)) → Spec.lastLine (Spec.unixNewlines text) = []) :
    t.parse E fuel (List.replicate n '\n' ++ text ++ List.replicate m '\n') = t.parse E fuel text := by
  refine parse_of_prepare ?_ hb ?_
  · intro h; exact hb (fun c hc => h c (by simp [hc]))
  have key : ∀ s : Str, (Spec.BlankLine (Spec.lastLine (Spec.unixNewlines s)) → Spec.lastLine (Spec.unixNewlines s) = []) →
      normalizeNewlines E.U (List.replicate n '\n' ++ s ++ List.replicate m '\n') = normalizeNewlines E.U s := by
    intro s hs
    rw [normalize_eq, normalize_eq, List.append_assoc, unixNewlines_append replicate_no_cr]
    obtain ⟨k, hk⟩ := unixNewlines_end m s
    rw [hk, clearBlankLines_nls, clearBlankLines_end k _ _ (Nat.lt_succ_self _) hs, trimP_nls]
  unfold prepare
  simp only
  change replaceStr _ _ (normalizeNewlines E.U _) = replaceStr _ _ (normalizeNewlines E.U _)
  congr 1
  split
  · unfold encodeHtml
    rw [List.flatMap_append, List.flatMap_append, flatMap_nls, flatMap_nls]
    refine key _ ?_
    have e : Spec.lastLine (Spec.unixNewlines (text.flatMap (encChar false false))) =
        (Spec.lastLine (Spec.unixNewlines text)).flatMap (encChar false false) := by
      unfold Spec.lastLine
      rw [unixNewlines_flatMap harmless_enc, lines_flatMap harmless_enc]
      cases h : Spec.lines (Spec.unixNewlines text) with
      | nil => rfl
      | cons a l =>
        rw [List.map_cons, List.getLastD_cons, List.getLastD_cons]
        clear h
        induction l generalizing a with
        | nil => rfl
        | cons b l ih => rw [List.map_cons, List.getLastD_cons, List.getLastD_cons]; exact ih b
    rw [e, blankLine_flatMap harmless_enc]
    intro h
    rw [hl h]; rfl
  · exact key _ hl

example : ¬ Spec.Blank t!"a\n  b" ∧ ¬ Spec.BlankLine (Spec.lastLine (Spec.unixNewlines t!"a\n  b")) := by decide

/-- **C07, negation.** A newline added after a last line made of blanks changes the result. -/
theorem C07_negation :
    parseFresh demoEnv 100 demoCfg t!"a\n " = .ok t!"<p>a\n </p>" ∧
    parseFresh demoEnv 100 demoCfg (t!"a\n " ++ t!"\n") = .ok t!"<p>a</p>" := by decide +kernel

theorem clear_blank : ∀ (n : Nat) (t : Str), t.length < n → Spec.Blank (Spec.clearBlankLines t) → Spec.Blank t
  | 0, _, h, _ => by omega
  | n + 1, t, hn, hb => by
    rcases cut_lines t with h | ⟨l, u, h, rfl⟩
    · rwa [clearBlankLines_noNl h] at hb
    · rw [clearBlankLines_cut h] at hb
      have ih := clear_blank n u (by simp at hn; omega) (fun c hc => hb c (by simp [hc]))
      intro c hc
      simp only [List.mem_append, List.mem_cons] at hc
      rcases hc with hc | rfl | hc
      · by_cases hl : Spec.BlankLine l
        · rcases hl c hc with rfl | rfl <;> decide
        · exact hb c (by simp [hl, hc])
      · decide
      · exact ih c hc

/-- **C08** (for lines terminated by a newline).  Spaces and tabs on lines that contain
nothing else do not matter.  The text is taken with LF line ends (by `C06_line_endings`
this is no restriction).  Missing: a last line without newline, for which the statement
does not hold (`C07_negation`). -/
theorem C08_blank_lines_partial (E : Env) (fuel : Nat) (t : Textile) (text : Str) (hb : ¬ Spec.Blank text)
    (hr : '\r' ∉ text) : t.parse E fuel (Spec.clearBlankLines text) = t.parse E fuel text := by
  have hr' : ∀ (n : Nat) (t : Str), t.length < n → '\r' ∉ t → '\r' ∉ Spec.clearBlankLines t := by
    intro n
    induction n with
    | zero => intro t h; omega
    | succ n ih =>
      intro t hn hr
      rcases cut_lines t with h | ⟨l, u, h, rfl⟩
      · rwa [clearBlankLines_noNl h]
      · simp at hr
        have := ih u (by simp at hn; omega) hr.2
        rw [clearBlankLines_cut h]
        split <;> simp [this, hr.1]
  refine parse_of_prepare (mt (clear_blank _ _ (Nat.lt_succ_self _)) hb) hb ?_
  unfold prepare
  simp only [normalize_eq]
  split
  · unfold encodeHtml
    rw [unixNewlines_flatMap harmless_enc, unixNewlines_flatMap harmless_enc, unixNewlines_id hr,
      unixNewlines_id (hr' _ _ (Nat.lt_succ_self _) hr), clearBlankLines_flatMap harmless_enc,
      clearBlankLines_flatMap harmless_enc, clearBlankLines_idem _ _ (Nat.lt_succ_self _)]
  · rw [unixNewlines_id hr, unixNewlines_id (hr' _ _ (Nat.lt_succ_self _) hr),
      clearBlankLines_idem _ _ (Nat.lt_succ_self _)]

example : Spec.clearBlankLines t!"a\n \t \nb c\n " = t!"a\n\nb c\n " ∧
    parseFresh demoEnv 100 demoCfg t!"a\n \t \nb c" = .ok t!"<p>a</p>\n\n<p>b c</p>" := by decide +kernel

end Rustextile
