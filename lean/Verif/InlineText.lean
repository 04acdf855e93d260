import Verif.Grow

/-!
# Texts with inline markup

What `graf` finds and does not find in texts made of ordinary text and marked parts,
before and after the marked parts have been put between placeholders.
-/

namespace Rustextile

open Prog

/-! ## Texts in which no glyph is found -/

/-- What the glyph patterns look for in ordinary text. -/
def Bad (U : Uni) (w : Str) : Prop :=
  (∃ x y z, w = [x, y, z] ∧ U.isLu x = true ∧ U.isLu y = true ∧ U.isLu z = true) ∨ w = t!"..." ∨
    ∃ d x, Spec.isDecimal d = true ∧ (x = 'x' ∨ x = 'X') ∧ (w = [d, x] ∨ w = [d, ' ', x])

def Good (U : Uni) (t : Str) : Prop := ∀ w, w <:+: t → ¬ Bad U w

/-- Characters that stand in none of the glyphs. -/
def Neutral (U : Uni) (c : Char) : Prop := U.isLu c = false ∧ c ∉ t!". xX" ∧ Spec.isDecimal c = false

theorem Bad.not_neutral {U : Uni} {w : Str} (h : Bad U w) {c : Char} (hc : c ∈ w) : ¬ Neutral U c := by
  rintro ⟨h1, h2, h3⟩
  simp only [List.mem_cons, List.not_mem_nil, or_false, not_or] at h2
  rcases h with ⟨x, y, z, rfl, hx, hy, hz⟩ | rfl | ⟨d, x, hd, hx, rfl | rfl⟩
  · simp at hc
    rcases hc with rfl | rfl | rfl <;> simp_all
  · simp at hc; exact h2.1 hc
  · simp at hc
    rcases hc with rfl | rfl
    · simp_all
    · rcases hx with rfl | rfl <;> simp at h2
  · simp at hc
    rcases hc with rfl | rfl | rfl
    · simp_all
    · simp at h2
    · rcases hx with rfl | rfl <;> simp at h2

theorem infix_sep {c : Char} {w a b : Str} (hc : c ∉ w) (h : w <:+: a ++ c :: b) : w <:+: a ∨ w <:+: b := by
  obtain ⟨x, y, e⟩ := h
  rw [List.append_assoc, List.append_eq_append_iff] at e
  rcases e with ⟨u, h1, h2⟩ | ⟨u, h1, h2⟩
  · -- w starts inside `a`
    rw [List.append_eq_append_iff] at h2
    rcases h2 with ⟨v, h3, h4⟩ | ⟨v, h3, h4⟩
    · left; exact ⟨x, v, by rw [h1, h3]; simp⟩
    · cases v with
      | nil => left; exact ⟨x, [], by rw [h1, h3]; simp⟩
      | cons d v =>
        simp at h4
        exact absurd (by rw [h3, h4.1]; simp) hc
  · cases u with
    | nil =>
      cases w with
      | nil => left; exact ⟨[], a, by simp⟩
      | cons d w => simp at h2; exact absurd (by rw [h2.1]; simp) hc
    | cons d u =>
      simp at h2
      right; exact ⟨u, y, by rw [h2.2]; simp⟩

theorem Good.sep {U : Uni} {a b : Str} {c : Char} (ha : Good U a) (hc : Neutral U c) (hb : Good U b) : Good U (a ++ c :: b) := by
  intro w hw hbad
  rcases infix_sep (fun h => hbad.not_neutral h hc) hw with h | h
  · exact ha w h hbad
  · exact hb w h hbad

theorem Good.cons {U : Uni} {b : Str} {c : Char} (hc : Neutral U c) (hb : Good U b) : Good U (c :: b) :=
  Good.sep (a := []) (by
    intro w hw hbad
    have : w = [] := by simpa using hw
    subst this
    rcases hbad with ⟨x, y, z, e, -⟩ | e | ⟨d, x, -, -, e | e⟩ <;> cases e) hc hb

theorem Good.of_infix {U : Uni} {a b : Str} (h : Good U b) (hab : a <:+: b) : Good U a := fun w hw => h w (hw.trans hab)

theorem Bad.ends {U : Uni} {w : Str} (hU : U.isLu ' ' = false) (h : Bad U w) :
    (∀ w', w ≠ ' ' :: w') ∧ ∀ w', w ≠ w' ++ [' '] := by
  rcases h with ⟨x, y, z, rfl, hx, hy, hz⟩ | rfl | ⟨d, x, hd, hx, rfl | rfl⟩
  · refine ⟨?_, ?_⟩
    · intro w' e; simp at e; rw [e.1] at hx; rw [hx] at hU; cases hU
    · intro w' e
      have := congrArg List.getLast? e
      simp at this; rw [this] at hz; rw [hz] at hU; cases hU
  · refine ⟨?_, ?_⟩
    · intro w' e; simp at e
    · intro w' e
      have := congrArg List.getLast? e
      simp at this
  · refine ⟨?_, ?_⟩
    · intro w' e; simp at e; rw [e.1] at hd; revert hd; decide
    · intro w' e
      have := congrArg List.getLast? e
      simp at this; rw [this] at hx; revert hx; decide
  · refine ⟨?_, ?_⟩
    · intro w' e; simp at e; rw [e.1] at hd; revert hd; decide
    · intro w' e
      have := congrArg List.getLast? e
      simp at this; rw [this] at hx; revert hx; decide

theorem Bad.ne {U : Uni} {w : Str} (h : Bad U w) : w ≠ [] := by
  rintro rfl
  rcases h with ⟨x, y, z, e, -⟩ | e | ⟨d, x, -, -, e | e⟩ <;> cases e

/-- Spaces at the ends do no harm. -/
theorem Good.spaced {U : Uni} (hU : U.isLu ' ' = false) {t : Str} (h : Good U t) : Good U (' ' :: t) ∧ Good U (t ++ [' ']) := by
  refine ⟨?_, ?_⟩
  · intro w hw hbad
    rw [List.infix_cons_iff] at hw
    rcases hw with hw | hw
    · cases w with
      | nil => exact hbad.ne rfl
      | cons c w =>
        rw [List.cons_prefix_cons] at hw
        exact (hbad.ends hU).1 w (by rw [hw.1])
    · exact h w hw hbad
  · intro w hw hbad
    obtain ⟨a, b, e⟩ := hw
    rcases List.eq_nil_or_concat b with rfl | ⟨b', c, hb⟩
    · rcases List.eq_nil_or_concat w with rfl | ⟨w', c, hw⟩
      · exact hbad.ne rfl
      · rw [List.concat_eq_append] at hw
        subst hw
        have := congrArg List.getLast? e
        simp at this
        exact (hbad.ends hU).2 w' (by rw [this])
    · rw [List.concat_eq_append] at hb
      subst hb
      have h1 := congrArg List.dropLast e
      have h2 : (a ++ w ++ (b' ++ [c])).dropLast = a ++ w ++ b' := by
        rw [← List.append_assoc, List.dropLast_concat]
      rw [h2, List.dropLast_concat] at h1
      exact h w ⟨a, b', h1⟩ hbad

theorem good_of {U : Uni} {t : Str} (h : ∀ c ∈ t, U.isLu c = false ∧ c ∉ t!".xX") : Good U t := by
  intro w hw hbad
  obtain ⟨a, b, e⟩ := hw
  have hm : ∀ c ∈ w, U.isLu c = false ∧ c ∉ t!".xX" := fun c hc => h c (by rw [← e]; simp [hc])
  rcases hbad with ⟨x, y, z, rfl, hx, hy, hz⟩ | rfl | ⟨d, x, hd, hx, rfl | rfl⟩
  · have := (hm x (by simp)).1; rw [hx] at this; cases this
  · exact (hm '.' (by simp)).2 (by simp)
  · have := (hm x (by simp)).2; rcases hx with rfl | rfl <;> simp at this
  · have := (hm x (by simp)).2; rcases hx with rfl | rfl <;> simp at this

theorem Good.one {U : Uni} (c : Char) : Good U [c] := by
  intro w hw hbad
  have hl := hw.length_le
  have e : w.length = 1 := by
    have := List.length_pos_iff.2 hbad.ne
    simp at hl; omega
  rcases hbad with ⟨x, y, z, rfl, -⟩ | rfl | ⟨d, x, -, -, rfl | rfl⟩ <;> simp at e

/-- From the conditions on texts. -/
theorem good_iff {U : Uni} {t : Str} : Good U t ↔
    (∀ a x y z b, t = a ++ x :: y :: z :: b → ¬ (U.isLu x = true ∧ U.isLu y = true ∧ U.isLu z = true)) ∧
    (∀ a b, t ≠ a ++ '.' :: '.' :: '.' :: b) ∧
    (∀ a d x b, Spec.isDecimal d = true → x = 'x' ∨ x = 'X' →
      t ≠ a ++ d :: x :: b ∧ t ≠ a ++ d :: ' ' :: x :: b) := by
  refine ⟨fun h => ⟨?_, ?_, ?_⟩, ?_⟩
  · intro a x y z b e hh
    exact h [x, y, z] ⟨a, b, by rw [e]; simp⟩ (.inl ⟨x, y, z, rfl, hh⟩)
  · intro a b e
    exact h t!"..." ⟨a, b, by rw [e]; simp⟩ (.inr (.inl rfl))
  · intro a d x b hd hx
    refine ⟨fun e => ?_, fun e => ?_⟩
    · exact h [d, x] ⟨a, b, by rw [e]; simp⟩ (.inr (.inr ⟨d, x, hd, hx, .inl rfl⟩))
    · exact h [d, ' ', x] ⟨a, b, by rw [e]; simp⟩ (.inr (.inr ⟨d, x, hd, hx, .inr rfl⟩))
  · rintro ⟨h1, h2, h3⟩ w ⟨a, b, e⟩ hbad
    rcases hbad with ⟨x, y, z, rfl, hh⟩ | rfl | ⟨d, x, hd, hx, rfl | rfl⟩
    · exact h1 a x y z b (by rw [← e]; simp) hh
    · exact h2 a b (by rw [← e]; simp)
    · exact (h3 a d x b hd hx).1 (by rw [← e]; simp)
    · exact (h3 a d x b hd hx).2 (by rw [← e]; simp)

/-! ## Alphabets -/

/-- Ordinary text with markers, and placeholders for texts set aside. -/
def rawA : Alpha := ⟨asciiAlnum ++ t!" ,./$\n*?-_%+~^:", true⟩

/-- Ordinary text with placeholders. -/
def mixA : Alpha := ⟨asciiAlnum ++ t!" ,./$\n:", true⟩

theorem rawA_wf : rawA.wf = true := by decide
theorem mixA_wf : mixA.wf = true := by decide

theorem raw_early : earlyPatterns.all (·.need rawA) = true := by decide +kernel
theorem raw_need : [TABLE_RE, RCLIST_RE, NOTEDEF_RE, DIVIDER_RE].all (·.need rawA) = true := by decide +kernel
theorem mix_need : [FOOTNOTE_RE, NOTEREF_RE, UNWRAPPABLE_RE, DIVIDER_RE, WRAPPED_RE, BR_NL_RE].all (·.need mixA) = true := by
  decide +kernel
theorem mix_glyph : glyphPatterns.all (fun r =>
    r.need mixA || r == DYN_3PLUS_RE || r == GL_DIM_RE || r == GL_ELLIPSIS_RE) = true := by decide +kernel

theorem Alpha.not_mem {A : Alpha} {c : Char} (h : c ∉ A.ascii) (h' : c.toNat < 128) : ¬ A.Mem c := by
  rintro (h1 | ⟨-, h1, -⟩)
  · exact h h1
  · omega

theorem Alpha.mono {A B : Alpha} (h : ∀ c ∈ A.ascii, c ∈ B.ascii) (h' : B.other = true) {c : Char} (hc : A.Mem c) : B.Mem c := by
  rcases hc with hc | ⟨-, h2⟩
  · exact .inl (h c hc)
  · exact .inr ⟨h', h2⟩

theorem linesA_raw {c : Char} (h : linesA.Mem c) : rawA.Mem c := Alpha.mono (by decide) rfl h
theorem linesA_mix {c : Char} (h : linesA.Mem c) : mixA.Mem c := Alpha.mono (by decide) rfl h

theorem mixA_raw {c : Char} (h : mixA.Mem c) : rawA.Mem c := Alpha.mono (by decide) rfl h

theorem mixA_safe {c : Char} (h : mixA.Mem c) : Safe c := by
  intro hc
  refine Alpha.not_mem (A := mixA) ?_ ?_ h
  · have : ∀ c ∈ t!"{[*?-_%+~^", c ∉ mixA.ascii := by decide
    exact this c hc
  · have : ∀ c ∈ t!"{[*?-_%+~^", c.toNat < 128 := by decide
    exact this c hc

theorem linesA_safe {c : Char} (h : linesA.Mem c) : Safe c := by
  intro hc
  refine Alpha.not_mem (A := linesA) ?_ ?_ h
  · have : ∀ c ∈ t!"{[*?-_%+~^", c ∉ linesA.ascii := by decide
    exact this c hc
  · have : ∀ c ∈ t!"{[*?-_%+~^", c.toNat < 128 := by decide
    exact this c hc

/-! ## Lists -/

/-- Markers of lists that can stand in the texts. -/
def isBullet (c : Char) : Bool := c == '*' || c == ':'

/-- A text that does not start with markers of lists and a space or full stop. -/
def bulletOk (b : Str) : Bool :=
  !(b.head?.any isBullet) || !((b.dropWhile isBullet).head? == some ' ' || (b.dropWhile isBullet).head? == some '.')

/-- No line starts a list; `start` says whether a line starts here. -/
def noList (start : Bool) : Str → Bool
  | [] => true
  | c :: t => (!start || bulletOk (c :: t)) && noList (c == '\n') t

theorem noList_at : ∀ {a : Str} {start : Bool} {b : Str}, noList start (a ++ b) = true → b ≠ [] →
    (a = [] → start = true) → (∀ c, a.getLast? = some c → c = '\n') → bulletOk b = true
  | [], start, b, h, hb, hs, _ => by
    cases b with
    | nil => exact absurd rfl hb
    | cons c b =>
      simp only [List.nil_append, noList, Bool.and_eq_true, hs rfl] at h
      simpa using h.1
  | x :: a, start, b, h, hb, hs, hl => by
    simp only [List.cons_append, noList, Bool.and_eq_true] at h
    refine noList_at h.2 hb ?_ ?_
    · rintro rfl
      have := hl x (by simp)
      simp [this]
    · intro c hc
      refine hl c ?_
      cases a with
      | nil => simp at hc
      | cons y a => simpa using hc

def listShape : Re :=
  .seq .bol (.seq (.grp 1 (.seq (.alt (.seq (.set false [.chr '*', .chr ';', .chr ':'])
    (.star true (.set false [.chr '*', .chr ';', .chr ':']))) (.seq (.star true (.set false [.chr '*', .chr ';', .chr ':', .chr '#']))
    (.seq (.set false [.chr '#']) (.alt (.alt (.set false [.chr '_']) (.seq (.set false [.cls .digit])
    (.star true (.set false [.cls .digit])))) .eps)))) (.seq spanCls (.seq (.set false [.chr ' ', .chr '.'])
    (.star true (.set true [])))))) (.seq .eol (.look true (.set true [.chr '#', .chr '*', .chr ';', .chr ':']))))

theorem LISTS_shape : LISTS_RE = listShape := by kernel_rfl

theorem spanCls_still : spanCls.still rawA = true := by decide +kernel

theorem lists_none {U : Uni} (hU : UniOk U) {t : Str} (hA : rawA.Over t) (h : noList true t = true) :
    LISTS_RE.search U [] t = none := by
  rw [LISTS_shape]
  apply Re.search_none_of
  intro a b e
  cases hl : listShape.all U ⟨a.reverse ++ [], b⟩ [] with
  | nil => rfl
  | cons p l =>
    exfalso
    have hp : p ∈ listShape.all U ⟨a.reverse ++ [], b⟩ [] := by rw [hl]; simp
    obtain ⟨w, hw, lw⟩ := Re.all_lang _ _ _ p hp
    obtain ⟨_, _, rfl, hbol, _, v, rfl, ⟨st, _, rfl, hst, cl, _, rfl, hcl, sp, rst, rfl, hsp, -⟩, -⟩ := lw
    obtain ⟨c1, s1, h1, -⟩ := mem_seq.1 hp
    have hb : ∀ c, a.getLast? = some c → c = '\n' := by
      intro c hc
      have e' : a = a.dropLast ++ [c] := by
        rcases List.eq_nil_or_concat a with rfl | ⟨u, d, h⟩
        · simp at hc
        · rw [List.concat_eq_append] at h; subst h; simp at hc; simp [hc]
      rw [e'] at h1
      simp [Re.all] at h1
      exact h1.1
    have hb2 : b = st ++ (cl ++ (sp ++ (rst ++ (v ++ p.1.rest)))) := by
      have := hw.1
      rw [show _ = ([] : Str) from hbol] at this
      simpa using this
    have hA' := hA
    rw [e, hb2] at hA'
    simp only [Alpha.Over.append] at hA'
    have hcl' : cl = [] := Re.still_lang hU rawA_wf spanCls_still hcl hA'.2.2.1
    obtain ⟨c, rfl, hc⟩ := hsp
    have hc' : c = ' ' ∨ c = '.' := by simpa [evalSet, Item.eval_chr] using hc
    rcases hst with ⟨_, xs, rfl, ⟨x, rfl, hx⟩, hxs⟩ | ⟨us, _, rfl, -, _, vs, rfl, hd, -⟩
    · have hall : ∀ y ∈ x :: xs, isBullet y = true := by
        intro y hy
        have h2 : evalSet U false [.chr '*', .chr ';', .chr ':'] y = true := by
          rcases List.mem_cons.1 hy with rfl | hy
          · exact hx
          · exact lang_star_set.1 hxs y hy
        have h3 := hA'.2.1 y (by simpa using hy)
        simp [evalSet, Item.eval_chr] at h2
        rcases h2 with h2 | h2 | h2
        · rw [h2]; rfl
        · exact absurd h3 (by rw [h2]; exact Alpha.not_mem (by decide) (by decide))
        · rw [h2]; rfl
      have hbu := noList_at (a := a) (b := b) (by rw [← e]; exact h) (by rw [hb2]; simp) (fun _ => rfl) hb
      have hdw : b.dropWhile isBullet = c :: (rst ++ (v ++ p.1.rest)) := by
        rw [hb2, hcl']
        have : ∀ l : Str, (∀ y ∈ l, isBullet y = true) → (l ++ c :: (rst ++ (v ++ p.1.rest))).dropWhile isBullet = c :: (rst ++ (v ++ p.1.rest)) := by
          intro l hl
          induction l with
          | nil => rw [List.nil_append, List.dropWhile_cons, if_neg]; rcases hc' with rfl | rfl <;> decide
          | cons y l ih =>
            rw [List.cons_append, List.dropWhile_cons, if_pos (by simp [hl y (by simp)]), ih (fun y hy => hl y (by simp [hy]))]
        exact this (x :: xs) hall
      unfold bulletOk at hbu
      rw [hdw] at hbu
      have : b.head?.any isBullet = true := by rw [hb2]; simpa using hall x (by simp)
      rw [this] at hbu
      rcases hc' with rfl | rfl <;> simp at hbu
    · rw [lang_chr] at hd
      subst hd
      exact Alpha.not_mem (A := rawA) (c := '#') (by decide) (by decide) (hA'.2.1 _ (by simp))

theorem bulletOk_of {c : Char} {t : Str} (h : isBullet c = false) : bulletOk (c :: t) = true := by simp [bulletOk, h]

/-- No line starts with a colon; `start` says whether a line starts here. -/
def calm (start : Bool) : Str → Bool
  | [] => true
  | c :: t => (!start || c != ':') && calm (c == '\n') t

/-- Text without asterisks starts no list. -/
theorem noList_text : ∀ {w : Str}, '*' ∉ w → ∀ {start : Bool} {r : Str}, calm start w = true → (∀ b, noList b r = true) →
    noList start (w ++ r) = true
  | [], _, start, r, _, h => h start
  | c :: w, hw, start, r, hc, h => by
    simp at hw
    simp only [calm, Bool.and_eq_true] at hc
    simp only [List.cons_append, noList, Bool.and_eq_true]
    refine ⟨?_, noList_text hw.2 hc.2 h⟩
    cases start with
    | false => rfl
    | true =>
      simp only [Bool.not_true, Bool.false_or, bne_iff_ne, ne_eq] at hc
      rw [bulletOk_of]
      · rfl
      · simp only [isBullet, Bool.or_eq_false_iff, beq_eq_false_iff_ne]
        exact ⟨fun e => hw.1 e.symm, hc.1⟩

theorem calm_nocolon : ∀ {w : Str} {start : Bool}, ':' ∉ w → calm start w = true
  | [], _, _ => rfl
  | c :: w, start, h => by
    simp only [List.mem_cons, not_or] at h
    simp only [calm, Bool.and_eq_true]
    exact ⟨by simp [Ne.symm h.1], calm_nocolon h.2⟩

theorem calm_line : ∀ {w : Str}, '\n' ∉ w → ∀ {r : Str}, calm false r = true → calm false (w ++ r) = true
  | [], _, _, h => h
  | c :: w, hw, r, h => by
    simp at hw
    have hc : (c == '\n') = false := by simp; exact fun e => hw.1 e.symm
    simp only [List.cons_append, calm, Bool.and_eq_true, hc]
    exact ⟨by simp, calm_line hw.2 h⟩

theorem calm_append : ∀ {w : Str} {start : Bool}, calm start w = true → ∀ {r : Str}, (∀ b, calm b r = true) → calm start (w ++ r) = true
  | [], start, _, r, h => h start
  | c :: w, start, hw, r, h => by
    simp only [List.cons_append, calm, Bool.and_eq_true] at hw ⊢
    exact ⟨hw.1, calm_append hw.2 h⟩

/-- Within a line no list is started. -/
theorem noList_line : ∀ {w : Str}, '\n' ∉ w → ∀ {r : Str}, noList false r = true → noList false (w ++ r) = true
  | [], _, _, h => h
  | c :: w, hw, r, h => by
    simp at hw
    have hc : (c == '\n') = false := by simp; exact fun e => hw.1 e.symm
    simp only [List.cons_append, noList, Bool.and_eq_true, hc]
    exact ⟨by simp, noList_line hw.2 h⟩

theorem noList_item {m t r : Str} (hm : m ∈ markers) (ht : ∃ a u, t = a :: u ∧ a ≠ ' ' ∧ (m.head? = some '*' → a ≠ '.') ∧ isBullet a = false) (hn : '\n' ∉ t)
    (hr : noList false r = true) (start : Bool) : noList start (m ++ (t ++ (m ++ r))) = true := by
  obtain ⟨a, u, rfl, h1, h2, h3⟩ := ht
  have hmn : '\n' ∉ m := fun h => by have := marker_mem hm h; revert this; decide
  have hrest : noList false (m ++ (a :: u ++ (m ++ r))) = true := noList_line hmn (noList_line hn (noList_line hmn hr))
  have hb : bulletOk (m ++ (a :: u ++ (m ++ r))) = true := by
    simp only [markers, List.mem_cons, List.not_mem_nil, or_false] at hm
    rcases hm with rfl | rfl | rfl | rfl | rfl | rfl | rfl | rfl | rfl | rfl <;>
      simp [bulletOk, isBullet, h1, List.dropWhile_cons, show (a == '*' || a == ':') = false from h3] <;> exact h2 rfl
  cases hc : m ++ (a :: u ++ (m ++ r)) with
  | nil => rfl
  | cons y l =>
    rw [hc] at hrest hb
    simp only [noList, Bool.and_eq_true] at hrest ⊢
    exact ⟨by rw [hb]; simp, hrest.2⟩

/-! ## Block tags -/

/-- What the expression matches is empty or starts outside the alphabet. -/
def Re.avoid (A : Alpha) : Re → Bool
  | .set n it => A.never n it
  | .seq a b => a.avoid A && (b.avoid A || a.nonnull)
  | .alt a b => a.avoid A && b.avoid A
  | .star _ r => r.avoid A
  | .grp _ r => r.avoid A
  | .bref _ => false
  | _ => true

theorem Re.nonnull_lang {U : Uni} : ∀ {r : Re}, r.nonnull = true → ∀ {w : Str}, r.lang U w → w ≠ []
  | .set _ _, _, w, hl => by obtain ⟨x, rfl, -⟩ := hl; simp
  | .seq a b, h, w, hl => by
    simp only [Re.nonnull, Bool.or_eq_true] at h
    obtain ⟨u, v, rfl, hu, hv⟩ := hl
    rcases h with h | h
    · have := Re.nonnull_lang h hu; simp [this]
    · have := Re.nonnull_lang h hv; simp [this]
  | .alt a b, h, w, hl => by
    simp only [Re.nonnull, Bool.and_eq_true] at h
    rcases hl with hl | hl
    · exact Re.nonnull_lang h.1 hl
    · exact Re.nonnull_lang h.2 hl
  | .grp _ r, h, w, hl => Re.nonnull_lang (r := r) h hl
  | .star _ _, h, _, _ => by simp [Re.nonnull] at h
  | .bref _, h, _, _ => by simp [Re.nonnull] at h
  | .eps, h, _, _ => by simp [Re.nonnull] at h
  | .look _ _, h, _, _ => by simp [Re.nonnull] at h
  | .behind _ _ _, h, _, _ => by simp [Re.nonnull] at h
  | .bot, h, _, _ => by simp [Re.nonnull] at h
  | .eot, h, _, _ => by simp [Re.nonnull] at h
  | .bol, h, _, _ => by simp [Re.nonnull] at h
  | .eol, h, _, _ => by simp [Re.nonnull] at h
  | .wordb, h, _, _ => by simp [Re.nonnull] at h

theorem Re.avoid_lang {U : Uni} (hU : UniOk U) {A : Alpha} (hw : A.wf = true) : ∀ {r : Re}, r.avoid A = true →
    ∀ {w : Str}, r.lang U w → ∀ c w', w = c :: w' → ¬ A.Mem c
  | .set n it, h, w, hl, c, w', e, hA => by
    obtain ⟨x, rfl, hx⟩ := hl
    simp at e
    rw [Alpha.never_sound hU hw h (c := x) (by rw [e.1]; exact hA)] at hx
    cases hx
  | .seq a b, h, w, hl, c, w', e, hA => by
    simp only [Re.avoid, Bool.and_eq_true, Bool.or_eq_true] at h
    obtain ⟨u, v, rfl, hu, hv⟩ := hl
    cases u with
    | nil =>
      rcases h.2 with h2 | h2
      · exact Re.avoid_lang hU hw h2 hv c w' (by simpa using e) hA
      · exact absurd rfl (Re.nonnull_lang h2 hu)
    | cons x u => simp at e; exact Re.avoid_lang hU hw h.1 hu c u (by rw [e.1]) hA
  | .alt a b, h, w, hl, c, w', e, hA => by
    simp only [Re.avoid, Bool.and_eq_true] at h
    rcases hl with hl | hl
    · exact Re.avoid_lang hU hw h.1 hl c w' e hA
    · exact Re.avoid_lang hU hw h.2 hl c w' e hA
  | .star _ r, h, w, hl, c, w', e, hA => by
    obtain ⟨ws, rfl, hws⟩ := hl
    have key : ∀ ws : List Str, (∀ u ∈ ws, r.lang U u) → ∀ w', ws.flatten ≠ c :: w' := by
      intro ws
      induction ws with
      | nil => intro _ w' e; simp at e
      | cons u ws ih =>
        intro hws w' e
        cases u with
        | nil => exact ih (fun u hu => hws u (by simp [hu])) w' (by simpa using e)
        | cons x u => simp at e; exact Re.avoid_lang hU hw (r := r) h (hws (x :: u) (by simp)) c u (by rw [e.1]) hA
    exact key ws hws w' e
  | .grp _ r, h, w, hl, c, w', e, hA => Re.avoid_lang hU hw (r := r) h hl c w' e hA
  | .bref _, h, _, _, _, _, _, _ => by simp [Re.avoid] at h
  | .eps, _, _, hl, _, _, e, _ => by rw [show _ = ([] : Str) from hl] at e; cases e
  | .look _ _, _, _, hl, _, _, e, _ => by rw [show _ = ([] : Str) from hl] at e; cases e
  | .behind _ _ _, _, _, hl, _, _, e, _ => by rw [show _ = ([] : Str) from hl] at e; cases e
  | .bot, _, _, hl, _, _, e, _ => by rw [show _ = ([] : Str) from hl] at e; cases e
  | .eot, _, _, hl, _, _, e, _ => by rw [show _ = ([] : Str) from hl] at e; cases e
  | .bol, _, _, hl, _, _, e, _ => by rw [show _ = ([] : Str) from hl] at e; cases e
  | .eol, _, _, hl, _, _, e, _ => by rw [show _ = ([] : Str) from hl] at e; cases e
  | .wordb, _, _, hl, _, _, e, _ => by rw [show _ = ([] : Str) from hl] at e; cases e

theorem tagAtts_avoid : tagAtts.avoid linesA = true := by decide +kernel

/-- Characters with which inline elements begin. -/
def startChars : Str := t!"*?-_%+~^@=!\"(["

theorem blockWord_chars {U : Uni} (hU : UniOk U) {lite : Bool} {w : Str} (h : Spec.blockWord U.isNd lite w) :
    w ≠ [] ∧ ∀ c ∈ w, c.toNat < 128 → c ≠ ' ' ∧ c ≠ '\n' ∧ c ∉ startChars := by
  unfold Spec.blockWord at h
  split at h
  · unfold Spec.liteWord at h; revert w; decide
  · rcases h with h | ⟨d, ds, rfl, hds⟩
    · revert w; decide
    · refine ⟨by simp, ?_⟩
      intro c hc hlt
      simp only [List.mem_cons] at hc
      rcases hc with rfl | rfl | hc
      · decide
      · decide
      · have := hds c (by simpa using hc)
        rw [hU.dec c hlt] at this
        refine ⟨?_, ?_, ?_⟩
        · rintro rfl; revert this; decide
        · rintro rfl; revert this; decide
        · intro hm
          have h2 : ∀ c ∈ startChars, isDig c = false := by decide
          rw [h2 c hm] at this; cases this

theorem linesA_ws {c : Char} (h : linesA.Mem c) (hw : isWs c = true) : c = ' ' ∨ c = '\n' := by
  rcases h with h | ⟨-, -, h2, -⟩
  · have : ∀ c ∈ linesA.ascii, isWs c = true → c = ' ' ∨ c = '\n' := by decide
    exact this c h hw
  · rw [h2] at hw; cases hw

/-- No block tag at the start of a text with inline elements. -/
theorem tag_none_raw {C : Ctx} (hU : UniOk C.U) {w0 r : Str} (hw : linesA.Over w0)
    (hr : ∀ c r', r = c :: r' → c ∈ startChars) (hg : r ≠ [] → AfterGap w0.reverse)
    (h : Spec.NoBlockWord C.U.isNd C.cfg.lite (w0 ++ r)) :
    (blockTagRe C).captures C.U (w0 ++ r) = none := by
  apply Re.captures_none
  rw [blockTagRe, tagRe_shape]
  apply Re.search_bot
  generalize hre : (Re.seq (.grp 1 (tagWords C.cfg.lite)) (.seq (.grp 2 tagAtts) (.seq dotRe (.seq extRe
    (.seq citeRe (.seq spRe allRe)))))) = rr
  cases hl : rr.all C.U ⟨[], w0 ++ r⟩ [] with
  | nil => rfl
  | cons p l =>
    exfalso
    obtain ⟨w, hw', lw⟩ := Re.all_lang rr ⟨[], w0 ++ r⟩ [] p (by rw [hl]; simp)
    subst hre
    obtain ⟨u, v, rfl, hu, at', v', rfl, hat, dt, v'', rfl, hdt, -⟩ := lw
    have e : w0 ++ r = u ++ (at' ++ (dt ++ v'')) ++ p.1.rest := hw'.1
    rw [show dt = ['.'] from lang_chr.1 hdt] at e
    cases at' with
    | nil => exact h u (v'' ++ p.1.rest) (by rw [e]; simp) (tagWords_lang hu)
    | cons a0 as =>
      have ha0 := Re.avoid_lang hU linesA_wf tagAtts_avoid hat a0 as rfl
      have hbw := blockWord_chars hU (tagWords_lang hu)
      have hmark : ∀ c ∈ startChars, c.toNat < 128 := by decide
      have hu' : ∀ c ∈ u, c ∉ startChars := fun c hc hm => (hbw.2 c hc (hmark c hm)).2.2 hm
      have e' : w0 ++ r = u ++ a0 :: (as ++ ('.' :: v'') ++ p.1.rest) := by rw [e]; simp
      have hww : w0 = u := by
        rw [List.append_eq_append_iff] at e'
        rcases e' with ⟨z, h1, h2⟩ | ⟨z, h1, h2⟩
        · cases z with
          | nil => simpa using h1.symm
          | cons c z =>
            exfalso
            exact hu' c (by rw [h1]; simp) (hr c _ h2)
        · cases z with
          | nil => simpa using h1
          | cons c z =>
            exfalso
            simp at h2
            exact ha0 (hw a0 (by rw [h1, h2.1]; simp))
      have hrne : r ≠ [] := by
        rintro rfl
        rw [hww] at e'
        have := congrArg List.length e'
        simp at this
      rcases hg hrne with hg | ⟨c, q, hq, hc⟩
      · simp at hg; rw [hg] at hww; exact hbw.1 hww.symm
      · have hcw : c ∈ w0 := by
          have : c ∈ w0.reverse := by rw [hq]; simp
          simpa using this
        have h3 := hbw.2 c (by rw [← hww]; exact hcw)
        rcases linesA_ws (hw c hcw) hc with rfl | rfl
        · exact (h3 (by decide)).1 rfl
        · exact (h3 (by decide)).2.1 rfl

/-! ## Placeholders for texts set aside -/

/-- All colons are in placeholders for texts set aside. -/
inductive Keyed (uid : Str) : Str → Prop
  | nil : Keyed uid []
  | char {c : Char} {t : Str} : c ≠ ':' → Keyed uid t → Keyed uid (c :: t)
  | key {n : Nat} {t : Str} : Keyed uid t → Keyed uid (shelfKey uid n ++ t)

theorem Keyed.text {uid : Str} : ∀ {w : Str}, ':' ∉ w → ∀ {t : Str}, Keyed uid t → Keyed uid (w ++ t)
  | [], _, _, h => h
  | c :: w, hw, t, h => by
    simp at hw
    exact .char (fun e => hw.1 e.symm) (Keyed.text hw.2 h)

theorem Keyed.append {uid a b : Str} (ha : Keyed uid a) (hb : Keyed uid b) : Keyed uid (a ++ b) := by
  induction ha with
  | nil => exact hb
  | char hc _ ih => exact .char hc ih
  | key _ ih => rw [List.append_assoc]; exact .key ih

theorem Keyed.colon {base t : Str} (h : Keyed (uidOf base) t) : Coloned t := by
  induction h with
  | nil => exact .nil
  | char hc _ ih => exact .cons hc ih
  | key => rw [key_eq]; exact .ref

/-- Of the words that can follow the token there are only those of such placeholders. -/
theorem Keyed.clean {base : Str} (hb : Spec.PlainBase base) {k : Str} (hk : ∃ c k', k = c :: k' ∧ isDigitC c = false) {t : Str}
    (h : Keyed (uidOf base) t) : containsStr (uidOf base ++ k) t = false := by
  have pre : ∀ {x : Str}, uidOf base ++ k <+: x → uidOf base <+: x := fun hx => (List.prefix_append _ _).trans hx
  induction h with
  | nil =>
    refine containsStr_false_of_mem (c := ':') (by simp [uidOf]) (by simp)
  | char hc ht ih =>
    exact not_contains_cons (fun hp => Coloned.no_uid ht.colon (pre hp)) ih
  | @key n t ht ih =>
    have key : ∀ u v, shelfKey (uidOf base) n = u ++ v → containsStr (uidOf base ++ k) (v ++ t) = false := by
      intro u v
      induction v generalizing u with
      | nil => intro _; exact ih
      | cons y v ihv =>
        intro e
        refine not_contains_cons (fun hp => ?_) (ihv (u ++ [y]) (by rw [e]; simp))
        cases u with
        | nil =>
          rw [List.nil_append] at e
          have hp : uidOf base ++ k <+: (y :: v) ++ t := hp
          rw [← e] at hp
          obtain ⟨c, k', rfl, hd⟩ := hk
          obtain ⟨d, ds, hds⟩ := natStr_cons n
          obtain ⟨z, hz⟩ := hp
          simp only [shelfKey, hds, List.append_assoc, List.append_cancel_left_eq, List.cons_append, List.cons.injEq] at hz
          have := natStr_digits n d (by rw [hds]; simp)
          rw [← hz.1, hd] at this; cases this
        | cons x u =>
          exact uid_inside (ds := natStr n) (w := t!"shelve") (base_colon hb) (natStr_plain n) (by decide) (u := x :: u) (by simp)
            (by rw [← e]; simp [shelfKey]) (pre hp)
    exact key [] _ rfl

/-! ## Marked texts -/

/-- A marked text: marker, text and what follows. -/
abbrev Part := Str × Str × Str

structure PartOk (U : Uni) (p : Part) : Prop where
  mark : p.1 ∈ markers
  over : linesA.Over p.2.1
  good : Good U p.2.1
  nonl : '\n' ∉ p.2.1
  head : ∃ a u, p.2.1 = a :: u ∧ isWs a = false ∧ (p.1.head? = some '*' → a ≠ '.')
  last : ∃ u b, p.2.1 = u ++ [b] ∧ isWs b = false
  gapOver : mixA.Over p.2.2
  gapGood : Good U p.2.2
  gapCalm : calm false p.2.2 = true

def rawItems (P : List Part) : List (Itm × Str) := P.map (fun p => (.raw p.1 p.2.1, p.2.2))

def rawText (P : List Part) : Str := P.flatMap (fun p => p.1 ++ (p.2.1 ++ (p.1 ++ p.2.2)))

theorem mix_raw (uid : Str) (P : List Part) : mix uid [] (rawItems P) = rawText P := by
  simp [mix, rawItems, rawText, List.flatMap_map, Itm.str]

theorem skel_raw (P : List Part) : (rawItems P).map skel = P := by
  simp [rawItems, skel, Itm.mark, Itm.text, Function.comp_def]

structure InlineOk (C : Ctx) (w0 : Str) (P : List Part) : Prop where
  over : mixA.Over w0
  good : Good C.U w0
  calm : calm true w0 = true
  keyed : Keyed C.cfg.uid w0
  parts : ∀ p ∈ P, PartOk C.U p
  gapKeyed : ∀ p ∈ P, Keyed C.cfg.uid p.2.2
  spaced : Spaced (tableEnd C) (rawItems P)
  start : P ≠ [] → AfterGap w0.reverse
  last : ∀ c, (w0 ++ rawText P).getLast? = some c → c ≠ '\n'

theorem linesA_not {c : Char} (h : linesA.Mem c) {s : Str} (hs : ∀ c ∈ s, c ∉ linesA.ascii ∧ c.toNat < 128) : c ∉ s := by
  intro hc
  exact Alpha.not_mem (hs c hc).1 (hs c hc).2 h

theorem PartOk.item {U : Uni} {p : Part} (h : PartOk U p) : ItmOk (.raw p.1 p.2.1) where
  mark := h.mark
  safe := fun c hc => linesA_safe (h.over c hc)
  text := by
    refine ⟨fun c hc => (linesA_safe (h.over c hc)).marker h.mark, h.nonl, ?_, h.last⟩
    obtain ⟨a, u, e, h1, h2⟩ := h.head
    exact ⟨a, u, e, h1, linesA_not (h.over a (by rw [e]; simp)) (by decide)⟩

theorem InlineOk.mixOk {C : Ctx} {w0 : Str} {P : List Part} (h : InlineOk C w0 P) : MixOk (tableEnd C) (rawItems P) where
  items := by
    intro q hq
    obtain ⟨p, hp, rfl⟩ := List.mem_map.1 hq
    exact (h.parts p hp).item
  gaps := by
    intro q hq c hc
    obtain ⟨p, hp, rfl⟩ := List.mem_map.1 hq
    exact mixA_safe ((h.parts p hp).gapOver c hc)
  spaced := h.spaced

theorem raw_over {U : Uni} {w0 : Str} (hw : mixA.Over w0) {P : List Part} (h : ∀ p ∈ P, PartOk U p) : rawA.Over (w0 ++ rawText P) := by
  intro c hc
  rcases List.mem_append.1 hc with hc | hc
  · exact mixA_raw (hw c hc)
  · obtain ⟨p, hp, hc⟩ := List.mem_flatMap.1 hc
    have hm : ∀ c ∈ p.1, rawA.Mem c := by
      intro c hc
      have := marker_mem (h p hp).mark hc
      left
      have h2 : ∀ c ∈ t!"*?-_%+~^", c ∈ rawA.ascii := by decide
      exact h2 c this
    simp only [List.mem_append] at hc
    rcases hc with hc | hc | hc | hc
    · exact hm c hc
    · exact linesA_raw ((h p hp).over c hc)
    · exact hm c hc
    · exact mixA_raw ((h p hp).gapOver c hc)

theorem mixA_nostar {w : Str} (h : mixA.Over w) : '*' ∉ w := fun hc => Alpha.not_mem (by decide) (by decide) (h _ hc)

theorem raw_noList {U : Uni} {z : Str} (hz : ∀ b, noList b z = true) : ∀ {P : List Part}, (∀ p ∈ P, PartOk U p) →
    ∀ b, noList b (rawText P ++ z) = true
  | [], _ => fun b => hz b
  | p :: P, h => by
    intro b
    have hp := h p (by simp)
    have ih := raw_noList hz (P := P) (fun q hq => h q (by simp [hq]))
    rw [show rawText (p :: P) ++ z = p.1 ++ (p.2.1 ++ (p.1 ++ (p.2.2 ++ (rawText P ++ z)))) by simp [rawText]]
    obtain ⟨a, u, e, h1, h2⟩ := hp.head
    refine noList_item hp.mark ⟨a, u, e, ?_, h2, ?_⟩ hp.nonl (noList_text (mixA_nostar hp.gapOver) hp.gapCalm ih) b
    · rintro rfl; revert h1; decide
    · have ha := hp.over a (by rw [e]; simp)
      simp only [isBullet, Bool.or_eq_false_iff, beq_eq_false_iff_ne]
      exact ⟨fun h => Alpha.not_mem (A := linesA) (by decide) (by decide) (h ▸ ha),
        fun h => Alpha.not_mem (A := linesA) (by decide) (by decide) (h ▸ ha)⟩

theorem tableEnd_noList (C : Ctx) (b : Bool) : noList b (tableEnd C) = true := by
  unfold tableEnd
  cases b <;> split <;> decide

theorem tableEnd_over (C : Ctx) : linesA.Over (tableEnd C) := by
  intro c hc
  rw [tableEnd_nl C c hc]; exact linesA_nl

theorem need_mem {A : Alpha} {l : List Re} (h : l.all (·.need A) = true) {r : Re} (hr : r ∈ l) : r.need A = true :=
  List.all_eq_true.1 h r hr

/-- The text as written: nothing but inline markup. -/
theorem InlineOk.mild {C : Ctx} (hU : UniOk C.U) {w0 : Str} {P : List Part} (h : InlineOk C w0 P) :
    Mild C.U (tableEnd C) (w0 ++ rawText P) := by
  have hA := raw_over h.over h.parts
  have hA2 : rawA.Over (w0 ++ rawText P ++ t!"\n\n") := by
    rw [Alpha.Over.append]
    exact ⟨hA, by intro c hc; simp at hc; subst hc; exact .inl (by decide)⟩
  have hA3 : rawA.Over (w0 ++ rawText P ++ tableEnd C) := by
    rw [Alpha.Over.append]
    exact ⟨hA, fun c hc => linesA_raw (tableEnd_over C c hc)⟩
  refine ⟨?_, ?_, ?_, ?_⟩
  · intro r hr
    exact Re.need_search hU rawA_wf (need_mem raw_early hr) hA _
  · exact Re.need_search hU rawA_wf (need_mem raw_need (by simp)) hA2 _
  · exact Re.need_search hU rawA_wf (need_mem raw_need (by simp)) hA3 _
  · refine lists_none hU hA3 ?_
    rw [List.append_assoc]
    exact noList_text (mixA_nostar h.over) h.calm (raw_noList (tableEnd_noList C) h.parts)

/-! ## After the replacement -/

theorem good_nat {U : Uni} (hU : UniOk U) (n : Nat) : Good U (natStr n) := by
  refine good_of ?_
  intro c hc
  have h := natStr_alnum hc
  refine ⟨?_, ?_⟩
  · rw [hU.upper c (by omega)]; simp [isUp]; omega
  · intro hm
    have : ∀ c ∈ t!".xX", ¬ (48 ≤ c.toNat ∧ c.toNat ≤ 57) := by decide
    exact this c hm h

theorem good_base {U : Uni} (hU : UniOk U) {base : Str} (hb : Spec.PlainBase base) : Good U base := by
  have hlt : ∀ c ∈ base, c.toNat < 128 := by
    intro c hc; have := hb.chars c hc; omega
  have hup : ∀ c ∈ base, U.isLu c = true → 65 ≤ c.toNat ∧ c.toNat ≤ 90 := by
    intro c hc h
    rw [hU.upper c (hlt c hc)] at h
    simpa [isUp] using h
  rw [good_iff]
  refine ⟨?_, ?_, ?_⟩
  · intro a x y z b e hh
    exact hb.caps a x y z b e ⟨hup x (by rw [e]; simp) hh.1, hup y (by rw [e]; simp) hh.2.1, hup z (by rw [e]; simp) hh.2.2⟩
  · intro a b e
    have := hb.chars '.' (by rw [e]; simp)
    revert this; decide
  · intro a d x b hd hx
    refine ⟨hb.dims a d x b hd hx, ?_⟩
    intro e
    have := hb.chars ' ' (by rw [e]; simp)
    revert this; decide

theorem neutral_ascii {U : Uni} (hU : UniOk U) {c : Char} (h : c.toNat < 128) (h' : isUp c = false ∧ c ∉ t!". xX" ∧ Spec.isDecimal c = false) :
    Neutral U c := ⟨by rw [hU.upper c h]; exact h'.1, h'.2⟩

/-- The beginning of a placeholder. -/
theorem good_ref {U : Uni} (hU : UniOk U) {base : Str} (hb : Spec.PlainBase base) {w r : Str} (n : Nat) (hw : Good U w) (hr : Good U r) :
    Good U (w ++ (uidOf base ++ (natStr n ++ ':' :: r))) := by
  have hN : ∀ {c : Char}, c.toNat < 128 → (isUp c = false ∧ c ∉ t!". xX" ∧ Spec.isDecimal c = false) → Neutral U c :=
    fun h h' => neutral_ascii hU h h'
  rw [show w ++ (uidOf base ++ (natStr n ++ ':' :: r)) = w ++ 't' :: 'e' :: (['x'] ++ 't' :: 'i' :: 'l' :: 'e' :: (['R'] ++ 'e' ::
    'f' :: ':' :: (base ++ ':' :: (natStr n ++ ':' :: r)))) by simp [uidOf]]
  refine hw.sep (hN (by decide) (by decide)) (.cons (hN (by decide) (by decide)) ?_)
  refine (Good.one _).sep (hN (by decide) (by decide)) (.cons (hN (by decide) (by decide)) (.cons (hN (by decide) (by decide))
    (.cons (hN (by decide) (by decide)) ?_)))
  refine (Good.one _).sep (hN (by decide) (by decide)) (.cons (hN (by decide) (by decide)) (.cons (hN (by decide) (by decide)) ?_))
  exact (good_base hU hb).sep (hN (by decide) (by decide)) ((good_nat hU n).sep (hN (by decide) (by decide)) hr)

theorem good_tok {U : Uni} (hU : UniOk U) {base : Str} (hb : Spec.PlainBase base) {w t r : Str} (n : Nat) (hw : Good U w)
    (ht : Good U t) (hr : Good U r) :
    Good U (w ++ (ospan (uidOf base) n ++ (t ++ (cspan (uidOf base) (n + 1) ++ r)))) := by
  have hN : ∀ {c : Char}, c.toNat < 128 → (isUp c = false ∧ c ∉ t!". xX" ∧ Spec.isDecimal c = false) → Neutral U c :=
    fun h h' => neutral_ascii hU h h'
  have hsp : U.isLu ' ' = false := by rw [hU.upper ' ' (by decide)]; decide
  have h1 : Good U (t!"ospan" ++ ((' ' :: t ++ [' ']) ++ (uidOf base ++ (natStr (n + 1) ++ ':' :: (t!"cspan" ++ r))))) := by
    refine .cons (hN (by decide) (by decide)) (.cons (hN (by decide) (by decide)) (.cons (hN (by decide) (by decide))
      (.cons (hN (by decide) (by decide)) (.cons (hN (by decide) (by decide)) ?_))))
    refine good_ref hU hb _ (Good.spaced hsp (Good.spaced hsp ht).1).2 ?_
    exact .cons (hN (by decide) (by decide)) (.cons (hN (by decide) (by decide)) (.cons (hN (by decide) (by decide))
      (.cons (hN (by decide) (by decide)) (.cons (hN (by decide) (by decide)) hr))))
  have := good_ref hU hb n hw h1
  simpa [ospan, cspan] using this

theorem good_mix {U : Uni} (hU : UniOk U) {base : Str} (hb : Spec.PlainBase base) : ∀ {xs : List (Itm × Str)} {w : Str}, Good U w →
    (∀ p ∈ xs, p.1.isRaw = false) → (∀ q ∈ xs.map skel, Good U q.2.1 ∧ Good U q.2.2) → Good U (w ++ mix (uidOf base) [] xs)
  | [], w, hw, _, _ => by simpa [mix] using hw
  | (i, g) :: xs, w, hw, ht, hg => by
    have hq := hg (skel (i, g)) (by simp)
    have ih := good_mix hU hb (xs := xs) (w := g) hq.2 (fun p hp => ht p (by simp [hp])) (fun q hq => hg q (by simp at hq ⊢; simp [hq]))
    rw [mix_cons]
    cases i with
    | raw m t => have := ht _ (List.mem_cons_self ..); cases this
    | tok n m t =>
      have := good_tok hU hb n hw hq.1 ih
      simpa [Itm.str, skel, Itm.text] using this

theorem uid_mix {base : Str} (hb : Spec.PlainBase base) {c : Char} (hc : c ∈ uidOf base) : mixA.Mem c := by
  simp only [uidOf, List.mem_append] at hc
  rcases hc with (hc | hc) | hc
  · left
    have : ∀ c ∈ t!"textileRef:", c ∈ mixA.ascii := by decide
    exact this c hc
  · left
    have := mem_asciiAlnum (hb.chars c hc)
    unfold mixA
    exact List.mem_append_left _ this
  · left; simp at hc; subst hc; decide

theorem natStr_mix {n : Nat} {c : Char} (hc : c ∈ natStr n) : mixA.Mem c := by
  left
  unfold mixA
  exact List.mem_append_left _ (mem_asciiAlnum (.inr (.inr (natStr_alnum hc))))

theorem mix_over {base : Str} (hb : Spec.PlainBase base) {xs : List (Itm × Str)} {w : Str} (hw : mixA.Over w)
    (ht : ∀ p ∈ xs, p.1.isRaw = false) (hg : ∀ q ∈ xs.map skel, linesA.Over q.2.1 ∧ mixA.Over q.2.2) :
    mixA.Over (w ++ mix (uidOf base) [] xs) := by
  intro c hc
  rcases List.mem_append.1 hc with hc | hc
  · exact hw c hc
  · simp only [mix, List.append_nil] at hc
    obtain ⟨⟨i, g⟩, hp, hc⟩ := List.mem_flatMap.1 hc
    have hq := hg (skel (i, g)) (List.mem_map_of_mem hp)
    cases i with
    | raw m t => have := ht _ hp; cases this
    | tok n m t =>
      simp only [Itm.str, ospan, cspan, List.mem_append] at hc
      have ho : ∀ c ∈ t!":ospan ", c ∈ mixA.ascii := by decide
      have hcs : ∀ c ∈ t!":cspan", c ∈ mixA.ascii := by decide
      have hs : ∀ c ∈ t!" ", c ∈ mixA.ascii := by decide
      rcases hc with (((hc | hc) | hc) | hc | (((hc | hc) | hc) | hc)) | hc
      · exact uid_mix hb hc
      · exact natStr_mix hc
      · exact .inl (ho c hc)
      · exact linesA_mix (hq.1 c hc)
      · exact .inl (hs c hc)
      · exact uid_mix hb hc
      · exact natStr_mix hc
      · exact .inl (hcs c hc)
      · exact hq.2 c hc

theorem getLast_append_ne {a b : Str} (h : b ≠ []) : (a ++ b).getLast? = b.getLast? := by
  rcases List.eq_nil_or_concat b with rfl | ⟨u, c, e⟩
  · exact absurd rfl h
  · rw [List.concat_eq_append] at e; subst e
    rw [← List.append_assoc]; simp

/-- Both texts end in the same way, if they end with a newline. -/
theorem mix_last {uid : Str} : ∀ {xs : List (Itm × Str)} {w : Str}, (∀ p ∈ xs, p.1.isRaw = false) →
    (w ++ mix uid [] xs).getLast? = some '\n' → (w ++ rawText (xs.map skel)).getLast? = some '\n'
  | [], w, _, h => by simpa [mix, rawText] using h
  | (i, g) :: xs, w, ht, h => by
    have ih := mix_last (uid := uid) (xs := xs) (w := g) (fun p hp => ht p (by simp [hp]))
    rw [mix_cons] at h
    cases i with
    | raw m t => have := ht _ (List.mem_cons_self ..); cases this
    | tok n m t =>
      by_cases hne : g ++ mix uid [] xs = []
      · rw [hne] at h
        rw [List.append_nil, getLast_append_ne (by simp [Itm.str, ospan])] at h
        simp only [Itm.str, cspan] at h
        rw [getLast_append_ne (by simp), getLast_append_ne (by simp), getLast_append_ne (by simp)] at h
        simp at h
      · rw [getLast_append_ne (by simp only [ne_eq, List.append_eq_nil_iff, not_and] at hne ⊢; grind),
          getLast_append_ne hne] at h
        have h2 := ih h
        have e : rawText (((Itm.tok n m t, g) :: xs).map skel) = (m ++ (t ++ m)) ++ (g ++ rawText (xs.map skel)) := by
          simp [rawText, skel, Itm.mark, Itm.text]
        rw [e, ← List.append_assoc, getLast_append_ne]
        · exact h2
        · intro e'; rw [e'] at h2; simp at h2

/-- The text with placeholders: nothing left to be replaced. -/
theorem done_mix {C : Ctx} (hU : UniOk C.U) {base : Str} (hb : Spec.PlainBase base) {w0 : Str} {P : List Part} (h : InlineOk C w0 P)
    {xs : List (Itm × Str)} (ht : ∀ p ∈ xs, p.1.isRaw = false) (hs : xs.map skel = P) :
    Done C.U (tableEnd C) (w0 ++ mix (uidOf base) [] xs) := by
  have hA : mixA.Over (w0 ++ mix (uidOf base) [] xs) := mix_over hb h.over ht (by
    rw [hs]; intro q hq; exact ⟨(h.parts q hq).over, (h.parts q hq).gapOver⟩)
  have hG : Good C.U (w0 ++ mix (uidOf base) [] xs) := good_mix hU hb h.good ht (by
    rw [hs]; intro q hq; exact ⟨(h.parts q hq).good, (h.parts q hq).gapGood⟩)
  have hA2 : mixA.Over (w0 ++ mix (uidOf base) [] xs ++ tableEnd C) := by
    rw [Alpha.Over.append]
    exact ⟨hA, fun c hc => linesA_mix (tableEnd_over C c hc)⟩
  obtain ⟨g1, g2, g3⟩ := good_iff.1 hG
  refine ⟨?_, ?_, ?_, ?_, ?_, ?_⟩
  · exact Re.need_search hU mixA_wf (need_mem mix_need (by simp)) hA2 _
  · exact Re.need_search hU mixA_wf (need_mem mix_need (by simp)) hA2 _
  · intro r hr
    have := List.all_eq_true.1 mix_glyph r hr
    simp only [Bool.or_eq_true, beq_iff_eq] at this
    rcases this with ((h | rfl) | rfl) | rfl
    · exact Re.need_search hU mixA_wf h hA _
    · exact caps_none g1 _
    · refine dim_none (fun c hc hm => ?_) g3 _
      have : ∀ c ∈ t!"])'\"", c ∉ mixA.ascii ∧ c.toNat < 128 := by decide
      exact Alpha.not_mem (this c hm).1 (this c hm).2 (hA c hc)
    · exact ellipsis_none g2 _
  · intro h; exact Alpha.not_mem (A := mixA) (c := '<') (by decide) (by decide) (hA _ h)
  · intro h; exact Alpha.not_mem (A := mixA) (c := '>') (by decide) (by decide) (hA _ h)
  · intro c hc e
    subst e
    have := mix_last ht hc
    rw [hs] at this
    exact h.last _ this rfl

theorem keyed_raw {uid : Str} {w : Str} (hw : Keyed uid w) : ∀ {P : List Part} {U : Uni}, (∀ p ∈ P, PartOk U p) →
    (∀ p ∈ P, Keyed uid p.2.2) → Keyed uid (w ++ rawText P) := by
  intro P U h hk
  refine hw.append ?_
  clear hw
  induction P with
  | nil => exact .nil
  | cons p P ih =>
    have hp := h p (by simp)
    have e1 : rawText (p :: P) = (p.1 ++ (p.2.1 ++ p.1)) ++ (p.2.2 ++ rawText P) := by simp [rawText]
    have hm : ':' ∉ p.1 := fun hc => by have := marker_mem hp.mark hc; revert this; decide
    have ht : ':' ∉ p.2.1 := fun hc => Alpha.not_mem (A := linesA) (by decide) (by decide) (hp.over _ hc)
    rw [e1]
    exact Keyed.text (by simp [hm, ht]) ((hk p (by simp)).append (ih (fun q hq => h q (by simp [hq])) (fun q hq => hk q (by simp [hq]))))

theorem uid_safe {base : Str} (hb : Spec.PlainBase base) : ∀ c ∈ uidOf base, Safe c := by
  intro c hc hm
  have : ∀ c ∈ t!"{[*?-_%+~^", c ∉ mixA.ascii ∧ c.toNat < 128 := by decide
  exact Alpha.not_mem (this c hm).1 (this c hm).2 (uid_mix hb hc)

/-- What `graf` does with a text in which only marked parts are left. -/
def GrafTo (C : Ctx) (src w0 : Str) (P : List Part) (σ σ1 σ' : PState) (xs : List (Itm × Str)) : Prop :=
  Runs C (graf C C.fuel src) (w0 ++ mix C.cfg.uid [] xs) σ σ' ∧
    xs.map skel = P ∧ (∀ p ∈ xs, p.1.isRaw = false) ∧ (∀ p ∈ xs, Known σ' p.1) ∧
    Ext σ1 σ' ∧ σ'.refIndex = σ1.refIndex + 2 * P.length

theorem graf_inline {C : Ctx} {base : Str} (D : DocCtx C base) {src w0 : Str} {P : List Part} (h : InlineOk C w0 P) {σ σ1 : PState}
    (he : Runs C (grafEarly C src) (w0 ++ rawText P) σ σ1)
    (hd : σ1.spanDepth + 1 ≤ C.cfg.maxSpanDepth) : ∃ xs σ', GrafTo C src w0 P σ σ1 σ' xs := by
  obtain ⟨f, hf⟩ : ∃ f, C.fuel = f + 1 := ⟨C.fuel - 1, by have := D.fuel; omega⟩
  have hz : ∀ c ∈ tableEnd C, Safe c := fun c hc => linesA_safe (tableEnd_over C c hc)
  obtain ⟨xs, σ', h1, h2, h3, h4, h5, h6⟩ := runs_span (C := C) (by rw [D.uid]; exact uid_safe D.plain)
    (fun c hc => mixA_safe (h.over c hc)) hz hd h.mixOk (xs := rawItems P)
    (by intro p hp; obtain ⟨q, hq, rfl⟩ := List.mem_map.1 hp; trivial)
    (fun hne => h.start (by rintro rfl; exact hne rfl))
  refine ⟨xs, σ', ?_, by rw [h2, skel_raw], h3, h4, h5, ?_⟩
  · rw [hf]
    refine runs_graf (h.mild D.uni) he ?_ ?_
    · rw [mix_end _ _ (rawItems P), mix_raw, mix_end _ _ xs] at h1
      simpa using h1
    · rw [D.uid]
      exact done_mix D.uni D.plain h h3 (by rw [h2, skel_raw])
  · rw [h6]
    have : raws (rawItems P) = P.length := by
      unfold raws rawItems
      rw [List.countP_map, List.countP_eq_length.2]
      intro p _; rfl
    rw [this]

/-- Nothing happens in the first stages to a text without elements other than marked parts. -/
theorem InlineOk.early {C : Ctx} {base : Str} (D : DocCtx C base) {w0 : Str} {P : List Part} (h : InlineOk C w0 P) (σ : PState) :
    Runs C (grafEarly C (w0 ++ rawText P)) (w0 ++ rawText P) σ σ := by
  refine runs_early (by have := D.fuel; omega) (h.mild D.uni).early ?_ σ
  have hk := keyed_raw h.keyed h.parts h.gapKeyed
  rw [D.uid] at hk ⊢
  exact hk.clean D.plain ⟨'l', _, rfl, by decide⟩

end Rustextile
