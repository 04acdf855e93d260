import Verif.ImageRe

/-!
# Texts with images

Before images are looked for, nothing happens to such a text.
-/

namespace Rustextile

open Prog

/-- The characters of addresses but `=`. -/
def addrA : Alpha := ⟨asciiAlnum ++ t!"/.:-_?#%+~,", false⟩
def clsA : Alpha := ⟨asciiAlnum ++ t!"-_ #:", false⟩
def styA : Alpha := ⟨asciiAlnum ++ t!"-_ #:%,!;", false⟩
def lanA : Alpha := ⟨asciiAlnum ++ t!"-_", false⟩
/-- The characters of titles but spaces. -/
def titA : Alpha := ⟨asciiAlnum ++ t!",./$-;:?!'&_+%#*", true⟩
/-- The same without apostrophes. -/
def ttlA : Alpha := ⟨asciiAlnum ++ t!",./$-;:?!&_+%#*", true⟩

/-- Texts with images. -/
def imM : Auto := [
  (true, [(linesA, 0), (oneA '!', 1)]),
  (false, [(⟨t!"<>=", false⟩, 2), (oneA '&', 3), (oneA '(', 6), (oneA '{', 7), (oneA '[', 8), (addrA, 9)]),
  (false, [(oneA '(', 6), (oneA '{', 7), (oneA '[', 8), (addrA, 9)]),
  (false, [(⟨t!"lg", false⟩, 4)]),
  (false, [(oneA 't', 5)]),
  (false, [(oneA ';', 2)]),
  (false, [(clsA, 6), (oneA ')', 2)]),
  (false, [(styA, 7), (oneA '}', 2)]),
  (false, [(lanA, 8), (oneA ']', 2)]),
  (false, [(addrA, 9), (oneA '=', 10), (oneA '(', 11), (oneA '!', 12)]),
  (false, [(addrA, 9), (oneA '(', 11), (oneA '!', 12)]),
  (false, [(titA, 11), (oneA ' ', 17), (oneA ')', 13)]),
  (true, [(oneA ':', 14), (⟨t!" \n.,", false⟩, 0)]),
  (false, [(oneA '!', 12)]),
  (false, [(addrA, 15)]),
  (true, [(addrA, 15), (oneA '=', 16), (gapA, 0)]),
  (false, [(addrA, 15)]),
  (false, [(ttlA, 11), (oneA ' ', 17), (oneA ')', 13)])]

set_option maxRecDepth 100000 in
theorem imM_ok : imM.wf = true ∧ (earlyPatterns.filter (fun r => r != IMAGE_RE)).all (imM.avoids ·) = true ∧ imM.avoids NOTEDEF_RE = true ∧
    imM.avoids DIVIDER_RE = true := by
  decide +kernel

/-! ## The text that is seen -/

/-- The parts of an image as they are seen; in restricted mode they have been escaped. -/
def partsOf (r : Bool) (i : Spec.Image) : ImParts where
  al := i.align.map (fun a => if r then Spec.escape false a.mark else a.mark)
  gs := i.groups
  url := i.url
  ti := i.title.map (fun t => if r then Spec.escape false t else t)
  li := i.link.map (·.1)

/-- The text that is seen. -/
def imSeen (r : Bool) (t : Spec.ImText) : Str := t.lead ++ t.parts.flatMap (fun p => (partsOf r p.1).text ++ p.2)

theorem groups_plain {i : Spec.Image} (h : i.atts.Ok) : ∀ c ∈ i.groups.flatMap Spec.Group.source, c ∈ styleChars ++ t!";(){}[]" := by
  intro c hc
  obtain ⟨g, hg, hc⟩ := List.mem_flatMap.1 hc
  have hn : ∀ {x}, Spec.NameChar x → x ∈ styleChars ++ t!";(){}[]" := fun h => List.mem_append_left _ (List.mem_append_left _ (name_mem h))
  have ho : ∀ x ∈ t!" #:;(){}[]", x ∈ styleChars ++ t!";(){}[]" := by decide
  have hok := h.1 g hg
  cases g with
  | classes n j =>
    have h1 : ∀ x ∈ n, x ∈ styleChars ++ t!";(){}[]" := by
      intro x hx
      rcases hok.1 x hx with h | rfl
      · exact hn h
      · exact ho _ (by decide)
    cases j with
    | none =>
      simp [Spec.Group.source] at hc
      rcases hc with rfl | hc | rfl
      · exact ho _ (by decide)
      · exact h1 c hc
      · exact ho _ (by decide)
    | some j =>
      simp [Spec.Group.source] at hc
      rcases hc with rfl | hc | rfl | hc | rfl
      · exact ho _ (by decide)
      · exact h1 c hc
      · exact ho _ (by decide)
      · rcases (hok.2.2 j rfl).2 c hc with h | rfl
        · exact hn h
        · exact ho _ (by decide)
      · exact ho _ (by decide)
  | style ds =>
    simp [Spec.Group.source] at hc
    rcases hc with rfl | hc | rfl
    · exact ho _ (by decide)
    · rcases mem_join hc with hc | ⟨d, hd, hc⟩
      · simp at hc; subst hc; exact ho _ (by decide)
      · exact List.mem_append_left _ (style_mem ((hok.2 d hd).2.2.2 c hc))
    · exact ho _ (by decide)
  | lang l =>
    simp [Spec.Group.source] at hc
    rcases hc with rfl | hc | rfl
    · exact ho _ (by decide)
    · exact hn (hok.2 c hc)
    · exact ho _ (by decide)

theorem urlChar_addr {c : Char} (h : Spec.urlChar c = true) : addrA.Mem c ∨ c = '=' := by
  have hc : c.toNat < 128 := by
    simp only [Spec.urlChar, Bool.or_eq_true, Bool.and_eq_true, decide_eq_true_eq, List.contains_iff_mem] at h
    rcases h with ((h | h) | h) | h
    · omega
    · omega
    · omega
    · exact (by decide : ∀ c ∈ ['/', '.', ':', '-', '_', '?', '=', '#', '%', '+', '~', ','], c.toNat < 128) c h
  have := char_of_lt (p := fun c => !Spec.urlChar c || (addrA.ascii.contains c || c == '=')) (by decide +kernel) hc
  simp only [h, Bool.not_true, Bool.false_or, Bool.or_eq_true, List.contains_iff_mem, beq_iff_eq] at this
  exact this.imp .inl id

theorem titleChar_tit {c : Char} (h : Spec.titleChar c = true) : titA.Mem c ∨ c = ' ' := by
  simp only [Spec.titleChar, Bool.or_eq_true, List.contains_iff_mem] at h
  rcases h with h | h
  · rw [← plainA_iff] at h
    rcases h with h | h
    · have := (by decide : ∀ c ∈ plainA.ascii, c ∈ titA.ascii ∨ c = ' ') c h
      exact this.imp .inl id
    · exact .inl (.inr ⟨rfl, h.2⟩)
  · exact .inl (.inl ((by decide : ∀ c ∈ ['-', ';', ':', '?', '!', '\'', '&', '_', '+', '%', '#', '*'], c ∈ titA.ascii) c h))

/-- Reading an address. -/
theorem run_addr {M : Auto} {p q : Nat} (h1 : (addrA, p) ∈ M.step p) (h2 : (oneA '=', q) ∈ M.step p) (h3 : (addrA, p) ∈ M.step q) {rest : Str}
    (hp : M.Run p rest) : ∀ {u : Str}, (u.getLast? = some '=' → M.Run q rest) → (∀ c ∈ u, Spec.urlChar c = true) → ¬ ['=', '='] <:+: u →
    M.Run p (u ++ rest) ∧ (u ≠ [] → u.head? ≠ some '=' → M.Run q (u ++ rest))
  | [], _, _, _ => ⟨hp, fun h => absurd rfl h⟩
  | c :: u, hq, hc, hn => by
    have hq' : u ≠ [] → u.getLast? = some '=' → M.Run q rest := by
      intro hne e
      refine hq ?_
      rw [List.getLast?_cons, e]; rfl
    have ih : u ≠ [] → M.Run p (u ++ rest) ∧ (u ≠ [] → u.head? ≠ some '=' → M.Run q (u ++ rest)) := fun hne =>
      run_addr h1 h2 h3 hp (hq' hne) (fun d hd => hc d (by simp [hd])) (fun h => hn (h.trans (List.suffix_cons c u).isInfix))
    have ihp : M.Run p (u ++ rest) := by
      by_cases hne : u = []
      · subst hne; exact hp
      · exact (ih hne).1
    rcases urlChar_addr (hc c (by simp)) with h | rfl
    · exact ⟨⟨_, h1, h, ihp⟩, fun _ _ => ⟨_, h3, h, ihp⟩⟩
    · refine ⟨⟨_, h2, oneA_mem _, ?_⟩, fun _ h => absurd rfl h⟩
      cases u with
      | nil => exact hq rfl
      | cons d u =>
        refine (ih (by simp)).2 (by simp) ?_
        intro e
        simp at e; subst e
        exact hn ⟨[], u, rfl⟩

theorem group_run {p : Nat} (h1 : (oneA '(', 6) ∈ imM.step p) (h2 : (oneA '{', 7) ∈ imM.step p) (h3 : (oneA '[', 8) ∈ imM.step p) {g : Spec.Group} (h : g.Ok)
    {rest : Str} (hr : imM.Run 2 rest) : imM.Run p (g.source ++ rest) := by
  have e1 : ∀ w, clsA.Over w → imM.Run 6 (w ++ (')' :: rest)) := fun w hw =>
    run_loop (A := clsA) (by simp [imM, Auto.step]) (run_one (q' := 2) (by simp [imM, Auto.step]) hr) hw
  have e2 : ∀ w, styA.Over w → imM.Run 7 (w ++ ('}' :: rest)) := fun w hw =>
    run_loop (A := styA) (by simp [imM, Auto.step]) (run_one (q' := 2) (by simp [imM, Auto.step]) hr) hw
  have e3 : ∀ w, lanA.Over w → imM.Run 8 (w ++ (']' :: rest)) := fun w hw =>
    run_loop (A := lanA) (by simp [imM, Auto.step]) (run_one (q' := 2) (by simp [imM, Auto.step]) hr) hw
  cases g with
  | classes n j =>
    have k1 : clsA.Over n := by
      intro c hc
      rcases h.1 c hc with h | rfl
      · exact .inl ((by decide : ∀ c ∈ nameChars, c ∈ clsA.ascii) c (name_mem h))
      · exact .inl (by decide)
    cases j with
    | none =>
      have := run_one (M := imM) (q := p) h1 (e1 n k1)
      simpa [Spec.Group.source] using this
    | some j =>
      have k2 : clsA.Over (n ++ ('#' :: j)) := by
        intro c hc
        simp at hc
        rcases hc with hc | rfl | hc
        · exact k1 c hc
        · exact .inl (by decide)
        · rcases (h.2.2 j rfl).2 c hc with h | rfl
          · exact .inl ((by decide : ∀ c ∈ nameChars, c ∈ clsA.ascii) c (name_mem h))
          · exact .inl (by decide)
      have := run_one (M := imM) (q := p) h1 (e1 _ k2)
      simpa [Spec.Group.source] using this
  | style ds =>
    have k : styA.Over (Spec.join [';'] ds) := by
      intro c hc
      rcases mem_join hc with hc | ⟨d, hd, hc⟩
      · simp at hc; subst hc; exact .inl (by decide)
      · exact .inl ((by decide : ∀ c ∈ styleChars, c ∈ styA.ascii) c (style_mem ((h.2 d hd).2.2.2 c hc)))
    have := run_one (M := imM) (q := p) h2 (e2 _ k)
    simpa [Spec.Group.source] using this
  | lang l =>
    have k : lanA.Over l := fun c hc => .inl ((by decide : ∀ c ∈ nameChars, c ∈ lanA.ascii) c (name_mem (h.2 c hc)))
    have := run_one (M := imM) (q := p) h3 (e3 _ k)
    simpa [Spec.Group.source] using this

theorem groups_run {p : Nat} (h1 : (oneA '(', 6) ∈ imM.step p) (h2 : (oneA '{', 7) ∈ imM.step p) (h3 : (oneA '[', 8) ∈ imM.step p)
    {rest : Str} (hr : imM.Run 2 rest) (hr' : imM.Run p rest) : ∀ {gs : List Spec.Group}, (∀ g ∈ gs, g.Ok) → imM.Run p (gs.flatMap Spec.Group.source ++ rest)
  | [], _ => hr'
  | g :: gs, h => by
    have ih := groups_run (p := 2) (by simp [imM, Auto.step]) (by simp [imM, Auto.step]) (by simp [imM, Auto.step]) hr hr
      (gs := gs) (fun x hx => h x (by simp [hx]))
    rw [List.flatMap_cons, List.append_assoc]
    exact group_run h1 h2 h3 (h g (by simp)) ih

theorem title_run {rest : Str} (hr : imM.Run 12 rest) : ∀ {t : Str}, titA.Over (t.filter (· ≠ ' ')) → ¬ [' ', '\''] <:+: t →
    imM.Run 11 (t ++ (')' :: '!' :: rest)) ∧ (t.head? ≠ some '\'' → imM.Run 17 (t ++ (')' :: '!' :: rest)))
  | [], _, _ => by
    have := run_one (M := imM) (q := 13) (q' := 12) (c := '!') (by simp [imM, Auto.step]) hr
    exact ⟨run_one (q' := 13) (by simp [imM, Auto.step]) this, fun _ => run_one (q' := 13) (by simp [imM, Auto.step]) this⟩
  | c :: t, h, hn => by
    obtain ⟨i1, i2⟩ := title_run hr (t := t) (fun x hx => h x (by simp at hx ⊢; exact ⟨.inr hx.1, hx.2⟩))
      (fun h => hn (h.trans (List.suffix_cons c t).isInfix))
    by_cases hc : c = ' '
    · subst hc
      have : imM.Run 17 (t ++ (')' :: '!' :: rest)) := i2 (by
        cases t with
        | nil => simp
        | cons d t =>
          intro e; simp at e; subst e
          exact hn ⟨[], t, rfl⟩)
      exact ⟨run_one (q' := 17) (by simp [imM, Auto.step]) this, fun _ => run_one (q' := 17) (by simp [imM, Auto.step]) this⟩
    · have hm := h c (by simp [hc])
      refine ⟨⟨(titA, 11), by simp [imM, Auto.step], hm, i1⟩, fun hh => ⟨(ttlA, 11), by simp [imM, Auto.step], ?_, i1⟩⟩
      rcases hm with hm | hm
      · refine .inl ?_
        have := (by decide : ∀ c ∈ titA.ascii, c = '\'' ∨ c ∈ ttlA.ascii) c hm
        rcases this with rfl | h
        · exact absurd rfl hh
        · exact h
      · exact .inr hm

/-- The title as it is seen. -/
def seenTitle (r : Bool) (t : Str) : Str := if r then Spec.escape false t else t

theorem infix_pair {a b c : Char} {t : Str} (h : [a, b] <:+: c :: t) : (c = a ∧ t.head? = some b) ∨ [a, b] <:+: t := by
  rcases List.infix_cons_iff.1 h with ⟨u, e⟩ | h
  · simp at e
    obtain ⟨rfl, rfl⟩ := e
    exact .inl ⟨rfl, rfl⟩
  · exact .inr h

theorem enc_titleChar {c : Char} (h : Spec.titleChar c = true) : encChar false false c = if c = '&' then t!"&amp;" else [c] := by
  by_cases hc : c = '&'
  · subst hc; rfl
  · rw [if_neg hc]
    have : c ≠ '<' ∧ c ≠ '>' := by constructor <;> (rintro rfl; exact absurd h (by decide))
    simp [encChar, hc, this]

theorem escape_title {t : Str} (h : ∀ c ∈ t, Spec.titleChar c = true) (hn : ¬ [' ', '\''] <:+: t) (r : Bool) :
    titA.Over ((seenTitle r t).filter (· ≠ ' ')) ∧ ¬ [' ', '\''] <:+: seenTitle r t := by
  cases r with
  | false =>
    refine ⟨?_, hn⟩
    intro c hc
    simp [seenTitle] at hc
    exact (titleChar_tit (h c hc.1)).resolve_right hc.2
  | true =>
    simp only [seenTitle, if_true, escape_eq]
    suffices titA.Over ((encodeHtml t false false).filter (· ≠ ' ')) ∧ ¬ [' ', '\''] <:+: encodeHtml t false false ∧
      ((encodeHtml t false false).head? = some '\'' → t.head? = some '\'') from ⟨this.1, this.2.1⟩
    induction t with
    | nil => exact ⟨fun _ h => absurd h (by simp [encodeHtml]), by simp [encodeHtml], fun h => by simp [encodeHtml] at h⟩
    | cons c t ih =>
      obtain ⟨i1, i2, i3⟩ := ih (fun x hx => h x (by simp [hx])) (fun h => hn (h.trans (List.suffix_cons c t).isInfix))
      have e : encodeHtml (c :: t) false false = (if c = '&' then t!"&amp;" else [c]) ++ encodeHtml t false false := by
        rw [← enc_titleChar (h c (by simp))]; rfl
      rw [e]
      by_cases hc : c = '&'
      · subst hc
        rw [if_pos rfl]
        refine ⟨?_, ?_, fun h => by simp at h⟩
        · rw [List.filter_append]
          exact Alpha.Over.append.2 ⟨fun x hx => .inl ((by decide : ∀ x ∈ (t!"&amp;").filter (· ≠ ' '), x ∈ titA.ascii) x hx), i1⟩
        · intro hh
          simp only [List.cons_append, List.nil_append] at hh
          have go : ∀ {c : Char} {u : Str}, c ≠ ' ' → [' ', '\''] <:+: c :: u → [' ', '\''] <:+: u := by
            intro c u hc h
            rcases infix_pair h with h | h
            · exact absurd h.1 hc
            · exact h
          exact i2 (go (by decide) (go (by decide) (go (by decide) (go (by decide) (go (by decide) hh)))))
      · rw [if_neg hc]
        refine ⟨?_, ?_, fun h => by simpa using h⟩
        · intro x hx
          simp at hx
          obtain ⟨rfl | hx, hn'⟩ := hx
          · exact (titleChar_tit (h x (by simp))).resolve_right hn'
          · exact i1 x (by simp [hx, hn'])
        · intro hh
          rcases infix_pair (c := c) (t := encodeHtml t false false) hh with ⟨rfl, hk⟩ | hh
          · have := i3 hk
            cases t with
            | nil => cases this
            | cons d t => simp at this; subst this; exact hn ⟨[], t, rfl⟩
          · exact i2 hh

theorem url_run {p : Nat} (h9 : (addrA, 9) ∈ imM.step p) {u rest : Str} (h : Spec.UrlOk u) (h1 : imM.Run 9 rest) (h2 : imM.Run 10 rest) : imM.Run p (u ++ rest) := by
  obtain ⟨c, v, rfl, hc⟩ := h.first
  have := (run_addr (M := imM) (p := 9) (q := 10) (by simp [imM, Auto.step]) (by simp [imM, Auto.step]) (by simp [imM, Auto.step]) h1 (u := v)
    (fun _ => h2) (fun d hd => h.chars d (by simp [hd])) (fun hh => h.noeq (hh.trans (List.suffix_cons c v).isInfix))).1
  exact ⟨_, h9, (urlChar_addr (h.chars c (by simp))).resolve_right hc, this⟩

theorem link_run {u rest : Str} (h : Spec.UrlOk u) (hl : u.getLast? ≠ some '=') (h1 : imM.Run 15 rest) : imM.Run 12 (':' :: (u ++ rest)) := by
  refine run_one (q' := 14) (by simp [imM, Auto.step]) ?_
  obtain ⟨c, v, rfl, hc⟩ := h.first
  have := (run_addr (M := imM) (p := 15) (q := 16) (by simp [imM, Auto.step]) (by simp [imM, Auto.step]) (by simp [imM, Auto.step]) h1 (u := v)
    (fun e => absurd (by rw [List.getLast?_cons, e]; rfl) hl) (fun d hd => h.chars d (by simp [hd])) (fun hh => h.noeq (hh.trans (List.suffix_cons c v).isInfix))).1
  exact ⟨(addrA, 15), by simp [imM, Auto.step], (urlChar_addr (h.chars c (by simp))).resolve_right hc, this⟩

theorem image_run {i : Spec.Image} {a rest : Str} (h : i.Ok a) (r : Bool) (h0 : i.link = none → imM.Run 12 rest)
    (h5 : i.link.isSome → imM.Run 15 rest) : imM.Run 0 ((partsOf r i).text ++ rest) := by
  have k1 : imM.Run 12 (linkOf (partsOf r i).li ++ rest) := by
    cases hl : i.link with
    | none => simpa [partsOf, hl, linkOf] using h0 hl
    | some l =>
      obtain ⟨h1, -, u, c, e, hc⟩ := h.link l hl
      have := link_run h1 (by rw [e, List.getLast?_concat]; intro e; simp at e; subst e; simp at hc) (h5 (by simp [hl]))
      simpa [partsOf, hl, linkOf] using this
  have k2 : ∀ {p}, (oneA '(', 11) ∈ imM.step p → (oneA '!', 12) ∈ imM.step p →
      imM.Run p (Spec.inParens (partsOf r i).ti ++ ('!' :: (linkOf (partsOf r i).li ++ rest))) := by
    intro p hp1 hp2
    cases ht : i.title with
    | none =>
      have := run_one hp2 k1
      simpa [partsOf, ht, Spec.inParens] using this
    | some t =>
      obtain ⟨h1, h2, h3⟩ := h.title t ht
      obtain ⟨g1, g2⟩ := escape_title h2 h3 r
      have := run_one hp1 (title_run k1 g1 g2).1
      simpa [partsOf, ht, Spec.inParens, seenTitle] using this
  have k3 : ∀ {p}, (addrA, 9) ∈ imM.step p → imM.Run p (i.url ++ (Spec.inParens (partsOf r i).ti ++ ('!' :: (linkOf (partsOf r i).li ++ rest)))) :=
    fun hp => url_run hp h.url (k2 (by simp [imM, Auto.step]) (by simp [imM, Auto.step])) (k2 (by simp [imM, Auto.step]) (by simp [imM, Auto.step]))
  have k4 : ∀ {p}, (addrA, 9) ∈ imM.step p → (oneA '(', 6) ∈ imM.step p → (oneA '{', 7) ∈ imM.step p → (oneA '[', 8) ∈ imM.step p →
      imM.Run p (i.groups.flatMap Spec.Group.source ++ (i.url ++ (Spec.inParens (partsOf r i).ti ++ ('!' :: (linkOf (partsOf r i).li ++ rest))))) :=
    fun hp a b c => groups_run a b c (k3 (by simp [imM, Auto.step])) (k3 hp) h.atts.1
  have k5 : imM.Run 1 ((partsOf r i).al.getD [] ++
      (i.groups.flatMap Spec.Group.source ++ (i.url ++ (Spec.inParens (partsOf r i).ti ++ ('!' :: (linkOf (partsOf r i).li ++ rest)))))) := by
    have k := @k4 2 (by simp [imM, Auto.step]) (by simp [imM, Auto.step]) (by simp [imM, Auto.step]) (by simp [imM, Auto.step])
    cases ha : i.align with
    | none =>
      have := @k4 1 (by simp [imM, Auto.step]) (by simp [imM, Auto.step]) (by simp [imM, Auto.step]) (by simp [imM, Auto.step])
      rw [show (partsOf r i).al = none by simp [partsOf, ha]]
      exact this
    | some a =>
      have m1 : ∀ c ∈ t!"<>=", imM.Run 1 ([c] ++ (i.groups.flatMap Spec.Group.source ++ (i.url ++ (Spec.inParens (partsOf r i).ti ++ ('!' :: (linkOf (partsOf r i).li ++ rest)))))) :=
        fun c hc => ⟨(⟨t!"<>=", false⟩, 2), by simp [imM, Auto.step], .inl hc, k⟩
      have m2 : ∀ c ∈ t!"lg", imM.Run 1 (['&', c, 't', ';'] ++ (i.groups.flatMap Spec.Group.source ++ (i.url ++ (Spec.inParens (partsOf r i).ti ++ ('!' :: (linkOf (partsOf r i).li ++ rest)))))) :=
        fun c hc => run_one (q' := 3) (by simp [imM, Auto.step]) ⟨(⟨t!"lg", false⟩, 4), by simp [imM, Auto.step], .inl hc,
          run_one (q' := 5) (by simp [imM, Auto.step]) (run_one (q' := 2) (by simp [imM, Auto.step]) k)⟩
      have e : (partsOf r i).al.getD [] = if r then Spec.escape false a.mark else a.mark := by simp [partsOf, ha]
      rw [e]
      cases r <;> cases a
      · exact m1 '<' (by decide)
      · exact m1 '=' (by decide)
      · exact m1 '>' (by decide)
      · exact m2 'l' (by decide)
      · exact m1 '=' (by decide)
      · exact m2 'g' (by decide)
  have := run_one (M := imM) (q := 0) (q' := 1) (c := '!') (by simp [imM, Auto.step]) k5
  simpa [ImParts.text, partsOf, List.append_assoc] using this

end Rustextile
