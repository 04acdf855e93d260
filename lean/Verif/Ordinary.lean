import Verif.Lang
import Verif.Quiet
import Verif.TagBlock
import Verif.Props.Whole
import Verif.Props.Html

/-!
# Ordinary text contains no markup
-/

namespace Rustextile

def asciiAlnum : Str := t!"abcdefghijklmnopqrstuvwxyzABCDEFGHIJKLMNOPQRSTUVWXYZ0123456789"

/-- The alphabet of ordinary text. -/
def plainA : Alpha := ⟨asciiAlnum ++ t!" ,./$", true⟩
/-- The same with the newline. -/
def linesA : Alpha := ⟨asciiAlnum ++ t!" ,./$\n", true⟩

theorem plainA_wf : plainA.wf = true := by decide
theorem linesA_wf : linesA.wf = true := by decide

theorem ascii_table : ∀ n < 128, ((65 ≤ n ∧ n ≤ 90) ∨ (97 ≤ n ∧ n ≤ 122) ∨ (48 ≤ n ∧ n ≤ 57)) →
    Char.ofNat n ∈ asciiAlnum := by decide

theorem mem_asciiAlnum {c : Char}
    (h : (65 ≤ c.toNat ∧ c.toNat ≤ 90) ∨ (97 ≤ c.toNat ∧ c.toNat ≤ 122) ∨ (48 ≤ c.toNat ∧ c.toNat ≤ 57)) :
    c ∈ asciiAlnum := by
  have := ascii_table c.toNat (by omega) h
  rwa [Char.ofNat_toNat] at this

theorem plainA_iff {c : Char} : plainA.Mem c ↔ Spec.ordinaryChar c = true := by
  simp only [plainA, Alpha.Mem, Spec.ordinaryChar, Bool.or_eq_true, Bool.and_eq_true, decide_eq_true_eq,
    List.mem_append, isSpace_iff, Bool.not_eq_true']
  constructor
  · rintro ((h | h) | ⟨-, h1, h2, h3⟩)
    · have : ∀ c ∈ asciiAlnum, (65 ≤ c.toNat ∧ c.toNat ≤ 90) ∨ (97 ≤ c.toNat ∧ c.toNat ≤ 122) ∨
          (48 ≤ c.toNat ∧ c.toNat ≤ 57) := by decide
      have := this c h
      grind
    · have : ∀ c ∈ (t!" ,./$" : Str), [' ', ',', '.', '/', '$'].contains c = true := by decide
      exact .inl (.inr (this c h))
    · refine .inr ⟨⟨h1, h2⟩, ?_⟩
      rw [← Bool.not_eq_true]
      intro h; exact h3 (by simpa [Spec.quotationMarks, specialChars] using h)
  · rintro ((h | h) | h)
    · exact .inl (.inl (mem_asciiAlnum (by grind)))
    · exact .inl (.inr (by simpa using h))
    · refine .inr ⟨trivial, h.1.1, h.1.2, ?_⟩
      have h3 := h.2
      rw [← Bool.not_eq_true] at h3
      intro h; exact h3 (by simpa [Spec.quotationMarks, specialChars] using h)

theorem linesA_of_plainA {c : Char} (h : plainA.Mem c) : linesA.Mem c := by
  rcases h with h | h
  · left
    simp only [plainA, linesA, List.mem_append] at h ⊢
    rcases h with h | h
    · exact .inl h
    · right
      simp only [List.mem_cons, List.not_mem_nil, or_false] at h ⊢
      grind
  · exact .inr h

theorem linesA_nl : linesA.Mem '\n' := .inl (by decide)

theorem linesA_iff {c : Char} : linesA.Mem c ↔ plainA.Mem c ∨ c = '\n' := by
  constructor
  · rintro (h | h)
    · simp only [linesA, List.mem_append, List.mem_cons, List.not_mem_nil, or_false] at h
      by_cases hc : c = '\n'
      · exact .inr hc
      · left; left
        simp only [plainA, List.mem_append, List.mem_cons, List.not_mem_nil, or_false]
        grind
    · exact .inl (.inr h)
  · rintro (h | rfl)
    · exact linesA_of_plainA h
    · exact linesA_nl

/-! ## Special cases -/

theorem ellipsis_none {U : Uni} {t : Str} (h : ∀ a b, t ≠ a ++ '.' :: '.' :: '.' :: b) (pre : Str) :
    GL_ELLIPSIS_RE.search U pre t = none := by
  apply Re.search_none_lang
  intro a w b e hl
  change (Re.seq (.grp 1 _) (.seq (.set false [.chr '.']) (.seq (.set false [.chr '.']) (.set false [.chr '.'])))).lang U w at hl
  simp only [lang_seq, lang_chr] at hl
  obtain ⟨u, v, rfl, -, _, _, rfl, rfl, _, _, rfl, rfl, rfl⟩ := hl
  exact h (a ++ u) b (by simp [e])

theorem caps_none {U : Uni} {t : Str}
    (h : ∀ a x y z b, t = a ++ x :: y :: z :: b → ¬ (U.isLu x = true ∧ U.isLu y = true ∧ U.isLu z = true)) (pre : Str) :
    DYN_3PLUS_RE.search U pre t = none := by
  apply Re.search_none_lang
  intro a w b e hl
  change (Re.seq (.grp 1 _) (.seq (.grp 2 (.seq (.seq (.set false [.cls .Lu]) (.seq (.set false [.cls .Lu])
    (.set false [.cls .Lu]))) _)) _)).lang U w at hl
  simp only [lang_seq, lang_grp, lang_set] at hl
  obtain ⟨u, v, rfl, -, _, v', rfl, ⟨_, v'', rfl, ⟨_, _, rfl, ⟨x, rfl, hx⟩, _, _, rfl, ⟨y, rfl, hy⟩, z, rfl, hz⟩, -⟩, -⟩ := hl
  refine h (a ++ u) x y z (v'' ++ v' ++ b) (by simp [e]) ⟨?_, ?_, ?_⟩
  · simpa [evalSet, Item.eval, UC.eval] using hx
  · simpa [evalSet, Item.eval, UC.eval] using hy
  · simpa [evalSet, Item.eval, UC.eval] using hz

theorem dim_none {U : Uni} {t : Str} (hA : ∀ c ∈ t, c ∉ t!"])'\"")
    (h : ∀ a d x b, Spec.isDecimal d = true → x = 'x' ∨ x = 'X' →
      t ≠ a ++ d :: x :: b ∧ t ≠ a ++ d :: ' ' :: x :: b) (pre : Str) :
    GL_DIM_RE.search U pre t = none := by
  apply Re.search_none_lang
  intro a w b e hl
  change (Re.seq (.alt (.behind _ _ _) (.behind _ _ _)) (.seq (.grp 1 (.seq (.seq (.set false [.range '0' '9'])
    (.star true (.set false [.range '0' '9'])))
      (.seq (.alt (.set false [.chr ']', .chr ')']) .eps) (.seq (.alt (.set false [.chr '\'', .chr '"']) .eps)
        (.alt (.set false [.chr ' ']) .eps))))) (.seq (.set false [.chr 'x', .chr 'X']) _))).lang U w at hl
  simp only [lang_seq, lang_alt, lang_behind, or_self, lang_grp, lang_star_set, lang_eps, lang_chr] at hl
  obtain ⟨_, _, rfl, rfl, _, _, rfl, ⟨_, _, rfl, ⟨_, ds, rfl, ⟨d, rfl, hd⟩, hds⟩, br, _, rfl, hbr, q, sp, rfl, hq, hsp⟩,
    _, v, rfl, ⟨x, rfl, hx⟩, -⟩ := hl
  have hbr' : br = [] := by
    rcases hbr with ⟨y, rfl, hy⟩ | h
    · have := hA y (by simp [e])
      simp [evalSet, Item.eval_chr] at hy
      simp at this
      grind
    · exact h
  have hq' : q = [] := by
    rcases hq with ⟨y, rfl, hy⟩ | h
    · have := hA y (by simp [e])
      simp [evalSet, Item.eval_chr] at hy
      simp at this
      grind
    · exact h
  have hxx : x = 'x' ∨ x = 'X' := by
    simp [evalSet, Item.eval_chr] at hx; exact hx
  have hdec : ∀ y ∈ d :: ds, Spec.isDecimal y = true := by
    intro y hy
    have : evalSet U false [.range '0' '9'] y = true := by
      rcases List.mem_cons.1 hy with rfl | hy
      · exact hd
      · exact hds y hy
    simpa [evalSet, Item.eval, Spec.isDecimal] using this
  obtain ⟨ds', d', hd'⟩ : ∃ ds' d', d :: ds = ds' ++ [d'] :=
    ⟨(d :: ds).dropLast, (d :: ds).getLast (by simp), (List.dropLast_concat_getLast (by simp)).symm⟩
  have hdd : Spec.isDecimal d' = true := hdec d' (by rw [hd']; simp)
  subst hbr' hq'
  have e' : t = a ++ (d :: ds) ++ (sp ++ x :: (v ++ b)) := by rw [e]; simp
  rw [hd'] at e'
  have := h (a ++ ds') d' x (v ++ b) hdd hxx
  rcases hsp with rfl | rfl
  · exact this.2 (by rw [e']; simp)
  · exact this.1 (by rw [e']; simp)

/-! ## `graf` -/

theorem early_need : earlyPatterns.all (·.need linesA) = true := by decide +kernel
theorem late_need : latePatterns.all (·.need linesA) = true := by decide +kernel
theorem table_need : TABLE_RE.need linesA = true := by decide +kernel
theorem glyph_need : glyphPatterns.all (fun r =>
    r.need linesA || r == DYN_3PLUS_RE || r == GL_DIM_RE || r == GL_ELLIPSIS_RE) = true := by decide +kernel

theorem not_linesA {c : Char} (h : c ∉ linesA.ascii) (h' : c.toNat < 128) : ¬ linesA.Mem c := by
  rintro (h1 | ⟨-, h1, -⟩)
  · exact h h1
  · omega

/-- Ordinary lines contain nothing `graf` would change. -/
theorem dim_chars {c : Char} (h : linesA.Mem c) : c ∉ t!"])'\"" := by
  simp only [List.mem_cons, List.not_mem_nil, or_false]
  rintro (rfl | rfl | rfl | rfl) <;> exact absurd h (not_linesA (by decide) (by decide))

theorem quiet_of {U : Uni} (hU : UniOk U) {t : Str} (hA : linesA.Over t)
    (hcaps : ∀ a x y z b, t = a ++ x :: y :: z :: b → ¬ (U.isLu x = true ∧ U.isLu y = true ∧ U.isLu z = true))
    (hdots : ∀ a b, t ≠ a ++ '.' :: '.' :: '.' :: b)
    (hdims : ∀ a d x b, Spec.isDecimal d = true → x = 'x' ∨ x = 'X' →
      t ≠ a ++ d :: x :: b ∧ t ≠ a ++ d :: ' ' :: x :: b)
    (hlast : ∀ c, t.getLast? = some c → c ≠ '\n') : Quiet U t := by
  have hA2 : linesA.Over (t ++ t!"\n\n") := by
    rw [Alpha.Over.append]
    exact ⟨hA, by intro c hc; simp at hc; subst hc; exact linesA_nl⟩
  constructor
  · intro r hr
    exact Re.need_search hU linesA_wf (List.all_eq_true.1 early_need r hr) hA _
  · exact Re.need_search hU linesA_wf table_need hA2 _
  · intro r hr
    have := List.all_eq_true.1 late_need r hr
    exact ⟨Re.need_search hU linesA_wf this hA _, Re.need_search hU linesA_wf this hA2 _⟩
  · intro r hr
    have := List.all_eq_true.1 glyph_need r hr
    simp only [Bool.or_eq_true, beq_iff_eq] at this
    rcases this with ((h | rfl) | rfl) | rfl
    · exact Re.need_search hU linesA_wf h hA _
    · exact caps_none hcaps _
    · exact dim_none (fun c hc => dim_chars (hA c hc)) hdims _
    · exact ellipsis_none hdots _
  · intro h; exact not_linesA (c := '<') (by decide) (by decide) (hA _ h)
  · intro h; exact not_linesA (c := '>') (by decide) (by decide) (hA _ h)
  · exact hlast

/-! ## Block tags -/

theorem Re.search_bot {U : Uni} {r : Re} {t : Str} (h : r.all U ⟨[], t⟩ [] = []) :
    (Re.seq .bot r).search U [] t = none := by
  apply Re.search_none_of
  intro a b e
  rw [all_seq]
  cases a with
  | nil => simp only [List.nil_append] at e; subst e; simpa [Re.all] using h
  | cons x a =>
    have : Re.bot.all U ⟨(x :: a).reverse ++ [], b⟩ [] = [] := by
      simp [Re.all]
    rw [this]; rfl

theorem evalSet_16 {U : Uni} {c : Char} (h : evalSet U false [.range '1' '6'] c = true) :
    c = '1' ∨ c = '2' ∨ c = '3' ∨ c = '4' ∨ c = '5' ∨ c = '6' := by
  simp only [evalSet, Item.eval, List.any_cons, List.any_nil, Bool.or_false, bne_iff_ne, ne_eq, Bool.not_eq_false,
    Bool.and_eq_true, decide_eq_true_eq] at h
  have h1 : 49 ≤ c.toNat := h.1
  have h2 : c.toNat ≤ 54 := h.2
  have : c.toNat = 49 ∨ c.toNat = 50 ∨ c.toNat = 51 ∨ c.toNat = 52 ∨ c.toNat = 53 ∨ c.toNat = 54 := by omega
  rcases this with h | h | h | h | h | h
  · exact .inl (char_toNat_inj h)
  · exact .inr (.inl (char_toNat_inj h))
  · exact .inr (.inr (.inl (char_toNat_inj h)))
  · exact .inr (.inr (.inr (.inl (char_toNat_inj h))))
  · exact .inr (.inr (.inr (.inr (.inl (char_toNat_inj h)))))
  · exact .inr (.inr (.inr (.inr (.inr (char_toNat_inj h)))))

/-- The tag words. -/
theorem tagWords_lang {U : Uni} {b : Bool} {w : Str} (h : (tagWords b).lang U w) : Spec.blockWord U.isNd b w := by
  have hp : ∀ {w : Str}, (w = t!"bq" ∨ w = t!"bc" ∨ w = t!"notextile" ∨ w = t!"pre" ∨ w = t!"p" ∨ w = t!"###") →
      Spec.fullWord U.isNd w := by
    intro w h; left; rcases h with rfl | rfl | rfl | rfl | rfl | rfl <;> decide
  cases b with
  | true =>
    change (Re.alt (.seq (.set false [.chr 'b']) (.set false [.chr 'q'])) (.alt (.seq (.set false [.chr 'b'])
      (.set false [.chr 'c'])) (.set false [.chr 'p']))).lang U w at h
    simp only [lang_alt, lang_seq, lang_chr] at h
    simp only [Spec.blockWord, if_true, Spec.liteWord]
    rcases h with ⟨_, _, rfl, rfl, rfl⟩ | ⟨_, _, rfl, rfl, rfl⟩ | rfl <;> simp
  | false =>
    simp only [Spec.blockWord, Bool.false_eq_true, if_false]
    change (Re.alt (Re.lit t!"bq") (.alt (Re.lit t!"bc") (.alt (Re.lit t!"notextile") (.alt (Re.lit t!"pre")
      (.alt (.seq (.set false [.chr 'h']) (.set false [.range '1' '6']))
      (.alt (.seq (.set false [.chr 'f']) (.seq (.set false [.chr 'n']) (.seq (.set false [.cls .digit])
        (.star true (.set false [.cls .digit])))))
      (.alt (Re.lit t!"p") (Re.lit t!"###")))))))).lang U w at h
    simp only [Re.lit, Re.seqs, List.map, lang_alt, lang_seq, lang_chr, lang_set (it := [.range '1' '6']),
      lang_set (it := [.cls .digit]), lang_star_set] at h
    rcases h with h | h | h | h | h | h | h | h
    · obtain ⟨_, _, rfl, rfl, rfl⟩ := h; exact hp (by simp)
    · obtain ⟨_, _, rfl, rfl, rfl⟩ := h; exact hp (by simp)
    · obtain ⟨_, _, rfl, rfl, _, _, rfl, rfl, _, _, rfl, rfl, _, _, rfl, rfl, _, _, rfl, rfl, _, _, rfl, rfl,
        _, _, rfl, rfl, _, _, rfl, rfl, rfl⟩ := h
      exact hp (by simp)
    · obtain ⟨_, _, rfl, rfl, _, _, rfl, rfl, rfl⟩ := h; exact hp (by simp)
    · obtain ⟨_, _, rfl, rfl, x, rfl, hx⟩ := h
      left
      rcases evalSet_16 hx with rfl | rfl | rfl | rfl | rfl | rfl <;> decide
    · obtain ⟨_, _, rfl, rfl, _, _, rfl, rfl, _, ds, rfl, ⟨d, rfl, hd⟩, hds⟩ := h
      right
      refine ⟨d, ds, rfl, ?_⟩
      intro c hc
      have : evalSet U false [.cls .digit] c = true := by
        rcases List.mem_cons.1 hc with rfl | hc
        · exact hd
        · exact hds c hc
      simpa [evalSet, Item.eval, UC.eval] using this
    · subst h; exact hp (by simp)
    · obtain ⟨_, _, rfl, rfl, _, _, rfl, rfl, rfl⟩ := h; exact hp (by simp)

theorem tagAtts_still : tagAtts.still linesA = true := by decide +kernel

/-- A text that does not start with a tag word is not recognised as a tagged block. -/
theorem tag_none {C : Ctx} (hU : UniOk C.U) {t : Str} (hA : linesA.Over t) (h : Spec.NoBlockWord C.U.isNd C.cfg.lite t) :
    (blockTagRe C).captures C.U t = none := by
  apply Re.captures_none
  rw [blockTagRe, tagRe_shape]
  apply Re.search_bot
  generalize hr : (Re.seq (.grp 1 (tagWords C.cfg.lite)) (.seq (.grp 2 tagAtts) (.seq dotRe (.seq extRe
    (.seq citeRe (.seq spRe allRe)))))) = r
  cases hl : r.all C.U ⟨[], t⟩ [] with
  | nil => rfl
  | cons p l =>
    exfalso
    obtain ⟨w, hw, lw⟩ := Re.all_lang r ⟨[], t⟩ [] p (by rw [hl]; simp)
    subst hr
    obtain ⟨u, v, rfl, hu, at', v', rfl, hat, dt, v'', rfl, hdt, -⟩ := lw
    have e : t = u ++ (at' ++ (dt ++ v'')) ++ p.1.rest := hw.1
    rw [show dt = ['.'] from lang_chr.1 hdt] at e
    have hA' := hA
    rw [e] at hA'
    simp only [Alpha.Over.append] at hA'
    have : at' = [] := Re.still_lang hU linesA_wf tagAtts_still hat hA'.1.2.1
    subst this
    exact h u (v'' ++ p.1.rest) (by rw [e]; simp) (tagWords_lang hu)

/-! ## Lines put together -/

theorem join_cons {sep l : Str} {ls : List Str} (h : ls ≠ []) :
    Spec.join sep (l :: ls) = l ++ sep ++ Spec.join sep ls := by
  cases ls with
  | nil => exact absurd rfl h
  | cons m ls => rfl

/-- A word without separator in a joined text is in one of the parts. -/
theorem infix_join {sp : Char} {w : Str} (hw : w ≠ []) (hn : sp ∉ w) : ∀ {ls : List Str} {a b : Str},
    Spec.join [sp] ls = a ++ (w ++ b) → ∃ l ∈ ls, ∃ a' b', l = a' ++ (w ++ b')
  | [], a, b, h => by
    cases w with
    | nil => exact absurd rfl hw
    | cons y w => simp [Spec.join] at h
  | [l], a, b, h => ⟨l, by simp, a, b, h⟩
  | l :: m :: ls, a, b, h => by
    rw [join_cons (by simp), List.append_assoc, List.append_eq_append_iff] at h
    rcases h with ⟨x, rfl, h⟩ | ⟨x, rfl, h⟩
    · cases x with
      | nil =>
        exfalso
        cases w with
        | nil => exact hw rfl
        | cons y w =>
          simp at h
          exact hn (by rw [h.1]; simp)
      | cons y x =>
        simp at h
        obtain ⟨l', hl', r⟩ := infix_join hw hn h.2
        exact ⟨l', List.mem_cons_of_mem _ hl', r⟩
    · rw [List.append_eq_append_iff] at h
      rcases h with ⟨y, rfl, h⟩ | ⟨y, rfl, h⟩
      · exact ⟨_, by simp, a, y, rfl⟩
      · cases y with
        | nil => exact ⟨a ++ x, by simp, a, [], by simp⟩
        | cons z y =>
          simp at h
          refine absurd ?_ hn
          rw [h.1]; simp

theorem mem_join {sep : Str} {c : Char} : ∀ {ls : List Str}, c ∈ Spec.join sep ls → c ∈ sep ∨ ∃ l ∈ ls, c ∈ l
  | [], h => by simp [Spec.join] at h
  | [l], h => .inr ⟨l, by simp, h⟩
  | l :: m :: ls, h => by
    rw [join_cons (by simp), List.mem_append, List.mem_append] at h
    rcases h with (h | h) | h
    · exact .inr ⟨l, by simp, h⟩
    · exact .inl h
    · rcases mem_join h with h | ⟨l', h1, h2⟩
      · exact .inl h
      · exact .inr ⟨l', List.mem_cons_of_mem _ h1, h2⟩

theorem join_last {sep : Str} : ∀ {ls : List Str}, (∀ l ∈ ls, l ≠ []) → ls ≠ [] →
    ∃ l ∈ ls, (Spec.join sep ls).getLast? = l.getLast?
  | [], _, h => absurd rfl h
  | [l], _, _ => ⟨l, by simp, rfl⟩
  | l :: m :: ls, h, _ => by
    obtain ⟨l', h1, h2⟩ := join_last (sep := sep) (ls := m :: ls) (fun x hx => h x (by simp at hx ⊢; simp [hx])) (by simp)
    refine ⟨l', List.mem_cons_of_mem _ h1, ?_⟩
    rw [join_cons (by simp), List.getLast?_append, h2]
    cases l' with
    | nil => exact absurd rfl (h [] (List.mem_cons_of_mem _ h1))
    | cons x l' =>
      rw [List.getLast?_cons]; rfl

theorem join_head {sep : Str} : ∀ {l : Str} {ls : List Str}, l ≠ [] → (Spec.join sep (l :: ls)).head? = l.head?
  | l, [], _ => rfl
  | l, m :: ls, h => by
    rw [join_cons (by simp)]
    cases l with
    | nil => exact absurd rfl h
    | cons x l => rfl

theorem line_ne {up : Char → Bool} {l : Str} (h : Spec.Line up l) : l ≠ [] := by
  obtain ⟨c, u, rfl, -⟩ := h.start; simp

theorem words_no_nl {up : Char → Bool} {l : Str} (h : Spec.Words up l) : '\n' ∉ l := by
  intro hn
  have := h.chars _ hn
  revert this; decide

theorem lines_over {up : Char → Bool} {ls : List Str} (h : ∀ l ∈ ls, Spec.Line up l) :
    linesA.Over (Spec.join t!"\n" ls) := by
  intro c hc
  rw [linesA_iff]
  rcases mem_join hc with h1 | ⟨l, h1, h2⟩
  · right; simpa using h1
  · left; rw [plainA_iff]; exact (h l h1).chars c h2

/-- Lines of ordinary text contain nothing `graf` would change. -/
theorem quiet_lines {U : Uni} (hU : UniOk U) {ls : List Str} (hls : ∀ l ∈ ls, Spec.Line U.isLu l) (hne : ls ≠ []) :
    Quiet U (Spec.join t!"\n" ls) := by
  have nl : U.isLu '\n' = false := by rw [hU.upper _ (by decide)]; decide
  refine quiet_of hU (lines_over hls) ?_ ?_ ?_ ?_
  · rintro a x y z b e ⟨h1, h2, h3⟩
    obtain ⟨l, hl, a', b', el⟩ := infix_join (sp := '\n') (w := [x, y, z]) (by simp)
      (by
        simp only [List.mem_cons, List.not_mem_nil, or_false]
        rintro (rfl | rfl | rfl) <;> simp_all) (ls := ls) (a := a) (b := b) (by rw [e]; simp)
    exact (hls l hl).caps a' x y z b' (by rw [el]; simp) ⟨h1, h2, h3⟩
  · intro a b e
    obtain ⟨l, hl, a', b', el⟩ := infix_join (sp := '\n') (w := t!"...") (by simp) (by decide) (ls := ls) (a := a) (b := b) (by rw [e]; rfl)
    exact (hls l hl).dots a' b' (by rw [el]; rfl)
  · intro a d x b hd hx
    have hd' : d ≠ '\n' := by rintro rfl; revert hd; decide
    have hx' : x ≠ '\n' := by rcases hx with rfl | rfl <;> decide
    constructor
    · intro e
      obtain ⟨l, hl, a', b', el⟩ := infix_join (sp := '\n') (w := [d, x]) (by simp) (by simp [hd'.symm, hx'.symm]) (ls := ls) (a := a) (b := b)
        (by rw [e]; rfl)
      exact ((hls l hl).dims a' d x b' hd hx).1 (by rw [el]; rfl)
    · intro e
      obtain ⟨l, hl, a', b', el⟩ := infix_join (sp := '\n') (w := [d, ' ', x]) (by simp) (by simp [hd'.symm, hx'.symm]) (ls := ls) (a := a) (b := b)
        (by rw [e]; rfl)
      exact ((hls l hl).dims a' d x b' hd hx).2 (by rw [el]; rfl)
  · intro c hc
    obtain ⟨l, hl, e⟩ := join_last (sep := t!"\n") (fun l hl => line_ne (hls l hl)) hne
    rw [e] at hc
    rintro rfl
    exact words_no_nl (hls l hl).toWords (List.mem_of_getLast? hc)

end Rustextile
