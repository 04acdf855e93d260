import Verif.CapRe
import Verif.SignDoc

/-!
# Texts with words in capitals
-/

namespace Rustextile

open Prog

variable {U : Uni}

/-! ## The source -/

def capA : Alpha := ⟨asciiAlnum ++ t!" ,./$\n()", true⟩

theorem capA_wf : capA.wf = true := by decide

theorem capA_lines {c : Char} (h : linesA.Mem c) : capA.Mem c := by
  rcases h with h | h
  · exact .inl ((by decide : ∀ c ∈ linesA.ascii, c ∈ capA.ascii) c h)
  · exact .inr h

theorem capital_lines {c : Char} (h : Spec.isCapital c = true) : linesA.Mem c := by
  refine linesA_iff.2 (.inl (plainA_iff.2 ?_))
  simp [Spec.isCapital] at h
  simp [Spec.ordinaryChar]
  omega

theorem low_linesA {c : Char} (h : Spec.isLowerLetter c = true) : linesA.Mem c := by
  refine linesA_iff.2 (.inl (plainA_iff.2 ?_))
  simp [Spec.isLowerLetter] at h
  simp [Spec.ordinaryChar]
  omega

theorem apart_mem : ∀ {ps : List (Spec.Caps × Str)}, Spec.AllApart ps → ∀ p ∈ ps, p.1.Ok p.2
  | [], _, p, hp => by cases hp
  | q :: ps, h, p, hp => by
    rcases List.mem_cons.1 hp with rfl | hp
    · exact h.1
    · exact apart_mem h.2.2 p hp

theorem caps_over {k : Spec.Caps} {v : Str} (h : k.Ok v) : capA.Over k.source := by
  cases k with
  | word w tail =>
    intro c hc
    rcases List.mem_append.1 hc with hc | hc
    · exact capA_lines (capital_lines (h.2.1 c hc))
    · exact capA_lines (low_linesA (h.2.2.1 c hc))
  | acronym w title =>
    intro c hc
    simp only [Spec.Caps.source, List.mem_append, List.mem_cons, List.mem_singleton, List.not_mem_nil, or_false] at hc
    rcases hc with hc | rfl | hc | rfl
    · exact capA_lines (capital_lines (h.2.1 c hc))
    · exact .inl (by decide)
    · exact capA_lines (linesA_iff.2 (.inl (plainA_iff.2 (h.2.2.2 c hc))))
    · exact .inl (by decide)

theorem capSource_over {t : Spec.CapText} (h : t.Ok U.isLu) : capA.Over t.source := by
  intro c hc
  rcases List.mem_append.1 hc with hc | hc
  · exact capA_lines (prose_over h.lead c hc)
  · simp only [Spec.capSource, List.mem_flatMap, List.mem_append] at hc
    obtain ⟨p, hp, hc | hc⟩ := hc
    · exact caps_over (apart_mem h.apart p hp) c hc
    · exact capA_lines (prose_over (h.texts p hp) c hc)

/-- A bracket is opened after a capital, and not closed at once. -/
def Parens (t : Str) : Prop := ∀ a b, t = a ++ '(' :: b → (∃ a' c, a = a' ++ [c] ∧ Spec.isCapital c = true) ∧
  ∃ x y z v r, b = x :: y :: z :: v :: r ∧ ∀ d ∈ [x, y, z, v], d ≠ ')' ∧ d ≠ ']'

theorem Parens.skip {w t : Str} (hw : '(' ∉ w) (h : Parens t) : Parens (w ++ t) := by
  intro a b e
  rcases List.append_eq_append_iff.1 e with ⟨l, rfl, e'⟩ | ⟨l, rfl, e'⟩
  · obtain ⟨⟨a', c, h1, h2⟩, h3⟩ := h l b e'
    exact ⟨⟨w ++ a', c, by rw [h1]; simp, h2⟩, h3⟩
  · cases l with
    | nil =>
      obtain ⟨⟨a', c, h1, h2⟩, h3⟩ := h [] b (by simpa using e'.symm)
      simp at h1
    | cons c l =>
      simp at e'
      exact absurd (by simp [← e'.1]) hw

theorem parens_caps : ∀ {ps : List (Spec.Caps × Str)}, Spec.AllApart ps → (∀ p ∈ ps, Spec.Prose U.isLu p.2) → Parens (Spec.capSource ps)
  | [], _, _ => by intro a b e; simp [Spec.capSource] at e
  | (.word w tail, v) :: ps, ha, ht => by
    obtain ⟨⟨_, h1, h2, _⟩, -, h4⟩ := ha
    have hv := ht _ List.mem_cons_self
    have := Parens.skip (w := w ++ (tail ++ v)) (by
      simp only [List.mem_append, not_or]
      exact ⟨capital_ne h1 (by decide), low_ne h2 (by decide), prose_noparen hv⟩) (parens_caps h4 (fun p hp => ht p (by simp [hp])))
    simpa [Spec.capSource, Spec.Caps.source] using this
  | (.acronym w title, v) :: ps, ha, ht => by
    obtain ⟨⟨h0, h1, h2, h3⟩, -, h4⟩ := ha
    have hv := ht _ List.mem_cons_self
    have hd : ∀ d ∈ title, d ≠ ')' ∧ d ≠ ']' ∧ d ≠ '(' := fun d hd => by
      refine ⟨?_, ?_, ?_⟩ <;> rintro rfl <;> exact absurd (h3 _ hd) (by decide)
    have ih := Parens.skip (w := title ++ (t!")" ++ v)) (by
      simp only [List.mem_append, not_or]
      exact ⟨fun hm => (hd _ hm).2.2 rfl, by decide, prose_noparen hv⟩) (parens_caps h4 (fun p hp => ht p (by simp [hp])))
    have e0 : Spec.capSource ((.acronym w title, v) :: ps) = w ++ '(' :: (title ++ (t!")" ++ v) ++ Spec.capSource ps) := by
      simp [Spec.capSource, Spec.Caps.source]
    rw [e0]
    intro a b e
    have hw : '(' ∉ w := capital_ne h1 (by decide)
    rcases List.append_eq_append_iff.1 e with ⟨l, rfl, e'⟩ | ⟨l, rfl, e'⟩
    · cases l with
      | nil =>
        simp only [List.nil_append, List.cons.injEq, true_and] at e'
        constructor
        · rcases List.eq_nil_or_concat w with rfl | ⟨u, c, e2⟩
          · simp at h0
          · rw [List.concat_eq_append] at e2
            exact ⟨u, c, by rw [e2]; simp, h1 c (by rw [e2]; simp)⟩
        · match title, h2, hd with
          | x :: y :: z :: v' :: r, _, hd =>
            refine ⟨x, y, z, v', _, by rw [← e']; rfl, fun d hm => ?_⟩
            have := hd d (by simp at hm ⊢; rcases hm with h | h | h | h <;> simp [h])
            exact ⟨this.1, this.2.1⟩
      | cons c l =>
        simp only [List.cons_append, List.cons.injEq] at e'
        obtain ⟨⟨a', c', h5, h6⟩, h7⟩ := ih l b e'.2
        exact ⟨⟨w ++ c :: a', c', by rw [h5]; simp, h6⟩, h7⟩
    · cases l with
      | nil =>
        simp only [List.nil_append, List.cons.injEq, true_and] at e'
        constructor
        · simp only [List.append_nil] at *
          rcases List.eq_nil_or_concat a with rfl | ⟨u, c, e2⟩
          · simp at h0
          · rw [List.concat_eq_append] at e2
            exact ⟨u, c, e2, h1 c (by rw [e2]; simp)⟩
        · match title, h2, hd with
          | x :: y :: z :: v' :: r, _, hd =>
            refine ⟨x, y, z, v', _, by rw [e']; rfl, fun d hm => ?_⟩
            have := hd d (by simp at hm ⊢; rcases hm with h | h | h | h <;> simp [h])
            exact ⟨this.1, this.2.1⟩
      | cons c l =>
        simp at e'
        exact absurd (by simp [← e'.1]) hw

theorem parens_source {t : Spec.CapText} (h : t.Ok U.isLu) : Parens t.source :=
  Parens.skip (prose_noparen h.lead) (parens_caps h.apart h.texts)

theorem near_search {r : Re} {K : List (Char → Bool)} (hn : Near U r K) {t : Str} (h : ∀ a b, t = a ++ b → coreAt K b = false) (pre : Str) :
    r.search U pre t = none := by
  apply Re.search_none_lang
  intro a w b e hl
  rcases hn w b hl with h1 | h1
  · rw [h a (w ++ b) e] at h1; cases h1
  · cases hw : w ++ b with
    | nil => rw [hw] at h1; change coreAt K [] = true at h1; rw [h t [] (by simp)] at h1; cases h1
    | cons c v =>
      rw [hw] at h1
      change coreAt K v = true at h1
      rw [h (a ++ [c]) v (by rw [e, hw]; simp)] at h1
      cases h1

theorem parens_core {t : Str} (hp : Parens t) (hb : '[' ∉ t) {L : List Str} (hL : L ∈ [[t!"tT", t!"mM"], [t!"rR"], [t!"cC"], [t!"1", t!"/", t!"2"], [t!"1", t!"/", t!"4"], [t!"3", t!"/", t!"4"], [t!"o"]]) :
    ∀ a b, t = a ++ b → coreAt (setsK (t!"([" :: (L ++ [t!"])"]))) b = false := by
  intro a b e
  cases b with
  | nil => rfl
  | cons c b =>
    by_cases hc : c = '('
    · subst hc
      obtain ⟨-, x, y, z, v, r, rfl, hd⟩ := hp a b e
      have hx := hd x (by simp)
      have hy := hd y (by simp)
      have hz := hd z (by simp)
      have hv := hd v (by simp)
      simp only [List.mem_cons, List.not_mem_nil, or_false] at hL
      rcases hL with rfl | rfl | rfl | rfl | rfl | rfl | rfl <;> simp [setsK, coreAt, hx, hy, hz, hv]
    · have : c ≠ '[' := by rintro rfl; exact hb (by rw [e]; simp)
      simp [setsK, coreAt, hc, this]

set_option maxRecDepth 100000 in
theorem cap_need : (earlyPatterns.all fun r => r.need capA || r == QUOTED_RE) = true ∧ latePatterns.all (·.need capA) = true ∧
    TABLE_RE.need capA = true ∧ NOTEDEF_RE.need capA = true ∧ DIVIDER_RE.need capA = true ∧ LONE_AMP_RE.need capA = true := by decide +kernel

theorem quoted_caps {t : Str} (ho : capA.Over t) (hp : Parens t) : QUOTED_RE.search U [] t = none := by
  apply Re.search_none_lang
  intro a w b e hl
  change (Re.seq (.set false [.chr ' ']) (.seq (.grp 1 (.set false ([ '"', '\'', '(', '{', '[', '«', '»', '‹', '›', '„', '‚', '‘', '”'].map .chr))) _)).lang U w at hl
  simp only [lang_seq, lang_grp, lang_set] at hl
  obtain ⟨_, _, rfl, ⟨s, rfl, hs⟩, _, v, rfl, ⟨q, rfl, hq⟩, -⟩ := hl
  rw [evalSet_chrs] at hq
  simp [evalSet, Item.eval_chr] at hs
  subst hs
  have hm := ho q (by rw [e]; simp)
  have hq' : q = '(' := by
    rcases hm with hm | hm
    · exact (by decide : ∀ q ∈ capA.ascii, [ '"', '\'', '(', '{', '[', '«', '»', '‹', '›', '„', '‚', '‘', '”'].contains q = true → q = '(') q hm hq
    · exfalso
      have h1 := hm.2.2.2
      have h2 := hm.2.1
      exact (by decide : ∀ q ∈ [ '"', '\'', '(', '{', '[', '«', '»', '‹', '›', '„', '‚', '‘', '”'], ¬ (128 ≤ q.toNat ∧ q ∉ specialChars)) q (by simpa using hq) ⟨h2, h1⟩
  subst hq'
  obtain ⟨⟨a', c, h1, h2⟩, -⟩ := hp (a ++ [' ']) (v ++ b) (by rw [e]; simp)
  have := List.append_inj' h1 rfl
  simp at this
  rw [← this.2] at h2
  exact absurd h2 (by decide)

theorem cap_quiet (hU : UniOk U) {t : Spec.CapText} (h : t.Ok U.isLu) : FnQuiet U t.source := by
  have ho := capSource_over h
  obtain ⟨n1, n2, n3, n4, n5, -⟩ := cap_need
  have hnl : ∀ n : Str, (n = [] ∨ n = t!"\n\n") → capA.Over (t.source ++ n) := by
    intro n hn
    refine Alpha.Over.append.2 ⟨ho, ?_⟩
    rcases hn with rfl | rfl <;> intro c hc
    · cases hc
    · exact .inl ((by decide : ∀ c ∈ t!"\n\n", c ∈ capA.ascii) c hc)
  refine ⟨fun r hr => ?_, Re.need_search hU capA_wf n3 (hnl _ (.inr rfl)) [], fun n hn r hr _ => Re.need_search hU capA_wf (List.all_eq_true.1 n2 r hr) (hnl n hn) [],
    Re.need_search hU capA_wf n4 ho [], Re.need_search hU capA_wf n5 ho []⟩
  have := List.all_eq_true.1 n1 r hr
  rw [Bool.or_eq_true] at this
  rcases this with h1 | h1
  · exact Re.need_search hU capA_wf h1 ho []
  · rw [eq_of_beq h1]
    exact quoted_caps ho (parens_source h)

/-! ## Glyphs -/

theorem dim_caps {t : Str} (hA : ∀ c ∈ t, c ∉ t!"]'\"")
    (h : ∀ a d e b, Spec.isDecimal d = true → e = [] ∨ e = [')'] → ∀ x, x = 'x' ∨ x = 'X' →
      t ≠ a ++ d :: (e ++ x :: b) ∧ t ≠ a ++ d :: (e ++ ' ' :: x :: b)) (pre : Str) :
    GL_DIM_RE.search U pre t = none := by
  apply Re.search_none_lang
  intro a w b e hl
  change (Re.seq (.alt (.behind _ _ _) (.behind _ _ _)) (.seq (.grp 1 (.seq (.seq (.set false [.range '0' '9'])
    (.star true (.set false [.range '0' '9'])))
      (.seq (.alt (.set false [.chr ']', .chr ')']) .eps) (.seq (.alt (.set false [.chr '\'', .chr '"']) .eps)
        (.alt (.set false [.chr ' ']) .eps))))) (.seq (.set false [.chr 'x', .chr 'X']) _))).lang U w at hl
  simp only [lang_seq, lang_alt, lang_behind, or_self, lang_grp, lang_star_set, lang_eps, lang_chr] at hl
  obtain ⟨_, _, rfl, rfl, _, _, rfl, ⟨_, _, rfl, ⟨_, ds, rfl, ⟨d, rfl, hd⟩, hds⟩, br, _, rfl, hbr, q, sp, rfl, hq, hsp⟩,
    _, v, rfl, ⟨x, rfl, hx⟩, -⟩ := hl
  have hbr' : br = [] ∨ br = [')'] := by
    rcases hbr with ⟨y, rfl, hy⟩ | h
    · have := hA y (by simp [e])
      simp [evalSet, Item.eval_chr] at hy
      simp at this
      right
      rcases hy with rfl | rfl
      · exact absurd rfl this.1
      · rfl
    · exact .inl h
  have hq' : q = [] := by
    rcases hq with ⟨y, rfl, hy⟩ | h
    · have := hA y (by simp [e])
      simp [evalSet, Item.eval_chr] at hy
      simp at this
      grind
    · exact h
  have hxx : x = 'x' ∨ x = 'X' := by
    simp [evalSet, Item.eval_chr] at hx; exact hx
  have hdec : ∀ y ∈ d :: ds, Spec.isDecimal y = true := by
    intro y hy
    have : evalSet U false [.range '0' '9'] y = true := by
      rcases List.mem_cons.1 hy with rfl | hy
      · exact hd
      · exact hds y hy
    simpa [evalSet, Item.eval, Spec.isDecimal] using this
  obtain ⟨ds', d', hd'⟩ : ∃ ds' d', d :: ds = ds' ++ [d'] :=
    ⟨(d :: ds).dropLast, (d :: ds).getLast (by simp), (List.dropLast_concat_getLast (by simp)).symm⟩
  have hdd : Spec.isDecimal d' = true := hdec d' (by rw [hd']; simp)
  subst hq'
  have e' : t = a ++ (d :: ds) ++ (br ++ (sp ++ x :: (v ++ b))) := by rw [e]; simp
  rw [hd'] at e'
  have hN := h (a ++ ds') d' br (v ++ b) hdd hbr' x hxx
  rcases hsp with rfl | rfl
  · exact hN.2 (by rw [e']; simp)
  · exact hN.1 (by rw [e']; simp)

set_option maxRecDepth 100000 in
theorem cap_glyph_need : [GL_APOS_RE, GL_88_RE, GL_SOPENB_RE, GL_SCLOSE_RE, GL_SOPEN_RE, GL_DOPENB_RE, GL_DCLOSE_RE, GL_DOPEN_RE,
    GL_AMP_RE, GL_EMDASH_RE, GL_ENDASH_RE, GL_PM_RE].all (·.need capA) = true := by decide +kernel

theorem cap_start {t : Spec.CapText} (h : t.Ok U.isLu) : t.parts ≠ [] → t.lead = [] ∧ AtStart U [] ∨ Spec.EndsInSpace t.lead := fun hne => by
  rcases h.start hne with h | h
  · exact .inl ⟨h, .inl rfl⟩
  · exact .inr h

theorem glyphText_caps {C : Ctx} (hU : UniOk C.U) (hu : '$' ∉ C.cfg.uid) (hcap : C.cfg.capsTempl = capsTemplate C.cfg.uid) {t : Spec.CapText} (h : t.Ok C.U.isLu) :
    glyphText C t.source = t.lead ++ capOut C.cfg.uid C.cfg.html5 t.parts := by
  have ho := capSource_over h
  have hp := parens_source h
  have hno : ∀ c, c ∉ capA.ascii → c.toNat < 128 → c ∉ t.source := fun c h1 h2 hm => Alpha.not_mem h1 h2 (ho c hm)
  have hraw : (if C.cfg.restricted then t.source
    else replaceStr t!">" t!"&gt;" (replaceStr t!"<" t!"&lt;" (LONE_AMP_RE.replaceTempl C.U t!"&amp;" t.source))) = t.source := by
    split
    · rfl
    · rw [Re.replaceTempl_none _ (Re.need_search hU capA_wf cap_need.2.2.2.2.2 ho []),
        replaceStr_none (containsStr_false_of_mem (c := '<') (by simp) (hno _ (by decide) (by decide))),
        replaceStr_none (containsStr_false_of_mem (c := '>') (by simp) (hno _ (by decide) (by decide)))]
  have hn : ∀ r tm, r ∈ [GL_APOS_RE, GL_88_RE, GL_SOPENB_RE, GL_SCLOSE_RE, GL_SOPEN_RE, GL_DOPENB_RE, GL_DCLOSE_RE, GL_DOPEN_RE,
      GL_AMP_RE, GL_EMDASH_RE, GL_ENDASH_RE, GL_PM_RE] → r.replaceTempl C.U tm t.source = t.source := fun r tm hr =>
    Re.replaceTempl_none _ (Re.need_search hU capA_wf (List.all_eq_true.1 cap_glyph_need r hr) ho [])
  have hdim : ∀ tm, GL_DIM_RE.replaceTempl C.U tm t.source = t.source := fun tm =>
    Re.replaceTempl_none _ (dim_caps (fun c hc hm => by
      have h1 : c ∉ capA.ascii ∧ c.toNat < 128 := (by decide : ∀ c ∈ t!"]'\"", c ∉ capA.ascii ∧ c.toNat < 128) c hm
      exact hno c h1.1 h1.2 hc) h.dims [])
  have hell : ∀ tm, GL_ELLIPSIS_RE.replaceTempl C.U tm t.source = t.source := fun tm => Re.replaceTempl_none _ (ellipsis_none h.dots [])
  have hb : '[' ∉ t.source := hno _ (by decide) (by decide)
  have hsg : ∀ L ∈ [[t!"tT", t!"mM"], [t!"rR"], [t!"cC"], [t!"1", t!"/", t!"2"], [t!"1", t!"/", t!"4"], [t!"3", t!"/", t!"4"], [t!"o"]],
      (Re.seq (.grp 1 bndRe) (setsRe (t!"([" :: (L ++ [t!"])"])))).search C.U [] t.source = none ∧ (setsRe (t!"([" :: (L ++ [t!"])"]))).search C.U [] t.source = none :=
    fun L hL => ⟨near_search bnd_near (parens_core hp hb hL) [], near_search near_sets (parens_core hp hb hL) []⟩
  have htm : ∀ tm, GL_TM_RE.replaceTempl C.U tm t.source = t.source := fun tm => Re.replaceTempl_none _ (by rw [TM_shape]; exact (hsg [t!"tT", t!"mM"] (by simp)).1)
  have hr : ∀ tm, GL_R_RE.replaceTempl C.U tm t.source = t.source := fun tm => Re.replaceTempl_none _ (by rw [R_shape]; exact (hsg [t!"rR"] (by simp)).1)
  have hc : ∀ tm, GL_C_RE.replaceTempl C.U tm t.source = t.source := fun tm => Re.replaceTempl_none _ (by rw [C_shape]; exact (hsg [t!"cC"] (by simp)).1)
  have h12 : ∀ tm, GL_12_RE.replaceTempl C.U tm t.source = t.source := fun tm => Re.replaceTempl_none _ (by rw [HALF_shape]; exact (hsg [t!"1", t!"/", t!"2"] (by simp)).2)
  have h14 : ∀ tm, GL_14_RE.replaceTempl C.U tm t.source = t.source := fun tm => Re.replaceTempl_none _ (by rw [QUARTER_shape]; exact (hsg [t!"1", t!"/", t!"4"] (by simp)).2)
  have h34 : ∀ tm, GL_34_RE.replaceTempl C.U tm t.source = t.source := fun tm => Re.replaceTempl_none _ (by rw [THREE_shape]; exact (hsg [t!"3", t!"/", t!"4"] (by simp)).2)
  have hdeg : ∀ tm, GL_DEG_RE.replaceTempl C.U tm t.source = t.source := fun tm => Re.replaceTempl_none _ (by rw [DEG_shape]; exact (hsg [t!"o"] (by simp)).2)
  have hacr : GL_ACR_RE.replaceTempl C.U (acrTempl C.cfg.html5) t.source = t.lead ++ capMid C.cfg.html5 t.parts :=
    Re.replaceTempl_eq ACR_nonnull (acr_scan hU C.cfg.html5 (prose_noparen h.lead) (cap_start h) h.apart h.texts)
  have hdyn : DYN_3PLUS_RE.replaceTempl C.U (capsTemplate C.cfg.uid) (t.lead ++ capMid C.cfg.html5 t.parts) = t.lead ++ capOut C.cfg.uid C.cfg.html5 t.parts := by
    refine Re.replaceTempl_eq DYN_nonnull (dyn_scan hU C.cfg.html5 hu h.lead.caps (fun hne => ?_) h.apart h.texts)
    rcases h.start hne with h | h
    · exact .inl ⟨h, rfl⟩
    · exact .inr h
  unfold glyphText
  simp only [hraw, glyphReplacers, List.cons_append, List.nil_append, multiReplace, hcap]
  rw [hdim]
  simp only [hn _ _ (List.Mem.head _), hn GL_88_RE _ (by simp), hn GL_SOPENB_RE _ (by simp), hn GL_SCLOSE_RE _ (by simp), hn GL_SOPEN_RE _ (by simp), hn GL_DOPENB_RE _ (by simp),
    hn GL_DCLOSE_RE _ (by simp), hn GL_DOPEN_RE _ (by simp), hell, hn GL_AMP_RE _ (by simp), hn GL_EMDASH_RE _ (by simp), hn GL_ENDASH_RE _ (by simp), htm, hr, hc, h12, h14, h34, hdeg,
    hn GL_PM_RE _ (by simp)]
  change DYN_3PLUS_RE.replaceTempl C.U _ (GL_ACR_RE.replaceTempl C.U (acrTempl C.cfg.html5) t.source) = _
  rw [hacr, hdyn]

end Rustextile
