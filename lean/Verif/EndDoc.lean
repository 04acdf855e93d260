import Verif.EndText

/-!
# Documents with endnotes
-/

namespace Rustextile

open Prog

/-! ## Texts with references -/

theorem enOk_of {U : Uni} {t : Spec.EnText} (h : t.Ok U.isLu) : EnOk U t.lead t.refs :=
  ⟨h.texts _ (by simp [Spec.EnText.texts]), fun r hr => h.texts _ (by simp only [Spec.EnText.texts, List.mem_cons, List.mem_map]; exact .inr ⟨r, hr, rfl⟩), h.labels⟩

theorem enSource_eq (t : Spec.EnText) : t.source = t.lead ++ enRefs t.refs := rfl

theorem enLead_ne {upper : Char → Bool} {t : Spec.EnText} (h : t.Ok upper) : t.lead ≠ [] := by
  obtain ⟨c, u, e, -⟩ := h.first; rw [e]; simp

theorem enFirst {U : Uni} {t : Spec.EnText} (h : t.Ok U.isLu) : ∃ c u, t.source = c :: u ∧ isWs c = false := by
  obtain ⟨c, u, e, h1, h2⟩ := h.first
  refine ⟨c, u ++ enRefs t.refs, by rw [enSource_eq, e]; rfl, ?_⟩
  have := prose_over (h.texts t.lead (by simp [Spec.EnText.texts])).1 c (by rw [e]; simp)
  rcases ink_or_gap this with hc | ⟨-, rfl | rfl⟩
  · rcases hc with hc | hc
    · exact (by decide +kernel : ∀ c ∈ inkA.ascii, isWs c = false) c hc
    · exact hc.2.2.1
  · exact absurd rfl h1
  · exact absurd rfl h2

theorem en_lined {U : Uni} : ∀ {rs : List (Str × Str)} {w : Str}, EnOk U w rs → lined (w ++ enRefs rs) = true ∧ '\r' ∉ w ++ enRefs rs
  | [], w, h => by
    refine ⟨lined_append (prose_lined (up := U.isLu) h.lead.1.chars h.lead.1.lines) rfl (fun e => absurd rfl (nospace_last h.lead.2 _ e)), ?_⟩
    simp [enRefs]
    exact prose_nochar h.lead.1 (by decide) (by decide)
  | r :: rs, w, h => by
    obtain ⟨h1, h2⟩ := en_lined h.tail
    have hl := h.labels r (by simp)
    have n1 : '\n' ∉ r.1 := label_not (by decide +kernel) hl
    have n2 : '\r' ∉ r.1 := label_not (by decide +kernel) hl
    rw [enRefs_cons]
    have e : '[' :: '#' :: (r.1 ++ ']' :: (r.2 ++ enRefs rs)) = ('[' :: '#' :: (r.1 ++ t!"]")) ++ (r.2 ++ enRefs rs) := by simp
    constructor
    · refine lined_append (prose_lined (up := U.isLu) h.lead.1.chars h.lead.1.lines) ?_ (fun e => absurd rfl (nospace_last h.lead.2 _ e))
      rw [e]
      exact lined_text (by simp [n1]) h1
    · rw [e]
      simp at h2
      simp [h2, n2, prose_nochar h.lead.1 (by decide : '\r' ∉ linesA.ascii) (by decide)]

theorem en_tagLines {U : Uni} {t : Spec.EnText} (h : t.Ok U.isLu) {p : Str} (h1 : '\n' ∉ p ∧ '\r' ∉ p) (h2 : ∃ c u, p = c :: u ∧ isWs c = false) :
    (∃ ls, ls ≠ [] ∧ (∀ l ∈ ls, Spec.RawLine l) ∧ p ++ t.source = Spec.join t!"\n" ls) ∧ ∃ c u, p ++ t.source = c :: u ∧ isWs c = false := by
  obtain ⟨k1, k2⟩ := en_lined (enOk_of h)
  obtain ⟨c, u, rfl, hc⟩ := h2
  refine ⟨?_, c, _, rfl, hc⟩
  exact lines_of _ (p := c :: u) k1 (by simp at k2 h1; simp [h1, k2, enSource_eq]) h1.1 (blank_not hc)

theorem en_lines {U : Uni} {t : Spec.EnText} (h : t.Ok U.isLu) :
    ∃ ls, ls ≠ [] ∧ (∀ l ∈ ls, Spec.RawLine l) ∧ t.source = Spec.join t!"\n" ls := by
  obtain ⟨k1, k2⟩ := en_lined (enOk_of h)
  rw [← enSource_eq] at k1 k2
  obtain ⟨c, u, e, hc⟩ := enFirst h
  rw [e] at k1 k2 ⊢
  have := lines_of u (p := [c]) (lined_tail k1) k2 (by simp; rintro rfl; revert hc; decide) (blank_not hc)
  simpa using this

theorem en_begins {C : Ctx} (hU : UniOk C.U) {t : Spec.EnText} (h : t.Ok C.U.isLu) : Begins C t.source := by
  have := enQuiet hU (enOk_of h) (enLead_ne h)
  exact ⟨enFirst h, this.notedef, Re.isMatch_none this.divider⟩

/-- A word without `<` at the start of a text that goes on with a tag. -/
theorem prefix_tagged : ∀ {k w x : Str}, '<' ∉ k → (x = [] ∨ ∃ y, x = '<' :: y) → k <+: w ++ x → k <+: w
  | [], _, _, _, _, _ => List.nil_prefix
  | c :: k, w, x, hk, hx, hp => by
    cases w with
    | nil =>
      exfalso
      rcases hx with rfl | ⟨y, rfl⟩
      · simp at hp
      · simp only [List.nil_append, List.cons_prefix_cons] at hp
        exact hk (by simp [hp.1])
    | cons d w =>
      simp only [List.cons_append, List.cons_prefix_cons] at hp ⊢
      exact ⟨hp.1, prefix_tagged (fun hm => hk (by simp [hm])) hx hp.2⟩

theorem notelist_en {base : Str} {t : Spec.EnText} {B : Spec.Book} (hn : ¬ Spec.notelistWord <+: t.lead) :
    ¬ Spec.notelistWord <+: weave t.lead (enPairs base B t.refs) := by
  intro h
  refine hn (prefix_tagged (by decide) ?_ h)
  cases t.refs with
  | nil => exact .inl rfl
  | cons r rs => exact .inr ⟨_, rfl⟩

theorem enHtml_eq (br base : Str) : ∀ {rs : List (Str × Str)} {w : Str} {B : Spec.Book},
    weaveHtml br w (enPairs base B rs) = Spec.breakLines br w ++ Spec.endRefsHtml br base B rs
  | [], w, B => by simp [weaveHtml, enPairs, Spec.endRefsHtml]
  | r :: rs, w, B => by
    have ih := enHtml_eq br base (rs := rs) (w := r.2) (B := B.refer r.1)
    have hl : Spec.breakLines br (natStr (enNum B r.1)) = natStr (enNum B r.1) := breakLines_nonl (fun hm => by
      have := natStr_decimal _ _ hm; revert this; decide)
    have h0 : Spec.breakLines br [] = [] := rfl
    simp only [Spec.endRefsHtml, enRefHtml_eq, List.append_assoc, ← ih, enPairs, enRefPairs, List.cons_append, List.nil_append, weaveHtml_cons, hl, h0]

theorem Num.starts {N : Spec.Numbers} {σ σ' : PState} (h : Num N σ) (e : σ'.aux.olStarts = σ.aux.olStarts) : Num N σ' := by
  intro k; rw [e]; exact h k

theorem act_enPara {C : Ctx} {base : Str} (D : DocCtx C base) (hp : C.cfg.linkPrefix = base ++ t!"-") {t : Spec.EnText} (h : t.Ok C.U.isLu)
    (hs : Spec.NoBlockStart C.U.isNd C.cfg.lite t.source) (hn : ¬ Spec.notelistWord <+: t.lead) (N : Spec.Numbers) (B : Spec.Book) :
    Act C (fun σ => Num N σ ∧ BookState base B σ) (fun σ => Num N σ ∧ BookState base (t.book B) σ) t.source 0
      (Spec.elementWith t!"p" [] (t.html C.cfg.brTag base B)) := by
  have hf := enOk_of h
  have := act_body D (P := fun σ => Num N σ ∧ BookState base B σ) (P' := fun σ => Num N σ ∧ BookState base (t.book B) σ) (tag := t!"p") (att := []) (n := 0)
    ⟨en_lines h, enFirst h⟩ (by decide) (by simp)
    (en_woven (C := C) D.uni D.plain hf (B := B)) ?_
  · rwa [enHtml_eq] at this
  · intro σ hσ _
    obtain ⟨σ', g1, g2, g3⟩ := graf_en D hp hf (enLead_ne h) hσ.2
    obtain ⟨q, hq⟩ := body_para D g1 (en_begins D.uni h) (tag_none_of hs) (hasRawText_en D.uni D.plain hf h.first) (notelist_en hn)
    exact ⟨σ', q, by rw [openTagA_nil]; exact hq, Num.starts hσ.1 g3, g2⟩

theorem act_enStyled {C : Ctx} {base : Str} (D : DocCtx C base) (hp : C.cfg.linkPrefix = base ++ t!"-") {t : Spec.EnText} (h : t.Ok C.U.isLu)
    {tag : Str} {a : Spec.Atts} (ha : a.Ok) (hb : a.left = 0)
    (ht : tag ∈ t!"p" :: (if C.cfg.lite then [] else [t!"h1", t!"h2", t!"h3", t!"h4", t!"h5", t!"h6"]))
    (hn : tag = t!"p" → ¬ Spec.notelistWord <+: t.lead) (htok : ¬ C.cfg.uid <:+: tag ++ (a.source ++ (t!". " ++ t.source))) (N : Spec.Numbers) (B : Spec.Book) :
    Act C (fun σ => Num N σ ∧ BookState base B σ) (fun σ => Num N σ ∧ BookState base (t.book B) σ) (tag ++ (a.source ++ (t!". " ++ t.source))) 0
      (Spec.elementWith tag (a.html C.cfg.restricted) (t.html C.cfg.brTag base B)) := by
  have hf := enOk_of h
  obtain ⟨m1, m2⟩ := tagged_mem ht
  have hca : containsStr C.cfg.uid a.source = false := contains_of_not (fun hi => htok (infix_source (.inl hi)))
  have hlt : '<' ∉ a.html C.cfg.restricted := (atts_tagText D.plain ha (by rw [← D.uid]; exact hca) _).nolt
  obtain ⟨a1, a2⟩ := atts_nonl ha
  obtain ⟨g1, g2, -, g3⟩ := tagged_chars tag m1
  have hl := en_tagLines h (p := tag ++ (a.source ++ t!". ")) ⟨by simp [a1, g1], by simp [a2, g2]⟩ (by
    obtain ⟨c, u, rfl, hc⟩ := g3; exact ⟨c, _, rfl, hc⟩)
  rw [show tag ++ (a.source ++ t!". ") ++ t.source = tag ++ (a.source ++ (t!". " ++ t.source)) by simp] at hl
  have := act_body D (P := fun σ => Num N σ ∧ BookState base B σ) (P' := fun σ => Num N σ ∧ BookState base (t.book B) σ) (n := 0)
    hl m1 hlt (en_woven (C := C) D.uni D.plain hf (B := B)) ?_
  · rwa [enHtml_eq] at this
  · intro σ hσ _
    obtain ⟨σ', g1, g2, g3⟩ := graf_en D hp hf (enLead_ne h) hσ.2
    obtain ⟨q, hq⟩ := body_styled D ha hca (.inl hb) g1 (en_begins D.uni h) m1 m2 (fun e => notelist_en (hn e))
    exact ⟨σ', q, hq, Num.starts hσ.1 g3, g2⟩

/-- Blocks without references keep the notes. -/
theorem act_enOther {C : Ctx} {base : Str} (D : DocCtx C base) (hp : C.cfg.linkPrefix = base ++ t!"-") (hz : C.cfg.getSizes = false) (hno : C.cfg.noimage = false)
    {ok : Char → Prop} (ha : ∀ c, c.toNat < 128 → ok c) {b : Spec.ImBlock} (hL : Lowers C.U ok)
    (h : b.Ok C.U.isLu C.U.isNd C.cfg.lite C.cfg.restricted) (hc : ∀ c ∈ b.chars, ok c)
    (hR : b.Resolved (Spec.Resolves C.E.urlParse C.E.urlJoin C.cfg.restricted) (Spec.Reads C.E.urlParse C.E.urlJoin) C.cfg.rel)
    (hsrc : ¬ C.cfg.uid <:+: b.source) (htok : ¬ C.cfg.uid <:+: imBlockSeen C.cfg.restricted b) (N : Spec.Numbers) (B : Spec.Book) :
    Act C (fun σ => Num N σ ∧ BookState base B σ) (fun σ => Num (b.numbers N C.cfg.restricted) σ ∧ BookState base ⟨b.notes B.foot C.cfg.restricted, B.ends⟩ σ)
      (imBlockSeen C.cfg.restricted b) b.marks (b.html C.cfg.brTag C.cfg.restricted (useAlignClass C.cfg) base N B.foot) := by
  have hact := fun aux0 => act_im (aux0 := aux0) D hp hz hno ha hL h hc hR hsrc htok N B.foot
  refine ⟨(hact {}).lines, (hact {}).first, ?_, (hact {}).ending⟩
  intro σ hσ hd
  obtain ⟨σ', q, mid, h1, h2, h3, h4⟩ := (hact { σ.aux with olStarts := [] }).run σ ⟨hσ.1, hσ.2.look, hσ.2.link, rfl⟩ hd
  refine ⟨σ', q, mid, h1, h2, ⟨h3.1, h3.2.look, h3.2.link, ?_⟩, h4⟩
  have hr := h3.2.rest
  refine hσ.2.ends.congr ?_ ?_ ?_
  · have e := congrArg Aux.notes hr; exact e
  · have e := congrArg Aux.noteIndex hr; exact e
  · have e := congrArg Aux.notelistCache hr; exact e

/-! ## Definitions -/

theorem NOTEDEF_shape : NOTEDEF_RE = .seq .bot (.seq (.set false [.chr 'n']) (.seq (.set false [.chr 'o']) (.seq (.set false [.chr 't']) (.seq (.set false [.chr 'e'])
    (.seq (.set false [.chr '#'])
    (.seq (.grp 1 (.seq (.set true [.chr '%', .chr '<', .chr '*', .chr '!', .chr '@', .chr '#', .chr '^', .chr '(', .chr '[', .chr '{', .chr ' ', .cls .space, .chr '.'])
        (.star true (.set true [.chr '%', .chr '<', .chr '*', .chr '!', .chr '@', .chr '#', .chr '^', .chr '(', .chr '[', .chr '{', .chr ' ', .cls .space, .chr '.']))))
    (.seq (.grp 2 (.alt (.set false [.chr '*', .chr '!', .chr '^']) .eps))
    (.seq (.grp 3 groupsRe)
    (.seq (.alt (.set false [.chr '.']) .eps)
    (.seq (.seq (.set false [.cls .space]) (.star true (.set false [.cls .space])))
    (.seq (.grp 4 (.star true (.set true [.chr '\n']))) .eot))))))))))) := by kernel_rfl

/-- The source of a definition. -/
def defSource (l : Str) (back : Option Spec.Back) (gs : List Spec.Group) (t : Str) : Str :=
  t!"note#" ++ (l ++ (back.toList.map Spec.Back.mark ++ (gs.flatMap Spec.Group.source ++ (t!". " ++ t))))

theorem group_open (g : Spec.Group) : ∃ c u, g.source = c :: u ∧ c ∈ t!"([{" := by
  cases g with
  | classes n i => cases i <;> exact ⟨'(', _, rfl, by simp⟩
  | style ds => exact ⟨'{', _, rfl, by simp⟩
  | lang l => exact ⟨'[', _, rfl, by simp⟩

theorem groups_next (gs : List Spec.Group) (t : Str) : ∃ c u, gs.flatMap Spec.Group.source ++ (t!". " ++ t) = c :: u ∧ c ∈ t!"([{." := by
  cases gs with
  | nil => exact ⟨'.', _, rfl, by simp⟩
  | cons g gs =>
    obtain ⟨c, u, e, h⟩ := group_open g
    refine ⟨c, _, by rw [List.flatMap_cons, e]; rfl, ?_⟩
    simp at h ⊢
    rcases h with rfl | rfl | rfl <;> simp

theorem back_next (back : Option Spec.Back) (gs : List Spec.Group) (t : Str) :
    ∃ c u, back.toList.map Spec.Back.mark ++ (gs.flatMap Spec.Group.source ++ (t!". " ++ t)) = c :: u ∧ c ∈ t!"([{.*^!" := by
  cases back with
  | none =>
    obtain ⟨c, u, e, h⟩ := groups_next gs t
    exact ⟨c, u, e, (by decide : ∀ c ∈ t!"([{.", c ∈ t!"([{.*^!") c h⟩
  | some b => cases b <;> exact ⟨_, _, rfl, by decide⟩

def defItems : List Item :=
  [.chr '%', .chr '<', .chr '*', .chr '!', .chr '@', .chr '#', .chr '^', .chr '(', .chr '[', .chr '{', .chr ' ', .cls .space, .chr '.']

theorem def_text {upper : Char → Bool} {t : Str} (h : Spec.DefText upper t) : Spec.EnText.Ok upper ⟨t, []⟩ := by
  obtain ⟨c, u, e, hc⟩ := h.first
  refine ⟨?_, ⟨c, u, e, hc, ?_⟩, by simp⟩
  · intro p hp
    simp [Spec.EnText.texts] at hp
    subst hp
    exact ⟨h.prose, h.last⟩
  · rintro rfl
    exact h.line (by rw [e]; simp)

theorem def_first {U : Uni} {t : Str} (h : Spec.DefText U.isLu t) : ∃ c u, t = c :: u ∧ isWs c = false := by
  have := enFirst (def_text h)
  simpa [Spec.EnText.source] using this

theorem notedef_hit {U : Uni} {l : Str} (hl : Spec.isLabel l) (back : Option Spec.Back) {gs : List Spec.Group} (hg : Spec.Atts.Ok { groups := gs })
    {t : Str} (ht : Spec.DefText U.isLu t) :
    NOTEDEF_RE.matchAt U ⟨[], defSource l back gs t ++ []⟩ = some (⟨(defSource l back gs t).reverse ++ [], []⟩,
      [(4, t), (3, gs.flatMap Spec.Group.source), (2, back.toList.map Spec.Back.mark), (1, l)]) := by
  rw [NOTEDEF_shape]
  apply Heads.matchAt
  have e : defSource l back gs t = [] ++ (['n'] ++ (['o'] ++ (['t'] ++ (['e'] ++ (['#'] ++ (l ++ (back.toList.map Spec.Back.mark ++
      (gs.flatMap Spec.Group.source ++ (['.'] ++ ([' '] ++ (t ++ []))))))))))) := by simp [defSource]
  have hsp : evalSet U false [.cls .space] ' ' = true := by
    rfl
  rw [e]
  refine Heads.seq .bot (.seq .chr (.seq .chr (.seq .chr (.seq .chr (.seq .chr
    (Heads.seq (s1 := [(1, l)]) (Heads.grp (s' := []) (Heads.plus hl.1 ?_ ?_))
    (Heads.seq (s1 := [(2, back.toList.map Spec.Back.mark), (1, l)]) (Heads.grp (s' := [(1, l)]) ?_)
    (Heads.seq (s1 := [(3, gs.flatMap Spec.Group.source), (2, back.toList.map Spec.Back.mark), (1, l)]) (Heads.grp (s' := [(2, back.toList.map Spec.Back.mark), (1, l)]) ?_)
    (Heads.seq (Heads.left .chr)
    (Heads.seq (Heads.plus (by simp) ?_ ?_)
    (Heads.seq (s1 := [(4, t), (3, gs.flatMap Spec.Group.source), (2, back.toList.map Spec.Back.mark), (1, l)])
      (Heads.grp (s' := [(3, gs.flatMap Spec.Group.source), (2, back.toList.map Spec.Back.mark), (1, l)]) (Heads.star ?_ ?_)) .eot)))))))))))
  · intro x hx
    exact (by decide +kernel : ∀ c ∈ asciiAlnum, evalSet demoUni true defItems c = true) x (label_mem (hl.2 x hx))
  · intro x hx
    obtain ⟨c, u, e, h⟩ := back_next back gs t
    have e' : back.toList.map Spec.Back.mark ++ (gs.flatMap Spec.Group.source ++ (['.'] ++ ([' '] ++ (t ++ [])))) ++ [] = c :: u := by
      rw [← e]; simp
    rw [e'] at hx
    simp at hx; subst hx
    exact (by decide +kernel : ∀ c ∈ t!"([{.*^!", evalSet demoUni true defItems c = false) c h
  · cases back with
    | none =>
      refine Heads.right ?_ .eps
      obtain ⟨c, u, e, h⟩ := groups_next gs t
      have e' : [] ++ (gs.flatMap Spec.Group.source ++ (['.'] ++ ([' '] ++ (t ++ []))) ++ []) = c :: u := by
        rw [← e]; simp
      simp only [Option.toList_none, List.map_nil]
      rw [e']
      have := (by decide +kernel : ∀ c ∈ t!"([{.", evalSet demoUni false [.chr '*', .chr '!', .chr '^'] c = false) c h
      have h2 : evalSet U false [.chr '*', .chr '!', .chr '^'] c = false := this
      simp [Re.all, h2]
    | some b => cases b <;> exact Heads.left (.set rfl)
  · exact groups_heads hg.1 hg.2 (by intro c hc; simp at hc; subst hc; decide)
  · intro x hx; simp at hx; subst hx; exact hsp
  · intro x hx
    obtain ⟨c, u, e, hc⟩ := def_first ht
    rw [e] at hx
    simp at hx; subst hx
    exact (by simpa [evalSet, Item.eval, UC.eval] using hc)
  · intro x hx
    have : x ≠ '\n' := by rintro rfl; exact ht.line hx
    simp [evalSet, Item.eval_chr, this]
  · simp

/-- A label without references is given a body. -/
theorem EndsIn.setLoose {base : Str} {E : Spec.Ends} {a b : Aux} (h : EndsIn base E a) {l : Str} (hn : E.find l = none) {i : NoteInfo} (hi : i.seq = none)
    {L : List Str} (hL : ∀ m, m ∈ L ↔ m = l ∨ m ∈ E.loose) (h1 : b.notes = btInsert l i a.notes) (h2 : b.noteIndex = a.noteIndex)
    (h3 : b.notelistCache = a.notelistCache) : EndsIn base { E with loose := L } b := by
  refine ⟨?_, ?_, ?_, ?_, h.labels, by rw [h2]; exact h.index, by rw [h3]; exact h.cache⟩
  · intro m n hm
    have hm : E.find m = some n := hm
    rw [h1, btInsert_lookup, if_neg (by rintro rfl; rw [hn] at hm; cases hm)]
    exact h.known m n hm
  · intro m hm hml
    have hm : E.find m = none := hm
    rw [h1, btInsert_lookup]
    by_cases e : l = m
    · rw [if_pos e]; exact ⟨i, rfl, hi⟩
    · rw [if_neg e]
      refine h.loose m hm ?_
      rcases (hL m).1 hml with e' | h'
      · exact absurd e'.symm e
      · exact h'
  · intro m hm hml
    have hm : E.find m = none := hm
    have := mt (hL m).2 hml
    rw [not_or] at this
    rw [h1, btInsert_lookup, if_neg (fun e => this.1 e.symm)]
    exact h.fresh m hm this.2
  · rw [h1]; exact btInsert_sorted _ _ h.sorted

theorem Back_mark_ne (back : Option Spec.Back) : (if (back.toList.map Spec.Back.mark).isEmpty then none else some (back.toList.map Spec.Back.mark)) =
    back.map (fun b => [b.mark]) := by
  cases back <;> rfl

def withBody (i : NoteInfo) (back : Option Spec.Back) (atts t : Str) : NoteInfo :=
  { i with link := back.map (fun b => [b.mark]), attrs := some atts, content := some t }

theorem noteDef_runs {C : Ctx} {base : Str} (D : DocCtx C base) (hp : C.cfg.linkPrefix = base ++ t!"-")
    {B : Spec.Book} {σ : PState} (hσ : BookState base B σ) {l t : Str} {back : Option Spec.Back} {gs : List Spec.Group}
    (hg : Spec.Atts.Ok { groups := gs }) (ht : Spec.DefText C.U.isLu t) :
    ∃ σ1, (∀ gap w, Runs C (parseNoteDefs C (graf C C.fuel)
        ⟨gap, w, [(4, t), (3, gs.flatMap Spec.Group.source), (2, back.toList.map Spec.Back.mark), (1, l)]⟩) [] σ σ1) ∧
      BookState base (B.define l ⟨back, Spec.Atts.html C.cfg.restricted { groups := gs }, t⟩) σ1 ∧ Grows C.cfg.uid σ σ1 ∧
      σ1.refIndex ≤ σ.refIndex ∧ σ1.aux.olStarts = σ.aux.olStarts := by
  have hgrp : ∀ (gap w : Str) (m : Mat), m = ⟨gap, w, [(4, t), (3, gs.flatMap Spec.Group.source), (2, back.toList.map Spec.Back.mark), (1, l)]⟩ →
      m.grp 1 = l ∧ m.grp 2 = back.toList.map Spec.Back.mark ∧ m.grp 3 = gs.flatMap Spec.Group.source ∧ m.grp 4 = t := by
    rintro gap w m rfl; exact ⟨rfl, rfl, rfl, rfl⟩
  have hpa : parseAttrs C (gs.flatMap Spec.Group.source) none = pure (attsOf C.cfg.restricted { groups := gs }) := by
    have := parseAttrs_atts (C := C) D.uni hg
    rw [show Spec.Atts.source { groups := gs } = gs.flatMap Spec.Group.source by simp [Spec.Atts.source, Spec.Atts.marks]] at this
    exact this
  have htx := def_text ht
  have hw : weave t [] = t := weave_nil _
  -- the text of the note
  have hgraf : ∀ {B : Spec.Book} {σ : PState}, BookState base B σ → ∃ σ', Runs C (graf C C.fuel t) t σ σ' ∧ BookState base B σ' ∧
      Grows C.cfg.uid σ σ' ∧ σ'.refIndex ≤ σ.refIndex ∧ σ'.aux.olStarts = σ.aux.olStarts := by
    intro B σ hσ
    obtain ⟨σ', g1, g2, g3⟩ := graf_en D hp (rs := []) (enOk_of htx) (enLead_ne htx) hσ
    have r := g1.runs
    simp only [enRefs, enPairs, hw, List.flatMap_nil, List.append_nil] at r
    exact ⟨σ', r, g2, g1.grow, by simpa using g1.index, g3⟩
  have key : ∀ {B1 : Spec.Book} {σ1 : PState}, BookState base B1 σ1 → Runs C (ensureNote C l) () σ σ1 → Grows C.cfg.uid σ σ1 →
      σ1.refIndex = σ.refIndex → σ1.aux.olStarts = σ.aux.olStarts →
      (∀ σ2 : PState, BookState base B1 σ2 → ∃ σ3, Runs C (storeNote C l (back.toList.map Spec.Back.mark) (gs.flatMap Spec.Group.source) t) [] σ2 σ3 ∧
        BookState base (B.define l ⟨back, Spec.Atts.html C.cfg.restricted { groups := gs }, t⟩) σ3 ∧ Grows C.cfg.uid σ2 σ3 ∧
        σ3.refIndex = σ2.refIndex ∧ σ3.aux.olStarts = σ2.aux.olStarts) →
      ∃ σ1, (∀ gap w, Runs C (parseNoteDefs C (graf C C.fuel)
        ⟨gap, w, [(4, t), (3, gs.flatMap Spec.Group.source), (2, back.toList.map Spec.Back.mark), (1, l)]⟩) [] σ σ1) ∧
      BookState base (B.define l ⟨back, Spec.Atts.html C.cfg.restricted { groups := gs }, t⟩) σ1 ∧ Grows C.cfg.uid σ σ1 ∧
      σ1.refIndex ≤ σ.refIndex ∧ σ1.aux.olStarts = σ.aux.olStarts := by
    intro B1 σ1 hσ1 he hG hI hO hst
    obtain ⟨σ2, g1, g2, g3, g4, g5⟩ := hgraf hσ1
    obtain ⟨σ3, k1, k2, k3, k4, k5⟩ := hst σ2 g2
    refine ⟨σ3, ?_, k2, (hG.trans g3).trans k3, by omega, by rw [k5, g5, hO]⟩
    intro gap w
    obtain ⟨m1, m2, m3, m4⟩ := hgrp gap w _ rfl
    unfold parseNoteDefs
    rw [m1, m2, m3, m4]
    exact he.bind (g1.bind k1)
  have hsame : ∀ σ : PState, Grows C.cfg.uid σ σ := fun σ => ⟨rfl, Nat.le_refl _, .refl _ _, id, rfl⟩
  have hstore : ∀ {σ2 : PState} {i : NoteInfo}, alLookup l σ2.aux.notes = some i → i.link = none →
      Runs C (storeNote C l (back.toList.map Spec.Back.mark) (gs.flatMap Spec.Group.source) t) [] σ2
        { σ2 with aux := { σ2.aux with notes := btInsert l (withBody i back (Spec.Atts.html C.cfg.restricted { groups := gs }) t) σ2.aux.notes } } := by
    intro σ2 i h1 h2
    unfold storeNote
    refine Runs.bind (runs_getSt σ2) ?_
    rw [h1]
    simp only [h2, Option.isNone_none, if_true, hpa, pure_bind, atts_text hg, Back_mark_ne]
    exact Runs.bind (Runs.setAux _ _) (Runs.pure _ _)
  have hkeep : ∀ {σ2 : PState} {i : NoteInfo}, alLookup l σ2.aux.notes = some i → i.link ≠ none →
      Runs C (storeNote C l (back.toList.map Spec.Back.mark) (gs.flatMap Spec.Group.source) t) [] σ2 σ2 := by
    intro σ2 i h1 h2
    unfold storeNote
    refine Runs.bind (runs_getSt σ2) ?_
    rw [h1]
    have : i.link.isNone = false := by cases h : i.link <;> simp_all
    simp only [this, Bool.false_eq_true, if_false]
    exact Runs.pure _ _
  have hens : ∀ {i : NoteInfo}, alLookup l σ.aux.notes = some i → Runs C (ensureNote C l) () σ σ := by
    intro i h
    unfold ensureNote
    refine Runs.bind (runs_getSt σ) ?_
    rw [h]
    exact Runs.pure _ _
  cases hB : B.ends.find l with
  | some n =>
    refine key hσ (hens (hσ.ends.known l n hB)) (hsame _) rfl rfl ?_
    intro σ2 h2
    have hk := h2.ends.known l n hB
    by_cases hb : (n.body.bind (·.back)).isSome = true
    · refine ⟨σ2, hkeep hk ?_, ?_, hsame _, rfl, rfl⟩
      · obtain ⟨b, hb'⟩ := Option.isSome_iff_exists.1 hb
        simp [noteInfo, hb']
      · unfold Spec.Book.define
        rw [hB]
        simp only [hb, if_true]
        exact h2
    · have hb' : n.body.bind (·.back) = none := by
        cases h : n.body.bind (·.back) with
        | none => rfl
        | some x => rw [h] at hb; simp at hb
      refine ⟨_, hstore hk (by simp [noteInfo, hb']), ?_, ⟨rfl, Nat.le_refl _, fun _ _ => ⟨rfl, rfl⟩, fun h => h, rfl⟩, rfl, rfl⟩
      unfold Spec.Book.define
      rw [hB]
      simp only [hb, if_false]
      refine ⟨h2.look, h2.link, ?_⟩
      exact h2.ends.change hB (f := fun n => { n with body := some ⟨back, Spec.Atts.html C.cfg.restricted { groups := gs }, t⟩ }) (fun _ => rfl) rfl rfl rfl
  | none =>
    -- the last step for a note without references
    have hlast : ∀ {B1 : Spec.Book} {σ2 : PState}, BookState base B1 σ2 → B1.ends.find l = none → l ∈ B1.ends.loose →
        ∃ σ3, Runs C (storeNote C l (back.toList.map Spec.Back.mark) (gs.flatMap Spec.Group.source) t) [] σ2 σ3 ∧
        BookState base B1 σ3 ∧ Grows C.cfg.uid σ2 σ3 ∧ σ3.refIndex = σ2.refIndex ∧ σ3.aux.olStarts = σ2.aux.olStarts := by
      intro B1 σ2 h2 hf hl
      obtain ⟨i, h3, h4⟩ := h2.ends.loose l hf hl
      by_cases hi : i.link = none
      · refine ⟨_, hstore h3 hi, ⟨h2.look, h2.link, ?_⟩, ⟨rfl, Nat.le_refl _, fun _ _ => ⟨rfl, rfl⟩, fun h => h, rfl⟩, rfl, rfl⟩
        have := h2.ends.setLoose hf (i := (withBody i back (Spec.Atts.html C.cfg.restricted { groups := gs }) t))
          h4 (L := B1.ends.loose) (fun m => ⟨.inr, fun h => h.elim (fun e => e ▸ hl) id⟩)
          (b := { σ2.aux with notes := btInsert l (withBody i back (Spec.Atts.html C.cfg.restricted { groups := gs }) t) σ2.aux.notes }) rfl rfl rfl
        exact this
      · exact ⟨σ2, hkeep h3 hi, h2, hsame _, rfl, rfl⟩
    by_cases hl : l ∈ B.ends.loose
    · obtain ⟨i, h3, h4⟩ := hσ.ends.loose l hB hl
      refine key hσ (hens h3) (hsame _) rfl rfl ?_
      intro σ2 h2
      have e : B.define l ⟨back, Spec.Atts.html C.cfg.restricted { groups := gs }, t⟩ = B := by
        unfold Spec.Book.define; rw [hB]; simp only [hl, if_true]
      rw [e]
      exact hlast h2 hB hl
    · have hf := hσ.ends.fresh l hB hl
      have e : B.define l ⟨back, Spec.Atts.html C.cfg.restricted { groups := gs }, t⟩ = ⟨B.take 1, { B.ends with loose := l :: B.ends.loose }⟩ := by
        unfold Spec.Book.define; rw [hB]; simp only [hl, if_false]
      rw [e] at key ⊢
      let i : NoteInfo := ⟨C.cfg.linkPrefix ++ natStr (σ.linkIndex + 1), none, none, none, none, []⟩
      refine key (B1 := ⟨B.take 1, { B.ends with loose := l :: B.ends.loose }⟩)
        (σ1 := { σ with linkIndex := σ.linkIndex + 1, aux := { σ.aux with notes := btInsert l i σ.aux.notes } }) ⟨hσ.look, ?_, ?_⟩ ?_
        ⟨rfl, Nat.le_refl _, fun _ _ => ⟨rfl, rfl⟩, fun h => h, rfl⟩ rfl rfl ?_
      · simp [Spec.Book.take, hσ.link]
      · exact hσ.ends.setLoose hB (i := i) rfl (fun m => by simp) rfl rfl rfl
      · unfold ensureNote
        refine Runs.bind (runs_getSt σ) ?_
        rw [hf]
        exact Runs.bind (runs_incLink _) (Runs.setAux _ _)
      · intro σ2 h2
        exact hlast h2 hB (by simp)

/-! ## Blocks without output -/

/-- What a round of the block loop does with a block that leaves nothing. -/
def EatTo (C : Ctx) (b : Str) (σ σ' : PState) : Prop :=
  ∀ s : BlkSt, s.ext = [] → ∃ s', Runs C (blockStep C (graf C C.fuel) s b) s' σ σ' ∧
    s'.ext = [] ∧ s'.eatWs = true ∧ s'.whitespace = s.whitespace ∧ s'.out = s.out

theorem def_noBlock (dig : Char → Bool) (lite : Bool) (t : Str) : Spec.NoBlockStart dig lite (t!"note#" ++ t) := by
  intro w c u e hc hw
  have hpre : w ++ [c] <+: t!"note#" ++ t := ⟨u, by rw [e]; simp⟩
  have key : ∀ w : Str, w ∈ [t!"bq", t!"bc", t!"notextile", t!"pre", t!"p", t!"###", t!"h1", t!"h2", t!"h3", t!"h4", t!"h5", t!"h6"] →
      w ++ c :: u ≠ t!"note#" ++ t := by
    intro w hw
    simp only [List.mem_cons, List.not_mem_nil, or_false] at hw
    rcases hw with rfl | rfl | rfl | rfl | rfl | rfl | rfl | rfl | rfl | rfl | rfl | rfl <;> simp
  unfold Spec.blockWord at hw
  split at hw
  · refine key w ?_ e.symm
    simp only [Spec.liteWord, List.mem_cons, List.not_mem_nil, or_false] at hw
    rcases hw with rfl | rfl | rfl <;> simp
  · rcases hw with hw | ⟨d, ds, rfl, -⟩
    · exact key w hw e.symm
    · simp at e

theorem divider_head {U : Uni} (hU : UniOk U) {c : Char} {t : Str} (h : headA.Mem c) : DIVIDER_RE.isMatch U (c :: t) = false := by
  obtain ⟨r, hr, h1, h2⟩ := divider_shape
  rw [hr]
  apply Re.isMatch_none
  apply Re.search_bot
  cases hl : r.all U ⟨[], c :: t⟩ [] with
  | nil => rfl
  | cons p l =>
    exfalso
    obtain ⟨w, hw, lw⟩ := Re.all_lang r ⟨[], c :: t⟩ [] p (by rw [hl]; simp)
    have hne := Re.nonnull_lang h1 lw
    cases w with
    | nil => exact hne rfl
    | cons x w =>
      have hx := Re.avoid_lang hU headA_wf h2 lw x w rfl
      have e' : c :: t = x :: w ++ p.1.rest := hw.1
      simp at e'
      rw [← e'.1] at hx
      exact hx h

theorem NOTEDEF_nonnull : NOTEDEF_RE.nonnull = true := by kernel_rfl

theorem def_step {C : Ctx} {base : Str} (D : DocCtx C base) (hp : C.cfg.linkPrefix = base ++ t!"-")
    {B : Spec.Book} {σ : PState} (hσ : BookState base B σ) {l t : Str} (hl : Spec.isLabel l) {back : Option Spec.Back} {gs : List Spec.Group}
    (hg : Spec.Atts.Ok { groups := gs }) (ht : Spec.DefText C.U.isLu t) :
    ∃ σ1, EatTo C (defSource l back gs t) σ σ1 ∧
      BookState base (B.define l ⟨back, Spec.Atts.html C.cfg.restricted { groups := gs }, t⟩) σ1 ∧ Grows C.cfg.uid σ σ1 ∧
      σ1.refIndex ≤ σ.refIndex ∧ σ1.aux.olStarts = σ.aux.olStarts := by
  obtain ⟨σ1, h1, h2, h3, h4, h5⟩ := noteDef_runs D hp hσ (l := l) (back := back) hg ht
  refine ⟨σ1, ?_, h2, h3, h4, h5⟩
  have hscan : ScanP C NOTEDEF_RE (parseNoteDefs C (graf C C.fuel)) [] (defSource l back gs t) σ [] σ1 := by
    have := ScanP.hit (notedef_hit (U := C.U) hl back hg ht) (by simp [defSource]) (fun gap => h1 gap _) .nil
    simpa using this
  have hrun := ScanP.runs NOTEDEF_nonnull (fun m => rfl) hscan
  have hnew : Runs C (blockNew C (graf C C.fuel) t!"p" [] none (defSource l back gs t)) { eat := true } σ σ1 := by
    unfold blockNew
    rw [parseAttrs_nil, pure_bind]
    simp only [if_true]
    refine hrun.bind ?_
    simp only [List.isEmpty_nil, and_self, if_true]
    exact Runs.pure _ _
  intro s hs
  have htr : trim (defSource l back gs t) ≠ [] := trim_ne (c := 'n') (by decide)
  rw [blockStep_text htr hs]
  have hb := blockBody_anonymous (C := C) (g := graf C C.fuel) (s := s.start) (b := defSource l back gs t) (tag_none_of (def_noBlock _ _ _))
    (.inr ⟨rfl, divider_head D.uni (.inl (by decide))⟩)
  rw [hb]
  refine ⟨_, Runs.bind (Runs.bind hnew (Runs.pure _ _)) (Runs.pure _ _), ?_⟩
  simp [BlkSt.add, BlkSt.start, hs]

/-! ## The block loop -/

/-- What happens to the blocks of a document, some of which leave nothing. -/
inductive Flows (C : Ctx) : List (Str × Nat) → PState → PState → List (Str × Nat) → Prop
  | nil {σ : PState} : Flows C [] σ σ []
  | step {b h : Str} {k : Nat} {σ σ' σ'' : PState} {ps qs : List (Str × Nat)} :
    StepTo C b σ σ' h → Flows C ps σ' σ'' qs → Flows C ((b, k) :: ps) σ σ'' ((h, k) :: qs)
  | eat {b : Str} {k : Nat} {σ σ' σ'' : PState} {ps qs : List (Str × Nat)} :
    EatTo C b σ σ' → Flows C ps σ' σ'' qs → Flows C ((b, k) :: ps) σ σ'' qs

theorem Flows.append {C : Ctx} {ps qs ps' qs' : List (Str × Nat)} {σ σ' σ'' : PState} (h : Flows C ps σ σ' qs) (h' : Flows C ps' σ' σ'' qs') :
    Flows C (ps ++ ps') σ σ'' (qs ++ qs') := by
  induction h with
  | nil => exact h'
  | step a _ ih => exact .step a (ih h')
  | eat a _ ih => exact .eat a (ih h')

/-- What a list of texts adds to the output. -/
def added (ws : Str) (qs : List (Str × Nat)) : Str := if qs = [] then [] else ws ++ Spec.glue qs

theorem added_cons (ws q : Str) (k : Nat) (qs : List (Str × Nat)) : added ws ((q, k) :: qs) = ws ++ (q ++ added (nls (k + 2)) qs) := by
  unfold added
  rw [if_neg (by simp)]
  by_cases h : qs = []
  · subst h; simp [Spec.glue]
  · rw [if_neg h, glue_cons h]

theorem Flows.loop {C : Ctx} {ps qs : List (Str × Nat)} {σ σ' : PState} (h : Flows C ps σ σ' qs) :
    ∀ s : BlkSt, s.ext = [] → ∃ s', Runs C (blockLoop C (graf C C.fuel) s (interleave ps)) s' σ σ' ∧ s'.ext = [] ∧
      concat s'.out.reverse = concat s.out.reverse ++ added s.whitespace qs := by
  induction h with
  | nil =>
    intro s hs
    rw [show interleave [] = [nls 0] from rfl, blockLoop_single]
    refine ⟨_, step_nls s 0 _, ?_, ?_⟩ <;> split <;> simp [hs, added]
  | @step b h k σ σ' σ'' ps qs hst hr ih =>
    intro s hs
    obtain ⟨s', h1, h2, h3, h4, h5⟩ := hst s hs
    cases ps with
    | nil =>
      cases hr
      rw [show interleave [(b, k)] = [b] from rfl, blockLoop_single]
      exact ⟨s', h1, h2, by rw [h5]; simp [added, Spec.glue, concat]⟩
    | cons p ps =>
      rw [show interleave ((b, k) :: p :: ps) = b :: nls (k + 2) :: interleave (p :: ps) from rfl]
      simp only [blockLoop_cons]
      have hn := step_nls (C := C) (g := graf C C.fuel) s' (k + 2) σ'
      rw [if_neg (by rw [h3]; simp)] at hn
      obtain ⟨s2, r1, r2, r3⟩ := ih { s' with whitespace := s'.whitespace ++ nls (k + 2) } h2
      refine ⟨s2, h1.bind (hn.bind r1), r2, ?_⟩
      rw [r3, added_cons]
      simp [h4, h5, concat]
  | @eat b k σ σ' σ'' ps qs hst hr ih =>
    intro s hs
    obtain ⟨s', h1, h2, h3, h4, h5⟩ := hst s hs
    cases ps with
    | nil =>
      cases hr
      rw [show interleave [(b, k)] = [b] from rfl, blockLoop_single]
      exact ⟨s', h1, h2, by rw [h5]; simp [added]⟩
    | cons p ps =>
      rw [show interleave ((b, k) :: p :: ps) = b :: nls (k + 2) :: interleave (p :: ps) from rfl]
      simp only [blockLoop_cons]
      have hn := step_nls (C := C) (g := graf C C.fuel) s' (k + 2) σ'
      rw [if_pos h3] at hn
      obtain ⟨s2, r1, r2, r3⟩ := ih s' h2
      refine ⟨s2, h1.bind (hn.bind r1), r2, ?_⟩
      rw [r3, h5, h4]

theorem Flows.block {C : Ctx} {ps qs : List (Str × Nat)} {σ : PState} (h : Flows C ps {} σ qs) (hne : ps ≠ []) (hc : ∀ p ∈ ps, Chunk p.1) :
    Runs C (block C (Spec.glue ps)) (Spec.glue qs) {} σ := by
  obtain ⟨s', h1, h2, h3⟩ := h.loop {} rfl
  unfold Rustextile.block
  rw [split_glue C.U hne hc]
  refine h1.bind ?_
  simp only [h2, List.isEmpty_nil, if_true]
  have e : concat s'.out.reverse = Spec.glue qs := by
    rw [h3]
    simp only [added, concat]
    split
    · rename_i hq; subst hq; rfl
    · simp
  rw [e]
  exact Runs.pure _ _

/-- The whole conversion, given what the parts of it do. -/
theorem parse_flows {E : Env} {fuel : Nat} {cfg : Cfg} (hbt : cfg.blockTags = true)
    {text out q t2 : Str} {ps qs : List (Str × Nat)} {σ σ1 : PState} (hb : ¬ Spec.Blank text)
    (hp : prepare ⟨E, cfg, fuel⟩ text = Spec.glue ps) (h : Flows ⟨E, cfg, fuel⟩ ps {} σ qs) (hne : ps ≠ [])
    (hc : ∀ p ∈ ps, Chunk p.1) (hl : Runs ⟨E, cfg, fuel⟩ (placeNoteLists ⟨E, cfg, fuel⟩ (Spec.glue qs)) q σ σ1)
    (hr : Runs ⟨E, cfg, fuel⟩ (restProg ⟨E, cfg, fuel⟩ q) t2 σ1 σ1)
    (hf : finish ⟨E, cfg, fuel⟩ t2 = out) : parseFresh E fuel cfg text = .ok out := by
  have hbody : Runs ⟨E, cfg, fuel⟩ (parseBody ⟨E, cfg, fuel⟩ (Spec.glue ps)) t2 {} σ1 := by
    unfold parseBody
    rw [if_pos hbt]
    exact Runs.bind (a := q) (σ' := σ1) ((h.block hne hc).bind hl) hr
  obtain ⟨w', e, -, -⟩ := hbody { cache := [] } (Cache.valid_nil _) rfl
  unfold parseFresh
  rw [parse_nonblank hb]
  simp only [hp]
  rw [e]
  simp only
  rw [hf]

end Rustextile
