import Verif.TableRe

/-!
# A table becomes HTML
-/

namespace Rustextile

open Prog

/-! ## Breaks in cells -/

/-- The expression for the cells of a kind. -/
def cellRe (c : Char) : Re := .seq (chrRe '<') (.seq (chrRe 't') (.seq (chrRe c) (.seq (.grp 1 (.star false (.set true [.chr '>']))) (.seq (chrRe '>')
  (.seq (.grp 2 (.star true (.set true []))) (Re.lit ['<', '/', 't', c, '>']))))))

theorem TD_shape : TAG_TD_RE = cellRe 'd' := by kernel_rfl
theorem TH_shape : TAG_TH_RE = cellRe 'h' := by kernel_rfl

theorem lazy_gt {U : Uni} {R : Str} {s : Caps} : ∀ {att pre : Str}, '>' ∉ att → ∃ l1,
    (Re.star false (.set true [.chr '>'])).all U ⟨pre, att ++ '>' :: R⟩ s = l1 ++ [(⟨att.reverse ++ pre, '>' :: R⟩, s)] ∧
      ∀ p ∈ l1, ∃ x y, x ≠ '>' ∧ p.1.rest = x :: y
  | [], pre, _ => ⟨[], by rw [List.nil_append, all_star_cons, evalSet_not_self]; simp, by simp⟩
  | c :: att, pre, h => by
    simp only [List.mem_cons, not_or] at h
    obtain ⟨l1, h1, h2⟩ := lazy_gt (U := U) (R := R) (s := s) (att := att) (pre := c :: pre) h.2
    refine ⟨(⟨pre, c :: (att ++ '>' :: R)⟩, s) :: l1, ?_, ?_⟩
    · rw [List.cons_append, all_star_cons, evalSet_not (fun e => h.1 e.symm), h1]
      simp
    · intro p hp
      rcases List.mem_cons.1 hp with rfl | hp
      · exact ⟨c, _, fun e => h.1 e.symm, rfl⟩
      · exact h2 p hp

theorem Heads.upto {U : Uni} {n : Nat} {K : Re} {att pre w rest : Str} {s s' : Caps} (h : '>' ∉ att)
    (hK : Heads U K ('>' :: (att.reverse ++ pre)) w rest ((n, att) :: s) s') :
    Heads U (.seq (.grp n (.star false (.set true [.chr '>']))) (.seq (chrRe '>') K)) pre (att ++ ('>' :: w)) rest s s' := by
  obtain ⟨l1, h1, h2⟩ := lazy_gt (U := U) (R := w ++ rest) (s := s) (pre := pre) h
  obtain ⟨l, hl⟩ := hK
  have hb : between ⟨pre, att ++ '>' :: (w ++ rest)⟩ ⟨att.reverse ++ pre, '>' :: (w ++ rest)⟩ = att :=
    Adv.between (⟨rfl, rfl⟩ : Adv ⟨pre, att ++ '>' :: (w ++ rest)⟩ att ⟨att.reverse ++ pre, '>' :: (w ++ rest)⟩)
  refine ⟨l, ?_⟩
  rw [List.append_assoc, List.cons_append, all_seq, Re.all, h1]
  simp only [List.map_append, List.map_cons, List.map_nil, List.flatMap_append, List.flatMap_cons, List.flatMap_nil, hb, all_seq_set_cons, evalSet_chr,
    BEq.rfl, if_true, hl, List.append_nil]
  have : (l1.map (fun p => (p.1, (n, between ⟨pre, att ++ '>' :: (w ++ rest)⟩ p.1) :: p.2))).flatMap (fun p => (Re.seq (chrRe '>') K).all U p.1 p.2) = [] := by
    rw [List.flatMap_eq_nil_iff]
    intro p hp
    obtain ⟨q, hq, rfl⟩ := List.mem_map.1 hp
    obtain ⟨x, y, hx, e⟩ := h2 q hq
    obtain ⟨⟨qp, qr⟩, qs⟩ := q
    simp only at e
    subst e
    simp [all_seq_set_cons, evalSet_chr, hx]
  rw [this]
  simp

theorem cell_match {U : Uni} {c : Char} {pre att X : Str} (h : '>' ∉ att) :
    (cellRe c).matchAt U ⟨pre, ['<', 't', c] ++ (att ++ ('>' :: (X ++ ['<', '/', 't', c, '>'])))⟩ =
      some (⟨(['<', 't', c] ++ (att ++ ('>' :: (X ++ ['<', '/', 't', c, '>'])))).reverse ++ pre, []⟩, [(2, X), (1, att)]) := by
  have hlit : ∀ p s, Heads U (Re.lit ['<', '/', 't', c, '>']) p ['<', '/', 't', c, '>'] [] s s := by
    intro p s
    exact ⟨[], by rw [Re.lit_all, if_pos (by simp)]; simp⟩
  have hno : ∀ u v p s, u ≠ [] → ['<', '/', 't', c, '>'] ++ [] = u ++ v → (Re.lit ['<', '/', 't', c, '>']).all U ⟨p, v⟩ s = [] := by
    intro u v p s hu e
    rw [Re.lit_all, if_neg]
    intro hp
    have := List.IsPrefix.length_le (List.isPrefixOf_iff_prefix.1 hp)
    have e := congrArg List.length e
    have := List.length_pos_iff.2 hu
    simp at *
    omega
  have hh : Heads U (cellRe c) pre (['<'] ++ (['t'] ++ ([c] ++ (att ++ ('>' :: (X ++ ['<', '/', 't', c, '>'])))))) [] [] [(2, X), (1, att)] := by
    unfold cellRe
    exact .seq .chr (.seq .chr (.seq .chr (.upto h (Heads.last (hlit _ _) hno))))
  have := hh.matchAt
  simpa using this

theorem cellRe_nonnull (c : Char) : (cellRe c).nonnull = true := rfl

theorem cell_pattern {C : Ctx} {c : Char} (hc : c = 'd' ∨ c = 'h') : mkPat C.cfg.uid (.tagBr ['t', c]) = cellRe c := by
  rcases hc with rfl | rfl
  · rw [← TD_shape]; rfl
  · rw [← TH_shape]; rfl

/-- There is no break in a cell of one line. -/
theorem runs_cellBr {C : Ctx} {ok : Char → Prop} (hU : Lowers C.U ok) {c : Char} (hc : c = 'd' ∨ c = 'h') {att X : Str} (hatt : '>' ∉ att)
    (hX : '\n' ∉ X) (hok : ∀ x ∈ X, ok x) (σ : PState) :
    Runs C (doTagBr C ['t', c] (t!"\n\t\t\t" ++ (['<', 't', c] ++ (att ++ ('>' :: (X ++ ['<', '/', 't', c, '>']))))))
      (t!"\n\t\t\t" ++ (['<', 't', c] ++ (att ++ ('>' :: (X ++ ['<', '/', 't', c, '>']))))) σ σ := by
  unfold doTagBr
  refine Runs.bind (runs_getPat (.tagBr ['t', c]) σ) ?_
  rw [cell_pattern hc]
  refine ScanP.runs (cellRe_nonnull c) (fun m => rfl) ?_
  refine ScanP.of_skips ?_ ?_
  · intro u y v e
    have hy : y ≠ '<' := by
      rintro rfl
      have : '<' ∈ t!"\n\t\t\t" := by rw [e]; simp
      revert this; decide
    rw [Re.matchAt_none]
    simp [cellRe, all_seq_set_cons, evalSet_chr, hy]
  · have := ScanP.hit (C := C) (r := cellRe c) (f := fun m => do
        let content ← ofR (insertBrs C.U (m.grp 2) C.cfg.brTag)
        pure (t!"<" ++ ['t', c] ++ m.grp 1 ++ t!">" ++ content ++ t!"</" ++ ['t', c] ++ t!">"))
      (σ := σ) (σ1 := σ) (σ2 := σ) (pre := t!"\n\t\t\t".reverse ++ [])
      (w := ['<', 't', c] ++ (att ++ ('>' :: (X ++ ['<', '/', 't', c, '>'])))) (rest := []) (out := [])
      (o := ['<', 't', c] ++ (att ++ ('>' :: (X ++ ['<', '/', 't', c, '>'])))) (s := [(2, X), (1, att)])
      (by simpa using cell_match hatt) (by simp) ?_ .nil
    · simpa using this
    · intro gap
      rw [show (⟨gap, _, [(2, X), (1, att)]⟩ : Mat).grp 2 = X from rfl,
        show (⟨gap, _, [(2, X), (1, att)]⟩ : Mat).grp 1 = att from rfl, insertBrs_tabbed hU (.of_nonl hX) hok]
      have := Runs.pure (C := C) (t!"<" ++ ['t', c] ++ att ++ t!">" ++ X ++ t!"</" ++ ['t', c] ++ t!">") σ
      exact Runs.bind (a := X) (by intro w hw e; exact ⟨w, rfl, e, hw⟩) (by simpa using this)

/-! ## Cells -/

theorem cell_need : [RCLIST_RE, LISTS_RE].all (·.need linesA) = true := by decide +kernel

theorem heading_atts (C : Ctx) : parseAttrs C t!"_. " (some t!"td") = pure {} := by
  unfold parseAttrs
  have : BAttrs.parse C.U t!"_. " (some t!"td") C.cfg.restricted = .ok {} := by cases C.cfg.restricted <;> rfl
  rw [this]
  rfl

/-- Lists are looked for in the text of a cell. -/
theorem runs_cellText {C : Ctx} (hU : UniOk C.U) (g : Str → Prog Str) {t : Str} (h : linesA.Over t) (σ : PState) :
    Runs C (match CELL_A_PATTERN_RE.captures C.U t with
      | some m => do
        let c1 ← redclothList C g (m.grp 2)
        let c2 ← textileLists C c1
        pure (m.grp 1 ++ c2)
      | none => pure [] : Prog Str) t σ σ := by
  obtain ⟨a, b, s, e, h1, h2, h3⟩ := cell_space (U := C.U) t
  rw [h1]
  have e1 : (⟨[], t, s⟩ : Mat).grp 1 = a := by simp [Mat.grp, Mat.get?, h2]
  have e2 : (⟨[], t, s⟩ : Mat).grp 2 = b := by simp [Mat.grp, Mat.get?, h3]
  simp only [e1, e2]
  have hb : linesA.Over b := fun c hc => h c (by rw [e]; simp [hc])
  refine Runs.bind (a := b) (σ' := σ) ?_ (Runs.bind (a := b) (σ' := σ) ?_ (by rw [e]; exact Runs.pure _ _))
  · exact (Leaves.replaceP (Re.need_search hU linesA_wf (need_mem cell_need (by simp)) hb [])).runs σ
  · exact (Leaves.replaceP (Re.need_search hU linesA_wf (need_mem cell_need (by simp)) hb [])).runs σ

theorem cell_tag (c : Spec.Cell) : ∃ x, (x = 'd' ∨ x = 'h') ∧ c.tag = ['t', x] ∧ (x = 'h' ↔ c.heading = true) := by
  unfold Spec.Cell.tag
  split
  · exact ⟨'h', .inr rfl, rfl, by simp_all⟩
  · exact ⟨'d', .inl rfl, rfl, by simp_all⟩

theorem cellText_ok {U : Uni} {c : Spec.Cell} (h : c.Ok U.isLu) : linesA.Over c.text ∧ '\n' ∉ c.text ∧ Plainly U c.text := by
  obtain ⟨h1, h2⟩ := words_prose h.words
  exact ⟨h1, h2, fun c hc => Alpha.mono (by decide) rfl (h1 c hc), good_iff.2 ⟨h.words.caps, h.words.dots, h.words.dims⟩⟩

theorem runs_cell {C : Ctx} (hU : UniOk C.U) (hlite : C.cfg.lite = false) {ok : Char → Prop} (hL : Lowers C.U ok) (g : Str → Prog Str)
    {c : Spec.Cell} (h : c.Ok C.U.isLu) (hok : ∀ x ∈ c.text, ok x) (σ : PState) : Runs C (tableCell C g c.inside) c.html σ σ := by
  obtain ⟨h1, h2, -⟩ := cellText_ok h
  obtain ⟨x, hx, htag, hxh⟩ := cell_tag c
  have hgen : ∀ t : Str, t!"\n\t\t\t" ++ generateTag C.U ['t', x] (some t) [] =
      t!"\n\t\t\t" ++ (['<', 't', x] ++ ([] ++ ('>' :: (t ++ ['<', '/', 't', x, '>'])))) := by
    intro t
    rw [genTag_eq hU (by simp) (by rcases hx with rfl | rfl <;> decide)]
    simp [openTagA, closeTag, joinAttrs, concat]
  have hhtml : c.html = t!"\n\t\t\t" ++ (['<', 't', x] ++ ([] ++ ('>' :: (c.text ++ ['<', '/', 't', x, '>'])))) := by
    simp [Spec.Cell.html, Spec.elementWith, htag]
  have hbr := runs_cellBr hL hx (att := []) (by simp) h2 hok σ
  rw [hhtml]
  unfold tableCell
  cases hh : c.heading with
  | true =>
    have hx : x = 'h' := hxh.2 hh
    subst hx
    have e : c.inside = t!"_. " ++ c.text := by simp [Spec.Cell.inside, hh]
    rw [e, cell_heading]
    have hm : HEADING_RE.isMatch C.U (t!"_. " ++ c.text) = true := heading_yes
    rw [hm]
    simp only [if_true, hlite, Bool.false_eq_true, if_false]
    rw [show (⟨[], t!"_. " ++ c.text, [(2, c.text), (1, t!"_. ")]⟩ : Mat).grp 1 = t!"_. " from rfl,
      show (⟨[], t!"_. " ++ c.text, [(2, c.text), (1, t!"_. ")]⟩ : Mat).grp 2 = c.text from rfl, heading_atts]
    simp only [pure_bind]
    refine Runs.bind (a := c.text) (σ' := σ) (runs_cellText hU g h1 σ) ?_
    have := hgen c.text
    simp only [BAttrs.html, HtmlAttrs.addOpt]
    rw [this]
    exact hbr
  | false =>
    have hx : x = 'd' := by
      rcases hx with rfl | rfl
      · rfl
      · rw [hxh.1 rfl] at hh; cases hh
    subst hx
    have e : c.inside = c.text := by simp [Spec.Cell.inside, hh]
    have hhead : ∀ y, c.text.head? = some y → y ∉ '.' :: attrStart := by
      intro y hy hm
      cases ht : c.text with
      | nil => rw [ht] at hy; cases hy
      | cons z u =>
        rw [ht] at hy
        simp at hy; subst hy
        have := h.start hh _ u ht
        have hA := h1 z (by rw [ht]; simp)
        have hz : z ∈ t!"()<>=-^~[{\\_" := by
          simp [attrStart] at hm ⊢
          grind
        exact Alpha.not_mem ((by decide +kernel : ∀ z ∈ t!"()<>=-^~[{\\_", z ∉ linesA.ascii ∧ z.toNat < 128) z hz).1
          ((by decide +kernel : ∀ z ∈ t!"()<>=-^~[{\\_", z ∉ linesA.ascii ∧ z.toNat < 128) z hz).2 hA
    have hm : HEADING_RE.isMatch C.U c.text = false := by
      refine heading_no fun e => hhead '_' e (by decide)
    rw [e, cell_plain hhead, hm]
    simp only [Bool.false_eq_true, if_false, hlite, pure_bind]
    refine Runs.bind (a := c.text) (σ' := σ) (runs_cellText hU g h1 σ) ?_
    have := hgen c.text
    rw [this]
    exact hbr

/-! ## Rows -/

theorem runs_cells {C : Ctx} (hU : UniOk C.U) (hlite : C.cfg.lite = false) {ok : Char → Prop} (hL : Lowers C.U ok) (g : Str → Prog Str) (σ : PState) :
    ∀ {cs : List Spec.Cell}, (∀ c ∈ cs, c.Ok C.U.isLu) → (∀ c ∈ cs, ∀ x ∈ c.text, ok x) →
    Runs C (tableCells C g (cs.map Spec.Cell.inside)) (cs.map Spec.Cell.html) σ σ
  | [], _, _ => Runs.pure _ _
  | c :: cs, h, hok => by
    refine Runs.bind (runs_cell hU hlite hL g (h c (by simp)) (hok c (by simp)) σ)
      (Runs.bind (runs_cells hU hlite hL g σ (fun c hc => h c (by simp [hc])) (fun c hc => hok c (by simp [hc]))) (Runs.pure _ _))

theorem inside_nobar {U : Uni} {c : Spec.Cell} (h : c.Ok U.isLu) : '|' ∉ c.inside := by
  obtain ⟨h1, -⟩ := cellText_ok h
  have : '|' ∉ c.text := fun hm => Alpha.not_mem (by decide) (by decide) (h1 _ hm)
  unfold Spec.Cell.inside
  split <;> simp [this]

theorem splitChar_cells {U : Uni} : ∀ {cs : List Spec.Cell}, (∀ c ∈ cs, c.Ok U.isLu) →
    splitChar '|' (cs.flatMap Spec.Cell.source) = [] :: cs.map Spec.Cell.inside
  | [], _ => rfl
  | c :: cs, h => by
    have ih := splitChar_cells (U := U) (cs := cs) (fun c hc => h c (by simp [hc]))
    have hb := inside_nobar (h c (by simp))
    rw [List.flatMap_cons, Spec.Cell.source, List.cons_append, splitChar, if_pos (by simp), List.map_cons]
    cases cs with
    | nil =>
      rw [List.flatMap_nil, List.append_nil, splitChar_none hb]
      rfl
    | cons d cs =>
      rw [List.flatMap_cons, Spec.Cell.source, List.cons_append, splitChar, if_pos (by simp)] at ih
      rw [List.flatMap_cons, Spec.Cell.source, List.cons_append, splitChar_at hb]
      rw [List.cons.inj ih |>.2]

/-- A row, without its last bar. -/
def rowBody (r : Spec.Row) : Str :=
  (match r.sect with | none => [] | some s => ['|', s.mark, '.', '\n']) ++ r.cells.flatMap Spec.Cell.source

theorem join_lines (s : Str) : ∀ {ls : List Str}, ls ≠ [] → ∀ l, Spec.join s (l :: ls) = l ++ s ++ Spec.join s ls
  | [], h, _ => absurd rfl h
  | _ :: _, _, _ => by simp [Spec.join]

theorem join_row (s : Str) {ls : List Str} (h : ls ≠ []) (r : Spec.Row) :
    Spec.join ['\n'] (r.lines ++ ls) = rowBody r ++ ['|'] ++ '\n' :: Spec.join ['\n'] ls := by
  unfold Spec.Row.lines rowBody
  cases r.sect <;> simp [join_lines, h]

theorem tableSource_eq : ∀ (rs : List Spec.Row) (r : Spec.Row),
    Spec.tableSource (r :: rs) = rowBody r ++ (['|'] ++ (rs.map (fun r => '\n' :: rowBody r)).flatMap (fun x => x ++ ['|']))
  | [], r => by
    unfold Spec.tableSource rowBody
    simp only [List.flatMap_cons, List.flatMap_nil, Spec.Row.lines]
    cases r.sect <;> simp [Spec.join]
  | q :: rs, r => by
    have ih := tableSource_eq rs q
    unfold Spec.tableSource at ih ⊢
    rw [List.flatMap_cons, join_row [] (by simp [Spec.Row.lines]), ih]
    simp

def tabA : Alpha := ⟨asciiAlnum ++ t!" ,./$\n|_^-~", true⟩

theorem tabA_wf : tabA.wf = true := by decide

def RowOk (U : Uni) (r : Spec.Row) : Prop := r.cells ≠ [] ∧ ∀ c ∈ r.cells, c.Ok U.isLu

theorem inside_over {U : Uni} {c : Spec.Cell} (h : c.Ok U.isLu) : tabA.Over c.inside := by
  obtain ⟨h1, -⟩ := cellText_ok h
  have : tabA.Over c.text := fun c hc => Alpha.mono (by decide) rfl (h1 c hc)
  unfold Spec.Cell.inside
  split
  · exact Alpha.Over.append.2 ⟨fun c hc => .inl ((by decide : ∀ c ∈ t!"_. ", c ∈ tabA.ascii) c hc), this⟩
  · simpa using this

theorem rowBody_over {U : Uni} {r : Spec.Row} (h : RowOk U r) : tabA.Over (rowBody r) := by
  refine Alpha.Over.append.2 ⟨?_, ?_⟩
  · cases r.sect with
    | none => simp [Alpha.Over]
    | some m =>
      intro c hc
      refine .inl ?_
      revert c
      cases m <;> decide
  · intro c hc
    simp only [List.mem_flatMap] at hc
    obtain ⟨d, hd, hc⟩ := hc
    rcases List.mem_cons.1 hc with rfl | hc
    · exact .inl (by decide)
    · exact inside_over (h.2 d hd) c hc

theorem rowBody_cons {U : Uni} {r : Spec.Row} (h : RowOk U r) : ∃ t, rowBody r = '|' :: t := by
  unfold rowBody
  cases r.sect with
  | some m => exact ⟨_, rfl⟩
  | none =>
    obtain ⟨c, cs, e⟩ := List.exists_cons_of_ne_nil h.1
    rw [e]
    exact ⟨_, rfl⟩

theorem trimStart_bar (t : Str) : trimStart ('|' :: t) = '|' :: t := by
  rfl

theorem trimStart_nl (t : Str) : trimStart ('\n' :: '|' :: t) = '|' :: t := by
  rfl

theorem colgroup_need : COLGROUP_RE.need tabA = true := by decide +kernel


theorem Inside.after {nl w rest : Str} (hnl : '|' ∉ nl) (h : Inside w rest) : Inside (nl ++ w) rest := by
  intro u v e
  rcases List.append_eq_append_iff.1 e with ⟨a, e1, e2⟩ | ⟨a, e1, e2⟩
  · exact h a v e2
  · cases a with
    | nil => exact h [] v (by simpa using e2.symm)
    | cons x a =>
      simp at e2
      exact absurd (by rw [e1, ← e2.1]; simp) hnl

theorem Inside.bar {x : Str} {c : Char} {y w rest : Str} (e : w ++ rest = x ++ c :: y) (hx : '\n' ∉ x) (hc : isWs c = false) (h : Inside w rest) :
    Inside ('|' :: w) rest := by
  intro u v e1
  cases u with
  | nil =>
    simp at e1; subst e1
    exact ⟨x, c, y, e, hx, hc⟩
  | cons z u =>
    simp at e1
    exact h u v e1.2

theorem inside_nonl {U : Uni} {c : Spec.Cell} (h : c.Ok U.isLu) : '\n' ∉ c.inside := by
  have := (cellText_ok h).2.1
  unfold Spec.Cell.inside
  split <;> simp [this]

theorem cells_inside {U : Uni} (rest : Str) : ∀ {cs : List Spec.Cell}, (∀ c ∈ cs, c.Ok U.isLu) →
    Inside (cs.flatMap Spec.Cell.source) ('|' :: rest) ∧ (cs.flatMap Spec.Cell.source ++ '|' :: rest).head? = some '|'
  | [], _ => ⟨by intro u v e; simp at e, rfl⟩
  | c :: cs, h => by
    obtain ⟨i1, i2⟩ := cells_inside (U := U) rest (cs := cs) (fun c hc => h c (by simp [hc]))
    obtain ⟨y, hy⟩ : ∃ y, cs.flatMap Spec.Cell.source ++ '|' :: rest = '|' :: y := by
      cases hd : cs.flatMap Spec.Cell.source ++ '|' :: rest with
      | nil => rw [hd] at i2; cases i2
      | cons x y => rw [hd] at i2; simp at i2; exact ⟨y, by rw [i2]⟩
    refine ⟨?_, rfl⟩
    rw [List.flatMap_cons, Spec.Cell.source, List.cons_append]
    refine .bar (x := c.inside) (c := '|') (y := y) (by rw [List.append_assoc, hy]) (inside_nonl (h c (by simp))) (by decide) ?_
    exact .after (inside_nobar (h c (by simp))) i1

theorem rowBody_inside {U : Uni} {r : Spec.Row} (h : RowOk U r) (nl : Str) (hnl : '|' ∉ nl) (rest : Str) :
    Inside (nl ++ rowBody r) ('|' :: rest) := by
  refine .after hnl ?_
  have := (cells_inside (U := U) rest h.2).1
  unfold rowBody
  cases r.sect with
  | none => exact this
  | some m =>
    refine .bar (x := []) (c := m.mark) (by simp only [List.cons_append, List.nil_append]; rfl) (by simp) (by cases m <;> decide) ?_
    exact .after (nl := [m.mark, '.', '\n']) (by cases m <;> decide) this

/-! ## The loop over the rows -/

/-- What has been collected: the closed sections and the loose rows. -/
structure Out (U : Uni) (s : TableSt) (G L : Str) : Prop where
  caption : s.caption = []
  colgroup : s.colgroup = []
  groups : concat (match s.rgrp with | some g => (t!"\n\t" ++ g.process U) :: s.groups | none => s.groups).reverse = G
  content : concat s.content.reverse = L

theorem section_html {U : Uni} (hU : UniOk U) (m : Spec.Sect) (R : List Str) :
    t!"\n\t" ++ (⟨m.tag, {}, R⟩ : Section).process U = ['\n', '\t'] ++ Spec.elementWith m.tag [] (concat R.reverse ++ ['\n', '\t']) := by
  unfold Section.process
  simp only []
  rw [genTag_eq hU (by cases m <;> simp [Spec.Sect.tag]) (by cases m <;> decide)]
  simp [openTagA, closeTag, joinAttrs, concat, Spec.elementWith, BAttrs.html, HtmlAttrs.addOpt]

theorem row_html {U : Uni} (hU : UniOk U) (r : Spec.Row) : rowText U (r.cells.map Spec.Cell.html) [] = r.html := by
  unfold rowText
  rw [genTag_eq hU (by simp) (by decide)]
  simp [openTagA, closeTag, joinAttrs, concat, Spec.elementWith, Spec.Row.html, List.flatMap]

theorem runs_row {C : Ctx} (hU : UniOk C.U) (hlite : C.cfg.lite = false) {ok : Char → Prop} (hL : Lowers C.U ok) (g : Str → Prog Str) (σ : PState)
    {r : Spec.Row} (h : RowOk C.U r) (hok : ∀ c ∈ r.cells, ∀ x ∈ c.text, ok x) (s : TableSt) :
    Runs C (tableRow C g s (r.cells.flatMap Spec.Cell.source)) (match s.rgrp with
      | some g => { s with rgrp := some { g with rows := r.html :: g.rows } }
      | none => { s with content := r.html :: s.content }) σ σ := by
  unfold tableRow
  obtain ⟨c, cs, e⟩ := List.exists_cons_of_ne_nil h.1
  have e2 : r.cells.flatMap Spec.Cell.source = '|' :: (c.inside ++ cs.flatMap Spec.Cell.source) := by rw [e]; rfl
  have hs := splitChar_cells (U := C.U) h.2
  rw [e2, trimStart_bar, rmtch_none, ← e2]
  simp only [pure_bind]
  rw [hs]
  refine Runs.bind (runs_cells hU hlite hL g σ h.2 hok) ?_
  rw [row_html hU]
  exact Runs.pure _ _

theorem runs_group_none {C : Ctx} {r : Spec.Row} (h : RowOk C.U r) (s : TableSt) :
    tableGroup C s (r.cells.flatMap Spec.Cell.source) = pure (s, r.cells.flatMap Spec.Cell.source) := by
  obtain ⟨c, cs, e⟩ := List.exists_cons_of_ne_nil h.1
  have e2 : r.cells.flatMap Spec.Cell.source = '|' :: (c.inside ++ cs.flatMap Spec.Cell.source) := by rw [e]; rfl
  have hc := h.2 c (by rw [e]; simp)
  unfold tableGroup
  rw [e2, trimStart_bar, group_plain]
  · rfl
  · intro x hx
    have h1 := (cellText_ok hc).1
    cases hi : c.inside with
    | nil =>
      rw [hi] at hx
      cases cs with
      | nil => cases hx
      | cons d cs => simp [Spec.Cell.source] at hx; subst hx; decide
    | cons y t =>
      rw [hi] at hx
      simp at hx; subst hx
      unfold Spec.Cell.inside at hi
      split at hi
      · simp at hi; rw [← hi.1]; decide
      · simp at hi
        have hA := h1 y (by rw [hi]; simp)
        intro hm
        exact Alpha.not_mem ((by decide : ∀ z ∈ t!"-^~", z ∉ linesA.ascii ∧ z.toNat < 128) y hm).1
          ((by decide : ∀ z ∈ t!"-^~", z ∉ linesA.ascii ∧ z.toNat < 128) y hm).2 hA

theorem runs_group_some {C : Ctx} {r : Spec.Row} (h : RowOk C.U r) (m : Spec.Sect) (s : TableSt) (σ : PState) :
    Runs C (tableGroup C s (['|', m.mark, '.', '\n'] ++ r.cells.flatMap Spec.Cell.source))
      ({ s with groups := (match s.rgrp with | some g => (t!"\n\t" ++ g.process C.U) :: s.groups | none => s.groups),
                rgrp := some ⟨m.tag, {}, []⟩ }, r.cells.flatMap Spec.Cell.source) σ σ := by
  obtain ⟨c, cs, e⟩ := List.exists_cons_of_ne_nil h.1
  have e2 : r.cells.flatMap Spec.Cell.source = '|' :: (c.inside ++ cs.flatMap Spec.Cell.source) := by rw [e]; rfl
  obtain ⟨k, h1, h2, h3, h4⟩ := group_sect (U := C.U) (m := m) (t := c.inside ++ cs.flatMap Spec.Cell.source)
  unfold tableGroup
  rw [e2]
  simp only [List.cons_append, List.nil_append]
  rw [trimStart_bar, h1]
  simp only [Mat.get?, h2, h3, h4, Mat.grp]
  have ht : sectionTag [m.mark] = .ok m.tag := by cases m <;> rfl
  simp only [ht, (by decide : ¬ (2 : Nat) = 0), (by decide : ¬ (3 : Nat) = 0), (by decide : ¬ (4 : Nat) = 0), if_false]
  have ha : parseAttrs C [] none = pure {} := by
    unfold parseAttrs
    have : BAttrs.parse C.U [] none C.cfg.restricted = .ok {} := by cases C.cfg.restricted <;> rfl
    rw [this]
    rfl
  simp only [ofR, pure_bind, ha]
  exact Runs.pure _ _


theorem caption_row {U : Uni} {r : Spec.Row} (h : RowOk U r) : CAPTION_RE.captures U (rowBody r) = none := by
  obtain ⟨t, e⟩ := rowBody_cons h
  have ho := rowBody_over h
  rw [e] at ho ⊢
  cases t with
  | nil => exact caption_single
  | cons x t =>
    refine caption_none fun hx => ?_
    subst hx
    exact Alpha.not_mem (by decide) (by decide) (ho '=' (by simp))

/-- The start of a section. -/
def TableSt.enter (U : Uni) (s : TableSt) : Option Spec.Sect → TableSt
  | none => s
  | some m => { s with groups := (match s.rgrp with | some g => (t!"\n\t" ++ g.process U) :: s.groups | none => s.groups),
                       rgrp := some ⟨m.tag, {}, []⟩ }

def TableSt.add (s : TableSt) (h : Str) : TableSt :=
  match s.rgrp with
  | some g => { s with rgrp := some { g with rows := h :: g.rows } }
  | none => { s with content := h :: s.content }

/-- One step of the loop. -/
theorem runs_rows_cons {C : Ctx} (hU : UniOk C.U) (hlite : C.cfg.lite = false) {ok : Char → Prop} (hL : Lowers C.U ok) (g : Str → Prog Str) (σ : PState)
    {r : Spec.Row} (h : RowOk C.U r) (hok : ∀ c ∈ r.cells, ∀ x ∈ c.text, ok x) (i : Nat) (s : TableSt) (row : Str) (hrow : trimStart row = rowBody r)
    (l : List Str) {s1 : TableSt}
    (hrest : Runs C (tableRows C g (i + 1) ((s.enter C.U r.sect).add r.html) l) s1 σ σ) :
    Runs C (tableRows C g i s (row :: l)) s1 σ σ := by
  have hcap : tableCaption C s i (rowBody r) = pure (s, some (rowBody r)) := by
    unfold tableCaption
    rw [caption_row h]
    simp
  have hcol : tableColgroup C s (rowBody r) = pure (s, some (rowBody r)) := by
    unfold tableColgroup
    rw [Re.captures_none (Re.need_search hU tabA_wf colgroup_need (rowBody_over h) [])]
  rw [tableRows, hrow, hcap]
  simp only [pure_bind]
  rw [hcol]
  simp only [pure_bind]
  unfold rowBody
  cases hs : r.sect with
  | none =>
    rw [hs] at hrest
    simp only [List.nil_append]
    rw [runs_group_none h]
    simp only [pure_bind]
    exact Runs.bind (runs_row hU hlite hL g σ h hok s) hrest
  | some m =>
    rw [hs] at hrest
    simp only
    refine Runs.bind (runs_group_some h m s σ) ?_
    exact Runs.bind (runs_row hU hlite hL g σ h hok _) hrest

theorem runs_rows {C : Ctx} (hU : UniOk C.U) (hlite : C.cfg.lite = false) {ok : Char → Prop} (hL : Lowers C.U ok) (g : Str → Prog Str) (σ : PState) :
    ∀ (rs : List Spec.Row) (rows : List Str), (∀ r ∈ rs, RowOk C.U r) → (∀ r ∈ rs, ∀ c ∈ r.cells, ∀ x ∈ c.text, ok x) →
      rows.map trimStart = rs.map rowBody → ∀ (i : Nat) (s : TableSt), s.caption = [] → s.colgroup = [] →
      (∀ (m : Spec.Sect) R, s.rgrp = some ⟨m.tag, {}, R⟩ → ∃ s1, Runs C (tableRows C g i s rows) s1 σ σ ∧
        Out C.U s1 (concat s.groups.reverse ++ (['\n', '\t'] ++ Spec.elementWith m.tag [] (concat R.reverse ++ (Spec.sections rs).1.flatMap Spec.Row.html ++ ['\n', '\t'])
          ++ (Spec.sections rs).2.flatMap Spec.sectionHtml)) (concat s.content.reverse)) ∧
      (s.rgrp = none → ∃ s1, Runs C (tableRows C g i s rows) s1 σ σ ∧
        Out C.U s1 (concat s.groups.reverse ++ (Spec.sections rs).2.flatMap Spec.sectionHtml) (concat s.content.reverse ++ (Spec.sections rs).1.flatMap Spec.Row.html))
  | [], rows, _, _, hr, i, s, h1, h2 => by
    have : rows = [] := by simpa using hr
    subst this
    refine ⟨fun m R hm => ⟨s, Runs.pure _ _, h1, h2, ?_, rfl⟩, fun hm => ⟨s, Runs.pure _ _, h1, h2, ?_, ?_⟩⟩
    · rw [hm]
      simp only [section_html hU]
      simp [concat, Spec.sections]
    · rw [hm]; simp [Spec.sections]
    · simp [Spec.sections]
  | r :: rs, [], _, _, hr, _, _, _, _ => by simp at hr
  | r :: rs, row :: rows, h, hok, hr, i, s, h1, h2 => by
    simp only [List.map_cons, List.cons.injEq] at hr
    have hstep := fun s1 => runs_rows_cons hU hlite hL g σ (h r (by simp)) (hok r (by simp)) i s row hr.1 rows (s1 := s1)
    have ih := runs_rows hU hlite hL g σ rs rows (fun r hr => h r (by simp [hr])) (fun r hr => hok r (by simp [hr])) hr.2 (i + 1)
    cases hs : r.sect with
    | none =>
      simp only [hs, TableSt.enter, TableSt.add] at hstep
      refine ⟨fun m R hm => ?_, fun hm => ?_⟩
      · simp only [hm] at hstep
        obtain ⟨s1, q1, q2⟩ := (ih { s with rgrp := some ⟨m.tag, {}, r.html :: R⟩ } h1 h2).1 m _ rfl
        refine ⟨s1, hstep s1 q1, ?_⟩
        have e : (Spec.sections (r :: rs)) = (r :: (Spec.sections rs).1, (Spec.sections rs).2) := by simp [Spec.sections, hs]
        rw [e]
        simpa [concat] using q2
      · simp only [hm] at hstep
        obtain ⟨s1, q1, q2⟩ := (ih { s with content := r.html :: s.content } h1 h2).2 hm
        refine ⟨s1, hstep s1 (by simpa [hm] using q1), ?_⟩
        have e : (Spec.sections (r :: rs)) = (r :: (Spec.sections rs).1, (Spec.sections rs).2) := by simp [Spec.sections, hs]
        rw [e]
        simpa [concat] using q2
    | some m' =>
      simp only [hs, TableSt.enter, TableSt.add] at hstep
      have e : (Spec.sections (r :: rs)) = ([], (m', r :: (Spec.sections rs).1) :: (Spec.sections rs).2) := by simp [Spec.sections, hs]
      rw [e]
      refine ⟨fun m R hm => ?_, fun hm => ?_⟩
      · simp only [hm] at hstep
        obtain ⟨s1, q1, q2⟩ := (ih { s with groups := (t!"\n\t" ++ (⟨m.tag, {}, R⟩ : Section).process C.U) :: s.groups, rgrp := some ⟨m'.tag, {}, [r.html]⟩ } h1 h2).1 m' _ rfl
        refine ⟨s1, hstep s1 q1, ?_⟩
        simp only [section_html hU] at q2
        simpa [concat, Spec.sectionHtml] using q2
      · simp only [hm] at hstep
        obtain ⟨s1, q1, q2⟩ := (ih { s with rgrp := some ⟨m'.tag, {}, [r.html]⟩ } h1 h2).1 m' _ rfl
        refine ⟨s1, hstep s1 q1, ?_⟩
        simpa [concat, Spec.sectionHtml] using q2

/-! ## The whole table -/

def TabOk (U : Uni) (ok : Char → Prop) (rs : List Spec.Row) : Prop :=
  rs ≠ [] ∧ (∀ r ∈ rs, RowOk U r) ∧ ∀ r ∈ rs, ∀ c ∈ r.cells, ∀ x ∈ c.text, ok x

theorem tabOk_of {U : Uni} {ok : Char → Prop} {rs : List Spec.Row} (h : Spec.TableOk U.isLu rs) (hc : ∀ c ∈ Spec.tableChars rs, ok c) : TabOk U ok rs := by
  refine ⟨h.1, fun r hr => h.2 r hr, fun r hr c hc' x hx => hc x ?_⟩
  unfold Spec.tableChars
  exact List.mem_flatMap.2 ⟨r, hr, List.mem_flatMap.2 ⟨c, hc', hx⟩⟩

theorem source_bars {U : Uni} {ok : Char → Prop} {rs : List Spec.Row} (h : TabOk U ok rs) : ∃ X, Spec.tableSource rs = '|' :: (X ++ ['|']) := by
  obtain ⟨r, qs, e⟩ := List.exists_cons_of_ne_nil h.1
  obtain ⟨t, ht⟩ := rowBody_cons (h.2.1 r (by rw [e]; simp))
  rw [e, tableSource_eq, ht]
  rcases List.eq_nil_or_concat qs with rfl | ⟨qs, q, rfl⟩
  · exact ⟨t, by simp⟩
  · refine ⟨t ++ '|' :: ((qs.map (fun r => '\n' :: rowBody r)).flatMap (fun x => x ++ ['|']) ++ '\n' :: rowBody q), ?_⟩
    simp

theorem source_tab {U : Uni} {ok : Char → Prop} {rs : List Spec.Row} (h : TabOk U ok rs) : tabA.Over (Spec.tableSource rs) := by
  obtain ⟨r, qs, e⟩ := List.exists_cons_of_ne_nil h.1
  subst e
  rw [tableSource_eq, Alpha.Over.append, Alpha.Over.append]
  refine ⟨rowBody_over (h.2.1 r (by simp)), fun c hc => .inl ((by decide : ∀ c ∈ ['|'], c ∈ tabA.ascii) c hc), fun c hc => ?_⟩
  simp only [List.mem_flatMap, List.mem_map] at hc
  obtain ⟨x, ⟨q, hq, rfl⟩, hc⟩ := hc
  simp only [List.cons_append, List.mem_cons, List.mem_append, List.not_mem_nil, or_false] at hc
  rcases hc with rfl | hc | rfl
  · exact .inl (by decide)
  · exact rowBody_over (h.2.1 q (by simp [hq])) c hc
  · exact .inl (by decide)

theorem runs_wholeTable {C : Ctx} (hU : UniOk C.U) (hlite : C.cfg.lite = false) {ok : Char → Prop} (hL : Lowers C.U ok) (g : Str → Prog Str)
    {rs : List Spec.Row} (h : TabOk C.U ok rs) (σ : PState) : Runs C (table C g (Spec.tableSource rs)) (Spec.tableHtml rs ++ t!"\n\n") σ σ := by
  obtain ⟨X, hX⟩ := source_bars h
  unfold table
  rw [hX]
  simp only
  rw [table_captures]
  simp only [Mat.grp, Mat.get?]
  rw [← hX]
  have h1 : alLookup 1 [(3, Spec.tableSource rs)] = none := rfl
  have h2 : alLookup 2 [(3, Spec.tableSource rs)] = none := rfl
  have h3 : alLookup 3 [(3, Spec.tableSource rs)] = some (Spec.tableSource rs) := rfl
  simp only [h1, h2, h3, (by decide : ¬ (1 : Nat) = 0), (by decide : ¬ (2 : Nat) = 0), (by decide : ¬ (3 : Nat) = 0), if_false,
    Option.getD_none, Option.getD_some]
  obtain ⟨r, qs, e⟩ := List.exists_cons_of_ne_nil h.1
  have hsplit : (COMPONENTS_RE.split C.U 0 (Spec.tableSource rs)).filter (fun r => !r.isEmpty) = rowBody r :: qs.map (fun r => '\n' :: rowBody r) := by
    rw [e, tableSource_eq]
    refine components_split ?_ ?_ ?_
    · intro x hx rest
      rcases List.mem_cons.1 hx with rfl | hx
      · exact rowBody_inside (h.2.1 r (by rw [e]; simp)) [] (by simp) rest
      · obtain ⟨q, hq, rfl⟩ := List.mem_map.1 hx
        exact rowBody_inside (h.2.1 q (by rw [e]; simp [hq])) ['\n'] (by simp) rest
    · intro x hx
      obtain ⟨q, hq, rfl⟩ := List.mem_map.1 hx
      rfl
    · obtain ⟨t, ht⟩ := rowBody_cons (h.2.1 r (by rw [e]; simp))
      rw [ht]; simp
  have hmap : (rowBody r :: qs.map (fun r => '\n' :: rowBody r)).map trimStart = rs.map rowBody := by
    rw [e]
    simp only [List.map_cons, List.map_map]
    congr 1
    · obtain ⟨t, ht⟩ := rowBody_cons (h.2.1 r (by rw [e]; simp))
      rw [ht, trimStart_bar]
    · apply List.map_congr_left
      intro q hq
      obtain ⟨t, ht⟩ := rowBody_cons (h.2.1 q (by rw [e]; simp [hq]))
      simp only [Function.comp, ht, trimStart_nl]
  obtain ⟨s1, q1, q2⟩ := (runs_rows hU hlite hL g σ rs _ h.2.1 h.2.2 hmap 0 {} rfl rfl).2 rfl
  have ha : parseAttrs C [] (some t!"table") = pure {} := by
    unfold parseAttrs
    have : BAttrs.parse C.U [] (some t!"table") C.cfg.restricted = .ok {} := by cases C.cfg.restricted <;> rfl
    rw [this]
    rfl
  unfold processTable
  rw [ha]
  simp only [pure_bind]
  rw [hsplit]
  refine q1.bind ?_
  obtain ⟨o1, o2, o3, o4⟩ := q2
  have fin : t!"\t" ++ (openTagA t!"table" (joinAttrs []) ++ ([] ++ [] ++ (concat ({} : TableSt).groups.reverse ++ (Spec.sections rs).2.flatMap Spec.sectionHtml) ++
      (concat ({} : TableSt).content.reverse ++ (Spec.sections rs).1.flatMap Spec.Row.html) ++ t!"\n\t" ++ closeTag t!"table")) ++ t!"\n\n" = Spec.tableHtml rs ++ t!"\n\n" := by
    simp [Spec.tableHtml, Spec.elementWith, Spec.tableTag, openTagA, closeTag, joinAttrs, concat]
  cases hr : s1.rgrp <;> simp only [hr] at o3 ⊢ <;>
    (rw [o1, o2, o3, o4, genTag_eq hU (by simp) (by decide)]
     simp only [BAttrs.html, HtmlAttrs.addOpt]
     rw [fin]
     exact Runs.pure _ _)

/-! ## The HTML of a table -/

theorem tag_pieces {U : Uni} {x : Char} {b w : Str} (hx : x ∈ t!"uoltdc/") (hb : ∀ c ∈ b, c ∈ asciiAlnum) (hw : Plainly U w) {r : Str} (hr : Pieces U r) :
    Pieces U (w ++ ('<' :: x :: (b ++ ['>']) ++ r)) := by
  have hn : ∀ c, c ∉ asciiAlnum → c ∉ b := fun c hc hm => hc (hb c hm)
  exact .tag hw ⟨x, b, rfl, hx, hn _ (by decide), hn _ (by decide), hn _ (by decide), infix_colon (hn _ (by decide))⟩ hr

/-- Elements whose name starts with `t`. -/
theorem element_pieces {U : Uni} {b w v r : Str} (hb : ∀ c ∈ b, c ∈ asciiAlnum) (hw : Plainly U w)
    (hv : ∀ r, Pieces U r → Pieces U (v ++ ('<' :: '/' :: ('t' :: b ++ ['>']) ++ r))) (hr : Pieces U r) :
    Pieces U (w ++ (Spec.elementWith ('t' :: b) [] v ++ r)) := by
  have := tag_pieces (x := 't') (by decide) hb hw (hv r hr)
  simpa [Spec.elementWith] using this

theorem plainly_ws {U : Uni} (hU : UniOk U) : ∀ {w : Str}, (∀ c ∈ w, c ∈ ['\n', '\t']) → Plainly U w
  | [], _ => Plainly.nil
  | c :: w, h => by
    have ih := plainly_ws hU (w := w) (fun c hc => h c (by simp [hc]))
    have hc := h c (by simp)
    refine ⟨?_, ?_⟩
    · intro d hd
      rcases List.mem_cons.1 hd with rfl | hd
      · exact .inl ((by decide : ∀ c ∈ ['\n', '\t'], c ∈ textA.ascii) _ hc)
      · exact ih.1 d hd
    · simp at hc
      rcases hc with rfl | rfl
      · exact Good.cons (neutral_nl hU).1 ih.2
      · exact Good.cons (neutral_nl hU).2 ih.2

theorem cell_pieces {U : Uni} (hU : UniOk U) {c : Spec.Cell} (h : c.Ok U.isLu) {r : Str} (hr : Pieces U r) : Pieces U (c.html ++ r) := by
  obtain ⟨x, hx, htag, -⟩ := cell_tag c
  have hb : ∀ c ∈ [x], c ∈ asciiAlnum := by rcases hx with rfl | rfl <;> decide
  unfold Spec.Cell.html
  rw [htag, List.append_assoc]
  refine element_pieces hb (plainly_ws hU (by decide)) (fun r hr => ?_) hr
  exact tag_pieces (x := '/') (b := ['t', x]) (by decide) (by rcases hx with rfl | rfl <;> decide) (cellText_ok h).2.2 hr

theorem cells_pieces {U : Uni} (hU : UniOk U) {r : Str} (hr : Pieces U r) : ∀ {cs : List Spec.Cell}, (∀ c ∈ cs, c.Ok U.isLu) → Pieces U (cs.flatMap Spec.Cell.html ++ r)
  | [], _ => hr
  | c :: cs, h => by
    rw [List.flatMap_cons, List.append_assoc]
    exact cell_pieces hU (h c (by simp)) (cells_pieces hU hr (fun c hc => h c (by simp [hc])))

theorem row_pieces {U : Uni} (hU : UniOk U) {q : Spec.Row} (h : RowOk U q) {r : Str} (hr : Pieces U r) : Pieces U (q.html ++ r) := by
  unfold Spec.Row.html
  rw [List.append_assoc]
  refine element_pieces (b := ['r']) (by decide) (plainly_ws hU (by decide)) (fun r hr => ?_) hr
  rw [List.append_assoc]
  exact cells_pieces hU (tag_pieces (x := '/') (b := t!"tr") (by decide) (by decide) (plainly_ws hU (by decide)) hr) h.2

theorem rows_pieces {U : Uni} (hU : UniOk U) {r : Str} (hr : Pieces U r) : ∀ {cs : List Spec.Row}, (∀ c ∈ cs, RowOk U c) → Pieces U (cs.flatMap Spec.Row.html ++ r)
  | [], _ => hr
  | c :: cs, h => by
    rw [List.flatMap_cons, List.append_assoc]
    exact row_pieces hU (h c (by simp)) (rows_pieces hU hr (fun c hc => h c (by simp [hc])))

theorem section_pieces {U : Uni} (hU : UniOk U) {p : Spec.Sect × List Spec.Row} (h : ∀ q ∈ p.2, RowOk U q) {r : Str} (hr : Pieces U r) :
    Pieces U (Spec.sectionHtml p ++ r) := by
  unfold Spec.sectionHtml
  rw [List.append_assoc]
  obtain ⟨b, hb, hb2⟩ : ∃ b, p.1.tag = 't' :: b ∧ ∀ c ∈ b, c ∈ asciiAlnum := by
    cases p.1
    · exact ⟨t!"head", rfl, by decide⟩
    · exact ⟨t!"body", rfl, by decide⟩
    · exact ⟨t!"foot", rfl, by decide⟩
  rw [hb]
  refine element_pieces hb2 (plainly_ws hU (by decide)) (fun r hr => ?_) hr
  rw [List.append_assoc]
  refine rows_pieces hU (tag_pieces (x := '/') (b := 't' :: b) (by decide) ?_ (plainly_ws hU (by decide)) hr) h
  intro c hc
  rcases List.mem_cons.1 hc with rfl | hc
  · decide
  · exact hb2 c hc

theorem sections_pieces {U : Uni} (hU : UniOk U) {r : Str} (hr : Pieces U r) : ∀ {ps : List (Spec.Sect × List Spec.Row)}, (∀ p ∈ ps, ∀ q ∈ p.2, RowOk U q) →
    Pieces U (ps.flatMap Spec.sectionHtml ++ r)
  | [], _ => hr
  | c :: cs, h => by
    rw [List.flatMap_cons, List.append_assoc]
    exact section_pieces hU (h c (by simp)) (sections_pieces hU hr (fun c hc => h c (by simp [hc])))

theorem sections_mem : ∀ {rs : List Spec.Row}, (∀ q ∈ (Spec.sections rs).1, q ∈ rs) ∧ ∀ p ∈ (Spec.sections rs).2, ∀ q ∈ p.2, q ∈ rs
  | [] => by simp [Spec.sections]
  | r :: rs => by
    obtain ⟨h1, h2⟩ := sections_mem (rs := rs)
    unfold Spec.sections
    cases r.sect with
    | none =>
      refine ⟨fun q hq => ?_, fun p hp q hq => List.mem_cons_of_mem _ (h2 p hp q hq)⟩
      rcases List.mem_cons.1 hq with rfl | hq
      · simp
      · exact List.mem_cons_of_mem _ (h1 q hq)
    | some m =>
      refine ⟨by simp, fun p hp q hq => ?_⟩
      rcases List.mem_cons.1 hp with rfl | hp
      · rcases List.mem_cons.1 hq with rfl | hq
        · simp
        · exact List.mem_cons_of_mem _ (h1 q hq)
      · exact List.mem_cons_of_mem _ (h2 p hp q hq)

theorem table_pieces {U : Uni} (hU : UniOk U) {rs : List Spec.Row} (h : ∀ r ∈ rs, RowOk U r) : Pieces U (Spec.tableHtml rs) := by
  unfold Spec.tableHtml Spec.tableTag
  have := element_pieces (U := U) (b := t!"able") (w := ['\t']) (r := [])
    (v := (Spec.sections rs).2.flatMap Spec.sectionHtml ++ ((Spec.sections rs).1.flatMap Spec.Row.html ++ ['\n', '\t'])) (by decide)
    (plainly_ws hU (by decide)) (fun r hr => ?_) (.last .nil)
  · simpa using this
  · rw [List.append_assoc, List.append_assoc]
    exact sections_pieces hU (rows_pieces hU (tag_pieces (x := '/') (b := t!"table") (by decide) (by decide) (plainly_ws hU (by decide)) hr)
      (fun q hq => h q (sections_mem.1 q hq))) (fun p hp q hq => h q (sections_mem.2 p hp q hq))

end Rustextile
