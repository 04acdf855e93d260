import Verif.CellGraf

/-!
# Rows, sections and captions with attributes
-/

namespace Rustextile

open Prog

/-! ## Sources -/

theorem runs_tcells {C : Ctx} (hU : UniOk C.U) (hlite : C.cfg.lite = false) {ok : Char → Prop} (hL : Lowers C.U ok) (g : Str → Prog Str) (σ : PState) :
    ∀ {cs : List Spec.TCell}, (∀ c ∈ cs, c.Ok C.U.isLu C.cfg.restricted) → (∀ c ∈ cs, ∀ x ∈ c.text, ok x) →
    Runs C (tableCells C g (cs.map Spec.TCell.inside)) (cs.map (Spec.TCell.html C.cfg.restricted)) σ σ
  | [], _, _ => Runs.pure _ _
  | c :: cs, h, hok => by
    refine Runs.bind (runs_tcell hU hlite hL g (h c (by simp)) (hok c (by simp)) σ)
      (Runs.bind (runs_tcells hU hlite hL g σ (fun c hc => h c (by simp [hc])) (fun c hc => hok c (by simp [hc]))) (Runs.pure _ _))

/-- A property of the characters of sources. -/
structure CharP (r : Bool) (P : Char → Prop) : Prop where
  look : ∀ k : Spec.Look, k.Ok r → ∀ x ∈ k.source, P x
  word : ∀ x, Spec.ordinaryChar x = true → P x
  lit : ∀ x ∈ t!"|_\\/0123456789^-~=. table", P x

theorem CharP.inside {U : Uni} {r : Bool} {P : Char → Prop} (hP : CharP r P) {c : Spec.TCell} (h : c.Ok U.isLu r) : ∀ x ∈ c.inside, P x := by
  intro x hx
  have ht : ∀ x ∈ c.text, P x := fun x hx => hP.word x (h.words.chars x hx)
  unfold Spec.TCell.inside at hx
  split at hx
  · exact ht x hx
  · unfold Spec.TCell.marks at hx
    rw [tcell_before] at hx
    simp only [List.mem_append] at hx
    rcases hx with (hx | hx) | hx | hx
    · exact hP.lit x ((by decide : ∀ c ∈ t!"_\\/0123456789", c ∈ t!"|_\\/0123456789^-~=. table") x (beforeText_mem hx))
    · exact hP.look _ h.look x hx
    · exact hP.lit x ((by decide : ∀ c ∈ ['.', ' '], c ∈ t!"|_\\/0123456789^-~=. table") x hx)
    · exact ht x hx

theorem CharP.cells {U : Uni} {r : Bool} {P : Char → Prop} (hP : CharP r P) {cs : List Spec.TCell} (h : ∀ c ∈ cs, c.Ok U.isLu r) :
    ∀ x ∈ cs.flatMap Spec.TCell.source, P x := by
  intro x hx
  obtain ⟨c, hc, hx⟩ := List.mem_flatMap.1 hx
  rcases List.mem_cons.1 hx with rfl | hx
  · exact hP.lit _ (by decide)
  · exact hP.inside (h c hc) x hx

theorem CharP.rowLook {r : Bool} {P : Char → Prop} (hP : CharP r P) {k : Spec.Look} (h : k.Ok r) : ∀ x ∈ rowLook k, P x := by
  intro x hx
  unfold Rustextile.rowLook at hx
  split at hx
  · cases hx
  · rcases List.mem_append.1 hx with hx | hx
    · exact hP.look k h x hx
    · exact hP.lit x ((by decide : ∀ c ∈ t!". ", c ∈ t!"|_\\/0123456789^-~=. table") x hx)

theorem trow_line (r : Spec.TRow) : r.line = rowLook r.look ++ (r.cells.flatMap Spec.TCell.source ++ ['|']) := rfl

theorem CharP.lines {U : Uni} {r : Bool} {P : Char → Prop} (hP : CharP r P) {q : Spec.TRow} (h : q.Ok U.isLu r) : ∀ l ∈ q.lines, ∀ x ∈ l, P x := by
  intro l hl x hx
  unfold Spec.TRow.lines at hl
  rcases List.mem_append.1 hl with hl | hl
  · cases hs : q.sect with
    | none => rw [hs] at hl; cases hl
    | some m =>
      rw [hs] at hl
      rw [List.mem_singleton.1 hl] at hx
      simp only [List.mem_append] at hx
      rcases hx with hx | hx | hx
      · refine hP.lit x ?_
        revert x
        cases m.1 <;> decide
      · exact hP.look _ (h.sect m hs) x hx
      · exact hP.lit x ((by decide : ∀ c ∈ ['.'], c ∈ t!"|_\\/0123456789^-~=. table") x hx)
  · rw [List.mem_singleton.1 hl, trow_line] at hx
    simp only [List.mem_append] at hx
    rcases hx with hx | hx | hx
    · exact hP.rowLook h.look x hx
    · exact hP.cells h.cells x hx
    · exact hP.lit x ((by decide : ∀ c ∈ ['|'], c ∈ t!"|_\\/0123456789^-~=. table") x hx)

theorem CharP.tlines {U : Uni} {r : Bool} {P : Char → Prop} (hP : CharP r P) {t : Spec.TTable} (h : t.Ok U.isLu r) : ∀ l ∈ t.lines, ∀ x ∈ l, P x := by
  intro l hl x hx
  have lit : ∀ w : Str, (∀ c ∈ w, c ∈ t!"|_\\/0123456789^-~=. table") → x ∈ w → P x := fun w hw hx => hP.lit x (hw x hx)
  unfold Spec.TTable.lines at hl
  simp only [List.mem_append] at hl
  rcases hl with hl | hl | hl
  · cases hs : t.head with
    | none => rw [hs] at hl; cases hl
    | some m =>
      rw [hs] at hl
      rw [List.mem_singleton.1 hl] at hx
      obtain ⟨h1, h2⟩ := h.head m hs
      simp only [List.mem_append] at hx
      rcases hx with hx | hx | hx | hx
      · exact lit _ (by decide) hx
      · exact hP.look _ h1 x hx
      · exact lit _ (by decide) hx
      · split at hx
        · cases hx
        · rcases List.mem_cons.1 hx with rfl | hx
          · exact hP.lit _ (by decide)
          · exact hP.word x (h2.words.chars x hx)
  · cases hs : t.caption with
    | none => rw [hs] at hl; cases hl
    | some m =>
      rw [hs] at hl
      rw [List.mem_singleton.1 hl] at hx
      obtain ⟨h1, h2, -⟩ := h.caption m hs
      simp only [List.mem_append] at hx
      rcases hx with hx | hx | hx | hx
      · exact lit _ (by decide) hx
      · exact hP.look _ h1 x hx
      · exact lit _ (by decide) hx
      · exact hP.word x (h2.words.chars x hx)
  · obtain ⟨q, hq, hl⟩ := List.mem_flatMap.1 hl
    exact hP.lines (h.rows q hq) l hl x hx

theorem ordinary_not {x c : Char} (h : Spec.ordinaryChar x = true) (hc : c ∉ plainA.ascii) (h2 : c.toNat < 128) : x ≠ c := by
  rintro rfl
  exact Alpha.not_mem hc h2 (plainA_iff.2 h)

/-- Characters that are not in sources. -/
theorem CharP.not {r : Bool} {c : Char} (h1 : c ∉ asciiAlnum ++ t!" #()[]^-~<>=") (h2 : c ∉ plainA.ascii ∧ c.toNat < 128)
    (h3 : c ∉ t!"|_\\/0123456789^-~=. table") : CharP r (· ≠ c) where
  look := by rintro k hk x hx rfl; exact h1 (look_mem hk hx)
  word := fun x hx => ordinary_not hx h2.1 h2.2
  lit := by rintro x hx rfl; exact h3 hx

theorem charP_nl (r : Bool) : CharP r (· ≠ '\n') where
  look := by rintro k hk x hx rfl; exact absurd (look_mem hk hx) (by decide +kernel)
  word := by rintro x hx rfl; revert hx; decide
  lit := by rintro x hx rfl; exact absurd hx (by decide)

theorem cells_nonl {U : Uni} {r : Bool} {cs : List Spec.TCell} (h : ∀ c ∈ cs, c.Ok U.isLu r) : '\n' ∉ cs.flatMap Spec.TCell.source :=
  fun hm => (charP_nl r).cells h _ hm rfl

/-- Escaping leaves sources alone. -/
theorem charP_enc : CharP true (fun c => c ∉ t!"&<>\"'") where
  look := by
    intro k hk x hx hm
    rw [look_source] at hx
    simp only [List.mem_append] at hx
    rcases hx with hx | hx | hx | hx
    · exact (by decide : ∀ c ∈ t!"^-~", c ∉ t!"&<>\"'") x (lookV_mem hx) hm
    · rcases hk.align rfl with h | h <;> rw [h] at hx
      · cases hx
      · rw [show alignText (some Spec.Align.center) = ['='] from rfl] at hx
        rw [List.mem_singleton.1 hx] at hm
        exact absurd hm (by decide)
    · exact (by decide +kernel : ∀ c ∈ asciiAlnum ++ t!" #()", c ∉ t!"&<>\"'") x (lookCls_mem hk hx) hm
    · exact (by decide +kernel : ∀ c ∈ asciiAlnum ++ t!"[]", c ∉ t!"&<>\"'") x (lookLang_mem hk hx) hm
  word := by
    intro x hx hm
    have : ∀ c ∈ t!"&<>\"'", c ∉ plainA.ascii ∧ c.toNat < 128 := by decide
    exact ordinary_not hx (this x hm).1 (this x hm).2 rfl
  lit := by decide

theorem tinside_nobar {U : Uni} {r : Bool} {c : Spec.TCell} (h : c.Ok U.isLu r) : '|' ∉ c.inside := by
  have ht : '|' ∉ c.text := fun hm => Alpha.not_mem (by decide) (by decide) ((tcell_text h).1 _ hm)
  have hk := (look_nodot h.look).2.1
  have hb : '|' ∉ c.before := by rw [tcell_before]; exact fun hm => absurd (beforeText_mem hm) (by decide)
  unfold Spec.TCell.inside Spec.TCell.marks
  split <;> simp [ht, hk, hb]

theorem tsplitChar_cells {U : Uni} {r : Bool} : ∀ {cs : List Spec.TCell}, (∀ c ∈ cs, c.Ok U.isLu r) →
    splitChar '|' (cs.flatMap Spec.TCell.source) = [] :: cs.map Spec.TCell.inside
  | [], _ => rfl
  | c :: cs, h => by
    have ih := tsplitChar_cells (U := U) (cs := cs) (fun c hc => h c (by simp [hc]))
    have hb := tinside_nobar (h c (by simp))
    rw [List.flatMap_cons, Spec.TCell.source, List.cons_append, splitChar, if_pos (by simp), List.map_cons]
    cases cs with
    | nil =>
      rw [List.flatMap_nil, List.append_nil, splitChar_none hb]
      rfl
    | cons d cs =>
      rw [List.flatMap_cons, Spec.TCell.source, List.cons_append, splitChar, if_pos (by simp)] at ih
      rw [List.flatMap_cons, Spec.TCell.source, List.cons_append, splitChar_at hb]
      rw [List.cons.inj ih |>.2]

/-- The line that starts a section. -/
def sectLine : Option (Spec.Sect × Spec.Look) → Str
  | none => []
  | some s => '|' :: s.1.mark :: (s.2.source ++ '.' :: ['\n'])

def rowCells (r : Spec.TRow) : Str := rowLook r.look ++ r.cells.flatMap Spec.TCell.source

/-- A row, without its last bar. -/
def trowBody (r : Spec.TRow) : Str := sectLine r.sect ++ rowCells r

theorem tjoin_row {ls : List Str} (h : ls ≠ []) (r : Spec.TRow) :
    Spec.join ['\n'] (r.lines ++ ls) = trowBody r ++ ['|'] ++ '\n' :: Spec.join ['\n'] ls := by
  unfold Spec.TRow.lines trowBody rowCells sectLine
  rw [trow_line]
  cases r.sect <;> simp [join_lines, h]

theorem rowsSource_eq : ∀ (rs : List Spec.TRow) (r : Spec.TRow),
    Spec.join ['\n'] ((r :: rs).flatMap Spec.TRow.lines) = trowBody r ++ (['|'] ++ (rs.map (fun r => '\n' :: trowBody r)).flatMap (fun x => x ++ ['|']))
  | [], r => by
    unfold trowBody rowCells sectLine
    simp only [List.flatMap_cons, List.flatMap_nil, Spec.TRow.lines, trow_line]
    cases r.sect <;> simp [Spec.join]
  | q :: rs, r => by
    have ih := rowsSource_eq rs q
    rw [List.flatMap_cons, tjoin_row (by simp [Spec.TRow.lines]), ih]
    simp

/-- The lines before the rows. -/
def headText : Option (Spec.Look × Str) → Str
  | none => []
  | some h => t!"table" ++ (h.1.source ++ '.' :: ((if h.2 = [] then [] else ' ' :: h.2) ++ ['\n']))

def capText : Option (Spec.Look × Str) → Str
  | none => []
  | some h => t!"|=" ++ (h.1.source ++ (t!". " ++ (h.2 ++ ['\n'])))

theorem tsource_eq (t : Spec.TTable) {r : Spec.TRow} {rs : List Spec.TRow} (e : t.rows = r :: rs) :
    t.source = headText t.head ++ (capText t.caption ++ trowBody r ++ (['|'] ++ (rs.map (fun r => '\n' :: trowBody r)).flatMap (fun x => x ++ ['|']))) := by
  have hr := rowsSource_eq rs r
  have hne : (r :: rs).flatMap Spec.TRow.lines ≠ [] := by simp [Spec.TRow.lines]
  unfold Spec.TTable.source Spec.TTable.lines headText capText
  rw [e]
  cases t.head with
  | none =>
    cases t.caption with
    | none => simpa using hr
    | some c => simp only [List.nil_append, List.cons_append]; rw [join_lines _ hne, hr]; simp
  | some h =>
    cases t.caption with
    | none => simp only [List.nil_append, List.cons_append]; rw [join_lines _ hne, hr]; simp [Spec.tableTag]
    | some c => simp only [List.nil_append, List.cons_append]; rw [join_lines _ (by simp), join_lines _ hne, hr]; simp [Spec.tableTag]

/-! ## Rows -/

theorem trimStart_of {t : Str} (h : ∀ c, t.head? = some c → isWs c = false) : trimStart t = t := by
  unfold trimStart trimStartP
  exact dropWhile_of_head h

theorem rowCells_head {U : Uni} {b : Bool} {r : Spec.TRow} (h : r.Ok U.isLu b) {x : Char} (hx : (rowCells r).head? = some x) : x ∈ t!"^-~<>=([.|" := by
  obtain ⟨c, cs, e⟩ := List.exists_cons_of_ne_nil h.some
  unfold rowCells at hx
  rw [e, List.flatMap_cons, Spec.TCell.source, List.cons_append] at hx
  exact rowLook_head hx

theorem trowBody_head {U : Uni} {b : Bool} {r : Spec.TRow} (h : r.Ok U.isLu b) {x : Char} (hx : (trowBody r).head? = some x) : x ∈ t!"^-~<>=([.|" := by
  unfold trowBody sectLine at hx
  cases hs : r.sect with
  | none => rw [hs] at hx; exact rowCells_head h hx
  | some m => rw [hs] at hx; simp at hx; subst hx; decide

theorem trowBody_ne {U : Uni} {b : Bool} {r : Spec.TRow} (h : r.Ok U.isLu b) : trowBody r ≠ [] := by
  obtain ⟨c, cs, e⟩ := List.exists_cons_of_ne_nil h.some
  unfold trowBody rowCells
  rw [e]
  simp [Spec.TCell.source]

theorem look_ws : ∀ x ∈ t!"^-~<>=([.|", isWs x = false := by decide

theorem rowLook_html {k : Spec.Look} (h : k.source = []) : k = {} := by
  rw [look_source] at h
  simp only [List.append_eq_nil_iff] at h
  obtain ⟨a1, a2, a3, a4⟩ := h
  have e1 : k.valign = none := by
    cases hv : k.valign with
    | none => rfl
    | some v => simp [lookV, hv] at a1
  have e2 : k.align = none := by
    cases hv : k.align with
    | none => rfl
    | some v => rw [hv] at a2; cases v <;> simp [alignText, Spec.Align.mark] at a2
  have e3 : k.cls = none := by
    cases hv : k.cls with
    | none => rfl
    | some v => simp [lookCls, hv, clsText] at a3
  have e4 : k.lang = none := by
    cases hv : k.lang with
    | none => rfl
    | some v => simp [lookLang, hv] at a4
  cases k
  simp only at e1 e2 e3 e4
  subst e1 e2 e3 e4
  rfl

theorem trow_html {U : Uni} (hU : UniOk U) {b : Bool} {r : Spec.TRow} {l : HtmlAttrs} (hl : joinAttrs l = r.look.html b true none none) :
    rowText U (r.cells.map (Spec.TCell.html b)) l = r.html b := by
  unfold rowText
  rw [genTag_eq hU (by simp) (by decide), hl]
  simp [openTagA, closeTag, concat, Spec.elementWith, Spec.TRow.html, List.flatMap]

theorem runs_trow {C : Ctx} (hU : UniOk C.U) (hlite : C.cfg.lite = false) {ok : Char → Prop} (hL : Lowers C.U ok) (g : Str → Prog Str) (σ : PState)
    {r : Spec.TRow} (h : r.Ok C.U.isLu C.cfg.restricted) (hok : ∀ c ∈ r.cells, ∀ x ∈ c.text, ok x) (s : TableSt) :
    Runs C (tableRow C g s (rowCells r)) (s.add (r.html C.cfg.restricted)) σ σ := by
  unfold tableRow TableSt.add
  have hs := tsplitChar_cells (U := C.U) h.cells
  rw [trimStart_of (fun c hc => look_ws c (rowCells_head h hc))]
  by_cases hk : r.look.source = []
  · have er : rowCells r = r.cells.flatMap Spec.TCell.source := by simp [rowCells, rowLook, hk]
    obtain ⟨c, cs, e⟩ := List.exists_cons_of_ne_nil h.some
    have e2 : r.cells.flatMap Spec.TCell.source = '|' :: (c.inside ++ cs.flatMap Spec.TCell.source) := by rw [e]; rfl
    rw [er, e2, rmtch_none, ← e2]
    simp only [pure_bind]
    rw [hs]
    refine Runs.bind (runs_tcells hU hlite hL g σ h.cells hok) ?_
    rw [trow_html hU]
    · exact Runs.pure _ _
    · rw [rowLook_html hk]
      cases C.cfg.restricted <;> rfl
  · have er : rowCells r = r.look.source ++ (t!". " ++ r.cells.flatMap Spec.TCell.source) := by simp [rowCells, rowLook, hk]
    rw [er, row_look h.look (cells_nonl h.cells)]
    have ha := runs_parse hU h.look (el := some t!"tr") (by decide) (hd := false) (cols := none) (rows := none) (by simp) (z := t!". ") (.inr rfl) (v := true) (by simp [beforeText, spanText])
    rw [show beforeText false none none ++ (r.look.source ++ t!". ") = r.look.source ++ t!". " by simp [beforeText, spanText]] at ha
    have e1 : ∀ w : Str, (⟨[], w, [(2, r.cells.flatMap Spec.TCell.source), (1, r.look.source ++ t!". ")]⟩ : Mat).grp 1 = r.look.source ++ t!". " := fun _ => rfl
    have e2 : ∀ w : Str, (⟨[], w, [(2, r.cells.flatMap Spec.TCell.source), (1, r.look.source ++ t!". ")]⟩ : Mat).grp 2 = r.cells.flatMap Spec.TCell.source := fun _ => rfl
    simp only [e1, e2, ha, pure_bind]
    rw [hs]
    refine Runs.bind (runs_tcells hU hlite hL g σ h.cells hok) ?_
    rw [trow_html hU (join_look h.look _ _ _)]
    exact Runs.pure _ _

/-- The start of a section. -/
def TableSt.tenter (U : Uni) (b : Bool) (s : TableSt) : Option (Spec.Sect × Spec.Look) → TableSt
  | none => s
  | some m => { s with groups := (match s.rgrp with | some g => (t!"\n\t" ++ g.process U) :: s.groups | none => s.groups),
                       rgrp := some ⟨m.1.tag, lookOf b false none none m.2, []⟩ }

theorem runs_tgroup {C : Ctx} (hU : UniOk C.U) {r : Spec.TRow} (h : r.Ok C.U.isLu C.cfg.restricted) (s : TableSt) (σ : PState) :
    Runs C (tableGroup C s (trowBody r)) (s.tenter C.U C.cfg.restricted r.sect, rowCells r) σ σ := by
  unfold tableGroup
  rw [trimStart_of (fun c hc => look_ws c (trowBody_head h hc))]
  unfold trowBody
  cases hs : r.sect with
  | none =>
    simp only [sectLine, List.nil_append]
    have hn : '\n' ∉ rowCells r := by
      intro hm
      rcases List.mem_append.1 hm with hm | hm
      · exact (charP_nl C.cfg.restricted).rowLook h.look _ hm rfl
      · exact cells_nonl h.cells hm
    rw [group_other hn]
    exact Runs.pure _ _
  | some m =>
    obtain ⟨k, h1, h2, h3, h4⟩ := group_look (U := C.U) (h.sect m hs) (m := m.1) (t := rowCells r) (fun c hc => look_ws c (rowCells_head h hc))
    have e : sectLine (some m) ++ rowCells r = '|' :: m.1.mark :: (m.2.source ++ '.' :: '\n' :: rowCells r) := by simp [sectLine]
    rw [e, h1]
    simp only [Mat.get?, h2, h3, h4, Mat.grp]
    have ht : sectionTag [m.1.mark] = .ok m.1.tag := by cases m.1 <;> rfl
    simp only [ht, (by decide : ¬ (2 : Nat) = 0), (by decide : ¬ (3 : Nat) = 0), (by decide : ¬ (4 : Nat) = 0), if_false]
    have ha := runs_parse hU (h.sect m hs) (el := none) (by simp) (hd := false) (cols := none) (rows := none) (by simp) (z := []) (.inl rfl) (v := false) (by simp)
    rw [show beforeText false none none ++ (m.2.source ++ []) = m.2.source by simp [beforeText, spanText]] at ha
    simp only [ofR, pure_bind, ha]
    exact Runs.pure _ _

def tsA : Alpha := ⟨asciiAlnum ++ t!" ,./$\n|_^-~<>=()[]#\\", true⟩

theorem tsA_wf : tsA.wf = true := by decide

theorem charP_over (r : Bool) : CharP r tsA.Mem where
  look := fun k hk x hx => .inl ((by decide +kernel : ∀ c ∈ asciiAlnum ++ t!" #()[]^-~<>=", c ∈ tsA.ascii) x (look_mem hk hx))
  word := fun x hx => Alpha.mono (by decide) rfl (plainA_iff.2 hx)
  lit := fun x hx => .inl ((by decide +kernel : ∀ c ∈ t!"|_\\/0123456789^-~=. table", c ∈ tsA.ascii) x hx)

theorem trowBody_over {U : Uni} {b : Bool} {r : Spec.TRow} (h : r.Ok U.isLu b) : tsA.Over (trowBody r) := by
  have hP := charP_over b
  refine Alpha.Over.append.2 ⟨?_, Alpha.Over.append.2 ⟨hP.rowLook h.look, hP.cells h.cells⟩⟩
  cases hs : r.sect with
  | none => simp [sectLine, Alpha.Over]
  | some m =>
    intro c hc
    simp only [sectLine, List.mem_cons, List.mem_append, List.not_mem_nil, or_false] at hc
    rcases hc with rfl | rfl | hc | rfl | rfl
    · exact .inl (by decide)
    · refine .inl ?_
      cases m.1 <;> decide
    · exact hP.look _ (h.sect m hs) c hc
    · exact .inl (by decide)
    · exact .inl (by decide)

theorem colgroup_need' : COLGROUP_RE.need tsA = true := by decide +kernel

/-- One step of the loop. -/
theorem runs_trows_cons {C : Ctx} (hU : UniOk C.U) (hlite : C.cfg.lite = false) {ok : Char → Prop} (hL : Lowers C.U ok) (g : Str → Prog Str) (σ : PState)
    {r : Spec.TRow} (h : r.Ok C.U.isLu C.cfg.restricted) (hok : ∀ c ∈ r.cells, ∀ x ∈ c.text, ok x) (i : Nat) (s s' : TableSt) (row : Str)
    (hrow : Runs C (tableCaption C s i (trimStart row)) (s', some (trowBody r)) σ σ)
    (l : List Str) {s1 : TableSt}
    (hrest : Runs C (tableRows C g (i + 1) ((s'.tenter C.U C.cfg.restricted r.sect).add (r.html C.cfg.restricted)) l) s1 σ σ) :
    Runs C (tableRows C g i s (row :: l)) s1 σ σ := by
  have hcol : tableColgroup C s' (trowBody r) = pure (s', some (trowBody r)) := by
    unfold tableColgroup
    rw [Re.captures_none (Re.need_search hU tsA_wf colgroup_need' (trowBody_over h) [])]
  rw [tableRows]
  refine Runs.bind hrow ?_
  simp only
  rw [hcol]
  simp only [pure_bind]
  refine Runs.bind (runs_tgroup hU h s' σ) ?_
  exact Runs.bind (runs_trow hU hlite hL g σ h hok _) hrest

theorem trow_trim {U : Uni} {b : Bool} {r : Spec.TRow} (h : r.Ok U.isLu b) : trimStart (trowBody r) = trowBody r :=
  trimStart_of (fun c hc => look_ws c (trowBody_head h hc))

theorem trow_trim' {U : Uni} {b : Bool} {r : Spec.TRow} (h : r.Ok U.isLu b) : trimStart ('\n' :: trowBody r) = trowBody r := by
  have : trimStart ('\n' :: trowBody r) = trimStart (trowBody r) := rfl
  rw [this, trow_trim h]

theorem tsection_html {U : Uni} (hU : UniOk U) {b : Bool} {m : Spec.Sect × Spec.Look} (h : m.2.Ok b) (R : List Str) :
    t!"\n\t" ++ (⟨m.1.tag, lookOf b false none none m.2, R⟩ : Section).process U =
      ['\n', '\t'] ++ Spec.elementWith m.1.tag (m.2.html b false none none) (concat R.reverse ++ ['\n', '\t']) := by
  unfold Section.process
  simp only []
  rw [genTag_eq hU (by cases m.1 <;> simp [Spec.Sect.tag]) (by cases m.1 <;> decide), join_look h]
  simp [openTagA, closeTag, concat, Spec.elementWith]

/-- What has been collected: the caption, the closed sections and the loose rows. -/
structure TOut (U : Uni) (s : TableSt) (K G L : Str) : Prop where
  caption : s.caption = K
  colgroup : s.colgroup = []
  groups : concat (match s.rgrp with | some g => (t!"\n\t" ++ g.process U) :: s.groups | none => s.groups).reverse = G
  content : concat s.content.reverse = L

theorem runs_trows {C : Ctx} (hU : UniOk C.U) (hlite : C.cfg.lite = false) {ok : Char → Prop} (hL : Lowers C.U ok) (g : Str → Prog Str) (σ : PState) (K : Str) :
    ∀ (rs : List Spec.TRow), (∀ r ∈ rs, r.Ok C.U.isLu C.cfg.restricted) → (∀ r ∈ rs, ∀ c ∈ r.cells, ∀ x ∈ c.text, ok x) →
      ∀ (i : Nat) (s : TableSt), s.caption = K → s.colgroup = [] →
      (∀ (m : Spec.Sect × Spec.Look) R, m.2.Ok C.cfg.restricted → s.rgrp = some ⟨m.1.tag, lookOf C.cfg.restricted false none none m.2, R⟩ →
        ∃ s1, Runs C (tableRows C g (i + 1) s (rs.map (fun r => '\n' :: trowBody r))) s1 σ σ ∧
        TOut C.U s1 K (concat s.groups.reverse ++ (['\n', '\t'] ++ Spec.elementWith m.1.tag (m.2.html C.cfg.restricted false none none)
            (concat R.reverse ++ (Spec.tsections rs).1.flatMap (Spec.TRow.html C.cfg.restricted) ++ ['\n', '\t'])
          ++ (Spec.tsections rs).2.flatMap (Spec.tsectionHtml C.cfg.restricted))) (concat s.content.reverse)) ∧
      (s.rgrp = none → ∃ s1, Runs C (tableRows C g (i + 1) s (rs.map (fun r => '\n' :: trowBody r))) s1 σ σ ∧
        TOut C.U s1 K (concat s.groups.reverse ++ (Spec.tsections rs).2.flatMap (Spec.tsectionHtml C.cfg.restricted))
          (concat s.content.reverse ++ (Spec.tsections rs).1.flatMap (Spec.TRow.html C.cfg.restricted)))
  | [], _, _, i, s, h1, h2 => by
    refine ⟨fun m R ho hm => ⟨s, Runs.pure _ _, h1, h2, ?_, rfl⟩, fun hm => ⟨s, Runs.pure _ _, h1, h2, ?_, ?_⟩⟩
    · rw [hm]
      simp only [tsection_html hU ho]
      simp [concat, Spec.tsections]
    · rw [hm]; simp [Spec.tsections]
    · simp [Spec.tsections]
  | r :: rs, h, hok, i, s, h1, h2 => by
    have hstep := fun s1 => runs_trows_cons hU hlite hL g σ (h r (by simp)) (hok r (by simp)) (i + 1) s s ('\n' :: trowBody r)
      (by rw [trow_trim' (h r (by simp))]; unfold tableCaption; rw [if_neg (by omega)]; exact Runs.pure _ _)
      (rs.map (fun r => '\n' :: trowBody r)) (s1 := s1)
    have ih := runs_trows hU hlite hL g σ K rs (fun r hr => h r (by simp [hr])) (fun r hr => hok r (by simp [hr])) (i + 1)
    cases hs : r.sect with
    | none =>
      have e : (Spec.tsections (r :: rs)) = (r :: (Spec.tsections rs).1, (Spec.tsections rs).2) := by simp [Spec.tsections, hs]
      simp only [hs, TableSt.tenter, TableSt.add] at hstep
      refine ⟨fun m R ho hm => ?_, fun hm => ?_⟩
      · simp only [hm] at hstep
        obtain ⟨s1, q1, q2⟩ := (ih { s with rgrp := some ⟨m.1.tag, lookOf C.cfg.restricted false none none m.2, r.html C.cfg.restricted :: R⟩ } h1 h2).1 m _ ho rfl
        refine ⟨s1, hstep s1 q1, ?_⟩
        rw [e]
        simpa [concat] using q2
      · simp only [hm] at hstep
        obtain ⟨s1, q1, q2⟩ := (ih { s with content := r.html C.cfg.restricted :: s.content } h1 h2).2 hm
        refine ⟨s1, hstep s1 (by simpa [hm] using q1), ?_⟩
        rw [e]
        simpa [concat] using q2
    | some m' =>
      have ho' := (h r (by simp)).sect m' hs
      simp only [hs, TableSt.tenter, TableSt.add] at hstep
      have e : (Spec.tsections (r :: rs)) = ([], (m', r :: (Spec.tsections rs).1) :: (Spec.tsections rs).2) := by simp [Spec.tsections, hs]
      rw [e]
      refine ⟨fun m R ho hm => ?_, fun hm => ?_⟩
      · simp only [hm] at hstep
        obtain ⟨s1, q1, q2⟩ := (ih { s with groups := (t!"\n\t" ++ (⟨m.1.tag, lookOf C.cfg.restricted false none none m.2, R⟩ : Section).process C.U) :: s.groups, rgrp := some ⟨m'.1.tag, lookOf C.cfg.restricted false none none m'.2, [r.html C.cfg.restricted]⟩ } h1 h2).1 m' _ ho' rfl
        refine ⟨s1, hstep s1 q1, ?_⟩
        simp only [tsection_html hU ho] at q2
        simpa [concat, Spec.tsectionHtml] using q2
      · simp only [hm] at hstep
        obtain ⟨s1, q1, q2⟩ := (ih { s with rgrp := some ⟨m'.1.tag, lookOf C.cfg.restricted false none none m'.2, [r.html C.cfg.restricted]⟩ } h1 h2).1 m' _ ho' rfl
        refine ⟨s1, hstep s1 q1, ?_⟩
        simpa [concat, Spec.tsectionHtml] using q2

/-- All the rows, the first one given with its caption. -/
theorem runs_trows_first {C : Ctx} (hU : UniOk C.U) (hlite : C.cfg.lite = false) {ok : Char → Prop} (hL : Lowers C.U ok) (g : Str → Prog Str) (σ : PState) {K : Str}
    {r : Spec.TRow} {rs : List Spec.TRow} (h : ∀ q ∈ r :: rs, q.Ok C.U.isLu C.cfg.restricted) (hok : ∀ q ∈ r :: rs, ∀ c ∈ q.cells, ∀ x ∈ c.text, ok x)
    {row : Str} (hrow : Runs C (tableCaption C {} 0 (trimStart row)) ({ caption := K }, some (trowBody r)) σ σ) :
    ∃ s1, Runs C (tableRows C g 0 {} (row :: rs.map (fun r => '\n' :: trowBody r))) s1 σ σ ∧
      TOut C.U s1 K ((Spec.tsections (r :: rs)).2.flatMap (Spec.tsectionHtml C.cfg.restricted)) ((Spec.tsections (r :: rs)).1.flatMap (Spec.TRow.html C.cfg.restricted)) := by
  have hstep := fun s1 => runs_trows_cons hU hlite hL g σ (h r (by simp)) (hok r (by simp)) 0 _ _ row hrow (rs.map (fun r => '\n' :: trowBody r)) (s1 := s1)
  have ih := runs_trows hU hlite hL g σ K rs (fun r hr => h r (by simp [hr])) (fun r hr => hok r (by simp [hr])) 0
  cases hs : r.sect with
  | none =>
    have e : (Spec.tsections (r :: rs)) = (r :: (Spec.tsections rs).1, (Spec.tsections rs).2) := by simp [Spec.tsections, hs]
    simp only [hs, TableSt.tenter, TableSt.add] at hstep
    obtain ⟨s1, q1, q2⟩ := (ih { caption := K, content := [r.html C.cfg.restricted] } rfl rfl).2 rfl
    refine ⟨s1, hstep s1 q1, ?_⟩
    rw [e]
    simpa [concat] using q2
  | some m' =>
    have e : (Spec.tsections (r :: rs)) = ([], (m', r :: (Spec.tsections rs).1) :: (Spec.tsections rs).2) := by simp [Spec.tsections, hs]
    simp only [hs, TableSt.tenter, TableSt.add] at hstep
    obtain ⟨s1, q1, q2⟩ := (ih { caption := K, rgrp := some ⟨m'.1.tag, lookOf C.cfg.restricted false none none m'.2, [r.html C.cfg.restricted]⟩ } rfl rfl).1 m' _ ((h r (by simp)).sect m' hs) rfl
    refine ⟨s1, hstep s1 q1, ?_⟩
    rw [e]
    simpa [concat, Spec.tsectionHtml] using q2

/-! ## Captions -/

theorem label_trim {U : Uni} (hU : UniOk U) {t : Str} (h : Spec.Label U.isLu t) : trim t = t := by
  have hw : ∀ c ∈ t, c ≠ ' ' → isWs c = false := fun c hc hn => (plain_nows (h.words.chars c hc) hn).1
  unfold trim trimP trimStartP
  rw [dropWhile_of_head, trimEndP_of_last]
  · intro c hc
    exact hw c (List.mem_of_getLast? hc) (fun e => h.last (by rw [hc, e]))
  · intro c hc
    exact hw c (List.mem_of_head? hc) (fun e => h.first (by rw [hc, e]))

theorem runs_caption {C : Ctx} (hU : UniOk C.U) {r : Spec.TRow} (hr : r.Ok C.U.isLu C.cfg.restricted) {h : Spec.Look × Str} (h1 : h.1.Ok C.cfg.restricted)
    (h2 : Spec.Label C.U.isLu h.2) (σ : PState) :
    Runs C (tableCaption C {} 0 (trimStart (capText (some h) ++ trowBody r)))
      ({ caption := ['\n', '\t'] ++ (Spec.elementWith t!"caption" (h.1.html C.cfg.restricted false none none) h.2 ++ ['\n']) }, some (trowBody r)) σ σ := by
  have hn : '\n' ∉ h.2 := fun hm => absurd (h2.words.chars _ hm) (by decide)
  have e : trimStart (capText (some h) ++ trowBody r) = t!"|=" ++ (h.1.source ++ (t!". " ++ (h.2 ++ '\n' :: trowBody r))) := by
    rw [show capText (some h) ++ trowBody r = t!"|=" ++ (h.1.source ++ (t!". " ++ (h.2 ++ '\n' :: trowBody r))) by simp [capText]]
    rfl
  unfold tableCaption
  rw [if_pos rfl, e, caption_some h1 hn]
  have e1 : ∀ w : Str, (⟨[], w, [(3, '\n' :: trowBody r), (2, h.2), (1, h.1.source)]⟩ : Mat).grp 1 = h.1.source := fun _ => rfl
  have e2 : ∀ w : Str, (⟨[], w, [(3, '\n' :: trowBody r), (2, h.2), (1, h.1.source)]⟩ : Mat).grp 2 = h.2 := fun _ => rfl
  have e3 : ∀ w : Str, (⟨[], w, [(3, '\n' :: trowBody r), (2, h.2), (1, h.1.source)]⟩ : Mat).grp 3 = '\n' :: trowBody r := fun _ => rfl
  have ha := runs_parse hU h1 (el := none) (by simp) (hd := false) (cols := none) (rows := none) (by simp) (z := []) (.inl rfl) (v := false) (by simp)
  rw [show beforeText false none none ++ (h.1.source ++ []) = h.1.source by simp [beforeText, spanText]] at ha
  have hne : (trowBody r).isEmpty = false := by
    have := trowBody_ne hr
    cases hb : trowBody r with
    | nil => exact absurd hb this
    | cons => rfl
  simp only [e1, e2, e3, processCaption, ha, pure_bind]
  rw [trow_trim' hr, hne, genTag_eq hU (by simp) (by decide), join_look h1, label_trim hU h2]
  have : t!"\n" ++ (t!"\t" ++ (openTagA t!"caption" (h.1.html C.cfg.restricted false none none) ++ (h.2 ++ closeTag t!"caption")) ++ t!"\n") =
      ['\n', '\t'] ++ (Spec.elementWith t!"caption" (h.1.html C.cfg.restricted false none none) h.2 ++ ['\n']) := by
    simp [openTagA, closeTag, Spec.elementWith]
  rw [this]
  exact Runs.pure _ _

theorem runs_nocaption {C : Ctx} {r : Spec.TRow} (hr : r.Ok C.U.isLu C.cfg.restricted) (h : ¬ t!"|=" <+: trowBody r) (σ : PState) :
    Runs C (tableCaption C {} 0 (trimStart (trowBody r))) ({ caption := [] }, some (trowBody r)) σ σ := by
  unfold tableCaption
  rw [if_pos rfl, trow_trim hr, caption_other h]
  exact Runs.pure _ _

/-- No caption by accident. -/
theorem trow_nocap {U : Uni} {b : Bool} {t : Spec.TTable} (h : t.Ok U.isLu b) (hc : t.caption = none) {r : Spec.TRow} {rs : List Spec.TRow}
    (e : t.rows = r :: rs) : ¬ t!"|=" <+: trowBody r := by
  have h1 := h.first hc
  intro hp
  unfold trowBody sectLine at hp
  cases hs : r.sect with
  | none =>
    rw [hs] at hp
    refine h1 ?_
    rw [e, List.flatMap_cons, Spec.TRow.lines, hs]
    obtain ⟨z, hz⟩ := hp
    simp only [List.nil_append] at hz
    refine ⟨z ++ (['|'] ++ (rs.flatMap Spec.TRow.lines).flatten), ?_⟩
    rw [← List.append_assoc, hz]
    simp [trow_line, rowCells]
  | some m =>
    rw [hs] at hp
    obtain ⟨z, hz⟩ := hp
    simp at hz
    have := hz.1
    cases hm : m.1 <;> rw [hm] at this <;> simp [Spec.Sect.mark] at this


/-! ## The whole table -/

theorem tinside_nonl {U : Uni} {b : Bool} {c : Spec.TCell} (h : c.Ok U.isLu b) : '\n' ∉ c.inside := fun hm => (charP_nl b).inside h _ hm rfl

theorem tcells_inside {U : Uni} {b : Bool} (rest : Str) : ∀ {cs : List Spec.TCell}, (∀ c ∈ cs, c.Ok U.isLu b) →
    Inside (cs.flatMap Spec.TCell.source) ('|' :: rest) ∧ ∃ y, cs.flatMap Spec.TCell.source ++ '|' :: rest = '|' :: y
  | [], _ => ⟨by intro u v e; simp at e, ⟨_, rfl⟩⟩
  | c :: cs, h => by
    obtain ⟨i1, y, hy⟩ := tcells_inside (U := U) rest (cs := cs) (fun c hc => h c (by simp [hc]))
    refine ⟨?_, ⟨_, rfl⟩⟩
    rw [List.flatMap_cons, Spec.TCell.source, List.cons_append]
    refine .bar (x := c.inside) (c := '|') (y := y) (by rw [List.append_assoc, hy]) (tinside_nonl (h c (by simp))) (by decide) ?_
    exact .after (tinside_nobar (h c (by simp))) i1

theorem rowLook_nobar {r : Bool} {k : Spec.Look} (h : k.Ok r) : '|' ∉ rowLook k := by
  have := (look_nodot h).2.1
  unfold rowLook
  split <;> simp [this]

theorem trowBody_inside {U : Uni} {b : Bool} {r : Spec.TRow} (h : r.Ok U.isLu b) (rest : Str) : Inside (trowBody r) ('|' :: rest) := by
  have := (tcells_inside (U := U) rest h.cells).1
  have hc : Inside (rowCells r) ('|' :: rest) := .after (rowLook_nobar h.look) this
  unfold trowBody
  cases hs : r.sect with
  | none => exact hc
  | some m =>
    have hk := (look_nodot (h.sect m hs)).2.1
    have e : sectLine (some m) ++ rowCells r = '|' :: ((m.1.mark :: (m.2.source ++ '.' :: ['\n'])) ++ rowCells r) := by simp [sectLine]
    rw [e]
    refine .bar (x := []) (c := m.1.mark) (y := (m.2.source ++ '.' :: ['\n']) ++ rowCells r ++ '|' :: rest) (by simp) (by simp) (by cases m.1 <;> decide) ?_
    refine .after ?_ hc
    simp only [List.mem_cons, List.mem_append, not_or]
    exact ⟨by cases m.1 <;> decide, hk, by decide, by decide, by simp⟩

theorem cap_inside {U : Uni} {b : Bool} {r : Spec.TRow} (h : r.Ok U.isLu b) {cap : Option (Spec.Look × Str)}
    (hc : ∀ m, cap = some m → m.1.Ok b ∧ Spec.Label U.isLu m.2) (rest : Str) : Inside (capText cap ++ trowBody r) ('|' :: rest) := by
  have hi := trowBody_inside h rest
  cases hm : cap with
  | none => exact hi
  | some m =>
    obtain ⟨h1, h2⟩ := hc m hm
    have hk := (look_nodot h1).2.1
    have ht : '|' ∉ m.2 := fun hm => absurd (h2.words.chars _ hm) (by decide)
    have e : capText (some m) ++ trowBody r = '|' :: (('=' :: (m.1.source ++ (t!". " ++ (m.2 ++ ['\n'])))) ++ trowBody r) := by simp [capText]
    rw [e]
    refine .bar (x := []) (c := '=') (y := (m.1.source ++ (t!". " ++ (m.2 ++ ['\n']))) ++ trowBody r ++ '|' :: rest) (by simp) (by simp) (by decide) ?_
    refine .after ?_ hi
    simp [hk, ht]

/-- The rows, starting with the attributes of a row. -/
theorem body_bars {U : Uni} {b : Bool} {t : Spec.TTable} (h : t.Ok U.isLu b) {r : Spec.TRow} {rs : List Spec.TRow} (e : t.rows = r :: rs) :
    ∃ k X, k.Ok b ∧ capText t.caption ++ trowBody r ++ (['|'] ++ (rs.map (fun r => '\n' :: trowBody r)).flatMap (fun x => x ++ ['|'])) =
      rowLook k ++ '|' :: (X ++ ['|']) := by
  obtain ⟨Y, hY⟩ : ∃ Y, ['|'] ++ (rs.map (fun r => '\n' :: trowBody r)).flatMap (fun x => x ++ ['|']) = Y ++ ['|'] := by
    rcases List.eq_nil_or_concat rs with rfl | ⟨qs, q, rfl⟩
    · exact ⟨[], rfl⟩
    · exact ⟨['|'] ++ ((qs.map (fun r => '\n' :: trowBody r)).flatMap (fun x => x ++ ['|']) ++ '\n' :: trowBody q), by simp⟩
  rw [hY]
  have hr := h.rows r (by rw [e]; simp)
  cases hc : t.caption with
  | some m =>
    refine ⟨{}, '=' :: (m.1.source ++ (t!". " ++ (m.2 ++ ['\n']))) ++ (trowBody r ++ Y), ⟨by simp, by simp, by simp⟩, ?_⟩
    rw [show rowLook {} = [] from rfl]
    simp [capText]
  | none =>
    cases hs : r.sect with
    | some m =>
      refine ⟨{}, m.1.mark :: (m.2.source ++ '.' :: ['\n']) ++ (rowCells r ++ Y), ⟨by simp, by simp, by simp⟩, ?_⟩
      rw [show rowLook {} = [] from rfl]
      simp [capText, trowBody, sectLine, hs]
    | none =>
      obtain ⟨c, cs, ec⟩ := List.exists_cons_of_ne_nil hr.some
      refine ⟨r.look, c.inside ++ (cs.flatMap Spec.TCell.source ++ Y), hr.look, ?_⟩
      simp [capText, trowBody, sectLine, hs, rowCells, ec, Spec.TCell.source]

theorem tsplit {U : Uni} {b : Bool} {t : Spec.TTable} (h : t.Ok U.isLu b) {r : Spec.TRow} {rs : List Spec.TRow} (e : t.rows = r :: rs) :
    (COMPONENTS_RE.split U 0 (capText t.caption ++ trowBody r ++ (['|'] ++ (rs.map (fun r => '\n' :: trowBody r)).flatMap (fun x => x ++ ['|'])))).filter (fun r => !r.isEmpty) =
      (capText t.caption ++ trowBody r) :: rs.map (fun r => '\n' :: trowBody r) := by
  refine components_split ?_ ?_ ?_
  · intro x hx rest
    rcases List.mem_cons.1 hx with rfl | hx
    · exact cap_inside (h.rows r (by rw [e]; simp)) (fun m hm => ⟨(h.caption m hm).1, (h.caption m hm).2.1⟩) rest
    · obtain ⟨q, hq, rfl⟩ := List.mem_map.1 hx
      exact .after (nl := ['\n']) (by decide) (trowBody_inside (h.rows q (by rw [e]; simp [hq])) rest)
  · intro x hx
    obtain ⟨q, hq, rfl⟩ := List.mem_map.1 hx
    rfl
  · have := trowBody_ne (h.rows r (by rw [e]; simp))
    simp [this]

theorem table_end {U : Uni} {s : TableSt} {K G L : Str} (h : TOut U s K G L) :
    s.caption ++ s.colgroup ++ concat (match s.rgrp with | some g => (t!"\n\t" ++ g.process U) :: s.groups | none => s.groups).reverse ++ concat s.content.reverse ++ t!"\n\t" =
      K ++ (G ++ (L ++ ['\n', '\t'])) := by
  rw [h.groups, h.caption, h.colgroup, h.content]
  simp

theorem runs_process {C : Ctx} (hU : UniOk C.U) (hlite : C.cfg.lite = false) {ok : Char → Prop} (hL : Lowers C.U ok) (g : Str → Prog Str)
    {t : Spec.TTable} (h : t.Ok C.U.isLu C.cfg.restricted) (hok : ∀ x ∈ t.chars, ok x) {r : Spec.TRow} {rs : List Spec.TRow} (e : t.rows = r :: rs)
    {tatts : Str} {summary : Option Str} {A : BAttrs} (hA : parseAttrs C tatts (some t!"table") = pure A)
    (hj : joinAttrs (match summary with | some s => if s.isEmpty then A.html else HtmlAttrs.insert t!"summary" (trim s) A.html | none => A.html) = t.atts C.cfg.restricted) (σ : PState) :
    Runs C (processTable C g tatts (capText t.caption ++ trowBody r ++ (['|'] ++ (rs.map (fun r => '\n' :: trowBody r)).flatMap (fun x => x ++ ['|']))) summary)
      (t.html C.cfg.restricted ++ t!"\n\n") σ σ := by
  have hok' : ∀ q ∈ r :: rs, ∀ c ∈ q.cells, ∀ x ∈ c.text, ok x := by
    intro q hq c hc x hx
    exact hok x (List.mem_flatMap.2 ⟨q, by rw [e]; exact hq, List.mem_flatMap.2 ⟨c, hc, hx⟩⟩)
  have hrs : ∀ q ∈ r :: rs, q.Ok C.U.isLu C.cfg.restricted := fun q hq => h.rows q (by rw [e]; exact hq)
  have hcap : Runs C (tableCaption C {} 0 (trimStart (capText t.caption ++ trowBody r))) ({ caption := t.top C.cfg.restricted }, some (trowBody r)) σ σ := by
    cases hc : t.caption with
    | none =>
      have := runs_nocaption (hrs r (by simp)) (trow_nocap h hc e) σ
      simpa [capText, Spec.TTable.top, hc] using this
    | some m =>
      obtain ⟨h1, h2, -⟩ := h.caption m hc
      have := runs_caption hU (hrs r (by simp)) h1 h2 σ
      simpa [Spec.TTable.top, hc] using this
  obtain ⟨s1, q1, q2⟩ := runs_trows_first hU hlite hL g σ hrs hok' hcap
  unfold processTable
  rw [hA]
  simp only [pure_bind]
  rw [tsplit h e]
  refine q1.bind ?_
  have fin := table_end q2
  have : t!"\t" ++ (openTagA t!"table" (t.atts C.cfg.restricted) ++ (t.top C.cfg.restricted ++ ((Spec.tsections (r :: rs)).2.flatMap (Spec.tsectionHtml C.cfg.restricted) ++
      ((Spec.tsections (r :: rs)).1.flatMap (Spec.TRow.html C.cfg.restricted) ++ ['\n', '\t'])) ++ closeTag t!"table")) ++ t!"\n\n" = t.html C.cfg.restricted ++ t!"\n\n" := by
    rw [← e]
    simp [Spec.TTable.html, Spec.elementWith, Spec.tableTag, openTagA, closeTag]
  cases hr : s1.rgrp <;> cases summary <;> simp only [hr] at fin hj ⊢ <;>
    (rw [fin, genTag_eq hU (by simp) (by decide), hj, this]
     exact Runs.pure _ _)

theorem runs_ttable {C : Ctx} (hU : UniOk C.U) (hlite : C.cfg.lite = false) {ok : Char → Prop} (hL : Lowers C.U ok) (g : Str → Prog Str)
    {t : Spec.TTable} (h : t.Ok C.U.isLu C.cfg.restricted) (hok : ∀ x ∈ t.chars, ok x) (σ : PState) :
    Runs C (table C g t.source) (t.html C.cfg.restricted ++ t!"\n\n") σ σ := by
  obtain ⟨r, rs, e⟩ := List.exists_cons_of_ne_nil h.some
  obtain ⟨k, X, hk, hX⟩ := body_bars h e
  unfold table
  rw [tsource_eq t e]
  simp only
  cases hh : t.head with
  | none =>
    rw [hX]
    simp only [headText, List.nil_append]
    rw [table_plainHead hk]
    have e1 : ∀ w : Str, (⟨[], w, [(3, rowLook k ++ '|' :: (X ++ ['|']))]⟩ : Mat).grp 1 = [] := fun _ => rfl
    have e2 : ∀ w : Str, (⟨[], w, [(3, rowLook k ++ '|' :: (X ++ ['|']))]⟩ : Mat).get? 2 = none := fun _ => rfl
    have e3 : ∀ w : Str, (⟨[], w, [(3, rowLook k ++ '|' :: (X ++ ['|']))]⟩ : Mat).grp 3 = rowLook k ++ '|' :: (X ++ ['|']) := fun _ => rfl
    simp only [e1, e2, e3]
    rw [← hX]
    refine runs_process hU hlite hL g h hok e (A := {}) ?_ ?_ σ
    · unfold parseAttrs
      have : BAttrs.parse C.U [] (some t!"table") C.cfg.restricted = .ok {} := by cases C.cfg.restricted <;> rfl
      rw [this]
      rfl
    · simp [Spec.TTable.atts, hh, joinAttrs, BAttrs.html, HtmlAttrs.addOpt]
  | some m =>
    obtain ⟨h1, h2⟩ := h.head m hh
    have hn : '\n' ∉ m.2 := fun hm => absurd (h2.words.chars _ hm) (by decide)
    rw [hX]
    obtain ⟨S, hS⟩ : ∃ S, S = (if m.2 = [] then [] else ' ' :: m.2) := ⟨_, rfl⟩
    have hSn : '\n' ∉ S := by rw [hS]; split <;> simp [hn]
    have ht : headText (some m) = t!"table" ++ (m.1.source ++ '.' :: (S ++ ['\n'])) := by simp only [headText, hS]
    rw [ht, table_withHead h1 hk hSn]
    have e1 : ∀ w : Str, (⟨[], w, [(3, rowLook k ++ '|' :: (X ++ ['|'])), (2, S), (1, m.1.source)]⟩ : Mat).grp 1 = m.1.source := fun _ => rfl
    have e2 : ∀ w : Str, (⟨[], w, [(3, rowLook k ++ '|' :: (X ++ ['|'])), (2, S), (1, m.1.source)]⟩ : Mat).get? 2 = some S := fun _ => rfl
    have e3 : ∀ w : Str, (⟨[], w, [(3, rowLook k ++ '|' :: (X ++ ['|'])), (2, S), (1, m.1.source)]⟩ : Mat).grp 3 = rowLook k ++ '|' :: (X ++ ['|']) := fun _ => rfl
    simp only [e1, e2, e3]
    rw [← hX]
    have ha := runs_parse hU h1 (el := some t!"table") (by decide) (hd := false) (cols := none) (rows := none) (by simp) (z := []) (.inl rfl) (v := false) (by simp)
    rw [show beforeText false none none ++ (m.1.source ++ []) = m.1.source by simp [beforeText, spanText]] at ha
    refine runs_process hU hlite hL g h hok e ha ?_ σ
    simp only [Spec.TTable.atts, hh]
    by_cases hm : m.2 = []
    · rw [hS, hm]
      simp [join_look h1, Spec.attr]
    · have hs : trim S = m.2 := by
        rw [hS, if_neg hm]
        rw [show trim (' ' :: m.2) = trim m.2 from rfl, label_trim hU h2]
      have hne : S.isEmpty = false := by rw [hS, if_neg hm]; rfl
      simp only [hne, hs, if_neg hm, Bool.false_eq_true, if_false]
      refine join_summary h1 ?_
      intro c hc hm
      have := (by decide : ∀ c ∈ t!"&<>\"'\n\r\t", Spec.ordinaryChar c = false) c hm
      rw [h2.words.chars c hc] at this
      cases this

end Rustextile
