import Verif.CellRe

/-!
# A table with attributes becomes HTML
-/

namespace Rustextile

open Prog

/-! ## Attributes -/

theorem tcell_before (c : Spec.TCell) : c.before = beforeText c.heading c.cols c.rows := by
  unfold Spec.TCell.before beforeText spanText
  cases c.cols <;> cases c.rows <;> simp [natStr_numeral]

theorem look_names {r v : Bool} {cols rows : Option Nat} {k : Spec.Look} : ∀ a ∈ (lookOf r v cols rows k).html, a.1.all isValidAttrChar = true := by
  rw [lookOf, toStr_six]
  intro a ha
  simp only [List.mem_append, List.mem_map] at ha
  rcases ha with ⟨x, -, rfl⟩ | ⟨x, -, rfl⟩ | ⟨x, -, rfl⟩ | ⟨x, -, rfl⟩ | ⟨x, -, rfl⟩ | ⟨x, -, rfl⟩ <;> (dsimp only; decide)

theorem join_look {r : Bool} {k : Spec.Look} (h : k.Ok r) (v : Bool) (cols rows : Option Nat) :
    joinAttrs (lookOf r v cols rows k).html = k.html r v cols rows := by
  rw [← look_text h, joinAttrs, HtmlAttrs.toStr, List.filter_eq_self.2 look_names]

theorem insert_last {k v : Str} : ∀ {l : HtmlAttrs}, (∀ a ∈ l, a.1 ≠ k ∧ strLt k a.1 = false) → HtmlAttrs.insert k v l = l ++ [(k, v)]
  | [], _ => rfl
  | (a, b) :: l, h => by
    obtain ⟨h1, h2⟩ := h (a, b) (by simp)
    have ih := insert_last (k := k) (v := v) (l := l) (fun x hx => h x (by simp [hx]))
    unfold HtmlAttrs.insert at ih ⊢
    simp only [btInsert]
    rw [if_neg h1, if_neg (by simpa using h2), ih]
    rfl

theorem join_summary {r : Bool} {k : Spec.Look} (h : k.Ok r) {s : Str} (hs : ∀ c ∈ s, c ∉ t!"&<>\"'\n\r\t") :
    joinAttrs (HtmlAttrs.insert t!"summary" s (lookOf r false none none k).html) = k.html r false none none ++ Spec.attr t!"summary" (some s) := by
  rw [insert_last, ← join_look h]
  · unfold joinAttrs
    rw [List.filter_append, List.flatMap_append]
    congr 1
    have : ([(t!"summary", s)] : HtmlAttrs).filter (fun a => a.1.all isValidAttrChar) = [(t!"summary", s)] := by
      rw [List.filter_cons, if_pos (by simp only []; decide)]; rfl
    rw [this]
    simp only [List.flatMap_cons, List.flatMap_nil, List.append_nil, attrText, quoteattr_plain hs, Spec.attr]
    simp
  · rw [lookOf, toStr_six]
    intro a ha
    simp only [List.mem_append, List.mem_map] at ha
    rcases ha with ⟨x, -, rfl⟩ | ⟨x, -, rfl⟩ | ⟨x, -, rfl⟩ | ⟨x, -, rfl⟩ | ⟨x, -, rfl⟩ | ⟨x, -, rfl⟩ <;> (dsimp only; decide)

/-- What the attributes are made of. -/
def attA' : Str := asciiAlnum ++ t!" =\"-:;"

theorem attr_all {P : Char → Prop} {n : Str} {o : Option Str} (hn : ∀ c ∈ n, P c) (hl : ∀ c ∈ t!" =\"", P c) (ho : ∀ v, o = some v → ∀ c ∈ v, P c) :
    ∀ c ∈ Spec.attr n o, P c := by
  intro c hc
  cases o with
  | none => cases hc
  | some v =>
    simp only [Spec.attr, List.mem_append, List.mem_cons, List.not_mem_nil, or_false] at hc
    rcases hc with rfl | hc | (rfl | rfl) | hc | rfl
    · exact hl _ (by simp)
    · exact hn c hc
    · exact hl _ (by simp)
    · exact hl _ (by simp)
    · exact ho v rfl c hc
    · exact hl _ (by simp)

/-- Classes, identifiers and languages. -/
def WordAtt (v : Str) : Prop := ∀ c ∈ v, c ∈ asciiAlnum ++ t!" "

theorem look_cls_words {r : Bool} {k : Spec.Look} (h : k.Ok r) : (∀ v, k.atts.cls = some v → WordAtt v) ∧ (∀ v, k.atts.id = some v → WordAtt v) ∧
    ∀ v, k.lang = some v → WordAtt v := by
  have up : ∀ {c}, Spec.Alnum c → c ∈ asciiAlnum ++ t!" " := fun h => List.mem_append_left _ (alnum_mem h)
  refine ⟨?_, ?_, fun v hv c hc => up ((h.lang v hv).2 c hc)⟩
  · intro v hv c hc
    unfold Spec.Look.atts Spec.Atts.cls at hv
    cases hk : k.cls with
    | none => cases hl : k.lang <;> simp [hk, hl] at hv
    | some p =>
      have := (h.cls p hk).2.1
      obtain ⟨p1, p2⟩ := p
      have hv' : v = p1 := by
        cases hl : k.lang <;> simp [hk, hl] at hv <;> grind
      rcases this c (by rw [← hv']; exact hc) with h | rfl
      · exact up h
      · simp
  · intro v hv c hc
    unfold Spec.Look.atts Spec.Atts.id at hv
    cases hk : k.cls with
    | none => cases hl : k.lang <;> simp [hk, hl] at hv
    | some p =>
      have := (h.cls p hk).2.2
      obtain ⟨p1, p2⟩ := p
      have hv' : p2 = some v := by
        cases hl : k.lang <;> simp [hk, hl] at hv <;> grind
      exact up ((this v hv').2 c hc)

/-- The declarations of the style. -/
def styleText (v : Option Spec.VAlign) (a : Option Spec.Align) : Str :=
  Spec.join t!"; " ((match v with | none => [] | some x => [t!"vertical-align:" ++ x.word]) ++ (match a with | none => [] | some x => [t!"text-align:" ++ x.word])) ++ t!";"

def allV : List (Option Spec.VAlign) := [none, some .top, some .middle, some .bottom]
def allA : List (Option Spec.Align) := [none, some .left, some .right, some .center, some .justify]

theorem allV_mem (v : Option Spec.VAlign) : v ∈ allV := by
  cases v with
  | none => simp [allV]
  | some v => cases v <;> simp [allV]

theorem allA_mem (v : Option Spec.Align) : v ∈ allA := by
  cases v with
  | none => simp [allA]
  | some v => cases v <;> simp [allA]

theorem look_html_eq (r v : Bool) (cols rows : Option Nat) (k : Spec.Look) : ∃ sv, k.html r v cols rows =
    Spec.attr t!"class" (if r then none else k.atts.cls) ++ (Spec.attr t!"colspan" (cols.map natStr) ++ (Spec.attr t!"id" (if r then none else k.atts.id) ++
      (Spec.attr t!"lang" k.lang ++ (Spec.attr t!"rowspan" (rows.map natStr) ++ Spec.attr t!"style" sv)))) ∧ (sv = none ∨ ∃ x ∈ allV, ∃ y ∈ allA, sv = some (styleText x y)) := by
  have e : (Spec.numeral : Nat → Str) = natStr := funext natStr_numeral
  refine ⟨if lookStyle v k = [] then none else some (Spec.join t!"; " (lookStyle v k) ++ t!";"), by rw [Spec.Look.html, e]; rfl, ?_⟩
  by_cases hs : lookStyle v k = []
  · exact .inl (if_pos hs)
  · refine .inr ⟨if v then k.valign else none, allV_mem _, k.align, allA_mem _, ?_⟩
    rw [if_neg hs]
    cases v <;> rfl

theorem look_html_all {P : Char → Prop} (hP : ∀ c ∈ attA', P c) {r : Bool} {k : Spec.Look} (h : k.Ok r) (v : Bool) (cols rows : Option Nat) :
    ∀ c ∈ k.html r v cols rows, P c := by
  obtain ⟨sv, e, hs⟩ := look_html_eq r v cols rows k
  obtain ⟨h1, h2, h3⟩ := look_cls_words h
  have hw : ∀ v, WordAtt v → ∀ c ∈ v, P c := fun v hv c hc => hP c ((by decide +kernel : ∀ c ∈ asciiAlnum ++ t!" ", c ∈ attA') c (hv c hc))
  have hl : ∀ c ∈ t!" =\"", P c := fun c hc => hP c ((by decide +kernel : ∀ c ∈ t!" =\"", c ∈ attA') c hc)
  have ha : ∀ n : Str, (∀ c ∈ n, c ∈ attA') → ∀ c ∈ n, P c := fun n hn c hc => hP c (hn c hc)
  have hn : ∀ o : Option Nat, ∀ v, o.map natStr = some v → ∀ c ∈ v, P c := by
    intro o v hv c hc
    cases o with
    | none => cases hv
    | some n => simp at hv; subst hv; exact hP c ((by decide +kernel : ∀ c ∈ t!"0123456789", c ∈ attA') c (natStr_mem hc))
  rw [e]
  intro c hc
  simp only [List.mem_append] at hc
  rcases hc with hc | hc | hc | hc | hc | hc
  · refine attr_all (ha _ (by decide +kernel)) hl ?_ c hc
    cases r
    · exact fun v hv => hw v (h1 v hv)
    · exact fun v hv => by cases hv
  · exact attr_all (ha _ (by decide +kernel)) hl (hn cols) c hc
  · refine attr_all (ha _ (by decide +kernel)) hl ?_ c hc
    cases r
    · exact fun v hv => hw v (h2 v hv)
    · exact fun v hv => by cases hv
  · exact attr_all (ha _ (by decide +kernel)) hl (fun v hv => hw v (h3 v hv)) c hc
  · exact attr_all (ha _ (by decide +kernel)) hl (hn rows) c hc
  · refine attr_all (ha _ (by decide +kernel)) hl ?_ c hc
    rintro v rfl
    rcases hs with hs | ⟨x, hx, y, hy, hs⟩
    · cases hs
    · simp at hs; subst hs
      exact ha _ ((by decide +kernel : ∀ x ∈ allV, ∀ y ∈ allA, ∀ c ∈ styleText x y, c ∈ attA') x hx y hy)

theorem look_html_none {r : Bool} {k : Spec.Look} (h : k.Ok r) (v : Bool) (cols rows : Option Nat) :
    '>' ∉ k.html r v cols rows ∧ '<' ∉ k.html r v cols rows ∧ '\n' ∉ k.html r v cols rows := by
  refine ⟨?_, ?_, ?_⟩ <;> exact fun hm => look_html_all (P := fun c => c ∈ attA') (fun _ h => h) h v cols rows _ hm |> fun hx => absurd hx (by decide +kernel)

/-! ## Cells -/

theorem runs_parse {C : Ctx} (hU : UniOk C.U) {k : Spec.Look} (h : k.Ok C.cfg.restricted) {el : Option Str} (hel : el ≠ some t!"col")
    {hd : Bool} {cols rows : Option Nat} (hcr : el ≠ some t!"td" → cols = none ∧ rows = none) {z : Str} (hz : z = [] ∨ z = t!". ")
    {v : Bool} (hv : v = decide ((el = some t!"td" ∨ el = some t!"tr") ∧ beforeText hd cols rows = [])) :
    parseAttrs C (beforeText hd cols rows ++ (k.source ++ z)) el = pure (lookOf C.cfg.restricted v cols rows k) := by
  unfold parseAttrs
  rw [parse_look hU h hel hcr hz, hv]
  rfl

theorem tcell_text {U : Uni} {r : Bool} {c : Spec.TCell} (h : c.Ok U.isLu r) : linesA.Over c.text ∧ '\n' ∉ c.text ∧ Plainly U c.text := by
  obtain ⟨h1, h2⟩ := words_prose h.words
  exact ⟨h1, h2, fun c hc => Alpha.mono (by decide) rfl (h1 c hc), good_iff.2 ⟨h.words.caps, h.words.dots, h.words.dims⟩⟩

theorem tcell_tag (c : Spec.TCell) : ∃ x, (x = 'd' ∨ x = 'h') ∧ c.tag = ['t', x] ∧ (if c.heading then t!"th" else t!"td") = ['t', x] := by
  unfold Spec.TCell.tag
  split
  · exact ⟨'h', .inr rfl, rfl, rfl⟩
  · exact ⟨'d', .inl rfl, rfl, rfl⟩

theorem before_nil {hd : Bool} {cols rows : Option Nat} : beforeText hd cols rows = [] ↔ hd = false ∧ cols = none ∧ rows = none := by
  cases hd <;> cases cols <;> cases rows <;> simp [beforeText, spanText]

theorem runs_tcell {C : Ctx} (hU : UniOk C.U) (hlite : C.cfg.lite = false) {ok : Char → Prop} (hL : Lowers C.U ok) (g : Str → Prog Str)
    {c : Spec.TCell} (h : c.Ok C.U.isLu C.cfg.restricted) (hok : ∀ x ∈ c.text, ok x) (σ : PState) : Runs C (tableCell C g c.inside) (c.html C.cfg.restricted) σ σ := by
  obtain ⟨h1, h2, -⟩ := tcell_text h
  obtain ⟨x, hx, htag, htag'⟩ := tcell_tag c
  have hgen : ∀ (l : HtmlAttrs) (t : Str), t!"\n\t\t\t" ++ generateTag C.U ['t', x] (some t) l =
      t!"\n\t\t\t" ++ (['<', 't', x] ++ (joinAttrs l ++ ('>' :: (t ++ ['<', '/', 't', x, '>'])))) := by
    intro l t
    rw [genTag_eq hU (by simp) (by rcases hx with rfl | rfl <;> decide)]
    simp [openTagA, closeTag]
  have hhtml : ∀ a, t!"\n\t\t\t" ++ (['<', 't', x] ++ (a ++ ('>' :: (c.text ++ ['<', '/', 't', x, '>'])))) =
      ['\n', '\t', '\t', '\t'] ++ Spec.elementWith c.tag a c.text := by
    intro a
    simp [Spec.elementWith, htag]
  unfold Spec.TCell.html tableCell Spec.TCell.inside
  by_cases hm : c.marks = []
  · have hm2 := hm
    unfold Spec.TCell.marks at hm
    rw [tcell_before] at hm
    simp only [List.append_eq_nil_iff, before_nil] at hm
    obtain ⟨⟨m1, m2, m3⟩, m4⟩ := hm
    rw [if_pos hm2]
    have hx : x = 'd' := by
      rw [m1] at htag'; simp at htag'; exact htag'.symm
    subst hx
    have hhead : ∀ y, c.text.head? = some y → y ∉ '.' :: attrStart := by
      intro y hy hm
      cases ht : c.text with
      | nil => rw [ht] at hy; cases hy
      | cons z u =>
        rw [ht] at hy
        simp at hy; subst hy
        have := h.start hm2 _ u ht
        have hA := h1 z (by rw [ht]; simp)
        have hz : z ∈ t!"()<>=-^~[{\\_" := by
          simp [attrStart] at hm ⊢
          grind
        exact Alpha.not_mem ((by decide +kernel : ∀ z ∈ t!"()<>=-^~[{\\_", z ∉ linesA.ascii ∧ z.toNat < 128) z hz).1
          ((by decide +kernel : ∀ z ∈ t!"()<>=-^~[{\\_", z ∉ linesA.ascii ∧ z.toNat < 128) z hz).2 hA
    have hm : HEADING_RE.isMatch C.U c.text = false := by
      refine heading_no fun e => hhead '_' e (by decide)
    rw [cell_plain hhead, hm]
    simp only [Bool.false_eq_true, if_false, hlite, pure_bind]
    refine Runs.bind (a := c.text) (σ' := σ) (runs_cellText hU g h1 σ) ?_
    have hatt : c.look.html C.cfg.restricted (c.before = []) c.cols c.rows = [] := by
      rw [← join_look h.look]
      rw [look_source] at m4
      simp only [List.append_eq_nil_iff] at m4
      obtain ⟨a1, a2, a3, a4⟩ := m4
      have e1 : c.look.valign = none := by
        cases hv : c.look.valign with
        | none => rfl
        | some v => simp [lookV, hv] at a1
      have e2 : c.look.align = none := by
        cases hv : c.look.align with
        | none => rfl
        | some v => rw [hv] at a2; cases v <;> simp [alignText, Spec.Align.mark] at a2
      have e3 : c.look.cls = none := by
        cases hv : c.look.cls with
        | none => rfl
        | some v => simp [lookCls, hv, clsText] at a3
      have e4 : c.look.lang = none := by
        cases hv : c.look.lang with
        | none => rfl
        | some v => simp [lookLang, hv] at a4
      have e5 : c.look = {} := by
        cases hk : c.look
        rw [hk] at e1 e2 e3 e4
        simp only at e1 e2 e3 e4
        subst e1 e2 e3 e4
        rfl
      rw [e5, m2, m3]
      cases C.cfg.restricted <;> cases decide (c.before = []) <;> rfl
    rw [hatt, ← hhtml]
    have := hgen [] c.text
    rw [this]
    exact runs_cellBr hL (.inl rfl) (att := []) (by simp) h2 hok σ
  · rw [if_neg hm]
    unfold Spec.TCell.marks
    rw [tcell_before, List.append_assoc, show (['.', ' '] : Str) ++ c.text = t!". " ++ c.text from rfl, cell_look hU h.look]
    have hhd : HEADING_RE.isMatch C.U (beforeText c.heading c.cols c.rows ++ (c.look.source ++ (t!". " ++ c.text))) = c.heading := by
      cases hh : c.heading with
      | true => exact heading_look
      | false =>
        refine heading_no fun e => ?_
        have : ∀ y, (beforeText false c.cols c.rows ++ (c.look.source ++ (t!". " ++ c.text))).head? = some y → y ∈ t!"\\/^-~<>=([." := by
          intro y hy
          cases hc : c.cols with
          | some n => simp [beforeText, spanText, hc] at hy; subst hy; decide
          | none =>
            cases hr : c.rows with
            | some n => simp [beforeText, spanText, hc, hr] at hy; subst hy; decide
            | none =>
              simp only [beforeText, spanText, hc, hr, Bool.false_eq_true, if_false, List.nil_append] at hy
              exact (by decide : ∀ x ∈ t!"^-~<>=([.", x ∈ t!"\\/^-~<>=([.") y (look_headD (T := ' ' :: c.text) hy)
        exact absurd (this _ e) (by decide)
    rw [hhd, htag']
    simp only [hlite, Bool.false_eq_true, if_false]
    rw [show (⟨[], _, [(2, c.text), (1, beforeText c.heading c.cols c.rows ++ (c.look.source ++ t!". "))]⟩ : Mat).grp 1 =
        beforeText c.heading c.cols c.rows ++ (c.look.source ++ t!". ") from rfl,
      show (⟨[], _, [(2, c.text), (1, beforeText c.heading c.cols c.rows ++ (c.look.source ++ t!". "))]⟩ : Mat).grp 2 = c.text from rfl,
      runs_parse hU h.look (by decide) (by simp) (.inr rfl) (v := decide (beforeText c.heading c.cols c.rows = [])) (by simp)]
    simp only [pure_bind]
    refine Runs.bind (a := c.text) (σ' := σ) (runs_cellText hU g h1 σ) ?_
    rw [← hhtml]
    have := hgen (lookOf C.cfg.restricted (decide (beforeText c.heading c.cols c.rows = [])) c.cols c.rows c.look).html c.text
    rw [this, join_look h.look]
    exact runs_cellBr hL hx (look_html_none h.look _ _ _).1 h2 hok σ

end Rustextile
