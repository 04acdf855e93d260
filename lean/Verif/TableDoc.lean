import Verif.TableGraf

/-!
# Documents with tables
-/

namespace Rustextile

open Prog

variable {aux0 : Aux}

theorem tab_early : earlyPatterns.all (·.need tabA) = true := by decide +kernel
theorem tab_need : [FOOTNOTE_RE, NOTEREF_RE, RCLIST_RE, LISTS_RE, DIVIDER_RE].all (·.need tabA) = true := by decide +kernel
theorem html_lists : [RCLIST_RE, LISTS_RE].all (·.need htmlA) = true := by decide +kernel

/-! ## The HTML -/

theorem over_lit {A : Alpha} {w : Str} (h : ∀ c ∈ w, c ∈ A.ascii) : A.Over w := fun c hc => .inl (h c hc)

theorem over_element {tag v : Str} (ht : ∀ c ∈ tag, c ∈ asciiAlnum) (hv : htmlA.Over v) : htmlA.Over (Spec.elementWith tag [] v) := by
  have hm : ∀ c ∈ asciiAlnum, c ∈ htmlA.ascii := by decide +kernel
  have ht' : ∀ c ∈ tag, htmlA.Mem c := fun c hc => .inl (hm c (ht c hc))
  have hv' : ∀ c ∈ v, htmlA.Mem c := hv
  intro c hc
  simp only [Spec.elementWith, List.mem_cons, List.mem_append, List.not_mem_nil, or_false] at hc
  grind [Alpha.Mem, (by decide : '<' ∈ htmlA.ascii ∧ '>' ∈ htmlA.ascii ∧ '/' ∈ htmlA.ascii)]

theorem table_over {U : Uni} {rs : List Spec.Row} (h : ∀ r ∈ rs, RowOk U r) : htmlA.Over (Spec.tableHtml rs) := by
  have ws : ∀ {w : Str}, (∀ c ∈ w, c ∈ ['\n', '\t']) → htmlA.Over w := fun hw => over_lit (fun c hc => (by decide : ∀ c ∈ ['\n', '\t'], c ∈ htmlA.ascii) c (hw c hc))
  have hcell : ∀ c : Spec.Cell, c.Ok U.isLu → htmlA.Over c.html := by
    intro c hc
    unfold Spec.Cell.html
    refine Alpha.Over.append.2 ⟨ws (by decide), over_element ?_ ?_⟩
    · unfold Spec.Cell.tag; split <;> decide
    · exact fun x hx => Alpha.mono (by decide) rfl ((cellText_ok hc).1 x hx)
  have hrow : ∀ r : Spec.Row, RowOk U r → htmlA.Over r.html := by
    intro r hr
    unfold Spec.Row.html
    refine Alpha.Over.append.2 ⟨ws (by decide), over_element (by decide) (Alpha.Over.append.2 ⟨?_, ws (by decide)⟩)⟩
    intro c hc
    obtain ⟨d, hd, hc⟩ := List.mem_flatMap.1 hc
    exact hcell d (hr.2 d hd) c hc
  have hrows : ∀ qs : List Spec.Row, (∀ q ∈ qs, q ∈ rs) → htmlA.Over (qs.flatMap Spec.Row.html) := by
    intro qs hq c hc
    obtain ⟨d, hd, hc⟩ := List.mem_flatMap.1 hc
    exact hrow d (h d (hq d hd)) c hc
  unfold Spec.tableHtml
  refine Alpha.Over.append (u := ['\t']).2 ⟨ws (by decide), over_element (by decide) ?_⟩
  refine Alpha.Over.append.2 ⟨?_, Alpha.Over.append.2 ⟨hrows _ sections_mem.1, ws (by decide)⟩⟩
  intro c hc
  obtain ⟨p, hp, hc⟩ := List.mem_flatMap.1 hc
  have : htmlA.Over (Spec.sectionHtml p) := by
    unfold Spec.sectionHtml
    exact Alpha.Over.append.2 ⟨ws (by decide), over_element (by cases p.1 <;> decide) (Alpha.Over.append.2 ⟨hrows _ (sections_mem.2 p hp), ws (by decide)⟩)⟩
  exact this c hc

theorem table_last (rs : List Spec.Row) : (Spec.tableHtml rs).getLast? = some '>' := by
  unfold Spec.tableHtml Spec.elementWith
  have : ∀ u v : Str, ('\t' :: ('<' :: (u ++ (v ++ ['>'])))).getLast? = some '>' := by
    intro u v
    rw [show '\t' :: ('<' :: (u ++ (v ++ ['>']))) = ('\t' :: '<' :: (u ++ v)) ++ ['>'] by simp]
    exact List.getLast?_concat ..
  have h := this (Spec.tableTag ++ ([] ++ '>' :: ((Spec.sections rs).2.flatMap Spec.sectionHtml ++ ((Spec.sections rs).1.flatMap Spec.Row.html ++ ['\n', '\t'])))) ('<' :: '/' :: Spec.tableTag)
  simpa using h

theorem isMatch_later {U : Uni} {r : Re} {u w rest : Str} (h : Has U r u.reverse w rest) : r.isMatch U (u ++ (w ++ rest)) = true := by
  unfold Re.isMatch
  cases hs : r.search U [] (u ++ (w ++ rest)) with
  | some p => rfl
  | none =>
    rw [Re.search_none_iff] at hs
    have := hs u ⟨u.reverse, w ++ rest⟩ ⟨rfl, by simp⟩
    rw [Re.matchAt_none] at this
    obtain ⟨s, h⟩ := h []
    rw [this] at h; cases h

theorem table_unwrapped {U : Uni} (rs : List Spec.Row) : hasRawText U (Spec.tableHtml rs) = false := by
  have : UNWRAPPABLE_RE.isMatch U (Spec.tableHtml rs) = true := by
    obtain ⟨x, hx⟩ : ∃ x, Spec.tableHtml rs = t!"\t" ++ ((t!"<" ++ ([] ++ (t!"table" ++ ([] ++ t!">")))) ++ x) := by
      unfold Spec.tableHtml Spec.elementWith Spec.tableTag
      exact ⟨_, by simp only [List.cons_append, List.nil_append]; rfl⟩
    rw [hx, unwrappable_shape]
    refine isMatch_later (.seq (.set rfl) (.seq (.right .eps) (.seq (Re.accepts_has (by decide +kernel)) (.seq (.right (.right .eps)) (.set rfl)))))
  unfold hasRawText
  rw [this]
  simp

/-! ## The block -/

/-- `graf` on a table. -/
theorem graf_table {C : Ctx} {base : Str} (D : DocCtx C base) (hlite : C.cfg.lite = false) {ok : Char → Prop} (hL : Lowers C.U ok)
    {rs : List Spec.Row} (h : TabOk C.U ok rs) (σ : PState) : Runs C (graf C C.fuel (Spec.tableSource rs)) (Spec.tableHtml rs) σ σ := by
  obtain ⟨n, hn⟩ : ∃ n, C.fuel = n + 1 := ⟨C.fuel - 1, by have := D.fuel; omega⟩
  have hA := source_tab h
  have hH := table_over h.2.1
  have hH2 : htmlA.Over (Spec.tableHtml rs ++ t!"\n\n") := Alpha.Over.append.2 ⟨hH, over_lit (by decide)⟩
  have hlast : ∀ c, (Spec.tableHtml rs).getLast? = some c → c ≠ '\n' := by
    intro c hc; rw [table_last] at hc; cases hc; decide
  have hneed : ∀ r ∈ [FOOTNOTE_RE, NOTEREF_RE] ++ spanPatterns, r.search C.U [] (Spec.tableHtml rs ++ t!"\n\n") = none := fun r hr =>
    Re.need_search D.uni htmlA_wf (List.all_eq_true.1 html_need r hr) hH2 []
  have hlists : ∀ r ∈ [RCLIST_RE, LISTS_RE], r.search C.U [] (Spec.tableHtml rs ++ t!"\n\n") = none := fun r hr =>
    Re.need_search D.uni htmlA_wf (List.all_eq_true.1 html_lists r hr) hH2 []
  rw [hn]
  refine graf_split (runs_early (by have := D.fuel; omega)
    (fun r hr => Re.need_search D.uni tabA_wf (List.all_eq_true.1 tab_early r hr) hA []) ?_ σ) ?_
  · refine containsStr_false_of_mem (c := ':') (by simp [D.colon]) ?_
    exact fun hc => Alpha.not_mem (by decide) (by decide) (hA _ hc)
  unfold grafLate
  refine Runs.bind (a := Spec.tableHtml rs ++ t!"\n\n") (σ' := σ) (Runs.unless (fun _ => runs_wholeTable D.uni hlite hL _ h σ) (by simp [hlite])) ?_
  refine Runs.bind (a := Spec.tableHtml rs ++ t!"\n\n") (σ' := σ) ((Leaves.unless fun _ => Leaves.replaceP (hlists _ (by simp))).runs σ) ?_
  refine Runs.bind (a := Spec.tableHtml rs ++ t!"\n\n") (σ' := σ) ((Leaves.unless fun _ => Leaves.replaceP (hlists _ (by simp))).runs σ) ?_
  refine Runs.bind ((Leaves.span fun r hr => hneed r (List.mem_append_right _ hr)).runs σ) ?_
  refine Runs.bind (a := Spec.tableHtml rs ++ t!"\n\n") (σ' := σ) (Runs.none (hneed _ (by simp)) σ) ?_
  refine Runs.bind (a := Spec.tableHtml rs ++ t!"\n\n") (σ' := σ) (Runs.none (hneed _ (by simp)) σ) ?_
  rw [(table_pieces D.uni h.2.1).glyphs D.uni hlast (by simp), trimEndP_of_last (by simpa using hlast)]
  exact Runs.pure _ _

theorem noBlock_other {dig : Char → Bool} {lite : Bool} {x : Char} {t : Str} (hx : x ∉ t!"bnp#hf") : Spec.NoBlockStart dig lite (x :: t) := by
  intro w y u e _ hw
  have key : ∀ w : Str, Spec.fullWord dig w → ∃ c v, w = c :: v ∧ c ∈ t!"bnp#hf" := by
    intro w hw
    rcases hw with hw | ⟨d, ds, rfl, -⟩
    · simp only [List.mem_cons, List.not_mem_nil, or_false] at hw
      rcases hw with rfl | rfl | rfl | rfl | rfl | rfl | rfl | rfl | rfl | rfl | rfl | rfl | rfl <;> exact ⟨_, _, rfl, by decide⟩
    · exact ⟨_, _, rfl, by decide⟩
  have hw' : Spec.fullWord dig w := by
    cases lite
    · exact hw
    · left
      simp only [Spec.blockWord, if_true, Spec.liteWord, List.mem_cons, List.not_mem_nil, or_false] at hw
      rcases hw with rfl | rfl | rfl <;> decide
  obtain ⟨c, v, rfl, hc⟩ := key w hw'
  simp at e
  rw [← e.1] at hc
  exact hx hc

theorem noBlock_bar {dig : Char → Bool} {lite : Bool} {t : Str} : Spec.NoBlockStart dig lite ('|' :: t) := noBlock_other (by decide)

theorem notedef_bar {U : Uni} {t : Str} : NOTEDEF_RE.search U [] ('|' :: t) = none := by
  obtain ⟨r, hr⟩ : ∃ r, NOTEDEF_RE = .seq .bot (.seq (.set false [.chr 'n']) r) := ⟨_, rfl⟩
  rw [hr]
  apply Re.search_bot
  rw [all_seq_set_cons, evalSet_chr, if_neg (by decide)]

/-- A table as a block of its own. -/
theorem table_step {C : Ctx} {base : Str} (D : DocCtx C base) (hlite : C.cfg.lite = false) {ok : Char → Prop} (hL : Lowers C.U ok)
    {rs : List Spec.Row} (h : TabOk C.U ok rs) (σ : PState) : StepTo C (Spec.tableSource rs) σ σ (Spec.tableHtml rs) := by
  have h1 := graf_table D hlite hL h σ
  have hp := table_pieces D.uni h.2.1
  have hA := source_tab h
  obtain ⟨X, hs⟩ := source_bars h
  refine step_of_body (o := Spec.tableHtml rs) (by rw [hs]; exact trim_ne (by decide)) ?_ ?_
  · rw [doPBr_none (noPTag_free (hp.free (by decide)) (hp.free (by decide)))]
    exact (Broken.single hp.brFree).replace
  · intro s s1 s2 s3 s4 s5
    rw [blockBody_anonymous (tag_none_of (by rw [hs]; exact noBlock_bar)) (.inr ⟨?_, ?_⟩)]
    · rw [s2, s3, s4]
      refine ⟨{ s with tag := t!"p", atts := [], cite := none, eat := false, lastClosing := [] }, true,
        (runs_blockNew (by decide) (by rw [hs]; simp) (by rw [hs]; exact notedef_bar) h1).bind ?_, s1, rfl, rfl, rfl, rfl⟩
      simp only [table_unwrapped]
      exact Runs.pure _ _
    · rw [hs]
      rfl
    · exact Re.isMatch_none (Re.need_search D.uni tabA_wf (need_mem tab_need (by simp)) hA _)

theorem table_lines {U : Uni} {ok : Char → Prop} {rs : List Spec.Row} (h : TabOk U ok rs) :
    ∃ ls, ls ≠ [] ∧ (∀ l ∈ ls, Spec.RawLine l) ∧ Spec.tableSource rs = Spec.join t!"\n" ls := by
  refine ⟨_, ?_, ?_, rfl⟩
  · obtain ⟨r, qs, e⟩ := List.exists_cons_of_ne_nil h.1
    rw [e]; simp [Spec.Row.lines]
  · intro l hl
    obtain ⟨r, hr, hl⟩ := List.mem_flatMap.1 hl
    obtain ⟨c1, c2⟩ := h.2.1 r hr
    unfold Spec.Row.lines at hl
    rcases List.mem_append.1 hl with hl | hl
    · cases hs : r.sect with
      | none => rw [hs] at hl; cases hl
      | some m =>
        rw [hs] at hl
        rw [List.mem_singleton.1 hl]
        refine ⟨?_, ?_, blank_not (by decide)⟩ <;> cases m <;> decide
    · rw [List.mem_singleton.1 hl]
      have key : ∀ d, d ∉ t!"|_. " → (∀ c ∈ r.cells, d ∉ c.text) → d ∉ r.cells.flatMap Spec.Cell.source ++ ['|'] := by
        intro d hd hc hm
        simp at hd
        rcases List.mem_append.1 hm with hm | hm
        · obtain ⟨c, hc', hm⟩ := List.mem_flatMap.1 hm
          have := hc c hc'
          unfold Spec.Cell.source Spec.Cell.inside at hm
          split at hm <;> simp_all
        · simp_all
      refine ⟨key _ (by decide) (fun c hc => (cellText_ok (c2 c hc)).2.1), key _ (by decide) (fun c hc hm => ?_), ?_⟩
      · exact Alpha.not_mem (by decide) (by decide) ((cellText_ok (c2 c hc)).1 _ hm)
      · obtain ⟨c, cs, e⟩ := List.exists_cons_of_ne_nil c1
        rw [e]
        exact blank_not (by decide)

theorem act_table {C : Ctx} {base : Str} (D : DocCtx C base) (hlite : C.cfg.lite = false) {ok : Char → Prop} (hL : Lowers C.U ok)
    {rs : List Spec.Row} (h : TabOk C.U ok rs) (P : PState → Prop) : Act C P P (Spec.tableSource rs) 0 (Spec.tableHtml rs) where
  lines := table_lines h
  first := by
    obtain ⟨X, hs⟩ := source_bars h
    exact ⟨_, _, hs, by decide⟩
  run := by
    intro σ hP hd
    have hp := table_pieces D.uni h.2.1
    refine ⟨σ, _, Spec.tableHtml rs, table_step D hlite hL h σ, Grows.of_same rfl rfl rfl rfl rfl, hP, by omega, ?_, ?_, ?_⟩
    · intro τ _ _
      rw [D.uid]
      exact hp.rep
    · exact not_contains_of_free (by simp) (hp.free (by decide))
    · exact fun r _ => tidyBreaks_free (hp.free (by decide))
  ending := by
    have := table_last rs
    refine ⟨?_, by rw [this]; simp⟩
    intro e; rw [e] at this; cases this

/-! ## Documents -/

theorem act_tb {C : Ctx} {base : Str} (D : DocCtx C base) (hp : C.cfg.linkPrefix = base ++ t!"-") {ok : Char → Prop} (ha : ∀ c, c.toNat < 128 → ok c)
    {b : Spec.TbBlock} (hL : Lowers C.U ok) (h : b.Ok C.U.isLu C.U.isNd C.cfg.lite C.cfg.restricted)
    (hc : ∀ c ∈ b.chars, ok c)
    (hR : b.Resolved (Spec.Resolves C.E.urlParse C.E.urlJoin C.cfg.restricted) C.cfg.rel)
    (htok : ¬ C.cfg.uid <:+: b.source) (N : Spec.Numbers) (M : Spec.Notes) :
    Act C (fun σ => Num N σ ∧ FnState base aux0 M σ) (fun σ => Num (b.numbers N) σ ∧ FnState base aux0 (b.notes M) σ) b.source b.marks
      (b.html C.cfg.brTag C.cfg.restricted base N M) := by
  cases b with
  | other b => exact act_fn D hp ha (fun _ _ _ => hL) h hc hR htok N M
  | table rs => exact act_table D h.1 hL (tabOk_of h.2 hc) _

theorem tb_acts {C : Ctx} {base : Str} (D : DocCtx C base) (hp : C.cfg.linkPrefix = base ++ t!"-") {ok : Char → Prop} (ha : ∀ c, c.toNat < 128 → ok c)
    (hL : Lowers C.U ok) :
    ∀ {ds : List (Spec.TbBlock × Nat)} (_ : ds ≠ [])
    (_ : ∀ d ∈ ds, d.1.Ok C.U.isLu C.U.isNd C.cfg.lite C.cfg.restricted) (_ : ∀ d ∈ ds, ∀ c ∈ d.1.chars, ok c)
    (_ : ∀ d ∈ ds, d.1.Resolved (Spec.Resolves C.E.urlParse C.E.urlJoin C.cfg.restricted) C.cfg.rel)
    (_ : ∀ d ∈ ds, ¬ C.cfg.uid <:+: d.1.source) (N : Spec.Numbers) (M : Spec.Notes),
    Acts C (fun σ => Num N σ ∧ FnState base aux0 M σ) (ds.map (fun d => (d.1.source, d.2))) (Spec.tbMarks ds) (Spec.tbHtml C.cfg.brTag C.cfg.restricted base N M ds)
  | [], hne, _, _, _, _, _, _ => absurd rfl hne
  | [d], _, h, hc, hR, htok, N, M => by
    have := Acts.one (k := d.2) (act_tb (aux0 := aux0) D hp ha hL (h d (by simp)) (hc d (by simp)) (hR d (by simp)) (htok d (by simp)) N M)
    simpa [Spec.tbMarks, Spec.tbHtml] using this
  | d :: e :: ds, _, h, hc, hR, htok, N, M => by
    have ih := tb_acts D hp ha hL (ds := e :: ds) (by simp) (fun x hx => h x (List.mem_cons_of_mem _ hx))
      (fun x hx => hc x (List.mem_cons_of_mem _ hx)) (fun x hx => hR x (List.mem_cons_of_mem _ hx))
      (fun x hx => htok x (List.mem_cons_of_mem _ hx)) (d.1.numbers N) (d.1.notes M)
    have := Acts.cons (k := d.2) (act_tb (aux0 := aux0) D hp ha hL (h d (by simp)) (hc d (by simp)) (hR d (by simp)) (htok d (by simp)) N M) ih
    simpa [Spec.tbMarks, Spec.tbHtml] using this

theorem enc_table {U : Uni} {rs : List Spec.Row} (h : Spec.TableOk U.isLu rs) : encodeHtml (Spec.tableSource rs) false false = Spec.tableSource rs := by
  apply enc_id
  intro c hc hm
  have : ∀ c ∈ t!"&<>\"'", c ∉ tabA.ascii ∧ c.toNat < 128 := by decide
  exact Alpha.not_mem (this c hm).1 (this c hm).2 (source_tab (tabOk_of (ok := fun _ => True) h (by simp)) _ hc)

theorem escaped_tb {C : Ctx} (hU : UniOk C.U) {b : Spec.TbBlock} (h : b.Ok C.U.isLu C.U.isNd C.cfg.lite true) :
    b.escaped.Ok C.U.isLu C.U.isNd C.cfg.lite true ∧ encodeHtml b.source false false = b.escaped.source := by
  cases b with
  | other b => exact escaped_fn hU h
  | table rs => exact ⟨h, enc_table h.2⟩

theorem tb_escaped {b : Spec.TbBlock} : b.escaped.chars = b.chars ∧ b.escaped.marks = b.marks := by
  cases b with
  | other b => exact fn_escaped
  | _ => exact ⟨rfl, rfl⟩

/-- What `parse` makes of documents with tables. -/
theorem parse_tables {E : Env} {fuel : Nat} {cfg : Cfg} {base : Str} (D : DocCtx ⟨E, cfg, fuel⟩ base) (hp : cfg.linkPrefix = base ++ t!"-")
    (hbt : cfg.blockTags = true) (hsan : cfg.sanitizer = none) (hdep : 1 ≤ cfg.maxSpanDepth) {ok : Char → Prop}
    (ha : ∀ c, c.toNat < 128 → ok c) (hL : Lowers E.U ok) {ds : List (Spec.TbBlock × Nat)}
    (hne : ds ≠ []) (h : ∀ d ∈ ds, d.1.Ok E.U.isLu E.U.isNd cfg.lite cfg.restricted) (hc : ∀ d ∈ ds, ∀ c ∈ d.1.chars, ok c)
    (hR : ∀ d ∈ ds, d.1.Resolved (Spec.Resolves E.urlParse E.urlJoin cfg.restricted) cfg.rel)
    (htok : ¬ cfg.uid <:+: Spec.tbSource ds) (hn : 2 * Spec.tbMarks ds < 2 ^ 32) :
    parseFresh E fuel cfg (Spec.tbSource ds) = .ok (Spec.tbDocHtml cfg.brTag cfg.restricted base ds) := by
  have key : ∃ es : List (Spec.TbBlock × Nat), Spec.tbSeen cfg.restricted ds = es ∧
      (if cfg.restricted then encodeHtml (Spec.tbSource ds) false false else Spec.tbSource ds) = Spec.tbSource es ∧ es ≠ [] ∧
      (∀ d ∈ es, d.1.Ok E.U.isLu E.U.isNd cfg.lite cfg.restricted) ∧
      (∀ d ∈ es, ∀ c ∈ d.1.chars, ok c) ∧
      (∀ d ∈ es, d.1.Resolved (Spec.Resolves E.urlParse E.urlJoin cfg.restricted) cfg.rel) ∧ Spec.tbMarks es = Spec.tbMarks ds := by
    refine ⟨_, rfl, ?_⟩
    unfold Spec.tbSeen
    by_cases hr : cfg.restricted = true
    · rw [if_pos hr, if_pos hr]
      have h' : ∀ d ∈ ds, d.1.Ok E.U.isLu E.U.isNd cfg.lite true := by rw [← hr]; exact h
      have hok := fun d hd => escaped_tb (C := ⟨E, cfg, fuel⟩) D.uni (h' d hd)
      refine ⟨?_, by simp [hne], ?_, ?_, ?_, ?_⟩
      · simp only [Spec.tbSource, enc_glue, List.map_map]
        congr 1
        apply List.map_congr_left
        intro d hd
        simp only [Function.comp]
        rw [(hok d hd).2]
      · intro d hd
        obtain ⟨x, hx, rfl⟩ := List.mem_map.1 hd
        rw [hr]; exact (hok x hx).1
      · intro d hd
        obtain ⟨x, hx, rfl⟩ := List.mem_map.1 hd
        rw [tb_escaped.1]; exact hc x hx
      · intro d hd
        obtain ⟨x, hx, rfl⟩ := List.mem_map.1 hd
        obtain ⟨b, j⟩ := x
        cases b with
        | other b =>
          cases b with
          | node b => exact node_resolved (hR _ hx)
          | _ => trivial
        | _ => trivial
      · simp only [Spec.tbMarks, List.map_map]
        congr 1
        apply List.map_congr_left
        intro d _
        exact tb_escaped.2
    · rw [if_neg hr, if_neg hr]
      exact ⟨rfl, hne, h, hc, hR, rfl⟩
  obtain ⟨es, e0, e1, e2, e4, e5, e6, e7⟩ := key
  have htok' : containsStr cfg.uid (Spec.tbSource es) = false := by
    have h0 := contains_of_not htok
    rw [← e1]
    split
    · obtain ⟨c1, c2, -, -, -, -, c7, -⟩ := uid_chars D.plain
      have hu : cfg.uid = uidOf base := D.uid
      rw [hu] at h0 ⊢
      exact containsStr_enc c1 c2 c7 h0
    · exact h0
  rw [Spec.tbDocHtml, e0]
  refine parse_acts D hbt hsan hdep (P := fun σ => Num (fun _ => 1) σ ∧ FnState base {} ⟨[], 0⟩ σ) ⟨fun _ => rfl, fun _ => rfl, rfl, rfl⟩
    (tb_acts D hp ha hL e2 e4 e5 e6 ?_ _ _) e1 htok (by rw [e7]; exact hn)
  rintro d hd ⟨a, b, e⟩
  have := clean_of_infix htok' (glue_infix (ps := es.map (fun d => (d.1.source, d.2))) (p := (d.1.source, d.2)) (List.mem_map.2 ⟨d, hd, rfl⟩))
  rw [containsStr_iff.2 ⟨a, b, by rw [← e]; simp⟩] at this
  cases this

end Rustextile
