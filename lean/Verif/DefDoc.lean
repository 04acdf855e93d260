import Verif.DefRe

/-!
# Documents with definition lists
-/

namespace Rustextile

open Prog

/-! ## Items -/

/-- The lines of an item, the last one first. -/
def itemOut (r : Bool) (i : Spec.DItem) : List Str :=
  (match i.definition with | none => [] | some d => [t!"\t<dd>" ++ d ++ t!"</dd>"]) ++ [t!"\t<dt" ++ i.atts r ++ t!">" ++ i.term ++ t!"</dt>"]

theorem label_graf {C : Ctx} {base : Str} (D : DocCtx C base) {w : Str} (h : Spec.Words C.U.isLu w) {n : Nat} (hn : 1 ≤ n) (σ : PState) :
    Runs C (graf C n w) w σ σ := by
  obtain ⟨m, rfl⟩ : ∃ m, n = m + 1 := ⟨n - 1, by omega⟩
  obtain ⟨h1, h2⟩ := words_prose h
  refine (Leaves.graf (by have := D.fuel; omega) (quiet_of D.uni h1 h.caps h.dots h.dims ?_) m ?_).runs σ
  · rintro c hc rfl
    exact h2 (List.mem_of_getLast? hc)
  · refine containsStr_false_of_mem (c := ':') (by simp [D.colon]) ?_
    intro hm
    have := h.chars _ hm
    revert this; decide

theorem no_newline {w k : Str} (h : '\n' ∉ w) : replaceStr t!"\n" k w = w :=
  replaceStr_none (containsStr_false_of_mem (c := '\n') (by simp) h)

theorem words_nonl {up : Char → Bool} {w : Str} (h : Spec.Words up w) : '\n' ∉ w := (words_prose h).2

theorem nil_words (up : Char → Bool) : Spec.Words up [] := ⟨by simp, by simp, by simp, by simp⟩

theorem ditem_parse {C : Ctx} (hU : UniOk C.U) {i : Spec.DItem} (h : i.look.Ok C.cfg.restricted) :
    parseAttrs C i.look.source none = pure (lookOf C.cfg.restricted false none none i.look) := by
  have := parse_look hU h (el := none) (by simp) (hd := false) (cols := none) (rows := none) (by simp) (z := []) (.inl rfl)
  simp [beforeText, spanText] at this
  unfold parseAttrs
  rw [this]
  rfl

theorem content_trim {U : Uni} (hU : UniOk U) {r : Bool} {i : Spec.DItem} (h : i.Ok U.isLu r) {z : Str} (hz : ∀ c ∈ z, isWs c = true) : trim (i.content ++ z) = i.content := by
  rw [trim_append hz]
  unfold Spec.DItem.content
  cases hd : i.definition with
  | none => simpa using label_trim hU h.term.1
  | some d =>
    obtain ⟨d1, d2⟩ := h.definition d hd
    unfold trim trimP
    have h1 := trimStart_of (t := i.term ++ ([' ', ':', '=', ' '] ++ d)) (fun c hc => by
      obtain ⟨x, u, e⟩ := List.exists_cons_of_ne_nil h.term.2
      refine label_first h.term.1 (c := c) ?_
      rw [e] at hc ⊢
      exact hc)
    unfold trimStart at h1
    simp only
    rw [h1]
    refine trimEndP_of_last (fun c hc => (label_last d1 ?_).1)
    rw [← List.append_assoc, getLast_append_ne d2] at hc
    exact hc

/-- The first line. -/
def dlOpen (r : Bool) (i : Spec.DItem) : Str := t!"<dl" ++ ((if i.definition = none then i.atts r else []) ++ t!">")

theorem runs_rcLine {C : Ctx} {base : Str} (D : DocCtx C base) {i : Spec.DItem} (h : i.Ok C.U.isLu C.cfg.restricted) {n : Nat} (hn : 1 ≤ n) {z : Str}
    (hz : ∀ c ∈ z, isWs c = true) (out : List Str) (σ : PState) :
    Runs C (rcLine C (graf C n) out (i.source ++ z)) (itemOut C.cfg.restricted i ++ (if out.isEmpty then [dlOpen C.cfg.restricted i] else out)) σ σ := by
  obtain ⟨m, hm, m1, m2⟩ := ATTR_CONTENT_captures (U := C.U) h.look (i.content ++ z)
  have hs : i.source ++ z = '-' :: (i.marks ++ ' ' :: (i.content ++ z)) := by simp [Spec.DItem.source]
  have hne : i.term.isEmpty = false := by
    cases ht : i.term with
    | nil => exact absurd ht h.term.2
    | cons => rfl
  have hat : (lookOf C.cfg.restricted false none none i.look).toStr = i.atts C.cfg.restricted := look_text h.look _ _ _
  unfold rcLine
  rw [hs, hm]
  simp only [m1, m2, ditem_parse D.uni h.look, content_trim D.uni h hz]
  refine Runs.bind (Runs.pure _ σ) ?_
  simp only [hat]
  unfold itemOut dlOpen
  cases hd : i.definition with
  | none =>
    have hx : XM_RE.captures C.U i.content = none := by
      refine XM_none ?_
      simp only [Spec.DItem.content, hd, List.append_nil]
      intro hm
      have := h.term.1.words.chars _ hm
      revert this; decide
    have hc : i.content = i.term := by simp [Spec.DItem.content, hd]
    rw [hx]
    simp only [hc, hne, Bool.false_eq_true, if_false]
    rw [no_newline (words_nonl h.term.1.words)]
    refine Runs.bind (label_graf D h.term.1.words hn σ) ?_
    rw [show (if startsWith [] t!"\n" = true then t!"<p>" ++ replaceStr t!"\n" C.cfg.brTag (trim []) ++ t!"</p>" else replaceStr t!"\n" C.cfg.brTag (trim [])) = ([] : Str) from rfl]
    refine Runs.bind (label_graf D (nil_words _) hn σ) ?_
    simp only [List.isEmpty_nil, if_true, List.nil_append, List.append_assoc]
    exact Runs.pure _ _
  | some d =>
    obtain ⟨d1, d2⟩ := h.definition d hd
    have hx := XM_captures (U := C.U) h.term.1 d1 d2
    have hc : i.content = i.term ++ ([' ', ':', '=', ' '] ++ d) := by simp [Spec.DItem.content, hd]
    rw [hc, hx]
    have e1 : ∀ w : Str, (⟨[], w, [(2, ' ' :: d), (1, i.term)]⟩ : Mat).grp 1 = i.term := fun _ => rfl
    have e2 : ∀ w : Str, (⟨[], w, [(2, ' ' :: d), (1, i.term)]⟩ : Mat).grp 2 = ' ' :: d := fun _ => rfl
    have hsp : trimP (· == ' ') (' ' :: d) = d := by
      unfold trimP trimStartP
      rw [List.dropWhile_cons]
      simp only [beq_self_eq_true, if_true]
      rw [dropWhile_of_head, trimEndP_of_last]
      · intro c hc
        have := (label_last d1 hc).1
        simp; rintro rfl; revert this; decide
      · intro c hc
        have := label_first d1 hc
        simp; rintro rfl; revert this; decide
    have hde : d.isEmpty = false := by
      cases hd' : d with
      | nil => exact absurd hd' d2
      | cons => rfl
    have hst : startsWith d t!"\n" = false := by
      cases hd' : d with
      | nil => exact absurd hd' d2
      | cons c d' =>
        have := words_nonl d1.words
        rw [hd'] at this
        have hc : c ≠ '\n' := by rintro rfl; simp at this
        simp [startsWith, List.isPrefixOf, hc.symm]
    simp only [e1, e2, hsp, label_trim D.uni h.term.1, label_trim D.uni d1, hne, hde, hst, Bool.false_eq_true, if_false]
    rw [no_newline (words_nonl h.term.1.words), no_newline (words_nonl d1.words)]
    refine Runs.bind (label_graf D h.term.1.words hn σ) ?_
    refine Runs.bind (label_graf D d1.words hn σ) ?_
    simp only [hde, Bool.false_eq_true, if_false, List.append_assoc, reduceCtorEq, List.nil_append]
    exact Runs.pure _ _

theorem itemOut_ne (r : Bool) (i : Spec.DItem) (out : List Str) : (itemOut r i ++ out).isEmpty = false := by
  unfold itemOut
  cases i.definition <;> rfl

theorem runs_rcLines {C : Ctx} {base : Str} (D : DocCtx C base) {n : Nat} (hn : 1 ≤ n) (σ : PState) : ∀ {l : Spec.DList},
    (∀ i ∈ l, i.Ok C.U.isLu C.cfg.restricted) → ∀ {out : List Str}, out.isEmpty = false →
    Runs C (rcLines C (graf C n) out (extendLast t!"\n\n" (l.map Spec.DItem.source)))
      ((l.flatMap (fun i => (itemOut C.cfg.restricted i).reverse)).reverse ++ out) σ σ
  | [], _, out, _ => by
    simp only [List.map_nil, extendLast, List.flatMap_nil, List.reverse_nil, List.nil_append]
    exact Runs.pure _ _
  | [i], h, out, ho => by
    have h1 := runs_rcLine D (h i (by simp)) hn (z := t!"\n\n") (by decide) out σ
    simp only [List.map_cons, List.map_nil, extendLast, List.flatMap_cons, List.flatMap_nil, List.append_nil, List.reverse_reverse]
    rw [if_neg (by simp [ho])] at h1
    exact h1.bind (Runs.pure _ _)
  | i :: j :: l, h, out, ho => by
    have h1 := runs_rcLine D (h i (by simp)) hn (z := []) (by simp) out σ
    have h2 := runs_rcLines D hn σ (l := j :: l) (fun i hi => h i (by simp [hi])) (out := itemOut C.cfg.restricted i ++ out) (itemOut_ne _ _ _)
    rw [if_neg (by simp [ho]), List.append_nil] at h1
    rw [show ((i :: j :: l).flatMap (fun i => (itemOut C.cfg.restricted i).reverse)).reverse ++ out =
      ((j :: l).flatMap (fun i => (itemOut C.cfg.restricted i).reverse)).reverse ++ (itemOut C.cfg.restricted i ++ out) by
        rw [List.flatMap_cons, List.reverse_append, List.reverse_reverse, List.append_assoc]]
    exact h1.bind h2

theorem runs_rcAll {C : Ctx} {base : Str} (D : DocCtx C base) {n : Nat} (hn : 1 ≤ n) (σ : PState) {i : Spec.DItem} {l : Spec.DList}
    (h : ∀ j ∈ i :: l, j.Ok C.U.isLu C.cfg.restricted) :
    Runs C (rcLines C (graf C n) [] (extendLast t!"\n\n" ((i :: l).map Spec.DItem.source)))
      (((i :: l).flatMap (fun i => (itemOut C.cfg.restricted i).reverse)).reverse ++ [dlOpen C.cfg.restricted i]) σ σ := by
  have h1 : ∀ z : Str, (∀ c ∈ z, isWs c = true) → Runs C (rcLine C (graf C n) [] (i.source ++ z)) (itemOut C.cfg.restricted i ++ [dlOpen C.cfg.restricted i]) σ σ := by
    intro z hz
    have := runs_rcLine D (h i (by simp)) hn hz [] σ
    exact this
  cases l with
  | nil =>
    simp only [List.map_cons, List.map_nil, extendLast, List.flatMap_cons, List.flatMap_nil, List.append_nil, List.reverse_reverse]
    exact (h1 t!"\n\n" (by decide)).bind (Runs.pure _ _)
  | cons j l =>
    have h2 := runs_rcLines D hn σ (l := j :: l) (fun i hi => h i (by simp [hi])) (itemOut_ne C.cfg.restricted i [dlOpen C.cfg.restricted i])
    have h0 := h1 [] (by simp)
    rw [List.append_nil] at h0
    rw [show ((i :: j :: l).flatMap (fun i => (itemOut C.cfg.restricted i).reverse)).reverse ++ [dlOpen C.cfg.restricted i] =
      ((j :: l).flatMap (fun i => (itemOut C.cfg.restricted i).reverse)).reverse ++ (itemOut C.cfg.restricted i ++ [dlOpen C.cfg.restricted i]) by
        rw [List.flatMap_cons, List.reverse_append, List.reverse_reverse, List.append_assoc]]
    exact h0.bind h2

theorem joinWith_flat (x : Str) : ∀ ys : List Str, joinWith t!"\n" (x :: ys) = x ++ ys.flatMap (fun y => '\n' :: y)
  | [] => by simp [joinWith]
  | y :: ys => by
    rw [joinWith, joinWith_flat y ys]
    simp

theorem itemOut_html (r : Bool) (i : Spec.DItem) : (itemOut r i).reverse.flatMap (fun y => '\n' :: y) = i.html r := by
  unfold itemOut Spec.DItem.html Spec.elementWith
  cases i.definition <;> simp

theorem items_html (r : Bool) : ∀ l : Spec.DList, (l.flatMap (fun i => (itemOut r i).reverse)).flatMap (fun y => '\n' :: y) = l.flatMap (Spec.DItem.html r)
  | [] => rfl
  | i :: l => by rw [List.flatMap_cons, List.flatMap_append, itemOut_html, items_html r l, List.flatMap_cons]

theorem CharP.ditem {U : Uni} {r : Bool} {P : Char → Prop} (hP : CharP r P) (hc : P ':') {i : Spec.DItem} (h : i.Ok U.isLu r) : ∀ x ∈ i.source, P x := by
  intro x hx
  simp only [Spec.DItem.source, Spec.DItem.content, Spec.DItem.marks, List.mem_cons, List.mem_append] at hx
  rcases hx with rfl | hx | rfl | hx | hx
  · exact hP.lit _ (by decide)
  · split at hx
    · cases hx
    · rcases List.mem_append.1 hx with hx | hx
      · exact hP.look _ h.look _ hx
      · rw [List.mem_singleton.1 hx]; exact hP.lit _ (by decide)
  · exact hP.lit _ (by decide)
  · exact hP.word _ (h.term.1.words.chars _ hx)
  · cases hd : i.definition with
    | none => rw [hd] at hx; cases hx
    | some d =>
      rw [hd] at hx
      simp only [List.mem_append, List.mem_cons, List.not_mem_nil, or_false] at hx
      rcases hx with (rfl | rfl | rfl | rfl) | hx
      · exact hP.lit _ (by decide)
      · exact hc
      · exact hP.lit _ (by decide)
      · exact hP.lit _ (by decide)
      · exact hP.word _ ((h.definition d hd).1.words.chars _ hx)

theorem ditem_line {U : Uni} {r : Bool} {i : Spec.DItem} (h : i.Ok U.isLu r) : '\n' ∉ i.source ∧ i.source.head? = some '-' :=
  ⟨fun hm => (charP_nl r).ditem (by decide) h _ hm rfl, rfl⟩

/-- `f_rc_list` on a definition list. -/
theorem runs_fRcList {C : Ctx} {base : Str} (D : DocCtx C base) {n : Nat} (hn : 1 ≤ n) {l : Spec.DList} (hne : l ≠ [])
    (h : ∀ j ∈ l, j.Ok C.U.isLu C.cfg.restricted) (σ : PState) {m : Mat} (hm : m.whole = Spec.dlSource l ++ t!"\n\n") :
    Runs C (fRcList C (graf C n) m) (Spec.dlHtml C.cfg.restricted l) σ σ := by
  obtain ⟨i, l', rfl⟩ := List.exists_cons_of_ne_nil hne
  unfold fRcList
  rw [hm]
  unfold Spec.dlSource
  rw [dsplit_list C.U (by simp) (fun x hx => by obtain ⟨j, hj, rfl⟩ := List.mem_map.1 hx; exact ditem_line (h j hj))]
  refine Runs.bind (runs_rcAll D hn σ h) ?_
  have he : (((i :: l').flatMap (fun i => (itemOut C.cfg.restricted i).reverse)).reverse ++ [dlOpen C.cfg.restricted i]).isEmpty = false := by simp
  simp only [he, Bool.false_eq_true, if_false]
  have : joinWith t!"\n" (t!"</dl>" :: (((i :: l').flatMap (fun i => (itemOut C.cfg.restricted i).reverse)).reverse ++ [dlOpen C.cfg.restricted i])).reverse =
      Spec.dlHtml C.cfg.restricted (i :: l') := by
    rw [List.reverse_cons, List.reverse_append, List.reverse_reverse, List.reverse_singleton, List.singleton_append, List.cons_append, joinWith_flat,
      List.flatMap_append, items_html]
    simp [Spec.dlHtml, Spec.elementWith, dlOpen, Spec.dlAtts]
  rw [this]
  exact Runs.pure _ _

theorem rclist_nonnull : RCLIST_RE.nonnull = true := by decide

theorem content_infix {i : Spec.DItem} (h : i.definition ≠ none) : [':', '='] <:+: i.content := by
  unfold Spec.DItem.content
  cases hd : i.definition with
  | none => exact absurd hd h
  | some d => exact ⟨i.term ++ [' '], ' ' :: d, by simp⟩

theorem line_infix {p : Str} : ∀ {l : List Str}, p ∈ l → p <:+: Spec.join t!"\n" l
  | [x], h => by
    rw [List.mem_singleton.1 h]
    exact List.infix_refl _
  | x :: y :: l, h => by
    rcases List.mem_cons.1 h with rfl | h
    · exact ⟨[], t!"\n" ++ Spec.join t!"\n" (y :: l), by simp [Spec.join]⟩
    · exact (line_infix h).trans ⟨x ++ t!"\n", [], by simp [Spec.join]⟩

/-- The first item, and what follows. -/
theorem dlSource_eq {i : Spec.DItem} {l : Spec.DList} {z : Str} (h : ∃ j ∈ i :: l, j.definition ≠ none) :
    ∃ x, Spec.dlSource (i :: l) ++ z = '-' :: (i.marks ++ ' ' :: x) ∧ [':', '='] <:+: x := by
  obtain ⟨j, hj, hd⟩ := h
  cases l with
  | nil =>
    rw [List.mem_singleton.1 hj] at hd
    refine ⟨i.content ++ z, by simp [Spec.dlSource, Spec.join, Spec.DItem.source], (content_infix hd).trans ⟨[], z, by simp⟩⟩
  | cons k l =>
    refine ⟨i.content ++ ('\n' :: (Spec.dlSource (k :: l) ++ z)), ?_, ?_⟩
    · unfold Spec.dlSource
      rw [List.map_cons, List.map_cons, join_lines _ (by simp)]
      simp [Spec.DItem.source]
    · rcases List.mem_cons.1 hj with rfl | hj
      · exact (content_infix hd).trans ⟨[], '\n' :: (Spec.dlSource (k :: l) ++ z), by simp⟩
      · have h1 : j.source <:+: Spec.dlSource (k :: l)   := line_infix (List.mem_map.2 ⟨j, hj, rfl⟩)
        have h2 : j.content <:+: j.source := ⟨'-' :: (j.marks ++ [' ']), [], by simp [Spec.DItem.source]⟩
        exact ((content_infix hd).trans (h2.trans h1)).trans ⟨i.content ++ ['\n'], z, by simp⟩

/-- `redcloth_list` on a paragraph that is a definition list. -/
theorem runs_redcloth {C : Ctx} {base : Str} (D : DocCtx C base) {n : Nat} (hn : 1 ≤ n) {l : Spec.DList} (h : Spec.DlOk C.U.isLu C.cfg.restricted l) (σ : PState) :
    Runs C (redclothList C (graf C n) (Spec.dlSource l ++ t!"\n\n")) (Spec.dlHtml C.cfg.restricted l) σ σ := by
  have hne : l ≠ [] := by rintro rfl; obtain ⟨j, hj, -⟩ := h.some; cases hj
  unfold redclothList
  refine ScanP.runs rclist_nonnull (fun m => rfl) ?_
  obtain ⟨i, l', rfl⟩ := List.exists_cons_of_ne_nil hne
  obtain ⟨x, e, hx⟩ := dlSource_eq (z := t!"\n\n") h.some
  obtain ⟨s, hs⟩ := RCLIST_match (U := C.U) (h.items i (by simp)).look hx
  rw [← e] at hs
  have := ScanP.hit (C := C) (r := RCLIST_RE) (f := fRcList C (graf C n)) (pre := []) (w := Spec.dlSource (i :: l') ++ t!"\n\n") (rest := []) (s := s)
    (o := Spec.dlHtml C.cfg.restricted (i :: l')) (σ := σ) (σ1 := σ) (by simpa using hs) (by simp)
    (fun gap => runs_fRcList D hn hne h.items σ rfl) ScanP.nil
  simpa using this

/-! ## What the other stages find -/

/-- Reads definition lists. -/
def dlM : Auto := [
  (true, [(oneA '-', 1), (oneA '\n', 0)]),
  (true, [(oneA '(', 4), (oneA '[', 5), (oneA ' ', 2)]),
  (true, [(plainA, 2), (oneA '\n', 0), (oneA ':', 3)]),
  (true, [(oneA '=', 2)]),
  (true, [(⟨asciiAlnum ++ t!" #", false⟩, 4), (oneA ')', 6)]),
  (true, [(nameA, 5), (oneA ']', 6)]),
  (true, [(oneA '[', 5), (oneA '.', 2)])]

set_option maxRecDepth 100000 in
theorem dlM_ok : dlM.wf = true ∧ (earlyPatterns ++ [DIVIDER_RE, TABLE_RE]).all (dlM.avoids ·) = true := by decide +kernel

/-- Membership of steps. -/
macro "dstep" : tactic => `(tactic| (simp [dlM, Auto.step]))

theorem dwords_run {w t : Str} (hw : ∀ c ∈ w, Spec.ordinaryChar c = true) (h : dlM.Run 2 t) : dlM.Run 2 (w ++ t) :=
  run_loop (A := plainA) (by dstep) h (fun c hc => plainA_iff.2 (hw c hc))

theorem dlang_run {r : Bool} {k : Spec.Look} (h : k.Ok r) {t : Str} (ht : dlM.Run 2 t) {q : Nat} (hq : q = 1 ∨ q = 6) (hne : lookLang k ≠ [] ∨ q = 6) :
    dlM.Run q (lookLang k ++ '.' :: t) := by
  unfold lookLang at hne ⊢
  cases hl : k.lang with
  | none =>
    rw [hl] at hne
    have : q = 6 := by simpa using hne
    subst this
    exact run_one (q' := 2) (by dstep) ht
  | some l =>
    obtain ⟨-, h2⟩ := h.lang l hl
    simp only [List.append_assoc, List.cons_append, List.nil_append]
    have h6 : dlM.Run 6 ('.' :: t) := run_one (q' := 2) (by dstep) ht
    refine run_one (q' := 5) (by rcases hq with rfl | rfl <;> dstep) (run_loop (A := nameA) (by dstep) (run_one (q' := 6) (by dstep) h6) ?_)
    exact fun c hc => .inl (alnum_mem (h2 c hc))

theorem dmarks_run {r : Bool} {i : Spec.DItem} (h : i.look.Ok r) {t : Str} (ht : dlM.Run 2 t) : dlM.Run 1 (i.marks ++ ' ' :: t) := by
  have h2 : dlM.Run 2 (' ' :: t) := dwords_run (w := [' ']) (by decide) ht
  unfold Spec.DItem.marks
  by_cases he : i.look.source = []
  · rw [if_pos he]
    exact run_one (q' := 2) (by dstep) ht
  · rw [if_neg he]
    rw [look_source] at he ⊢
    have e1 : lookV i.look = [] := rfl
    have e2 : alignText i.look.align = [] := rfl
    rw [e1, e2] at he ⊢
    simp only [List.nil_append, List.append_assoc, List.cons_append] at he ⊢
    cases hc : i.look.cls with
    | none =>
      have : lookCls i.look = [] := by unfold lookCls; rw [hc]
      rw [this] at he ⊢
      exact dlang_run h h2 (.inl rfl) (.inl (by simpa using he))
    | some p =>
      have hm : ∀ c ∈ clsText p.1 p.2, c ∈ asciiAlnum ++ t!" #" := (clsText_mem h hc).2
      have : lookCls i.look = ['('] ++ (clsText p.1 p.2 ++ [')']) := by unfold lookCls; rw [hc]
      rw [this]
      simp only [List.append_assoc, List.cons_append, List.nil_append]
      refine run_one (q' := 4) (by dstep) (run_loop (A := ⟨asciiAlnum ++ t!" #", false⟩) (by dstep) (run_one (q' := 6) (by dstep) ?_) (fun c hc => .inl (hm c hc)))
      exact dlang_run h h2 (.inr rfl) (.inr rfl)

theorem ditem_run {U : Uni} {r : Bool} {i : Spec.DItem} (h : i.Ok U.isLu r) {t : Str} (ht : dlM.Run 2 t) : dlM.Run 0 (i.source ++ t) := by
  unfold Spec.DItem.source Spec.DItem.content
  simp only [List.cons_append, List.append_assoc]
  refine run_one (q' := 1) (by dstep) (dmarks_run h.look (dwords_run h.term.1.words.chars ?_))
  cases hd : i.definition with
  | none => exact ht
  | some d =>
    have h2 : dlM.Run 2 (' ' :: (d ++ t)) := dwords_run (w := ' ' :: d) (by
      intro c hc
      rcases List.mem_cons.1 hc with rfl | hc
      · decide
      · exact (h.definition d hd).1.words.chars c hc) ht
    exact dwords_run (w := [' ']) (by decide) (run_one (q' := 3) (by dstep) (run_one (q' := 2) (by dstep) h2))

theorem dlist_run {U : Uni} {r : Bool} : ∀ {l : Spec.DList}, l ≠ [] → (∀ i ∈ l, i.Ok U.isLu r) → ∀ {z : Str}, dlM.Run 2 z → dlM.Run 0 (Spec.dlSource l ++ z)
  | [], h, _, _, _ => absurd rfl h
  | [i], _, h, z, hz => ditem_run (h i (by simp)) hz
  | i :: j :: l, _, h, z, hz => by
    have ih := dlist_run (l := j :: l) (by simp) (fun i hi => h i (by simp [hi])) hz
    have e : Spec.dlSource (i :: j :: l) ++ z = i.source ++ '\n' :: (Spec.dlSource (j :: l) ++ z) := by
      unfold Spec.dlSource
      rw [List.map_cons, List.map_cons, join_lines _ (by simp)]
      simp
    rw [e]
    exact ditem_run (h i (by simp)) (run_one (q' := 0) (by dstep) ih)

/-! ## The HTML -/

section
variable {U : Uni} {Q0 Q1 : Str → Prop}

theorem Frame.ditem (F : Frame U Q0 Q1) {b : Bool} {i : Spec.DItem} (h : i.Ok U.isLu b) {r : Str} (hr : Q0 r) : Q0 (i.html b ++ r) := by
  obtain ⟨p1, p2⟩ := label_plainly h.term.1.words
  unfold Spec.DItem.html
  simp only [List.append_assoc]
  refine F.wss (F.elem (by decide) (by decide) (look_att h.look _ _ _) (fun r hr => F.text _ _ p1 p2 hr) ?_) (by decide)
  cases hd : i.definition with
  | none => exact hr
  | some d =>
    obtain ⟨q1, q2⟩ := label_plainly (h.definition d hd).1.words
    simp only [List.append_assoc]
    exact F.wss (F.elem (by decide) (by decide) .nil (fun r hr => F.text _ _ q1 q2 hr) hr) (by decide)

theorem Frame.ditems (F : Frame U Q0 Q1) {b : Bool} {r : Str} (hr : Q0 r) : ∀ {l : Spec.DList}, (∀ i ∈ l, i.Ok U.isLu b) → Q0 (l.flatMap (Spec.DItem.html b) ++ r)
  | [], _ => hr
  | i :: l, h => by
    rw [List.flatMap_cons, List.append_assoc]
    exact F.ditem (h i (by simp)) (F.ditems hr (fun c hc => h c (by simp [hc])))

theorem datts_ok {b : Bool} {l : Spec.DList} (h : ∀ i ∈ l, i.Ok U.isLu b) : AttOk (Spec.dlAtts b l) := by
  cases l with
  | nil => exact .nil
  | cons i l =>
    have e : Spec.dlAtts b (i :: l) = if i.definition = none then i.atts b else [] := rfl
    rw [e]
    split
    · exact look_att (h i (by simp)).look _ _ _
    · exact .nil

theorem Frame.dlist (F : Frame U Q0 Q1) {b : Bool} {l : Spec.DList} (h : ∀ i ∈ l, i.Ok U.isLu b) {r : Str} (hr : Q0 r) : Q0 (Spec.dlHtml b l ++ r) := by
  unfold Spec.dlHtml
  refine F.elem (by decide) (by decide) (datts_ok h) (fun r hr => ?_) hr
  rw [List.append_assoc]
  exact F.ditems (F.wss (F.start hr) (by decide)) h

end

theorem dlist_last (b : Bool) (l : Spec.DList) : (Spec.dlHtml b l).getLast? = some '>' := by
  obtain ⟨u, hu⟩ : ∃ u, Spec.dlHtml b l = u ++ ['>'] := by
    unfold Spec.dlHtml Spec.elementWith
    generalize Spec.dlAtts b l = A
    generalize l.flatMap (Spec.DItem.html b) ++ ['\n'] = v
    exact ⟨'<' :: (t!"dl" ++ (A ++ '>' :: (v ++ '<' :: '/' :: t!"dl"))), by simp⟩
  rw [hu]
  exact List.getLast?_concat ..

theorem dlist_unwrapped {U : Uni} {b : Bool} {l : Spec.DList} (h : ∀ i ∈ l, i.Ok U.isLu b) : hasRawText U (Spec.dlHtml b l) = false := by
  have hA := datts_ok h
  have : UNWRAPPABLE_RE.isMatch U (Spec.dlHtml b l) = true := by
    obtain ⟨x, hx⟩ : ∃ x, Spec.dlHtml b l = [] ++ ((t!"<" ++ ([] ++ (t!"dl" ++ (Spec.dlAtts b l ++ t!">")))) ++ x) := by
      unfold Spec.dlHtml Spec.elementWith
      generalize l.flatMap (Spec.DItem.html b) ++ ['\n'] = v
      exact ⟨v ++ ['<', '/'] ++ (t!"dl" ++ ['>']), by simp⟩
    rw [hx, unwrappable_shape]
    refine isMatch_later (.seq (.set rfl) (.seq (.right .eps) (.seq (Re.accepts_has (by decide +kernel)) (.seq ?_ (.set rfl)))))
    rcases hA.head with h0 | h0
    · rw [h0]; exact .right (.right .eps)
    · obtain ⟨u, hu⟩ : ∃ u, Spec.dlAtts b l = [' '] ++ u := by
        cases hb : Spec.dlAtts b l with
        | nil => rw [hb] at h0; cases h0
        | cons c u => rw [hb] at h0; simp at h0; exact ⟨u, by rw [h0]; rfl⟩
      have hlt := hA.lt
      have hgt := hA.gt
      rw [hu] at hlt hgt ⊢
      refine .left (.seq (.set ?_) (.star ?_))
      · rfl
      · intro c hc
        have h1 : c ≠ '<' := by rintro rfl; simp [hc] at hlt
        have h2 : c ≠ '>' := by rintro rfl; simp [hc] at hgt
        have e1 : c.toNat ≠ '<'.toNat := fun e => h1 (Char.toNat_inj.1 e)
        have e2 : c.toNat ≠ '>'.toNat := fun e => h2 (Char.toNat_inj.1 e)
        simp [evalSet, Item.eval]
        exact ⟨e1, e2⟩
  unfold hasRawText
  rw [this]
  simp

/-! ## The block -/

/-- `graf` on a definition list. -/
theorem graf_dlist {C : Ctx} {base : Str} (D : DocCtx C base) (hlite : C.cfg.lite = false) {l : Spec.DList}
    (h : Spec.DlOk C.U.isLu C.cfg.restricted l) (htok : ¬ C.cfg.uid <:+: Spec.dlSource l) (σ : PState) :
    Runs C (graf C C.fuel (Spec.dlSource l)) (Spec.dlHtml C.cfg.restricted l) σ σ := by
  have hne : l ≠ [] := by rintro rfl; obtain ⟨j, hj, -⟩ := h.some; cases hj
  obtain ⟨n, hn⟩ : ∃ n, C.fuel = n + 1 := ⟨C.fuel - 1, by have := D.fuel; omega⟩
  have hA : dlM.Run 0 (Spec.dlSource l) := by
    have := dlist_run hne h.items (z := []) rfl
    rwa [List.append_nil] at this
  have hA2 : dlM.Run 0 (Spec.dlSource l ++ t!"\n\n") :=
    dlist_run hne h.items (readB_run (M := dlM) (q' := 0) (rest := []) rfl (w := t!"\n\n") (q := 2) (by decide))
  have hH : hM.Run 0 (Spec.dlHtml C.cfg.restricted l) := by
    have := (frame_run (U := C.U)).dlist h.items (r := []) rfl
    rwa [List.append_nil] at this
  have hlast : ∀ c, (Spec.dlHtml C.cfg.restricted l).getLast? = some c → c ≠ '\n' := by
    intro c hc; rw [dlist_last] at hc; cases hc; decide
  have hneed : ∀ r ∈ [RCLIST_RE, LISTS_RE, FOOTNOTE_RE, NOTEREF_RE] ++ spanPatterns, r.search C.U [] (Spec.dlHtml C.cfg.restricted l) = none := fun r hr =>
    Auto.search_none D.uni hM_ok.1 (List.all_eq_true.1 hM_ok.2 r hr) (by decide) hH
  have hend : tableEnd C = t!"\n\n" := by simp [tableEnd, hlite]
  rw [hn]
  refine graf_split (runs_early (by have := D.fuel; omega)
    (fun r hr => Auto.search_none D.uni dlM_ok.1 (List.all_eq_true.1 dlM_ok.2 r (List.mem_append_left _ hr)) (by decide) hA) ?_ σ) ?_
  · rw [← Bool.not_eq_true, containsStr_iff]
    rintro ⟨a, b, e⟩
    exact htok ⟨a, t!"linkStartMarker:" ++ b, by rw [e]; simp⟩
  unfold grafLate
  refine (runs_table (Auto.search_none D.uni dlM_ok.1 (List.all_eq_true.1 dlM_ok.2 _ (by simp)) (by decide) hA2) σ).bind ?_
  rw [hend]
  refine Runs.bind (a := Spec.dlHtml C.cfg.restricted l) (σ' := σ) (Runs.unless (fun _ => runs_redcloth D (by have := D.fuel; omega) h σ) (by simp [hlite])) ?_
  refine Runs.bind (a := Spec.dlHtml C.cfg.restricted l) (σ' := σ) ((Leaves.unless fun _ => Leaves.replaceP (hneed _ (by simp))).runs σ) ?_
  refine Runs.bind ((Leaves.span fun r hr => hneed r (List.mem_append_right _ hr)).runs σ) ?_
  refine Runs.bind (a := Spec.dlHtml C.cfg.restricted l) (σ' := σ) (Runs.none (hneed _ (by simp)) σ) ?_
  refine Runs.bind (a := Spec.dlHtml C.cfg.restricted l) (σ' := σ) (Runs.none (hneed _ (by simp)) σ) ?_
  have hp : Pieces C.U (Spec.dlHtml C.cfg.restricted l) := by
    have := (frame_pieces D.uni).dlist h.items (r := []) (.last .nil)
    rwa [List.append_nil] at this
  have hg := hp.glyphs (n := []) D.uni hlast (by simp)
  rw [List.append_nil] at hg
  rw [hg, trimEndP_of_last (by simpa using hlast)]
  exact Runs.pure _ _

theorem dlist_pieces {U : Uni} (hU : UniOk U) {b : Bool} {l : Spec.DList} (h : ∀ i ∈ l, i.Ok U.isLu b) : Pieces U (Spec.dlHtml b l) := by
  have := (frame_pieces hU).dlist h (r := []) (.last .nil)
  rwa [List.append_nil] at this

theorem dlist_head {l : Spec.DList} (h : l ≠ []) : ∃ u, Spec.dlSource l = '-' :: u := by
  obtain ⟨i, l, rfl⟩ := List.exists_cons_of_ne_nil h
  cases l with
  | nil => exact ⟨_, rfl⟩
  | cons j l =>
    unfold Spec.dlSource
    rw [List.map_cons, List.map_cons, join_lines _ (by simp)]
    exact ⟨_, rfl⟩

/-- A definition list as a block of its own. -/
theorem dlist_step {C : Ctx} {base : Str} (D : DocCtx C base) (hlite : C.cfg.lite = false) {l : Spec.DList}
    (h : Spec.DlOk C.U.isLu C.cfg.restricted l) (htok : ¬ C.cfg.uid <:+: Spec.dlSource l) (σ : PState) :
    StepTo C (Spec.dlSource l) σ σ (Spec.dlHtml C.cfg.restricted l) := by
  have hne : l ≠ [] := by rintro rfl; obtain ⟨j, hj, -⟩ := h.some; cases hj
  have h1 := graf_dlist D hlite h htok σ
  have hp := dlist_pieces D.uni h.items
  have hA : dlM.Run 0 (Spec.dlSource l) := by
    have := dlist_run hne h.items (z := []) rfl
    rwa [List.append_nil] at this
  obtain ⟨X, hs⟩ := dlist_head hne
  refine step_of_body (o := Spec.dlHtml C.cfg.restricted l) (by rw [hs]; exact trim_ne (by decide)) ?_ ?_
  · rw [doPBr_none (noPTag_free (hp.free (by decide)) (hp.free (by decide)))]
    exact (Broken.single hp.brFree).replace
  · intro s s1 s2 s3 s4 s5
    rw [blockBody_anonymous (tag_none_of (by rw [hs]; exact noBlock_other (by decide))) (.inr ⟨?_, ?_⟩)]
    · rw [s2, s3, s4]
      refine ⟨{ s with tag := t!"p", atts := [], cite := none, eat := false, lastClosing := [] }, true,
        (runs_blockNew (by decide) (by rw [hs]; simp) (by rw [hs]; exact notedef_other (by decide)) h1).bind ?_, s1, rfl, rfl, rfl, rfl⟩
      simp only [dlist_unwrapped h.items]
      exact Runs.pure _ _
    · rw [hs]; rfl
    · exact Re.isMatch_none (Auto.search_none D.uni dlM_ok.1 (List.all_eq_true.1 dlM_ok.2 _ (by simp)) (by decide) hA)

theorem dlist_lines {U : Uni} {b : Bool} {l : Spec.DList} (hne : l ≠ []) (h : ∀ i ∈ l, i.Ok U.isLu b) :
    ∃ ls, ls ≠ [] ∧ (∀ l ∈ ls, Spec.RawLine l) ∧ Spec.dlSource l = Spec.join t!"\n" ls := by
  refine ⟨l.map Spec.DItem.source, by simpa using hne, ?_, rfl⟩
  intro x hx
  obtain ⟨i, hi, rfl⟩ := List.mem_map.1 hx
  exact ⟨(ditem_line (h i hi)).1, fun hm => (charP_cr b).ditem (by decide) (h i hi) _ hm rfl, blank_not (by decide)⟩

theorem act_dlist {C : Ctx} {base : Str} (D : DocCtx C base) (hlite : C.cfg.lite = false) {l : Spec.DList}
    (h : Spec.DlOk C.U.isLu C.cfg.restricted l) (htok : ¬ C.cfg.uid <:+: Spec.dlSource l) (P : PState → Prop) :
    Act C P P (Spec.dlSource l) 0 (Spec.dlHtml C.cfg.restricted l) where
  lines := dlist_lines (by rintro rfl; obtain ⟨j, hj, -⟩ := h.some; cases hj) h.items
  first := by
    obtain ⟨X, hs⟩ := dlist_head (l := l) (by rintro rfl; obtain ⟨j, hj, -⟩ := h.some; cases hj)
    exact ⟨_, _, hs, by decide⟩
  run := by
    intro σ hP hd
    have hp := dlist_pieces D.uni h.items
    refine ⟨σ, _, Spec.dlHtml C.cfg.restricted l, dlist_step D hlite h htok σ, Grows.of_same rfl rfl rfl rfl rfl, hP, by omega, ?_, ?_, ?_⟩
    · intro τ _ _
      rw [D.uid]
      exact hp.rep
    · exact not_contains_of_free (by simp) (hp.free (by decide))
    · exact fun r _ => tidyBreaks_free (hp.free (by decide))
  ending := by
    have := dlist_last C.cfg.restricted l
    refine ⟨?_, by rw [this]; simp⟩
    intro e; rw [e] at this; cases this

/-! ## Documents -/

/-- The text of a block as it is seen. -/
def dlSeen (restricted : Bool) : Spec.DlBlock → Str
  | .other b => ttSeen restricted b
  | .dlist l => Spec.dlSource l

def dlKinds (cfg : Cfg) (base : Str) : Kinds Spec.DlBlock where
  src := Spec.DlBlock.source
  seen := dlSeen cfg.restricted
  marks := Spec.DlBlock.marks
  html := fun N M b => b.html cfg.brTag cfg.restricted (useAlignClass cfg) base N M
  numbers := fun N b => b.numbers N cfg.restricted
  notes := fun M b => b.notes M cfg.restricted

theorem dl_seen {C : Ctx} (hU : UniOk C.U) {b : Spec.DlBlock} (h : b.Ok C.U.isLu C.U.isNd C.cfg.lite C.cfg.restricted) :
    (if C.cfg.restricted then encodeHtml b.source false false else b.source) = dlSeen C.cfg.restricted b := by
  cases b with
  | other b => exact tt_seen hU h
  | dlist l =>
    by_cases hr : C.cfg.restricted = true
    · rw [if_pos hr]
      have h2 : Spec.DlOk C.U.isLu true l := by rw [← hr]; exact h.2
      refine enc_id ?_
      intro c hc
      rcases join_mem hc with rfl | ⟨x, hx, hm⟩
      · decide
      · obtain ⟨i, hi, rfl⟩ := List.mem_map.1 hx
        exact charP_enc.ditem (by decide) (h2.items i hi) _ hm
    · rw [if_neg hr]
      rfl

theorem act_tt {C : Ctx} {base : Str} (D : DocCtx C base) (hp : C.cfg.linkPrefix = base ++ t!"-") (hz : C.cfg.getSizes = false) (hno : C.cfg.noimage = false)
    {ok : Char → Prop} (ha : ∀ c, c.toNat < 128 → ok c) {b : Spec.TtBlock} (hL : Lowers C.U ok)
    (h : b.Ok C.U.isLu C.U.isNd C.cfg.lite C.cfg.restricted) (hc : ∀ c ∈ b.chars, ok c)
    (hR : b.Resolved (Spec.Resolves C.E.urlParse C.E.urlJoin C.cfg.restricted) (Spec.Reads C.E.urlParse C.E.urlJoin) C.cfg.rel)
    (hsrc : ¬ C.cfg.uid <:+: b.source) (htok : ¬ C.cfg.uid <:+: ttSeen C.cfg.restricted b) (N : Spec.Numbers) (M : Spec.Notes) :
    Act C (fun σ => Num N σ ∧ FnState base {} M σ) (fun σ => Num (b.numbers N C.cfg.restricted) σ ∧ FnState base {} (b.notes M C.cfg.restricted) σ)
      (ttSeen C.cfg.restricted b) b.marks (b.html C.cfg.brTag C.cfg.restricted (useAlignClass C.cfg) base N M) := by
  cases b with
  | other b => exact act_im D hp hz hno ha hL h hc hR hsrc htok N M
  | table t => exact act_ttable D h.1 hL h.2 hc _

/-- What `parse` makes of documents with definition lists. -/
theorem parse_dlists {E : Env} {fuel : Nat} {cfg : Cfg} {base : Str} (D : DocCtx ⟨E, cfg, fuel⟩ base) (hp : cfg.linkPrefix = base ++ t!"-")
    (hz : cfg.getSizes = false) (hno : cfg.noimage = false)
    (hbt : cfg.blockTags = true) (hsan : cfg.sanitizer = none) (hdep : 1 ≤ cfg.maxSpanDepth) {ok : Char → Prop}
    (ha : ∀ c, c.toNat < 128 → ok c) (hL : Lowers E.U ok) {ds : List (Spec.DlBlock × Nat)}
    (hne : ds ≠ []) (h : ∀ d ∈ ds, d.1.Ok E.U.isLu E.U.isNd cfg.lite cfg.restricted) (hc : ∀ d ∈ ds, ∀ c ∈ d.1.chars, ok c)
    (hR : ∀ d ∈ ds, d.1.Resolved (Spec.Resolves E.urlParse E.urlJoin cfg.restricted) (Spec.Reads E.urlParse E.urlJoin) cfg.rel)
    (htok : ¬ cfg.uid <:+: Spec.dlsSource ds) (hn : 2 * Spec.dlsMarks ds < 2 ^ 32) :
    parseFresh E fuel cfg (Spec.dlsSource ds) = .ok (Spec.dlsDocHtml cfg.brTag cfg.restricted (useAlignClass cfg) base ds) := by
  have := parse_kinds D hbt hsan hdep (β := Spec.DlBlock)
    (dlKinds cfg base) hne
    (fun d hd => dl_seen (C := ⟨E, cfg, fuel⟩) D.uni (h d hd))
    (fun d hd h1 h2 N M => by
      obtain ⟨b, k⟩ := d
      cases b with
      | other b => exact act_tt D hp hz hno ha hL (h _ hd) (hc _ hd) (hR _ hd) h1 h2 N M
      | dlist l => exact act_dlist D (h _ hd).1 (h _ hd).2 h1 _) htok hn
  have e : ∀ (ds : List (Spec.DlBlock × Nat)) N M, Kinds.docHtml (dlKinds cfg base) N M ds =
      Spec.dlsHtml cfg.brTag cfg.restricted (useAlignClass cfg) base N M ds := by
    intro ds
    induction ds with
    | nil => intro _ _; rfl
    | cons d ds ih => intro N M; simp only [Kinds.docHtml, Spec.dlsHtml, ih]; rfl
  rw [e] at this
  exact this

end Rustextile
