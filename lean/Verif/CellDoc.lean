import Verif.CellHtml
import Verif.ImageDoc

/-!
# Documents with tables that have attributes
-/

namespace Rustextile

open Prog

variable {aux0 : Aux}

/-! ## The source -/

/-- Reads the source of tables. -/
def srcM : Auto := [
  (true, [(oneA '|', 1), (oneA '<', 3), (oneA '=', 3), (⟨t!"^~->", false⟩, 2), (oneA '(', 4), (oneA '[', 5), (nameA, 2)]),
  (true, [(oneA '|', 1), (oneA '\n', 0), (plainA, 6), (⟨t!"_\\/", false⟩, 2), (oneA '<', 3), (oneA '=', 8), (⟨t!"^~->", false⟩, 2), (oneA '(', 4), (oneA '[', 5)]),
  (true, [(⟨t!"\\/^~->", false⟩, 2), (nameA, 2), (oneA '<', 3), (oneA '=', 3), (oneA '(', 4), (oneA '[', 5), (oneA '.', 6)]),
  (true, [(oneA '>', 2), (oneA '(', 4), (oneA '[', 5), (oneA '.', 6)]),
  (true, [(⟨asciiAlnum ++ t!" #", false⟩, 4), (oneA ')', 7)]),
  (true, [(nameA, 5), (oneA ']', 7)]),
  (true, [(plainA, 6), (oneA '|', 1), (oneA '\n', 0)]),
  (true, [(oneA '[', 5), (oneA '.', 6)]),
  (true, [(⟨t!"^~->", false⟩, 2), (oneA '<', 3), (oneA '(', 4), (oneA '[', 5), (oneA '.', 6)])]

set_option maxRecDepth 100000 in
theorem srcM_ok : srcM.wf = true ∧ (earlyPatterns ++ [DIVIDER_RE]).all (srcM.avoids ·) = true := by decide +kernel

/-- Membership of steps. -/
macro "mstep" : tactic => `(tactic| (simp [srcM, Auto.step]))

theorem lang_run {r : Bool} {k : Spec.Look} (h : k.Ok r) {t : Str} (ht : srcM.Run 6 t) {q : Nat} (hq : q ∈ [0, 1, 2, 3, 7, 8])
    (hne : lookLang k ≠ [] ∨ q ∈ [2, 3, 7, 8]) : srcM.Run q (lookLang k ++ '.' :: t) := by
  unfold lookLang at hne ⊢
  cases hl : k.lang with
  | none =>
    rw [hl] at hne
    rcases hne with hne | hne
    · exact absurd rfl hne
    · refine run_one (q' := 6) ?_ ht
      simp only [List.mem_cons, List.not_mem_nil, or_false] at hne
      rcases hne with rfl | rfl | rfl | rfl <;> mstep
  | some l =>
    simp only [List.append_assoc, List.cons_append, List.nil_append]
    refine run_one (q' := 5) ?_ (run_loop (A := nameA) (by mstep) ?_ (fun c hc => .inl (alnum_mem ((h.lang l hl).2 c hc))))
    · simp only [List.mem_cons, List.not_mem_nil, or_false] at hq
      rcases hq with rfl | rfl | rfl | rfl | rfl | rfl <;> mstep
    · exact run_one (q' := 7) (by mstep) (run_one (q' := 6) (by mstep) ht)

theorem cls_run {r : Bool} {k : Spec.Look} (h : k.Ok r) {t : Str} (ht : srcM.Run 6 t) {q : Nat} (hq : q ∈ [0, 1, 2, 3, 8])
    (hne : lookCls k ++ lookLang k ≠ [] ∨ q ∈ [2, 3, 8]) : srcM.Run q (lookCls k ++ (lookLang k ++ '.' :: t)) := by
  cases hc : k.cls with
  | none =>
    have e : lookCls k = [] := by simp [lookCls, hc]
    rw [e] at hne ⊢
    refine lang_run h ht ?_ ?_
    · simp at hq ⊢; omega
    · rcases hne with hne | hne
      · exact .inl hne
      · right; simp at hne ⊢; omega
  | some p =>
    have hl := lang_run h ht (q := 7) (by simp) (.inr (by simp))
    have hm : ∀ c ∈ clsText p.1 p.2, c ∈ asciiAlnum ++ t!" #" := by
      obtain ⟨h1, h2, h3⟩ := h.cls p hc
      intro c hcm
      have hw : c ∈ p.1 → c ∈ asciiAlnum ++ t!" #" := by
        intro hcm
        rcases h2 c hcm with hx | rfl
        · exact List.mem_append_left _ (alnum_mem hx)
        · decide
      unfold clsText at hcm
      cases hp : p.2 with
      | none => rw [hp] at hcm; exact hw hcm
      | some j =>
        rw [hp] at hcm
        rcases List.mem_append.1 hcm with hcm | hcm
        · exact hw hcm
        · rcases List.mem_cons.1 hcm with rfl | hcm
          · decide
          · exact List.mem_append_left _ (alnum_mem ((h3 j hp).2 c hcm))
    have e : lookCls k ++ (lookLang k ++ '.' :: t) = '(' :: (clsText p.1 p.2 ++ ')' :: (lookLang k ++ '.' :: t)) := by simp [lookCls, hc]
    rw [e]
    refine run_one (q' := 4) ?_ (run_loop (A := ⟨asciiAlnum ++ t!" #", false⟩) (by mstep) ?_ (fun c hc => .inl (hm c hc)))
    · simp only [List.mem_cons, List.not_mem_nil, or_false] at hq
      rcases hq with rfl | rfl | rfl | rfl | rfl <;> mstep
    · exact run_one (q' := 7) (by mstep) hl

theorem align_run {r : Bool} {k : Spec.Look} (h : k.Ok r) {t : Str} (ht : srcM.Run 6 t) {q : Nat} (hq : q ∈ [0, 1, 2, 8])
    (hne : alignText k.align ++ (lookCls k ++ lookLang k) ≠ [] ∨ q ∈ [2, 8]) (h8 : q = 8 → k.align ≠ some .center) :
    srcM.Run q (alignText k.align ++ (lookCls k ++ (lookLang k ++ '.' :: t))) := by
  have h2 := cls_run h ht (q := 2) (by simp) (.inr (by simp))
  have h3 := cls_run h ht (q := 3) (by simp) (.inr (by simp))
  have h8' := cls_run h ht (q := 8) (by simp) (.inr (by simp))
  have lt : ∀ u, srcM.Run 3 u → srcM.Run q ('<' :: u) := by
    intro u hu
    refine run_one (q' := 3) ?_ hu
    simp only [List.mem_cons, List.not_mem_nil, or_false] at hq
    rcases hq with rfl | rfl | rfl | rfl <;> mstep
  cases ha : k.align with
  | none =>
    rw [ha] at hne
    refine cls_run h ht ?_ ?_
    · simp at hq ⊢; omega
    · rcases hne with hne | hne
      · exact .inl (by simpa [alignText] using hne)
      · right; simp at hne ⊢; omega
  | some a =>
    cases a with
    | left => exact lt _ h3
    | right =>
      refine (?_ : srcM.Run q ('>' :: (lookCls k ++ (lookLang k ++ '.' :: t))))
      simp only [List.mem_cons, List.not_mem_nil, or_false] at hq
      rcases hq with rfl | rfl | rfl | rfl
      · exact ⟨(⟨t!"^~->", false⟩, 2), by mstep, .inl (by decide), h2⟩
      · exact ⟨(⟨t!"^~->", false⟩, 2), by mstep, .inl (by decide), h2⟩
      · exact ⟨(⟨t!"\\/^~->", false⟩, 2), by mstep, .inl (by decide), h2⟩
      · exact ⟨(⟨t!"^~->", false⟩, 2), by mstep, .inl (by decide), h2⟩
    | center =>
      refine (?_ : srcM.Run q ('=' :: (lookCls k ++ (lookLang k ++ '.' :: t))))
      simp only [List.mem_cons, List.not_mem_nil, or_false] at hq
      rcases hq with rfl | rfl | rfl | rfl
      · exact run_one (q' := 3) (by mstep) h3
      · exact run_one (q' := 8) (by mstep) h8'
      · exact run_one (q' := 3) (by mstep) h3
      · exact absurd ha (h8 rfl)
    | justify =>
      refine lt _ ?_
      exact run_one (q' := 2) (by mstep) h2

theorem look_run {r : Bool} {k : Spec.Look} (h : k.Ok r) {t : Str} (ht : srcM.Run 6 t) {q : Nat} (hq : q ∈ [0, 1, 2, 8])
    (hne : k.source ≠ [] ∨ q ∈ [2, 8]) (h8 : q = 8 → k.valign = none → k.align ≠ some .center) :
    srcM.Run q (k.source ++ '.' :: t) := by
  rw [look_source] at hne ⊢
  simp only [List.append_assoc]
  cases hv : k.valign with
  | none =>
    have e : lookV k = [] := by simp [lookV, hv]
    rw [e] at hne ⊢
    exact align_run h ht hq hne (fun e => h8 e hv)
  | some v =>
    have e : lookV k = [v.mark] := by simp [lookV, hv]
    have h2 := align_run h ht (q := 2) (by simp) (.inr (by simp)) (by simp)
    have hm : v.mark ∈ t!"^~->" ∧ v.mark ∈ t!"\\/^~->" := by cases v <;> decide
    rw [e]
    simp only [List.mem_cons, List.not_mem_nil, or_false] at hq
    rcases hq with rfl | rfl | rfl | rfl
    · exact ⟨(⟨t!"^~->", false⟩, 2), by mstep, .inl hm.1, h2⟩
    · exact ⟨(⟨t!"^~->", false⟩, 2), by mstep, .inl hm.1, h2⟩
    · exact ⟨(⟨t!"\\/^~->", false⟩, 2), by mstep, .inl hm.2, h2⟩
    · exact ⟨(⟨t!"^~->", false⟩, 2), by mstep, .inl hm.1, h2⟩

theorem words_run6 {w t : Str} (hw : ∀ c ∈ w, Spec.ordinaryChar c = true) (ht : srcM.Run 6 t) : srcM.Run 6 (w ++ t) :=
  run_loop (A := plainA) (by mstep) ht (fun c hc => plainA_iff.2 (hw c hc))

theorem space_run {t : Str} (ht : srcM.Run 6 t) : srcM.Run 6 (' ' :: t) := ⟨(plainA, 6), by mstep, plainA_iff.2 (by decide), ht⟩

theorem num_run {n : Nat} {t : Str} (ht : srcM.Run 2 t) : srcM.Run 2 (natStr n ++ t) :=
  run_loop (A := nameA) (by mstep) ht (fun c hc => .inl ((by decide +kernel : ∀ c ∈ t!"0123456789", c ∈ asciiAlnum) c (natStr_mem hc)))

theorem before_run {hd : Bool} {cols rows : Option Nat} {t : Str} (ht : srcM.Run 2 t) (hne : beforeText hd cols rows ≠ []) :
    srcM.Run 1 (beforeText hd cols rows ++ t) := by
  have hr : srcM.Run 2 (spanText '/' rows ++ t) := by
    cases rows with
    | none => exact ht
    | some n => exact ⟨(⟨t!"\\/^~->", false⟩, 2), by mstep, .inl (by decide), num_run ht⟩
  have hc : srcM.Run 2 (spanText '\\' cols ++ (spanText '/' rows ++ t)) := by
    cases cols with
    | none => exact hr
    | some n => exact ⟨(⟨t!"\\/^~->", false⟩, 2), by mstep, .inl (by decide), num_run hr⟩
  have e : beforeText hd cols rows ++ t = (if hd then ['_'] else []) ++ (spanText '\\' cols ++ (spanText '/' rows ++ t)) := by simp [beforeText]
  rw [e]
  cases hd with
  | true => exact ⟨(⟨t!"_\\/", false⟩, 2), by mstep, .inl (by decide), hc⟩
  | false =>
    cases cols with
    | some n => exact ⟨(⟨t!"_\\/", false⟩, 2), by mstep, .inl (by decide), num_run hr⟩
    | none =>
      cases rows with
      | some n => exact ⟨(⟨t!"_\\/", false⟩, 2), by mstep, .inl (by decide), num_run ht⟩
      | none => simp [before_nil] at hne

theorem bar_run {t : Str} (ht : srcM.Run 1 t) : srcM.Run 0 ('|' :: t) ∧ srcM.Run 1 ('|' :: t) ∧ srcM.Run 6 ('|' :: t) :=
  ⟨run_one (by mstep) ht, run_one (by mstep) ht, run_one (by mstep) ht⟩

theorem inside_run {U : Uni} {b : Bool} {c : Spec.TCell} (h : c.Ok U.isLu b) {t : Str} (h1 : srcM.Run 1 t) (h6 : srcM.Run 6 t) : srcM.Run 1 (c.inside ++ t) := by
  have hw : srcM.Run 6 (c.text ++ t) := words_run6 h.words.chars h6
  unfold Spec.TCell.inside
  split
  · cases hx : c.text with
    | nil => exact h1
    | cons x u =>
      refine ⟨(plainA, 6), by mstep, plainA_iff.2 (h.words.chars x (by rw [hx]; simp)), words_run6 (fun c hc => h.words.chars c (by rw [hx]; simp [hc])) h6⟩
  · rename_i hne
    have hd : srcM.Run 6 (' ' :: (c.text ++ t)) := ⟨(plainA, 6), by mstep, plainA_iff.2 (by decide), hw⟩
    unfold Spec.TCell.marks at hne ⊢
    rw [tcell_before] at hne ⊢
    simp only [List.append_assoc, List.cons_append, List.nil_append]
    by_cases hb : beforeText c.heading c.cols c.rows = []
    · rw [hb] at hne ⊢
      exact look_run h.look hd (by simp) (.inl (by simpa using hne)) (by simp)
    · exact before_run (look_run h.look hd (by simp) (.inr (by simp)) (by simp)) hb

theorem cells_run {U : Uni} {b : Bool} {t : Str} (ht : srcM.Run 1 t) : ∀ {cs : List Spec.TCell}, (∀ c ∈ cs, c.Ok U.isLu b) → 
    srcM.Run 0 (cs.flatMap Spec.TCell.source ++ '|' :: t) ∧ srcM.Run 1 (cs.flatMap Spec.TCell.source ++ '|' :: t) ∧ srcM.Run 6 (cs.flatMap Spec.TCell.source ++ '|' :: t)
  | [], _ => bar_run ht
  | c :: cs, h => by
    obtain ⟨-, h1, h6⟩ := cells_run ht (cs := cs) (fun c hc => h c (by simp [hc]))
    rw [List.flatMap_cons, Spec.TCell.source, List.append_assoc, List.cons_append]
    exact bar_run (inside_run (h c (by simp)) h1 h6)

theorem trow_run {U : Uni} {b : Bool} {r : Spec.TRow} (h : r.Ok U.isLu b) {t : Str} (ht : srcM.Run 1 t) : srcM.Run 0 (trowBody r ++ '|' :: t) := by
  have hc : srcM.Run 0 (rowCells r ++ '|' :: t) := by
    obtain ⟨h0, -, h6⟩ := cells_run ht h.cells
    unfold rowCells rowLook
    split
    · exact h0
    · rename_i hne
      simp only [List.append_assoc, List.cons_append, List.nil_append]
      exact look_run h.look (space_run h6) (by simp) (.inl hne) (by simp)
  unfold trowBody sectLine
  cases hs : r.sect with
  | none => exact hc
  | some m =>
    simp only [List.append_assoc, List.cons_append, List.nil_append]
    have h2 := look_run (h.sect m hs) (run_one (q := 6) (q' := 0) (c := '\n') (by mstep) hc) (q := 2) (by simp) (.inr (by simp)) (by simp)
    refine run_one (q' := 1) (by mstep) ⟨(⟨t!"^~->", false⟩, 2), by mstep, .inl ?_, h2⟩
    cases m.1 <;> decide

theorem trows_run {U : Uni} {b : Bool} : ∀ {rs : List Spec.TRow}, (∀ r ∈ rs, r.Ok U.isLu b) → 
    srcM.Run 1 ((rs.map (fun r => '\n' :: trowBody r)).flatMap (fun x => x ++ ['|']))
  | [], _ => rfl
  | r :: rs, h => by
    have ih := trows_run (U := U) (rs := rs) (fun r hr => h r (by simp [hr]))
    simp only [List.map_cons, List.flatMap_cons, List.append_assoc, List.cons_append, List.nil_append]
    exact run_one (q' := 0) (by mstep) (trow_run (h r (by simp)) ih)

theorem tsource_run {U : Uni} {b : Bool} {t : Spec.TTable} (h : t.Ok U.isLu b) : srcM.Run 0 t.source := by
  obtain ⟨r, rs, e⟩ := List.exists_cons_of_ne_nil h.some
  have hr := trow_run (h.rows r (by rw [e]; simp)) (trows_run (U := U) (rs := rs) (fun q hq => h.rows q (by rw [e]; simp [hq])))
  rw [tsource_eq t e]
  have hcap : srcM.Run 0 (capText t.caption ++ trowBody r ++ (['|'] ++ (rs.map (fun r => '\n' :: trowBody r)).flatMap (fun x => x ++ ['|']))) := by
    unfold capText
    cases hc : t.caption with
    | none => exact hr
    | some m =>
      obtain ⟨c1, c2, c3⟩ := h.caption m hc
      simp only [List.append_assoc, List.cons_append, List.nil_append] at hr ⊢
      have h6 := words_run6 (w := m.2) c2.words.chars (run_one (q := 6) (q' := 0) (c := '\n') (by mstep) hr)
      exact run_one (q' := 1) (by mstep) (run_one (q' := 8) (by mstep) (look_run c1 (space_run h6) (by simp) (.inr (by simp)) (fun _ => c3)))
  unfold headText
  cases hh : t.head with
  | none => exact hcap
  | some m =>
    obtain ⟨h1, h2⟩ := h.head m hh
    have hw : ∀ c ∈ (if m.2 = [] then [] else ' ' :: m.2), Spec.ordinaryChar c = true := by
      intro c hc
      split at hc
      · cases hc
      · rcases List.mem_cons.1 hc with rfl | hc
        · decide
        · exact h2.words.chars c hc
    simp only [List.append_assoc, List.cons_append, List.nil_append] at hcap ⊢
    have h6 := words_run6 hw (run_one (q := 6) (q' := 0) (c := '\n') (by mstep) hcap)
    have := look_run h1 h6 (q := 2) (by simp) (.inr (by simp)) (by simp)
    exact readB_run this (w := t!"table") (q := 0) (by decide +kernel)

/-! ## The block -/

theorem tsource_head {U : Uni} {b : Bool} {t : Spec.TTable} (h : t.Ok U.isLu b) : ∃ x u, t.source = x :: u ∧ x ∈ t!"^-~<>=([.|t" := by
  obtain ⟨r, rs, e⟩ := List.exists_cons_of_ne_nil h.some
  rw [tsource_eq t e]
  have hr := h.rows r (by rw [e]; simp)
  unfold headText capText
  cases t.head with
  | some m => exact ⟨'t', _, rfl, by decide⟩
  | none =>
    cases t.caption with
    | some m => exact ⟨'|', _, rfl, by decide⟩
    | none =>
      obtain ⟨x, u, ex⟩ := List.exists_cons_of_ne_nil (trowBody_ne hr)
      refine ⟨x, u ++ (['|'] ++ (rs.map (fun r => '\n' :: trowBody r)).flatMap (fun x => x ++ ['|'])), by rw [ex]; simp, ?_⟩
      have := trowBody_head hr (x := x) (by rw [ex]; rfl)
      exact (by decide : ∀ x ∈ t!"^-~<>=([.|", x ∈ t!"^-~<>=([.|t") x this

theorem charP_colon (r : Bool) : CharP r (· ≠ ':') where
  look := by rintro k hk x hx rfl; exact absurd (look_mem hk hx) (by decide +kernel)
  word := by rintro x hx rfl; revert hx; decide
  lit := by rintro x hx rfl; exact absurd hx (by decide)

theorem charP_cr (r : Bool) : CharP r (· ≠ '\r') where
  look := by rintro k hk x hx rfl; exact absurd (look_mem hk hx) (by decide +kernel)
  word := by rintro x hx rfl; revert hx; decide
  lit := by rintro x hx rfl; exact absurd hx (by decide)

theorem join_mem {ls : List Str} {c : Char} (h : c ∈ Spec.join t!"\n" ls) : c = '\n' ∨ ∃ l ∈ ls, c ∈ l := by
  induction ls with
  | nil => cases h
  | cons l ls ih =>
    cases ls with
    | nil => exact .inr ⟨l, by simp, by simpa [Spec.join] using h⟩
    | cons m ls =>
      rw [join_lines _ (by simp)] at h
      simp only [List.mem_append, List.mem_singleton] at h
      rcases h with (h | h) | h
      · exact .inr ⟨l, by simp, h⟩
      · exact .inl h
      · rcases ih h with h | ⟨x, hx, h⟩
        · exact .inl h
        · exact .inr ⟨x, by simp [hx], h⟩

/-- `graf` on a table. -/
theorem graf_ttable {C : Ctx} {base : Str} (D : DocCtx C base) (hlite : C.cfg.lite = false) {ok : Char → Prop} (hL : Lowers C.U ok)
    {t : Spec.TTable} (h : t.Ok C.U.isLu C.cfg.restricted) (hok : ∀ x ∈ t.chars, ok x) (σ : PState) :
    Runs C (graf C C.fuel t.source) (t.html C.cfg.restricted) σ σ := by
  obtain ⟨n, hn⟩ : ∃ n, C.fuel = n + 1 := ⟨C.fuel - 1, by have := D.fuel; omega⟩
  have hA := tsource_run h
  have hH := ttable_run h
  have hlast : ∀ c, (t.html C.cfg.restricted).getLast? = some c → c ≠ '\n' := by
    intro c hc; rw [ttable_last] at hc; cases hc; decide
  have hneed : ∀ r ∈ [RCLIST_RE, LISTS_RE, FOOTNOTE_RE, NOTEREF_RE] ++ spanPatterns, r.search C.U [] (t.html C.cfg.restricted ++ t!"\n\n") = none := fun r hr =>
    Auto.search_none D.uni hM_ok.1 (List.all_eq_true.1 hM_ok.2 r hr) (by decide) hH
  rw [hn]
  refine graf_split (runs_early (by have := D.fuel; omega)
    (fun r hr => Auto.search_none D.uni srcM_ok.1 (List.all_eq_true.1 srcM_ok.2 r (List.mem_append_left _ hr)) (by decide) hA) ?_ σ) ?_
  · refine containsStr_false_of_mem (c := ':') (by simp [D.colon]) ?_
    intro hm
    rcases join_mem hm with hm | ⟨l, hl, hm⟩
    · cases hm
    · exact (charP_colon C.cfg.restricted).tlines h l hl _ hm rfl
  unfold grafLate
  refine Runs.bind (a := t.html C.cfg.restricted ++ t!"\n\n") (σ' := σ) (Runs.unless (fun _ => runs_ttable D.uni hlite hL _ h hok σ) (by simp [hlite])) ?_
  refine Runs.bind (a := t.html C.cfg.restricted ++ t!"\n\n") (σ' := σ) ((Leaves.unless fun _ => Leaves.replaceP (hneed _ (by simp))).runs σ) ?_
  refine Runs.bind (a := t.html C.cfg.restricted ++ t!"\n\n") (σ' := σ) ((Leaves.unless fun _ => Leaves.replaceP (hneed _ (by simp))).runs σ) ?_
  refine Runs.bind ((Leaves.span fun r hr => hneed r (List.mem_append_right _ hr)).runs σ) ?_
  refine Runs.bind (a := t.html C.cfg.restricted ++ t!"\n\n") (σ' := σ) (Runs.none (hneed _ (by simp)) σ) ?_
  refine Runs.bind (a := t.html C.cfg.restricted ++ t!"\n\n") (σ' := σ) (Runs.none (hneed _ (by simp)) σ) ?_
  rw [(ttable_pieces D.uni h).glyphs D.uni hlast (by simp), trimEndP_of_last (by simpa using hlast)]
  exact Runs.pure _ _

theorem notedef_other {U : Uni} {x : Char} {t : Str} (h : x ≠ 'n') : NOTEDEF_RE.search U [] (x :: t) = none := by
  obtain ⟨r, hr⟩ : ∃ r, NOTEDEF_RE = .seq .bot (.seq (.set false [.chr 'n']) r) := ⟨_, rfl⟩
  rw [hr]
  apply Re.search_bot
  rw [all_seq_set_cons, evalSet_chr, if_neg (by simpa using h)]

/-- A table as a block of its own. -/
theorem ttable_step {C : Ctx} {base : Str} (D : DocCtx C base) (hlite : C.cfg.lite = false) {ok : Char → Prop} (hL : Lowers C.U ok)
    {t : Spec.TTable} (h : t.Ok C.U.isLu C.cfg.restricted) (hok : ∀ x ∈ t.chars, ok x) (σ : PState) : StepTo C t.source σ σ (t.html C.cfg.restricted) := by
  have h1 := graf_ttable D hlite hL h hok σ
  have hp := ttable_pieces D.uni h
  have hA := tsource_run h
  obtain ⟨x, X, hs, hx⟩ := tsource_head h
  have hx1 := (by decide : ∀ x ∈ t!"^-~<>=([.|t", isWs x = false ∧ x ≠ 'n' ∧ x ∉ t!"bnp#hf" ∧ x ≠ '\n') x hx
  refine step_of_body (o := t.html C.cfg.restricted) (by rw [hs]; exact trim_ne hx1.1) ?_ ?_
  · rw [doPBr_none (noPTag_free (hp.free (by decide)) (hp.free (by decide)))]
    exact (Broken.single hp.brFree).replace
  · intro s s1 s2 s3 s4 s5
    rw [blockBody_anonymous (tag_none_of (by rw [hs]; exact noBlock_other hx1.2.2.1)) (.inr ⟨?_, ?_⟩)]
    · rw [s2, s3, s4]
      refine ⟨{ s with tag := t!"p", atts := [], cite := none, eat := false, lastClosing := [] }, true,
        (runs_blockNew (by decide) (by rw [hs]; simp) (by rw [hs]; exact notedef_other hx1.2.1) h1).bind ?_, s1, rfl, rfl, rfl, rfl⟩
      simp only [ttable_unwrapped D.uni h]
      exact Runs.pure _ _
    · rw [hs]
      revert hx
      simp only [List.mem_cons, List.not_mem_nil, or_false]
      rintro (rfl | rfl | rfl | rfl | rfl | rfl | rfl | rfl | rfl | rfl | rfl) <;> rfl
    · exact Re.isMatch_none (Auto.search_none D.uni srcM_ok.1 (List.all_eq_true.1 srcM_ok.2 _ (by simp)) (by decide) hA)

theorem ttable_lines {U : Uni} {b : Bool} {t : Spec.TTable} (h : t.Ok U.isLu b) :
    ∃ ls, ls ≠ [] ∧ (∀ l ∈ ls, Spec.RawLine l) ∧ t.source = Spec.join t!"\n" ls := by
  refine ⟨t.lines, ?_, ?_, rfl⟩
  · obtain ⟨r, rs, e⟩ := List.exists_cons_of_ne_nil h.some
    simp [Spec.TTable.lines, e, Spec.TRow.lines]
  · intro l hl
    refine ⟨fun hm => (charP_nl b).tlines h l hl _ hm rfl, fun hm => (charP_cr b).tlines h l hl _ hm rfl, ?_⟩
    unfold Spec.TTable.lines at hl
    simp only [List.mem_append] at hl
    rcases hl with hl | hl | hl
    · cases hs : t.head with
      | none => rw [hs] at hl; cases hl
      | some m =>
        rw [hs] at hl
        rw [List.mem_singleton.1 hl]
        exact blank_not (by decide)
    · cases hs : t.caption with
      | none => rw [hs] at hl; cases hl
      | some m =>
        rw [hs] at hl
        rw [List.mem_singleton.1 hl]
        exact blank_not (by decide)
    · obtain ⟨q, hq, hl⟩ := List.mem_flatMap.1 hl
      unfold Spec.TRow.lines at hl
      rcases List.mem_append.1 hl with hl | hl
      · cases hs : q.sect with
        | none => rw [hs] at hl; cases hl
        | some m =>
          rw [hs] at hl
          rw [List.mem_singleton.1 hl]
          exact blank_not (by decide)
      · rw [List.mem_singleton.1 hl, trow_line]
        have hne : rowLook q.look ++ (q.cells.flatMap Spec.TCell.source ++ ['|']) ≠ [] := by simp
        obtain ⟨x, u, ex⟩ := List.exists_cons_of_ne_nil hne
        obtain ⟨c, cs, ec⟩ := List.exists_cons_of_ne_nil (h.rows q hq).some
        have hx : x ∈ t!"^-~<>=([.|" := by
          refine rowLook_head (k := q.look) (X := c.inside ++ (cs.flatMap Spec.TCell.source ++ ['|'])) ?_
          rw [show rowLook q.look ++ '|' :: (c.inside ++ (cs.flatMap Spec.TCell.source ++ ['|'])) = x :: u by rw [← ex, ec]; simp [Spec.TCell.source]]
          rfl
        rw [ex]
        exact blank_not (look_ws x hx)

theorem act_ttable {C : Ctx} {base : Str} (D : DocCtx C base) (hlite : C.cfg.lite = false) {ok : Char → Prop} (hL : Lowers C.U ok)
    {t : Spec.TTable} (h : t.Ok C.U.isLu C.cfg.restricted) (hok : ∀ x ∈ t.chars, ok x) (P : PState → Prop) :
    Act C P P t.source 0 (t.html C.cfg.restricted) where
  lines := ttable_lines h
  first := by
    obtain ⟨x, X, hs, hx⟩ := tsource_head h
    exact ⟨_, _, hs, (by decide : ∀ x ∈ t!"^-~<>=([.|t", isWs x = false) x hx⟩
  run := by
    intro σ hP hd
    have hp := ttable_pieces D.uni h
    refine ⟨σ, _, t.html C.cfg.restricted, ttable_step D hlite hL h hok σ, Grows.of_same rfl rfl rfl rfl rfl, hP, by omega, ?_, ?_, ?_⟩
    · intro τ _ _
      rw [D.uid]
      exact hp.rep
    · exact not_contains_of_free (by simp) (hp.free (by decide))
    · exact fun r _ => tidyBreaks_free (hp.free (by decide))
  ending := by
    have := ttable_last C.cfg.restricted t
    refine ⟨?_, by rw [this]; simp⟩
    intro e; rw [e] at this; cases this

/-! ## Documents -/

/-- The text of a block as it is seen. -/
def ttSeen (restricted : Bool) : Spec.TtBlock → Str
  | .other b => imBlockSeen restricted b
  | .table t => t.source

def ttKinds (cfg : Cfg) (base : Str) : Kinds Spec.TtBlock where
  src := Spec.TtBlock.source
  seen := ttSeen cfg.restricted
  marks := Spec.TtBlock.marks
  html := fun N M b => b.html cfg.brTag cfg.restricted (useAlignClass cfg) base N M
  numbers := fun N b => b.numbers N cfg.restricted
  notes := fun M b => b.notes M cfg.restricted

theorem tt_seen {C : Ctx} (hU : UniOk C.U) {b : Spec.TtBlock} (h : b.Ok C.U.isLu C.U.isNd C.cfg.lite C.cfg.restricted) :
    (if C.cfg.restricted then encodeHtml b.source false false else b.source) = ttSeen C.cfg.restricted b := by
  cases b with
  | other b => exact imBlock_seen hU h
  | table t =>
    by_cases hr : C.cfg.restricted = true
    · rw [if_pos hr]
      have h2 : t.Ok C.U.isLu true := by rw [← hr]; exact h.2
      refine enc_id ?_
      intro c hc
      rcases join_mem hc with rfl | ⟨l, hl, hm⟩
      · decide
      · exact charP_enc.tlines h2 l hl _ hm
    · rw [if_neg hr]
      rfl

/-- What `parse` makes of documents with such tables. -/
theorem parse_ttables {E : Env} {fuel : Nat} {cfg : Cfg} {base : Str} (D : DocCtx ⟨E, cfg, fuel⟩ base) (hp : cfg.linkPrefix = base ++ t!"-")
    (hz : cfg.getSizes = false) (hno : cfg.noimage = false)
    (hbt : cfg.blockTags = true) (hsan : cfg.sanitizer = none) (hdep : 1 ≤ cfg.maxSpanDepth) {ok : Char → Prop}
    (ha : ∀ c, c.toNat < 128 → ok c) (hL : Lowers E.U ok) {ds : List (Spec.TtBlock × Nat)}
    (hne : ds ≠ []) (h : ∀ d ∈ ds, d.1.Ok E.U.isLu E.U.isNd cfg.lite cfg.restricted) (hc : ∀ d ∈ ds, ∀ c ∈ d.1.chars, ok c)
    (hR : ∀ d ∈ ds, d.1.Resolved (Spec.Resolves E.urlParse E.urlJoin cfg.restricted) (Spec.Reads E.urlParse E.urlJoin) cfg.rel)
    (htok : ¬ cfg.uid <:+: Spec.ttSource ds) (hn : 2 * Spec.ttMarks ds < 2 ^ 32) :
    parseFresh E fuel cfg (Spec.ttSource ds) = .ok (Spec.ttDocHtml cfg.brTag cfg.restricted (useAlignClass cfg) base ds) := by
  have := parse_kinds D hbt hsan hdep (β := Spec.TtBlock)
    (ttKinds cfg base) hne
    (fun d hd => tt_seen (C := ⟨E, cfg, fuel⟩) D.uni (h d hd))
    (fun d hd h1 h2 N M => by
      obtain ⟨b, k⟩ := d
      cases b with
      | other b => exact act_im D hp hz hno ha hL (h _ hd) (hc _ hd) (hR _ hd) h1 h2 N M
      | table t => exact act_ttable D (h _ hd).1 hL (h _ hd).2 (hc _ hd) _) htok hn
  have e : ∀ (ds : List (Spec.TtBlock × Nat)) N M, Kinds.docHtml (ttKinds cfg base) N M ds =
      Spec.ttHtml cfg.brTag cfg.restricted (useAlignClass cfg) base N M ds := by
    intro ds
    induction ds with
    | nil => intro _ _; rfl
    | cons d ds ih => intro N M; simp only [Kinds.docHtml, Spec.ttHtml, ih]; rfl
  rw [e] at this
  exact this

end Rustextile
