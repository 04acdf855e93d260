import Verif.CellAtts
import Verif.PatternsCheck

/-!
# Recognising tables with attributes

What the expressions of table.rs:72-100 and parser.rs:746-754 find in the source of a table
with attributes.
-/

namespace Rustextile

open Prog

theorem all_assoc {U : Uni} {a b c : Re} {p : Cur} {s : Caps} : (Re.seq (.seq a b) c).all U p s = (Re.seq a (.seq b c)).all U p s := by
  simp only [all_seq, List.flatMap_assoc]

theorem Heads.assoc {U : Uni} {a b c : Re} {pre w rest : Str} {s s' : Caps} (h : Heads U (.seq (.seq a b) c) pre w rest s s') :
    Heads U (.seq a (.seq b c)) pre w rest s s' := by
  obtain ⟨l, hl⟩ := h
  exact ⟨l, by rw [← hl, all_assoc]⟩

theorem Heads.congr {U : Uni} {a b : Re} {pre w rest : Str} {s s' : Caps} (h : Heads U a pre w rest s s') (e : b.all U ⟨pre, w ++ rest⟩ s = a.all U ⟨pre, w ++ rest⟩ s) :
    Heads U b pre w rest s s' := by
  obtain ⟨l, hl⟩ := h
  exact ⟨l, by rw [e, hl]⟩

theorem look_nodot {r : Bool} {k : Spec.Look} (h : k.Ok r) : '.' ∉ k.source ∧ '|' ∉ k.source ∧ '\n' ∉ k.source ∧ '\\' ∉ k.source ∧ '/' ∉ k.source ∧ '_' ∉ k.source := by
  refine ⟨?_, ?_, ?_, ?_, ?_, ?_⟩ <;> exact fun hm => absurd (look_mem h hm) (by decide +kernel)

theorem look_ne_dot {r : Bool} {k : Spec.Look} (h : k.Ok r) {K : Re} {U : Uni} {c : Char} {v q rest : Str} {s : Caps} (hc : ∀ x ∈ c :: v, x ∈ k.source) :
    (Re.seq (chrRe '.') K).all U ⟨q, c :: (v ++ '.' :: rest)⟩ s = [] := by
  have : c ≠ '.' := by rintro rfl; exact (look_nodot h).1 (hc '.' (by simp))
  simp [all_seq_set_cons, evalSet_chr, this]

/-- Attributes and the point. -/
theorem look_headD {k : Spec.Look} {T : Str} {x : Char} (h : (k.source ++ '.' :: T).head? = some x) : x ∈ t!"^-~<>=([." := by
  refine (look_head (k := k) (z := t!". ") (.inr rfl) (x := x) ?_).1
  cases hs : k.source with
  | nil => rw [hs] at h; exact h
  | cons c w => rw [hs] at h; exact h

theorem span_look {U : Uni} {k : Spec.Look} {pre T : Str} (s : Caps) :
    (Re.star true spanRe).all U ⟨pre, k.source ++ '.' :: T⟩ s = [(⟨pre, k.source ++ '.' :: T⟩, s)] :=
  span_quiet (fun _ hx => (by decide : ∀ x ∈ t!"^-~<>=([.", x ∉ t!"\\/") _ (look_headD hx)) s

theorem atts_look {U : Uni} {k : Spec.Look} {pre T : Str} (s : Caps) :
    attsRe.all U ⟨pre, k.source ++ '.' :: T⟩ s = lookRe.all U ⟨pre, k.source ++ '.' :: T⟩ s := by
  unfold attsRe lookRe
  rw [all_seq, span_look]
  simp

/-- A group of attributes before the point. -/
theorem Heads.attsGrp {U : Uni} {r : Bool} {k : Spec.Look} (h : k.Ok r) {n : Nat} {K : Re} {pre w rest : Str} {s s' : Caps} (hp : pre.head? ≠ some '<')
    (hK : Heads U (.seq (chrRe '.') K) (k.source.reverse ++ pre) ('.' :: w) rest ((n, k.source) :: s) s') :
    Heads U (.seq (.grp n attsRe) (.seq (chrRe '.') K)) pre (k.source ++ '.' :: w) rest s s' := by
  refine (Heads.lookGrp h hp hK (fun c v q s hc => look_ne_dot h hc)).congr ?_
  rw [all_seq, all_seq]
  simp only [List.append_assoc, List.cons_append, Re.all.eq_def (U := U) (Re.grp _ _), atts_look]

/-! ## The caption -/

theorem CAPTION_shape : CAPTION_RE = .seq .bot (.seq (chrRe '|') (.seq (chrRe '=') (.seq (.grp 1 attsRe) (.seq (chrRe '.') (.seq (chrRe ' ')
    (.seq (.grp 2 (.star true (.set true [.chr '\n']))) (.grp 3 anysRe))))))) := by kernel_rfl

theorem caption_some {U : Uni} {r : Bool} {k : Spec.Look} (h : k.Ok r) {cap R : Str} (hc : '\n' ∉ cap) :
    CAPTION_RE.captures U (t!"|=" ++ (k.source ++ (t!". " ++ (cap ++ '\n' :: R)))) =
      some ⟨[], t!"|=" ++ (k.source ++ (t!". " ++ (cap ++ '\n' :: R))), [(3, '\n' :: R), (2, cap), (1, k.source)]⟩ := by
  have hh : Heads U CAPTION_RE [] ([] ++ (['|'] ++ (['='] ++ (k.source ++ '.' :: (' ' :: (cap ++ '\n' :: R)))))) [] [] [(3, '\n' :: R), (2, cap), (1, k.source)] := by
    rw [CAPTION_shape]
    refine .seq .bot (.seq .chr (.seq .chr (Heads.attsGrp h (by simp) ?_)))
    refine Heads.seq (u := ['.']) (v := ' ' :: (cap ++ '\n' :: R)) .chr (Heads.seq (u := [' ']) (v := cap ++ '\n' :: R) .chr
      (Heads.seq (s1 := [(2, cap), (1, k.source)]) (.grp (.star ?_ ?_)) (.grp .any)))
    · intro x hx; exact evalSet_not (by rintro rfl; exact hc hx)
    · intro x hx; simp at hx; subst hx; exact evalSet_not_self
  have := Re.search_hit hh.matchAt
  exact Re.captures_eq (rest := []) (by simpa using this) (by simp)

theorem caption_other {U : Uni} {t : Str} (h : ¬ t!"|=" <+: t) : CAPTION_RE.captures U t = none := by
  rw [CAPTION_shape]
  refine Re.captures_none (Re.search_bot ?_)
  cases t with
  | nil => rfl
  | cons x t =>
    by_cases hx : x = '|'
    · subst hx
      cases t with
      | nil => simp [all_seq_set_cons, evalSet_chr, Re.all]
      | cons y t =>
        have : y ≠ '=' := by rintro rfl; exact h ⟨t, rfl⟩
        simp [all_seq_set_cons, evalSet_chr, this]
    · simp [all_seq_set_cons, evalSet_chr, hx]

/-! ## Sections -/

theorem sect_lang_nl {U : Uni} {w : Str} (h : sectRe.lang U w) : '\n' ∈ w := by
  unfold sectRe at h
  obtain ⟨_, w, rfl, -, h⟩ := h
  obtain ⟨_, w, rfl, -, h⟩ := h
  obtain ⟨_, w, rfl, -, h⟩ := h
  obtain ⟨_, w, rfl, -, h⟩ := h
  obtain ⟨_, w, rfl, -, h⟩ := h
  obtain ⟨_, w, rfl, -, h⟩ := h
  obtain ⟨_, w, rfl, -, h⟩ := h
  obtain ⟨_, w, rfl, -, h⟩ := h
  rw [lang_chr.1 h]
  simp

theorem group_other {U : Uni} {t : Str} (h : '\n' ∉ t) : GRPMATCH_RE.captures U t = some ⟨[], t, [(4, t)]⟩ := by
  have hH : Heads U GRPMATCH_RE [] ([] ++ ([] ++ t)) [] [] [(4, t)] := by
    rw [GRPMATCH_shape]
    refine .seq (.right ?_ .eps) (.seq .bol (.grp .any))
    have : sectRe.all U ⟨[], t⟩ [] = [] := by
      cases hl : sectRe.all U ⟨[], t⟩ [] with
      | nil => rfl
      | cons p l =>
        obtain ⟨w, hw, lw⟩ := Re.all_lang sectRe ⟨[], t⟩ [] p (by rw [hl]; simp)
        have e : t = w ++ p.1.rest := hw.1
        exact absurd (by rw [e]; simp [sect_lang_nl lw]) h
    simp [Re.all, this]
  have := Re.search_hit hH.matchAt
  exact Re.captures_eq (rest := []) (by simpa using this) (by simp)

theorem group_look {U : Uni} {r : Bool} {k : Spec.Look} (h : k.Ok r) {m : Spec.Sect} {t : Str} (ht : ∀ c, t.head? = some c → isWs c = false) :
    ∃ s, GRPMATCH_RE.captures U ('|' :: m.mark :: (k.source ++ '.' :: '\n' :: t)) = some ⟨[], '|' :: m.mark :: (k.source ++ '.' :: '\n' :: t), s⟩ ∧
      alLookup 2 s = some [m.mark] ∧ alLookup 3 s = some k.source ∧ alLookup 4 s = some t := by
  have hsect : Heads U sectRe [] ([] ++ ([] ++ (['|'] ++ ([m.mark] ++ (k.source ++ '.' :: ['\n']))))) t [] [(3, k.source), (2, [m.mark])] := by
    unfold sectRe
    refine .seq (.opt (by simp)) (.seq .bol (.seq .chr (.seq (s1 := [(2, [m.mark])]) (.grp (.set ?_)) (.attsGrp h ?_ ?_))))
    · cases m <;> simp [evalSet, Item.eval_chr, Spec.Sect.mark]
    · cases m <;> simp [Spec.Sect.mark]
    · refine Heads.seq (u := ['.']) (v := ['\n']) .chr ?_
      have hs : evalSet U false spaceIt '\n' = true := rfl
      refine ⟨[], ?_⟩
      rw [all_seq]
      simp only [List.cons_append, List.nil_append]
      rw [all_star_cons]
      cases t with
      | nil => rw [all_star_nil]; simp [hs, Re.all, evalSet_chr]
      | cons x t =>
        have hs' : evalSet U false spaceIt x = false := by
          have := ht x rfl
          simpa [evalSet, spaceIt, Item.eval, UC.eval] using this
        rw [all_star_cons]
        have hx : x ≠ '\n' := by rintro rfl; have := ht '\n' rfl; revert this; decide
        simp [hs, hs', Re.all, evalSet_chr, hx]
  refine ⟨[(4, t), (1, '|' :: m.mark :: (k.source ++ ['.', '\n'])), (3, k.source), (2, [m.mark])], ?_, by simp [alLookup], by simp [alLookup], by simp [alLookup]⟩
  have hH : Heads U GRPMATCH_RE [] (('|' :: m.mark :: (k.source ++ ['.', '\n'])) ++ ([] ++ t)) [] [] [(4, t), (1, '|' :: m.mark :: (k.source ++ ['.', '\n'])), (3, k.source), (2, [m.mark])] := by
    rw [GRPMATCH_shape]
    refine .seq (s1 := [(1, '|' :: m.mark :: (k.source ++ ['.', '\n'])), (3, k.source), (2, [m.mark])]) (.left (.grp ?_)) (.seq ?_ (.grp .any))
    · simpa using hsect
    · exact ⟨[], by simp [Re.all]⟩
  have := Re.search_hit hH.matchAt
  exact Re.captures_eq (rest := []) (by simpa using this) (by simp)

/-! ## Rows -/

theorem row_look {U : Uni} {r : Bool} {k : Spec.Look} (h : k.Ok r) {t : Str} (ht : '\n' ∉ t) :
    RMTCH_RE.captures U (k.source ++ (t!". " ++ t)) = some ⟨[], k.source ++ (t!". " ++ t), [(2, t), (1, k.source ++ t!". ")]⟩ := by
  have hH : Heads U RMTCH_RE [] ([] ++ ((k.source ++ '.' :: [' ']) ++ t)) [] [] [(2, t), (1, k.source ++ t!". ")] := by
    rw [RMTCH_shape]
    refine .seq .bot (.seq (s1 := [(1, k.source ++ t!". ")]) (.grp (Heads.assoc ?_)) (.grp (.star ?_ (by simp))))
    · exact Heads.look h (by simp) (Heads.seq (u := ['.']) (v := [' ']) .chr .chr) (fun c v q hc => look_ne_dot h hc)
    · intro x hx; exact evalSet_not (by rintro rfl; exact ht hx)
  have := Re.search_hit hH.matchAt
  exact Re.captures_eq (rest := []) (by simpa using this) (by simp)

/-! ## Cells -/

theorem span_shape : spanRe = .alt (.seq (chrRe '\\') (.seq (.set false digitIt) (.star true (.set false digitIt))))
    (.seq (chrRe '/') (.seq (.set false digitIt) (.star true (.set false digitIt)))) := by kernel_rfl

theorem span_heads {U : Uni} (hU : UniOk U) {c : Char} (hc : c ∈ t!"\\/") {n : Nat} {pre rest : Str} {s : Caps}
    (hr : ∀ x, rest.head? = some x → x.toNat < 128 ∧ x ∉ t!"0123456789") : Heads U spanRe pre (c :: natStr n) rest s s := by
  have hp : ∀ pre, Heads U (.seq (.set false digitIt) (.star true (.set false digitIt))) pre (natStr n) rest s s := fun pre =>
    .plus (natStr_ne_nil n) (fun x hx => dig_eval hU (natStr_mem hx)) (fun x hx => digit_not hU (hr x hx).1 (hr x hx).2)
  rw [span_shape]
  simp at hc
  rcases hc with rfl | rfl
  · exact .left (Heads.seq (u := ['\\']) (v := natStr n) .chr (hp _))
  · exact .right (by simp [all_seq_set_cons, evalSet_chr]) (Heads.seq (u := ['/']) (v := natStr n) .chr (hp _))

theorem Heads.more {U : Uni} {r : Re} (hr : r.nonnull = true) {pre u v rest : Str} {s s1 s' : Caps} (hne : u ≠ []) (h1 : Heads U r pre u (v ++ rest) s s1)
    (h2 : Heads U (.star true r) (u.reverse ++ pre) v rest s1 s') : Heads U (.star true r) pre (u ++ v) rest s s' := by
  obtain ⟨l1, e1⟩ := h1
  obtain ⟨l2, e2⟩ := h2
  obtain ⟨c, u, rfl⟩ := List.exists_cons_of_ne_nil hne
  refine ⟨l2 ++ l1.flatMap (fun p => starAll (r.all U) true (u ++ (v ++ rest)) p.1 p.2) ++ [(⟨pre, c :: u ++ v ++ rest⟩, s)], ?_⟩
  have hf := starAll_fuel (fun c s p hp => Re.nonnull_shorter (U := U) hr c s p hp) true (u ++ (v ++ rest)) (v ++ rest)
    ⟨(c :: u).reverse ++ pre, v ++ rest⟩ s1 (by simp) (Nat.le_refl _)
  simp only [Re.all] at e2
  simp only [Re.all, List.append_assoc, List.cons_append, starAll, if_true] at e1 ⊢
  rw [e1]
  simp only [List.flatMap_cons]
  rw [hf, e2]
  simp

theorem span_nonnull : spanRe.nonnull = true := by decide

/-- The numbers of columns and rows. -/
theorem spans_heads {U : Uni} (hU : UniOk U) {cols rows : Option Nat} {k : Spec.Look} {T pre : Str} {s : Caps} :
    Heads U (.star true spanRe) pre (spanText '\\' cols ++ spanText '/' rows) (k.source ++ '.' :: T) s s := by
  have hd : ∀ x, (k.source ++ '.' :: T).head? = some x → x.toNat < 128 ∧ x ∉ t!"0123456789" := fun x hx =>
    (by decide : ∀ x ∈ t!"^-~<>=([.", x.toNat < 128 ∧ x ∉ t!"0123456789") x (look_headD hx)
  have h0 : ∀ pre, Heads U (.star true spanRe) pre [] (k.source ++ '.' :: T) s s := fun pre => .of_eq (span_look s)
  have h1 : ∀ pre, Heads U (.star true spanRe) pre (spanText '/' rows) (k.source ++ '.' :: T) s s := by
    intro pre
    cases rows with
    | none => exact h0 pre
    | some n =>
      have := Heads.more span_nonnull (u := '/' :: natStr n) (v := []) (by simp) (span_heads hU (by decide) hd) (h0 _) (pre := pre) (s := s)
      simpa [spanText] using this
  cases cols with
  | none => simpa [spanText] using h1 pre
  | some n =>
    refine Heads.more span_nonnull (u := '\\' :: natStr n) (by simp) (span_heads hU (by decide) ?_) (h1 _)
    intro x hx
    cases rows with
    | none => exact hd x (by simpa [spanText] using hx)
    | some m => simp [spanText] at hx; subst hx; decide

theorem cell_look {U : Uni} (hU : UniOk U) {r : Bool} {k : Spec.Look} (h : k.Ok r) {hd : Bool} {cols rows : Option Nat} {t : Str} :
    CMTCH_RE.captures U (beforeText hd cols rows ++ (k.source ++ (t!". " ++ t))) =
      some ⟨[], beforeText hd cols rows ++ (k.source ++ (t!". " ++ t)), [(2, t), (1, beforeText hd cols rows ++ (k.source ++ t!". "))]⟩ := by
  have hpre : ∀ w : Str, (∀ c ∈ w, c ∈ t!"_\\/0123456789") → (w.reverse).head? ≠ some '<' := by
    intro w hw e
    have := List.mem_of_head? e
    exact absurd (hw '<' (by simpa using this)) (by decide)
  have h1 : Heads U (.alt (chrRe '_') .eps) [] (if hd then ['_'] else []) ((spanText '\\' cols ++ spanText '/' rows) ++ (k.source ++ '.' :: ' ' :: t)) [] [] := by
    cases hd with
    | true => exact .left .chr
    | false =>
      refine .opt ?_
      intro e
      cases cols with
      | some n => simp [spanText] at e
      | none =>
        cases rows with
        | some n => simp [spanText] at e
        | none =>
          simp only [spanText, List.nil_append] at e
          exact absurd (look_headD e) (by decide)
  have hin : Heads U (.seq (.alt (chrRe '_') .eps) (.seq (.star true spanRe) (.seq (.star true alignRe) (.seq groupsRe (.seq (chrRe '.') (chrRe ' '))))))
      [] ((if hd then ['_'] else []) ++ ((spanText '\\' cols ++ spanText '/' rows) ++ (k.source ++ '.' :: [' ']))) t [] [] := by
    refine .seq (by simpa using h1) (.seq (by simpa using spans_heads hU) (Heads.assoc ?_))
    refine Heads.look h ?_ (Heads.seq (u := ['.']) (v := [' ']) .chr .chr) (fun c v q hc => look_ne_dot h hc)
    have := hpre (beforeText hd cols rows) (fun c hc => beforeText_mem hc)
    simpa [beforeText] using this
  have hH : Heads U CMTCH_RE [] ([] ++ ((beforeText hd cols rows ++ (k.source ++ t!". ")) ++ t)) [] [] [(2, t), (1, beforeText hd cols rows ++ (k.source ++ t!". "))] := by
    rw [CMTCH_shape]
    refine .seq .bot (.seq (s1 := [(1, beforeText hd cols rows ++ (k.source ++ t!". "))]) (.grp ?_) (.grp .any))
    simpa [beforeText] using hin
  have := Re.search_hit hH.matchAt
  exact Re.captures_eq (rest := []) (by simpa using this) (by simp)

theorem heading_look {U : Uni} {cols rows : Option Nat} {k : Spec.Look} {t : Str} :
    HEADING_RE.isMatch U (beforeText true cols rows ++ (k.source ++ (t!". " ++ t))) = true := by
  obtain ⟨x, y, e, hx⟩ : ∃ x y, beforeText true cols rows ++ (k.source ++ (t!". " ++ t)) = '_' :: x :: y ∧ x ∈ t!"\\/^-~<>=([." := by
    cases cols with
    | some n => exact ⟨_, _, rfl, by decide⟩
    | none =>
      cases rows with
      | some n => exact ⟨_, _, rfl, by decide⟩
      | none =>
        cases hs : k.source ++ (t!". " ++ t) with
        | nil => simp at hs
        | cons x y =>
          refine ⟨x, y, rfl, ?_⟩
          have := look_headD (k := k) (T := ' ' :: t) (x := x) (by rw [show k.source ++ '.' :: ' ' :: t = x :: y from hs]; rfl)
          exact (by decide : ∀ x ∈ t!"^-~<>=([.", x ∈ t!"\\/^-~<>=([.") x this
  have : Heads U HEADING_RE [] ([] ++ (['_'] ++ [])) (x :: y) [] [] := by
    rw [HEADING_shape]
    refine .seq .bot (.seq .chr ?_)
    refine ⟨[], ?_⟩
    have h1 : evalSet U false spaceIt x = false := by
      have : isWs x = false := (by decide : ∀ x ∈ t!"\\/^-~<>=([.", isWs x = false) x hx
      simpa [evalSet, spaceIt, Item.eval, UC.eval] using this
    have h2 : evalSet U false (t!"-!\"#$%&()*+,/:;<=>?@'[\\].^_`{|}~".map .chr) x = true :=
      evalSet_mem ((by decide : ∀ x ∈ t!"\\/^-~<>=([.", (t!"-!\"#$%&()*+,/:;<=>?@'[\\].^_`{|}~".map Item.chr).contains (.chr x) = true) x hx)
    simp only [List.reverse_cons, List.reverse_nil, List.nil_append, List.append_nil, Re.all, h1, h2]
    simp
  rw [e]
  unfold Re.isMatch
  rw [show '_' :: x :: y = ([] ++ (['_'] ++ [])) ++ x :: y by simp, Re.search_hit this.matchAt]
  rfl

/-! ## The whole table -/

def rowsRe : Re := .seq (.star true alignRe) (.seq groupsRe (.seq (.alt (chrRe '.') .eps) (.seq (.alt (chrRe ' ') .eps)
  (.seq (chrRe '|') (.seq anysRe (chrRe '|'))))))

def headRe : Re := .seq (chrRe 't') (.seq (chrRe 'a') (.seq (chrRe 'b') (.seq (chrRe 'l') (.seq (chrRe 'e')
    (.seq (.grp 1 (.seq (.alt (chrRe '_') .eps) attsRe)) (.seq (chrRe '.') (.seq (.grp 2 (.star false (.set true []))) (chrRe '\n'))))))))

theorem TABLE_parts : TABLE_RE = .seq .bol (.seq (.alt headRe .eps) (.seq .bol (.seq (.grp 3 rowsRe)
    (.seq (.star true (.set false spaceIt)) (.seq (chrRe '\n') (chrRe '\n')))))) := TABLE_shape

/-- Attributes of a row. -/
def rowLook (k : Spec.Look) : Str := if k.source = [] then [] else k.source ++ t!". "

theorem bars_heads {U : Uni} {X pre : Str} {s : Caps} : Heads U (.seq (chrRe '|') (.seq anysRe (chrRe '|'))) pre ('|' :: (X ++ ['|'])) t!"\n\n" s s := by
  refine Heads.seq (u := ['|']) .chr (.lastU .chr ?_)
  intro u v p s hu e
  cases u with
  | nil => exact absurd rfl hu
  | cons a u =>
    simp only [List.cons_append, List.nil_append, List.cons.injEq] at e
    have hv : '|' ∉ v := fun hm => by
      have : '|' ∈ u ++ v := by simp [hm]
      rw [← e.2] at this
      exact absurd this (by decide)
    cases v with
    | nil => rfl
    | cons y v =>
      have : y ≠ '|' := by rintro rfl; exact hv (by simp)
      simp [all_set_cons, evalSet_chr, this]

theorem rows_heads {U : Uni} {r : Bool} {k : Spec.Look} (h : k.Ok r) {X pre : Str} {s : Caps} (hp : pre.head? ≠ some '<') :
    Heads U rowsRe pre (rowLook k ++ '|' :: (X ++ ['|'])) t!"\n\n" s s := by
  unfold rowsRe rowLook
  split
  · have hq := fun pre rest s => attrs_quiet (U := U) (pre := pre) (rest := '|' :: rest) (fun c h => bar_quiet _ (by decide) h) s
    have : Heads U (.seq (.star true alignRe) (.seq groupsRe (.seq (.alt (chrRe '.') .eps) (.seq (.alt (chrRe ' ') .eps)
      (.seq (chrRe '|') (.seq anysRe (chrRe '|'))))))) pre ([] ++ ([] ++ ([] ++ ([] ++ ('|' :: (X ++ ['|'])))))) t!"\n\n" s s :=
      .seq (.of_eq (hq _ _ _).1) (.seq (.of_eq (hq _ _ _).2.2) (.seq (.opt (by simp)) (.seq (.opt (by simp)) bars_heads)))
    simpa using this
  · refine Heads.assoc ?_
    have := Heads.look (U := U) h (K := .seq (.alt (chrRe '.') .eps) (.seq (.alt (chrRe ' ') .eps) (.seq (chrRe '|') (.seq anysRe (chrRe '|')))))
      (pre := pre) (w := ' ' :: '|' :: (X ++ ['|'])) (rest := t!"\n\n") (s := s) (s' := s) hp ?_ ?_
    · rw [show Re.seq (.star true alignRe) groupsRe = lookRe from rfl]
      simpa using this
    · exact Heads.seq (u := ['.']) (v := ' ' :: '|' :: (X ++ ['|'])) (.left .chr) (Heads.seq (u := [' ']) (.left .chr) bars_heads)
    · intro c v q hc
      have h1 : c ≠ '.' := by rintro rfl; exact (look_nodot h).1 (hc _ (by simp))
      have h2 : c ≠ '|' := by rintro rfl; exact (look_nodot h).2.1 (hc _ (by simp))
      have h3 : ∀ z : Str, ∀ p, (Re.seq (chrRe '|') (.seq anysRe (chrRe '|'))).all U ⟨p, v ++ '.' :: z⟩ s = [] := by
        intro z p
        cases v with
        | nil => simp [all_seq_set_cons, evalSet_chr]
        | cons y v =>
          have : y ≠ '|' := by rintro rfl; exact (look_nodot h).2.1 (hc _ (by simp))
          simp [all_seq_set_cons, evalSet_chr, this]
      have h4 : ∀ z : Str, ∀ p, (Re.seq (chrRe '|') (.seq anysRe (chrRe '|'))).all U ⟨p, c :: z⟩ s = [] := by
        intro z p
        simp [all_seq_set_cons, evalSet_chr, h2]
      rw [all_seq]
      have e1 : (Re.alt (chrRe '.') .eps).all U ⟨q, c :: (v ++ '.' :: ((' ' :: '|' :: (X ++ ['|'])) ++ t!"\n\n"))⟩ s =
          [(⟨q, c :: (v ++ '.' :: ((' ' :: '|' :: (X ++ ['|'])) ++ t!"\n\n"))⟩, s)] := by
        simp [Re.all, evalSet_chr, h1]
      rw [e1]
      simp only [List.flatMap_cons, List.flatMap_nil, List.append_nil]
      rw [all_seq]
      by_cases hsp : c = ' '
      · subst hsp
        have e2 : (Re.alt (chrRe ' ') .eps).all U ⟨q, ' ' :: (v ++ '.' :: ((' ' :: '|' :: (X ++ ['|'])) ++ t!"\n\n"))⟩ s =
            [(⟨' ' :: q, v ++ '.' :: ((' ' :: '|' :: (X ++ ['|'])) ++ t!"\n\n")⟩, s), (⟨q, ' ' :: (v ++ '.' :: ((' ' :: '|' :: (X ++ ['|'])) ++ t!"\n\n"))⟩, s)] := by
          simp [Re.all, evalSet_chr]
        rw [e2]
        simp only [List.flatMap_cons, List.flatMap_nil, List.append_nil, h3, h4]
      · have e2 : (Re.alt (chrRe ' ') .eps).all U ⟨q, c :: (v ++ '.' :: ((' ' :: '|' :: (X ++ ['|'])) ++ t!"\n\n"))⟩ s =
            [(⟨q, c :: (v ++ '.' :: ((' ' :: '|' :: (X ++ ['|'])) ++ t!"\n\n"))⟩, s)] := by
          simp [Re.all, evalSet_chr, hsp]
        rw [e2]
        simp only [List.flatMap_cons, List.flatMap_nil, List.append_nil, h4]

theorem rowLook_head {k : Spec.Look} {X : Str} {x : Char} (h : (rowLook k ++ '|' :: X).head? = some x) : x ∈ t!"^-~<>=([.|" := by
  unfold rowLook at h
  split at h
  · simp at h; subst h; decide
  · have : ((k.source ++ '.' :: (' ' :: '|' :: X))).head? = some x := by simpa using h
    exact (by decide : ∀ x ∈ t!"^-~<>=([.", x ∈ t!"^-~<>=([.|") x (look_headD this)

theorem table_plainHead {U : Uni} {r : Bool} {k : Spec.Look} (h : k.Ok r) {X : Str} :
    TABLE_RE.captures U ((rowLook k ++ '|' :: (X ++ ['|'])) ++ t!"\n\n") =
      some ⟨[], (rowLook k ++ '|' :: (X ++ ['|'])) ++ t!"\n\n", [(3, rowLook k ++ '|' :: (X ++ ['|']))]⟩ := by
  have hh : Heads U TABLE_RE [] ([] ++ ([] ++ ([] ++ ((rowLook k ++ '|' :: (X ++ ['|'])) ++ t!"\n\n")))) [] [] [(3, rowLook k ++ '|' :: (X ++ ['|']))] := by
    rw [TABLE_parts]
    refine .seq .bol (.seq (.right ?_ .eps) (.seq .bol (.seq (s1 := [(3, rowLook k ++ '|' :: (X ++ ['|']))]) (.grp (rows_heads h (by simp))) two_newlines)))
    cases ht : rowLook k ++ '|' :: (X ++ ['|']) with
    | nil => simp at ht
    | cons x y =>
      have hx := rowLook_head (k := k) (X := X ++ ['|']) (x := x) (by rw [ht]; rfl)
      have : x ≠ 't' := by rintro rfl; exact absurd hx (by decide)
      simp [headRe, all_seq_set_cons, evalSet_chr, this]
  have := Re.search_hit hh.matchAt
  exact Re.captures_eq (rest := []) (by simpa using this) (by simp)

theorem lazy_line {U : Uni} {R : Str} {s : Caps} : ∀ {t pre : Str}, '\n' ∉ t → ∃ l1 l2,
    (Re.star false (.set true [])).all U ⟨pre, t ++ '\n' :: R⟩ s = l1 ++ (⟨t.reverse ++ pre, '\n' :: R⟩, s) :: l2 ∧
      ∀ p ∈ l1, ∃ x y, x ≠ '\n' ∧ p.1.rest = x :: y
  | [], pre, _ => ⟨[], _, by rw [List.nil_append, all_star_cons]; rfl, by simp⟩
  | c :: t, pre, h => by
    simp only [List.mem_cons, not_or] at h
    obtain ⟨l1, l2, h1, h2⟩ := lazy_line (U := U) (R := R) (s := s) (t := t) (pre := c :: pre) h.2
    refine ⟨(⟨pre, c :: (t ++ '\n' :: R)⟩, s) :: l1, l2, ?_, ?_⟩
    · have hv : evalSet U true [] c = true := rfl
      rw [List.cons_append, all_star_cons, hv, h1]
      simp
    · intro p hp
      rcases List.mem_cons.1 hp with rfl | hp
      · exact ⟨c, _, fun e => h.1 e.symm, rfl⟩
      · exact h2 p hp

theorem Heads.line {U : Uni} {n : Nat} {t pre rest : Str} {s : Caps} (h : '\n' ∉ t) :
    Heads U (.seq (.grp n (.star false (.set true []))) (chrRe '\n')) pre (t ++ ['\n']) rest s ((n, t) :: s) := by
  obtain ⟨l1, l2, h1, h2⟩ := lazy_line (U := U) (R := rest) (s := s) (pre := pre) h
  have hb : between ⟨pre, t ++ '\n' :: rest⟩ ⟨t.reverse ++ pre, '\n' :: rest⟩ = t :=
    Adv.between (⟨rfl, rfl⟩ : Adv ⟨pre, t ++ '\n' :: rest⟩ t ⟨t.reverse ++ pre, '\n' :: rest⟩)
  refine ⟨(l2.map (fun q => (q.1, (n, between ⟨pre, t ++ '\n' :: rest⟩ q.1) :: q.2))).flatMap (fun p => (chrRe '\n').all U p.1 p.2), ?_⟩
  rw [all_seq, Re.all.eq_def (U := U) (Re.grp _ _)]
  simp only [List.append_assoc, List.cons_append, List.nil_append]
  rw [h1]
  simp only [List.map_append, List.map_cons, List.flatMap_append, List.flatMap_cons, hb]
  have : (l1.map (fun q => (q.1, (n, between ⟨pre, t ++ '\n' :: rest⟩ q.1) :: q.2))).flatMap (fun p => (chrRe '\n').all U p.1 p.2) = [] := by
    rw [List.flatMap_eq_nil_iff]
    intro p hp
    obtain ⟨q, hq, rfl⟩ := List.mem_map.1 hp
    obtain ⟨x, y, hx, e⟩ := h2 q hq
    obtain ⟨⟨qp, qr⟩, qs⟩ := q
    simp only at e
    subst e
    simp [all_set_cons, evalSet_chr, hx]
  rw [this]
  simp [all_set_cons, evalSet_chr]

theorem table_withHead {U : Uni} {r : Bool} {k0 k : Spec.Look} (h0 : k0.Ok r) (h : k.Ok r) {S X : Str} (hS : '\n' ∉ S) :
    TABLE_RE.captures U ((t!"table" ++ (k0.source ++ '.' :: (S ++ ['\n'])) ++ (rowLook k ++ '|' :: (X ++ ['|']))) ++ t!"\n\n") =
      some ⟨[], (t!"table" ++ (k0.source ++ '.' :: (S ++ ['\n'])) ++ (rowLook k ++ '|' :: (X ++ ['|']))) ++ t!"\n\n",
        [(3, rowLook k ++ '|' :: (X ++ ['|'])), (2, S), (1, k0.source)]⟩ := by
  have hhead : Heads U headRe [] (['t'] ++ (['a'] ++ (['b'] ++ (['l'] ++ (['e'] ++ (k0.source ++ '.' :: (S ++ ['\n']))))))) ((rowLook k ++ '|' :: (X ++ ['|'])) ++ t!"\n\n") []
      [(2, S), (1, k0.source)] := by
    unfold headRe
    refine .seq .chr (.seq .chr (.seq .chr (.seq .chr (.seq .chr ?_))))
    refine (Heads.attsGrp h0 (n := 1) (by simp) (Heads.seq (u := ['.']) .chr (Heads.line hS))).congr ?_
    rw [all_seq, all_seq]
    simp only [List.append_assoc, List.cons_append, Re.all.eq_def (U := U) (Re.grp _ _)]
    have : ∀ pre T s, (Re.seq (.alt (chrRe '_') .eps) attsRe).all U ⟨pre, k0.source ++ '.' :: T⟩ s = attsRe.all U ⟨pre, k0.source ++ '.' :: T⟩ s := by
      intro pre T s
      rw [all_seq]
      have e : (Re.alt (chrRe '_') .eps).all U ⟨pre, k0.source ++ '.' :: T⟩ s = [(⟨pre, k0.source ++ '.' :: T⟩, s)] := by
        cases ht : k0.source ++ '.' :: T with
        | nil => simp at ht
        | cons x y =>
          have : x ≠ '_' := by rintro rfl; exact absurd (look_headD (k := k0) (T := T) (x := '_') (by rw [ht]; rfl)) (by decide)
          simp [Re.all, evalSet_chr, this]
      rw [e]
      simp
    rw [this]
  have hh : Heads U TABLE_RE [] ([] ++ ((['t'] ++ (['a'] ++ (['b'] ++ (['l'] ++ (['e'] ++ (k0.source ++ '.' :: (S ++ ['\n']))))))) ++
      ([] ++ ((rowLook k ++ '|' :: (X ++ ['|'])) ++ t!"\n\n")))) [] [] [(3, rowLook k ++ '|' :: (X ++ ['|'])), (2, S), (1, k0.source)] := by
    rw [TABLE_parts]
    refine .seq .bol (.seq (s1 := [(2, S), (1, k0.source)]) (.left (by simpa using hhead)) (.seq ?_ (.seq (s1 := [(3, rowLook k ++ '|' :: (X ++ ['|'])), (2, S), (1, k0.source)]) (.grp (rows_heads h ?_)) two_newlines)))
    · exact ⟨[], by simp [Re.all]⟩
    · simp
  have := Re.search_hit hh.matchAt
  exact Re.captures_eq (rest := []) (by simpa using this) (by simp)

end Rustextile
