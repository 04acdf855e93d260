import Verif.SpecCells
import Verif.ImageDoc

/-!
# Attributes in tables

What is recognised as attributes (`Spec.Look`) in the source of a table.
-/

namespace Rustextile

open Prog

/-! ## Characters -/

theorem alnum_mem {c : Char} (h : Spec.Alnum c) : c ∈ asciiAlnum := by
  have hc : c.toNat < 128 := by
    rcases h with ⟨-, h⟩ | ⟨-, h⟩ | ⟨-, h⟩
    · have : c.toNat ≤ ('z' : Char).toNat := h
      have e : ('z' : Char).toNat = 122 := rfl
      omega
    · have : c.toNat ≤ ('Z' : Char).toNat := h
      have e : ('Z' : Char).toNat = 90 := rfl
      omega
    · have : c.toNat ≤ ('9' : Char).toNat := h
      have e : ('9' : Char).toNat = 57 := rfl
      omega
  have key := char_of_lt (p := fun c => !(decide (('a' ≤ c ∧ c ≤ 'z') ∨ ('A' ≤ c ∧ c ≤ 'Z') ∨ ('0' ≤ c ∧ c ≤ '9'))) || asciiAlnum.contains c) (by decide +kernel) hc
  simp only [Bool.or_eq_true, Bool.not_eq_true', decide_eq_false_iff_not] at key
  rcases key with key | key
  · exact absurd h key
  · simpa using key

theorem alnum_name {c : Char} (h : Spec.Alnum c) : Spec.NameChar c := by
  rcases h with h | h | h
  · exact .inl h
  · exact .inr (.inl h)
  · exact .inr (.inr (.inl h))

theorem look_groups {r : Bool} {k : Spec.Look} (h : k.Ok r) : k.atts.Ok := by
  constructor
  · intro g hg
    simp only [Spec.Look.atts, List.mem_append] at hg
    rcases hg with hg | hg
    · cases hc : k.cls with
      | none => rw [hc] at hg; cases hg
      | some p =>
        rw [hc] at hg
        rw [List.mem_singleton.1 hg]
        obtain ⟨h1, h2, h3⟩ := h.cls p hc
        refine ⟨fun c hc => (h2 c hc).imp alnum_name id, h1, fun j hj => ⟨(h3 j hj).1, fun c hc => .inl (alnum_name ((h3 j hj).2 c hc))⟩⟩
    · cases hc : k.lang with
      | none => rw [hc] at hg; cases hg
      | some l =>
        rw [hc] at hg
        rw [List.mem_singleton.1 hg]
        obtain ⟨h1, h2⟩ := h.lang l hc
        exact ⟨h1, fun c hc => alnum_name (h2 c hc)⟩
  · simp only [Spec.Look.atts]
    cases k.cls <;> cases k.lang <;> simp [Spec.Group.kind]

/-- The classes between their brackets. -/
def lookCls (k : Spec.Look) : Str := match k.cls with | none => [] | some p => ['('] ++ (clsText p.1 p.2 ++ [')'])
def lookLang (k : Spec.Look) : Str := match k.lang with | none => [] | some l => ['['] ++ (l ++ [']'])
def lookV (k : Spec.Look) : Str := match k.valign with | none => [] | some v => [v.mark]

theorem look_source (k : Spec.Look) : k.source = lookV k ++ (alignText k.align ++ (lookCls k ++ lookLang k)) := by
  have : k.atts.groups.flatMap Spec.Group.source = lookCls k ++ lookLang k := by
    unfold Spec.Look.atts lookCls lookLang
    cases k.cls with
    | none => cases k.lang <;> simp [Spec.Group.source]
    | some p =>
      simp only [List.flatMap_append, List.flatMap_cons, List.flatMap_nil, List.append_nil, cls_source]
      cases k.lang <;> simp [Spec.Group.source]
  unfold Spec.Look.source Spec.Atts.source
  rw [this, marks_eq]
  simp [Spec.Look.atts, lookV]
  rfl

theorem lookV_mem {k : Spec.Look} {c : Char} (h : c ∈ lookV k) : c ∈ t!"^-~" := by
  unfold lookV at h
  cases hv : k.valign with
  | none => rw [hv] at h; cases h
  | some v => rw [hv] at h; rw [List.mem_singleton.1 h]; cases v <;> decide

theorem clsText_mem {r : Bool} {k : Spec.Look} (h : k.Ok r) {p : Str × Option Str} (hp : k.cls = some p) :
    clsText p.1 p.2 ≠ [] ∧ ∀ c ∈ clsText p.1 p.2, c ∈ asciiAlnum ++ t!" #" := by
  obtain ⟨h1, h2, h3⟩ := h.cls p hp
  obtain ⟨n, i⟩ := p
  have hn : ∀ c ∈ n, c ∈ asciiAlnum ++ t!" #" := by
    intro c hc
    rcases h2 c hc with h | rfl
    · exact List.mem_append_left _ (alnum_mem h)
    · decide
  cases i with
  | none => exact ⟨fun e => h1 e rfl, hn⟩
  | some j =>
    refine ⟨by simp [clsText], ?_⟩
    intro c hc
    simp only [clsText, List.mem_append, List.mem_cons] at hc
    rcases hc with hc | rfl | hc
    · exact hn c hc
    · decide
    · exact List.mem_append_left _ (alnum_mem ((h3 j rfl).2 c hc))

theorem lookCls_mem {r : Bool} {k : Spec.Look} (h : k.Ok r) {c : Char} (hc : c ∈ lookCls k) : c ∈ asciiAlnum ++ t!" #()" := by
  unfold lookCls at hc
  cases hp : k.cls with
  | none => rw [hp] at hc; cases hc
  | some p =>
    rw [hp] at hc
    simp only [List.mem_append, List.mem_singleton] at hc
    rcases hc with rfl | hc | rfl
    · decide
    · exact (by decide : ∀ c ∈ asciiAlnum ++ t!" #", c ∈ asciiAlnum ++ t!" #()") c ((clsText_mem h hp).2 c hc)
    · decide

theorem lookLang_mem {r : Bool} {k : Spec.Look} (h : k.Ok r) {c : Char} (hc : c ∈ lookLang k) : c ∈ asciiAlnum ++ t!"[]" := by
  unfold lookLang at hc
  cases hp : k.lang with
  | none => rw [hp] at hc; cases hc
  | some p =>
    rw [hp] at hc
    simp only [List.mem_append, List.mem_singleton] at hc
    rcases hc with rfl | hc | rfl
    · decide
    · exact List.mem_append_left _ (alnum_mem ((h.lang p hp).2 c hc))
    · decide

theorem look_mem {r : Bool} {k : Spec.Look} (h : k.Ok r) {c : Char} (hc : c ∈ k.source) : c ∈ asciiAlnum ++ t!" #()[]^-~<>=" := by
  rw [look_source] at hc
  simp only [List.mem_append] at hc
  rcases hc with hc | hc | hc | hc
  · exact (by decide : ∀ c ∈ t!"^-~", c ∈ asciiAlnum ++ t!" #()[]^-~<>=") c (lookV_mem hc)
  · exact (by decide : ∀ c ∈ t!"<>=", c ∈ asciiAlnum ++ t!" #()[]^-~<>=") c (align_mem hc)
  · exact (by decide +kernel : ∀ c ∈ asciiAlnum ++ t!" #()", c ∈ asciiAlnum ++ t!" #()[]^-~<>=") c (lookCls_mem h hc)
  · exact (by decide +kernel : ∀ c ∈ asciiAlnum ++ t!"[]", c ∈ asciiAlnum ++ t!" #()[]^-~<>=") c (lookLang_mem h hc)

/-! ## The expression for attributes -/

def lookRe : Re := .seq (.star true alignRe) groupsRe

theorem lookRe_shield : lookRe.shield = true := by decide +kernel
theorem lookRe_nogrp : lookRe.nogrp = true := by decide +kernel

theorem look_takes {U : Uni} {r : Bool} {k : Spec.Look} (h : k.Ok r) {pre rest : Str} {s : Caps} (hp : pre.head? ≠ some '<')
    (hr : rest.head? ≠ some '>') : Takes U lookRe pre k.source rest s s := by
  have hg := look_groups h
  have hgr : ∀ pre, Takes U groupsRe pre (k.atts.groups.flatMap Spec.Group.source) rest s s := fun pre => Takes.of_lang (by decide) (groups_lang hg.1 hg.2)
  have e : k.source = (lookV k ++ alignText k.align) ++ k.atts.groups.flatMap Spec.Group.source := by
    unfold Spec.Look.source Spec.Atts.source
    rw [marks_eq]
    simp [Spec.Look.atts, lookV]
    rfl
  rw [e]
  refine .mkSeq ?_ (hgr _)
  have hal : ∀ pre : Str, pre.head? ≠ some '<' → Takes U (.star true alignRe) pre (alignText k.align) (k.atts.groups.flatMap Spec.Group.source ++ rest) s s := by
    intro pre hp
    cases ha : k.align with
    | none => exact .mkStop
    | some x =>
      have := Takes.mkMore (U := U) (g := true) (u := x.mark) (v := []) (pre := pre) (rest := k.atts.groups.flatMap Spec.Group.source ++ rest) (s := s)
        (by cases x <;> simp [Spec.Align.mark]) (align_takes hp (by simpa using atts_head (a := k.atts) (by decide) hr)) .mkStop
      simpa [alignText] using this
  unfold lookV
  cases hv : k.valign with
  | none => exact hal _ hp
  | some v =>
    refine .mkMore (by simp) ?_ (hal _ (by cases v <;> simp [Spec.VAlign.mark]))
    rw [align_shape]
    exact .mkRight (.mkSet (by cases v <;> rfl))

/-- Openers are closed. -/
def Lidded (w : Str) : Prop := ∀ a1 o a2, w = a1 ++ o :: a2 → o ∈ t!"([{" → closerOf o ∈ a2

theorem Lidded.append {u v : Str} (hu : Lidded u) (hv : Lidded v) : Lidded (u ++ v) := by
  intro a1 o a2 e ho
  rcases List.append_eq_append_iff.1 e with ⟨z, h1, h2⟩ | ⟨z, h1, h2⟩
  · exact hv z o a2 h2 ho
  · cases z with
    | nil => exact hv [] o a2 (by simpa using h2.symm) ho
    | cons c z =>
      simp only [List.cons_append, List.cons.injEq] at h2
      obtain ⟨rfl, rfl⟩ := h2
      exact List.mem_append_left _ (hu a1 _ z h1 ho)

theorem Lidded.none {w : Str} (h : ∀ c ∈ w, c ∉ t!"([{") : Lidded w := by
  intro a1 o a2 e ho
  exact absurd ho (h o (by rw [e]; simp))

theorem Lidded.box {o : Char} {w : Str} (h : ∀ c ∈ w, c ∉ t!"([{") (ho : closerOf o ∉ t!"([{") : Lidded ([o] ++ (w ++ [closerOf o])) := by
  intro a1 q a2 e hq
  cases a1 with
  | nil =>
    simp only [List.cons_append, List.nil_append, List.cons.injEq] at e
    rw [← e.1, ← e.2]; simp
  | cons c a1 =>
    simp only [List.cons_append, List.nil_append, List.cons.injEq] at e
    have : q ∈ w ++ [closerOf o] := by rw [e.2]; simp
    rcases List.mem_append.1 this with hm | hm
    · exact absurd hq (h q hm)
    · rw [List.mem_singleton.1 hm] at hq; exact absurd hq ho

theorem look_shut {r : Bool} {k : Spec.Look} (h : k.Ok r) : Lidded k.source := by
  rw [look_source]
  refine .append (.none fun c hc => ?_) (.append (.none fun c hc => ?_) (.append ?_ ?_))
  · exact (by decide : ∀ c ∈ t!"^-~", c ∉ t!"([{") c (lookV_mem hc)
  · exact (by decide : ∀ c ∈ t!"<>=", c ∉ t!"([{") c (align_mem hc)
  · unfold lookCls
    cases hp : k.cls with
    | none => exact .none (by simp)
    | some p => exact .box (o := '(') (fun c hc => (by decide +kernel : ∀ c ∈ asciiAlnum ++ t!" #", c ∉ t!"([{") c ((clsText_mem h hp).2 c hc)) (by decide)
  · unfold lookLang
    cases hp : k.lang with
    | none => exact .none (by simp)
    | some l => exact .box (o := '[') (fun c hc => (by decide +kernel : ∀ c ∈ asciiAlnum, c ∉ t!"([{") c (alnum_mem ((h.lang l hp).2 c hc))) (by decide)

/-- What the expression takes before the point: all attributes, and otherwise less. -/
theorem look_first {U : Uni} {r : Bool} {k : Spec.Look} (h : k.Ok r) {pre T : Str} {s : Caps} (hp : pre.head? ≠ some '<') :
    ∃ l1 l2, lookRe.all U ⟨pre, k.source ++ '.' :: T⟩ s = l1 ++ (⟨k.source.reverse ++ pre, '.' :: T⟩, s) :: l2 ∧
      ∀ p ∈ l1, p.2 = s ∧ ∃ c v, p.1.rest = c :: (v ++ '.' :: T) ∧ ∀ x ∈ c :: v, x ∈ k.source := by
  have hm : (⟨k.source.reverse ++ pre, '.' :: T⟩, s) ∈ lookRe.all U ⟨pre, k.source ++ '.' :: T⟩ s :=
    look_takes h hp (by simp)
  obtain ⟨l1, l2, e, hn⟩ := List.eq_append_cons_of_mem hm
  refine ⟨l1, l2, e, fun p hp => ?_⟩
  have hpm : p ∈ lookRe.all U ⟨pre, k.source ++ '.' :: T⟩ s := by rw [e]; simp [hp]
  have hc : p.2 = s := Re.all_nogrp _ lookRe_nogrp _ _ _ hpm
  refine ⟨hc, ?_⟩
  obtain ⟨w, ⟨h1, h2⟩, lw⟩ := Re.all_lang lookRe _ _ p hpm
  simp only at h1 h2
  rcases List.append_eq_append_iff.1 h1 with ⟨z, e1, e2⟩ | ⟨z, e1, e2⟩
  · cases z with
    | nil =>
      exfalso
      apply hn
      have : p = (⟨k.source.reverse ++ pre, '.' :: T⟩, s) := by
        obtain ⟨⟨a, b⟩, c⟩ := p
        simp_all
      rw [← this]; exact hp
    | cons c z =>
      exfalso
      simp only [List.cons_append, List.cons.injEq] at e2
      obtain ⟨rfl, e2⟩ := e2
      obtain ⟨a1, o, a2, k3, k4, k5, k6⟩ := Re.shield_lang lookRe_shield lw _ _ e1
      exact k5 (look_shut h a1 o a2 k3 k4)
  · cases z with
    | nil =>
      exfalso
      apply hn
      have : p = (⟨k.source.reverse ++ pre, '.' :: T⟩, s) := by
        obtain ⟨⟨a, b⟩, c⟩ := p
        simp_all
      rw [← this]; exact hp
    | cons c z => exact ⟨c, z, by simp [e2], fun x hx => by rw [e1]; exact List.mem_append_right _ hx⟩

/-- The expression followed by something that starts with the point. -/
theorem Heads.look {U : Uni} {r : Bool} {k : Spec.Look} (h : k.Ok r) {K : Re} {pre w rest : Str} {s s' : Caps} (hp : pre.head? ≠ some '<')
    (hK : Heads U K (k.source.reverse ++ pre) ('.' :: w) rest s s') (hno : ∀ c v q, (∀ x ∈ c :: v, x ∈ k.source) → K.all U ⟨q, c :: (v ++ '.' :: (w ++ rest))⟩ s = []) :
    Heads U (.seq lookRe K) pre (k.source ++ '.' :: w) rest s s' := by
  obtain ⟨l1, l2, e, hl⟩ := look_first (U := U) h (T := w ++ rest) (s := s) hp
  obtain ⟨l, hl'⟩ := hK
  refine ⟨l ++ l2.flatMap (fun p => K.all U p.1 p.2), ?_⟩
  rw [all_seq, List.append_assoc, List.cons_append, e]
  have : l1.flatMap (fun p => K.all U p.1 p.2) = [] := by
    rw [List.flatMap_eq_nil_iff]
    intro p hp
    obtain ⟨h1, c, v, h2, h3⟩ := hl p hp
    obtain ⟨⟨a, b⟩, q⟩ := p
    simp only at h1 h2 ⊢
    rw [h1, h2]; exact hno _ _ _ h3
  rw [List.flatMap_append, this, List.flatMap_cons, ← List.cons_append, hl']
  simp

theorem Heads.lookGrp {U : Uni} {r : Bool} {k : Spec.Look} (h : k.Ok r) {n : Nat} {K : Re} {pre w rest : Str} {s s' : Caps} (hp : pre.head? ≠ some '<')
    (hK : Heads U K (k.source.reverse ++ pre) ('.' :: w) rest ((n, k.source) :: s) s') (hno : ∀ c v q s, (∀ x ∈ c :: v, x ∈ k.source) → K.all U ⟨q, c :: (v ++ '.' :: (w ++ rest))⟩ s = []) :
    Heads U (.seq (.grp n lookRe) K) pre (k.source ++ '.' :: w) rest s s' := by
  obtain ⟨l1, l2, e, hl⟩ := look_first (U := U) h (T := w ++ rest) (s := s) hp
  obtain ⟨l, hl'⟩ := hK
  have hb : between ⟨pre, k.source ++ '.' :: (w ++ rest)⟩ ⟨k.source.reverse ++ pre, '.' :: (w ++ rest)⟩ = k.source :=
    Adv.between (⟨rfl, rfl⟩ : Adv ⟨pre, k.source ++ '.' :: (w ++ rest)⟩ k.source ⟨k.source.reverse ++ pre, '.' :: (w ++ rest)⟩)
  refine ⟨l ++ (l2.map (fun p => (p.1, (n, between ⟨pre, k.source ++ '.' :: (w ++ rest)⟩ p.1) :: p.2))).flatMap (fun p => K.all U p.1 p.2), ?_⟩
  rw [all_seq, List.append_assoc, List.cons_append, Re.all, e]
  have : (l1.map (fun p => (p.1, (n, between ⟨pre, k.source ++ '.' :: (w ++ rest)⟩ p.1) :: p.2))).flatMap (fun p => K.all U p.1 p.2) = [] := by
    rw [List.flatMap_eq_nil_iff]
    intro p hp
    obtain ⟨q, hq, rfl⟩ := List.mem_map.1 hp
    obtain ⟨h1, c, v, h2, h3⟩ := hl q hq
    obtain ⟨⟨a, b⟩, q⟩ := q
    simp only at h1 h2 ⊢
    rw [h2]; exact hno _ _ _ _ h3
  rw [List.map_append, List.flatMap_append, this, List.map_cons, List.flatMap_cons, hb, ← List.cons_append, hl']
  simp

/-! ## The values -/

/-- A number of columns or rows. -/
def spanText (c : Char) : Option Nat → Str
  | none => []
  | some n => c :: natStr n

def beforeText (hd : Bool) (cols rows : Option Nat) : Str := (if hd then ['_'] else []) ++ (spanText '\\' cols ++ spanText '/' rows)

def digitIt : List Item := [.cls .digit]
def numRe (c : Char) : Re := .seq (chrRe c) (.grp 1 (.seq (.set false digitIt) (.star true (.set false digitIt))))

theorem COLSPAN_shape : COLSPAN_RE = numRe '\\' := by kernel_rfl
theorem ROWSPAN_shape : ROWSPAN_RE = numRe '/' := by kernel_rfl

theorem dig_eval {U : Uni} (hU : UniOk U) {c : Char} (h : c ∈ t!"0123456789") : evalSet U false digitIt c = true := by
  have h2 : c.toNat < 128 ∧ isDig c = true := (by decide : ∀ c ∈ t!"0123456789", c.toNat < 128 ∧ isDig c = true) c h
  simp [evalSet, digitIt, Item.eval, UC.eval, hU.dec c h2.1, h2.2]

theorem digit_not {U : Uni} (hU : UniOk U) {c : Char} (h : c.toNat < 128) (h' : c ∉ t!"0123456789") : evalSet U false digitIt c = false := by
  have h2 : isDig c = false := by
    have := char_of_lt (p := fun c => (t!"0123456789").contains c || !isDig c) (by decide +kernel) h
    rw [Bool.or_eq_true] at this
    rcases this with h3 | h3
    · exact absurd (by simpa using h3) h'
    · simpa using h3
  simp [evalSet, digitIt, Item.eval, UC.eval, hU.dec c h, h2]

theorem natStr_mem {n : Nat} {c : Char} (h : c ∈ natStr n) : c ∈ t!"0123456789" := by
  rw [← natStr_numeral] at h; exact numeral_mem h

theorem num_none {U : Uni} {c : Char} {t : Str} (h : c ∉ t) : (numRe c).captures U t = none := by
  cases hm : (numRe c).captures U t with
  | none => rfl
  | some m =>
    obtain ⟨a, rest, e, -, ht⟩ := Re.captures_takes hm
    obtain ⟨u, v, e1, hu, -⟩ := ht.lang
    obtain rfl := lang_chr.1 hu
    exact absurd (by rw [e, e1]; simp) h

theorem num_some {U : Uni} (hU : UniOk U) {c : Char} {a rest : Str} {n : Nat} (ha : c ∉ a) (hr : ∀ x, rest.head? = some x → x.toNat < 128 ∧ x ∉ t!"0123456789") :
    (numRe c).captures U (a ++ (c :: natStr n ++ rest)) = some ⟨a, c :: natStr n, [(1, natStr n)]⟩ := by
  have hh : Heads U (numRe c) (a.reverse ++ []) ([c] ++ natStr n) rest [] [(1, natStr n)] := by
    refine .seq .chr (.grp (.plus (natStr_ne_nil n) (fun x hx => dig_eval hU (natStr_mem hx)) (fun x hx => digit_not hU (hr x hx).1 (hr x hx).2)))
  have h1 := Re.search_hit hh.matchAt
  refine Re.captures_eq (rest := rest) ?_ (by simp)
  have hs : Skips U (numRe c) [] a (c :: natStr n ++ rest) := by
    intro u x v e
    rw [Re.matchAt_none]
    have : x ≠ c := by rintro rfl; exact ha (by rw [e]; simp)
    simp [numRe, all_seq_set_cons, evalSet_chr, this]
  rw [Re.search_skips hs]
  simp only [List.cons_append, List.nil_append] at h1 ⊢
  rw [h1]
  simp

theorem box_some {U : Uni} {o c : Char} {it : List Item} {a w rest : Str} (ha : o ∉ a) (hb : o ∉ rest) (hne : w ≠ [])
    (hw : ∀ x ∈ w, evalSet U true it x = true) (hc : evalSet U true it c = false) :
    (bracketRe o c (.seq (.set true it) (.star true (.set true it)))).captures U (a ++ ([o] ++ (w ++ [c]) ++ rest)) =
      some ⟨a, [o] ++ (w ++ [c]), [(1, w)]⟩ ∧ replaceStr ([o] ++ (w ++ [c])) [] (a ++ ([o] ++ (w ++ [c]) ++ rest)) = a ++ rest := by
  refine ⟨bracket_some (skips_not ha) (fun pre => .plus hne hw (by intro x hx; simp at hx; subst hx; exact hc)), ?_⟩
  exact delete_once (w := w ++ [c]) ha hb

/-- What the values are. -/
def lookStyle (v : Bool) (k : Spec.Look) : List Str :=
  (if v then (match k.valign with | none => [] | some x => [t!"vertical-align:" ++ x.word]) else []) ++
    (match k.align with | none => [] | some x => [t!"text-align:" ++ x.word])

def lookOf (r v : Bool) (cols rows : Option Nat) (k : Spec.Look) : BAttrs :=
  { cls := if r then none else k.atts.cls
    id := if r then none else k.atts.id
    lang := k.lang
    colspan := cols.map natStr
    rowspan := rows.map natStr
    style := if lookStyle v k = [] then none else some (Spec.join t!"; " (lookStyle v k) ++ t!";") }

theorem look_lang {U : Uni} {r : Bool} {k : Spec.Look} (h : k.Ok r) {A z : Str} (hA : '[' ∉ A) (hz : '[' ∉ z) :
    langAttr U (A ++ (lookCls k ++ (lookLang k ++ z))) = (k.lang, A ++ (lookCls k ++ z)) := by
  have hc : '[' ∉ lookCls k := fun hm => absurd (lookCls_mem h hm) (by decide +kernel)
  unfold langAttr
  cases hl : k.lang with
  | none =>
    have : '[' ∉ A ++ (lookCls k ++ (lookLang k ++ z)) := by simp [hA, hz, hc, lookLang, hl]
    rw [LANG_shape, bracket_none this]
    simp [lookLang, hl]
  | some l =>
    obtain ⟨h1, h2⟩ := h.lang l hl
    have e : A ++ (lookCls k ++ (lookLang k ++ z)) = (A ++ lookCls k) ++ (['['] ++ (l ++ [']']) ++ z) := by simp [lookLang, hl]
    obtain ⟨e1, e2⟩ := box_some (U := U) (o := '[') (c := ']') (it := [.chr ']']) (a := A ++ lookCls k) (w := l) (rest := z) (by simp [hA, hc]) hz h1
      (fun x hx => evalSet_not (by
        have := alnum_mem (h2 x hx)
        rintro rfl; revert this; decide +kernel)) evalSet_not_self
    rw [e, LANG_shape, e1]
    simp only
    rw [e2]
    simp [Mat.grp, Mat.get?, alLookup]

theorem look_cls {U : Uni} {r : Bool} {k : Spec.Look} (h : k.Ok r) {A z : Str} (hA : '(' ∉ A) (hz : '(' ∉ z) :
    aclassAttr U (A ++ (lookCls k ++ z)) r = ((if r then none else k.atts.cls, if r then none else k.atts.id), A ++ z) := by
  unfold aclassAttr
  cases hl : k.cls with
  | none =>
    have : '(' ∉ A ++ (lookCls k ++ z) := by simp [hA, hz, lookCls, hl]
    rw [ACLASS_shape, bracket_none this]
    have e1 : k.atts.cls = none ∧ k.atts.id = none := by
      simp only [Spec.Look.atts, Spec.Atts.cls, Spec.Atts.id, hl]
      cases k.lang <;> simp
    simp [lookCls, hl, e1]
  | some p =>
    obtain ⟨h1, h2⟩ := clsText_mem h hl
    have e : A ++ (lookCls k ++ z) = A ++ (['('] ++ (clsText p.1 p.2 ++ [')']) ++ z) := by simp [lookCls, hl]
    obtain ⟨e1, e2⟩ := box_some (U := U) (o := '(') (c := ')') (it := [.chr '(', .chr ')']) (a := A) (w := clsText p.1 p.2) (rest := z) hA hz h1
      (fun x hx => by
        have := h2 x hx
        refine evalSet_not2 ?_ ?_ <;> (rintro rfl; revert this; decide +kernel)) (evalSet_not2_or (.inr rfl))
    have hok : (Spec.Group.classes p.1 p.2).Ok := (look_groups h).1 _ (by simp [Spec.Look.atts, hl])
    rw [e, ACLASS_shape, e1]
    simp only
    rw [e2]
    refine Prod.ext ?_ rfl
    have hcls : classAndId U (clsText p.1 p.2) = (k.atts.cls, k.atts.id) := by
      rw [classAndId_ok hok]
      obtain ⟨n, i⟩ := p
      simp only [Spec.Look.atts, Spec.Atts.cls, Spec.Atts.id, hl]
      cases i <;> by_cases hn : n = [] <;> cases k.lang <;> simp [hn]
    have : Mat.grp ⟨A, ['('] ++ (clsText p.1 p.2 ++ [')']), [(1, clsText p.1 p.2)]⟩ 1 = clsText p.1 p.2 := rfl
    simp only [this, hcls]
    cases r <;> rfl

theorem HALIGN_shape : ATTR_HALIGN_RE = .grp 1 (.alt (.seq (.set false [.chr '<']) (.look true (.set false [.chr '>'])))
      (.alt (.seq (.behind true 1 (.set false [.chr '<'])) (.set false [.chr '>']))
        (.alt (.seq (.set false [.chr '<']) (.set false [.chr '>']))
          (.alt (.set false [.chr '='])
            (.seq (.seq (.set false [.chr '(', .chr ')']) (.star true (.set false [.chr '(', .chr ')']))) (.look true (.set false [.chr ' ']))))))) := by kernel_rfl

theorem look_halign {U : Uni} (hU : UniOk U) (al : Option Spec.Align) {Q z : Str} (hQ : ∀ c ∈ Q, c ∈ t!"_\\/0123456789^-~") (hz : z = [] ∨ z = t!". ") :
    halignStyle U (Q ++ (alignText al ++ z)) = .ok (match al with | none => [] | some x => [t!"text-align:" ++ x.word]) := by
  unfold halignStyle
  have hQ' : '<' ∉ Q ∧ '>' ∉ Q ∧ '=' ∉ Q ∧ '(' ∉ Q ∧ ')' ∉ Q := by
    refine ⟨?_, ?_, ?_, ?_, ?_⟩ <;> exact fun h => absurd (hQ _ h) (by decide)
  cases al with
  | none =>
    have : ATTR_HALIGN_RE.captures U (Q ++ ([] ++ z)) = none := by
      unfold Re.captures
      rw [Re.need_search hU (A := ⟨t!"_\\/0123456789^-~. ", false⟩) (by decide +kernel) (by decide +kernel) ?_ []]
      intro c hc
      left
      simp only [List.nil_append, List.mem_append] at hc
      rcases hc with hc | hc
      · exact (by decide : ∀ c ∈ t!"_\\/0123456789^-~", c ∈ t!"_\\/0123456789^-~. ") c (hQ c hc)
      · rcases hz with rfl | rfl
        · cases hc
        · revert hc; revert c; decide
    simp only [alignText, this]
  | some x =>
    have key : ATTR_HALIGN_RE.captures U (Q ++ (x.mark ++ z)) = some ⟨Q, x.mark, [(1, x.mark)]⟩ := by
      have hp : (Q.reverse ++ []).head? ≠ some '<' := by
        intro e
        exact hQ'.1 (by have := List.mem_of_head? e; simpa using this)
      have hh : Heads U ATTR_HALIGN_RE (Q.reverse ++ []) x.mark z [] [(1, x.mark)] := by
        rw [HALIGN_shape]
        refine .grp ?_
        have hz' : z.head? ≠ some '>' ∧ z.head? ≠ some '<' ∧ z.head? ≠ some '=' ∧ z.head? ≠ some '(' ∧ z.head? ≠ some ')' := by
          rcases hz with rfl | rfl <;> decide
        revert hp
        generalize Q.reverse ++ [] = pre
        intro hp
        have hb : (Re.behind true 1 (.set false [.chr '<'])).all U ⟨pre, '>' :: z⟩ [] = [(⟨pre, '>' :: z⟩, [])] := by
          cases pre with
          | nil => simp [Re.all, Cur.back]
          | cons c pre =>
            have : c ≠ '<' := by simpa using hp
            simp [Re.all, Cur.back, evalSet_chr, this]
        cases x with
        | left =>
          refine .left (Heads.seq (u := ['<']) (v := []) .chr ⟨[], ?_⟩)
          rcases hz with rfl | rfl <;> simp [Re.all, evalSet_chr]
        | right =>
          refine .right (by simp [all_seq_set_cons, evalSet_chr, Spec.Align.mark]) (.left (Heads.seq (u := []) (v := ['>']) ⟨[], ?_⟩ .chr))
          simpa using hb
        | center =>
          refine .right (by simp [all_seq_set_cons, evalSet_chr, Spec.Align.mark]) (.right ?_ (.right (by simp [all_seq_set_cons, evalSet_chr, Spec.Align.mark]) (.left .chr)))
          exact begins_nil (D := ['>']) (by decide) (by decide) (by simp [Spec.Align.mark]) _
        | justify =>
          refine .right (by simp [all_seq_set_cons, evalSet_chr, Spec.Align.mark, Re.all]) (.right ?_ (.left (Heads.seq (u := ['<']) (v := ['>']) .chr .chr)))
          exact begins_nil (D := ['>']) (by decide) (by decide) (by simp [Spec.Align.mark]) _
      refine Re.captures_eq (rest := z) ?_ (by simp)
      have hs : Skips U ATTR_HALIGN_RE [] Q (x.mark ++ z) := by
        intro u c v e
        rw [Re.matchAt_none]
        have hc : c ∉ t!"<>=()" := by
          intro hm
          exact absurd (hQ c (by rw [e]; simp)) ((by decide : ∀ c ∈ t!"<>=()", c ∉ t!"_\\/0123456789^-~") c hm)
        exact begins_nil (D := t!"<>=()") (by decide +kernel) (by decide +kernel) (by simpa using hc) _
      have h1 := Re.search_hit hh.matchAt
      rw [Re.search_skips hs, h1]
      simp
    rw [show alignText (some x) = x.mark from rfl, key]
    cases x <;> rfl

theorem VALIGN_shape : ATTR_VALIGN_RE = .seq .bot (.set false [.chr '-', .chr '^', .chr '~']) := by kernel_rfl

theorem beforeText_mem {hd : Bool} {cols rows : Option Nat} {c : Char} (h : c ∈ beforeText hd cols rows) : c ∈ t!"_\\/0123456789" := by
  have hn : ∀ n, c ∈ natStr n → c ∈ t!"_\\/0123456789" := fun n hc => (by decide : ∀ c ∈ t!"0123456789", c ∈ t!"_\\/0123456789") c (natStr_mem hc)
  simp only [beforeText, List.mem_append] at h
  rcases h with h | h | h
  · split at h
    · rw [List.mem_singleton.1 h]; decide
    · cases h
  · cases cols with
    | none => cases h
    | some n =>
      rcases List.mem_cons.1 h with rfl | h
      · decide
      · exact hn n h
  · cases rows with
    | none => cases h
    | some n =>
      rcases List.mem_cons.1 h with rfl | h
      · decide
      · exact hn n h

theorem before_head {hd : Bool} {cols rows : Option Nat} {x : Char} (h : (beforeText hd cols rows).head? = some x) : x ∈ t!"_\\/" := by
  cases hd <;> cases cols <;> cases rows <;> simp [beforeText, spanText] at h <;> subst h <;> decide

theorem look_head {k : Spec.Look} {z : Str} (hz : z = [] ∨ z = t!". ") {x : Char} (h : (k.source ++ z).head? = some x) :
    x ∈ t!"^-~<>=([." ∧ (k.valign = none → x ∈ t!"<>=([.") ∧ ∀ v, k.valign = some v → x = v.mark := by
  rw [look_source] at h
  cases hv : k.valign with
  | some v =>
    simp [lookV, hv] at h
    subst h
    exact ⟨by cases v <;> decide, by simp, by simp⟩
  | none =>
    have key : x ∈ t!"<>=([." := by
      simp only [lookV, hv, List.nil_append] at h
      cases ha : k.align with
      | some a => cases a <;> simp [alignText, ha, Spec.Align.mark] at h <;> subst h <;> decide
      | none =>
        cases hc : k.cls with
        | some p => simp [alignText, ha, lookCls, hc] at h; subst h; decide
        | none =>
          cases hl : k.lang with
          | some p => simp [alignText, ha, lookCls, hc, lookLang, hl] at h; subst h; decide
          | none =>
            rcases hz with rfl | rfl
            · simp [alignText, ha, lookCls, hc, lookLang, hl] at h
            · simp [alignText, ha, lookCls, hc, lookLang, hl] at h; subst h; decide
    exact ⟨(by decide : ∀ x ∈ t!"<>=([.", x ∈ t!"^-~<>=([.") x key, fun _ => key, by simp⟩

/-- What attributes with the given alternatives say. -/
theorem parse_look {U : Uni} (hU : UniOk U) {r : Bool} {k : Spec.Look} (h : k.Ok r) {el : Option Str} (hel : el ≠ some t!"col")
    {hd : Bool} {cols rows : Option Nat} (hcr : el ≠ some t!"td" → cols = none ∧ rows = none) {z : Str} (hz : z = [] ∨ z = t!". ") :
    BAttrs.parse U (beforeText hd cols rows ++ (k.source ++ z)) el r =
      .ok (lookOf r ((el = some t!"td" ∨ el = some t!"tr") ∧ beforeText hd cols rows = []) cols rows k) := by
  by_cases he : beforeText hd cols rows ++ (k.source ++ z) = []
  · simp only [List.append_eq_nil_iff] at he
    obtain ⟨h1, h2, h3⟩ := he
    rw [look_source] at h2
    simp only [List.append_eq_nil_iff] at h2
    obtain ⟨a1, a2, a3, a4⟩ := h2
    have c1 : cols = none := by
      cases cols with
      | none => rfl
      | some n => simp [beforeText, spanText] at h1
    have c2 : rows = none := by
      cases rows with
      | none => rfl
      | some n => simp [beforeText, spanText] at h1
    obtain ⟨v, al, cl, la⟩ := k
    have d1 : v = none := by cases v with | none => rfl | some _ => simp [lookV] at a1
    have d2 : al = none := by cases al with | none => rfl | some x => cases x <;> simp [alignText, Spec.Align.mark] at a2
    have d3 : cl = none := by cases cl with | none => rfl | some _ => simp [lookCls] at a3
    have d4 : la = none := by cases la with | none => rfl | some _ => simp [lookLang] at a4
    subst d1 d2 d3 d4 c1 c2 h3
    rw [h1]
    cases r <;> simp [BAttrs.parse, lookOf, lookStyle, Spec.Look.source, Spec.Look.atts, Spec.Atts.source, Spec.Atts.marks, Spec.Atts.cls, Spec.Atts.id]
  · have hne : (beforeText hd cols rows ++ (k.source ++ z)).isEmpty = false := by simpa using he
    generalize hP : beforeText hd cols rows = P at *
    have hPm : ∀ c ∈ P, c ∈ t!"_\\/0123456789" := fun c hc => beforeText_mem (hP ▸ hc)
    have hzm : ∀ c ∈ z, c ∈ t!". " := by rcases hz with rfl | rfl <;> simp
    have hA : ∀ c ∈ P ++ (lookV k ++ alignText k.align), c ∈ t!"_\\/0123456789^-~<>=" := by
      intro c hc
      simp only [List.mem_append] at hc
      rcases hc with hc | hc | hc
      · exact (by decide : ∀ c ∈ t!"_\\/0123456789", c ∈ t!"_\\/0123456789^-~<>=") c (hPm c hc)
      · exact (by decide : ∀ c ∈ t!"^-~", c ∈ t!"_\\/0123456789^-~<>=") c (lookV_mem hc)
      · exact (by decide : ∀ c ∈ t!"<>=", c ∈ t!"_\\/0123456789^-~<>=") c (align_mem hc)
    have e : P ++ (k.source ++ z) = (P ++ (lookV k ++ alignText k.align)) ++ (lookCls k ++ (lookLang k ++ z)) := by rw [look_source]; simp
    have hst : explicitStyle U (P ++ (k.source ++ z)) r = ([], P ++ (k.source ++ z)) := by
      have hno : '{' ∉ P ++ (k.source ++ z) := by
        intro hm
        simp only [List.mem_append] at hm
        rcases hm with hm | hm | hm
        · exact absurd (hPm _ hm) (by decide)
        · exact absurd (look_mem h hm) (by decide +kernel)
        · exact absurd (hzm _ hm) (by decide)
      unfold explicitStyle
      rw [STYLE_shape, bracket_none hno]
      cases r <;> rfl
    have hla := look_lang (U := U) h (A := P ++ (lookV k ++ alignText k.align)) (z := z) (fun hm => absurd (hA _ hm) (by decide)) (fun hm => absurd (hzm _ hm) (by decide))
    have hcl := look_cls (U := U) h (A := P ++ (lookV k ++ alignText k.align)) (z := z) (fun hm => absurd (hA _ hm) (by decide)) (fun hm => absurd (hzm _ hm) (by decide))
    have hpad : ∀ c ∈ t!"()", ∀ side, paddingStyle U (runRe c) side ((P ++ (lookV k ++ alignText k.align)) ++ z) = ([], (P ++ (lookV k ++ alignText k.align)) ++ z) := by
      intro c hc side
      have : c ∉ (P ++ (lookV k ++ alignText k.align)) ++ z := by
        intro hm
        rcases List.mem_append.1 hm with hm | hm
        · exact (by decide : ∀ c ∈ t!"()", c ∉ t!"_\\/0123456789^-~<>=") c hc (hA _ hm)
        · exact (by decide : ∀ c ∈ t!"()", c ∉ t!". ") c hc (hzm _ hm)
      unfold paddingStyle
      rw [runRe_none this]
    have hha := look_halign hU k.align (Q := P ++ lookV k) (z := z) (fun c hc => by
      rcases List.mem_append.1 hc with hc | hc
      · exact (by decide : ∀ c ∈ t!"_\\/0123456789", c ∈ t!"_\\/0123456789^-~") c (hPm c hc)
      · exact (by decide : ∀ c ∈ t!"^-~", c ∈ t!"_\\/0123456789^-~") c (lookV_mem hc)) hz
    have e2 : (P ++ (lookV k ++ alignText k.align)) ++ z = (P ++ lookV k) ++ (alignText k.align ++ z) := by simp
    have hdig : ∀ x, (k.source ++ z).head? = some x → x.toNat < 128 ∧ x ∉ t!"0123456789" := fun x hx =>
      (by decide : ∀ x ∈ t!"^-~<>=([.", x.toNat < 128 ∧ x ∉ t!"0123456789") x (look_head hz hx).1
    have hcol : (if el = some t!"td" then (COLSPAN_RE.captures U (P ++ (k.source ++ z))).map (·.grp 1) else none) = cols.map natStr := by
      by_cases htd : el = some t!"td"
      · rw [if_pos htd, COLSPAN_shape]
        cases cols with
        | none =>
          rw [num_none]
          · rfl
          · intro hm
            simp only [List.mem_append] at hm
            rcases hm with hm | hm | hm
            · rw [← hP] at hm
              cases hd <;> cases rows <;> simp [beforeText, spanText] at hm
              all_goals exact absurd (natStr_mem hm) (by decide)
            · exact absurd (look_mem h hm) (by decide +kernel)
            · exact absurd (hzm _ hm) (by decide)
        | some n =>
          have := num_some hU (c := '\\') (a := if hd then ['_'] else []) (rest := spanText '/' rows ++ (k.source ++ z)) (n := n) (by split <;> simp) ?_
          · rw [show P ++ (k.source ++ z) = (if hd then ['_'] else []) ++ ('\\' :: natStr n ++ (spanText '/' rows ++ (k.source ++ z))) by
              rw [← hP]; simp [beforeText, spanText], this]
            rfl
          · intro x hx
            cases rows with
            | some m => simp [spanText] at hx; subst hx; decide
            | none => exact hdig x (by simpa [spanText] using hx)
      · rw [if_neg htd, (hcr htd).1]; rfl
    have hrow : (if el = some t!"td" then (ROWSPAN_RE.captures U (P ++ (k.source ++ z))).map (·.grp 1) else none) = rows.map natStr := by
      by_cases htd : el = some t!"td"
      · rw [if_pos htd, ROWSPAN_shape]
        have hb : '/' ∉ (if hd then ['_'] else []) ++ spanText '\\' cols := by
          intro hm
          cases hd <;> cases cols <;> simp [spanText] at hm
          all_goals exact absurd (natStr_mem hm) (by decide)
        cases rows with
        | none =>
          rw [num_none]
          · rfl
          · intro hm
            simp only [List.mem_append] at hm
            rcases hm with hm | hm | hm
            · rw [← hP] at hm
              exact hb (by simpa [beforeText, spanText] using hm)
            · exact absurd (look_mem h hm) (by decide +kernel)
            · exact absurd (hzm _ hm) (by decide)
        | some n =>
          have := num_some hU (c := '/') (a := (if hd then ['_'] else []) ++ spanText '\\' cols) (rest := k.source ++ z) (n := n) hb hdig
          rw [show P ++ (k.source ++ z) = ((if hd then ['_'] else []) ++ spanText '\\' cols) ++ ('/' :: natStr n ++ (k.source ++ z)) by
              rw [← hP]; simp [beforeText, spanText], this]
          rfl
      · rw [if_neg htd, (hcr htd).2]; rfl
    have hva : valignStyle U (P ++ (k.source ++ z)) el = .ok (if (el = some t!"td" ∨ el = some t!"tr") ∧ P = [] then
        (match k.valign with | none => [] | some x => [t!"vertical-align:" ++ x.word]) else []) := by
      unfold valignStyle
      by_cases htd : el = some t!"td" ∨ el = some t!"tr"
      · rw [if_pos htd]
        have none_of : ∀ t : Str, (∀ x, t.head? = some x → x ∉ t!"-^~") → ATTR_VALIGN_RE.captures U t = none := by
          intro t ht
          rw [VALIGN_shape]
          exact Re.captures_none (Re.search_bot (begins_nil (D := t!"-^~") (by decide) (by decide) ht _))
        by_cases hPn : P = []
        · rw [if_pos ⟨htd, hPn⟩, hPn, List.nil_append]
          cases hv : k.valign with
          | none =>
            rw [none_of _ (fun x hx => (by decide : ∀ x ∈ t!"<>=([.", x ∉ t!"-^~") x ((look_head hz hx).2.1 hv))]
          | some v =>
            obtain ⟨y, hy⟩ : ∃ y, k.source ++ z = [v.mark] ++ y := by rw [look_source]; simp [lookV, hv]
            have hh : Heads U ATTR_VALIGN_RE [] ([] ++ [v.mark]) y [] [] := by
              rw [VALIGN_shape]
              exact .seq .bot (.set (by cases v <;> rfl))
            have hm := Re.search_hit hh.matchAt
            rw [hy, Re.captures_eq (text := [v.mark] ++ y) (a := []) (s := []) (w := [v.mark]) (rest := y) (by simpa using hm) (by simp)]
            cases v <;> rfl
        · rw [if_neg (fun hh => hPn hh.2), none_of]
          intro x hx
          obtain ⟨c, P', rfl⟩ := List.exists_cons_of_ne_nil hPn
          simp at hx; subst hx
          exact (by decide : ∀ x ∈ t!"_\\/", x ∉ t!"-^~") _ (before_head (by rw [hP]; rfl))
      · rw [if_neg htd, if_neg (fun hh => htd hh.1)]
    simp only [BAttrs.parse, hne, Bool.false_eq_true, if_false, hel, hcol, hrow, hva, hst]
    simp only [e, hla, hcl, PADL_shape, PADR_shape, hpad _ (by decide : '(' ∈ t!"()"), hpad _ (by decide : ')' ∈ t!"()")]
    rw [e2, hha]
    simp only [lookOf, lookStyle, joinWith_eq, List.append_nil, List.isEmpty_iff, decide_eq_true_eq]
    rfl

/-! ## As text -/

theorem toStr_six (c n i l m s : Option Str) : ({ cls := c, colspan := n, id := i, lang := l, rowspan := m, style := s } : BAttrs).html =
    (c.toList.map (t!"class", ·)) ++ ((n.toList.map (t!"colspan", ·)) ++ ((i.toList.map (t!"id", ·)) ++ ((l.toList.map (t!"lang", ·)) ++
      ((m.toList.map (t!"rowspan", ·)) ++ (s.toList.map (t!"style", ·)))))) := by
  cases c <;> cases n <;> cases i <;> cases l <;> cases m <;> cases s <;> rfl

theorem look_text {r : Bool} {k : Spec.Look} (h : k.Ok r) (v : Bool) (cols rows : Option Nat) :
    HtmlAttrs.toStr (lookOf r v cols rows k).html = k.html r v cols rows := by
  have one : ∀ (k : Str) (o : Option Str), (∀ v, o = some v → ∀ c ∈ v, c ∈ styleChars ++ t!";") →
      (o.toList.map (k, ·)).flatMap attrText = Spec.attr k o := by
    intro k o ho
    cases o with
    | none => rfl
    | some v => simp only [Option.toList, List.map_cons, List.map_nil, List.flatMap_cons, List.flatMap_nil, List.append_nil]; exact attrText_plain (ho v rfl)
  have up : ∀ {c : Char}, c ∈ styleChars → c ∈ styleChars ++ t!";" := fun h => List.mem_append_left _ h
  have num : ∀ o : Option Nat, ∀ v, o.map natStr = some v → ∀ c ∈ v, c ∈ styleChars ++ t!";" := by
    intro o v hv c hc
    cases o with
    | none => cases hv
    | some n => simp at hv; subst hv; exact (by decide +kernel : ∀ c ∈ t!"0123456789", c ∈ styleChars ++ t!";") c (natStr_mem hc)
  have hg := look_groups h
  rw [HtmlAttrs.toStr, lookOf, toStr_six]
  simp only [List.flatMap_append]
  rw [one, one, one, one, one, one]
  · have e : (Spec.numeral : Nat → Str) = natStr := funext natStr_numeral
    rw [Spec.Look.html, e]; rfl
  · intro x hx c hc
    have hVw : ∀ w : Spec.VAlign, ∀ c ∈ t!"vertical-align:" ++ w.word, c ∈ styleChars ++ t!";" := by intro w; cases w <;> decide +kernel
    have hAw : ∀ w : Spec.Align, ∀ c ∈ t!"text-align:" ++ w.word, c ∈ styleChars ++ t!";" := by intro w; cases w <;> decide +kernel
    have hj : ∀ l : List Str, (∀ w ∈ l, ∀ c ∈ w, c ∈ styleChars ++ t!";") → ∀ c ∈ Spec.join t!"; " l, c ∈ styleChars ++ t!";" := by
      intro l
      induction l with
      | nil => intro _ c hc; cases hc
      | cons w l ih =>
        intro hl c hc
        cases l with
        | nil => exact hl w (by simp) c hc
        | cons y l =>
          simp only [Spec.join, List.mem_append] at hc
          rcases (or_assoc.1 hc) with hc | hc | hc
          · exact hl w (by simp) c hc
          · exact (by decide +kernel : ∀ c ∈ t!"; ", c ∈ styleChars ++ t!";") c hc
          · exact ih (fun w hw => hl w (List.mem_cons_of_mem _ hw)) c hc
    by_cases hs : lookStyle v k = []
    · rw [if_pos hs] at hx; cases hx
    · rw [if_neg hs, Option.some.injEq] at hx
      subst hx
      rcases List.mem_append.1 hc with hc | hc
      · refine hj _ ?_ c hc
        intro w hw c hc
        rcases List.mem_append.1 hw with hw | hw
        · split at hw
          · cases hv : k.valign with
            | none => rw [hv] at hw; cases hw
            | some y => rw [hv] at hw; rw [List.mem_singleton.1 hw] at hc; exact hVw y c hc
          · cases hw
        · cases hv : k.align with
          | none => rw [hv] at hw; cases hw
          | some y => rw [hv] at hw; rw [List.mem_singleton.1 hw] at hc; exact hAw y c hc
      · exact (by decide +kernel : ∀ c ∈ t!";", c ∈ styleChars ++ t!";") c hc
  · exact num rows
  · intro v hv c hc
    exact (by decide +kernel : ∀ c ∈ asciiAlnum, c ∈ styleChars ++ t!";") c (alnum_mem ((h.lang v hv).2 c hc))
  · intro v hv c hc
    cases r
    · exact up (cls_mem hg (.inr (.inl hv)) c hc)
    · cases hv
  · exact num cols
  · intro v hv c hc
    cases r
    · exact up (cls_mem hg (.inl hv) c hc)
    · cases hv

end Rustextile
