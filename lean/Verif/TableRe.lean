import Verif.SpecTables
import Verif.FootnoteDoc

/-!
# Recognising tables

What the expressions of table.rs:72-100 and parser.rs:746-754 find in the source of a table.
-/

namespace Rustextile

open Prog

/-! ## Nothing to take -/

theorem begins_nil {U : Uni} {D : Str} {r : Re} (h : r.begins D = true) (hs : r.solid = true) {pre rest : Str}
    (hr : ∀ c, rest.head? = some c → c ∉ D) (s : Caps) : r.all U ⟨pre, rest⟩ s = [] := by
  cases hl : r.all U ⟨pre, rest⟩ s with
  | nil => rfl
  | cons p l =>
    exfalso
    obtain ⟨w, hw, lw⟩ := Re.all_lang r ⟨pre, rest⟩ s p (by rw [hl]; simp)
    cases w with
    | nil => exact Re.solid_lang hs lw
    | cons c w =>
      have e : rest = c :: w ++ p.1.rest := hw.1
      exact hr c (by rw [e]; rfl) (Re.begins_lang h lw c w rfl)

theorem star_quiet {U : Uni} {D : Str} {r : Re} (h : r.begins D = true) (hs : r.solid = true) {pre rest : Str}
    (hr : ∀ c, rest.head? = some c → c ∉ D) (s : Caps) : (Re.star true r).all U ⟨pre, rest⟩ s = [(⟨pre, rest⟩, s)] := by
  have := begins_nil (U := U) h hs (pre := pre) hr s
  simp only [Re.all]
  cases rest with
  | nil => simp [starAll]
  | cons x xs => simp [starAll, this]

def spanRe : Re :=
  match CMTCH_RE with
  | .seq _ (.seq (.grp _ (.seq _ (.seq (.star _ r) _))) _) => r
  | _ => .eps

/-- The groups, at least one. -/
def groupRe : Re :=
  match groupsRe with
  | .alt a _ => a
  | _ => .eps

theorem groupRe_shape : groupsRe = .alt groupRe .eps := by kernel_rfl

theorem align_quiet {U : Uni} {pre rest : Str} (hr : ∀ c, rest.head? = some c → c ∉ t!"()<>=-^~") (s : Caps) :
    (Re.star true alignRe).all U ⟨pre, rest⟩ s = [(⟨pre, rest⟩, s)] := by
  refine star_quiet (D := t!"()<>=-^~") ?_ ?_ hr s <;> decide +kernel

theorem span_quiet {U : Uni} {pre rest : Str} (hr : ∀ c, rest.head? = some c → c ∉ t!"\\/") (s : Caps) :
    (Re.star true spanRe).all U ⟨pre, rest⟩ s = [(⟨pre, rest⟩, s)] := by
  refine star_quiet (D := t!"\\/") ?_ ?_ hr s <;> decide +kernel

theorem groups_quiet {U : Uni} {pre rest : Str} (hr : ∀ c, rest.head? = some c → c ∉ t!"([{") (s : Caps) :
    groupsRe.all U ⟨pre, rest⟩ s = [(⟨pre, rest⟩, s)] := by
  have := begins_nil (U := U) (D := t!"([{") (r := groupRe) (by decide +kernel) (by decide +kernel) (pre := pre) hr s
  rw [groupRe_shape]
  simp [Re.all, this]

/-- What attributes can start with. -/
def attrStart : Str := t!"()<>=-^~[{\\/_"

theorem attrs_quiet {U : Uni} {pre rest : Str} (hr : ∀ c, rest.head? = some c → c ∉ attrStart) (s : Caps) :
    (Re.star true alignRe).all U ⟨pre, rest⟩ s = [(⟨pre, rest⟩, s)] ∧ (Re.star true spanRe).all U ⟨pre, rest⟩ s = [(⟨pre, rest⟩, s)] ∧
      groupsRe.all U ⟨pre, rest⟩ s = [(⟨pre, rest⟩, s)] := by
  refine ⟨align_quiet (fun c hc hm => hr c hc ?_) s, span_quiet (fun c hc hm => hr c hc ?_) s, groups_quiet (fun c hc hm => hr c hc ?_) s⟩
  · exact (by decide : ∀ c ∈ t!"()<>=-^~", c ∈ attrStart) c hm
  · exact (by decide : ∀ c ∈ t!"\\/", c ∈ attrStart) c hm
  · exact (by decide : ∀ c ∈ t!"([{", c ∈ attrStart) c hm

/-! ## Shapes -/

def anysRe : Re := .star true (.set true [])
def spaceIt : List Item := [.cls .space]
abbrev chrRe (c : Char) : Re := .set false [.chr c]
def attsRe : Re := .seq (.star true spanRe) (.seq (.star true alignRe) groupsRe)

theorem TABLE_shape : TABLE_RE = .seq .bol (.seq (.alt (.seq (chrRe 't') (.seq (chrRe 'a') (.seq (chrRe 'b') (.seq (chrRe 'l') (.seq (chrRe 'e')
    (.seq (.grp 1 (.seq (.alt (chrRe '_') .eps) attsRe)) (.seq (chrRe '.') (.seq (.grp 2 (.star false (.set true []))) (chrRe '\n'))))))))) .eps)
    (.seq .bol (.seq (.grp 3 (.seq (.star true alignRe) (.seq groupsRe (.seq (.alt (chrRe '.') .eps) (.seq (.alt (chrRe ' ') .eps)
      (.seq (chrRe '|') (.seq anysRe (chrRe '|')))))))) (.seq (.star true (.set false spaceIt)) (.seq (chrRe '\n') (chrRe '\n')))))) := by kernel_rfl

theorem CMTCH_shape : CMTCH_RE = .seq .bot (.seq (.grp 1 (.seq (.alt (chrRe '_') .eps) (.seq (.star true spanRe) (.seq (.star true alignRe)
    (.seq groupsRe (.seq (chrRe '.') (chrRe ' '))))))) (.grp 2 anysRe)) := by kernel_rfl

def sectRe : Re := .seq (.alt (chrRe ':') .eps) (.seq .bol (.seq (chrRe '|') (.seq (.grp 2 (.set false [.chr '-', .chr '^', .chr '~']))
  (.seq (.grp 3 attsRe) (.seq (chrRe '.') (.seq (.star true (.set false spaceIt)) (.seq .eol (chrRe '\n'))))))))

theorem GRPMATCH_shape : GRPMATCH_RE = .seq (.alt (.grp 1 sectRe) .eps) (.seq .bol (.grp 4 anysRe)) := by kernel_rfl

theorem RMTCH_shape : RMTCH_RE = .seq .bot (.seq (.grp 1 (.seq (.star true alignRe) (.seq groupsRe (.seq (chrRe '.') (chrRe ' ')))))
    (.grp 2 (.star true (.set true [.chr '\n'])))) := by kernel_rfl

theorem HEADING_shape : HEADING_RE = .seq .bot (.seq (chrRe '_') (.look false (.alt (.set false spaceIt) (.set false (t!"-!\"#$%&()*+,/:;<=>?@'[\\].^_`{|}~".map .chr))))) := by
  kernel_rfl

theorem COMPONENTS_shape : COMPONENTS_RE = .seq (chrRe '|') (.seq (.star false (.set false spaceIt)) .eol) := by kernel_rfl

theorem CELL_A_shape : CELL_A_PATTERN_RE = .seq (.grp 1 (.star true (.set false spaceIt))) (.grp 2 anysRe) := by kernel_rfl

/-! ## The whole table -/

theorem Heads.any {U : Uni} {pre w : Str} {s : Caps} : Heads U anysRe pre w [] s s := Heads.star (fun x _ => rfl) (by simp)

theorem Heads.lastU {U : Uni} {K : Re} {pre X D Z : Str} {s s' : Caps} (hK : Heads U K (X.reverse ++ pre) D Z s s')
    (hno : ∀ u v p s, u ≠ [] → D ++ Z = u ++ v → K.all U ⟨p, v⟩ s = []) : Heads U (.seq anysRe K) pre (X ++ D) Z s s' := by
  obtain ⟨l1, l2, h1, h2⟩ := star_any_split (U := U) (s := s) X (D ++ Z) pre
  obtain ⟨l, hl⟩ := hK
  refine ⟨l ++ l2.flatMap (fun p => K.all U p.1 p.2), ?_⟩
  rw [List.append_assoc, all_seq, anysRe, h1]
  have : l1.flatMap (fun p => K.all U p.1 p.2) = [] := by
    rw [List.flatMap_eq_nil_iff]
    intro p hp
    obtain ⟨u, v, h3, h4, rfl⟩ := h2 p hp
    exact hno u v _ _ h3 h4
  simp [this, hl]

theorem Heads.of_eq {U : Uni} {r : Re} {pre rest : Str} {s : Caps} (h : r.all U ⟨pre, rest⟩ s = [(⟨pre, rest⟩, s)]) : Heads U r pre [] rest s s :=
  ⟨[], by simpa using h⟩

theorem Heads.opt {U : Uni} {c : Char} {pre rest : Str} {s : Caps} (h : rest.head? ≠ some c) : Heads U (.alt (chrRe c) .eps) pre [] rest s s := by
  refine .right ?_ .eps
  cases rest with
  | nil => rfl
  | cons x rest =>
    have : x ≠ c := by simpa using h
    simp [Re.all, evalSet_chr, this]

theorem bar_quiet {c : Char} {X : Str} (D : Str) (hD : '|' ∉ D) (h : (('|' :: X) : Str).head? = some c) : c ∉ D := by
  simp at h; subst h; exact hD

theorem two_newlines {U : Uni} {pre : Str} {s : Caps} :
    Heads U (.seq (.star true (.set false spaceIt)) (.seq (chrRe '\n') (chrRe '\n'))) pre t!"\n\n" [] s s := by
  have hs : evalSet U false spaceIt '\n' = true := rfl
  refine ⟨[], ?_⟩
  rw [all_seq]
  simp only [List.append_nil]
  rw [all_star_cons, all_star_cons, all_star_nil]
  simp [hs, Re.all, evalSet_chr]

theorem table_captures {U : Uni} {X : Str} :
    TABLE_RE.captures U ('|' :: (X ++ ['|']) ++ t!"\n\n") =
      some ⟨[], '|' :: (X ++ ['|']) ++ t!"\n\n", [(3, '|' :: (X ++ ['|']))]⟩ := by
  have hq := fun pre rest s => attrs_quiet (U := U) (pre := pre) (rest := '|' :: rest) (fun c h => bar_quiet _ (by decide) h) s
  have hrows : Heads U (.seq (.star true alignRe) (.seq groupsRe (.seq (.alt (chrRe '.') .eps) (.seq (.alt (chrRe ' ') .eps)
      (.seq (chrRe '|') (.seq anysRe (chrRe '|'))))))) [] ([] ++ ([] ++ ([] ++ ([] ++ (['|'] ++ (X ++ ['|'])))))) t!"\n\n" [] [] := by
    refine .seq (.of_eq (hq _ _ _).1) (.seq (.of_eq (hq _ _ _).2.2) (.seq (.opt (by simp)) (.seq (.opt (by simp)) (.seq .chr (.lastU .chr ?_)))))
    intro u v p s hu e
    cases u with
    | nil => exact absurd rfl hu
    | cons a u =>
      simp only [List.cons_append, List.nil_append, List.cons.injEq] at e
      have hv : '|' ∉ v := fun hm => by
        have : '|' ∈ u ++ v := by simp [hm]
        rw [← e.2] at this
        exact absurd this (by decide)
      cases v with
      | nil => rfl
      | cons y v =>
        have : y ≠ '|' := by rintro rfl; exact hv (by simp)
        simp [all_set_cons, evalSet_chr, this]
  have h : Heads U TABLE_RE [] ([] ++ ([] ++ ([] ++ (('|' :: (X ++ ['|'])) ++ t!"\n\n")))) [] [] [(3, '|' :: (X ++ ['|']))] := by
    rw [TABLE_shape]
    refine .seq .bol (.seq (.right ?_ .eps) (.seq .bol (.seq (s1 := [(3, '|' :: (X ++ ['|']))]) (.grp ?_) two_newlines)))
    · simp [all_seq_set_cons, evalSet_chr]
    · simpa using hrows
  have := Re.search_hit h.matchAt
  simp only [List.nil_append, List.append_nil] at this
  exact Re.captures_eq (rest := []) (by simpa using this) (by simp)

/-! ## Rows -/

/-- After every bar of the text some more characters of the line follow. -/
def Inside (w rest : Str) : Prop := ∀ u v, w = u ++ '|' :: v → ∃ x c y, v ++ rest = x ++ c :: y ∧ '\n' ∉ x ∧ isWs c = false

theorem component_skips {U : Uni} {pre w rest : Str} (h : Inside w rest) : Skips U COMPONENTS_RE pre w rest := by
  intro u x v e
  cases hm : COMPONENTS_RE.matchAt U ⟨u.reverse ++ pre, x :: v ++ rest⟩ with
  | none => rfl
  | some q =>
    exfalso
    obtain ⟨z, r, e1, -, hT⟩ := Takes.of_matchAt hm
    rw [COMPONENTS_shape] at hT
    obtain ⟨a, b, s1, rfl, ha, hb⟩ := hT.seq
    obtain ⟨b1, b2, s2, rfl, hb1, hb2⟩ := hb.seq
    have ha := ha.chr.1
    subst ha
    obtain ⟨h3, rfl, -⟩ := hb2.eol
    have hb1 := lang_star_set.1 hb1.lang
    simp only [List.append_nil, List.cons_append, List.nil_append, List.cons.injEq] at e1 h3
    obtain ⟨rfl, e1⟩ := e1
    obtain ⟨y, c, t, e2, hy, hc⟩ := h u v e
    rw [e2] at e1
    have hcb : c ∉ b1 := fun hm => by
      have := hb1 c hm
      have : UC.space.eval U c = true := by simpa [evalSet, spaceIt, Item.eval] using this
      have : isWs c = true := this
      rw [hc] at this; cases this
    have hr : ∃ d k, y = b1 ++ d ∧ r = d ++ k ∧ k ≠ [] ∧ k.head? = some c := by
      rcases List.append_eq_append_iff.1 e1 with ⟨d, h4, h5⟩ | ⟨d, h4, h5⟩
      · cases d with
        | nil => exact ⟨[], c :: t, by simpa using h4.symm, by simpa using h5.symm, by simp, rfl⟩
        | cons g d =>
          simp only [List.cons_append, List.cons.injEq] at h5
          exact absurd (by rw [h4, h5.1]; simp) hcb
      · exact ⟨d, c :: t, h4, h5, by simp, rfl⟩
    obtain ⟨d, k, rfl, rfl, hk, hkc⟩ := hr
    rcases h3 with h3 | h3
    · simp [hk] at h3
    · cases d with
      | nil =>
        simp only [List.nil_append] at h3
        rw [hkc] at h3; cases h3; revert hc; decide
      | cons g d =>
        simp at h3
        subst h3
        exact hy (by simp)

theorem component_match {U : Uni} {pre rest : Str} (h : rest = [] ∨ rest.head? = some '\n') :
    COMPONENTS_RE.matchAt U ⟨pre, ['|'] ++ rest⟩ = some (⟨['|'].reverse ++ pre, rest⟩, []) := by
  have e : ['|'] ++ rest = (['|'] ++ ([] ++ [])) ++ rest := by simp
  rw [COMPONENTS_shape, e]
  have := Heads.matchAt (U := U) (pre := pre) (w := ['|'] ++ ([] ++ [])) (rest := rest) (s := [])
    (r := .seq (chrRe '|') (.seq (.star false (.set false spaceIt)) .eol)) (.seq .chr ?_)
  · simpa using this
  · cases rest with
    | nil => exact ⟨[], by simp [Re.all, starAll]⟩
    | cons x rest =>
      simp at h
      subst h
      refine ⟨(if evalSet U false spaceIt '\n' then (Re.star false (.set false spaceIt)).all U ⟨'\n' :: (['|'].reverse ++ pre), rest⟩ [] else []).flatMap
        (fun p => Re.eol.all U p.1 p.2), ?_⟩
      rw [all_seq]
      simp only [List.nil_append, List.append_nil, List.reverse_nil, List.reverse_cons, List.singleton_append]
      rw [all_star_cons]
      simp [Re.all]

theorem components_nonnull : COMPONENTS_RE.nonnull = true := by decide

/-- Rows, each followed by a bar. -/
theorem component_segs {U : Uni} : ∀ {bs : List Str} {b : Str} (pre : Str), (∀ x ∈ b :: bs, ∀ rest, Inside x ('|' :: rest)) →
    (∀ x ∈ bs, x.head? = some '\n') →
    ∃ ms, Segs U COMPONENTS_RE pre (b ++ (['|'] ++ bs.flatMap (fun x => x ++ ['|']))) ms [] ∧ ms.map (·.gap) = b :: bs
  | [], b, pre, h, _ => by
    refine ⟨[⟨b, ['|'], []⟩], ?_, rfl⟩
    have hs := component_skips (U := U) (pre := pre) (h b (by simp) [])
    exact .hit (whole := ['|']) (rest := []) (by simpa using hs) (component_match (.inl rfl)) (by simp) (.done (by rfl))
  | b' :: bs, b, pre, h, hb => by
    obtain ⟨ms, h1, h2⟩ := component_segs (U := U) (bs := bs) (b := b') (['|'].reverse ++ (b.reverse ++ pre)) (fun x hx => h x (by simp [List.mem_cons.1 hx]))
      (fun x hx => hb x (by simp [hx]))
    refine ⟨⟨b, ['|'], []⟩ :: ms, ?_, by simp [h2]⟩
    have hs := component_skips (U := U) (pre := pre) (h b (by simp) ((b' :: bs).flatMap (fun x => x ++ ['|'])))
    have e : (b' :: bs).flatMap (fun x => x ++ ['|']) = b' ++ (['|'] ++ bs.flatMap (fun x => x ++ ['|'])) := by simp
    have hh := hb b' (by simp)
    rw [e] at hs ⊢
    refine .hit (whole := ['|']) (by simpa using hs) (component_match (.inr ?_)) (by simp) h1
    cases b' with
    | nil => simp at hh
    | cons x b' => simpa using hh

theorem components_split {U : Uni} {bs : List Str} {b : Str} (h : ∀ x ∈ b :: bs, ∀ rest, Inside x ('|' :: rest)) (hb : ∀ x ∈ bs, x.head? = some '\n')
    (hne : b ≠ []) :
    (COMPONENTS_RE.split U 0 (b ++ (['|'] ++ bs.flatMap (fun x => x ++ ['|'])))).filter (fun r => !r.isEmpty) = b :: bs := by
  obtain ⟨ms, h1, h2⟩ := component_segs (U := U) [] h hb
  unfold Re.split
  rw [Re.matches_of_Segs h1]
  have e : ms.flatMap (fun m => m.gap :: (List.range 0).map (fun i => m.grp (i + 1))) = b :: bs := by
    rw [← h2]
    clear h1 h2
    induction ms with
    | nil => rfl
    | cons m ms ih => rw [List.flatMap_cons, ih]; simp [List.range, List.range.loop]
  simp only [e]
  have hall : (b :: bs).filter (fun r => !r.isEmpty) = b :: bs := by
    rw [List.filter_eq_self]
    intro x hx
    rcases List.mem_cons.1 hx with rfl | hx
    · simpa using hne
    · have := hb x hx
      cases x with
      | nil => simp at this
      | cons => rfl
  rw [List.filter_append, hall]
  simp

/-! ## The start of a row -/

theorem caption_none {U : Uni} {x : Char} {t : Str} (h : x ≠ '=') : CAPTION_RE.captures U ('|' :: x :: t) = none := by
  obtain ⟨r, hr⟩ : ∃ r, CAPTION_RE = .seq .bot (.seq (chrRe '|') (.seq (chrRe '=') r)) := ⟨_, rfl⟩
  rw [hr]
  refine Re.captures_none (Re.search_bot ?_)
  simp [all_seq_set_cons, evalSet_chr, h]

theorem caption_single {U : Uni} : CAPTION_RE.captures U t!"|" = none := by
  obtain ⟨r, hr⟩ : ∃ r, CAPTION_RE = .seq .bot (.seq (chrRe '|') (.seq (chrRe '=') r)) := ⟨_, rfl⟩
  rw [hr]
  refine Re.captures_none (Re.search_bot ?_)
  simp [all_seq_set_cons, evalSet_chr, Re.all]

theorem rmtch_none {U : Uni} {t : Str} : RMTCH_RE.captures U ('|' :: t) = none := by
  rw [RMTCH_shape]
  refine Re.captures_none (Re.search_bot ?_)
  have hq := attrs_quiet (U := U) (pre := []) (rest := '|' :: t) (fun c h => bar_quiet _ (by decide) h) []
  simp [all_seq, Re.all.eq_def (U := U) (Re.grp _ _), hq.1, hq.2.2, all_set_cons, evalSet_chr]

theorem group_plain {U : Uni} {t : Str} (h : ∀ c, t.head? = some c → c ∉ t!"-^~") :
    GRPMATCH_RE.captures U ('|' :: t) = some ⟨[], '|' :: t, [(4, '|' :: t)]⟩ := by
  have hH : Heads U GRPMATCH_RE [] ([] ++ ([] ++ ('|' :: t))) [] [] [(4, '|' :: t)] := by
    rw [GRPMATCH_shape]
    refine .seq (.right ?_ .eps) (.seq .bol (.grp .any))
    have : sectRe.all U ⟨[], '|' :: t⟩ [] = [] := by
      unfold sectRe
      rw [all_seq]
      have h1 : (Re.alt (chrRe ':') .eps).all U ⟨[], '|' :: t⟩ [] = [(⟨[], '|' :: t⟩, [])] := by simp [Re.all, evalSet_chr]
      rw [h1]
      simp only [List.flatMap_cons, List.flatMap_nil, List.append_nil]
      rw [all_seq]
      have h2 : Re.bol.all U ⟨[], '|' :: t⟩ [] = [(⟨[], '|' :: t⟩, [])] := by simp [Re.all]
      rw [h2]
      simp only [List.flatMap_cons, List.flatMap_nil, List.append_nil]
      rw [all_seq_set_cons, evalSet_chr]
      simp only [BEq.rfl, if_true]
      rw [all_seq]
      have h3 : (Re.grp 2 (.set false [.chr '-', .chr '^', .chr '~'])).all U ⟨['|'], t⟩ [] = [] := by
        cases t with
        | nil => rfl
        | cons x t =>
          have := h x rfl
          simp at this
          simp [Re.all, evalSet, Item.eval_chr, this]
      rw [h3]; rfl
    simp [Re.all, this]
  have := Re.search_hit hH.matchAt
  exact Re.captures_eq (rest := []) (by simpa using this) (by simp)

theorem group_sect {U : Uni} {m : Spec.Sect} {t : Str} :
    ∃ s, GRPMATCH_RE.captures U ('|' :: m.mark :: '.' :: '\n' :: '|' :: t) = some ⟨[], '|' :: m.mark :: '.' :: '\n' :: '|' :: t, s⟩ ∧
      alLookup 2 s = some [m.mark] ∧ alLookup 3 s = some [] ∧ alLookup 4 s = some ('|' :: t) := by
  have hsect : Heads U sectRe [] ([] ++ ([] ++ (['|'] ++ ([m.mark] ++ ([] ++ (['.'] ++ ([] ++ ([] ++ ['\n'])))))))) ('|' :: t) [] [(3, []), (2, [m.mark])] := by
    unfold sectRe
    refine .seq (.opt (by simp)) (.seq .bol (.seq .chr (.seq (s1 := [(2, [m.mark])]) (.grp (.set ?_)) (.seq (s1 := [(3, []), (2, [m.mark])]) (.grp ?_) (.seq .chr ?_)))))
    · cases m <;> simp [evalSet, Item.eval_chr, Spec.Sect.mark]
    · have hq := fun pre s => attrs_quiet (U := U) (pre := pre) (rest := '.' :: '\n' :: '|' :: t) (fun c h => by simp at h; subst h; decide) s
      unfold attsRe
      exact Heads.seq (u := []) (v := [] ++ []) (.of_eq (hq _ _).2.1) (.seq (.of_eq (hq _ _).1) (.of_eq (hq _ _).2.2))
    · have hs : evalSet U false spaceIt '\n' = true := rfl
      have hs' : evalSet U false spaceIt '|' = false := rfl
      refine ⟨[], ?_⟩
      rw [all_seq]
      simp only [List.nil_append, List.cons_append]
      rw [all_star_cons, all_star_cons]
      simp [hs, hs', Re.all, evalSet_chr]
  refine ⟨[(4, '|' :: t), (1, ['|', m.mark, '.', '\n']), (3, []), (2, [m.mark])], ?_, by simp [alLookup], by simp [alLookup], by simp [alLookup]⟩
  have hH : Heads U GRPMATCH_RE [] (['|', m.mark, '.', '\n'] ++ ([] ++ ('|' :: t))) [] [] [(4, '|' :: t), (1, ['|', m.mark, '.', '\n']), (3, []), (2, [m.mark])] := by
    rw [GRPMATCH_shape]
    refine .seq (s1 := [(1, ['|', m.mark, '.', '\n']), (3, []), (2, [m.mark])]) (.left (.grp ?_)) (.seq ?_ (.grp .any))
    · simpa using hsect
    · exact ⟨[], by simp [Re.all]⟩
  have := Re.search_hit hH.matchAt
  exact Re.captures_eq (rest := []) (by simpa using this) (by simp)

/-! ## Cells -/

theorem heading_yes {U : Uni} {t : Str} : HEADING_RE.isMatch U ('_' :: '.' :: t) = true := by
  have : Heads U HEADING_RE [] ([] ++ (['_'] ++ [])) ('.' :: t) [] [] := by
    rw [HEADING_shape]
    refine .seq .bot (.seq .chr ?_)
    refine ⟨[], ?_⟩
    have h1 : evalSet U false spaceIt '.' = false := rfl
    have h2 : evalSet U false (t!"-!\"#$%&()*+,/:;<=>?@'[\\].^_`{|}~".map .chr) '.' = true := evalSet_mem (by decide)
    simp only [List.reverse_cons, List.reverse_nil, List.nil_append, List.append_nil, Re.all, h1, h2]
    simp
  unfold Re.isMatch
  rw [show '_' :: '.' :: t = ([] ++ (['_'] ++ [])) ++ '.' :: t by simp, Re.search_hit this.matchAt]
  rfl

theorem heading_no {U : Uni} {t : Str} (h : t.head? ≠ some '_') : HEADING_RE.isMatch U t = false := by
  rw [HEADING_shape]
  refine Re.isMatch_none (Re.search_bot ?_)
  cases t with
  | nil => rfl
  | cons x t =>
    have : x ≠ '_' := by simpa using h
    simp [all_seq_set_cons, evalSet_chr, this]

theorem cell_plain {U : Uni} {t : Str} (h : ∀ c, t.head? = some c → c ∉ '.' :: attrStart) : CMTCH_RE.captures U t = none := by
  rw [CMTCH_shape]
  refine Re.captures_none (Re.search_bot ?_)
  have hq := attrs_quiet (U := U) (pre := []) (rest := t) (fun c hc hm => h c hc (by simp [hm])) []
  have h1 : (Re.alt (chrRe '_') .eps).all U ⟨[], t⟩ [] = [(⟨[], t⟩, [])] := by
    cases t with
    | nil => rfl
    | cons x t =>
      have := h x rfl
      have hx : x ≠ '_' := by rintro rfl; exact this (by decide)
      simp [Re.all, evalSet_chr, hx]
  have h2 : (Re.seq (chrRe '.') (chrRe ' ')).all U ⟨[], t⟩ [] = [] := by
    cases t with
    | nil => rfl
    | cons x t =>
      have := h x rfl
      have hx : x ≠ '.' := by rintro rfl; exact this (by decide)
      simp [all_seq_set_cons, evalSet_chr, hx]
  simp only [all_seq, Re.all.eq_def (U := U) (Re.grp _ _), h1, hq.1, hq.2.1, hq.2.2, List.flatMap_cons, List.flatMap_nil, List.append_nil] at h2 ⊢
  rw [h2]; rfl

theorem cell_heading {U : Uni} {t : Str} : CMTCH_RE.captures U (t!"_. " ++ t) = some ⟨[], t!"_. " ++ t, [(2, t), (1, t!"_. ")]⟩ := by
  have hH : Heads U CMTCH_RE [] ([] ++ (t!"_. " ++ t)) [] [] [(2, t), (1, t!"_. ")] := by
    rw [CMTCH_shape]
    refine .seq .bot (.seq (s1 := [(1, t!"_. ")]) (.grp ?_) (.grp .any))
    have hq := fun pre s => attrs_quiet (U := U) (pre := pre) (rest := '.' :: ' ' :: t) (fun c h => by simp at h; subst h; decide) s
    have : Heads U (.seq (.alt (chrRe '_') .eps) (.seq (.star true spanRe) (.seq (.star true alignRe) (.seq groupsRe (.seq (chrRe '.') (chrRe ' '))))))
        [] (['_'] ++ ([] ++ ([] ++ ([] ++ (['.'] ++ [' ']))))) (t ++ []) [] [] := by
      refine .seq (.left .chr) (.seq (.of_eq ?_) (.seq (.of_eq ?_) (.seq (.of_eq ?_) (.seq .chr .chr))))
      · simpa using (hq _ _).2.1
      · simpa using (hq _ _).1
      · simpa using (hq _ _).2.2
    simpa using this
  have := Re.search_hit hH.matchAt
  exact Re.captures_eq (rest := []) (by simpa using this) (by simp)

/-- White space, and the text after it. -/
theorem cell_space {U : Uni} (t : Str) : ∃ a b s, t = a ++ b ∧ CELL_A_PATTERN_RE.captures U t = some ⟨[], t, s⟩ ∧
    alLookup 1 s = some a ∧ alLookup 2 s = some b := by
  obtain ⟨a, b, e, h1, h2⟩ : ∃ a b, t = a ++ b ∧ (∀ x ∈ a, evalSet U false spaceIt x = true) ∧ ∀ x, b.head? = some x → evalSet U false spaceIt x = false := by
    induction t with
    | nil => exact ⟨[], [], rfl, by simp, by simp⟩
    | cons x t ih =>
      obtain ⟨a, b, e, h1, h2⟩ := ih
      by_cases hx : evalSet U false spaceIt x = true
      · exact ⟨x :: a, b, by simp [e], by simpa using ⟨hx, h1⟩, h2⟩
      · refine ⟨[], x :: t, rfl, by simp, ?_⟩
        intro y hy
        simp at hy; subst hy
        simpa using hx
  refine ⟨a, b, [(2, b), (1, a)], e, ?_, by simp [alLookup], by simp [alLookup]⟩
  have hH : Heads U CELL_A_PATTERN_RE [] (a ++ b) [] [] [(2, b), (1, a)] := by
    rw [CELL_A_shape]
    exact .seq (s1 := [(1, a)]) (.grp (.star h1 (by simpa using h2))) (.grp .any)
  have := Re.search_hit hH.matchAt
  rw [e]
  exact Re.captures_eq (rest := []) (by simpa using this) (by simp)

end Rustextile
