import Verif.CellDoc
import Verif.SpecDefs

/-!
# The patterns of definition lists
-/

namespace Rustextile

open Prog

def dashesRe : Re := .seq (chrRe '-') (.star true (chrRe '-'))

theorem RCLIST_shape : RCLIST_RE = .seq .bol (.seq (.grp 1 (.seq dashesRe (.seq groupsRe (.seq (.set false [.chr ' ', .chr '.'])
    (.seq anysRe (.seq (chrRe ':') (.seq (chrRe '=') anysRe))))))) (.seq .eol (.look true (.set true [.chr '-'])))) := by kernel_rfl

theorem ATTR_CONTENT_shape : ATTR_CONTENT_RE = .seq .bol (.seq dashesRe (.seq (.grp 1 groupsRe) (.seq (.alt (chrRe '.') .eps)
    (.seq (chrRe ' ') (.seq (.grp 2 anysRe) .eol))))) := by kernel_rfl

def gapsRe : Re := .star true (.set false spaceIt)

/-- What ends a definition. -/
def xmEnd : Re := .seq gapsRe (.seq (.alt (.grp 3 (.alt (.seq (chrRe '=') (chrRe ':')) (.seq (chrRe ':') (chrRe '=')))) .eps) (.seq gapsRe .eot))

def lazyRe : Re := .star false (.set true [])

/-- What follows the term. -/
def xmDef : Re := .seq gapsRe (.seq (chrRe ':') (.seq (chrRe '=') (.seq (.grp 2 lazyRe) xmEnd)))

theorem XM_shape : XM_RE = .seq .bot (.seq (.grp 1 lazyRe) xmDef) := by kernel_rfl

/-! ## Shortest texts -/

theorem lazy_first {U : Uni} {s : Caps} {R : Str} : ∀ (X pre : Str), ∃ l1 l2, lazyRe.all U ⟨pre, X ++ R⟩ s = l1 ++ (⟨X.reverse ++ pre, R⟩, s) :: l2 ∧
    ∀ p ∈ l1, ∃ u v, X = u ++ v ∧ v ≠ [] ∧ p = (⟨u.reverse ++ pre, v ++ R⟩, s)
  | [], pre => by
    cases R with
    | nil => exact ⟨[], [], rfl, by simp⟩
    | cons x R =>
      refine ⟨[], (Re.star false (.set true [])).all U ⟨x :: pre, R⟩ s, ?_, by simp⟩
      unfold lazyRe
      rw [List.nil_append, all_star_cons]
      rfl
  | x :: X, pre => by
    obtain ⟨l1, l2, h1, h2⟩ := lazy_first (U := U) (s := s) (R := R) X (x :: pre)
    refine ⟨(⟨pre, x :: X ++ R⟩, s) :: l1, l2, ?_, ?_⟩
    · unfold lazyRe at h1 ⊢
      rw [List.cons_append, all_star_cons]
      have : evalSet U true [] x = true := rfl
      simp only [Bool.false_eq_true, if_false, this, if_true, h1]
      simp
    · intro p hp
      rcases List.mem_cons.1 hp with rfl | hp
      · exact ⟨[], x :: X, rfl, by simp, rfl⟩
      · obtain ⟨u, v, e, hv, rfl⟩ := h2 p hp
        exact ⟨x :: u, v, by rw [e]; rfl, hv, by simp⟩

theorem Heads.lazy {U : Uni} {n : Nat} {K : Re} {pre X D Z : Str} {s s' : Caps} (hK : Heads U K (X.reverse ++ pre) D Z ((n, X) :: s) s')
    (hno : ∀ u v p s, X = u ++ v → v ≠ [] → K.all U ⟨p, v ++ (D ++ Z)⟩ s = []) :
    Heads U (.seq (.grp n lazyRe) K) pre (X ++ D) Z s s' := by
  obtain ⟨l1, l2, h1, h2⟩ := lazy_first (U := U) (s := s) (R := D ++ Z) X pre
  obtain ⟨l, hl⟩ := hK
  have hb : between ⟨pre, X ++ (D ++ Z)⟩ ⟨X.reverse ++ pre, D ++ Z⟩ = X :=
    Adv.between (⟨rfl, rfl⟩ : Adv ⟨pre, X ++ (D ++ Z)⟩ X ⟨X.reverse ++ pre, D ++ Z⟩)
  refine ⟨l ++ (l2.map (fun p => (p.1, (n, between ⟨pre, X ++ (D ++ Z)⟩ p.1) :: p.2))).flatMap (fun p => K.all U p.1 p.2), ?_⟩
  rw [List.append_assoc, all_seq, Re.all, h1]
  simp only [List.map_append, List.map_cons, List.flatMap_append, List.flatMap_cons, hb, hl]
  have : (l1.map (fun p => (p.1, (n, between ⟨pre, X ++ (D ++ Z)⟩ p.1) :: p.2))).flatMap (fun p => K.all U p.1 p.2) = [] := by
    rw [List.flatMap_eq_nil_iff]
    intro p hp
    obtain ⟨q, hq, rfl⟩ := List.mem_map.1 hp
    obtain ⟨u, v, e, hv, rfl⟩ := h2 q hq
    exact hno u v _ _ e hv
  rw [this]
  simp

/-! ## Terms and definitions -/

theorem label_last {up : Char → Bool} {t : Str} (h : Spec.Label up t) {c : Char} (hc : t.getLast? = some c) : isWs c = false ∧ c ∉ t!":=" := by
  have h1 := h.words.chars c (List.mem_of_getLast? hc)
  refine ⟨(plain_nows h1 (by rintro rfl; exact h.last hc)).1, ?_⟩
  simp only [List.mem_cons, List.not_mem_nil, or_false]
  rintro (rfl | rfl) <;> revert h1 <;> decide

theorem label_first {up : Char → Bool} {t : Str} (h : Spec.Label up t) {c : Char} (hc : t.head? = some c) : isWs c = false := by
  have h1 := h.words.chars c (List.mem_of_head? hc)
  exact (plain_nows h1 (by rintro rfl; exact h.first hc)).1

theorem gaps_lang {U : Uni} {w : Str} (h : gapsRe.lang U w) : ∀ c ∈ w, isWs c = true := by
  intro c hc
  have := lang_star_set.1 h c hc
  simpa [spaceIt, evalSet, Item.eval, UC.eval] using this

theorem last_suffix {t u v : Str} (e : t = u ++ v) (hv : v ≠ []) : v.getLast? = t.getLast? := by
  rw [e, getLast_append_ne hv]

/-- No definition starts within a term. -/
theorem xmDef_none {U : Uni} {up : Char → Bool} {t u v R p : Str} {s : Caps} (h : Spec.Label up t) (e : t = u ++ v) (hv : v ≠ []) :
    xmDef.all U ⟨p, v ++ R⟩ s = [] := by
  apply List.eq_nil_iff_forall_not_mem.2
  intro q hq
  obtain ⟨w, rest, e1, -, h3⟩ := Takes.of_mem hq
  obtain ⟨a, b, s1, rfl, h4, h5⟩ := h3.seq
  obtain ⟨b1, b2, s2, rfl, h6, -⟩ := h5.seq
  obtain ⟨rfl, -⟩ := h6.chr
  have ha := gaps_lang h4.lang
  have hl : ∃ c, v.getLast? = some c ∧ isWs c = false := by
    obtain ⟨c, hc⟩ : ∃ c, v.getLast? = some c := ⟨_, List.getLast?_eq_some_getLast hv⟩
    exact ⟨c, hc, (label_last h (by rw [← last_suffix e hv]; exact hc)).1⟩
  obtain ⟨c, hc, hw⟩ := hl
  have hcol : ':' ∉ v := by
    intro hm
    have := h.words.chars ':' (by rw [e]; simp [hm])
    revert this; decide
  have hno : c ∉ a := fun hm => by rw [ha c hm] at hw; cases hw
  simp only [List.append_assoc] at e1
  rcases List.append_eq_append_iff.1 e1 with ⟨x, e2, -⟩ | ⟨x, e2, e3⟩
  · exact hno (by rw [e2]; simp [List.mem_of_getLast? hc])
  · cases x with
    | nil => rw [List.append_nil] at e2; exact hno (by rw [← e2]; exact List.mem_of_getLast? hc)
    | cons y x =>
      simp at e3
      exact hcol (by rw [e2, ← e3.1]; simp)

/-- A definition ends at its last word. -/
theorem xmEnd_none {U : Uni} {up : Char → Bool} {t u v p : Str} {s : Caps} (h : Spec.Label up t) (hne : t ≠ []) (e : ' ' :: t = u ++ v) (hv : v ≠ []) :
    xmEnd.all U ⟨p, v⟩ s = [] := by
  apply List.eq_nil_iff_forall_not_mem.2
  intro q hq
  obtain ⟨w, rest, e1, -, h3⟩ := Takes.of_mem hq
  obtain ⟨a, b, s1, rfl, h4, h5⟩ := h3.seq
  obtain ⟨b1, b2, s2, rfl, h6, h7⟩ := h5.seq
  obtain ⟨d1, d2, s3, rfl, h8, h9⟩ := h7.seq
  obtain ⟨rfl, rfl, -⟩ := h9.eot
  have ha := gaps_lang h4.lang
  have hd := gaps_lang h8.lang
  obtain ⟨c, hc, hw, hn⟩ : ∃ c, v.getLast? = some c ∧ isWs c = false ∧ c ∉ t!":=" := by
    obtain ⟨c, hc⟩ : ∃ c, v.getLast? = some c := ⟨_, List.getLast?_eq_some_getLast hv⟩
    refine ⟨c, hc, label_last h ?_⟩
    rw [last_suffix e hv] at hc
    rw [← hc, show ' ' :: t = [' '] ++ t from rfl, getLast_append_ne hne]
  have hb : ∀ c ∈ b1, c ∈ t!":=" := by
    rcases h6.alt with h6 | h6
    · obtain ⟨s4, h6, -⟩ := h6.grp
      rcases h6.alt with h6 | h6 <;> obtain ⟨x, y, s5, rfl, g1, g2⟩ := h6.seq <;> rw [g1.chr.1, g2.chr.1] <;> decide
    · rw [h6.eps.1]; simp
  have hm := List.mem_of_getLast? hc
  rw [e1] at hm
  simp only [List.append_nil, List.mem_append] at hm
  rcases hm with hm | hm | hm
  · rw [ha c hm] at hw; cases hw
  · exact hn (hb c hm)
  · rw [hd c hm] at hw; cases hw

theorem gap_heads {U : Uni} {pre rest : Str} {s : Caps} (h : ∀ x, rest.head? = some x → isWs x = false) : Heads U gapsRe pre [] rest s s :=
  Heads.star (by simp) (fun x hx => by simpa [spaceIt, evalSet, Item.eval, UC.eval] using h x hx)

/-- A term with a definition. -/
theorem XM_captures {U : Uni} {up : Char → Bool} {t d : Str} (ht : Spec.Label up t) (hd : Spec.Label up d) (hd0 : d ≠ []) :
    XM_RE.captures U (t ++ ([' ', ':', '=', ' '] ++ d)) = some ⟨[], t ++ ([' ', ':', '=', ' '] ++ d), [(2, ' ' :: d), (1, t)]⟩ := by
  have hE : ∀ {pre s}, Heads U xmEnd pre [] [] s s := by
    intro pre s
    refine .seq (u := []) (v := []) (gap_heads (by simp)) (.seq (u := []) (v := []) (.right ?_ .eps) (.seq (u := []) (v := []) (gap_heads (by simp)) .eot))
    simp [Re.all, chrRe]
  have hX : Heads U XM_RE [] (t ++ ([' ', ':', '=', ' '] ++ d)) [] [] [(2, ' ' :: d), (1, t)] := by
    rw [XM_shape]
    refine .seq (u := []) (v := t ++ ([' ', ':', '=', ' '] ++ d)) .bot (.lazy ?_ (fun u v p s e hv => xmDef_none ht e hv))
    refine .seq (u := [' ']) (v := [':', '=', ' '] ++ d) (Heads.star (by simp [spaceIt, evalSet, Item.eval, UC.eval]; decide) ?_) ?_
    · intro x hx
      simp at hx; subst hx
      simp [spaceIt, evalSet, Item.eval, UC.eval]; decide
    refine .seq (u := [':']) (v := ['=', ' '] ++ d) .chr (.seq (u := ['=']) (v := ' ' :: d) .chr ?_)
    have := Heads.lazy (U := U) (n := 2) (K := xmEnd) (pre := ['='].reverse ++ ([':'].reverse ++ ([' '].reverse ++ (t.reverse ++ ([].reverse ++ [])))))
      (X := ' ' :: d) (D := []) (Z := []) (s := [(1, t)]) hE (fun u v p s e hv => by simpa using xmEnd_none hd hd0 e hv)
    simpa using this
  have := hX.matchAt
  rw [List.append_nil] at this
  rw [Re.captures_eq (a := []) (w := t ++ ([' ', ':', '=', ' '] ++ d)) (rest := []) (by simpa using Re.search_hit this) (by simp)]

/-- A term without definition. -/
theorem XM_none {U : Uni} {t : Str} (h : ':' ∉ t) : XM_RE.captures U t = none := by
  refine Re.captures_none ?_
  rw [XM_shape]
  apply Re.search_bot
  apply List.eq_nil_iff_forall_not_mem.2
  intro q hq
  obtain ⟨w, rest, e1, -, h3⟩ := Takes.of_mem hq
  obtain ⟨a, b, s1, rfl, -, h5⟩ := h3.seq
  obtain ⟨b1, b2, s2, rfl, -, h7⟩ := h5.seq
  obtain ⟨d1, d2, s3, rfl, h8, -⟩ := h7.seq
  obtain ⟨rfl, -⟩ := h8.chr
  exact h (by rw [e1]; simp)

/-! ## Items -/

theorem ditem_groups (i : Spec.DItem) : i.look.source = i.look.atts.groups.flatMap Spec.Group.source := by
  simp [Spec.Look.source, Spec.DItem.look, Spec.Atts.source, Spec.Atts.marks, Spec.Look.atts]

theorem ditem_head {r : Bool} {i : Spec.DItem} (h : i.look.Ok r) {c : Char} {x : Str} (hc : (i.marks ++ ' ' :: x).head? = some c) : c ∈ t!"([ " := by
  unfold Spec.DItem.marks at hc
  rw [look_source] at hc
  have e1 : lookV i.look = [] := rfl
  have e2 : alignText i.look.align = [] := rfl
  rw [e1, e2] at hc
  unfold lookCls lookLang at hc
  cases h1 : i.look.cls with
  | some p => rw [h1] at hc; simp at hc; subst hc; decide
  | none =>
    cases h2 : i.look.lang with
    | some l => rw [h1, h2] at hc; simp at hc; subst hc; decide
    | none => rw [h1, h2] at hc; simp at hc; subst hc; decide

theorem dash_heads {U : Uni} {pre rest : Str} {s : Caps} (h : rest.head? ≠ some '-') : Heads U dashesRe pre ['-'] rest s s := by
  refine Heads.plus (by simp) (by simp [evalSet_chr]) ?_
  intro x hx
  rw [evalSet_chr]
  simp
  rintro rfl
  exact h hx

theorem look_heads {U : Uni} {r : Bool} {i : Spec.DItem} (h : i.look.Ok r) {pre rest : Str} {s : Caps} (hr : ∀ c, rest.head? = some c → c ∉ t!"([{") :
    Heads U groupsRe pre i.look.source rest s s := by
  have hg := look_groups h
  rw [ditem_groups]
  exact groups_heads hg.1 hg.2 hr

/-- The line of an item. -/
theorem ATTR_CONTENT_captures {U : Uni} {r : Bool} {i : Spec.DItem} (h : i.look.Ok r) (x : Str) :
    ∃ m, ATTR_CONTENT_RE.captures U ('-' :: (i.marks ++ ' ' :: x)) = some m ∧ m.grp 1 = i.look.source ∧ m.grp 2 = x := by
  have hX : Heads U ATTR_CONTENT_RE [] ('-' :: (i.marks ++ ' ' :: x)) [] [] [(2, x), (1, i.look.source)] := by
    rw [ATTR_CONTENT_shape]
    refine .seq (u := []) (v := '-' :: (i.marks ++ ' ' :: x)) .bol (.seq (u := ['-']) (v := i.marks ++ ' ' :: x) (dash_heads ?_) ?_)
    · intro e
      rw [List.append_nil] at e
      exact absurd (ditem_head h e) (by decide)
    have hend : ∀ {pre s}, Heads U (.seq (chrRe ' ') (.seq (.grp 2 anysRe) .eol)) pre (' ' :: x) [] s ((2, x) :: s) := by
      intro pre s
      refine .seq (u := [' ']) (v := x) .chr ?_
      have := Heads.seq (U := U) (a := .grp 2 anysRe) (b := .eol) (pre := [' '].reverse ++ pre) (u := x) (v := []) (rest := []) (s := s) (.grp Heads.any) .eol
      simpa using this
    unfold Spec.DItem.marks
    by_cases he : i.look.source = []
    · rw [if_pos he, he]
      refine .seq (u := []) (v := ' ' :: x) (.grp ?_) (.seq (u := []) (v := ' ' :: x) (.opt (by simp)) hend)
      have := look_heads (U := U) h (pre := ['-'].reverse ++ ([].reverse ++ [])) (rest := ' ' :: x ++ []) (s := []) (by simp)
      rwa [he] at this
    · rw [if_neg he, List.append_assoc]
      refine .seq (u := i.look.source) (v := ['.'] ++ ' ' :: x) (.grp (look_heads h (by simp))) (.seq (u := ['.']) (v := ' ' :: x) (.left .chr) hend)
  have := hX.matchAt
  rw [List.append_nil] at this
  exact ⟨_, Re.captures_eq (a := []) (w := '-' :: (i.marks ++ ' ' :: x)) (rest := []) (by simpa using Re.search_hit this) (by simp), rfl, rfl⟩

theorem any_takes {U : Uni} {pre w rest : Str} {s : Caps} : Takes U anysRe pre w rest s s :=
  .of_lang rfl (lang_star_set.2 (fun _ _ => rfl))

theorem Heads.takes {U : Uni} {r : Re} {pre w rest : Str} {s s' : Caps} (h : Heads U r pre w rest s s') : Takes U r pre w rest s s' := by
  obtain ⟨l, hl⟩ := h
  unfold Takes
  rw [hl]
  exact List.mem_cons_self

/-- A definition list takes everything up to the end of the text. -/
theorem RCLIST_match {U : Uni} {r : Bool} {i : Spec.DItem} (h : i.look.Ok r) {x : Str} (hx : [':', '='] <:+: x) :
    ∃ s, RCLIST_RE.matchAt U ⟨[], '-' :: (i.marks ++ ' ' :: x)⟩ = some (⟨('-' :: (i.marks ++ ' ' :: x)).reverse, []⟩, s) := by
  obtain ⟨a, b, rfl⟩ := hx
  have hbody : ∀ {pre s y}, Takes U (.seq anysRe (.seq (chrRe ':') (.seq (chrRe '=') anysRe))) pre (y ++ (a ++ [':', '='] ++ b)) [] s s := by
    intro pre s y
    have := Takes.mkSeq (U := U) (pre := pre) (rest := []) (u := y ++ a) (v := [':'] ++ (['='] ++ b)) any_takes
      (.mkSeq (u := [':']) (v := ['='] ++ b) .mkChr (.mkSeq (u := ['=']) (v := b) .mkChr (any_takes (s := s))))
    simpa using this
  have hin : ∃ s', Takes U (.seq dashesRe (.seq groupsRe (.seq (.set false [.chr ' ', .chr '.']) (.seq anysRe (.seq (chrRe ':') (.seq (chrRe '=') anysRe))))))
      [] ('-' :: (i.marks ++ ' ' :: (a ++ [':', '='] ++ b))) [] [] s' := by
    refine ⟨[], .mkSeq (u := ['-']) (v := i.marks ++ ' ' :: (a ++ [':', '='] ++ b)) (dash_heads ?_).takes ?_⟩
    · intro e
      rw [List.append_nil] at e
      exact absurd (ditem_head h e) (by decide)
    unfold Spec.DItem.marks
    by_cases he : i.look.source = []
    · rw [if_pos he]
      refine .mkSeq (u := []) (v := ' ' :: (a ++ [':', '='] ++ b)) ?_ (.mkSeq (u := [' ']) (v := a ++ [':', '='] ++ b) (.mkSet (by simp [evalSet, Item.eval_chr])) (hbody (y := [])))
      have := (look_heads (U := U) h (pre := ['-'].reverse ++ []) (rest := ' ' :: (a ++ [':', '='] ++ b) ++ []) (s := []) (by simp)).takes
      rwa [he] at this
    · rw [if_neg he, List.append_assoc]
      exact .mkSeq (u := i.look.source) (v := ['.'] ++ ' ' :: (a ++ [':', '='] ++ b)) (look_heads h (by simp)).takes
        (.mkSeq (u := ['.']) (v := ' ' :: (a ++ [':', '='] ++ b)) (.mkSet (by simp [evalSet, Item.eval_chr])) (hbody (y := [' '])))
  generalize '-' :: (i.marks ++ ' ' :: (a ++ [':', '='] ++ b)) = T at hin
  obtain ⟨s', hin⟩ := hin
  have ht : Takes U RCLIST_RE [] T [] [] ((1, T) :: s') := by
    rw [RCLIST_shape]
    have h1 : Takes U (.seq .eol (.look true (.set true [.chr '-']))) (T.reverse ++ []) [] [] ((1, T) :: s') ((1, T) :: s') :=
      .mkSeq (u := []) (v := []) Heads.eol.takes (.mkLookNeg rfl)
    have h2 := Takes.mkSeq (U := U) (rest := []) (u := T) (v := []) (by simpa using hin.mkGrp (n := 1)) h1
    have h3 := Takes.mkSeq (U := U) (a := .bol) (pre := []) (u := []) (v := T ++ []) (rest := []) (by simpa using Heads.bol.takes) h2
    simpa using h3
  have hall : ∀ p ∈ RCLIST_RE.all U ⟨[], T⟩ [], p.1 = ⟨T.reverse, []⟩ := by
    intro p hp
    rw [RCLIST_shape] at hp
    obtain ⟨w, rest, e1, e2, h3⟩ := Takes.of_mem hp
    obtain ⟨u1, v1, s1, rfl, -, h4⟩ := h3.seq
    obtain ⟨u2, v2, s2, rfl, -, h5⟩ := h4.seq
    obtain ⟨u3, v3, s3, rfl, h6, h7⟩ := h5.seq
    obtain ⟨g6, rfl, -⟩ := h6.eol
    obtain ⟨g7, rfl, -⟩ := h7.look_neg
    rw [List.nil_append] at g6
    rcases g6 with rfl | g6
    · rw [e2, e1]; simp
    · cases rest with
      | nil => cases g6
      | cons y rest =>
        simp at g6; subst g6
        simp [Re.all, evalSet, Item.eval_chr] at g7
  rw [Re.matchAt_eq]
  have hm : (⟨T.reverse, []⟩, (1, T) :: s') ∈ RCLIST_RE.all U ⟨[], T⟩ [] := by
    unfold Takes at ht
    simpa using ht
  cases hl : RCLIST_RE.all U ⟨[], T⟩ [] with
  | nil => rw [hl] at hm; cases hm
  | cons p l =>
    refine ⟨p.2, ?_⟩
    have := hall p (by rw [hl]; simp)
    simp [← this]

/-! ## Lines -/

theorem DSPLIT_none {U : Uni} {pre xs : Str} {x : Char} (h : x ≠ '\n') : RCLIST_SPLIT_RE.matchAt U ⟨pre, x :: xs⟩ = none := by
  have : evalSet U false [.chr '\n'] x = false := by rw [evalSet_chr]; simpa using h
  simp [Re.matchAt_eq, RCLIST_SPLIT_RE, Re.all, this]

theorem DSPLIT_end {U : Uni} {pre xs : Str} (h : ∀ x, xs.head? = some x → x ≠ '-') :
    RCLIST_SPLIT_RE.matchAt U ⟨pre, '\n' :: xs⟩ = none := by
  have h0 : evalSet U false [.chr '\n'] '\n' = true := by rw [evalSet_chr]; rfl
  cases xs with
  | nil => simp [Re.matchAt_eq, RCLIST_SPLIT_RE, Re.all, h0]
  | cons x xs =>
    have := h x rfl
    have h1 : evalSet U false [.chr '-'] x = false := by rw [evalSet_chr]; simpa using this
    simp [Re.matchAt_eq, RCLIST_SPLIT_RE, Re.all, h0, h1]

theorem DSPLIT_hit {U : Uni} {pre xs : Str} :
    RCLIST_SPLIT_RE.matchAt U ⟨pre, '\n' :: '-' :: xs⟩ = some (⟨'\n' :: pre, '-' :: xs⟩, []) := by
  have h0 : evalSet U false [.chr '\n'] '\n' = true := by rw [evalSet_chr]; rfl
  have h1 : evalSet U false [.chr '-'] '-' = true := by rw [evalSet_chr]; rfl
  simp [Re.matchAt_eq, RCLIST_SPLIT_RE, Re.all, h0, h1]

theorem dsplit_segs {U : Uni} : ∀ {ls : List Str}, ls ≠ [] → (∀ l ∈ ls, '\n' ∉ l ∧ l.head? = some '-') → ∀ pre,
    ∃ ms tail, Segs U RCLIST_SPLIT_RE pre (Spec.join t!"\n" ls ++ t!"\n\n") ms tail ∧
      (ms.flatMap (fun m => m.gap :: (List.range 0).map (fun i => m.grp (i + 1)))) ++ [tail] = extendLast t!"\n\n" ls
  | [], h, _, _ => absurd rfl h
  | [l], _, h, pre => by
    refine ⟨[], l ++ t!"\n\n", Segs.done ?_, rfl⟩
    have hl := (h l (by simp)).1
    have hsk : Skips U RCLIST_SPLIT_RE pre (l ++ t!"\n\n") [] := by
      intro u x v e
      by_cases hx : x = '\n'
      · subst hx
        apply DSPLIT_end
        intro y hy
        have : y = '\n' := by
          rcases List.append_eq_append_iff.1 e with ⟨a, rfl, e2⟩ | ⟨a, rfl, e2⟩
          · cases a with
            | nil => simp at e2; subst e2; simp at hy; exact hy.symm
            | cons b a => simp at e2; obtain ⟨rfl, e2⟩ := e2; cases a with
              | nil => simp at e2; subst e2; simp at hy
              | cons c a => simp at e2
          · cases a with
            | nil => simp at e2; subst e2; simp at hy; exact hy.symm
            | cons b a => simp at e2; obtain ⟨rfl, e2⟩ := e2; exact absurd (by simp) hl
        subst this; decide
      · exact DSPLIT_none hx
    have := Re.search_skips hsk
    simp only [List.append_nil] at this
    rw [show Spec.join t!"\n" [l] = l by simp [Spec.join], this]
    rfl
  | l :: m :: ls, _, h, pre => by
    obtain ⟨ms, tail, h1, h2⟩ := dsplit_segs (U := U) (ls := m :: ls) (by simp)
      (fun q hq => h q (List.mem_cons_of_mem _ hq)) (['\n'] ++ (l.reverse ++ pre))
    refine ⟨⟨l, ['\n'], []⟩ :: ms, tail, ?_, ?_⟩
    · rw [join_cons (by simp), List.append_assoc, List.append_assoc]
      refine Segs.hit ?_ ?_ (by simp) h1
      · intro u x v e
        refine DSPLIT_none ?_
        rintro rfl
        exact (h l (by simp)).1 (by rw [e]; simp)
      · obtain ⟨xs, e⟩ : ∃ xs, m = '-' :: xs := by
          have := (h m (by simp)).2
          cases m with
          | nil => cases this
          | cons c xs => simp at this; exact ⟨xs, by rw [this]⟩
        obtain ⟨ys, hy⟩ : ∃ ys, Spec.join t!"\n" (m :: ls) ++ t!"\n\n" = '-' :: ys := by
          cases ls with
          | nil => exact ⟨_, by rw [Spec.join, e]; rfl⟩
          | cons q ls => exact ⟨_, by rw [join_cons (by simp), e]; rfl⟩
        rw [hy]
        exact DSPLIT_hit
    · rw [extendLast, ← h2]
      rfl

/-- A definition list falls into its lines. -/
theorem dsplit_list (U : Uni) {ls : List Str} (hne : ls ≠ []) (h : ∀ l ∈ ls, '\n' ∉ l ∧ l.head? = some '-') :
    RCLIST_SPLIT_RE.split U 0 (Spec.join t!"\n" ls ++ t!"\n\n") = extendLast t!"\n\n" ls := by
  obtain ⟨ms, tail, h1, h2⟩ := dsplit_segs (U := U) hne h []
  unfold Re.split
  rw [Re.matches_of_Segs h1]
  exact h2

end Rustextile
