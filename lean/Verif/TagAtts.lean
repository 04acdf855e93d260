import Verif.AttrValues
import Verif.InlineText

/-!
# The tag of a block with attributes
-/

namespace Rustextile

/-! ## Building matches -/

theorem Takes.mkSeq {U : Uni} {a b : Re} {pre u v rest : Str} {s s1 s' : Caps} (h1 : Takes U a pre u (v ++ rest) s s1)
    (h2 : Takes U b (u.reverse ++ pre) v rest s1 s') : Takes U (.seq a b) pre (u ++ v) rest s s' := by
  unfold Takes at *
  rw [mem_seq]
  exact ⟨_, _, by rw [List.append_assoc]; exact h1, by rw [List.reverse_append, List.append_assoc]; exact h2⟩

theorem Takes.mkLeft {U : Uni} {a b : Re} {pre w rest : Str} {s s' : Caps} (h : Takes U a pre w rest s s') :
    Takes U (.alt a b) pre w rest s s' := mem_alt.2 (.inl h)

theorem Takes.mkRight {U : Uni} {a b : Re} {pre w rest : Str} {s s' : Caps} (h : Takes U b pre w rest s s') :
    Takes U (.alt a b) pre w rest s s' := mem_alt.2 (.inr h)

theorem Takes.mkSet {U : Uni} {n : Bool} {it : List Item} {pre rest : Str} {c : Char} {s : Caps} (h : evalSet U n it c = true) :
    Takes U (.set n it) pre [c] rest s s := mem_set.2 ⟨c, rest, rfl, h, rfl⟩

theorem Takes.mkChr {U : Uni} {pre rest : Str} {c : Char} {s : Caps} : Takes U (.set false [.chr c]) pre [c] rest s s :=
  .mkSet (by rw [evalSet_chr]; simp)

theorem Takes.mkEps {U : Uni} {pre rest : Str} {s : Caps} : Takes U .eps pre [] rest s s := by
  simp [Takes, Re.all]

theorem Takes.mkGrp {U : Uni} {n : Nat} {r : Re} {pre w rest : Str} {s s' : Caps} (h : Takes U r pre w rest s s') :
    Takes U (.grp n r) pre w rest s ((n, w) :: s') := by
  have : Adv ⟨pre, w ++ rest⟩ w ⟨w.reverse ++ pre, rest⟩ := ⟨rfl, rfl⟩
  exact mem_grp.2 ⟨_, s', h, by rw [this.between]⟩

theorem starAll_nil {ab : Cur → Caps → List (Cur × Caps)} {g : Bool} {f : Str} {c : Cur} {s : Caps} : (c, s) ∈ starAll ab g f c s := by
  cases f <;> unfold starAll
  · simp
  · cases g <;> simp

theorem starAll_cons {ab : Cur → Caps → List (Cur × Caps)} {g : Bool} {x : Char} {f : Str} {c : Cur} {s : Caps} {q p : Cur × Caps}
    (hq : q ∈ ab c s) (hp : p ∈ starAll ab g f q.1 q.2) : p ∈ starAll ab g (x :: f) c s := by
  unfold starAll
  cases g
  · simp only [Bool.false_eq_true, if_false, List.mem_cons, List.mem_flatMap]
    exact .inr ⟨q, hq, hp⟩
  · simp only [if_true, List.mem_append, List.mem_flatMap]
    exact .inl ⟨q, hq, hp⟩

theorem starAll_more {ab : Cur → Caps → List (Cur × Caps)} {g : Bool} : ∀ {f f' : Str} {c : Cur} {s : Caps} {p : Cur × Caps},
    f.length ≤ f'.length → p ∈ starAll ab g f c s → p ∈ starAll ab g f' c s
  | [], f', c, s, p, _, h => by
    simp only [starAll, List.mem_singleton] at h
    subst h; exact starAll_nil
  | x :: f, [], _, _, _, hl, _ => by simp at hl
  | x :: f, y :: f', c, s, p, hl, h => by
    have h' : p = (c, s) ∨ p ∈ (ab c s).flatMap (fun p => starAll ab g f p.1 p.2) := by
      unfold starAll at h
      cases g
      · simpa using h
      · simp only [if_true, List.mem_append, List.mem_singleton] at h; exact h.symm
    rcases h' with rfl | h'
    · exact starAll_nil
    · obtain ⟨q, hq, hp⟩ := List.mem_flatMap.1 h'
      exact starAll_cons hq (starAll_more (by simpa using hl) hp)

theorem Takes.mkStop {U : Uni} {g : Bool} {r : Re} {pre rest : Str} {s : Caps} : Takes U (.star g r) pre [] rest s s := starAll_nil

theorem Takes.mkMore {U : Uni} {g : Bool} {r : Re} {pre u v rest : Str} {s s1 s' : Caps} (hne : u ≠ [])
    (h1 : Takes U r pre u (v ++ rest) s s1) (h2 : Takes U (.star g r) (u.reverse ++ pre) v rest s1 s') :
    Takes U (.star g r) pre (u ++ v) rest s s' := by
  unfold Takes at *
  simp only [Re.all] at h2 ⊢
  cases u with
  | nil => exact absurd rfl hne
  | cons x u =>
    rw [show x :: u ++ v ++ rest = x :: (u ++ (v ++ rest)) by simp]
    refine starAll_cons (q := (⟨(x :: u).reverse ++ pre, v ++ rest⟩, s1)) (by simpa using h1) ?_
    refine starAll_more (f := v ++ rest) (by simp) ?_
    rw [List.reverse_append, List.append_assoc]
    exact h2

/-- Neither assertions nor groups nor back references; loops over words that are not empty. -/
def Re.simple : Re → Bool
  | .eps => true
  | .set _ _ => true
  | .seq a b => a.simple && b.simple
  | .alt a b => a.simple && b.simple
  | .star _ r => r.simple && r.nonnull
  | _ => false

theorem Takes.of_lang {U : Uni} : ∀ {r : Re}, r.simple = true → ∀ {w : Str}, r.lang U w → ∀ {pre rest : Str} {s : Caps},
    Takes U r pre w rest s s
  | .eps, _, w, hl, pre, rest, s => by
    have : w = [] := hl
    subst this; exact .mkEps
  | .set n it, _, w, hl, pre, rest, s => by
    obtain ⟨x, rfl, hx⟩ := hl; exact .mkSet hx
  | .seq a b, h, w, hl, pre, rest, s => by
    simp only [Re.simple, Bool.and_eq_true] at h
    obtain ⟨u, v, rfl, h1, h2⟩ := hl
    exact .mkSeq (Takes.of_lang h.1 h1) (Takes.of_lang h.2 h2)
  | .alt a b, h, w, hl, pre, rest, s => by
    simp only [Re.simple, Bool.and_eq_true] at h
    rcases hl with hl | hl
    · exact .mkLeft (Takes.of_lang h.1 hl)
    · exact .mkRight (Takes.of_lang h.2 hl)
  | .star g r, h, w, hl, pre, rest, s => by
    simp only [Re.simple, Bool.and_eq_true] at h
    obtain ⟨ws, rfl, h1⟩ := hl
    induction ws generalizing pre with
    | nil => exact .mkStop
    | cons u ws ih =>
      rw [List.flatten_cons]
      exact .mkMore (Re.nonnull_lang h.2 (h1 u (by simp))) (Takes.of_lang h.1 (h1 u (by simp)))
        (ih _ (fun v hv => h1 v (List.mem_cons_of_mem _ hv)))

/-! ## Attributes -/

/-- Text between brackets. -/
def box (o c : Char) : Re :=
  .seq (.set false [.chr o]) (.seq (.seq (.set true [.chr c, .chr '\n']) (.star true (.set true [.chr c, .chr '\n']))) (.set false [.chr c]))

theorem box_lang {U : Uni} {o c : Char} {w : Str} : (box o c).lang U w ↔ ∃ v, w = [o] ++ (v ++ [c]) ∧ v ≠ [] ∧ c ∉ v ∧ '\n' ∉ v := by
  unfold box
  have hs : ∀ x, evalSet U true [.chr c, .chr '\n'] x = true ↔ x ≠ c ∧ x ≠ '\n' := by
    intro x
    simp only [evalSet, Item.eval, List.any_cons, List.any_nil, Bool.or_false]
    constructor
    · intro h
      refine ⟨?_, ?_⟩ <;> rintro rfl <;> simp at h
    · rintro ⟨h1, h2⟩
      have a1 : x.toNat ≠ c.toNat := fun e => h1 (char_toNat_inj e)
      have a2 : x.toNat ≠ '\n'.toNat := fun e => h2 (char_toNat_inj e)
      simp [beq_eq_false_iff_ne.2 a1, a2] at *
      try omega
  simp only [lang_seq, lang_chr, lang_star_set]
  constructor
  · rintro ⟨u, v, rfl, rfl, x, y, rfl, ⟨a, b, rfl, ⟨z, rfl, hz⟩, hb⟩, rfl⟩
    rw [hs] at hz
    refine ⟨[z] ++ b, rfl, by simp, ?_, ?_⟩
    · intro h
      rcases List.mem_append.1 h with h | h
      · simp at h; exact hz.1 h.symm
      · exact ((hs c).1 (hb c h)).1 rfl
    · intro h
      rcases List.mem_append.1 h with h | h
      · simp at h; exact hz.2 h.symm
      · exact ((hs '\n').1 (hb '\n' h)).2 rfl
  · rintro ⟨v, rfl, h1, h2, h3⟩
    cases v with
    | nil => exact absurd rfl h1
    | cons z v =>
      refine ⟨[o], _, rfl, rfl, z :: v, [c], rfl, ⟨[z], v, rfl, ⟨z, rfl, ?_⟩, ?_⟩, rfl⟩
      · rw [hs]; simp at h2 h3; exact ⟨fun e => h2.1 e.symm, fun e => h3.1 e.symm⟩
      · intro x hx
        rw [hs]
        exact ⟨by rintro rfl; exact h2 (by simp [hx]), by rintro rfl; exact h3 (by simp [hx])⟩

/-- Groups of attributes in any order. -/
def groupsRe : Re :=
  match tagAtts with
  | .seq _ (.seq a _) => a
  | _ => .eps

/-- An alignment, or a run of paddings. -/
def alignRe : Re :=
  match tagAtts with
  | .seq (.star _ a) _ => a
  | _ => .eps

theorem tagAtts_shape : tagAtts = .seq (.star true alignRe) (.seq groupsRe (.star true alignRe)) := by kernel_rfl

abbrev boxC : Re := box '(' ')'
abbrev boxS : Re := box '{' '}'
abbrev boxL : Re := box '[' ']'

theorem groups_shape : groupsRe = .alt (.alt
    (.seq boxC (.alt (.alt (.seq boxL (.alt boxS .eps)) (.seq boxS (.alt boxL .eps))) .eps)) (.alt
    (.seq boxL (.alt (.alt (.seq boxC (.alt boxS .eps)) (.seq boxS (.alt boxC .eps))) .eps))
    (.seq boxS (.alt (.alt (.seq boxC (.alt boxL .eps)) (.seq boxL (.alt boxC .eps))) .eps)))) .eps := by kernel_rfl

theorem align_shape : alignRe = .alt
    (.alt (.seq (.set false [.chr '<']) (.look true (.set false [.chr '>'])))
      (.alt (.seq (.behind true 1 (.set false [.chr '<'])) (.set false [.chr '>']))
        (.alt (.seq (.set false [.chr '<']) (.set false [.chr '>']))
          (.alt (.set false [.chr '='])
            (.seq (.seq (.set false [.chr '(', .chr ')']) (.star true (.set false [.chr '(', .chr ')']))) (.look true (.set false [.chr ' '])))))))
    (.set false [.chr '-', .chr '^', .chr '~']) := by kernel_rfl

def kindBox : Spec.Kind → Re
  | .classes => boxC
  | .style => boxS
  | .lang => boxL

theorem group_box {U : Uni} {g : Spec.Group} (h : g.Ok) : (kindBox g.kind).lang U g.source := by
  have key : ∀ {o c : Char} {v : Str}, v ≠ [] → c ∉ v → '\n' ∉ v → (box o c).lang U ([o] ++ (v ++ [c])) :=
    fun h1 h2 h3 => box_lang.2 ⟨_, rfl, h1, h2, h3⟩
  cases g with
  | classes n i =>
    cases i with
    | none =>
      refine key (v := n) (fun e => h.2.1 e rfl) ?_ ?_
      · intro hc; rcases h.1 _ hc with hc | hc <;> revert hc <;> first | decide | (unfold Spec.NameChar; decide)
      · intro hc; rcases h.1 _ hc with hc | hc <;> revert hc <;> first | decide | (unfold Spec.NameChar; decide)
    | some i =>
      have e : (Spec.Group.classes n (some i)).source = ['('] ++ ((n ++ (['#'] ++ i)) ++ [')']) := by simp [Spec.Group.source]
      rw [e]
      have hi := (h.2.2 i rfl).2
      have g1 : ∀ c : Char, ¬ Spec.NameChar c → c ≠ ' ' → c ≠ '#' → c ≠ ':' → c ∉ n ++ (['#'] ++ i) := by
        intro c h1 h2 h3 h4 hc
        simp only [List.mem_append, List.mem_singleton] at hc
        rcases hc with hc | hc | hc
        · rcases h.1 c hc with hc | hc
          · exact h1 hc
          · exact h2 hc
        · exact h3 hc
        · rcases hi c hc with hc | hc
          · exact h1 hc
          · exact h4 hc
      exact key (by simp) (g1 _ (by unfold Spec.NameChar; decide) (by decide) (by decide) (by decide))
        (g1 _ (by unfold Spec.NameChar; decide) (by decide) (by decide) (by decide))
  | style ds =>
    obtain ⟨h1, h2⟩ := h
    refine key (v := Spec.join [';'] ds) ?_ ?_ ?_
    · cases ds with
      | nil => exact absurd rfl h1
      | cons d ds =>
        have := (h2 d (by simp)).1
        cases ds with
        | nil => exact this
        | cons e ds => intro e'; simp [Spec.join] at e'
    · refine join_nochar (by decide) (fun d hd hc => ?_)
      have := (h2 d hd).2.2.2 _ hc
      revert this; unfold Spec.StyleChar Spec.NameChar; decide
    · refine join_nochar (by decide) (fun d hd hc => ?_)
      have := (h2 d hd).2.2.2 _ hc
      revert this; unfold Spec.StyleChar Spec.NameChar; decide
  | lang l =>
    refine key (v := l) h.1 ?_ ?_
    · intro hc; have := h.2 _ hc; revert this; unfold Spec.NameChar; decide
    · intro hc; have := h.2 _ hc; revert this; unfold Spec.NameChar; decide

theorem groups_lang {U : Uni} {gs : List Spec.Group} (h : ∀ g ∈ gs, g.Ok) (hn : (gs.map Spec.Group.kind).Nodup) :
    groupsRe.lang U (gs.flatMap Spec.Group.source) := by
  rw [groups_shape]
  simp only [lang_alt, lang_seq, lang_eps]
  match gs, h, hn with
  | [], _, _ => exact .inr rfl
  | [a], h, _ =>
    left
    have ha := group_box (U := U) (h a (by simp))
    cases hk : a.kind <;> rw [hk] at ha
    · exact .inl ⟨_, [], by simp, ha, .inr rfl⟩
    · exact .inr (.inr ⟨_, [], by simp, ha, .inr rfl⟩)
    · exact .inr (.inl ⟨_, [], by simp, ha, .inr rfl⟩)
  | [a, b], h, hn =>
    left
    have ha := group_box (U := U) (h a (by simp))
    have hb := group_box (U := U) (h b (by simp))
    cases hk : a.kind <;> cases hl : b.kind <;> rw [hk] at ha <;> rw [hl] at hb <;> simp [hk, hl] at hn
    · exact .inl ⟨a.source, b.source ++ [], by simp, ha, .inl (.inr ⟨_, [], rfl, hb, .inr rfl⟩)⟩
    · exact .inl ⟨a.source, b.source ++ [], by simp, ha, .inl (.inl ⟨_, [], rfl, hb, .inr rfl⟩)⟩
    · exact .inr (.inr ⟨a.source, b.source ++ [], by simp, ha, .inl (.inl ⟨_, [], rfl, hb, .inr rfl⟩)⟩)
    · exact .inr (.inr ⟨a.source, b.source ++ [], by simp, ha, .inl (.inr ⟨_, [], rfl, hb, .inr rfl⟩)⟩)
    · exact .inr (.inl ⟨a.source, b.source ++ [], by simp, ha, .inl (.inl ⟨_, [], rfl, hb, .inr rfl⟩)⟩)
    · exact .inr (.inl ⟨a.source, b.source ++ [], by simp, ha, .inl (.inr ⟨_, [], rfl, hb, .inr rfl⟩)⟩)
  | [a, b, c], h, hn =>
    left
    have ha := group_box (U := U) (h a (by simp))
    have hb := group_box (U := U) (h b (by simp))
    have hc := group_box (U := U) (h c (by simp))
    cases hk : a.kind <;> cases hl : b.kind <;> cases hm : c.kind <;> rw [hk] at ha <;> rw [hl] at hb <;> rw [hm] at hc <;> simp [hk, hl, hm] at hn
    · exact .inl ⟨a.source, b.source ++ c.source, by simp, ha, .inl (.inr ⟨_, _, rfl, hb, .inl hc⟩)⟩
    · exact .inl ⟨a.source, b.source ++ c.source, by simp, ha, .inl (.inl ⟨_, _, rfl, hb, .inl hc⟩)⟩
    · exact .inr (.inr ⟨a.source, b.source ++ c.source, by simp, ha, .inl (.inl ⟨_, _, rfl, hb, .inl hc⟩)⟩)
    · exact .inr (.inr ⟨a.source, b.source ++ c.source, by simp, ha, .inl (.inr ⟨_, _, rfl, hb, .inl hc⟩)⟩)
    · exact .inr (.inl ⟨a.source, b.source ++ c.source, by simp, ha, .inl (.inl ⟨_, _, rfl, hb, .inl hc⟩)⟩)
    · exact .inr (.inl ⟨a.source, b.source ++ c.source, by simp, ha, .inl (.inr ⟨_, _, rfl, hb, .inl hc⟩)⟩)
  | a :: b :: c :: d :: gs, h, hn =>
    exfalso
    simp only [List.map_cons, List.nodup_cons, List.mem_cons, not_or] at hn
    obtain ⟨⟨h1, h2, h3, -⟩, ⟨h4, h5, -⟩, ⟨h6, -⟩, -⟩ := hn
    cases hk : a.kind <;> cases hl : b.kind <;> cases hm : c.kind <;> cases ho : d.kind <;> simp_all

theorem Takes.mkLookNeg {U : Uni} {r : Re} {pre rest : Str} {s : Caps} (h : r.all U ⟨pre, rest⟩ s = []) :
    Takes U (.look true r) pre [] rest s s := by
  simp [Takes, Re.all, h]

theorem look_chr_none {U : Uni} {pre rest : Str} {s : Caps} {c : Char} (h : rest.head? ≠ some c) :
    (Re.set false [.chr c]).all U ⟨pre, rest⟩ s = [] := by
  cases rest with
  | nil => rfl
  | cons x r =>
    have : x ≠ c := by simpa using h
    simp [Re.all, evalSet_chr, this]

/-- An alignment. -/
theorem align_takes {U : Uni} {x : Spec.Align} {pre rest : Str} {s : Caps} (hp : pre.head? ≠ some '<') (hr : rest.head? ≠ some '>') :
    Takes U alignRe pre x.mark rest s s := by
  rw [align_shape]
  cases x with
  | left => exact .mkLeft (.mkLeft (.mkSeq (u := ['<']) (v := []) .mkChr (.mkLookNeg (look_chr_none hr))))
  | center => exact .mkLeft (.mkRight (.mkRight (.mkRight (.mkLeft .mkChr))))
  | right =>
    refine .mkLeft (.mkRight (.mkLeft (.mkSeq (u := []) (v := ['>']) ?_ .mkChr)))
    simp only [Takes, Re.all]
    cases pre with
    | nil => exact List.mem_singleton.2 rfl
    | cons y pre =>
      have : y ≠ '<' := by simpa using hp
      simp [Cur.back, evalSet_chr, this]
  | justify => exact .mkLeft (.mkRight (.mkRight (.mkLeft (.mkSeq (u := ['<']) (v := ['>']) .mkChr .mkChr))))

/-- Paddings. -/
theorem pads_takes {U : Uni} {w pre rest : Str} {s : Caps} (hne : w ≠ []) (hw : ∀ c ∈ w, c = '(' ∨ c = ')') (hr : rest.head? ≠ some ' ') :
    Takes U alignRe pre w rest s s := by
  rw [align_shape]
  refine .mkLeft (.mkRight (.mkRight (.mkRight (.mkRight ?_))))
  have hs : ∀ c ∈ w, evalSet U false [.chr '(', .chr ')'] c = true := by
    intro c hc
    rcases hw c hc with rfl | rfl <;> rfl
  have : Takes U (.seq (.set false [.chr '(', .chr ')']) (.star true (.set false [.chr '(', .chr ')']))) pre w rest s s := by
    refine Takes.of_lang (by decide) ?_
    cases w with
    | nil => exact absurd rfl hne
    | cons x w => exact ⟨[x], w, rfl, ⟨x, rfl, hs x (by simp)⟩, lang_star_set.2 (fun y hy => hs y (by simp [hy]))⟩
  have h2 := Takes.mkSeq (u := w) (v := []) (b := .look true (.set false [.chr ' '])) (rest := rest) (by simpa using this)
    (.mkLookNeg (look_chr_none hr))
  simpa using h2

theorem atts_head {a : Spec.Atts} {rest : Str} {c : Char} (hc : c ∉ t!"([{") (hr : rest.head? ≠ some c) :
    (a.groups.flatMap Spec.Group.source ++ rest).head? ≠ some c := by
  cases hg : a.groups with
  | nil => simpa using hr
  | cons g gs =>
    intro e
    apply hc
    cases g with
    | classes n i => cases i <;> simp [Spec.Group.source] at e <;> simp [e.symm]
    | style ds => simp [Spec.Group.source] at e; simp [e.symm]
    | lang l => simp [Spec.Group.source] at e; simp [e.symm]

/-- Attributes are recognised, also the mark of footnotes after them. -/
theorem atts_takes {U : Uni} {a : Spec.Atts} (h : a.Ok) {pre rest : Str} {s : Caps} (hp : pre.head? ≠ some '<')
    (hr : rest.head? ≠ some ' ' ∧ rest.head? ≠ some '>') : Takes U tagAtts pre a.source rest s s := by
  rw [tagAtts_shape]
  have hg : ∀ pre, Takes U (.seq groupsRe (.star true alignRe)) pre (a.groups.flatMap Spec.Group.source) rest s s := by
    intro pre
    have := Takes.mkSeq (U := U) (u := a.groups.flatMap Spec.Group.source) (v := []) (pre := pre) (rest := rest) (s := s)
      (b := .star true alignRe) (Takes.of_lang (by decide) (groups_lang h.1 h.2)) .mkStop
    simpa using this
  refine .mkSeq ?_ (hg _)
  have hpads : ∀ pre, Takes U (.star true alignRe) pre (List.replicate a.left '(' ++ List.replicate a.right ')')
      (a.groups.flatMap Spec.Group.source ++ rest) s s := by
    intro pre
    by_cases hn : List.replicate a.left '(' ++ List.replicate a.right ')' = []
    · rw [hn]; exact .mkStop
    · have h1 := Takes.mkMore (U := U) (g := true) (u := List.replicate a.left '(' ++ List.replicate a.right ')') (v := []) (pre := pre)
        (rest := a.groups.flatMap Spec.Group.source ++ rest) (s := s) hn
        (pads_takes hn (by
          intro c hc
          rcases List.mem_append.1 hc with hc | hc
          · exact .inl (List.mem_replicate.1 hc).2
          · exact .inr (List.mem_replicate.1 hc).2) (atts_head (a := a) (by decide) hr.1)) .mkStop
      simpa using h1
  unfold Spec.Atts.marks
  cases ha : a.align with
  | none => exact hpads _
  | some x =>
    refine .mkMore (by cases x <;> simp [Spec.Align.mark]) (align_takes hp ?_) (hpads _)
    cases hl : a.left with
    | succ n => simp [List.replicate_succ]
    | zero =>
      cases hrr : a.right with
      | succ n => simp [List.replicate_succ]
      | zero => simpa using atts_head (a := a) (by decide) hr.2

/-! ## A full stop among attributes is in brackets -/

def closerOf (o : Char) : Char := if o = '(' then ')' else if o = '[' then ']' else '}'

/-- Every full stop is in brackets. -/
def Shielded (w : Str) : Prop := ∀ a b, w = a ++ '.' :: b → ∃ a1 o a2, a = a1 ++ o :: a2 ∧ o ∈ t!"([{" ∧ closerOf o ∉ a2 ∧ closerOf o ∈ b

theorem Shielded.append {u v : Str} (h : Shielded u) (h' : Shielded v) : Shielded (u ++ v) := by
  intro a b e
  rcases List.append_eq_append_iff.1 e with ⟨z, rfl, h2⟩ | ⟨z, rfl, h2⟩
  · obtain ⟨a1, o, a2, rfl, h3, h4, h5⟩ := h' z b h2
    exact ⟨u ++ a1, o, a2, by simp, h3, h4, h5⟩
  · cases z with
    | nil =>
      rw [List.nil_append] at h2
      obtain ⟨a1, o, a2, e3, h3, h4, h5⟩ := h' [] b h2.symm
      simp at e3
    | cons c z =>
      simp only [List.cons_append, List.cons.injEq] at h2
      obtain ⟨rfl, rfl⟩ := h2
      obtain ⟨a1, o, a2, e3, h3, h4, h5⟩ := h a z rfl
      exact ⟨a1, o, a2, e3, h3, h4, by simp [h5]⟩

theorem Shielded.flatten : ∀ {ws : List Str}, (∀ w ∈ ws, Shielded w) → Shielded ws.flatten
  | [], _ => by intro a b e; simp at e
  | w :: ws, h => by
    rw [List.flatten_cons]
    exact (h w (by simp)).append (Shielded.flatten (fun v hv => h v (by simp [hv])))

theorem Shielded.nodot {w : Str} (h : '.' ∉ w) : Shielded w := by
  intro a b e; exact absurd (by rw [e]; simp) h

/-- The same for all words of an expression. -/
def Re.shield : Re → Bool
  | .eps => true
  | .set n it => !n && it.all (fun | .chr c => c != '.' | _ => false)
  | .seq a b => decide (Re.seq a b = boxC ∨ Re.seq a b = boxS ∨ Re.seq a b = boxL) || (a.shield && b.shield)
  | .alt a b => a.shield && b.shield
  | .star _ r => r.shield
  | .look _ _ => true
  | .behind _ _ _ => true
  | _ => false

theorem box_shield {U : Uni} {o c : Char} (ho : o ∈ t!"([{") (hc : closerOf o = c) {w : Str} (h : (box o c).lang U w) : Shielded w := by
  obtain ⟨v, rfl, h1, h2, h3⟩ := box_lang.1 h
  intro a b e
  cases a with
  | nil =>
    simp at e
    rw [e.1] at ho
    exact absurd ho (by decide)
  | cons x a =>
    simp only [List.singleton_append, List.cons_append, List.cons.injEq, List.nil_append] at e
    obtain ⟨rfl, e⟩ := e
    refine ⟨[], o, a, rfl, ho, ?_, ?_⟩
    · rw [hc]
      intro hm
      rcases List.append_eq_append_iff.1 e with ⟨z, rfl, h5⟩ | ⟨z, rfl, h5⟩
      · cases z with
        | nil => simp at hm h5; exact h2 hm
        | cons y z => simp at h5
      · exact h2 (by simp [hm])
    · rw [hc]
      have hl : (v ++ [c]).getLast? = some c := by simp
      rw [e] at hl
      cases b with
      | nil =>
        simp at hl
        rw [← hl] at hc
        exact absurd hc ((by decide : ∀ o ∈ t!"([{", closerOf o ≠ '.') o ho)
      | cons y b =>
        rw [getLast_append_ne (by simp), List.getLast?_cons_cons] at hl
        exact List.mem_of_getLast? hl

theorem Re.shield_lang {U : Uni} : ∀ {r : Re}, r.shield = true → ∀ {w : Str}, r.lang U w → Shielded w
  | .eps, _, w, hl => by
    have : w = [] := hl
    subst this; exact .nodot (by simp)
  | .look _ _, _, w, hl => by
    have : w = [] := hl
    subst this; exact .nodot (by simp)
  | .behind _ _ _, _, w, hl => by
    have : w = [] := hl
    subst this; exact .nodot (by simp)
  | .set n it, h, w, hl => by
    obtain ⟨x, rfl, hx⟩ := hl
    apply Shielded.nodot
    intro hm
    simp only [List.mem_singleton] at hm
    subst hm
    simp only [Re.shield, Bool.and_eq_true, Bool.not_eq_true', List.all_eq_true] at h
    obtain ⟨rfl, h⟩ := h
    have hx' : it.any (fun i => i.eval U '.') = true := by simpa [evalSet] using hx
    obtain ⟨i, hi, he⟩ := List.any_eq_true.1 hx'
    have := h i hi
    cases i <;> simp at this
    rename_i c
    simp [Item.eval] at he
    exact this (char_toNat_inj (by simpa using he.symm))
  | .seq a b, h, w, hl => by
    simp only [Re.shield, Bool.or_eq_true, Bool.and_eq_true, decide_eq_true_eq] at h
    rcases h with (h | h | h) | h
    · rw [h] at hl; exact box_shield (by decide) rfl hl
    · rw [h] at hl; exact box_shield (by decide) rfl hl
    · rw [h] at hl; exact box_shield (by decide) rfl hl
    · obtain ⟨u, v, rfl, h1, h2⟩ := hl
      exact (Re.shield_lang h.1 h1).append (Re.shield_lang h.2 h2)
  | .alt a b, h, w, hl => by
    simp only [Re.shield, Bool.and_eq_true] at h
    rcases hl with hl | hl
    · exact Re.shield_lang h.1 hl
    · exact Re.shield_lang h.2 hl
  | .star g r, h, w, hl => by
    simp only [Re.shield] at h
    obtain ⟨ws, rfl, h1⟩ := hl
    exact .flatten (fun u hu => Re.shield_lang h (h1 u hu))

theorem tagAtts_shield : tagAtts.shield = true := by decide +kernel

/-! ## What is recognised in a block `tag atts. text` -/

/-- No word of the expression contains a character of the alphabet. -/
def Re.forbids (A : Alpha) : Re → Bool
  | .set n it => A.never n it
  | .seq a b => a.forbids A && b.forbids A
  | .alt a b => a.forbids A && b.forbids A
  | .star _ r => r.forbids A
  | .grp _ r => r.forbids A
  | .bref _ => false
  | _ => true

theorem Re.forbids_lang {U : Uni} (hU : UniOk U) {A : Alpha} (hw : A.wf = true) : ∀ {r : Re}, r.forbids A = true →
    ∀ {w : Str}, r.lang U w → ∀ c ∈ w, ¬ A.Mem c
  | .set n it, h, w, hl, c, hc, hA => by
    obtain ⟨x, rfl, hx⟩ := hl
    rw [List.mem_singleton] at hc
    rw [Alpha.never_sound hU hw h (c := x) (by rw [← hc]; exact hA)] at hx
    cases hx
  | .seq a b, h, w, hl, c, hc, hA => by
    simp only [Re.forbids, Bool.and_eq_true] at h
    obtain ⟨u, v, rfl, h1, h2⟩ := hl
    rcases List.mem_append.1 hc with hc | hc
    · exact Re.forbids_lang hU hw h.1 h1 c hc hA
    · exact Re.forbids_lang hU hw h.2 h2 c hc hA
  | .alt a b, h, w, hl, c, hc, hA => by
    simp only [Re.forbids, Bool.and_eq_true] at h
    rcases hl with hl | hl
    · exact Re.forbids_lang hU hw h.1 hl c hc hA
    · exact Re.forbids_lang hU hw h.2 hl c hc hA
  | .star _ r, h, w, hl, c, hc, hA => by
    obtain ⟨ws, rfl, h1⟩ := hl
    obtain ⟨u, hu, hc⟩ := List.mem_flatten.1 hc
    exact Re.forbids_lang hU hw (r := r) (by simpa [Re.forbids] using h) (h1 u hu) c hc hA
  | .grp _ r, h, w, hl, c, hc, hA => Re.forbids_lang hU hw (r := r) (by simpa [Re.forbids] using h) (w := w) hl c hc hA
  | .bref _, h, _, _, _, _, _ => by simp [Re.forbids] at h
  | .eps, _, w, hl, c, hc, _ => by have : w = [] := hl; subst this; cases hc
  | .look _ _, _, w, hl, c, hc, _ => by have : w = [] := hl; subst this; cases hc
  | .behind _ _ _, _, w, hl, c, hc, _ => by have : w = [] := hl; subst this; cases hc
  | .bot, _, w, hl, c, hc, _ => by have : w = [] := hl; subst this; cases hc
  | .eot, _, w, hl, c, hc, _ => by have : w = [] := hl; subst this; cases hc
  | .bol, _, w, hl, c, hc, _ => by have : w = [] := hl; subst this; cases hc
  | .eol, _, w, hl, c, hc, _ => by have : w = [] := hl; subst this; cases hc
  | .wordb, _, w, hl, c, hc, _ => by have : w = [] := hl; subst this; cases hc

/-- Words of the expression that are not empty begin with one of these characters. -/
def Re.opens (S : Str) : Re → Bool
  | .eps => true
  | .set n it => !n && it.all (fun | .chr c => S.contains c | _ => false)
  | .seq a b => a.opens S && (a.nonnull || b.opens S)
  | .alt a b => a.opens S && b.opens S
  | .star _ r => r.opens S
  | .look _ _ => true
  | .behind _ _ _ => true
  | _ => false

theorem Re.opens_lang {U : Uni} {S : Str} : ∀ {r : Re}, r.opens S = true → ∀ {w : Str}, r.lang U w → ∀ c v, w = c :: v → c ∈ S
  | .eps, _, w, hl, c, v, e => by have : w = [] := hl; rw [this] at e; cases e
  | .look _ _, _, w, hl, c, v, e => by have : w = [] := hl; rw [this] at e; cases e
  | .behind _ _ _, _, w, hl, c, v, e => by have : w = [] := hl; rw [this] at e; cases e
  | .set n it, h, w, hl, c, v, e => by
    obtain ⟨x, rfl, hx⟩ := hl
    simp only [List.cons.injEq] at e
    obtain ⟨rfl, -⟩ := e
    simp only [Re.opens, Bool.and_eq_true, Bool.not_eq_true', List.all_eq_true] at h
    obtain ⟨rfl, h⟩ := h
    have hx' : it.any (fun i => i.eval U x) = true := by simpa [evalSet] using hx
    obtain ⟨i, hi, he⟩ := List.any_eq_true.1 hx'
    have := h i hi
    cases i <;> simp at this
    rename_i d
    have hd : x = d := by
      apply char_toNat_inj
      simpa [Item.eval] using he
    rw [hd]; exact this
  | .seq a b, h, w, hl, c, v, e => by
    simp only [Re.opens, Bool.or_eq_true, Bool.and_eq_true] at h
    obtain ⟨x, y, rfl, h1, h2⟩ := hl
    cases x with
    | nil =>
      rcases h.2 with h3 | h3
      · exact absurd rfl (Re.nonnull_lang h3 h1)
      · exact Re.opens_lang h3 h2 c v (by simpa using e)
    | cons d x =>
      simp only [List.cons_append, List.cons.injEq] at e
      exact Re.opens_lang h.1 h1 c x (by rw [e.1])
  | .alt a b, h, w, hl, c, v, e => by
    simp only [Re.opens, Bool.and_eq_true] at h
    rcases hl with hl | hl
    · exact Re.opens_lang h.1 hl c v e
    · exact Re.opens_lang h.2 hl c v e
  | .star g r, h, w, hl, c, v, e => by
    simp only [Re.opens] at h
    obtain ⟨ws, rfl, h1⟩ := hl
    induction ws with
    | nil => simp at e
    | cons u ws ih =>
      cases u with
      | nil => exact ih (fun x hx => h1 x (by simp [hx])) (by simpa using e)
      | cons d u =>
        simp only [List.flatten_cons, List.cons_append, List.cons.injEq] at e
        exact Re.opens_lang h (h1 (d :: u) (by simp)) c u (by rw [e.1])

/-- Characters with which attributes begin, and the full stop after a tag. -/
def sepChars : Str := t!"<>=()-^~[{."

def sepA : Alpha := ⟨sepChars, false⟩

theorem tagAtts_opens : tagAtts.opens sepChars = true := by decide +kernel
theorem tagWords_forbids (b : Bool) : (tagWords b).forbids sepA = true := by cases b <;> decide +kernel

/-- Two ways to split a text into characters outside a set and a rest that begins inside it. -/
theorem run_split {S : Str} : ∀ {a b : Str} {c d : Char} {x y : Str}, (∀ c ∈ a, c ∉ S) → (∀ c ∈ b, c ∉ S) → c ∈ S → d ∈ S →
    a ++ c :: x = b ++ d :: y → a = b ∧ c :: x = d :: y
  | [], [], _, _, _, _, _, _, _, _, e => ⟨rfl, e⟩
  | [], z :: b, c, _, _, _, _, h2, h3, _, e => by
    simp only [List.nil_append, List.cons_append, List.cons.injEq] at e
    exact absurd (e.1 ▸ h3) (h2 z (by simp))
  | z :: a, [], _, d, _, _, h1, _, _, h4, e => by
    simp only [List.nil_append, List.cons_append, List.cons.injEq] at e
    exact absurd (e.1 ▸ h4) (h1 z (by simp))
  | z :: a, z' :: b, _, _, _, _, h1, h2, h3, h4, e => by
    simp only [List.cons_append, List.cons.injEq] at e
    obtain ⟨rfl, e⟩ := e
    obtain ⟨rfl, e'⟩ := run_split (a := a) (b := b) (fun c hc => h1 c (by simp [hc])) (fun c hc => h2 c (by simp [hc])) h3 h4 e
    exact ⟨rfl, e'⟩

theorem flatten_singles : ∀ u : Str, (u.map (fun c => [c])).flatten = u
  | [] => rfl
  | c :: u => by rw [List.map_cons, List.flatten_cons, flatten_singles u]; rfl

/-- The address after a tag. -/
def citeMid : Option Str → Str
  | none => []
  | some u => ':' :: u

/-- What stands between the attributes and the text. -/
def tagMid (ext : Bool) (cite : Option Str) : Str :=
  (if ext then ['.'] else []) ++ citeMid cite

/-- What is recognised in a block `tag atts. text`, also with two dots and with an address. -/
theorem tag_captures_atts (C : Ctx) (hU : UniOk C.U) {tag att t : Str} {ext : Bool} {cite : Option Str}
    (htag : Takes C.U (tagWords C.cfg.lite) [] tag (att ++ ('.' :: (tagMid ext cite ++ ' ' :: t))) [] [])
    (hatt : ∀ s, Takes C.U tagAtts tag.reverse att ('.' :: (tagMid ext cite ++ ' ' :: t)) s s) (hdot : '.' ∉ att)
    (hcite : ∀ u, cite = some u → u ≠ [] ∧ ∀ c ∈ u, isWs c = false)
    (hopen : ∀ a o b, att = a ++ o :: b → o ∈ t!"([{" → closerOf o ∈ b ∨ (closerOf o ∉ t ∧ ∀ u, cite = some u → closerOf o ∉ u)) :
    ∃ m, (blockTagRe C).captures C.U (tag ++ (att ++ ('.' :: (tagMid ext cite ++ ' ' :: t)))) = some m ∧
      m.grp 1 = tag ∧ m.grp 2 = att ∧ m.grp 3 = (if ext then ['.'] else []) ∧ m.get? 4 = cite ∧ m.grp 5 = t := by
  have hx : ∃ s, Takes C.U (blockTagRe C) [] (tag ++ (att ++ ('.' :: (tagMid ext cite ++ ' ' :: t)))) [] [] s := by
    have hall : ∀ pre s, ∃ s', Takes C.U (.seq spRe allRe) pre (' ' :: t) [] s s' := by
      intro pre s
      obtain ⟨l, hl⟩ := all_allRe C.U ([' '].reverse ++ pre) t s
      refine ⟨(5, t) :: s, .mkSeq (u := [' ']) (v := t) (by exact .mkChr) ?_⟩
      unfold Takes
      rw [List.append_nil, hl]
      simp
    have hcit : ∀ pre s, ∃ s', Takes C.U (.seq citeRe (.seq spRe allRe)) pre (citeMid cite ++ ' ' :: t) [] s s' := by
      intro pre s
      cases hc : cite with
      | none =>
        unfold citeMid
        obtain ⟨s', h'⟩ := hall pre s
        exact ⟨s', .mkSeq (u := []) (v := ' ' :: t) (.mkRight .mkEps) h'⟩
      | some u =>
        obtain ⟨hu, hu'⟩ := hcite u hc
        cases u with
        | nil => exact absurd rfl hu
        | cons x u =>
          obtain ⟨s', h'⟩ := hall ((':' :: x :: u).reverse ++ pre) ((4, x :: u) :: s)
          refine ⟨s', .mkSeq (u := ':' :: x :: u) (v := ' ' :: t) (.mkLeft ?_) h'⟩
          refine .mkSeq (u := [':']) (v := x :: u) (by exact .mkChr) (.mkGrp ?_)
          apply Takes.of_lang (by decide)
          refine ⟨[x], u, rfl, ⟨x, rfl, ?_⟩, ⟨u.map (fun c => [c]), (flatten_singles u).symm, ?_⟩⟩
          · simp [evalSet, Item.eval, UC.eval, hu' x (by simp)]
          · intro w hw
            obtain ⟨c, hc, rfl⟩ := List.mem_map.1 hw
            exact ⟨c, rfl, by simp [evalSet, Item.eval, UC.eval, hu' c (by simp [hc])]⟩
    have hext : ∀ pre s, ∃ s', Takes C.U (.seq extRe (.seq citeRe (.seq spRe allRe))) pre (tagMid ext cite ++ ' ' :: t) [] s s' := by
      intro pre s
      unfold tagMid
      cases ext with
      | false =>
        obtain ⟨s', h'⟩ := hcit pre ((3, []) :: s)
        exact ⟨s', .mkSeq (u := []) (.mkGrp (.mkRight .mkEps)) (by simpa using h')⟩
      | true =>
        obtain ⟨s', h'⟩ := hcit (['.'].reverse ++ pre) ((3, ['.']) :: s)
        exact ⟨s', by simpa using Takes.mkSeq (a := extRe) (u := ['.']) (.mkGrp (.mkLeft (by exact .mkChr))) h'⟩
    unfold blockTagRe
    rw [tagRe_shape]
    obtain ⟨s', h'⟩ := hext (['.'].reverse ++ (att.reverse ++ tag.reverse)) [(2, att), (1, tag)]
    refine ⟨s', .mkSeq (u := []) (s1 := []) (by simp [Takes, Re.all]) (.mkSeq (u := tag) (.mkGrp (by simpa using htag)) (.mkSeq (u := att) (.mkGrp (by simpa using hatt [(1, tag)])) ?_))⟩
    exact .mkSeq (u := ['.']) (by exact .mkChr) (by simpa using h')
  obtain ⟨s0, hx⟩ := hx
  cases hm : (blockTagRe C).matchAt C.U ⟨[], tag ++ (att ++ ('.' :: (tagMid ext cite ++ ' ' :: t)))⟩ with
  | none =>
    exfalso
    rw [Re.matchAt_none] at hm
    unfold Takes at hx
    rw [List.append_nil, hm] at hx
    cases hx
  | some p =>
    obtain ⟨e, s⟩ := p
    have hs := Re.search_hit hm
    obtain ⟨w, rest, e1, e2, h1⟩ := Takes.of_matchAt hm
    refine ⟨_, by rw [Re.captures, hs], ?_⟩
    unfold blockTagRe at h1
    rw [tagRe_shape] at h1
    obtain ⟨u0, v0, s1, rfl, h2, h11⟩ := h1.seq
    obtain ⟨-, rfl, rfl⟩ := h2.bot
    obtain ⟨w1, v1, s2, rfl, g3, h12⟩ := h11.seq
    obtain ⟨s3, h3, rfl⟩ := g3.grp
    have : s3 = [] := h3.nogrp (by cases C.cfg.lite <;> decide +kernel)
    subst this
    obtain ⟨w2, v2, s4, rfl, g4, h13⟩ := h12.seq
    obtain ⟨s5, h4, rfl⟩ := g4.grp
    have : s5 = _ := h4.nogrp (by decide +kernel)
    subst this
    obtain ⟨w3, v3, s6, rfl, h5, h14⟩ := h13.seq
    obtain ⟨rfl, rfl⟩ := h5.chr
    obtain ⟨w4, v4, s7, rfl, g6, h15⟩ := h14.seq
    obtain ⟨s8, h6, rfl⟩ := g6.grp
    obtain ⟨w5, v5, s9, rfl, h7, h16⟩ := h15.seq
    obtain ⟨w6, v6, s10, rfl, h8, h17⟩ := h16.seq
    obtain ⟨rfl, rfl⟩ := h8.chr
    obtain ⟨w7, v7, s11, rfl, g9, h18⟩ := h17.seq
    obtain ⟨s12, h9, rfl⟩ := g9.grp
    have : s12 = _ := h9.nogrp (by decide +kernel)
    subst this
    have hend := h18.eot
    obtain ⟨rfl, rfl, rfl⟩ := hend
    have h6' : (w4 = ['.'] ∨ w4 = []) ∧ s8 = (2, w2) :: [(1, w1)] := by
      rcases h6.alt with h | h
      · exact ⟨.inl h.chr.1, h.chr.2⟩
      · exact ⟨.inr h.eps.1, h.eps.2⟩
    obtain ⟨h6', rfl⟩ := h6'
    have h7' : (w5 = [] ∧ s12 = (3, w4) :: [(2, w2), (1, w1)]) ∨ (∃ u, w5 = ':' :: u ∧ u ≠ [] ∧ (∀ c ∈ u, isWs c = false) ∧ s12 = (4, u) :: (3, w4) :: [(2, w2), (1, w1)]) := by
      rcases h7.alt with h | h
      · obtain ⟨a, b, s20, rfl, k1, k2⟩ := h.seq
        obtain ⟨rfl, rfl⟩ := k1.chr
        obtain ⟨s21, k3, rfl⟩ := k2.grp
        have : s21 = _ := k3.nogrp (by decide +kernel)
        subst this
        refine .inr ⟨b, rfl, ?_, ?_, rfl⟩
        · exact Re.nonnull_lang (by decide) k3.lang
        · intro c hc
          obtain ⟨x, y, rfl, ⟨z, rfl, k5⟩, ⟨ws, rfl, k6⟩⟩ := k3.lang
          have k7 : ∀ c, evalSet C.U false [.ncls .space] c = true → isWs c = false := by
            intro c h; simpa [evalSet, Item.eval, UC.eval] using h
          simp only [List.cons_append, List.nil_append, List.mem_cons] at hc
          rcases hc with rfl | hc
          · exact k7 _ k5
          · obtain ⟨v, hv, hc⟩ := List.mem_flatten.1 hc
            obtain ⟨d, rfl, hd⟩ := k6 v hv
            rw [List.mem_singleton] at hc
            rw [hc]; exact k7 _ hd
      · exact .inl h.eps
    have hw : sepA.wf = true := by decide
    have hsep : ∀ {w : Str}, (tagWords C.cfg.lite).lang C.U w → ∀ c ∈ w, c ∉ sepChars := by
      intro w hl c hc hm
      exact Re.forbids_lang hU hw (tagWords_forbids _) hl c hc (.inl hm)
    have hats : ∀ {w x : Str}, tagAtts.lang C.U w → ∃ c v, w ++ '.' :: x = c :: v ∧ c ∈ sepChars := by
      intro w x hl
      cases w with
      | nil => exact ⟨'.', x, rfl, by decide⟩
      | cons c v => exact ⟨c, v ++ '.' :: x, rfl, Re.opens_lang tagAtts_opens hl c v rfl⟩
    obtain ⟨c1, v1, q1, q2⟩ := hats (x := tagMid ext cite ++ ' ' :: t) (hatt []).lang
    obtain ⟨c2, v2, q3, q4⟩ := hats (x := w4 ++ (w5 ++ ([' '] ++ (w7 ++ [])))) h4.lang
    obtain ⟨r1, r2⟩ := run_split (S := sepChars) (hsep htag.lang) (hsep h3.lang) q2 q4
      (show tag ++ (c1 :: v1) = w1 ++ (c2 :: v2) by rw [← q1, ← q3]; simpa using e1)
    subst r1
    rw [← q1, ← q3] at r2
    have r3 : att = w2 ∧ tagMid ext cite ++ ' ' :: t = w4 ++ (w5 ++ ' ' :: w7) := by
      rcases List.append_eq_append_iff.1 r2 with ⟨z, k1, k2⟩ | ⟨z, k1, k2⟩
      · cases z with
        | nil => simp at k1 k2; exact ⟨k1.symm, by simpa using k2⟩
        | cons y z =>
          exfalso
          simp only [List.cons_append, List.cons.injEq] at k2
          obtain ⟨rfl, k2⟩ := k2
          obtain ⟨a1, o, a2, k3, k4, k5, k6⟩ := Re.shield_lang tagAtts_shield h4.lang att z k1
          have k7 : closerOf o ∈ tagMid ext cite ++ ' ' :: t := by rw [k2]; simp [k6]
          have k8 : closerOf o ∈ t!")]}" := (by decide : ∀ o ∈ t!"([{", closerOf o ∈ t!")]}") o k4
          have k9 : ∀ c, closerOf o = c → c ∉ t!")]}" → False := fun c e h => h (e ▸ k8)
          rcases hopen a1 o a2 k3 k4 with h | ⟨h, h'⟩
          · exact k5 h
          · rcases List.mem_append.1 k7 with k7 | k7
            · rcases List.mem_append.1 k7 with k7 | k7
              · cases ext
                · simp at k7
                · exact k9 '.' (by simpa using k7) (by decide)
              · cases cite with
                | none => simp [citeMid] at k7
                | some u =>
                  rcases List.mem_cons.1 k7 with k7 | k7
                  · exact k9 ':' k7 (by decide)
                  · exact h' u rfl k7
            · rcases List.mem_cons.1 k7 with k7 | k7
              · exact k9 ' ' k7 (by decide)
              · exact h k7
      · cases z with
        | nil => simp at k1 k2; exact ⟨k1, by simpa using k2.symm⟩
        | cons y z =>
          simp only [List.cons_append, List.cons.injEq] at k2
          exact absurd (by rw [k1, ← k2.1]; simp) hdot
    obtain ⟨rfl, r3⟩ := r3
    have r4 : w4 = (if ext then ['.'] else []) ∧ citeMid cite ++ ' ' :: t = w5 ++ ' ' :: w7 := by
      unfold tagMid at r3
      have hd5 : ∀ x, (w5 ++ ' ' :: w7).head? = some x → x ≠ '.' := by
        rcases h7' with ⟨rfl, -⟩ | ⟨u, rfl, -⟩ <;> simp
      have hdm : ∀ x, (citeMid cite ++ ' ' :: t).head? = some x → x ≠ '.' := by
        cases cite <;> simp [citeMid]
      rcases h6' with rfl | rfl <;> cases ext
      · exact absurd rfl (hdm '.' (by simpa using congrArg List.head? r3))
      · simpa using r3
      · simpa using r3
      · exact absurd rfl (hd5 '.' (by simpa using (congrArg List.head? r3).symm))
    obtain ⟨rfl, r4⟩ := r4
    have r5 : s12 = cite.toList.map (fun u => (4, u)) ++ [(3, if ext then ['.'] else []), (2, att), (1, tag)] ∧ w7 = t := by
      rcases h7' with ⟨rfl, rfl⟩ | ⟨u, rfl, k1, k2, rfl⟩
      · cases cite with
        | none => simp [citeMid] at r4 ⊢; exact r4.symm
        | some u => simp [citeMid] at r4
      · cases cite with
        | none => simp [citeMid] at r4
        | some u' =>
          obtain ⟨k3, k4⟩ := hcite u' rfl
          simp only [citeMid, List.cons_append, List.cons.injEq, true_and] at r4
          have nsp : ∀ {u : Str}, (∀ c ∈ u, isWs c = false) → ∀ c ∈ u, c ∉ [' '] := by
            intro u h c hc hm
            rw [List.mem_singleton] at hm
            rw [hm] at hc
            exact absurd (h _ hc) (by decide)
          obtain ⟨rfl, k5⟩ := run_split (S := [' ']) (nsp k4) (nsp k2) (by simp) (by simp) r4
          simp at k5
          exact ⟨rfl, k5.symm⟩
    obtain ⟨rfl, rfl⟩ := r5
    cases cite <;> simp [Mat.grp, Mat.get?, alLookup]

end Rustextile
