import Verif.SpecAtts
import Verif.ListRe
import Verif.LinkRe
import Verif.InlineSource
import Verif.Props.Attributes

/-!
# The attributes found in a source text

What `BAttrs.parse` (block.rs:101-256) makes of attributes described by `Spec.Atts`.
-/

namespace Rustextile

/-! ## Groups in brackets -/

abbrev bracketRe (o c : Char) (body : Re) : Re := .seq (.set false [.chr o]) (.seq (.grp 1 body) (.set false [.chr c]))

theorem Heads.chr' {U : Uni} {d : Char} {pre rest : Str} {s : Caps} : Heads U (.set false [.chr d]) pre [d] rest s s :=
  .set (by rw [evalSet_chr]; simp)

theorem bracket_heads {U : Uni} {o c : Char} {body : Re} {pre w rest : Str}
    (h : Heads U body ([o] ++ pre) w ([c] ++ rest) [] []) :
    Heads U (bracketRe o c body) pre ([o] ++ (w ++ [c])) rest [] [(1, w)] := by
  refine Heads.seq (s1 := []) .chr' (Heads.seq (s1 := [(1, w)]) ?_ .chr')
  have : ([c] ++ rest) = [c] ++ rest := rfl
  exact Heads.grp (by simpa using h)

theorem bracket_miss {U : Uni} {o c x : Char} {body : Re} {pre rest : Str} (h : x ≠ o) :
    (bracketRe o c body).matchAt U ⟨pre, x :: rest⟩ = none := by
  rw [Re.matchAt_none, all_seq_set_cons, evalSet_chr]
  simp [h]

theorem bracket_none {U : Uni} {o c : Char} {body : Re} {t : Str} (h : o ∉ t) : (bracketRe o c body).captures U t = none := by
  cases hm : (bracketRe o c body).captures U t with
  | none => rfl
  | some m =>
    obtain ⟨a, rest, e, -, ht⟩ := Re.captures_takes hm
    obtain ⟨u, v, e1, hu, -⟩ := ht.lang
    obtain rfl := lang_chr.1 hu
    exact absurd (by rw [e, e1]; simp) h

theorem bracket_some {U : Uni} {o c : Char} {body : Re} {a w rest : Str}
    (hs : Skips U (bracketRe o c body) [] a ([o] ++ (w ++ [c]) ++ rest))
    (h : ∀ pre, Heads U body pre w ([c] ++ rest) [] []) :
    (bracketRe o c body).captures U (a ++ ([o] ++ (w ++ [c]) ++ rest)) = some ⟨a, [o] ++ (w ++ [c]), [(1, w)]⟩ := by
  have h1 : (bracketRe o c body).search U (a.reverse ++ []) ([o] ++ (w ++ [c]) ++ rest) = _ :=
    Re.search_hit (bracket_heads (h _)).matchAt
  refine Re.captures_eq (rest := rest) ?_ (by simp)
  rw [Re.search_skips hs, h1]
  simp

/-- Deleting a text that starts with a character that is nowhere else. -/
theorem delete_once {o : Char} {w a b : Str} (ha : o ∉ a) (hb : o ∉ b) : replaceStr (o :: w) [] (a ++ (o :: w ++ b)) = a ++ b := by
  induction a with
  | nil =>
    rw [List.nil_append, replaceStr_hit (by simp), replaceStr_none (containsStr_false_of_mem (c := o) (by simp) hb)]
  | cons x a ih =>
    simp only [List.mem_cons, not_or] at ha
    rw [List.cons_append, replaceStr_miss, ih ha.2]
    · rfl
    · simp [List.isPrefixOf, ha.1]

theorem STYLE_shape : ATTR_STYLE_RE = bracketRe '{' '}' (.star true (.set true [.chr '}'])) := by kernel_rfl
theorem LANG_shape : ATTR_LANG_RE = bracketRe '[' ']' (.seq (.set true [.chr ']']) (.star true (.set true [.chr ']']))) := by kernel_rfl
theorem ACLASS_shape : ATTR_ACLASS_RE =
    bracketRe '(' ')' (.seq (.set true [.chr '(', .chr ')']) (.star true (.set true [.chr '(', .chr ')']))) := by kernel_rfl

theorem evalSet_not {U : Uni} {c x : Char} (h : x ≠ c) : evalSet U true [.chr c] x = true := by
  simp [evalSet, Item.eval_chr, h]

theorem evalSet_not_self {U : Uni} {c : Char} : evalSet U true [.chr c] c = false := by
  simp [evalSet, Item.eval_chr]

theorem evalSet_not2 {U : Uni} {c d x : Char} (h : x ≠ c) (h' : x ≠ d) : evalSet U true [.chr c, .chr d] x = true := by
  simp [evalSet, Item.eval_chr, h, h']

theorem evalSet_not2_or {U : Uni} {c d x : Char} (h : x = c ∨ x = d) : evalSet U true [.chr c, .chr d] x = false := by
  rcases h with rfl | rfl <;> simp [evalSet, Item.eval_chr]

/-! ## Characters -/

def nameChars : Str := t!"abcdefghijklmnopqrstuvwxyzABCDEFGHIJKLMNOPQRSTUVWXYZ0123456789-_"

theorem char_of_lt {p : Char → Bool} (h : ∀ n, n < 128 → p (Char.ofNat n) = true) {c : Char} (hc : c.toNat < 128) :
    p c = true := by
  have := h c.toNat hc
  rwa [Char.ofNat_toNat] at this

theorem name_mem {c : Char} (h : Spec.NameChar c) : c ∈ nameChars := by
  have hc : c.toNat < 128 := by
    rcases h with ⟨-, h⟩ | ⟨-, h⟩ | ⟨-, h⟩ | rfl | rfl
    · have : c.toNat ≤ ('z' : Char).toNat := h
      have e : ('z' : Char).toNat = 122 := rfl
      omega
    · have : c.toNat ≤ ('Z' : Char).toNat := h
      have e : ('Z' : Char).toNat = 90 := rfl
      omega
    · have : c.toNat ≤ ('9' : Char).toNat := h
      have e : ('9' : Char).toNat = 57 := rfl
      omega
    · decide
    · decide
  have key := char_of_lt (p := fun c => !(decide (('a' ≤ c ∧ c ≤ 'z') ∨ ('A' ≤ c ∧ c ≤ 'Z') ∨ ('0' ≤ c ∧ c ≤ '9') ∨ c = '-' ∨ c = '_')) ||
    nameChars.contains c) (by decide +kernel) hc
  simp only [Bool.or_eq_true, Bool.not_eq_true', decide_eq_false_iff_not] at key
  rcases key with key | key
  · exact absurd h key
  · simpa using key

def styleChars : Str := nameChars ++ t!" :#%,!"

theorem style_mem {c : Char} (h : Spec.StyleChar c) : c ∈ styleChars := by
  rcases h with h | rfl | rfl | rfl | rfl | rfl | rfl
  · exact List.mem_append_left _ (name_mem h)
  all_goals decide

/-! ## Sources of groups -/

def src (gs : List Spec.Group) : Str := gs.flatMap Spec.Group.source

theorem src_append (a b : List Spec.Group) : src (a ++ b) = src a ++ src b := by simp [src]
theorem src_cons (g : Spec.Group) (b : List Spec.Group) : src (g :: b) = g.source ++ src b := by simp [src]

/-- The characters of a group besides its brackets. -/
theorem group_mem {g : Spec.Group} (h : g.Ok) {c : Char} (hc : c ∈ g.source) : c ∈ styleChars ++ t!";" ∨
    match (generalizing := false) g.kind with
    | .classes => c = '(' ∨ c = ')'
    | .style => c = '{' ∨ c = '}'
    | .lang => c = '[' ∨ c = ']' := by
  have nm : ∀ {c}, c ∈ nameChars → c ∈ styleChars ++ t!";" := fun h => List.mem_append_left _ (List.mem_append_left _ h)
  cases g with
  | classes n i =>
    obtain ⟨h1, -, h2⟩ := h
    have hn : c ∈ n → c ∈ styleChars ++ t!";" := by
      intro hc
      rcases h1 c hc with h | rfl
      · exact nm (name_mem h)
      · decide
    cases i with
    | none =>
      simp only [Spec.Group.source, List.mem_append, List.mem_singleton] at hc
      rcases hc with rfl | hc | rfl
      · exact .inr (.inl rfl)
      · exact .inl (hn hc)
      · exact .inr (.inr rfl)
    | some i =>
      simp only [Spec.Group.source, List.mem_append, List.mem_singleton] at hc
      rcases hc with rfl | hc | rfl | hc | rfl
      · exact .inr (.inl rfl)
      · exact .inl (hn hc)
      · exact .inl (by decide)
      · rcases (h2 i rfl).2 c hc with h | rfl
        · exact .inl (nm (name_mem h))
        · exact .inl (by decide)
      · exact .inr (.inr rfl)
  | style ds =>
    simp only [Spec.Group.source, List.mem_append, List.mem_singleton] at hc
    rcases hc with rfl | hc | rfl
    · exact .inr (.inl rfl)
    · left
      apply Classical.byContradiction
      intro hn
      refine join_nochar (c := c) (sep := [';']) ?_ (ls := ds) ?_ hc
      · intro h; simp only [List.mem_singleton] at h; subst h; exact hn (by decide)
      · intro d hd hcd
        exact hn (List.mem_append_left _ (style_mem ((h.2 d hd).2.2.2 c hcd)))
    · exact .inr (.inr rfl)
  | lang l =>
    simp only [Spec.Group.source, List.mem_append, List.mem_singleton] at hc
    rcases hc with rfl | hc | rfl
    · exact .inr (.inl rfl)
    · exact .inl (nm (name_mem (h.2 c hc)))
    · exact .inr (.inr rfl)

theorem group_not {g : Spec.Group} (h : g.Ok) {c : Char} (hc : c ∉ styleChars ++ t!";")
    (hk : match (generalizing := false) g.kind with
    | .classes => c ≠ '(' ∧ c ≠ ')'
    | .style => c ≠ '{' ∧ c ≠ '}'
    | .lang => c ≠ '[' ∧ c ≠ ']') : c ∉ g.source := by
  intro hm
  rcases group_mem h hm with h1 | h1
  · exact hc h1
  · revert hk h1
    cases g.kind <;> simp <;> grind

theorem src_not {gs : List Spec.Group} (h : ∀ g ∈ gs, g.Ok) {c : Char} (hc : c ∉ styleChars ++ t!";")
    (hk : ∀ g ∈ gs, match (generalizing := false) g.kind with
    | .classes => c ≠ '(' ∧ c ≠ ')'
    | .style => c ≠ '{' ∧ c ≠ '}'
    | .lang => c ≠ '[' ∧ c ≠ ']') : c ∉ src gs := by
  intro hm
  obtain ⟨g, hg, hc'⟩ := List.mem_flatMap.1 hm
  exact group_not (h g hg) hc (hk g hg) hc'

/-! ## Removing a group -/

def without (p : Spec.Group → Bool) (gs : List Spec.Group) : List Spec.Group := gs.filter (fun g => !p g)

def isStyle : Spec.Group → Bool | .style _ => true | _ => false
def isLang : Spec.Group → Bool | .lang _ => true | _ => false
def isCls : Spec.Group → Bool | .classes _ _ => true | _ => false

def Once (p : Spec.Group → Bool) (gs : List Spec.Group) : Prop := gs.Pairwise (fun a b => ¬ (p a = true ∧ p b = true))

theorem once_of {gs : List Spec.Group} (h : (gs.map Spec.Group.kind).Nodup) : Once isStyle gs ∧ Once isLang gs ∧ Once isCls gs := by
  rw [List.Nodup, List.pairwise_map] at h
  refine ⟨h.imp ?_, h.imp ?_, h.imp ?_⟩ <;>
  · intro a b hab hp
    cases a <;> cases b <;> simp_all [isStyle, isLang, isCls, Spec.Group.kind]

theorem Once.filter {p q : Spec.Group → Bool} {gs : List Spec.Group} (h : Once p gs) : Once p (without q gs) :=
  h.sublist List.filter_sublist

theorem without_none {p : Spec.Group → Bool} {gs : List Spec.Group} (h : ∀ g ∈ gs, p g = false) : without p gs = gs :=
  List.filter_eq_self.2 (fun g hg => by simp [h g hg])

theorem once_split {p : Spec.Group → Bool} {gs : List Spec.Group} (h : Once p gs) : (∀ g ∈ gs, p g = false) ∨
    ∃ a g b, gs = a ++ g :: b ∧ p g = true ∧ (∀ x ∈ a, p x = false) ∧ (∀ x ∈ b, p x = false) ∧ without p gs = a ++ b := by
  by_cases hn : ∀ g ∈ gs, p g = false
  · exact .inl hn
  · right
    have : ∃ g ∈ gs, p g = true := by
      apply Classical.byContradiction
      intro hc
      exact hn (fun g hg => by cases e : p g; · rfl
                               · exact absurd ⟨g, hg, e⟩ hc)
    obtain ⟨g, hg, hp⟩ := this
    obtain ⟨a, b, rfl⟩ := List.append_of_mem hg
    rw [Once, List.pairwise_append, List.pairwise_cons] at h
    have ha : ∀ x ∈ a, p x = false := by
      intro x hx
      cases e : p x
      · rfl
      · exact absurd ⟨e, hp⟩ (h.2.2 x hx g (by simp))
    have hb : ∀ x ∈ b, p x = false := by
      intro x hx
      cases e : p x
      · rfl
      · exact absurd ⟨hp, e⟩ (h.2.1.1 x hx)
    refine ⟨a, g, b, rfl, hp, ha, hb, ?_⟩
    have h1 : without p a = a := without_none ha
    have h2 : without p b = b := without_none hb
    unfold without at h1 h2 ⊢
    rw [List.filter_append, List.filter_cons, h1, h2, hp]
    rfl

theorem mem_without {p : Spec.Group → Bool} {gs : List Spec.Group} {g : Spec.Group} (h : g ∈ without p gs) : g ∈ gs :=
  (List.mem_filter.1 h).1

/-! ## Stages -/

def declsOf (gs : List Spec.Group) : List Str := gs.flatMap (fun | .style ds => ds | _ => [])
def langOf (gs : List Spec.Group) : Option Str := gs.findSome? (fun | .lang l => some l | _ => none)
def clsOf (gs : List Spec.Group) : Option Str :=
  gs.findSome? (fun | .classes n _ => if n = [] then none else some n | _ => none)
def idOf (gs : List Spec.Group) : Option Str := gs.findSome? (fun | .classes _ i => i | _ => none)

theorem style_nows {c : Char} (h : Spec.StyleChar c) (h' : c ≠ ' ') : isWs c = false := by
  have := (by decide +kernel : ∀ c ∈ styleChars, c = ' ' ∨ isWs c = false) c (style_mem h)
  exact this.resolve_left h'

theorem decl_trim {d : Str} (h : d.head? ≠ some ' ') (h' : d.getLast? ≠ some ' ') (hc : ∀ c ∈ d, Spec.StyleChar c) : trim d = d := by
  have h1 : trimStartP isWs d = d := dropWhile_of_head (fun c hh =>
    style_nows (hc c (List.mem_of_mem_head? hh)) (by rintro rfl; exact h hh))
  rw [trim, trimP, h1]
  exact trimEndP_of_last (fun c hh => style_nows (hc c (List.mem_of_getLast? hh)) (by rintro rfl; exact h' hh))

theorem style_nosemi {d : Str} (hc : ∀ c ∈ d, Spec.StyleChar c) : ';' ∉ d := by
  intro h
  have := style_mem (hc _ h)
  revert this; decide +kernel

theorem split_join : ∀ {ds : List Str}, ds ≠ [] → (∀ d ∈ ds, ';' ∉ d) → splitChar ';' (Spec.join [';'] ds) = ds
  | [], h, _ => absurd rfl h
  | [d], _, h => by rw [Spec.join]; exact splitChar_none (h d (by simp))
  | d :: e :: ds, _, h => by
    rw [Spec.join, List.append_assoc, List.singleton_append, splitChar_at (h d (by simp)),
      split_join (by simp) (fun x hx => h x (by simp [hx]))]

theorem decls_split {ds : List Str} (h : (Spec.Group.style ds).Ok) :
    (splitChar ';' (trimEndP (· == ';') (Spec.join [';'] ds))).map trim = ds := by
  obtain ⟨hne, hd⟩ := h
  have hl : trimEndP (· == ';') (Spec.join [';'] ds) = Spec.join [';'] ds := by
    apply trimEndP_of_last
    intro c hc
    obtain ⟨d, hd', e⟩ : ∃ d ∈ ds, some c = d.getLast? := by
      have := join_last (sep := [';']) (ls := ds) (fun d h => (hd d h).1) hne
      rwa [hc] at this
    have hcd := List.mem_of_getLast? e.symm
    have := style_nosemi (hd d hd').2.2.2
    simp only [beq_eq_false_iff_ne, ne_eq]
    rintro rfl
    exact this hcd
  rw [hl, split_join hne (fun d h => style_nosemi (hd d h).2.2.2)]
  conv => rhs; rw [← List.map_id ds]
  exact List.map_congr_left (fun d h => decl_trim (hd d h).2.1 (hd d h).2.2.1 (hd d h).2.2.2)

theorem skips_not {U : Uni} {o c : Char} {body : Re} {a rest : Str} (h : o ∉ a) {pre : Str} :
    Skips U (bracketRe o c body) pre a rest := by
  intro u x v e
  exact bracket_miss (by rintro rfl; exact h (by rw [e]; simp))

theorem declsOf_none {gs : List Spec.Group} (h : ∀ g ∈ gs, isStyle g = false) : declsOf gs = [] := by
  rw [declsOf, List.flatMap_eq_nil_iff]
  intro g hg
  have := h g hg
  cases g <;> simp_all [isStyle]

theorem langOf_none {gs : List Spec.Group} (h : ∀ g ∈ gs, isLang g = false) : langOf gs = none := by
  rw [langOf, List.findSome?_eq_none_iff]
  intro g hg
  have := h g hg
  cases g <;> simp_all [isLang]

theorem clsOf_none {gs : List Spec.Group} (h : ∀ g ∈ gs, isCls g = false) : clsOf gs = none ∧ idOf gs = none := by
  rw [clsOf, idOf, List.findSome?_eq_none_iff, List.findSome?_eq_none_iff]
  constructor <;>
  · intro g hg
    have := h g hg
    cases g <;> simp_all [isCls]

theorem style_stage (U : Uni) {m : Str} {gs : List Spec.Group} (hok : ∀ g ∈ gs, g.Ok) (h1 : Once isStyle gs) (hm : '{' ∉ m) :
    explicitStyle U (m ++ src gs) false = (declsOf gs, m ++ src (without isStyle gs)) := by
  have no : ∀ {xs : List Spec.Group}, (∀ g ∈ xs, g.Ok) → (∀ g ∈ xs, isStyle g = false) → '{' ∉ src xs := by
    intro xs hx hs
    refine src_not hx (by decide +kernel) (fun g hg => ?_)
    have := hs g hg
    cases g <;> simp_all [isStyle, Spec.Group.kind]
  simp only [explicitStyle, Bool.false_eq_true, if_false]
  rcases once_split h1 with hn | ⟨a, g, b, rfl, hg, ha, hb, hw⟩
  · rw [STYLE_shape, bracket_none (by rw [List.mem_append, not_or]; exact ⟨hm, no hok hn⟩), without_none hn, declsOf_none hn]
  · obtain ⟨ds, rfl⟩ : ∃ ds, g = .style ds := by cases g <;> simp_all [isStyle]
    have hga := no (fun g hg => hok g (by simp [hg])) ha
    have hgb := no (fun g hg => hok g (by simp [hg])) hb
    have hds := hok (.style ds) (by simp)
    have hj : ∀ c ∈ Spec.join [';'] ds, c ≠ '}' := by
      rintro c hc rfl
      refine join_nochar (c := '}') (sep := [';']) (by decide) (ls := ds) (fun d hd hcd => ?_) hc
      have := style_mem ((hds.2 d hd).2.2.2 _ hcd)
      revert this; decide +kernel
    have e : m ++ src (a ++ Spec.Group.style ds :: b) =
        (m ++ src a) ++ (['{'] ++ (Spec.join [';'] ds ++ ['}']) ++ src b) := by
      rw [src_append, src_cons, Spec.Group.source]; simp
    rw [hw, e, STYLE_shape, bracket_some (skips_not (by rw [List.mem_append, not_or]; exact ⟨hm, hga⟩))
      (fun pre => .star (fun x hx => evalSet_not (hj x hx)) (by simp [evalSet_not_self]))]
    refine Prod.ext ?_ ?_
    · simp only
      rw [show Mat.grp ⟨m ++ src a, ['{'] ++ (Spec.join [';'] ds ++ ['}']), [(1, Spec.join [';'] ds)]⟩ 1 = Spec.join [';'] ds from rfl]
      have h1 := declsOf_none ha
      have h2 := declsOf_none hb
      unfold declsOf at h1 h2 ⊢
      rw [List.flatMap_append, List.flatMap_cons, h1, h2]
      simpa using decls_split hds
    · simp only [List.singleton_append]
      rw [delete_once (by rw [List.mem_append, not_or]; exact ⟨hm, hga⟩) hgb, src_append, List.append_assoc]

theorem lang_stage (U : Uni) {m : Str} {gs : List Spec.Group} (hok : ∀ g ∈ gs, g.Ok) (h1 : Once isLang gs) (hm : '[' ∉ m) :
    langAttr U (m ++ src gs) = (langOf gs, m ++ src (without isLang gs)) := by
  have no : ∀ {xs : List Spec.Group}, (∀ g ∈ xs, g.Ok) → (∀ g ∈ xs, isLang g = false) → '[' ∉ src xs := by
    intro xs hx hs
    refine src_not hx (by decide +kernel) (fun g hg => ?_)
    have := hs g hg
    cases g <;> simp_all [isLang, Spec.Group.kind]
  simp only [langAttr]
  rcases once_split h1 with hn | ⟨a, g, b, rfl, hg, ha, hb, hw⟩
  · rw [LANG_shape, bracket_none (by rw [List.mem_append, not_or]; exact ⟨hm, no hok hn⟩), without_none hn, langOf_none hn]
  · obtain ⟨l, rfl⟩ : ∃ l, g = .lang l := by cases g <;> simp_all [isLang]
    have hga := no (fun g hg => hok g (by simp [hg])) ha
    have hgb := no (fun g hg => hok g (by simp [hg])) hb
    have hl := hok (.lang l) (by simp)
    have hj : ∀ c ∈ l, c ≠ ']' := by
      rintro c hc rfl
      have := name_mem (hl.2 _ hc)
      revert this; decide +kernel
    have e : m ++ src (a ++ Spec.Group.lang l :: b) = (m ++ src a) ++ (['['] ++ (l ++ [']']) ++ src b) := by
      rw [src_append, src_cons, Spec.Group.source]; simp
    rw [hw, e, LANG_shape, bracket_some (skips_not (by rw [List.mem_append, not_or]; exact ⟨hm, hga⟩))
      (fun pre => .plus hl.1 (fun x hx => evalSet_not (hj x hx)) (by simp [evalSet_not_self]))]
    refine Prod.ext ?_ ?_
    · have h1 := langOf_none ha
      unfold langOf at h1 ⊢
      simp only
      rw [List.findSome?_append, h1]
      rfl
    · simp only [List.singleton_append]
      rw [delete_once (by rw [List.mem_append, not_or]; exact ⟨hm, hga⟩) hgb, src_append, List.append_assoc]

/-! ## Classes -/

theorem plus_lang {U : Uni} {n : Bool} {it : List Item} {w : Str}
    (h : (Re.seq (.set n it) (.star true (.set n it))).lang U w) : w ≠ [] ∧ ∀ x ∈ w, evalSet U n it x = true := by
  obtain ⟨u, v, rfl, ⟨x, rfl, hx⟩, hv⟩ := h
  rw [lang_star_set] at hv
  refine ⟨by simp, fun y hy => ?_⟩
  simp only [List.singleton_append, List.mem_cons] at hy
  rcases hy with rfl | hy
  · exact hx
  · exact hv y hy

/-- Nothing is recognised at an opening parenthesis unless a closing one is next. -/
theorem aclass_miss {U : Uni} {pre T : Str} (h : ∀ w y, T = w ++ ')' :: y → '(' ∉ w → ')' ∉ w → w = []) :
    ATTR_ACLASS_RE.matchAt U ⟨pre, '(' :: T⟩ = none := by
  rw [ACLASS_shape]
  cases hm : (bracketRe '(' ')' (.seq (.set true [.chr '(', .chr ')']) (.star true (.set true [.chr '(', .chr ')'])))).matchAt U ⟨pre, '(' :: T⟩ with
  | none => rfl
  | some q =>
    obtain ⟨e, s⟩ := q
    obtain ⟨w, rest, e1, -, ht⟩ := Takes.of_matchAt hm
    obtain ⟨u, v, rfl, hu, x, z, rfl, hx, hz⟩ := ht.lang
    obtain rfl := lang_chr.1 hu
    obtain rfl := lang_chr.1 hz
    obtain ⟨hne, hc⟩ := plus_lang hx
    simp only [List.singleton_append, List.cons_append, List.cons.injEq, true_and, List.append_assoc, List.nil_append] at e1
    refine absurd (h x rest e1 ?_ ?_) hne
    · intro hh; have := hc _ hh; rw [evalSet_not2_or (.inl rfl)] at this; cases this
    · intro hh; have := hc _ hh; rw [evalSet_not2_or (.inr rfl)] at this; cases this

theorem aclass_pads {U : Uni} {r : Nat} {Z : Str} (hZ : ∀ w y, Z = w ++ ')' :: y → '(' ∈ w) : ∀ (l : Nat) (pre : Str),
    Skips U ATTR_ACLASS_RE pre (List.replicate l '(') (List.replicate r ')' ++ Z)
  | 0, _ => Skips.nil
  | l + 1, pre => by
    rw [List.replicate_succ]
    refine Skips.cons (aclass_miss ?_) (aclass_pads hZ l _)
    intro w y e h1 h2
    cases l with
    | succ l =>
      cases w with
      | nil => rfl
      | cons x w => rw [List.replicate_succ] at e; simp at e; exact absurd (by rw [e.1]; simp) h1
    | zero =>
      cases r with
      | succ r =>
        cases w with
        | nil => rfl
        | cons x w => rw [List.replicate_succ] at e; simp at e; exact absurd (by rw [e.1]; simp) h2
      | zero => exact absurd (hZ w y (by simpa using e)) h1

theorem aclass_marks {U : Uni} {al : Str} {l r : Nat} {Z : Str} (hal : '(' ∉ al) (hZ : ∀ w y, Z = w ++ ')' :: y → '(' ∈ w) :
    Skips U ATTR_ACLASS_RE [] (al ++ (List.replicate l '(' ++ List.replicate r ')')) Z := by
  have hn : ∀ {a rest pre : Str}, '(' ∉ a → Skips U ATTR_ACLASS_RE pre a rest := by
    intro a rest pre h; rw [ACLASS_shape]; exact skips_not h
  refine Skips.append (hn hal) (Skips.append (aclass_pads hZ l _) (hn ?_))
  intro h; have := List.eq_of_mem_replicate h; revert this; decide

theorem classes_shape : CSS_CLASSES_RE = .seq .bot (.seq (.grp 1 (.star true (.set false [.chr '-', .range 'a' 'z', .range 'A' 'Z', .chr ' ',
    .range '0' '9', .chr '_', .chr '.', .chr '/', .chr '[', .chr ']']))) .eot) := by kernel_rfl
theorem id_shape : CSS_ID_RE = .seq .bot (.seq (.grp 1 (.star true (.set false [.chr '-', .range 'a' 'z', .range 'A' 'Z',
    .range '0' '9', .chr '_', .chr '.', .chr ':']))) .eot) := by kernel_rfl

theorem whole_match {U : Uni} {it : List Item} {w : Str} (h : ∀ x ∈ w, evalSet U false it x = true) :
    (Re.seq .bot (.seq (.grp 1 (.star true (.set false it))) .eot)).isMatch U w = true := by
  have hh : Heads U (Re.seq .bot (.seq (.grp 1 (.star true (.set false it))) .eot)) [] ([] ++ (w ++ [])) [] [] [(1, w)] :=
    Heads.seq .bot (Heads.seq (Heads.grp (Heads.star h (by simp))) .eot)
  have := Re.search_hit hh.matchAt
  simp only [List.nil_append, List.append_nil] at this
  simp [Re.isMatch, this]

theorem classes_match {U : Uni} {w : Str} (h : ∀ c ∈ w, Spec.NameChar c ∨ c = ' ') : CSS_CLASSES_RE.isMatch U w = true := by
  rw [classes_shape]
  refine whole_match (fun x hx => ?_)
  have hm : x ∈ nameChars ++ t!" " := by
    rcases h x hx with h | rfl
    · exact List.mem_append_left _ (name_mem h)
    · decide
  exact List.all_eq_true.1 (show (nameChars ++ t!" ").all (evalSet U false [.chr '-', .range 'a' 'z', .range 'A' 'Z', .chr ' ',
    .range '0' '9', .chr '_', .chr '.', .chr '/', .chr '[', .chr ']']) = true by kernel_rfl) x hm

theorem id_match {U : Uni} {w : Str} (h : ∀ c ∈ w, Spec.NameChar c ∨ c = ':') : CSS_ID_RE.isMatch U w = true := by
  rw [id_shape]
  refine whole_match (fun x hx => ?_)
  have hm : x ∈ nameChars ++ t!":" := by
    rcases h x hx with h | rfl
    · exact List.mem_append_left _ (name_mem h)
    · decide
  exact List.all_eq_true.1 (show (nameChars ++ t!":").all (evalSet U false [.chr '-', .range 'a' 'z', .range 'A' 'Z',
    .range '0' '9', .chr '_', .chr '.', .chr ':']) = true by kernel_rfl) x hm

/-- The text between the parentheses. -/
def clsText (n : Str) : Option Str → Str
  | none => n
  | some i => n ++ '#' :: i

theorem splitOnce_at {d : Char} : ∀ {a b : Str}, d ∉ a → splitOnce d (a ++ d :: b) = some (a, b)
  | [], b, _ => by simp [splitOnce]
  | x :: a, b, h => by
    simp only [List.mem_cons, not_or] at h
    have : (x == d) = false := by simpa using fun e => h.1 e.symm
    rw [List.cons_append, splitOnce, this, splitOnce_at h.2]
    rfl

theorem name_nohash {c : Char} (h : Spec.NameChar c ∨ c = ' ') : c ≠ '#' := by
  rintro rfl
  rcases h with h | h
  · have := name_mem h; revert this; decide +kernel
  · revert h; decide

theorem classAndId_ok {U : Uni} {n : Str} {i : Option Str} (h : (Spec.Group.classes n i).Ok) :
    classAndId U (clsText n i) = (if n = [] then none else some n, i) := by
  obtain ⟨h1, h2, h3⟩ := h
  have hn : '#' ∉ n := fun hh => name_nohash (h1 _ hh) rfl
  cases i with
  | none =>
    have : n ≠ [] := fun e => h2 e rfl
    simp only [classAndId, clsText, splitOnce_absent hn, classes_match h1, if_true, this, if_false]
  | some i =>
    simp only [classAndId, clsText, splitOnce_at hn, id_match (h3 i rfl).2, classes_match h1, if_true]
    cases n <;> simp

theorem clsText_style {n : Str} {i : Option Str} (h : (Spec.Group.classes n i).Ok) : ∀ c ∈ clsText n i, c ∈ styleChars := by
  intro c hc
  have hn : c ∈ n → c ∈ styleChars := by
    intro hc
    rcases h.1 c hc with h | rfl
    · exact List.mem_append_left _ (name_mem h)
    · decide
  cases i with
  | none => exact hn hc
  | some i =>
    simp only [clsText, List.mem_append, List.mem_cons] at hc
    rcases hc with hc | rfl | hc
    · exact hn hc
    · decide
    · rcases (h.2.2 i rfl).2 c hc with h | rfl
      · exact List.mem_append_left _ (name_mem h)
      · decide

theorem clsText_chars {n : Str} {i : Option Str} (h : (Spec.Group.classes n i).Ok) :
    clsText n i ≠ [] ∧ ∀ c ∈ clsText n i, c ≠ '(' ∧ c ≠ ')' := by
  have hm := clsText_style h
  constructor
  · cases i with
    | none => exact fun e => h.2.1 e rfl
    | some i => simp [clsText]
  · intro c hc
    exact (by decide +kernel : ∀ c ∈ styleChars, c ≠ '(' ∧ c ≠ ')') c (hm c hc)

theorem cls_source (n : Str) (i : Option Str) : (Spec.Group.classes n i).source = ['('] ++ (clsText n i ++ [')']) := by
  cases i <;> simp [Spec.Group.source, clsText]

theorem group_head (g : Spec.Group) : ∃ q qs, g.source = q :: qs ∧ q ∉ styleChars := by
  cases g with
  | classes n i => rw [cls_source]; exact ⟨_, _, rfl, by decide +kernel⟩
  | style ds => exact ⟨_, _, rfl, by decide +kernel⟩
  | lang l => exact ⟨_, _, rfl, by decide +kernel⟩

theorem delete_skip {n b : Str} (hn : n ≠ []) : ∀ {a : Str}, (∀ u x v, a = u ++ x :: v → ¬ n <+: x :: (v ++ (n ++ b))) →
    containsStr n b = false → replaceStr n [] (a ++ (n ++ b)) = a ++ b
  | [], _, hb => by rw [List.nil_append, replaceStr_hit hn, replaceStr_none hb]
  | x :: a, h, hb => by
    rw [List.cons_append, replaceStr_miss, delete_skip hn (fun u y v e => h (x :: u) y v (by rw [e]; rfl)) hb]
    · rfl
    · have := h [] x a rfl
      rw [← List.isPrefixOf_iff_prefix, Bool.not_eq_true] at this
      exact this

theorem class_stage (U : Uni) {al : Str} {l r : Nat} {gs : List Spec.Group} (hok : ∀ g ∈ gs, g.Ok) (h1 : Once isCls gs)
    (hal : '(' ∉ al) (hal' : ')' ∉ al) (b : Bool) :
    aclassAttr U (al ++ (List.replicate l '(' ++ List.replicate r ')') ++ src gs) b =
      (if b then (none, none) else (clsOf gs, idOf gs),
        al ++ (List.replicate l '(' ++ List.replicate r ')') ++ src (without isCls gs)) := by
  have no : ∀ {xs : List Spec.Group} {c : Char}, c = '(' ∨ c = ')' → (∀ g ∈ xs, g.Ok) → (∀ g ∈ xs, isCls g = false) → c ∉ src xs := by
    intro xs c hc hx hs
    refine src_not hx (by rcases hc with rfl | rfl <;> decide +kernel) (fun g hg => ?_)
    have := hs g hg
    rcases hc with rfl | rfl <;> cases g <;> simp_all [isCls, Spec.Group.kind]
  simp only [aclassAttr]
  rcases once_split h1 with hn | ⟨a, g, bb, rfl, hg, ha, hb, hw⟩
  · have hz : ATTR_ACLASS_RE.captures U (al ++ (List.replicate l '(' ++ List.replicate r ')') ++ src gs) = none := by
      have hsk := aclass_marks (U := U) (l := l) (r := r) (Z := src gs) hal (fun w y e => absurd (by rw [e]; simp) (no (.inr rfl) hok hn))
      unfold Re.captures
      rw [Re.search_skips hsk]
      have : ATTR_ACLASS_RE.search U ((al ++ (List.replicate l '(' ++ List.replicate r ')')).reverse ++ []) (src gs) = none := by
        rw [ACLASS_shape]
        refine Re.search_none_lang (fun a w b e hl => ?_) _
        obtain ⟨u, v, rfl, hu, -⟩ := hl
        obtain rfl := lang_chr.1 hu
        exact no (.inl rfl) hok hn (by rw [e]; simp)
      rw [this]
    rw [hz, without_none hn, (clsOf_none hn).1, (clsOf_none hn).2]
    cases b <;> rfl
  · obtain ⟨n, i, rfl⟩ : ∃ n i, g = .classes n i := by cases g <;> simp_all [isCls]
    have hga := no (.inl rfl) (fun g hg => hok g (by simp [hg])) ha
    have hga' := no (.inr rfl) (fun g hg => hok g (by simp [hg])) ha
    have hgb := no (.inl rfl) (fun g hg => hok g (by simp [hg])) hb
    have hc := hok (.classes n i) (by simp)
    obtain ⟨hne, hch⟩ := clsText_chars hc
    generalize hm : al ++ (List.replicate l '(' ++ List.replicate r ')') = m
    have e : m ++ src (a ++ Spec.Group.classes n i :: bb) =
        (m ++ src a) ++ (['('] ++ (clsText n i ++ [')']) ++ src bb) := by
      rw [src_append, src_cons, cls_source]; simp
    have hsk : Skips U ATTR_ACLASS_RE [] (m ++ src a) (['('] ++ (clsText n i ++ [')']) ++ src bb) := by
      refine Skips.append ?_ ?_
      · rw [← hm]
        refine aclass_marks hal (fun w y e => ?_)
        rw [List.append_assoc, List.append_eq_append_iff] at e
        rcases e with ⟨s, rfl, e2⟩ | ⟨s, e1, e2⟩
        · cases s with
          | nil => simp at e2
          | cons x s => simp only [List.singleton_append, List.cons_append, List.cons.injEq] at e2; simp [← e2.1]
        · cases s with
          | nil => simp at e2
          | cons x s =>
            simp only [List.cons_append, List.cons.injEq] at e2
            exact absurd (by rw [e1, ← e2.1]; simp) hga'
      · rw [ACLASS_shape]; exact skips_not hga
    rw [hw, e]
    rw [ACLASS_shape] at hsk ⊢
    rw [bracket_some hsk (fun pre => .plus hne (fun x hx => evalSet_not2 (hch x hx).1 (hch x hx).2) (by
      intro x hx; simp at hx; exact evalSet_not2_or (.inr hx.symm)))]
    refine Prod.ext ?_ ?_
    · simp only
      rw [show Mat.grp ⟨m ++ src a, ['('] ++ (clsText n i ++ [')']), [(1, clsText n i)]⟩ 1 = clsText n i from rfl, classAndId_ok hc]
      have h1 := clsOf_none ha
      have h2 := clsOf_none hb
      unfold clsOf idOf at h1 h2 ⊢
      simp only [List.findSome?_append, h1, List.findSome?_cons, h2]
      cases i <;> by_cases hn : n = [] <;> simp [hn]
    · simp only [List.singleton_append]
      rw [src_append, ← List.append_assoc m, delete_skip (by simp)]
      · intro u x v e' hp
        obtain ⟨z, hz⟩ := hp
        simp only [List.cons_append, List.cons.injEq] at hz
        obtain ⟨rfl, hz⟩ := hz
        obtain ⟨y, ys, hy⟩ : ∃ y ys, clsText n i = y :: ys := List.exists_cons_of_ne_nil hne
        have hys := clsText_style hc y (by rw [hy]; simp)
        rw [hy, List.cons_append, List.cons_append] at hz
        have hal2 : ∃ v', m = u ++ '(' :: v' ∧ v = v' ++ src a := by
          rw [List.append_eq_append_iff] at e'
          rcases e' with ⟨s, rfl, e2⟩ | ⟨s, e1, e2⟩
          · exact absurd (by rw [e2]; simp) hga
          · cases s with
            | nil => exact absurd (by rw [← show '(' :: v = src a from e2]; simp) hga
            | cons q s =>
              simp only [List.cons_append, List.cons.injEq] at e2
              exact ⟨s, by rw [e1, ← e2.1], e2.2⟩
        obtain ⟨v', em, rfl⟩ := hal2
        have hv' : ∀ c ∈ v', c = '(' ∨ c = ')' := by
          rw [← hm, List.append_eq_append_iff] at em
          rcases em with ⟨s, rfl, e2⟩ | ⟨s, e1, e2⟩
          · intro c hc'
            have : c ∈ List.replicate l '(' ++ List.replicate r ')' := by rw [e2]; simp [hc']
            rcases List.mem_append.1 this with h | h
            · exact .inl (List.eq_of_mem_replicate h)
            · exact .inr (List.eq_of_mem_replicate h)
          · cases s with
            | nil =>
              intro c hc'
              have : c ∈ List.replicate l '(' ++ List.replicate r ')' := by
                rw [← show '(' :: v' = List.replicate l '(' ++ List.replicate r ')' from e2]; simp [hc']
              rcases List.mem_append.1 this with h | h
              · exact .inl (List.eq_of_mem_replicate h)
              · exact .inr (List.eq_of_mem_replicate h)
            | cons q s =>
              simp only [List.cons_append, List.cons.injEq] at e2
              exact absurd (by rw [e1, ← e2.1]; simp) hal
        cases v' with
        | cons q v' =>
          simp only [List.cons_append, List.cons.injEq] at hz
          rcases hv' q (by simp) with rfl | rfl <;> rw [hz.1] at hys <;> revert hys <;> decide +kernel
        | nil =>
          cases a with
          | nil =>
            simp only [src, List.flatMap_nil, List.nil_append, List.cons_append, List.cons.injEq] at hz
            rw [hz.1] at hys; revert hys; decide +kernel
          | cons g a =>
            rw [src_cons] at hz
            obtain ⟨q, qs, hq, hq'⟩ := group_head g
            rw [hq] at hz
            simp only [List.nil_append, List.cons_append, List.cons.injEq] at hz
            rw [hz.1] at hys
            exact hq' hys
      · exact containsStr_false_of_mem (c := '(') (by simp) hgb

/-! ## Paddings and alignment -/

theorem PADL_shape : ATTR_PADDING_LEFT_RE = runRe '(' := by kernel_rfl
theorem PADR_shape : ATTR_PADDING_RIGHT_RE = runRe ')' := by kernel_rfl

theorem pad_stage (U : Uni) (c : Char) (side a b : Str) (n : Nat) (ha : c ∉ a) (hb : c ∉ b) :
    paddingStyle U (runRe c) side (a ++ (List.replicate n c ++ b)) =
      (if n = 0 then [] else [side ++ natStr n ++ t!"em"], a ++ b) := by
  unfold paddingStyle
  cases n with
  | zero => rw [runRe_none (by simp [ha, hb])]; simp
  | succ n =>
    obtain ⟨s, hs⟩ := runRe_some (U := U) (n := n) ha hb
    obtain ⟨a', rest, e, e', ht⟩ := Re.captures_takes hs
    obtain ⟨s1, -, h2⟩ := ht.grp
    simp only at h2
    rw [hs]
    simp only [List.replicate_succ]
    rw [delete_once ha hb]
    refine Prod.ext ?_ rfl
    subst h2
    simp [Mat.grp, Mat.get?, alLookup]

def alignText : Option Spec.Align → Str
  | none => []
  | some x => x.mark

def attA : Alpha := ⟨styleChars ++ t!";{}[]", false⟩

theorem halign_search {U : Uni} (hU : UniOk U) {t : Str} (h : ∀ c ∈ t, c ∈ styleChars ++ t!";{}[]") (pre : Str) :
    ATTR_HALIGN_RE.search U pre t = none :=
  Re.need_search hU (A := attA) (by decide +kernel) (by decide +kernel) (fun c hc => .inl (h c hc)) pre

/-- What is left when everything else has been removed. -/
def Leftover (z : Str) : Prop := (∀ c ∈ z, c ∈ styleChars ++ t!";{}[]") ∧ (z = [] ∨ z.head? = some '{')

theorem halign_stage {U : Uni} (hU : UniOk U) (al : Option Spec.Align) {z : Str} (hz : Leftover z) :
    halignStyle U (alignText al ++ z) = .ok (match al with | none => [] | some x => [t!"text-align:" ++ x.word]) := by
  unfold halignStyle
  cases al with
  | none =>
    have : ATTR_HALIGN_RE.captures U ([] ++ z) = none := by
      unfold Re.captures; rw [List.nil_append, halign_search hU hz.1]
    simp only [alignText, this]
  | some x =>
    have key : ∃ m : Mat, ATTR_HALIGN_RE.captures U (x.mark ++ z) = some m ∧ m.grp 1 = x.mark := by
      have hh : Heads U ATTR_HALIGN_RE [] x.mark z [] [(1, x.mark)] := by
        obtain ⟨re, hre⟩ : ∃ re, re = (match ATTR_HALIGN_RE with | .grp _ q => q | _ => .eps) := ⟨_, rfl⟩
        rw [show ATTR_HALIGN_RE = .grp 1 re by rw [hre]; kernel_rfl]
        refine Heads.grp ?_
        subst hre
        rcases hz.2 with rfl | hz
        · cases x <;> exact ⟨[], by kernel_rfl⟩
        · obtain ⟨zs, rfl⟩ : ∃ zs, z = '{' :: zs := by
            cases z with
            | nil => simp at hz
            | cons q zs => simp at hz; exact ⟨zs, by rw [hz]⟩
          cases x <;> exact ⟨[], by kernel_rfl⟩
      refine ⟨⟨[], x.mark, [(1, x.mark)]⟩, Re.captures_eq (rest := z) (Re.search_hit hh.matchAt) (by simp), rfl⟩
    obtain ⟨m, hm, hg⟩ := key
    rw [show alignText (some x) = x.mark from rfl, hm]
    simp only [hg]
    cases x <;> rfl

/-! ## All attributes -/

/-- The attributes described by `a`. -/
def attsOf (restricted : Bool) (a : Spec.Atts) : BAttrs :=
  let style := (if restricted then [] else a.declarations) ++ a.layout
  { cls := if restricted then none else a.cls
    id := if restricted then none else a.id
    lang := a.language
    style := if style = [] then none else some (Spec.join t!"; " style ++ t!";") }

theorem findSome_without {α : Type} {f : Spec.Group → Option α} {p : Spec.Group → Bool} (h : ∀ g, p g = true → f g = none) :
    ∀ gs : List Spec.Group, (without p gs).findSome? f = gs.findSome? f
  | [] => rfl
  | g :: gs => by
    have ih := findSome_without h gs
    unfold without at ih ⊢
    rw [List.filter_cons]
    cases hp : p g with
    | true => simp only [Bool.not_true, Bool.false_eq_true, if_false]; rw [List.findSome?_cons, h g hp, ih]
    | false => simp only [Bool.not_false, if_true]; rw [List.findSome?_cons, List.findSome?_cons, ih]

theorem langOf_without (gs : List Spec.Group) : langOf (without isStyle gs) = langOf gs :=
  findSome_without (fun g h => by cases g <;> simp_all [isStyle]) gs

theorem clsOf_without (gs : List Spec.Group) : clsOf (without isLang gs) = clsOf gs ∧ clsOf (without isStyle gs) = clsOf gs ∧
    idOf (without isLang gs) = idOf gs ∧ idOf (without isStyle gs) = idOf gs := by
  refine ⟨findSome_without (fun g h => ?_) gs, findSome_without (fun g h => ?_) gs, findSome_without (fun g h => ?_) gs,
    findSome_without (fun g h => ?_) gs⟩ <;> cases g <;> simp_all [isStyle, isLang]

theorem marks_eq (a : Spec.Atts) : a.marks = alignText a.align ++ (List.replicate a.left '(' ++ List.replicate a.right ')') := by
  cases a with | mk al l r gs => cases al <;> rfl

theorem align_mem {al : Option Spec.Align} {c : Char} (h : c ∈ alignText al) : c ∈ t!"<>=" := by
  cases al with
  | none => cases h
  | some x => cases x <;> revert c <;> decide

theorem marks_mem {a : Spec.Atts} {c : Char} (h : c ∈ a.marks) : c ∈ t!"<>=()" := by
  rw [marks_eq, List.mem_append, List.mem_append] at h
  rcases h with h | h | h
  · exact (by decide : ∀ c ∈ t!"<>=", c ∈ t!"<>=()") c (align_mem h)
  · rw [List.eq_of_mem_replicate h]; decide
  · rw [List.eq_of_mem_replicate h]; decide

/-- The groups left at the end: none, or, in restricted mode, the style. -/
theorem leftover {gs : List Spec.Group} (hok : ∀ g ∈ gs, g.Ok) (h1 : Once isStyle gs) (b : Bool) :
    Leftover (src (without isCls (without isLang (if b then gs else without isStyle gs)))) := by
  generalize hx : without isCls (without isLang (if b then gs else without isStyle gs)) = xs
  have hs : ∀ g ∈ xs, g.Ok ∧ isStyle g = true := by
    intro g hg
    rw [← hx] at hg
    have h3 := List.mem_filter.1 hg
    have h2 := List.mem_filter.1 h3.1
    have hgs : g ∈ gs := by
      have := h2.1
      cases b
      · exact mem_without this
      · exact this
    refine ⟨hok g hgs, ?_⟩
    have e2 := h2.2
    have e3 := h3.2
    cases g <;> simp_all [isStyle, isLang, isCls]
  constructor
  · intro c hc
    obtain ⟨g, hg, hc⟩ := List.mem_flatMap.1 hc
    obtain ⟨hk, hs'⟩ := hs g hg
    rcases group_mem hk hc with h | h
    · rw [List.mem_append] at h
      rcases h with h | h
      · exact List.mem_append_left _ h
      · simp at h; subst h; decide +kernel
    · cases g with
      | style ds => rcases h with rfl | rfl <;> decide +kernel
      | classes n i => cases hs'
      | lang l => cases hs'
  · cases xs with
    | nil => exact .inl rfl
    | cons g xs =>
      obtain ⟨-, hs'⟩ := hs g (by simp)
      cases g with
      | style ds => exact .inr rfl
      | classes n i => cases hs'
      | lang l => cases hs'

theorem parse_atts {U : Uni} (hU : UniOk U) {a : Spec.Atts} (h : a.Ok) {el : Option Str} (hel : el ∉ [some t!"td", some t!"tr", some t!"col"])
    (r : Bool) : BAttrs.parse U a.source el r = .ok (attsOf r a) := by
  obtain ⟨hok, hnd⟩ := h
  obtain ⟨h1, h2, h3⟩ := once_of hnd
  simp only [List.mem_cons, List.not_mem_nil, or_false, not_or] at hel
  have hmk : ∀ {c}, c ∉ t!"<>=()" → c ∉ a.marks := fun h h' => h (marks_mem h')
  have hsrc : a.source = a.marks ++ src a.groups := rfl
  by_cases he : a.source = []
  · have hg : a.groups = [] := by
      rw [hsrc, List.append_eq_nil_iff] at he
      cases hgs : a.groups with
      | nil => rfl
      | cons g gs =>
        obtain ⟨q, qs, hq, -⟩ := group_head g
        rw [hgs, src_cons, hq] at he
        simp at he
    have hm : a.marks = [] := by rw [hsrc, List.append_eq_nil_iff] at he; exact he.1
    obtain ⟨al, l, rr, gs⟩ := a
    simp only at hg
    subst hg
    rw [marks_eq] at hm
    simp only [List.append_eq_nil_iff, List.replicate_eq_nil_iff] at hm
    obtain ⟨hm1, rfl, rfl⟩ := hm
    cases al with
    | some x => cases x <;> cases hm1
    | none => cases r <;> rfl
  · have hne : a.source.isEmpty = false := by simpa using he
    have hst : explicitStyle U a.source r =
        (if r then [] else a.declarations, a.marks ++ src (if r then a.groups else without isStyle a.groups)) := by
      cases r with
      | true => rfl
      | false => exact style_stage U hok h1 (hmk (by decide))
    generalize hgs2 : (if r then a.groups else without isStyle a.groups) = gs2
    rw [hgs2] at hst
    have hok2 : ∀ g ∈ gs2, g.Ok := by
      intro g hg; rw [← hgs2] at hg
      cases r
      · exact hok g (mem_without hg)
      · exact hok g hg
    have hl2 : Once isLang gs2 ∧ Once isCls gs2 := by
      rw [← hgs2]; cases r
      · exact ⟨h2.filter, h3.filter⟩
      · exact ⟨h2, h3⟩
    have hval : langOf gs2 = a.language ∧ clsOf (without isLang gs2) = a.cls ∧ idOf (without isLang gs2) = a.id := by
      obtain ⟨c1, c2, c3, c4⟩ := clsOf_without gs2
      rw [c1, c3, ← hgs2]
      cases r
      · obtain ⟨d1, d2, d3, d4⟩ := clsOf_without a.groups
        exact ⟨langOf_without _, d2, d4⟩
      · exact ⟨rfl, rfl, rfl⟩
    have hla := lang_stage U hok2 hl2.1 (m := a.marks) (hmk (by decide))
    have hcl := class_stage U (al := alignText a.align) (l := a.left) (r := a.right) (gs := without isLang gs2)
      (fun g hg => hok2 g (mem_without hg)) hl2.2.filter
      (fun h => absurd (align_mem h) (by decide)) (fun h => absurd (align_mem h) (by decide)) r
    rw [← marks_eq] at hcl
    have hleft := leftover hok h1 r
    rw [hgs2] at hleft
    generalize src (without isCls (without isLang gs2)) = z at hcl hleft
    have hz : ∀ c, c ∉ styleChars ++ t!";{}[]" → c ∉ z := fun c h h' => h (hleft.1 c h')
    have hp1 := pad_stage U '(' t!"padding-left:" (alignText a.align) (List.replicate a.right ')' ++ z) a.left
      (fun h => absurd (align_mem h) (by decide))
      (by
        rw [List.mem_append, not_or]
        exact ⟨fun h => absurd (List.eq_of_mem_replicate h) (by decide), hz _ (by decide +kernel)⟩)
    have hp2 := pad_stage U ')' t!"padding-right:" (alignText a.align) z a.right
      (fun h => absurd (align_mem h) (by decide)) (hz _ (by decide +kernel))
    have hv : valignStyle U a.source el = .ok [] := by
      simp only [valignStyle, hel.1, hel.2.1, or_self, if_false]
    have ha := halign_stage hU a.align hleft
    have em : a.marks ++ z = alignText a.align ++ (List.replicate a.left '(' ++ (List.replicate a.right ')' ++ z)) := by
      rw [marks_eq]; simp
    simp only [BAttrs.parse, hne, Bool.false_eq_true, if_false, hel.1, hel.2.2, hv, hst, hla, hcl, em, PADL_shape, PADR_shape, hp1, hp2, ha,
      hval.1, hval.2.1, hval.2.2]
    rw [Except.ok.injEq]
    simp only [attsOf, joinWith_eq, List.nil_append, List.isEmpty_iff]
    have hlay : a.layout = (if a.left = 0 then [] else [t!"padding-left:" ++ natStr a.left ++ t!"em"]) ++
        (if a.right = 0 then [] else [t!"padding-right:" ++ natStr a.right ++ t!"em"]) ++
        (match a.align with | none => [] | some x => [t!"text-align:" ++ x.word]) := by
      simp only [Spec.Atts.layout, natStr_numeral, Spec.paddingLeft, Spec.paddingRight, Spec.textAlign, List.append_assoc]
      cases a.align <;> rfl
    rw [hlay]
    simp only [List.append_assoc]
    cases r <;> rfl

/-! ## As text -/

theorem attrText_plain {k v : Str} (h : ∀ c ∈ v, c ∈ styleChars ++ t!";") : attrText (k, v) = Spec.attr k (some v) := by
  have he : encodeHtml v false true = v := by
    unfold encodeHtml
    have : ∀ c ∈ v, encChar false true c = [c] := fun c hc =>
      (by decide +kernel : ∀ c ∈ styleChars ++ t!";", encChar false true c = [c]) c (h c hc)
    clear h
    induction v with
    | nil => rfl
    | cons x v ih => rw [List.flatMap_cons, this x (by simp), ih (fun c hc => this c (by simp [hc]))]; rfl
  have hq : v.contains '"' = false := by
    cases hv : v.contains '"'
    · rfl
    · have := h '"' (by simpa using hv)
      revert this; decide +kernel
  simp only [attrText, quoteattr, he, hq, Spec.attr]
  simp

theorem toStr_four (c i l s : Option Str) : ({ cls := c, id := i, lang := l, style := s } : BAttrs).html =
    (c.toList.map (t!"class", ·)) ++ ((i.toList.map (t!"id", ·)) ++ ((l.toList.map (t!"lang", ·)) ++ (s.toList.map (t!"style", ·)))) := by
  cases c <;> cases i <;> cases l <;> cases s <;> rfl

theorem cls_mem {a : Spec.Atts} (h : a.Ok) {v : Str} (hv : a.cls = some v ∨ a.id = some v ∨ a.language = some v) :
    ∀ c ∈ v, c ∈ styleChars := by
  intro c hc
  rcases hv with hv | hv | hv
  · obtain ⟨g, hg, e⟩ := List.exists_of_findSome?_eq_some hv
    cases g with
    | classes n i =>
      by_cases hn : n = []
      · simp [hn] at e
      · simp only [hn, if_false, Option.some.injEq] at e
        subst e
        rcases (h.1 _ hg).1 c hc with h | rfl
        · exact List.mem_append_left _ (name_mem h)
        · decide +kernel
    | style ds => simp at e
    | lang l => simp at e
  · obtain ⟨g, hg, e⟩ := List.exists_of_findSome?_eq_some hv
    cases g with
    | classes n i =>
      rcases ((h.1 _ hg).2.2 v e).2 c hc with h | rfl
      · exact List.mem_append_left _ (name_mem h)
      · decide +kernel
    | style ds => simp at e
    | lang l => simp at e
  · obtain ⟨g, hg, e⟩ := List.exists_of_findSome?_eq_some hv
    cases g with
    | classes n i => simp at e
    | style ds => simp at e
    | lang l =>
      simp only [Option.some.injEq] at e
      subst e
      exact List.mem_append_left _ (name_mem ((h.1 _ hg).2 c hc))

theorem numeral_style {n : Nat} : ∀ c ∈ Spec.numeral n, c ∈ styleChars := by
  intro c hc
  rw [natStr_numeral] at hc
  have hd := natStr_digits n c hc
  simp only [isDigitC, Bool.and_eq_true, decide_eq_true_eq] at hd
  exact List.mem_append_left _ (name_mem (.inr (.inr (.inl hd))))

theorem style_decl_mem {a : Spec.Atts} (h : a.Ok) {d : Str} (hd : d ∈ a.declarations ++ a.layout) : ∀ c ∈ d, c ∈ styleChars := by
  intro c hc
  rcases List.mem_append.1 hd with hd | hd
  · obtain ⟨g, hg, e⟩ := List.mem_flatMap.1 hd
    cases g with
    | style ds => exact style_mem (((h.1 _ hg).2 d e).2.2.2 c hc)
    | classes n i => simp at e
    | lang l => simp at e
  · simp only [Spec.Atts.layout, List.mem_append] at hd
    rcases hd with hd | hd | hd
    · split at hd
      · cases hd
      · simp only [List.mem_singleton] at hd
        subst hd
        rcases List.mem_append.1 hc with hc | hc
        · exact (by decide +kernel : ∀ c ∈ Spec.paddingLeft, c ∈ styleChars) c hc
        · rcases List.mem_append.1 hc with hc | hc
          · exact numeral_style c hc
          · exact (by decide +kernel : ∀ c ∈ ['e', 'm'], c ∈ styleChars) c hc
    · split at hd
      · cases hd
      · simp only [List.mem_singleton] at hd
        subst hd
        rcases List.mem_append.1 hc with hc | hc
        · exact (by decide +kernel : ∀ c ∈ Spec.paddingRight, c ∈ styleChars) c hc
        · rcases List.mem_append.1 hc with hc | hc
          · exact numeral_style c hc
          · exact (by decide +kernel : ∀ c ∈ ['e', 'm'], c ∈ styleChars) c hc
    · split at hd
      · cases hd
      · rename_i x _
        simp only [List.mem_singleton] at hd
        subst hd
        exact List.all_eq_true.1 (show (Spec.textAlign ++ x.word).all (fun c => decide (c ∈ styleChars)) = true by
          cases x <;> decide +kernel) c hc |> of_decide_eq_true

theorem styleText_mem {a : Spec.Atts} (h : a.Ok) (r : Bool) : ∀ c ∈ Spec.join t!"; " ((if r then [] else a.declarations) ++ a.layout) ++ t!";",
    c ∈ styleChars ++ t!";" := by
  intro c hc
  apply Classical.byContradiction
  intro hn
  rcases List.mem_append.1 hc with hc | hc
  · refine join_nochar (c := c) (sep := t!"; ") ?_ (fun d hd hcd => ?_) hc
    · intro hh
      simp only [List.mem_cons, List.not_mem_nil, or_false] at hh
      rcases hh with rfl | rfl <;> exact hn (by decide +kernel)
    · refine hn (List.mem_append_left _ (style_decl_mem h ?_ c hcd))
      cases r
      · exact hd
      · exact List.mem_append_right _ hd
  · exact hn (List.mem_append_right _ hc)

theorem atts_text {a : Spec.Atts} (h : a.Ok) (r : Bool) : (attsOf r a).toStr = a.html r := by
  have one : ∀ (k : Str) (o : Option Str), (∀ v, o = some v → ∀ c ∈ v, c ∈ styleChars ++ t!";") →
      (o.toList.map (k, ·)).flatMap attrText = Spec.attr k o := by
    intro k o ho
    cases o with
    | none => rfl
    | some v => simp only [Option.toList, List.map_cons, List.map_nil, List.flatMap_cons, List.flatMap_nil, List.append_nil]; exact attrText_plain (ho v rfl)
  have up : ∀ {c : Char}, c ∈ styleChars → c ∈ styleChars ++ t!";" := fun h => List.mem_append_left _ h
  rw [BAttrs.toStr, HtmlAttrs.toStr, attsOf, toStr_four]
  simp only [List.flatMap_append]
  rw [one, one, one, one]
  · rfl
  · intro v hv
    by_cases hs : (if r = true then [] else a.declarations) ++ a.layout = []
    · rw [if_pos hs] at hv; cases hv
    · rw [if_neg hs, Option.some.injEq] at hv; subst hv; exact styleText_mem h r
  · intro v hv c hc; exact up (cls_mem h (.inr (.inr hv)) c hc)
  · intro v hv c hc
    cases r
    · exact up (cls_mem h (.inr (.inl hv)) c hc)
    · cases hv
  · intro v hv c hc
    cases r
    · exact up (cls_mem h (.inl hv) c hc)
    · cases hv

end Rustextile
