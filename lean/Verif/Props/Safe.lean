import Verif.SpecSafe
import Verif.Props.Raw
import Verif.Props.Images
import Verif.Props.Restricted
import Verif.Props.Modes

/-!
# Restricted mode gives only Textile's own elements: C93
-/

namespace Rustextile

open Prog
open Spec (SafeAtts SafeHtml)

/-! ## Attributes -/

/-- A value of an attribute. -/
def Val (v : Str) : Prop := '"' ∉ v ∧ '<' ∉ v

theorem Val.append {a b : Str} (ha : Val a) (hb : Val b) : Val (a ++ b) :=
  ⟨by simp [ha.1, hb.1], by simp [ha.2, hb.2]⟩

theorem Val.of {v : Str} {p : Char → Prop} (h : ∀ c ∈ v, p c) (h1 : ¬ p '"') (h2 : ¬ p '<') : Val v :=
  ⟨fun hm => h1 (h _ hm), fun hm => h2 (h _ hm)⟩

theorem Val.numeral (n : Nat) : Val (Spec.numeral n) := .of (fun _ h => numeral_mem h) (by decide) (by decide)

theorem Val.join {sep : Str} (hs : Val sep) : ∀ {ls : List Str}, (∀ l ∈ ls, Val l) → Val (Spec.join sep ls)
  | [], _ => ⟨by simp [Spec.join], by simp [Spec.join]⟩
  | [l], h => h l (by simp)
  | l :: m :: ls, h => by
    rw [Spec.join]
    exact ((h l (by simp)).append hs).append (Val.join hs fun x hx => h x (List.mem_cons_of_mem _ hx))

theorem Val.escape (t : Str) : Val (Spec.escape true t) := ⟨escape_noquote (.inl rfl), escape_notag _ _⟩

theorem Val.name {v : Str} (h : ∀ c ∈ v, Spec.NameChar c) : Val v :=
  .of h (by unfold Spec.NameChar; decide) (by unfold Spec.NameChar; decide)

theorem sa_append {a b : Str} (ha : SafeAtts a) (hb : SafeAtts b) : SafeAtts (a ++ b) := by
  induction ha with
  | nil => exact hb
  | cons h1 h2 h3 _ ih => simpa using SafeAtts.cons h1 h2 h3 ih

theorem sa_attr {n : Str} {o : Option Str} (hn : n ∈ Spec.attrNames) (h : ∀ v, o = some v → Val v) : SafeAtts (Spec.attr n o) := by
  cases o with
  | none => exact .nil
  | some v => simpa [Spec.attr] using SafeAtts.cons hn (h v rfl).1 (h v rfl).2 .nil

theorem sa_some {n v : Str} (hn : n ∈ Spec.attrNames) (h : Val v) : SafeAtts (Spec.attr n (some v)) :=
  sa_attr hn (by rintro _ ⟨⟩; exact h)

theorem sa_none {n : Str} : SafeAtts (Spec.attr n none) := .nil

theorem val_lang {a : Spec.Atts} (h : ∀ g ∈ a.groups, g.Ok) : ∀ v, a.language = some v → Val v := by
  intro v e
  obtain ⟨g, hg, e⟩ := List.exists_of_findSome?_eq_some e
  cases g with
  | lang l => simp only [Option.some.injEq] at e; subst e; exact Val.name (h _ hg).2
  | _ => cases e

theorem val_style {ls : List Str} (h : ∀ l ∈ ls, Val l) : ∀ v, (if ls = [] then none else some (Spec.join t!"; " ls ++ t!";")) = some v → Val v := by
  intro v e
  split at e
  · cases e
  · cases e; exact (Val.join ⟨by decide, by decide⟩ h).append ⟨by decide, by decide⟩

theorem val_align (x : Spec.Align) : Val (Spec.textAlign ++ x.word) := by cases x <;> exact ⟨by decide, by decide⟩

theorem val_layout (a : Spec.Atts) : ∀ l ∈ a.layout, Val l := by
  intro l hl
  simp only [Spec.Atts.layout, List.mem_append] at hl
  rcases hl with hl | hl | hl
  · split at hl
    · cases hl
    · rw [List.mem_singleton.1 hl]; exact Val.append ⟨by decide, by decide⟩ ((Val.numeral _).append ⟨by decide, by decide⟩)
  · split at hl
    · cases hl
    · rw [List.mem_singleton.1 hl]; exact Val.append ⟨by decide, by decide⟩ ((Val.numeral _).append ⟨by decide, by decide⟩)
  · split at hl
    · cases hl
    · rw [List.mem_singleton.1 hl]; exact val_align _

theorem val_cls {a : Spec.Atts} (h : ∀ g ∈ a.groups, g.Ok) : ∀ v, a.cls = some v → Val v := by
  intro v e
  obtain ⟨g, hg, e⟩ := List.exists_of_findSome?_eq_some e
  cases g with
  | classes n i =>
    simp only at e
    split at e
    · cases e
    · cases e; exact .of (h _ hg).1 (by unfold Spec.NameChar; decide) (by unfold Spec.NameChar; decide)
  | _ => cases e

theorem val_ident {a : Spec.Atts} (h : ∀ g ∈ a.groups, g.Ok) : ∀ v, a.id = some v → Val v := by
  intro v e
  obtain ⟨g, hg, e⟩ := List.exists_of_findSome?_eq_some e
  cases g with
  | classes n i => exact .of ((h _ hg).2.2 v e).2 (by unfold Spec.NameChar; decide) (by unfold Spec.NameChar; decide)
  | _ => cases e

theorem val_decls {a : Spec.Atts} (h : ∀ g ∈ a.groups, g.Ok) : ∀ d ∈ a.declarations, Val d := by
  intro d hd
  obtain ⟨g, hg, hd⟩ := List.mem_flatMap.1 hd
  cases g with
  | style ds => exact .of ((h _ hg).2 d hd).2.2.2 (by unfold Spec.StyleChar Spec.NameChar; decide) (by unfold Spec.StyleChar Spec.NameChar; decide)
  | _ => cases hd

/-- In restricted mode there is no such attribute. -/
theorem val_unless {o : Option Str} (r : Bool) (h : ∀ v, o = some v → Val v) : ∀ v, (if r then none else o) = some v → Val v := by
  intro v e
  split at e
  · cases e
  · exact h v e

theorem sa_atts {a : Spec.Atts} {r : Bool} (h : ∀ g ∈ a.groups, g.Ok) : SafeAtts (a.html r) := by
  refine sa_append (sa_attr (by decide) (val_unless r (val_cls h))) (sa_append (sa_attr (by decide) (val_unless r (val_ident h)))
    (sa_append (sa_attr (by decide) (val_lang h)) (sa_attr (by decide) (val_style fun l hl => ?_))))
  rcases List.mem_append.1 hl with hl | hl
  · split at hl
    · cases hl
    · exact val_decls h l hl
  · exact val_layout a l hl

theorem val_alnum {v : Str} (h : ∀ c ∈ v, Spec.Alnum c) : Val v :=
  .of h (by unfold Spec.Alnum; decide) (by unfold Spec.Alnum; decide)

theorem sa_look {k : Spec.Look} {r : Bool} (h : k.Ok r) (v : Bool) (cols rows : Option Nat) : SafeAtts (k.html r v cols rows) := by
  have hn : ∀ (o : Option Nat) v, o.map Spec.numeral = some v → Val v := by
    intro o v e
    obtain ⟨n, -, rfl⟩ := Option.map_eq_some_iff.1 e
    exact Val.numeral n
  refine sa_append (sa_attr (by decide) (val_unless r (val_cls (look_groups h).1))) (sa_append (sa_attr (by decide) (hn _))
    (sa_append (sa_attr (by decide) (val_unless r (val_ident (look_groups h).1))) (sa_append (sa_attr (by decide) ?_)
    (sa_append (sa_attr (by decide) (hn _)) (sa_attr (by decide) (val_style ?_))))))
  · intro l e; exact val_alnum (h.lang l e).2
  · intro l hl
    rcases List.mem_append.1 hl with hl | hl
    · split at hl
      · split at hl
        · cases hl
        · rename_i x _
          rw [List.mem_singleton.1 hl]; cases x <;> exact ⟨by decide, by decide⟩
      · cases hl
    · split at hl
      · cases hl
      · rw [List.mem_singleton.1 hl]; exact val_align _

/-! ## Texts -/

theorem sh_el {n a h : Str} (hn : n ∈ Spec.elementNames) (ha : SafeAtts a) (hh : SafeHtml h) : SafeHtml (Spec.elementWith n a h) :=
  .element hn ha hh

theorem sh_el0 {n h : Str} (hn : n ∈ Spec.elementNames) (hh : SafeHtml h) : SafeHtml (Spec.element n h) := by
  have := SafeHtml.element hn .nil hh
  simpa [Spec.element] using this

theorem sh_flatMap {α : Type} {f : α → Str} : ∀ {l : List α}, (∀ x ∈ l, SafeHtml (f x)) → SafeHtml (l.flatMap f)
  | [], _ => .text (by simp)
  | x :: l, h => by
    rw [List.flatMap_cons]
    exact .append (h x (by simp)) (sh_flatMap fun y hy => h y (List.mem_cons_of_mem _ hy))

theorem sh_breaks {br t : Str} (hbr : Spec.IsBreak br) (h : '<' ∉ t) : SafeHtml (Spec.breakLines br t) := by
  refine sh_flatMap fun c hc => ?_
  split
  · exact .append (.break_ hbr) (.text (by decide))
  · refine .text fun hm => h ?_
    rw [List.mem_singleton.1 hm]; exact hc

theorem prose_nolt {U : Uni} {t : Str} (h : Spec.Prose U.isLu t) : '<' ∉ t := prose_nochar h (by decide) (by decide)

theorem words_val {U : Uni} {t : Str} (h : Spec.Words U.isLu t) : Val t := .of h.chars (by decide) (by decide)

theorem words_nolt {U : Uni} {t : Str} (h : Spec.Words U.isLu t) : '<' ∉ t := (words_val h).2

theorem sh_prose {U : Uni} {br t : Str} (hbr : Spec.IsBreak br) (h : Spec.Prose U.isLu t) : SafeHtml (Spec.breakLines br t) :=
  sh_breaks hbr (prose_nolt h)

theorem inline_names {m : Str} (h : m ∈ Spec.inlineElements.map (·.1)) : Spec.inlineElement m ∈ Spec.elementNames := by
  revert m; decide

theorem val_rel {r : Str} (h : ∀ c ∈ r, (97 ≤ c.toNat ∧ c.toNat ≤ 122) ∨ c = ' ' ∨ c = '-') : Val r :=
  .of h (by decide) (by decide)

theorem sh_inline {U : Uni} {lite : Bool} {after : Str} {i : Spec.Inline} (h : i.Ok U.isLu lite after) : SafeHtml i.escaped.html := by
  cases i with
  | marked m t => exact sh_el0 (inline_names h.1) (.text (words_nolt h.2.1))
  | code t => exact sh_el0 (by decide) (.text (escape_notag _ _))
  | verbatim t => exact .text (escape_notag _ _)
  | link t url href rel =>
    have := SafeHtml.element (name := t!"a") (by decide) (sa_append (sa_some (n := t!"href") (by decide) (Val.escape href))
      (sa_attr (n := t!"rel") (o := rel) (by decide) fun r e => val_rel (h.rel r e))) (.text (words_nolt h.words))
    simp only [Spec.Inline.escaped, Spec.Inline.html, Spec.linkTag, Spec.htmlAttr]
    cases rel <;> simpa [Spec.attr] using this

theorem sh_inline_plain {U : Uni} {lite : Bool} {after : Str} {i : Spec.Inline} (h : i.Ok U.isLu lite after) (hn : '<' ∉ i.source) :
    SafeHtml i.html := by
  cases i with
  | code t => exact sh_el0 (by decide) (.text (escape_notag _ _))
  | verbatim t =>
    refine .text fun hm => hn ?_
    have hm : '<' ∈ t := hm
    simp [Spec.Inline.source, hm]
  | marked m t => exact sh_inline (i := .marked m t) h
  | link t url href rel => exact sh_inline (i := .link t url href rel) h

theorem sh_marked {U : Uni} {lite : Bool} {br : Str} {t : Spec.Marked} (hbr : Spec.IsBreak br) (h : t.Ok U.isLu lite) :
    SafeHtml (t.escaped.html br) := by
  refine .append (sh_prose hbr h.lead) (sh_flatMap fun p hp => ?_)
  obtain ⟨q, hq, rfl⟩ := List.mem_map.1 hp
  exact .append (sh_inline (h.parts q hq).inl) (sh_prose hbr (h.parts q hq).after)

theorem sh_marked_plain {U : Uni} {lite : Bool} {br : Str} {t : Spec.Marked} (hbr : Spec.IsBreak br) (h : t.Ok U.isLu lite)
    (hn : '<' ∉ t.source) : SafeHtml (t.html br) := by
  refine .append (sh_prose hbr h.lead) (sh_flatMap fun p hp => ?_)
  refine .append (sh_inline_plain (h.parts p hp).inl fun hm => hn ?_) (sh_prose hbr (h.parts p hp).after)
  exact List.mem_append_right _ (List.mem_flatMap.2 ⟨p, hp, List.mem_append_left _ hm⟩)

theorem block_names {lite : Bool} {tag : Str}
    (h : tag ∈ t!"p" :: (if lite then [] else [t!"h1", t!"h2", t!"h3", t!"h4", t!"h5", t!"h6"])) : tag ∈ Spec.elementNames := by
  cases lite <;> revert tag <;> decide

theorem sh_quote {a b h : Str} (ha : SafeAtts a) (hb : SafeAtts b) (hh : SafeHtml h) :
    SafeHtml (Spec.elementWith t!"blockquote" a (t!"\n\t" ++ (Spec.elementWith t!"p" b h ++ t!"\n"))) :=
  sh_el (by decide) ha (.append (.text (by decide)) (.append (sh_el (by decide) hb hh) (.text (by decide))))

/-! ## Blocks -/

theorem sh_rich {U : Uni} {lite : Bool} {br : Str} {b : Spec.Rich} (hbr : Spec.IsBreak br) (h : b.Ok U.isLu U.isNd lite) :
    SafeHtml (b.escaped.html br) := by
  obtain ⟨h1, h2⟩ := h
  cases b with
  | para t => exact sh_el0 (by decide) (sh_marked hbr h1)
  | tagged tag t => exact sh_el0 (block_names h2.1) (sh_marked hbr h1)
  | quote t =>
    refine sh_el0 (by decide) (.append (.append (.text (by decide)) (sh_el0 (by decide) (sh_marked hbr h1))) (.text (by decide)))

theorem sh_rich_plain {U : Uni} {lite : Bool} {br : Str} {b : Spec.Rich} (hbr : Spec.IsBreak br) (h : b.Ok U.isLu U.isNd lite)
    (hn : '<' ∉ b.source) : SafeHtml (b.html br) := by
  obtain ⟨h1, h2⟩ := h
  cases b with
  | para t => exact sh_el0 (by decide) (sh_marked_plain hbr h1 hn)
  | tagged tag t => exact sh_el0 (block_names h2.1) (sh_marked_plain hbr h1 fun hm => hn (by simp [Spec.Rich.source, hm]))
  | quote t =>
    refine sh_el0 (by decide) (.append (.append (.text (by decide)) (sh_el0 (by decide) (sh_marked_plain hbr h1 fun hm => hn ?_))) (.text (by decide)))
    simp [Spec.Rich.source, hm]

theorem sa_kind (k : Spec.ListKind) (n : Nat) : SafeAtts (k.attr n) := by
  have := sa_some (n := t!"start") (by decide) (Val.numeral n)
  cases k
  · exact .nil
  · exact .nil
  · simpa [Spec.attr, Spec.ListKind.attr] using this
  · simpa [Spec.attr, Spec.ListKind.attr] using this

theorem sh_around {k : Spec.ListKind} {d n last : Nat} {x : Str} (hx : SafeHtml x) : SafeHtml (k.around d n last x) := by
  have e : k.around d n last x = Spec.tabs (d - 1) ++ Spec.elementWith k.name (k.attr n) (x ++ (t!"\n" ++ Spec.tabs (last - 1))) := by
    simp [Spec.ListKind.around, Spec.elementWith]
  rw [e]
  refine .append (.text (tabs_nolt _)) (sh_el ?_ (sa_kind k n) (.append hx (.text ?_)))
  · unfold Spec.ListKind.name; split <;> decide
  · simp [tabs_nolt]

theorem sh_items : ∀ {t : Spec.Items} {o : Bool} {m : Str} {N : Spec.Numbers}, AllTexts (fun t => '<' ∉ t) t → SafeHtml (t.html o m N).1
  | .done, _, _, _, _ => .text (by simp [Spec.Items.html])
  | .item a k sub next, o, m, N, h => by
    rw [Spec.Items.html]
    simp only
    refine SafeHtml.append ?_ (sh_items h.2.2)
    rw [List.append_assoc, List.append_assoc, List.append_assoc, List.append_assoc]
    refine .append (.text (by decide)) (.append (.text (tabs_nolt _)) ?_)
    have := fun x hx => sh_el (n := t!"li") (a := []) (h := x) (by decide) .nil hx
    split
    · have := this a (.text h.1)
      simpa [Spec.elementWith] using this
    · rename_i hs
      have := this (a ++ (t!"\n" ++ k.around (m.length + 1) ((k.start (m ++ [k.mark]) (if o then N.set m (N m + 1) else N)) (m ++ [k.mark]))
        (sub.lastDepth (m.length + 1) (m.length + 1))
        (sub.html k.ordered (m ++ [k.mark]) (k.start (m ++ [k.mark]) (if o then N.set m (N m + 1) else N))).1))
        (.append (.text h.1) (.append (.text (by decide)) (sh_around (sh_items h.2.1))))
      simpa [hs, Spec.elementWith] using this

theorem sh_piece {U : Uni} {lite : Bool} {br : Str} {b : Spec.Piece} {N : Spec.Numbers} (hbr : Spec.IsBreak br) (h : b.Ok U.isLu U.isNd lite) :
    SafeHtml (b.escaped.html br N) := by
  cases b with
  | rich b => exact sh_rich hbr h
  | list k t => exact sh_around (sh_items ((items_ok (ok := fun _ => True) h.2.2.2 (by simp)).2.2.mono fun _ hw => (textA_none hw.1).1))

theorem sh_piece_plain {U : Uni} {lite : Bool} {br : Str} {b : Spec.Piece} {N : Spec.Numbers} (hbr : Spec.IsBreak br) (h : b.Ok U.isLu U.isNd lite)
    (hn : '<' ∉ b.source) : SafeHtml (b.html br N) := by
  cases b with
  | rich b => exact sh_rich_plain hbr h hn
  | list k t => exact sh_piece (b := .list k t) hbr h

theorem sh_node {U : Uni} {lite : Bool} {br : Str} {b : Spec.Node} {N : Spec.Numbers} (hbr : Spec.IsBreak br)
    (h : b.Ok U.isLu U.isNd lite true) : SafeHtml (b.escaped.html br true N) := by
  cases b with
  | piece b => exact sh_piece hbr h
  | styled tag a t => exact sh_el (block_names h.2.2.2.2.1) (sa_atts h.2.1.1) (sh_marked hbr h.1)
  | quoted a t => exact sh_quote (sa_atts h.2.1.1) (sa_atts h.2.1.1) (sh_marked hbr h.1)
  | verbatim tag a ls =>
    simp only [Spec.Node.escaped, Spec.Node.html]
    split
    · refine sh_el (by decide) (sa_atts fun g hg => h.2.1.1 g ?_) (sh_el (by decide) (sa_attr (by decide) (val_lang h.2.1.1)) (.text (escape_notag _ _)))
      exact (List.mem_filter.1 hg).1
    · split
      · exact sh_el (by decide) (sa_atts h.2.1.1) (.text (escape_notag _ _))
      · refine .text fun hm => ?_
        have : ∀ {ls : List Str}, (∀ l ∈ ls, '<' ∉ l) → '<' ∉ Spec.join t!"\n" ls := by
          intro ls
          induction ls with
          | nil => simp [Spec.join]
          | cons l ls ih =>
            cases ls with
            | nil => simp [Spec.join]
            | cons m ls =>
              intro h
              rw [Spec.join]
              simp [h l (by simp), ih (fun x hx => h x (List.mem_cons_of_mem _ hx))]
        refine this ?_ hm
        intro l hl
        obtain ⟨x, -, rfl⟩ := List.mem_map.1 hl
        exact escape_notag _ _

theorem sh_node_plain {U : Uni} {lite : Bool} {br : Str} {b : Spec.Node} {N : Spec.Numbers} (hbr : Spec.IsBreak br)
    (h : b.Ok U.isLu U.isNd lite false) (hn : '<' ∉ b.source) : SafeHtml (b.html br false N) := by
  cases b with
  | piece b => exact sh_piece_plain hbr h hn
  | styled tag a t =>
    exact sh_el (block_names h.2.2.2.2.1) (sa_atts h.2.1.1) (sh_marked_plain hbr h.1 fun hm => hn (by simp [Spec.Node.source, hm]))
  | quoted a t => exact sh_quote (sa_atts h.2.1.1) (sa_atts h.2.1.1) (sh_marked_plain hbr h.1 fun hm => hn (by simp [Spec.Node.source, hm]))
  | verbatim tag a ls =>
    simp only [Spec.Node.html]
    split
    · refine sh_el (by decide) (sa_atts fun g hg => h.2.1.1 g ?_) (sh_el (by decide) (sa_attr (by decide) (val_lang h.2.1.1)) (.text (escape_notag _ _)))
      exact (List.mem_filter.1 hg).1
    · split
      · exact sh_el (by decide) (sa_atts h.2.1.1) (.text (escape_notag _ _))
      · exact .text fun hm => hn (by simp [Spec.Node.source, hm])

theorem val_base {base : Str} (hb : Spec.PlainBase base) : Val base := .of hb.chars (by decide) (by decide)

theorem val_id {base : Str} (hb : Spec.PlainBase base) (k : Nat) : Val (Spec.noteId base k) :=
  (val_base hb).append (Val.append (a := t!"-") ⟨by decide, by decide⟩ (Val.numeral k))

theorem val_fn {base : Str} (hb : Spec.PlainBase base) (k : Nat) : Val (Spec.fnName base k) :=
  Val.append ⟨by decide, by decide⟩ (val_id hb k)

theorem val_fnrev {base : Str} (hb : Spec.PlainBase base) (k : Nat) : Val (Spec.fnrevName base k) :=
  Val.append ⟨by decide, by decide⟩ (val_id hb k)

theorem val_hash {t : Str} (h : Val t) : Val ('#' :: t) := Val.append (a := t!"#") ⟨by decide, by decide⟩ h

theorem sa_fnclass : SafeAtts (Spec.attr Spec.classAttr (some Spec.footnoteWord)) := sa_some (by decide) ⟨by decide, by decide⟩

theorem decimals_nolt {t : Str} (h : ∀ c ∈ t, Spec.isDecimal c = true) : '<' ∉ t := fun hm => absurd (h _ hm) (by decide)

theorem sh_ref {base label : Str} (hb : Spec.PlainBase base) (hl : ∀ c ∈ label, Spec.isDecimal c = true) (M : Spec.Notes) :
    SafeHtml (Spec.refHtml base M label) := by
  unfold Spec.refHtml
  split
  · exact sh_el (by decide) sa_fnclass (sh_el (by decide) (sa_some (by decide) (val_hash (val_fn hb _))) (.text (decimals_nolt hl)))
  · exact sh_el (by decide) (sa_append sa_fnclass (sa_some (by decide) (val_fnrev hb _)))
      (sh_el (by decide) (sa_some (by decide) (val_hash (val_fn hb _))) (.text (decimals_nolt hl)))

theorem sh_refs {U : Uni} {br base : Str} (hbr : Spec.IsBreak br) (hb : Spec.PlainBase base) : ∀ {rs : List (Str × Str)} {M : Spec.Notes},
    (∀ r ∈ rs, (∀ c ∈ r.1, Spec.isDecimal c = true) ∧ Spec.Prose U.isLu r.2) → SafeHtml (Spec.refsHtml br base M rs)
  | [], _, _ => .text (by simp [Spec.refsHtml])
  | r :: rs, M, h => by
    rw [Spec.refsHtml]
    exact .append (sh_ref hb (h r (by simp)).1 M) (.append (sh_prose hbr (h r (by simp)).2)
      (sh_refs hbr hb fun x hx => h x (List.mem_cons_of_mem _ hx)))

theorem sh_fnText {U : Uni} {br base : Str} {t : Spec.FnText} {M : Spec.Notes} (hbr : Spec.IsBreak br) (hb : Spec.PlainBase base)
    (h : t.Ok U.isLu) : SafeHtml (t.html br base M) :=
  .append (sh_prose hbr (h.texts t.lead (by simp [Spec.FnText.texts])).1)
    (sh_refs hbr hb fun r hr => ⟨(h.labels r hr).2, (h.texts r.2 (List.mem_cons_of_mem _ (List.mem_map.2 ⟨r, hr, rfl⟩))).1⟩)

theorem sh_fn {U : Uni} {lite : Bool} {br base : Str} {b : Spec.FnBlock} {N : Spec.Numbers} {M : Spec.Notes} (hbr : Spec.IsBreak br)
    (hb : Spec.PlainBase base) (h : b.Ok U.isLu U.isNd lite true) : SafeHtml (b.escaped.html br true base N M) := by
  cases b with
  | node b => exact sh_node hbr h
  | para t => exact sh_el (by decide) .nil (sh_fnText hbr hb h.1)
  | styled tag a t => exact sh_el (block_names h.2.2.2.2.1) (sa_atts h.2.1.1) (sh_fnText hbr hb h.1)
  | note label back t =>
    refine sh_el (by decide) (sa_append sa_fnclass (sa_some (by decide) (val_fn hb _))) (.append ?_ (.append (h := t!" ") (.text (by decide)) (sh_fnText hbr hb h.1)))
    refine sh_el (by decide) .nil ?_
    split
    · exact sh_el (by decide) (sa_some (by decide) (val_hash (val_fnrev hb _))) (.text (decimals_nolt h.2.2.1))
    · exact .text (decimals_nolt h.2.2.1)

theorem sh_fn_plain {U : Uni} {lite : Bool} {br base : Str} {b : Spec.FnBlock} {N : Spec.Numbers} {M : Spec.Notes} (hbr : Spec.IsBreak br)
    (hb : Spec.PlainBase base) (h : b.Ok U.isLu U.isNd lite false) (hn : '<' ∉ b.source) : SafeHtml (b.html br false base N M) := by
  cases b with
  | node b => exact sh_node_plain hbr h hn
  | para t => exact sh_el (by decide) .nil (sh_fnText hbr hb h.1)
  | styled tag a t => exact sh_el (block_names h.2.2.2.2.1) (sa_atts h.2.1.1) (sh_fnText hbr hb h.1)
  | note label back t => exact sh_fn (b := .note label back t) (N := N) hbr hb h

theorem sh_row {U : Uni} {r : Spec.Row} (h : ∀ c ∈ r.cells, c.Ok U.isLu) : SafeHtml r.html := by
  refine .append (.text (by decide)) (sh_el (by decide) .nil (.append (sh_flatMap fun c hc => ?_) (.text (by decide))))
  refine .append (.text (by decide)) (sh_el ?_ .nil (.text (words_nolt (h c hc).words)))
  unfold Spec.Cell.tag; split <;> decide

theorem sections_rows : ∀ {rs : List Spec.Row} {r : Spec.Row}, (r ∈ (Spec.sections rs).1 → r ∈ rs) ∧ (∀ s ∈ (Spec.sections rs).2, r ∈ s.2 → r ∈ rs)
  | [], r => by simp [Spec.sections]
  | q :: rs, r => by
    obtain ⟨h1, h2⟩ := sections_rows (rs := rs) (r := r)
    rw [Spec.sections]
    split
    · refine ⟨fun hm => ?_, fun s hs hm => List.mem_cons_of_mem _ (h2 s hs hm)⟩
      rcases List.mem_cons.1 hm with rfl | hm
      · simp
      · exact List.mem_cons_of_mem _ (h1 hm)
    · refine ⟨fun hm => (List.not_mem_nil hm).elim, fun s hs hm => ?_⟩
      rcases List.mem_cons.1 hs with rfl | hs
      · rcases List.mem_cons.1 hm with rfl | hm
        · simp
        · exact List.mem_cons_of_mem _ (h1 hm)
      · exact List.mem_cons_of_mem _ (h2 s hs hm)

theorem sh_tb {U : Uni} {lite : Bool} {br base : Str} {b : Spec.TbBlock} {N : Spec.Numbers} {M : Spec.Notes} (hbr : Spec.IsBreak br)
    (hb : Spec.PlainBase base) (h : b.Ok U.isLu U.isNd lite true) : SafeHtml (b.escaped.html br true base N M) := by
  cases b with
  | other b => exact sh_fn hbr hb h
  | table rs =>
    have hr : ∀ r ∈ rs, SafeHtml r.html := fun r hr => sh_row (h.2.2 r hr).2
    refine .append (h := t!"\t") (.text (by decide)) (sh_el (by decide) .nil (.append (sh_flatMap fun s hs => ?_) (.append (sh_flatMap fun r hm => ?_) (.text (by decide)))))
    · refine .append (.text (by decide)) (sh_el ?_ .nil (.append (sh_flatMap fun r hm => hr r (sections_rows.2 s hs hm)) (.text (by decide))))
      cases s.1 <;> decide
    · exact hr r (sections_rows.1 hm)

theorem sh_tb_plain {U : Uni} {lite : Bool} {br base : Str} {b : Spec.TbBlock} {N : Spec.Numbers} {M : Spec.Notes} (hbr : Spec.IsBreak br)
    (hb : Spec.PlainBase base) (h : b.Ok U.isLu U.isNd lite false) (hn : '<' ∉ b.source) : SafeHtml (b.html br false base N M) := by
  cases b with
  | other b => exact sh_fn_plain hbr hb h hn
  | table rs => exact sh_tb (b := .table rs) (N := N) (M := M) hbr hb h

theorem sign_nolt {s : Spec.Sign} {b : Option Char} {a : Str} (h : s.Fits b a) : '<' ∉ s.html := by
  cases s with
  | decade ds => simp [Spec.Sign.html, Spec.charRef, decimals_nolt h.2.2.1]
  | entity name =>
    have : '<' ∉ name := fun hm => absurd (h.2 _ hm) (by decide)
    simp [Spec.Sign.html, this]
  | mark sq cap m => cases m <;> simp [Spec.Sign.html, Spec.charRef, Spec.Mark.number]
  | _ => simp [Spec.Sign.html, Spec.charRef]

theorem parts_nolt {U : Uni} : ∀ {ps : List (Spec.Sign × Str)} {b : Option Char}, Spec.AllFit b ps → (∀ p ∈ ps, Spec.Prose U.isLu p.2) →
    '<' ∉ Spec.partsHtml (ps.map (fun p => (p.1.escaped, p.2)))
  | [], _, _, _ => by simp [Spec.partsHtml]
  | p :: ps, b, h, hp => by
    have ih := parts_nolt h.2.2 (fun q hq => hp q (List.mem_cons_of_mem _ hq))
    have h1 : '<' ∉ p.1.escaped.html := by
      have := sign_nolt h.1
      revert this
      cases p.1 <;> simp [Spec.Sign.escaped, Spec.Sign.html]
    simp only [Spec.partsHtml, List.map_cons, List.flatMap_cons] at ih ⊢
    rw [List.mem_append, List.mem_append]
    rintro ((hm | hm) | hm)
    · exact h1 hm
    · exact prose_nolt (hp p (by simp)) hm
    · exact ih hm

theorem sh_sgText {U : Uni} {br : Str} {t : Spec.SgText} (hbr : Spec.IsBreak br) (h : t.Ok U.isLu) : SafeHtml (t.escaped.html br) := by
  refine sh_breaks hbr fun hm => ?_
  rcases List.mem_append.1 hm with hm | hm
  · exact prose_nolt (h.texts t.lead (by simp [Spec.SgText.texts])) hm
  · exact parts_nolt h.fit (fun p hp => h.texts p.2 (List.mem_cons_of_mem _ (List.mem_map.2 ⟨p, hp, rfl⟩))) hm

theorem sh_sg {U : Uni} {lite : Bool} {br base : Str} {b : Spec.SgBlock} {N : Spec.Numbers} {M : Spec.Notes} (hbr : Spec.IsBreak br)
    (hb : Spec.PlainBase base) (h : b.Ok U.isLu U.isNd lite true) : SafeHtml (b.escaped.html br true base N M) := by
  cases b with
  | other b => exact sh_tb hbr hb h
  | para t => exact sh_el (by decide) .nil (sh_sgText hbr h.1)
  | styled tag a t => exact sh_el (block_names h.2.2.2.2.2.1) (sa_atts h.2.2.1.1) (sh_sgText hbr h.1)

theorem parts_nolt_plain {U : Uni} : ∀ {ps : List (Spec.Sign × Str)} {b : Option Char}, Spec.AllFit b ps → (∀ p ∈ ps, Spec.Prose U.isLu p.2) →
    '<' ∉ Spec.partsHtml ps
  | [], _, _, _ => by simp [Spec.partsHtml]
  | p :: ps, b, h, hp => by
    have ih := parts_nolt_plain h.2.2 (fun q hq => hp q (List.mem_cons_of_mem _ hq))
    simp only [Spec.partsHtml, List.flatMap_cons] at ih ⊢
    rw [List.mem_append, List.mem_append]
    rintro ((hm | hm) | hm)
    · exact sign_nolt h.1 hm
    · exact prose_nolt (hp p (by simp)) hm
    · exact ih hm

theorem sh_sgText_plain {U : Uni} {br : Str} {t : Spec.SgText} (hbr : Spec.IsBreak br) (h : t.Ok U.isLu) : SafeHtml (t.html br) := by
  refine sh_breaks hbr fun hm => ?_
  rcases List.mem_append.1 hm with hm | hm
  · exact prose_nolt (h.texts t.lead (by simp [Spec.SgText.texts])) hm
  · exact parts_nolt_plain h.fit (fun p hp => h.texts p.2 (List.mem_cons_of_mem _ (List.mem_map.2 ⟨p, hp, rfl⟩))) hm

theorem sh_sg_plain {U : Uni} {lite : Bool} {br base : Str} {b : Spec.SgBlock} {N : Spec.Numbers} {M : Spec.Notes} (hbr : Spec.IsBreak br)
    (hb : Spec.PlainBase base) (h : b.Ok U.isLu U.isNd lite false) (hn : '<' ∉ b.source) : SafeHtml (b.html br false base N M) := by
  cases b with
  | other b => exact sh_tb_plain hbr hb h hn
  | para t => exact sh_el (by decide) .nil (sh_sgText_plain hbr h.1)
  | styled tag a t => exact sh_el (block_names h.2.2.2.2.2.1) (sa_atts h.2.2.1.1) (sh_sgText_plain hbr h.1)

theorem val_title {r : Bool} {t : Str} (h : ∀ c ∈ t, Spec.titleChar c = true) : Val (Spec.titleValue r t) := by
  have hq : '"' ∉ t := fun hm => absurd (h _ hm) (by decide)
  refine ⟨escape_noquote (.inr ?_), escape_notag _ _⟩
  split
  · exact escape_noquote (.inr hq)
  · exact hq

theorem val_titles {r : Bool} {o : Option Str} (h : ∀ t, o = some t → t ≠ [] ∧ (∀ c ∈ t, Spec.titleChar c = true) ∧ ¬ t!" '" <:+: t) :
    ∀ v, o.map (Spec.titleValue r) = some v → Val v := by
  intro v e
  obtain ⟨t, ht, rfl⟩ := Option.map_eq_some_iff.1 e
  exact val_title (h t ht).2.1

theorem val_own_style {a : Spec.Atts} (r : Bool) (h : ∀ g ∈ a.groups, g.Ok) :
    ∀ v, (if r = true ∨ a.declarations = [] then none else some (Spec.join t!"; " a.declarations ++ t!";")) = some v → Val v := by
  intro v e
  split at e
  · cases e
  · cases e; exact (Val.join ⟨by decide, by decide⟩ (val_decls h)).append ⟨by decide, by decide⟩

theorem sh_image {i : Spec.Image} {after : Str} {r k : Bool} (h : i.Ok after) : SafeHtml (i.html r k) := by
  have hw : ∀ a : Spec.ImAlign, Val (t!"align-" ++ a.word) ∧ Val a.word := by
    intro a; cases a <;> exact ⟨⟨by decide, by decide⟩, by decide, by decide⟩
  have he : SafeHtml (i.element r k) := by
    have := SafeHtml.image (sa_append (sa_attr (n := t!"align") (o := if k then none else i.align.map Spec.ImAlign.word) (by decide) ?_)
      (sa_append (sa_some (n := t!"alt") (v := match i.title with | none => [] | some t => Spec.titleValue r t) (by decide) ?_)
      (sa_append (sa_attr (n := t!"class") (o := i.classes r k) (by decide) ?_)
      (sa_append (sa_attr (n := t!"id") (by decide) (val_unless r (val_ident h.atts.1)))
      (sa_append (sa_attr (n := t!"lang") (by decide) (val_lang h.atts.1))
      (sa_append (sa_some (n := t!"src") (by decide) (Val.escape i.src))
      (sa_append (sa_attr (n := t!"style") (by decide) (val_own_style r h.atts.1))
      (sa_attr (n := t!"title") (by decide) (val_titles (r := r) h.title)))))))))
    · unfold Spec.Image.element
      simp only [List.append_assoc] at this
      cases ht : i.title <;> simpa only [ht] using this
    · intro v e
      split at e
      · cases e
      · obtain ⟨a, -, rfl⟩ := Option.map_eq_some_iff.1 e
        exact (hw a).2
    · split
      · exact ⟨by decide, by decide⟩
      · rename_i t e; exact val_title (h.title t e).2.1
    · intro v e
      have ho := val_unless r (val_cls h.atts.1)
      simp only [Spec.Image.classes] at e
      split at e
      · split at e
        · exact ho v e
        · rename_i a _
          cases e
          split
          · exact (hw a).1
          · rename_i c hc
            exact (ho c hc).append (Val.append (a := t!" ") ⟨by decide, by decide⟩ (hw a).1)
      · exact ho v e
  unfold Spec.Image.html
  split
  · exact he
  · rename_i l _
    have := SafeHtml.element (name := t!"a") (by decide) (sa_some (n := t!"href") (by decide) (Val.escape l.2)) he
    simpa using this

theorem sh_imText {U : Uni} {br : Str} {r k : Bool} {t : Spec.ImText} (hbr : Spec.IsBreak br) (h : t.Ok U.isLu) : SafeHtml (t.html br r k) :=
  .append (sh_prose hbr h.lead) (sh_flatMap fun p hp => .append (sh_image (h.parts p hp).1) (sh_prose hbr (h.parts p hp).2))

theorem sh_im {U : Uni} {lite r k : Bool} {br base : Str} {b : Spec.ImBlock} {N : Spec.Numbers} {M : Spec.Notes} (hbr : Spec.IsBreak br)
    (hb : Spec.PlainBase base) (h : b.Ok U.isLu U.isNd lite r) (hn : r = true ∨ '<' ∉ b.source) : SafeHtml (b.html br r k base N M) := by
  cases b with
  | other b =>
    cases r with
    | true => exact sh_sg hbr hb h
    | false => exact sh_sg_plain hbr hb h (hn.resolve_left (by decide))
  | para t => exact sh_el (by decide) .nil (sh_imText hbr h.1)
  | styled tag a t => exact sh_el (block_names h.2.2.2.2.1) (sa_atts h.2.1.1) (sh_imText hbr h.1)
  | quoted a t => exact sh_quote (sa_atts h.2.1.1) (sa_atts h.2.1.1) (sh_imText hbr h.1)

theorem sh_trow {U : Uni} {x : Bool} {r : Spec.TRow} (h : r.Ok U.isLu x) : SafeHtml (r.html x) := by
  refine .append (.text (by decide)) (sh_el (by decide) (sa_look h.look _ _ _) (.append (sh_flatMap fun c hc => ?_) (.text (by decide))))
  refine .append (.text (by decide)) (sh_el ?_ (sa_look (h.cells c hc).look _ _ _) (.text (words_nolt (h.cells c hc).words)))
  unfold Spec.TCell.tag; split <;> decide

theorem tsections_mem : ∀ {rs : List Spec.TRow} {r : Spec.TRow}, (r ∈ (Spec.tsections rs).1 → r ∈ rs) ∧
    (∀ s ∈ (Spec.tsections rs).2, (r ∈ s.2 → r ∈ rs) ∧ ∃ q ∈ rs, q.sect = some s.1)
  | [], r => by simp [Spec.tsections]
  | q :: rs, r => by
    obtain ⟨h1, h2⟩ := tsections_mem (rs := rs) (r := r)
    rw [Spec.tsections]
    have lift : ∀ s ∈ (Spec.tsections rs).2, (r ∈ s.2 → r ∈ q :: rs) ∧ ∃ x ∈ q :: rs, x.sect = some s.1 := fun s hs =>
      ⟨fun hm => List.mem_cons_of_mem _ ((h2 s hs).1 hm), by
        obtain ⟨x, hx, e⟩ := (h2 s hs).2
        exact ⟨x, List.mem_cons_of_mem _ hx, e⟩⟩
    split
    · refine ⟨fun hm => ?_, lift⟩
      rcases List.mem_cons.1 hm with rfl | hm
      · simp
      · exact List.mem_cons_of_mem _ (h1 hm)
    · rename_i e
      refine ⟨fun hm => (List.not_mem_nil hm).elim, fun s hs => ?_⟩
      rcases List.mem_cons.1 hs with rfl | hs
      · refine ⟨fun hm => ?_, q, by simp, e⟩
        rcases List.mem_cons.1 hm with rfl | hm
        · simp
        · exact List.mem_cons_of_mem _ (h1 hm)
      · exact lift s hs

theorem sh_table {U : Uni} {r : Bool} {t : Spec.TTable} (h : t.Ok U.isLu r) : SafeHtml (t.html r) := by
  refine .append (h := t!"\t") (.text (by decide)) (sh_el (by decide) ?_ (.append ?_ (.append (sh_flatMap fun s hs => ?_) (.append (sh_flatMap fun r hm => ?_) (.text (by decide))))))
  · unfold Spec.TTable.atts
    split
    · exact .nil
    · rename_i x e
      refine sa_append (sa_look (h.head x e).1 _ _ _) (sa_attr (by decide) fun v ev => ?_)
      split at ev
      · cases ev
      · cases ev
        exact words_val (h.head x e).2.words
  · unfold Spec.TTable.top
    split
    · exact .text (by simp)
    · rename_i x e
      exact .append (.text (by decide)) (.append (sh_el (by decide) (sa_look (h.caption x e).1 _ _ _) (.text (words_nolt (h.caption x e).2.1.words))) (.text (by decide)))
  · obtain ⟨q, hq, e⟩ := (tsections_mem (r := ⟨none, {}, []⟩).2 s hs).2
    refine .append (.text (by decide)) (sh_el ?_ (sa_look ((h.rows q hq).sect s.1 e) _ _ _)
      (.append (sh_flatMap fun r hm => sh_trow (h.rows r ((tsections_mem.2 s hs).1 hm))) (.text (by decide))))
    cases s.1.1 <;> decide
  · exact sh_trow (h.rows r (tsections_mem.1 hm))

theorem sh_dl {U : Uni} {r : Bool} {l : Spec.DList} (h : Spec.DlOk U.isLu r l) : SafeHtml (Spec.dlHtml r l) := by
  have ha : ∀ i ∈ l, SafeAtts (i.atts r) := fun i hi => sa_look (h.items i hi).look _ _ _
  refine sh_el (by decide) ?_ (.append (sh_flatMap fun i hi => ?_) (.text (by decide)))
  · cases l with
    | nil => exact .nil
    | cons i l =>
      simp only [Spec.dlAtts]
      split
      · exact ha i (by simp)
      · exact .nil
  · refine .append (.text (by decide)) (.append (sh_el (by decide) (ha i hi) (.text (words_nolt (h.items i hi).term.1.words))) ?_)
    split
    · exact .text (by simp)
    · rename_i d e
      exact .append (.text (by decide)) (sh_el (by decide) .nil (.text (words_nolt ((h.items i hi).definition d e).1.words)))

theorem sa_caps : SafeAtts Spec.capsClass := sa_some (n := t!"class") (v := t!"caps") (by decide) ⟨by decide, by decide⟩

theorem caps_nolt {w : Str} (h : ∀ c ∈ w, Spec.isCapital c = true) : '<' ∉ w := fun hm => absurd (h _ hm) (by decide)

theorem sh_caps {c : Spec.Caps} {after : Str} {h5 : Bool} (h : c.Ok after) : SafeHtml (c.html h5) := by
  cases c with
  | word w tail =>
    refine .append (sh_el (by decide) sa_caps (.text (caps_nolt h.2.1))) (.text fun hm => absurd (h.2.2.1 _ hm) (by decide))
  | acronym w title =>
    have ht : Val title := .of h.2.2.2 (by decide) (by decide)
    refine sh_el (by cases h5 <;> decide) ?_ (sh_el (by decide) sa_caps (.text (caps_nolt h.2.1)))
    have := sa_some (n := t!"title") (by decide) ht
    simpa [Spec.attr, Spec.titleStart] using this

theorem caps_nonl {c : Spec.Caps} {after : Str} {h5 : Bool} (h : c.Ok after) : '\n' ∉ c.html h5 := by
  have hw : ∀ {w : Str}, (∀ c ∈ w, Spec.isCapital c = true) → '\n' ∉ w := fun h hm => absurd (h _ hm) (by decide)
  cases c with
  | word w tail =>
    have : '\n' ∉ tail := fun hm => absurd (h.2.2.1 _ hm) (by decide)
    simp [Spec.Caps.html, Spec.elementWith, Spec.capsTag, Spec.capsClass, this, hw h.2.1]
  | acronym w title =>
    have : '\n' ∉ title := fun hm => absurd (h.2.2.2 _ hm) (by decide)
    cases h5 <;> simp [Spec.Caps.html, Spec.elementWith, Spec.capsTag, Spec.capsClass, Spec.acronymTag, Spec.titleStart, this, hw h.2.1]

theorem sh_capParts {U : Uni} {br : Str} {h5 : Bool} (hbr : Spec.IsBreak br) : ∀ {ps : List (Spec.Caps × Str)}, Spec.AllApart ps →
    (∀ p ∈ ps, Spec.Prose U.isLu p.2) → SafeHtml (Spec.breakLines br (Spec.capHtml h5 ps))
  | [], _, _ => .text (by simp [Spec.capHtml, Spec.breakLines])
  | p :: ps, h, hp => by
    have ih := sh_capParts (h5 := h5) hbr h.2.2 (fun q hq => hp q (List.mem_cons_of_mem _ hq))
    have e : Spec.breakLines br (Spec.capHtml h5 (p :: ps)) = p.1.html h5 ++ (Spec.breakLines br p.2 ++ Spec.breakLines br (Spec.capHtml h5 ps)) := by
      rw [Spec.capHtml, List.flatMap_cons, ← Spec.capHtml, List.append_assoc]
      have : Spec.breakLines br (p.1.html h5) = p.1.html h5 := breakLines_nonl (caps_nonl h.1)
      unfold Spec.breakLines at this ⊢
      rw [List.flatMap_append, List.flatMap_append, this]
    rw [e]
    exact .append (sh_caps h.1) (.append (sh_prose hbr (hp p (by simp))) ih)

theorem sh_capText {U : Uni} {br : Str} {h5 : Bool} {t : Spec.CapText} (hbr : Spec.IsBreak br) (h : t.Ok U.isLu) : SafeHtml (t.html h5 br) := by
  have := sh_capParts (h5 := h5) hbr h.apart h.texts
  have h2 := sh_prose hbr h.lead
  unfold Spec.CapText.html
  unfold Spec.breakLines at *
  rw [List.flatMap_append]
  exact .append h2 this

theorem sh_cap {U : Uni} {lite r k h5 : Bool} {br base : Str} {b : Spec.CapBlock} {N : Spec.Numbers} {M : Spec.Notes} (hbr : Spec.IsBreak br)
    (hb : Spec.PlainBase base) (h : b.Ok U.isLu U.isNd lite r) (hn : r = true ∨ '<' ∉ b.source) : SafeHtml (b.html h5 br r k base N M) := by
  cases b with
  | other b =>
    cases b with
    | other b =>
      cases b with
      | other b => exact sh_im hbr hb h hn
      | table t => exact sh_table h.2
    | dlist l => exact sh_dl h.2
  | para t => exact sh_el (by decide) .nil (sh_capText hbr h.1)
  | styled tag a t => exact sh_el (block_names h.2.2.2.2.1) (sa_atts h.2.1.1) (sh_capText hbr h.1)

theorem sh_classText {U : Uni} {br : Str} {lite r : Bool} {t : Spec.ClassText} (hbr : Spec.IsBreak br) (h : t.Ok U.isLu lite) :
    SafeHtml (t.html br r) := by
  refine .append (sh_prose hbr h.plain.lead) (sh_flatMap fun p hp => ?_)
  have h1 := h.plain.parts ⟨.marked p.marker p.text, p.after⟩ (List.mem_map.2 ⟨p, hp, rfl⟩)
  refine .append (sh_el (inline_names h1.inl.1) (sa_atts fun g hg => ?_) (.text (words_nolt h1.inl.2.1))) (sh_prose hbr h1.after)
  have hn : ∀ {c}, Spec.isLetterOrDigit c = true → Spec.NameChar c := by
    intro c hc
    simp only [Spec.isLetterOrDigit, Spec.isLetter, Spec.isDecimal, Bool.or_eq_true, decide_eq_true_eq, Bool.and_eq_true] at hc
    rcases hc with (hc | hc) | hc
    · exact .inr (.inl hc)
    · exact .inl hc
    · exact .inr (.inr (.inl hc))
  simp only [Spec.ClassPart.atts] at hg
  split at hg
  · cases hg
  · rename_i n i e
    rw [List.mem_singleton.1 hg]
    obtain ⟨g1, g2, g3⟩ := h.groups p hp n i e
    exact ⟨fun c hc => (g2 c hc).imp hn id, g1, fun j ej => ⟨(g3 j ej).1, fun c hc => .inl (hn ((g3 j ej).2 c hc))⟩⟩

theorem sh_class {U : Uni} {lite r k h5 : Bool} {br base : Str} {b : Spec.ClassBlock} {N : Spec.Numbers} {M : Spec.Notes} (hbr : Spec.IsBreak br)
    (hb : Spec.PlainBase base) (h : b.Ok U.isLu U.isNd lite r) (hn : r = true ∨ '<' ∉ b.source) : SafeHtml (b.html h5 br r k base N M) := by
  cases b with
  | other b => exact sh_cap hbr hb h hn
  | para t => exact sh_el (by decide) .nil (sh_classText hbr h.1)
  | styled tag a t => exact sh_el (block_names h.2.2.2.2.1) (sa_atts h.2.1.1) (sh_classText hbr h.1)

theorem sh_cite {U : Uni} {lite r k h5 : Bool} {br base : Str} {b : Spec.CiteBlock} {N : Spec.Numbers} {M : Spec.Notes} (hbr : Spec.IsBreak br)
    (hb : Spec.PlainBase base) (h : b.Ok U.isLu U.isNd lite r) (hn : r = true ∨ '<' ∉ b.source) : SafeHtml (b.html h5 br r k base N M) := by
  cases b with
  | other b => exact sh_class hbr hb h hn
  | cited q =>
    refine sh_quote (sa_append (sa_some (by decide) (Val.escape _)) (sa_atts h.atts.1)) (sa_atts h.atts.1) ?_
    cases r with
    | true => exact sh_marked hbr h.text
    | false =>
      refine sh_marked_plain hbr h.text fun hm => hn.resolve_left (by decide) ?_
      have hm : '<' ∈ q.text.source := hm
      simp [Spec.CiteBlock.source, Spec.Cited.source, hm]

theorem sh_anchor {U : Uni} {a : Spec.Anchor} {r : Bool} {after : Str} (h : a.Ok U.isLu after) : SafeHtml (a.html r) := by
  have := SafeHtml.element (name := t!"a") (by decide) (sa_append (sa_attr (n := t!"class") (by decide) (val_unless r (val_cls h.atts.1)))
    (sa_append (sa_some (n := t!"href") (by decide) (Val.escape a.href))
    (sa_append (sa_attr (n := t!"id") (by decide) (val_unless r (val_ident h.atts.1)))
    (sa_append (sa_attr (n := t!"lang") (by decide) (val_lang h.atts.1))
    (sa_append (sa_attr (n := t!"rel") (by decide) fun r e => val_rel (h.link.rel r e))
    (sa_append (sa_attr (n := t!"style") (by decide) (val_own_style r h.atts.1))
    (sa_attr (n := t!"title") (by decide) (val_titles (r := r) h.title)))))))) (.text (words_nolt h.link.words))
  unfold Spec.Anchor.html
  simp only [List.append_assoc] at this
  exact this

theorem sh_anText {U : Uni} {r : Bool} {br : Str} {t : Spec.AnText} (hbr : Spec.IsBreak br) (h : t.Ok U.isLu) : SafeHtml (t.html br r) :=
  .append (sh_prose hbr h.lead) (sh_flatMap fun p hp => .append (sh_anchor (h.parts p hp).1) (sh_prose hbr (h.parts p hp).2))

theorem sh_an {U : Uni} {lite r k h5 : Bool} {br base : Str} {b : Spec.AnBlock} {N : Spec.Numbers} {M : Spec.Notes} (hbr : Spec.IsBreak br)
    (hb : Spec.PlainBase base) (h : b.Ok U.isLu U.isNd lite r) (hn : r = true ∨ '<' ∉ b.source) : SafeHtml (b.html h5 br r k base N M) := by
  cases b with
  | other b => exact sh_cite hbr hb h hn
  | para t => exact sh_el (by decide) .nil (sh_anText hbr h.1)
  | styled tag a t => exact sh_el (block_names h.2.2.2.2.1) (sa_atts h.2.1.1) (sh_anText hbr h.1)
  | quoted a t => exact sh_quote (sa_atts h.2.1.1) (sa_atts h.2.1.1) (sh_anText hbr h.1)

theorem sh_raw {U : Uni} {lite r k h5 : Bool} {br base : Str} {b : Spec.RawBlock} {N : Spec.Numbers} {M : Spec.Notes} (hbr : Spec.IsBreak br)
    (hb : Spec.PlainBase base) (h : b.Ok U.isLu U.isNd lite r) (hn : r = true ∨ '<' ∉ b.source) : SafeHtml (b.html h5 br r k base N M) := by
  cases b with
  | other b => exact sh_an hbr hb h hn
  | rule ts =>
    rcases hn with rfl | hn
    · cases h.2.2
    · cases ts with
      | nil => exact absurd rfl h.1
      | cons x ts => exact absurd (by simp [Spec.RawBlock.source, Spec.rawSource, Spec.RawTag.source]) hn
  | indented t => exact .append (.text (prose_nolt h.1.lead)) (sh_flatMap fun p hp => .append (sh_anchor (h.1.parts p hp).1) (.text (prose_nolt (h.1.parts p hp).2)))

theorem sh_glue : ∀ {ps : List (Str × Nat)}, (∀ p ∈ ps, SafeHtml p.1) → SafeHtml (Spec.glue ps)
  | [], _ => .text (by simp [Spec.glue])
  | [(t, k)], h => h (t, k) (by simp)
  | (t, k) :: q :: ps, h => by
    rw [glue_cons (by simp)]
    exact .append (h (t, k) (by simp)) (.append (.text (by simp [nls])) (sh_glue (ps := q :: ps) (fun p hp => h p (List.mem_cons_of_mem _ hp))))

theorem sh_doc {U : Uni} {lite r k h5 : Bool} {br base : Str} (hbr : Spec.IsBreak br) (hb : Spec.PlainBase base) :
    ∀ {ds : List (Spec.RawBlock × Nat)} {N : Spec.Numbers} {M : Spec.Notes},
      (∀ d ∈ ds, d.1.Ok U.isLu U.isNd lite r ∧ (r = true ∨ '<' ∉ d.1.source)) →
      ∀ p ∈ Spec.rawHtml h5 br r k base N M ds, SafeHtml p.1
  | [], _, _, _, p, hp => by simp [Spec.rawHtml] at hp
  | d :: ds, N, M, h, p, hp => by
    rw [Spec.rawHtml] at hp
    rcases List.mem_cons.1 hp with rfl | hp
    · exact sh_raw hbr hb (h d (by simp)).1 (h d (by simp)).2
    · exact sh_doc hbr hb (fun x hx => h x (List.mem_cons_of_mem _ hx)) p hp

/-! ## Tags -/

theorem sa_shape {a : Str} (h : SafeAtts a) : '<' ∉ a ∧ (a = [] ∨ ∃ b, a = ' ' :: b) := by
  induction h with
  | nil => exact ⟨by simp, .inl rfl⟩
  | @cons n v r hn h1 h2 _ ih =>
    have : '<' ∉ n := by revert n; decide
    exact ⟨by simp [this, h2, ih.1], .inr ⟨_, rfl⟩⟩

theorem OnlyTags.starts {tags : List Str} {t u : Str} (h : t ∈ tags) (hp : t <+: '<' :: u) (hn : '<' ∉ u) : Spec.OnlyTags tags ('<' :: u) := by
  intro a b e
  cases a with
  | nil =>
    simp only [List.nil_append, List.cons.injEq, true_and] at e
    exact ⟨t, h, e ▸ hp⟩
  | cons c a =>
    simp only [List.cons_append, List.cons.injEq] at e
    rw [e.2] at hn; simp at hn

theorem tag_mem {n : Str} (h : n ∈ Spec.elementNames) :
    '<' :: (n ++ t!">") ∈ Spec.safeTags ∧ '<' :: (n ++ t!" ") ∈ Spec.safeTags ∧ '<' :: '/' :: (n ++ t!">") ∈ Spec.safeTags ∧ '<' ∉ n := by
  revert n; decide

/-- Every `<` starts a tag with one of the names. -/
theorem safe_tags {h : Str} (hh : SafeHtml h) : Spec.OnlyTags Spec.safeTags h := by
  induction hh with
  | text h => exact OnlyTags.none h
  | break_ h =>
    rcases h with rfl | rfl
    · exact OnlyTags.starts (t := t!"<br>") (by decide) (by decide) (by decide)
    · exact OnlyTags.starts (t := t!"<br ") (by decide) (by decide) (by decide)
  | @image a ha =>
    obtain ⟨h1, rfl | ⟨b, rfl⟩⟩ := sa_shape ha
    · exact OnlyTags.starts (t := t!"<img ") (by decide) (by decide) (by decide)
    · exact OnlyTags.starts (t := t!"<img ") (by decide) ⟨b ++ t!" />", by simp⟩ (by simpa using h1)
  | @element n a h hn ha _ ih =>
    obtain ⟨t1, t2, t3, t4⟩ := tag_mem hn
    have e : t!"<" ++ (n ++ (a ++ (t!">" ++ (h ++ (t!"</" ++ (n ++ t!">")))))) =
        ('<' :: (n ++ (a ++ t!">"))) ++ (h ++ ('<' :: '/' :: (n ++ t!">"))) := by simp
    rw [e]
    refine OnlyTags.append ?_ (OnlyTags.append ih (OnlyTags.starts t3 (List.prefix_refl _) (by simp [t4])))
    obtain ⟨h1, h2⟩ := sa_shape ha
    have hno : '<' ∉ n ++ (a ++ t!">") := by simp [t4, h1]
    rcases h2 with rfl | ⟨b, rfl⟩
    · exact OnlyTags.starts t1 (by simp) hno
    · exact OnlyTags.starts t2 ⟨b ++ t!">", by simp⟩ hno
  | append _ _ ih1 ih2 => exact OnlyTags.append ih1 ih2

/-! ## Restricted mode -/

/-- **C93, part**, and **C25, C26, part.** In restricted mode, a document of the blocks of C87 becomes
HTML that consists of Textile's own elements, properly nested, with attributes that Textile uses, and of
text without tags.  Whatever is written in code and verbatim text, in titles and in addresses, there is
neither an element nor an attribute of the author's making.

Missing: other documents; for some, it is false (`C93_safe_fails`). -/
theorem C93_safe_partial (E : Env) (hU : UniOk E.U) (fuel : Nat) (hf : 3 ≤ fuel) (cfg : Cfg) (base : Str)
    (hb : Spec.PlainBase base) (huid : cfg.uid = t!"textileRef:" ++ base ++ t!":") (hp : cfg.linkPrefix = base ++ t!"-")
    (hcap : cfg.capsTempl = t!"$1<span class=\"caps\">" ++ cfg.uid ++ t!":glyph:$2</span>$3")
    (hz : cfg.getSizes = false) (hno : cfg.noimage = false)
    (hbt : cfg.blockTags = true) (hsan : cfg.sanitizer = none) (hdep : 1 ≤ cfg.maxSpanDepth) (hr : cfg.restricted = true)
    (ok : Char → Prop) (hL : Lowers E.U ok) (ha : ∀ c, c.toNat < 128 → ok c)
    (ds : List (Spec.RawBlock × Nat)) (hne : ds ≠ []) (hok : ∀ d ∈ ds, d.1.Ok E.U.isLu E.U.isNd cfg.lite true)
    (hc : ∀ d ∈ ds, ∀ c ∈ d.1.chars, ok c)
    (hres : ∀ d ∈ ds, d.1.Resolved (Spec.Resolves E.urlParse E.urlJoin true) (Spec.Reads E.urlParse E.urlJoin) (Spec.Absolute E.urlParse) cfg.rel)
    (htok : ¬ cfg.uid <:+: Spec.rawDocSource ds)
    (hn : Spec.rawMarks ds < 2 ^ 31) :
    ∃ out, parseFresh E fuel cfg (Spec.rawDocSource ds) = .ok out ∧ Spec.SafeHtml out ∧ Spec.OnlyTags Spec.safeTags out := by
  have h := C87_raw_lines E hU fuel hf cfg base hb huid hp hcap hz hno hbt hsan hdep ok hL ha ds hne (by rw [hr]; exact hok) hc (by rw [hr]; exact hres) htok hn
  rw [hr] at h
  have hs : SafeHtml _ := sh_glue (sh_doc (U := E.U) (lite := cfg.lite) (h5 := cfg.html5) (k := cfg.alignClass.getD cfg.html5)
    (br := if cfg.html5 then t!"<br>" else t!"<br />") (by split; exact .inl rfl; exact .inr rfl) hb (N := fun _ => 1) (M := ⟨[], 0⟩) fun d hd => ⟨hok d hd, .inl rfl⟩)
  exact ⟨_, h, hs, safe_tags hs⟩

/-- **C93, negation.** The text of a link written as `$` is not escaped. -/
theorem C93_safe_fails : ∃ out, parseFresh demoEnv 100 restrictedCfg t!"\"$\":http://x/<script>alert(1)</script>/a" = .ok out ∧
    ¬ Spec.SafeHtml out := by
  refine ⟨_, C25_negation, fun h => ?_⟩
  obtain ⟨tag, h1, h2⟩ := safe_tags h t!"<p><a href=\"http://x/%3Cscript%3Ealert(1)%3C/script%3E/a\">x/" t!"script>alert(1)</script>/a</a></p>" rfl
  revert tag; decide +kernel

/-! ## Sources without tags -/

theorem glue_chars_in : ∀ {ps : List (Str × Nat)} {p : Str × Nat} {c : Char}, p ∈ ps → c ∈ p.1 → c ∈ Spec.glue ps
  | [], _, _, h, _ => by cases h
  | [q], p, c, h, hc => by
    rw [List.mem_singleton.1 h] at hc; exact hc
  | (t, k) :: q :: ps, p, c, h, hc => by
    rw [glue_cons (by simp)]
    rcases List.mem_cons.1 h with rfl | h
    · exact List.mem_append_left _ hc
    · exact List.mem_append_right _ (List.mem_append_right _ (glue_chars_in h hc))

/-- **C94, part.** In every mode, if there is no `<` in a document of the blocks of C87, it becomes
HTML as in C93: elements are made in the ways of Textile only.

Missing: other documents; for some, it is false (`C94_no_tags_fails`). -/
theorem C94_no_tags_partial (E : Env) (hU : UniOk E.U) (fuel : Nat) (hf : 3 ≤ fuel) (cfg : Cfg) (base : Str)
    (hb : Spec.PlainBase base) (huid : cfg.uid = t!"textileRef:" ++ base ++ t!":") (hp : cfg.linkPrefix = base ++ t!"-")
    (hcap : cfg.capsTempl = t!"$1<span class=\"caps\">" ++ cfg.uid ++ t!":glyph:$2</span>$3")
    (hz : cfg.getSizes = false) (hno : cfg.noimage = false)
    (hbt : cfg.blockTags = true) (hsan : cfg.sanitizer = none) (hdep : 1 ≤ cfg.maxSpanDepth)
    (ok : Char → Prop) (hL : Lowers E.U ok) (ha : ∀ c, c.toNat < 128 → ok c)
    (ds : List (Spec.RawBlock × Nat)) (hne : ds ≠ []) (hok : ∀ d ∈ ds, d.1.Ok E.U.isLu E.U.isNd cfg.lite cfg.restricted)
    (hc : ∀ d ∈ ds, ∀ c ∈ d.1.chars, ok c)
    (hres : ∀ d ∈ ds, d.1.Resolved (Spec.Resolves E.urlParse E.urlJoin cfg.restricted) (Spec.Reads E.urlParse E.urlJoin) (Spec.Absolute E.urlParse) cfg.rel)
    (htok : ¬ cfg.uid <:+: Spec.rawDocSource ds)
    (hn : Spec.rawMarks ds < 2 ^ 31) (hlt : '<' ∉ Spec.rawDocSource ds) :
    ∃ out, parseFresh E fuel cfg (Spec.rawDocSource ds) = .ok out ∧ Spec.SafeHtml out ∧ Spec.OnlyTags Spec.safeTags out := by
  have h := C87_raw_lines E hU fuel hf cfg base hb huid hp hcap hz hno hbt hsan hdep ok hL ha ds hne hok hc hres htok hn
  have hs : SafeHtml _ := sh_glue (sh_doc (U := E.U) (lite := cfg.lite) (r := cfg.restricted) (h5 := cfg.html5) (k := cfg.alignClass.getD cfg.html5)
    (br := if cfg.html5 then t!"<br>" else t!"<br />") (by split; exact .inl rfl; exact .inr rfl) hb (N := fun _ => 1) (M := ⟨[], 0⟩)
    fun d hd => ⟨hok d hd, .inr fun hm => hlt (glue_chars_in (List.mem_map.2 ⟨d, hd, rfl⟩) hm)⟩)
  exact ⟨_, h, hs, safe_tags hs⟩

/-- Tags are closed before the next one starts. -/
theorem safe_closed {h : Str} (hh : SafeHtml h) : ∀ a b, h = a ++ '<' :: b → '>' ∈ b.takeWhile (· != '<') := by
  have one : ∀ {u v : Str}, '<' ∉ u → ∀ a b, '<' :: (u ++ '>' :: v) = a ++ '<' :: b → '<' ∉ v → '>' ∈ b.takeWhile (· != '<') := by
    intro u v hu a b e hv
    cases a with
    | nil =>
      simp only [List.nil_append, List.cons.injEq, true_and] at e
      rw [← e, List.takeWhile_append_of_pos (fun c hc => by simp only [bne_iff_ne, ne_eq]; rintro rfl; exact hu hc)]
      simp
    | cons c a =>
      simp only [List.cons_append, List.cons.injEq] at e
      have : '<' ∈ u ++ '>' :: v := by rw [e.2]; simp
      simp [hu, hv] at this
  have app : ∀ {x y : Str}, (∀ a b, x = a ++ '<' :: b → '>' ∈ b.takeWhile (· != '<')) → (∀ a b, y = a ++ '<' :: b → '>' ∈ b.takeWhile (· != '<')) →
      ∀ a b, x ++ y = a ++ '<' :: b → '>' ∈ b.takeWhile (· != '<') := by
    intro x y hx hy a b e
    rcases List.append_eq_append_iff.1 e with ⟨c, rfl, e2⟩ | ⟨c, rfl, e2⟩
    · exact hy c b e2
    · cases c with
      | nil => exact hy [] b (by simpa using e2.symm)
      | cons d c =>
        simp only [List.cons_append, List.cons.injEq] at e2
        have := hx a c (by rw [← e2.1])
        rw [e2.2, List.takeWhile_append]
        split
        · exact List.mem_append_left _ (List.takeWhile_subset _ this)
        · exact this
  induction hh with
  | text h => rintro a b rfl; simp at h
  | break_ h =>
    rcases h with rfl | rfl
    · exact fun a b e => one (u := t!"br") (v := []) (by decide) a b e (by decide)
    · exact fun a b e => one (u := t!"br /") (v := []) (by decide) a b e (by decide)
  | @image a ha => exact fun x y e => one (u := t!"img" ++ (a ++ t!" /")) (v := []) (by simp [(sa_shape ha).1]) x y (by simpa using e) (by decide)
  | @element n a h hn ha _ ih =>
    have e : t!"<" ++ (n ++ (a ++ (t!">" ++ (h ++ (t!"</" ++ (n ++ t!">")))))) =
        ('<' :: (n ++ a ++ t!">")) ++ (h ++ ('<' :: ('/' :: n ++ t!">"))) := by simp
    have hn' := (tag_mem hn).2.2.2
    rw [e]
    exact app (fun x y e => one (v := []) (by simp [hn', (sa_shape ha).1]) x y e (by decide))
      (app ih fun x y e => one (v := []) (by simp [hn']) x y e (by decide))
  | append _ _ ih1 ih2 => exact app ih1 ih2

/-- **C94, negation.** Code in the explanation of an acronym puts an element into the value of
an attribute, and with it quotes and an event handler. -/
theorem C94_no_tags_fails : ∃ out, parseFresh demoEnv 3 demoCfg t!"ABC(@\" onmouseover=\"alert(1)\" x=\"@)" = .ok out ∧ ¬ Spec.SafeHtml out := by
  refine ⟨t!"<p><abbr title=\"<code>\" onmouseover=\"alert(1)\" x=\"</code>\"><span class=\"caps\">ABC</span></abbr></p>", by kernel_rfl, fun h => ?_⟩
  have := safe_closed h t!"<p>" t!"abbr title=\"<code>\" onmouseover=\"alert(1)\" x=\"</code>\"><span class=\"caps\">ABC</span></abbr></p>" rfl
  revert this; decide

/-! ## Examples -/

def demoSafeDoc : List (Spec.RawBlock × Nat) :=
  [(.other (.other (.other (.other (.other (.other (.other (.other (.other (.other (.node (.verbatim t!"notextile" {} [t!"<script>alert(1)</script>"]))))))))))), 0),
   (.other (.para demoAnText), 0), (.indented ⟨demoVerse, []⟩, 0)]

theorem demoSafe_ok : ∀ d ∈ demoSafeDoc, d.1.Ok demoUni.isLu demoUni.isNd false true := by
  intro d hd
  simp only [demoSafeDoc, List.mem_cons, List.not_mem_nil, or_false] at hd
  rcases hd with rfl | rfl | rfl
  · refine ⟨⟨by decide, by simp⟩, ⟨by simp, by simp⟩, fun _ => trivial, .inl rfl, by decide, fun _ => ⟨?_, by decide, fun h => absurd h (by decide)⟩⟩
    intro l hl
    rw [List.mem_singleton.1 hl]
    exact ⟨not_of_contains (by decide), not_of_contains (by decide)⟩
  · exact ⟨demoAnText_ok, noBlockStart_head (by decide), by decide, by decide⟩
  · exact ⟨demoVerse_ok, 0, 'o', _, rfl, by decide, by decide⟩

theorem demoSafe_res : ∀ d ∈ demoSafeDoc, d.1.Resolved (Spec.Resolves demoEnv.urlParse demoEnv.urlJoin true) (Spec.Reads demoEnv.urlParse demoEnv.urlJoin) (Spec.Absolute demoEnv.urlParse) none := by
  intro d hd
  simp only [demoSafeDoc, List.mem_cons, List.not_mem_nil, or_false] at hd
  rcases hd with rfl | rfl | rfl
  · trivial
  · exact demoAn_res1 true
  · intro p hp; cases hp

/-- A script in a verbatim block, links with classes, styles and titles, and an indented text. -/
theorem C93_safe_ex : ∃ out, parseFresh demoEnv 3 restrictedCfg t!"notextile. <script>alert(1)</script>\n\nSee \"(big red#k1)the shop(R&D; it's open)\":http://a.com/x, or\n\"[en]{color:red}here\":/y.\n\n one\ntwo, two\nthree" = .ok out ∧
    Spec.SafeHtml out ∧ Spec.OnlyTags Spec.safeTags out :=
  C93_safe_partial demoEnv UniOk.demo 3 (by decide) restrictedCfg t!"abc" plainBase_demo rfl rfl rfl rfl rfl rfl rfl (by decide) rfl
    _ demo_lowers (fun _ h => h) demoSafeDoc (by decide) demoSafe_ok (by decide +kernel) demoSafe_res (by decide +kernel) (by decide)

/-- The links and the indented text there, in unrestricted mode. -/
theorem C94_no_tags_ex : ∃ out, parseFresh demoEnv 3 demoCfg t!"See \"(big red#k1)the shop(R&D; it's open)\":http://a.com/x, or\n\"[en]{color:red}here\":/y.\n\n one\ntwo, two\nthree" = .ok out ∧
    Spec.SafeHtml out ∧ Spec.OnlyTags Spec.safeTags out :=
  C94_no_tags_partial demoEnv UniOk.demo 3 (by decide) demoCfg t!"abc" plainBase_demo rfl rfl rfl rfl rfl rfl rfl (by decide)
    _ demo_lowers (fun _ h => h) (demoRawDoc.drop 2) (by decide) (fun d hd => demoRaw_ok d (List.drop_subset _ _ hd)) (by decide +kernel)
    (fun d hd => demoRaw_res d (List.drop_subset _ _ hd)) (by decide +kernel) (by decide) (by decide +kernel)

end Rustextile
