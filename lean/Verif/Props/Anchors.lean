import Verif.AnchorDoc
import Verif.Props.Cites

/-!
# Links with attributes and titles: C83, C84, C85, C86, C92
-/

namespace Rustextile

open Prog

/-- **C83.** A document of paragraphs, headings and quotations with links with attributes and titles, and of the blocks of C81, in any order. -/
theorem C83_link_attributes (E : Env) (hU : UniOk E.U) (fuel : Nat) (hf : 3 ≤ fuel) (cfg : Cfg) (base : Str)
    (hb : Spec.PlainBase base) (huid : cfg.uid = t!"textileRef:" ++ base ++ t!":") (hp : cfg.linkPrefix = base ++ t!"-")
    (hcap : cfg.capsTempl = t!"$1<span class=\"caps\">" ++ cfg.uid ++ t!":glyph:$2</span>$3")
    (hz : cfg.getSizes = false) (hno : cfg.noimage = false)
    (hbt : cfg.blockTags = true) (hsan : cfg.sanitizer = none) (hdep : 1 ≤ cfg.maxSpanDepth)
    (ok : Char → Prop) (hL : Lowers E.U ok) (ha : ∀ c, c.toNat < 128 → ok c)
    (ds : List (Spec.AnBlock × Nat)) (hne : ds ≠ []) (hok : ∀ d ∈ ds, d.1.Ok E.U.isLu E.U.isNd cfg.lite cfg.restricted)
    (hc : ∀ d ∈ ds, ∀ c ∈ d.1.chars, ok c)
    (hres : ∀ d ∈ ds, d.1.Resolved (Spec.Resolves E.urlParse E.urlJoin cfg.restricted) (Spec.Reads E.urlParse E.urlJoin) (Spec.Absolute E.urlParse) cfg.rel)
    (htok : ¬ cfg.uid <:+: Spec.anSource ds)
    (hn : Spec.anMarks ds < 2 ^ 31) :
    parseFresh E fuel cfg (Spec.anSource ds) =
      .ok (Spec.anDocHtml cfg.html5 (if cfg.html5 then t!"<br>" else t!"<br />") cfg.restricted (cfg.alignClass.getD cfg.html5) base ds) :=
  parse_anchors (⟨hU, hf, hb, huid⟩ : DocCtx ⟨E, cfg, fuel⟩ base) hp hcap hz hno hbt hsan hdep ha hL hne hok hc hres htok (by omega)

/-! ## Parts -/

theorem anHtml_mem (h5 : Bool) (br base : Str) (restricted k : Bool) {b : Spec.AnBlock} {n : Nat} : ∀ {ds : List (Spec.AnBlock × Nat)} {N : Spec.Numbers} {M : Spec.Notes},
    (b, n) ∈ ds → ∃ N' M', (b.html h5 br restricted k base N' M', n) ∈ Spec.anHtml h5 br restricted k base N M ds
  | [], _, _, h => by cases h
  | d :: ds, N, M, h => by
    rcases List.mem_cons.1 h with rfl | h
    · exact ⟨N, M, by simp [Spec.anHtml]⟩
    · obtain ⟨N', M', h'⟩ := anHtml_mem h5 br base restricted k (ds := ds) (N := d.1.numbers N restricted) (M := d.1.notes M restricted) h
      exact ⟨N', M', by simp [Spec.anHtml, h']⟩

/-- The text of a block with links with attributes. -/
def _root_.Spec.AnBlock.text : Spec.AnBlock → Option Spec.AnText
  | .other _ => none
  | .para t => some t
  | .styled _ _ t => some t
  | .quoted _ t => some t

/-- The link is in the HTML of a document with it. -/
theorem anchor_within (h5 : Bool) (br base : Str) (restricted k : Bool) {ds : List (Spec.AnBlock × Nat)} {b : Spec.AnBlock} {t : Spec.AnText} {n : Nat}
    (hm : (b, n) ∈ ds) (hb : b.text = some t) {a : Spec.Anchor} {after : Str} (hi : (a, after) ∈ t.parts) :
    a.html restricted <:+: Spec.anDocHtml h5 br restricted k base ds := by
  obtain ⟨N', M', h'⟩ := anHtml_mem h5 br base restricted k (N := fun _ => 1) (M := ⟨[], 0⟩) hm
  have h1 : a.html restricted <:+: t.html br restricted := by
    have h2 := infix_flat (f := fun p : Spec.Anchor × Str => p.1.html restricted ++ Spec.breakLines br p.2) hi
    have h3 : a.html restricted <:+: a.html restricted ++ Spec.breakLines br after := ⟨[], Spec.breakLines br after, by simp⟩
    exact (h3.trans h2).trans ⟨Spec.breakLines br t.lead, [], by simp [Spec.AnText.html]⟩
  refine h1.trans (List.IsInfix.trans ?_ (glue_infix h'))
  cases b with
  | other b => cases hb
  | para t' => cases hb; exact element_within _ _ _
  | styled tag a t' => cases hb; exact element_within _ _ _
  | quoted a t' =>
    cases hb
    refine (element_within t!"p" (a.html restricted) _).trans (List.IsInfix.trans ?_ (element_within _ _ _))
    exact ⟨t!"\n\t", t!"\n", by simp⟩

theorem anchor_ok {up dg : Char → Bool} {lite r : Bool} {b : Spec.AnBlock} {t : Spec.AnText} (h : b.Ok up dg lite r) (hb : b.text = some t) : t.Ok up := by
  cases b with
  | other b => cases hb
  | para t' => cases hb; exact h.1
  | styled tag a t' => cases hb; exact h.1
  | quoted a t' => cases hb; exact h.1

theorem titleValue_eq {r : Bool} {title : Str} (hch : ∀ c ∈ title, Spec.titleChar c = true) (hr : r = false ∨ '&' ∉ title) :
    Spec.titleValue r title = Spec.escape false title ∧ '"' ∉ title := by
  have hnq : ∀ c ∈ title, c ∉ t!"<>\"" := by
    intro c hc' hm
    have := hch c hc'
    simp only [List.mem_cons, List.not_mem_nil, or_false] at hm
    rcases hm with rfl | rfl | rfl <;> revert this <;> decide
  refine ⟨?_, fun hm => hnq _ hm (by simp)⟩
  unfold Spec.titleValue
  rcases hr with hr | hr
  · rw [hr]; rfl
  · have e : Spec.escape false title = title := by
      rw [escape_eq]
      refine enc_quotes (fun c hc' hm => ?_)
      have := hnq c hc'
      simp only [List.mem_cons, List.not_mem_nil, or_false, not_or] at hm this
      rcases hm with rfl | rfl | rfl
      · exact hr hc'
      · exact this.1 rfl
      · exact this.2.1 rfl
    split <;> simp [e]

/-- **C84 (partial).** In the documents of C83, a link with a title becomes an `a` element around its text, with the address and, if the mode is
not restricted or the title has no ampersand, with the title as written. -/
theorem C84_link_titles_partial (E : Env) (hU : UniOk E.U) (fuel : Nat) (hf : 3 ≤ fuel) (cfg : Cfg) (base : Str)
    (hb : Spec.PlainBase base) (huid : cfg.uid = t!"textileRef:" ++ base ++ t!":") (hp : cfg.linkPrefix = base ++ t!"-")
    (hcap : cfg.capsTempl = t!"$1<span class=\"caps\">" ++ cfg.uid ++ t!":glyph:$2</span>$3")
    (hz : cfg.getSizes = false) (hno : cfg.noimage = false)
    (hbt : cfg.blockTags = true) (hsan : cfg.sanitizer = none) (hdep : 1 ≤ cfg.maxSpanDepth)
    (ok : Char → Prop) (hL : Lowers E.U ok) (ha : ∀ c, c.toNat < 128 → ok c)
    (ds : List (Spec.AnBlock × Nat)) (hok : ∀ d ∈ ds, d.1.Ok E.U.isLu E.U.isNd cfg.lite cfg.restricted)
    (hc : ∀ d ∈ ds, ∀ c ∈ d.1.chars, ok c)
    (hres : ∀ d ∈ ds, d.1.Resolved (Spec.Resolves E.urlParse E.urlJoin cfg.restricted) (Spec.Reads E.urlParse E.urlJoin) (Spec.Absolute E.urlParse) cfg.rel)
    (htok : ¬ cfg.uid <:+: Spec.anSource ds)
    (hn : Spec.anMarks ds < 2 ^ 31) (b : Spec.AnBlock) (n : Nat) (hm : (b, n) ∈ ds) (t : Spec.AnText) (ht : b.text = some t)
    (a : Spec.Anchor) (after : Str) (hi : (a, after) ∈ t.parts)
    (title : Str) (hti : a.title = some title) (hr : cfg.restricted = false ∨ '&' ∉ title) :
    ∃ out x u y v, parseFresh E fuel cfg (Spec.anSource ds) = .ok out ∧
      t!"<a" ++ (x ++ (t!" href=\"" ++ (u ++ (t!"\"" ++ (y ++ (t!" title=\"" ++ (v ++ (t!"\">" ++ (a.text ++ t!"</a>"))))))))) <:+: out ∧
      Spec.decode u = a.href ∧ '"' ∉ u ∧ Spec.decode v = title ∧ '"' ∉ v := by
  have hA := ((anchor_ok (hok _ hm) ht).parts _ hi).1
  obtain ⟨hv, hq⟩ := titleValue_eq (hA.title _ hti).2.1 hr
  refine ⟨_, Spec.attr t!"class" (if cfg.restricted then none else a.atts.cls), Spec.escape true a.href,
    Spec.attr t!"id" (if cfg.restricted then none else a.atts.id) ++ (Spec.attr t!"lang" a.atts.language ++ (Spec.attr t!"rel" a.rel ++
      Spec.attr t!"style" (if cfg.restricted ∨ a.atts.declarations = [] then none else some (Spec.join t!"; " a.atts.declarations ++ t!";")))),
    Spec.escape false title, C83_link_attributes E hU fuel hf cfg base hb huid hp hcap hz hno hbt hsan hdep ok hL ha ds (List.ne_nil_of_mem hm) hok hc hres htok hn,
    ?_, decode_escape _ _, escape_noquote (.inl rfl), decode_escape _ _, escape_noquote (.inr hq)⟩
  refine List.IsInfix.trans ⟨[], [], ?_⟩ (anchor_within cfg.html5 (if cfg.html5 then t!"<br>" else t!"<br />") base cfg.restricted (cfg.alignClass.getD cfg.html5) hm ht hi)
  rw [Spec.Anchor.html, hti, Option.map_some, hv]
  simp [Spec.attr]

/-- **C84 is false in general**: in restricted mode the title is escaped twice. -/
theorem C84_link_titles_fails : ∃ out, parseFresh demoEnv 3 { demoCfg with restricted := true } t!"\"a(R&D)\":/x" = .ok out ∧
    out = t!"<p><a href=\"/x\" title=\"R&amp;amp;D\">a</a></p>" ∧ Spec.decode t!"R&amp;amp;D" ≠ t!"R&D" :=
  ⟨_, by kernel_rfl, rfl, by decide⟩

/-- **C84 is false in general**: a title with brackets in it is part of the text. -/
theorem C84_link_titles_fails_brackets : parseFresh demoEnv 3 demoCfg t!"\"a(b(d))\":/x" = .ok t!"<p><a href=\"/x\">a(b(d))</a></p>" := by kernel_rfl

/-- The class and identifier written in brackets. -/
def nameAttrs (n : Str) (i : Option Str) : Str × Str :=
  (if n = [] then [] else t!" class=\"" ++ (n ++ t!"\""), match i with | none => [] | some j => t!" id=\"" ++ (j ++ t!"\""))

/-- **C85 (partial).** In the documents of C83, if the mode is not restricted, a link that has a class or an identifier before its text becomes an `a`
element with them. -/
theorem C85_link_classes_partial (E : Env) (hU : UniOk E.U) (fuel : Nat) (hf : 3 ≤ fuel) (cfg : Cfg) (base : Str)
    (hb : Spec.PlainBase base) (huid : cfg.uid = t!"textileRef:" ++ base ++ t!":") (hp : cfg.linkPrefix = base ++ t!"-")
    (hcap : cfg.capsTempl = t!"$1<span class=\"caps\">" ++ cfg.uid ++ t!":glyph:$2</span>$3")
    (hz : cfg.getSizes = false) (hno : cfg.noimage = false)
    (hbt : cfg.blockTags = true) (hsan : cfg.sanitizer = none) (hdep : 1 ≤ cfg.maxSpanDepth)
    (ok : Char → Prop) (hL : Lowers E.U ok) (ha : ∀ c, c.toNat < 128 → ok c)
    (ds : List (Spec.AnBlock × Nat)) (hok : ∀ d ∈ ds, d.1.Ok E.U.isLu E.U.isNd cfg.lite cfg.restricted)
    (hc : ∀ d ∈ ds, ∀ c ∈ d.1.chars, ok c)
    (hres : ∀ d ∈ ds, d.1.Resolved (Spec.Resolves E.urlParse E.urlJoin cfg.restricted) (Spec.Reads E.urlParse E.urlJoin) (Spec.Absolute E.urlParse) cfg.rel)
    (htok : ¬ cfg.uid <:+: Spec.anSource ds)
    (hn : Spec.anMarks ds < 2 ^ 31) (b : Spec.AnBlock) (n : Nat) (hm : (b, n) ∈ ds) (t : Spec.AnText) (ht : b.text = some t)
    (a : Spec.Anchor) (after : Str) (hi : (a, after) ∈ t.parts)
    (m : Str) (i : Option Str) (hg : a.groups = [.classes m i]) (hr : cfg.restricted = false) :
    ∃ out u y, parseFresh E fuel cfg (Spec.anSource ds) = .ok out ∧
      t!"<a" ++ ((nameAttrs m i).1 ++ (t!" href=\"" ++ (u ++ (t!"\"" ++ ((nameAttrs m i).2 ++ (y ++ (t!">" ++ (a.text ++ t!"</a>")))))))) <:+: out ∧
      Spec.decode u = a.href ∧ '"' ∉ u := by
  refine ⟨_, Spec.escape true a.href, Spec.attr t!"rel" a.rel ++ Spec.attr t!"title" (a.title.map (Spec.titleValue cfg.restricted)),
    C83_link_attributes E hU fuel hf cfg base hb huid hp hcap hz hno hbt hsan hdep ok hL ha ds (List.ne_nil_of_mem hm) hok hc hres htok hn,
    ?_, decode_escape _ _, escape_noquote (.inl rfl)⟩
  refine List.IsInfix.trans ⟨[], [], ?_⟩ (anchor_within cfg.html5 (if cfg.html5 then t!"<br>" else t!"<br />") base cfg.restricted (cfg.alignClass.getD cfg.html5) hm ht hi)
  rw [Spec.Anchor.html, hr]
  by_cases hn : m = [] <;> cases i <;>
    simp [nameAttrs, hn, Spec.Anchor.atts, hg, Spec.attr, Spec.Atts.cls, Spec.Atts.id, Spec.Atts.language, Spec.Atts.declarations]

/-- **C85 is false in general**: an identifier with a space in it is lost. -/
theorem C85_link_classes_fails : parseFresh demoEnv 3 demoCfg t!"\"(x#a b)one\":/x" = .ok t!"<p><a class=\"x\" href=\"/x\">one</a></p>" := by kernel_rfl

/-- An attribute with this name, or nothing. -/
def MaybeAttr (name x : Str) : Prop := x = [] ∨ ∃ v, x = t!" " ++ (name ++ (t!"=\"" ++ (v ++ t!"\""))) ∧ '"' ∉ v ∧ '<' ∉ v

/-- **C86 (partial).** In restricted mode, a link in the documents of C83 becomes an `a` element with its address and at most a language, a
relation and a title: whatever is written before its text, it has no class, no identifier and no style. -/
theorem C86_links_restricted_partial (E : Env) (hU : UniOk E.U) (fuel : Nat) (hf : 3 ≤ fuel) (cfg : Cfg) (base : Str)
    (hb : Spec.PlainBase base) (huid : cfg.uid = t!"textileRef:" ++ base ++ t!":") (hp : cfg.linkPrefix = base ++ t!"-")
    (hcap : cfg.capsTempl = t!"$1<span class=\"caps\">" ++ cfg.uid ++ t!":glyph:$2</span>$3")
    (hz : cfg.getSizes = false) (hno : cfg.noimage = false)
    (hbt : cfg.blockTags = true) (hsan : cfg.sanitizer = none) (hdep : 1 ≤ cfg.maxSpanDepth)
    (ok : Char → Prop) (hL : Lowers E.U ok) (ha : ∀ c, c.toNat < 128 → ok c)
    (ds : List (Spec.AnBlock × Nat)) (hok : ∀ d ∈ ds, d.1.Ok E.U.isLu E.U.isNd cfg.lite cfg.restricted)
    (hc : ∀ d ∈ ds, ∀ c ∈ d.1.chars, ok c)
    (hres : ∀ d ∈ ds, d.1.Resolved (Spec.Resolves E.urlParse E.urlJoin cfg.restricted) (Spec.Reads E.urlParse E.urlJoin) (Spec.Absolute E.urlParse) cfg.rel)
    (htok : ¬ cfg.uid <:+: Spec.anSource ds)
    (hn : Spec.anMarks ds < 2 ^ 31) (b : Spec.AnBlock) (n : Nat) (hm : (b, n) ∈ ds) (t : Spec.AnText) (ht : b.text = some t)
    (a : Spec.Anchor) (after : Str) (hi : (a, after) ∈ t.parts) (hr : cfg.restricted = true) :
    ∃ out u l r v, parseFresh E fuel cfg (Spec.anSource ds) = .ok out ∧
      t!"<a href=\"" ++ (u ++ (t!"\"" ++ (l ++ (r ++ (v ++ (t!">" ++ (a.text ++ t!"</a>"))))))) <:+: out ∧
      Spec.decode u = a.href ∧ '"' ∉ u ∧ '<' ∉ u ∧ MaybeAttr t!"lang" l ∧ MaybeAttr t!"rel" r ∧ MaybeAttr t!"title" v := by
  have hA := ((anchor_ok (hok _ hm) ht).parts _ hi).1
  have hmay : ∀ {k : Str} {o : Option Str}, (∀ v, o = some v → '"' ∉ v ∧ '<' ∉ v) → MaybeAttr k (Spec.attr k o) := by
    intro k o h
    cases o with
    | none => exact .inl rfl
    | some v => exact .inr ⟨v, by simp [Spec.attr], h v rfl⟩
  refine ⟨_, Spec.escape true a.href, Spec.attr t!"lang" a.atts.language, Spec.attr t!"rel" a.rel, Spec.attr t!"title" (a.title.map (Spec.titleValue cfg.restricted)),
    C83_link_attributes E hU fuel hf cfg base hb huid hp hcap hz hno hbt hsan hdep ok hL ha ds (List.ne_nil_of_mem hm) hok hc hres htok hn,
    ?_, decode_escape _ _, escape_noquote (.inl rfl), escape_notag _ _, hmay ?_, hmay ?_, hmay ?_⟩
  · refine List.IsInfix.trans ⟨[], [], ?_⟩ (anchor_within cfg.html5 (if cfg.html5 then t!"<br>" else t!"<br />") base cfg.restricted (cfg.alignClass.getD cfg.html5) hm ht hi)
    rw [Spec.Anchor.html, hr]
    simp [Spec.attr]
  · intro v e
    have hv : ∀ c ∈ v, c ∈ styleChars ++ t!";(){}[]" := fun c hc =>
      groups_plain (i := { groups := a.groups, url := [], src := [] }) hA.atts c ((att_value_infix (.inr (.inr (.inl e)))).subset hc)
    exact ⟨fun hx => absurd (hv _ hx) (by decide +kernel), fun hx => absurd (hv _ hx) (by decide +kernel)⟩
  · intro v e
    have := hA.link.rel v e
    exact ⟨fun hx => absurd (this _ hx) (by decide), fun hx => absurd (this _ hx) (by decide)⟩
  · intro v e
    simp only [Option.map_eq_some_iff] at e
    obtain ⟨x, hx, rfl⟩ := e
    refine ⟨?_, escape_notag _ _⟩
    have hq : '"' ∉ x := (titleValue_eq (r := false) (hA.title _ hx).2.1 (.inl rfl)).2
    rw [hr]
    exact escape_noquote (.inr (escape_noquote (.inr hq)))

/-- There is only one way to leave out the scheme. -/
theorem withoutScheme_unique {url t t' : Str} (h : Spec.WithoutScheme url t) (h' : Spec.WithoutScheme url t') : t = t' := by
  have key : ∀ {s s' x y : Str}, ':' ∉ s → ':' ∉ s' → s ++ ':' :: x = s' ++ ':' :: y → x = y := by
    intro s s' x y h1 h2 e
    rcases List.append_eq_append_iff.1 e with ⟨z, e1, e2⟩ | ⟨z, e1, e2⟩ <;> cases z with
    | nil => simp at e2; rw [e2]
    | cons c z =>
      simp only [List.cons_append, List.cons.injEq] at e2
      first | exact absurd (by rw [e1, ← e2.1]; simp) h2 | exact absurd (by rw [e1, ← e2.1]; simp) h1
  obtain ⟨s, hs, h⟩ := h
  obtain ⟨s', hs', h'⟩ := h'
  rcases h with e | ⟨e, hp⟩ <;> rcases h' with e' | ⟨e', hp'⟩ <;> have := key hs hs' (e.symm.trans e')
  · simpa using this
  · exact absurd ⟨t, this⟩ hp'
  · exact absurd ⟨t', this.symm⟩ hp
  · exact this

/-- **C92 (partial).** In the documents of C83, a link written with `$` as its text becomes an `a` element around its address without the scheme. -/
theorem C92_link_address_partial (E : Env) (hU : UniOk E.U) (fuel : Nat) (hf : 3 ≤ fuel) (cfg : Cfg) (base : Str)
    (hb : Spec.PlainBase base) (huid : cfg.uid = t!"textileRef:" ++ base ++ t!":") (hp : cfg.linkPrefix = base ++ t!"-")
    (hcap : cfg.capsTempl = t!"$1<span class=\"caps\">" ++ cfg.uid ++ t!":glyph:$2</span>$3")
    (hz : cfg.getSizes = false) (hno : cfg.noimage = false)
    (hbt : cfg.blockTags = true) (hsan : cfg.sanitizer = none) (hdep : 1 ≤ cfg.maxSpanDepth)
    (ok : Char → Prop) (hL : Lowers E.U ok) (ha : ∀ c, c.toNat < 128 → ok c)
    (ds : List (Spec.AnBlock × Nat)) (hok : ∀ d ∈ ds, d.1.Ok E.U.isLu E.U.isNd cfg.lite cfg.restricted)
    (hc : ∀ d ∈ ds, ∀ c ∈ d.1.chars, ok c)
    (hres : ∀ d ∈ ds, d.1.Resolved (Spec.Resolves E.urlParse E.urlJoin cfg.restricted) (Spec.Reads E.urlParse E.urlJoin) (Spec.Absolute E.urlParse) cfg.rel)
    (htok : ¬ cfg.uid <:+: Spec.anSource ds)
    (hn : Spec.anMarks ds < 2 ^ 31) (b : Spec.AnBlock) (n : Nat) (hm : (b, n) ∈ ds) (t : Spec.AnText) (ht : b.text = some t)
    (a : Spec.Anchor) (after : Str) (hi : (a, after) ∈ t.parts) (hd : a.byAddress = true)
    (shown : Str) (hs : Spec.WithoutScheme a.url shown) :
    ∃ out x u y, t!"\"" ++ (a.groups.flatMap Spec.Group.source ++ (t!"$" ++ (Spec.inParens a.title ++ (t!"\":" ++ a.url)))) <:+: Spec.anSource ds ∧
      parseFresh E fuel cfg (Spec.anSource ds) = .ok out ∧
      t!"<a" ++ (x ++ (t!" href=\"" ++ (u ++ (t!"\"" ++ (y ++ (t!">" ++ (shown ++ t!"</a>"))))))) <:+: out ∧
      Spec.decode u = a.href ∧ '"' ∉ u := by
  have hA := ((anchor_ok (hok _ hm) ht).parts _ hi).1
  obtain rfl := withoutScheme_unique (hA.shown hd) hs
  refine ⟨_, Spec.attr t!"class" (if cfg.restricted then none else a.atts.cls), Spec.escape true a.href,
    Spec.attr t!"id" (if cfg.restricted then none else a.atts.id) ++ (Spec.attr t!"lang" a.atts.language ++ (Spec.attr t!"rel" a.rel ++
      (Spec.attr t!"style" (if cfg.restricted ∨ a.atts.declarations = [] then none else some (Spec.join t!"; " a.atts.declarations ++ t!";")) ++
      Spec.attr t!"title" (a.title.map (Spec.titleValue cfg.restricted))))),
    ?_, C83_link_attributes E hU fuel hf cfg base hb huid hp hcap hz hno hbt hsan hdep ok hL ha ds (List.ne_nil_of_mem hm) hok hc hres htok hn,
    ?_, decode_escape _ _, escape_noquote (.inl rfl)⟩
  · have e : t!"\"" ++ (a.groups.flatMap Spec.Group.source ++ (t!"$" ++ (Spec.inParens a.title ++ (t!"\":" ++ a.url)))) = a.source := by
      simp [Spec.Anchor.source, Spec.Anchor.inner, Spec.Anchor.written, hd]
    have h1 : a.source <:+: t.source := by
      have h2 := infix_flat (f := fun p : Spec.Anchor × Str => p.1.source ++ p.2) hi
      exact (List.IsInfix.trans ⟨[], after, by simp⟩ h2).trans ⟨t.lead, [], by simp [Spec.AnText.source, Spec.anParts]⟩
    rw [e]
    refine (h1.trans ?_).trans (glue_infix (List.mem_map.2 ⟨_, hm, rfl⟩))
    cases b with
    | other b => cases ht
    | para t' => cases ht; exact List.infix_refl _
    | styled tag a t' => cases ht; exact ⟨tag ++ (a.source ++ t!". "), [], by simp [Spec.AnBlock.source]⟩
    | quoted a t' => cases ht; exact ⟨t!"bq" ++ (a.source ++ t!". "), [], by simp [Spec.AnBlock.source]⟩
  · refine List.IsInfix.trans ⟨[], [], ?_⟩ (anchor_within cfg.html5 (if cfg.html5 then t!"<br>" else t!"<br />") base cfg.restricted (cfg.alignClass.getD cfg.html5) hm ht hi)
    rw [Spec.Anchor.html]
    simp [Spec.attr]

/-- **C92 is false in general**: what Textile replaces in texts it also replaces in the address shown. -/
theorem C92_link_address_fails : parseFresh demoEnv 3 demoCfg t!"\"$\":http://a.com/a--b" = .ok t!"<p><a href=\"http://a.com/a--b\">a.com/a&#8212;b</a></p>" ∧
    parseFresh demoEnv 3 demoCfg t!"\"$\":http://a.com/3x4" = .ok t!"<p><a href=\"http://a.com/3x4\">a.com/3&#215;4</a></p>" := ⟨by kernel_rfl, by kernel_rfl⟩

/-! ## Examples -/

def demoAnchor : Spec.Anchor where
  groups := [.classes t!"big red" (some t!"k1")]
  text := t!"the shop"
  title := some t!"R&D; it's open"
  url := t!"http://a.com/x"
  href := t!"http://a.com/x"

def demoAnchor2 : Spec.Anchor where
  groups := [.lang t!"en", .style [t!"color:red"]]
  text := t!"here"
  url := t!"/y"
  href := t!"/y"

def demoAnText : Spec.AnText := ⟨t!"See ", [(demoAnchor, t!", or\n"), (demoAnchor2, t!".")]⟩

def demoAnDoc : List (Spec.AnBlock × Nat) := [(.para demoAnText, 0), (.quoted exShort ⟨[], [(demoAnchor, t!" now")]⟩, 1), (.other (.cited demoCited), 0)]

theorem demoAnchor_ok : demoAnchor.Ok demoUni.isLu t!", or\n" ∧ demoAnchor.Ok demoUni.isLu t!" now" := by
  have key : ∀ s, Spec.LinkEnd s → demoAnchor.Ok demoUni.isLu s := by
    intro s hs
    refine ⟨⟨words_of_B (by decide), ⟨'t', _, rfl, by decide, by decide⟩, ?_, by decide, by decide, by decide +kernel, ⟨t!"http://a.com/", 'x', rfl, by decide⟩,
      by decide, by simp [demoAnchor], hs⟩, ⟨?_, by simp [Spec.Anchor.atts, demoAnchor]⟩, ?_, ?_, fun hb => by cases hb⟩
    · intro u e
      have := congrArg List.getLast? e
      rw [List.getLast?_concat] at this
      revert this; decide
    · intro g hg
      simp only [Spec.Anchor.atts, demoAnchor, List.mem_cons, List.not_mem_nil, or_false] at hg
      subst hg
      refine ⟨by unfold Spec.NameChar; decide, by decide, ?_⟩
      rintro j ⟨⟩
      unfold Spec.NameChar; decide
    · rintro n i gs h
      simp only [demoAnchor, List.cons.injEq, Spec.Group.classes.injEq] at h
      rw [← h.1.1]
      decide
    · rintro t ⟨⟩
      exact ⟨by decide, by decide, not_of_contains (by decide)⟩
  exact ⟨key _ (.inr (.inr ⟨.inr rfl, .inl rfl⟩)), key _ (.inl rfl)⟩

theorem demoAnchor2_ok : demoAnchor2.Ok demoUni.isLu t!"." := by
  refine ⟨⟨words_of_B (by decide), ⟨'h', _, rfl, by decide, by decide⟩, ?_, by decide, by decide, by decide +kernel, ⟨t!"/", 'y', rfl, by decide⟩,
    by decide, by simp [demoAnchor2], .inr (.inr (.inl rfl))⟩, ⟨?_, by simp [Spec.Anchor.atts, demoAnchor2, Spec.Group.kind]⟩, ?_, ?_, fun hb => by cases hb⟩
  · intro u e
    have := congrArg List.getLast? e
    rw [List.getLast?_concat] at this
    revert this; decide
  · intro g hg
    simp only [Spec.Anchor.atts, demoAnchor2, List.mem_cons, List.not_mem_nil, or_false] at hg
    rcases hg with rfl | rfl
    · exact ⟨by decide, by unfold Spec.NameChar; decide⟩
    · exact ⟨by decide, by unfold Spec.StyleChar Spec.NameChar; decide⟩
  · rintro n i gs h
    simp [demoAnchor2] at h
  · rintro t ⟨⟩

theorem demoAnText_ok : demoAnText.Ok demoUni.isLu := by
  refine ⟨prose_of_B (by decide), fun _ => .inr ⟨t!"See", ' ', rfl, .inl rfl⟩, ?_, ?_, ⟨'S', _, rfl, by decide⟩, ?_⟩
  · intro p hp
    simp only [demoAnText, List.mem_cons, List.not_mem_nil, or_false] at hp
    rcases hp with rfl | rfl
    · exact ⟨demoAnchor_ok.1, prose_of_B (by decide)⟩
    · exact ⟨demoAnchor2_ok, prose_of_B (by decide)⟩
  · intro p hp
    simp only [demoAnText, List.dropLast, List.mem_cons, List.not_mem_nil, or_false] at hp
    subst hp
    exact ⟨t!", or", '\n', rfl, .inr rfl⟩
  · rintro ⟨u, c, e, hc⟩
    have := congrArg List.getLast? e
    rw [List.getLast?_concat] at this
    rcases hc with rfl | rfl <;> (revert this; decide +kernel)

theorem demoAnQuote_ok : Spec.AnText.Ok demoUni.isLu ⟨[], [(demoAnchor, t!" now")]⟩ := by
  refine ⟨prose_of_B (by decide), fun _ => .inl rfl, ?_, by simp, ⟨'"', _, rfl, by decide⟩, ?_⟩
  · intro p hp
    simp only [List.mem_cons, List.not_mem_nil, or_false] at hp
    subst hp
    exact ⟨demoAnchor_ok.2, prose_of_B (by decide)⟩
  · rintro ⟨u, c, e, hc⟩
    have := congrArg List.getLast? e
    rw [List.getLast?_concat] at this
    rcases hc with rfl | rfl <;> (revert this; decide +kernel)

theorem demoAn_doc : ∀ d ∈ demoAnDoc, d.1.Ok demoUni.isLu demoUni.isNd false false := by
  intro d hd
  simp only [demoAnDoc, List.mem_cons, List.not_mem_nil, or_false] at hd
  rcases hd with rfl | rfl | rfl
  · exact ⟨demoAnText_ok, noBlockStart_head (by decide), by decide, by decide⟩
  · exact ⟨demoAnQuote_ok, exShort_ok, fun _ => trivial, rfl, by decide, by decide⟩
  · exact demoCited_ok

theorem demoAn_res1 (r : Bool) : demoAnText.Resolved (Spec.Resolves demoEnv.urlParse demoEnv.urlJoin r) (Spec.Absolute demoEnv.urlParse) none := by
  intro p hp
  simp only [demoAnText, List.mem_cons, List.not_mem_nil, or_false] at hp
  rcases hp with rfl | rfl
  · exact ⟨.inl ⟨t!"http", by decide, by cases r <;> decide⟩, rfl, fun hb => by cases hb⟩
  · exact ⟨.inr ⟨by decide, by decide, by decide, by decide, rfl⟩, rfl, fun hb => by cases hb⟩

theorem demoAn_res : ∀ d ∈ demoAnDoc, d.1.Resolved (Spec.Resolves demoEnv.urlParse demoEnv.urlJoin false) (Spec.Reads demoEnv.urlParse demoEnv.urlJoin) (Spec.Absolute demoEnv.urlParse) none := by
  intro d hd
  simp only [demoAnDoc, List.mem_cons, List.not_mem_nil, or_false] at hd
  rcases hd with rfl | rfl | rfl
  · exact demoAn_res1 false
  · intro p hp
    simp only [List.mem_cons, List.not_mem_nil, or_false] at hp
    subst hp
    exact demoAn_res1 false (demoAnchor, t!", or\n") List.mem_cons_self
  · exact demoCite_res (.cited demoCited, 0) (by simp [demoCiteDoc])

/-- Links with classes, identifiers, languages, styles and titles, in a paragraph and in a quotation; and a quotation with an address. -/
theorem C83_link_attributes_ex : parseFresh demoEnv 3 demoCfg t!"See \"(big red#k1)the shop(R&D; it's open)\":http://a.com/x, or\n\"[en]{color:red}here\":/y.\n\nbq(x#y)[en]. \"(big red#k1)the shop(R&D; it's open)\":http://a.com/x now\n\n\nbq(x#y)[en].:http://a.com/x?a=b&c=(d) Fish _and_\nchips" =
    .ok t!"<p>See <a class=\"big red\" href=\"http://a.com/x\" id=\"k1\" title=\"R&amp;D; it's open\">the shop</a>, or<br>\n<a href=\"/y\" lang=\"en\" style=\"color:red;\">here</a>.</p>\n\n<blockquote class=\"x\" id=\"y\" lang=\"en\">\n\t<p class=\"x\" id=\"y\" lang=\"en\"><a class=\"big red\" href=\"http://a.com/x\" id=\"k1\" title=\"R&amp;D; it's open\">the shop</a> now</p>\n</blockquote>\n\n\n<blockquote cite=\"http://a.com/x?a=b&amp;c=(d)\" class=\"x\" id=\"y\" lang=\"en\">\n\t<p class=\"x\" id=\"y\" lang=\"en\">Fish <em>and</em><br>\nchips</p>\n</blockquote>" := by
  have := C83_link_attributes demoEnv UniOk.demo 3 (by decide) demoCfg t!"abc" plainBase_demo rfl rfl rfl rfl rfl rfl rfl (by decide)
    _ demo_lowers (fun _ h => h) demoAnDoc (by decide) demoAn_doc (by decide +kernel) demoAn_res (by decide +kernel) (by decide)
  refine Eq.trans (Eq.trans ?_ this) ?_ <;> exact congrArg _ (by decide +kernel)

/-- The first link there. -/
theorem C84_link_titles_ex : ∃ out x u y v, parseFresh demoEnv 3 demoCfg (Spec.anSource demoAnDoc) = .ok out ∧
    t!"<a" ++ (x ++ (t!" href=\"" ++ (u ++ (t!"\"" ++ (y ++ (t!" title=\"" ++ (v ++ (t!"\">" ++ (t!"the shop" ++ t!"</a>"))))))))) <:+: out ∧
    Spec.decode u = t!"http://a.com/x" ∧ '"' ∉ u ∧ Spec.decode v = t!"R&D; it's open" ∧ '"' ∉ v :=
  C84_link_titles_partial demoEnv UniOk.demo 3 (by decide) demoCfg t!"abc" plainBase_demo rfl rfl rfl rfl rfl rfl rfl (by decide)
    _ demo_lowers (fun _ h => h) demoAnDoc demoAn_doc (by decide +kernel) demoAn_res (by decide +kernel) (by decide)
    (.para demoAnText) 0 (by simp [demoAnDoc]) demoAnText rfl demoAnchor t!", or\n" (by simp [demoAnText]) _ rfl (.inl rfl)

/-- The same link. -/
theorem C85_link_classes_ex : ∃ out u y, parseFresh demoEnv 3 demoCfg (Spec.anSource demoAnDoc) = .ok out ∧
    t!"<a" ++ (t!" class=\"big red\"" ++ (t!" href=\"" ++ (u ++ (t!"\"" ++ (t!" id=\"k1\"" ++ (y ++ (t!">" ++ (t!"the shop" ++ t!"</a>")))))))) <:+: out ∧
    Spec.decode u = t!"http://a.com/x" ∧ '"' ∉ u :=
  C85_link_classes_partial demoEnv UniOk.demo 3 (by decide) demoCfg t!"abc" plainBase_demo rfl rfl rfl rfl rfl rfl rfl (by decide)
    _ demo_lowers (fun _ h => h) demoAnDoc demoAn_doc (by decide +kernel) demoAn_res (by decide +kernel) (by decide)
    (.para demoAnText) 0 (by simp [demoAnDoc]) demoAnText rfl demoAnchor t!", or\n" (by simp [demoAnText]) t!"big red" (some t!"k1") rfl rfl

/-- The same link in restricted mode. -/
theorem C86_links_restricted_ex : ∃ out u l r v, parseFresh demoEnv 3 { demoCfg with restricted := true }
      t!"See \"(big red#k1)the shop(R&D; it's open)\":http://a.com/x, or\n\"[en]{color:red}here\":/y." = .ok out ∧
    t!"<a href=\"" ++ (u ++ (t!"\"" ++ (l ++ (r ++ (v ++ (t!">" ++ (t!"the shop" ++ t!"</a>"))))))) <:+: out ∧
    Spec.decode u = t!"http://a.com/x" ∧ '"' ∉ u ∧ '<' ∉ u ∧ MaybeAttr t!"lang" l ∧ MaybeAttr t!"rel" r ∧ MaybeAttr t!"title" v := by
  have := C86_links_restricted_partial demoEnv UniOk.demo 3 (by decide) { demoCfg with restricted := true } t!"abc" plainBase_demo rfl rfl rfl rfl rfl rfl rfl (by decide)
    _ demo_lowers (fun _ h => h) [(.para demoAnText, 0)] (by
      intro d hd
      simp only [List.mem_cons, List.not_mem_nil, or_false] at hd
      subst hd
      exact ⟨demoAnText_ok, noBlockStart_head (by decide), by decide, by decide⟩) (by decide +kernel) (by
      intro d hd
      simp only [List.mem_cons, List.not_mem_nil, or_false] at hd
      subst hd
      exact demoAn_res1 true) (by decide +kernel) (by decide)
    (.para demoAnText) 0 (by simp) demoAnText rfl demoAnchor t!", or\n" (by simp [demoAnText]) rfl
  exact this

/-- A link with `$` as its text. -/
def demoAnchor3 : Spec.Anchor where
  byAddress := true
  text := t!"a.com/x"
  title := some t!"new"
  url := t!"http://a.com/x"
  href := t!"http://a.com/x"

def demoAnText3 : Spec.AnText := ⟨t!"See ", [(demoAnchor3, t!".")]⟩

theorem C92_link_address_ex : ∃ out x u y, t!"\"$(new)\":http://a.com/x" <:+: t!"See \"$(new)\":http://a.com/x." ∧
    parseFresh demoEnv 3 demoCfg t!"See \"$(new)\":http://a.com/x." = .ok out ∧
    t!"<a" ++ (x ++ (t!" href=\"" ++ (u ++ (t!"\"" ++ (y ++ (t!">" ++ (t!"a.com/x" ++ t!"</a>"))))))) <:+: out ∧
    Spec.decode u = t!"http://a.com/x" ∧ '"' ∉ u := by
  have hA : demoAnchor3.Ok demoUni.isLu t!"." := by
    refine ⟨⟨words_of_B (by decide), ⟨'a', _, rfl, by decide, by decide⟩, ?_, by decide, by decide, by decide +kernel, ⟨t!"http://a.com/", 'x', rfl, by decide⟩,
      by decide, by simp [demoAnchor3], .inr (.inr (.inl rfl))⟩, ⟨by simp [Spec.Anchor.atts, demoAnchor3], by simp [Spec.Anchor.atts, demoAnchor3]⟩, ?_, ?_,
      fun _ => ⟨t!"http", by decide, .inl rfl⟩⟩
    · intro u e
      have := congrArg List.getLast? e
      rw [List.getLast?_concat] at this
      revert this; decide
    · rintro n i gs h
      simp [demoAnchor3] at h
    · rintro t ⟨⟩
      exact ⟨by decide, by decide, not_of_contains (by decide)⟩
  have hT : demoAnText3.Ok demoUni.isLu := by
    refine ⟨prose_of_B (by decide), fun _ => .inr ⟨t!"See", ' ', rfl, .inl rfl⟩, ?_, by simp [demoAnText3], ⟨'S', _, rfl, by decide⟩, ?_⟩
    · intro p hp
      simp only [demoAnText3, List.mem_cons, List.not_mem_nil, or_false] at hp
      subst hp
      exact ⟨hA, prose_of_B (by decide)⟩
    · rintro ⟨u, c, e, hc⟩
      have := congrArg List.getLast? e
      rw [List.getLast?_concat] at this
      rcases hc with rfl | rfl <;> (revert this; decide +kernel)
  exact C92_link_address_partial demoEnv UniOk.demo 3 (by decide) demoCfg t!"abc" plainBase_demo rfl rfl rfl rfl rfl rfl rfl (by decide)
    _ demo_lowers (fun _ h => h) [(.para demoAnText3, 0)] (by
      intro d hd
      simp only [List.mem_cons, List.not_mem_nil, or_false] at hd
      subst hd
      exact ⟨hT, noBlockStart_head (by decide), by decide, by decide⟩) (by decide +kernel) (by
      intro d hd
      simp only [List.mem_cons, List.not_mem_nil, or_false] at hd
      subst hd
      intro p hp
      simp only [demoAnText3, List.mem_cons, List.not_mem_nil, or_false] at hp
      subst hp
      exact ⟨.inl ⟨t!"http", by decide, by decide⟩, rfl, fun _ => by unfold Spec.Absolute; decide⟩) (by decide +kernel) (by decide)
    (.para demoAnText3) 0 (by simp) demoAnText3 rfl demoAnchor3 t!"." (by simp [demoAnText3]) rfl t!"a.com/x" ⟨t!"http", by decide, .inl rfl⟩

end Rustextile
