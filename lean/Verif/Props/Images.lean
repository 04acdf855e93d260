import Verif.ImageDoc
import Verif.Props.Signs

/-!
# Images: C63, C64
-/

namespace Rustextile

open Prog

/-- **C63.** A document of paragraphs, headings and quotations with images, and of the blocks of
`C60_signs`, in any order. -/
theorem C63_images (E : Env) (hU : UniOk E.U) (fuel : Nat) (hf : 3 ≤ fuel) (cfg : Cfg) (base : Str)
    (hb : Spec.PlainBase base) (huid : cfg.uid = t!"textileRef:" ++ base ++ t!":") (hp : cfg.linkPrefix = base ++ t!"-")
    (hz : cfg.getSizes = false) (hno : cfg.noimage = false)
    (hbt : cfg.blockTags = true) (hsan : cfg.sanitizer = none) (hdep : 1 ≤ cfg.maxSpanDepth)
    (ok : Char → Prop) (hL : Lowers E.U ok) (ha : ∀ c, c.toNat < 128 → ok c)
    (ds : List (Spec.ImBlock × Nat)) (hne : ds ≠ []) (hok : ∀ d ∈ ds, d.1.Ok E.U.isLu E.U.isNd cfg.lite cfg.restricted)
    (hc : ∀ d ∈ ds, ∀ c ∈ d.1.chars, ok c)
    (hres : ∀ d ∈ ds, d.1.Resolved (Spec.Resolves E.urlParse E.urlJoin cfg.restricted) (Spec.Reads E.urlParse E.urlJoin) cfg.rel)
    (htok : ¬ cfg.uid <:+: Spec.imSource ds)
    (hn : Spec.imMarks ds < 2 ^ 31) :
    parseFresh E fuel cfg (Spec.imSource ds) =
      .ok (Spec.imDocHtml (if cfg.html5 then t!"<br>" else t!"<br />") cfg.restricted (cfg.alignClass.getD cfg.html5) base ds) :=
  parse_images (⟨hU, hf, hb, huid⟩ : DocCtx ⟨E, cfg, fuel⟩ base) hp hz hno hbt hsan hdep ha hL hne hok hc hres htok (by omega)

/-! ## Alternative texts -/

theorem imHtml_mem (br base : Str) (restricted k : Bool) {b : Spec.ImBlock} {n : Nat} : ∀ {ds : List (Spec.ImBlock × Nat)} {N : Spec.Numbers} {M : Spec.Notes},
    (b, n) ∈ ds → ∃ N' M', (b.html br restricted k base N' M', n) ∈ Spec.imHtml br restricted k base N M ds
  | [], _, _, h => by cases h
  | d :: ds, N, M, h => by
    rcases List.mem_cons.1 h with rfl | h
    · exact ⟨N, M, by simp [Spec.imHtml]⟩
    · obtain ⟨N', M', h'⟩ := imHtml_mem br base restricted k (ds := ds) (N := d.1.numbers N restricted) (M := d.1.notes M restricted) h
      exact ⟨N', M', by simp [Spec.imHtml, h']⟩

theorem infix_flat {α} {f : α → Str} {a : α} {l : List α} (h : a ∈ l) : f a <:+: l.flatMap f := by
  obtain ⟨x, y, rfl⟩ := List.append_of_mem h
  exact ⟨x.flatMap f, y.flatMap f, by simp⟩

theorem image_html_within (br base : Str) (restricted k : Bool) {ds : List (Spec.ImBlock × Nat)} {t : Spec.ImText} {n : Nat}
    (ht : (.para t, n) ∈ ds) {i : Spec.Image} {after : Str} (hi : (i, after) ∈ t.parts) :
    i.html restricted k <:+: Spec.imDocHtml br restricted k base ds := by
  obtain ⟨N', M', h'⟩ := imHtml_mem br base restricted k (N := fun _ => 1) (M := ⟨[], 0⟩) ht
  refine List.IsInfix.trans ?_ (glue_infix h')
  have h2 := infix_flat (f := fun p : Spec.Image × Str => p.1.html restricted k ++ Spec.breakLines br p.2) hi
  have h3 : i.html restricted k <:+: i.html restricted k ++ Spec.breakLines br after := ⟨[], Spec.breakLines br after, by simp⟩
  refine (h3.trans h2).trans ⟨t!"<p>" ++ Spec.breakLines br t.lead, t!"</p>", ?_⟩
  simp [Spec.ImBlock.html, Spec.elementWith, Spec.ImText.html]

/-- The image is in the HTML of a document with it in a paragraph. -/
theorem image_within (br base : Str) (restricted k : Bool) {ds : List (Spec.ImBlock × Nat)} {t : Spec.ImText} {n : Nat}
    (ht : (.para t, n) ∈ ds) {i : Spec.Image} {after : Str} (hi : (i, after) ∈ t.parts) :
    i.element restricted k <:+: Spec.imDocHtml br restricted k base ds := by
  refine List.IsInfix.trans ?_ (image_html_within br base restricted k ht hi)
  unfold Spec.Image.html
  split
  · exact List.infix_refl _
  · rename_i l _
    exact ⟨['<', 'a'] ++ (Spec.attr ['h', 'r', 'e', 'f'] (some (Spec.escape true l.2)) ++ ['>']), t!"</a>", by simp⟩

theorem escape_notag (q : Bool) (t : Str) : '<' ∉ Spec.escape q t := by
  rw [escape_eq]
  exact enc_nolt

theorem decode_escape (q : Bool) (t : Str) : Spec.decode (Spec.escape q t) = t := by
  rw [escape_eq, decode_encodeHtml, map_encDec_false]

theorem escape_noquote {q : Bool} {t : Str} (h : q = true ∨ '"' ∉ t) : '"' ∉ Spec.escape q t := by
  unfold Spec.escape
  intro hm
  obtain ⟨c, hc, hm⟩ := List.mem_flatMap.1 hm
  split at hm
  · simp at hm
  split at hm
  · simp at hm
  split at hm
  · simp at hm
  split at hm
  · simp at hm
  split at hm
  · simp at hm
  · rename_i h4 _
    simp at hm
    subst hm
    rcases h with h | h
    · exact h4 ⟨h, rfl⟩
    · exact h hc

/-- **C64 (partial).** In the documents of C63, the alternative text of an image is its title as
written, if the mode is not restricted or the title has no ampersand; and the address is the one resolved. -/
theorem C64_alt_text_partial (E : Env) (hU : UniOk E.U) (fuel : Nat) (hf : 3 ≤ fuel) (cfg : Cfg) (base : Str)
    (hb : Spec.PlainBase base) (huid : cfg.uid = t!"textileRef:" ++ base ++ t!":") (hp : cfg.linkPrefix = base ++ t!"-")
    (hz : cfg.getSizes = false) (hno : cfg.noimage = false)
    (hbt : cfg.blockTags = true) (hsan : cfg.sanitizer = none) (hdep : 1 ≤ cfg.maxSpanDepth)
    (ok : Char → Prop) (hL : Lowers E.U ok) (ha : ∀ c, c.toNat < 128 → ok c)
    (ds : List (Spec.ImBlock × Nat)) (hok : ∀ d ∈ ds, d.1.Ok E.U.isLu E.U.isNd cfg.lite cfg.restricted)
    (hc : ∀ d ∈ ds, ∀ c ∈ d.1.chars, ok c)
    (hres : ∀ d ∈ ds, d.1.Resolved (Spec.Resolves E.urlParse E.urlJoin cfg.restricted) (Spec.Reads E.urlParse E.urlJoin) cfg.rel)
    (htok : ¬ cfg.uid <:+: Spec.imSource ds)
    (hn : Spec.imMarks ds < 2 ^ 31) (t : Spec.ImText) (n : Nat) (ht : (.para t, n) ∈ ds)
    (i : Spec.Image) (after : Str) (hi : (i, after) ∈ t.parts) (title : Str) (hti : i.title = some title)
    (hr : cfg.restricted = false ∨ '&' ∉ title) :
    ∃ out x v y u z, parseFresh E fuel cfg (Spec.imSource ds) = .ok out ∧
      t!"<img" ++ (x ++ (t!" alt=\"" ++ (v ++ (t!"\"" ++ (y ++ (t!" src=\"" ++ (u ++ (t!"\"" ++ (z ++ t!" />"))))))))) <:+: out ∧
      Spec.decode v = title ∧ '"' ∉ v ∧ Spec.decode u = i.src ∧ '"' ∉ u := by
  have hI : i.Ok after := by
    have := (hok _ ht).1.parts _ hi
    exact this.1
  obtain ⟨-, hch, -⟩ := hI.title _ hti
  have hnq : ∀ c ∈ title, c ∉ t!"<>\"" := by
    intro c hc' hm
    have := hch c hc'
    simp only [List.mem_cons, List.not_mem_nil, or_false] at hm
    rcases hm with rfl | rfl | rfl <;> revert this <;> decide
  have hv : Spec.titleValue cfg.restricted title = Spec.escape false title := by
    unfold Spec.titleValue
    rcases hr with hr | hr
    · rw [hr]; rfl
    · have e : Spec.escape false title = title := by
        rw [escape_eq]
        refine enc_quotes (fun c hc' hm => ?_)
        have := hnq c hc'
        simp only [List.mem_cons, List.not_mem_nil, or_false, not_or] at hm this
        rcases hm with rfl | rfl | rfl
        · exact hr hc'
        · exact this.1 rfl
        · exact this.2.1 rfl
      split <;> simp [e]
  refine ⟨_, Spec.attr ['a', 'l', 'i', 'g', 'n'] (if cfg.alignClass.getD cfg.html5 then none else i.align.map Spec.ImAlign.word), Spec.escape false title,
    Spec.attr ['c', 'l', 'a', 's', 's'] (i.classes cfg.restricted (cfg.alignClass.getD cfg.html5)) ++
      (Spec.attr ['i', 'd'] (if cfg.restricted then none else i.atts.id) ++ Spec.attr ['l', 'a', 'n', 'g'] i.atts.language), Spec.escape true i.src,
    Spec.attr ['s', 't', 'y', 'l', 'e'] (if cfg.restricted ∨ i.atts.declarations = [] then none else some (Spec.join [';', ' '] i.atts.declarations ++ [';'])) ++
      Spec.attr ['t', 'i', 't', 'l', 'e'] (i.title.map (Spec.titleValue cfg.restricted)),
    C63_images E hU fuel hf cfg base hb huid hp hz hno hbt hsan hdep ok hL ha ds (List.ne_nil_of_mem ht) hok hc hres htok hn,
    ?_, decode_escape _ _, escape_noquote (.inr fun hm => hnq _ hm (by simp)), decode_escape _ _, escape_noquote (.inl rfl)⟩
  refine List.IsInfix.trans ?_ (image_within (if cfg.html5 then t!"<br>" else t!"<br />") base cfg.restricted (cfg.alignClass.getD cfg.html5) ht hi)
  refine ⟨[], [], ?_⟩
  simp [Spec.Image.element, Spec.attr, hti, hv]

/-- **C26 (partial).** In restricted mode, in the documents of C63, the value of the address of an image ends at the quote that was written
to end it, whatever the resolved address is; the same for the address of its link. -/
theorem C26_images_partial (E : Env) (hU : UniOk E.U) (fuel : Nat) (hf : 3 ≤ fuel) (cfg : Cfg) (base : Str)
    (hb : Spec.PlainBase base) (huid : cfg.uid = t!"textileRef:" ++ base ++ t!":") (hp : cfg.linkPrefix = base ++ t!"-")
    (hz : cfg.getSizes = false) (hno : cfg.noimage = false)
    (hbt : cfg.blockTags = true) (hsan : cfg.sanitizer = none) (hdep : 1 ≤ cfg.maxSpanDepth)
    (ok : Char → Prop) (hL : Lowers E.U ok) (ha : ∀ c, c.toNat < 128 → ok c)
    (ds : List (Spec.ImBlock × Nat)) (hok : ∀ d ∈ ds, d.1.Ok E.U.isLu E.U.isNd cfg.lite cfg.restricted)
    (hc : ∀ d ∈ ds, ∀ c ∈ d.1.chars, ok c)
    (hres : ∀ d ∈ ds, d.1.Resolved (Spec.Resolves E.urlParse E.urlJoin cfg.restricted) (Spec.Reads E.urlParse E.urlJoin) cfg.rel)
    (htok : ¬ cfg.uid <:+: Spec.imSource ds)
    (hn : Spec.imMarks ds < 2 ^ 31) (t : Spec.ImText) (n : Nat) (ht : (.para t, n) ∈ ds)
    (i : Spec.Image) (after : Str) (hi : (i, after) ∈ t.parts) (hr : cfg.restricted = true) :
    ∃ out x u y, parseFresh E fuel cfg (Spec.imSource ds) = .ok out ∧
      t!"<img" ++ (x ++ (t!" src=\"" ++ (u ++ (t!"\"" ++ (y ++ t!" />"))))) <:+: out ∧
      Spec.decode u = i.src ∧ '"' ∉ u ∧ '<' ∉ u ∧
      ∀ l, i.link = some l → ∃ v, t!"<a href=\"" ++ (v ++ (t!"\"><img" ++ (x ++ (t!" src=\"" ++ (u ++ (t!"\"" ++ (y ++ t!" /></a>"))))))) <:+: out ∧
        Spec.decode v = l.2 ∧ '"' ∉ v ∧ '<' ∉ v := by
  have hw := image_html_within (if cfg.html5 then t!"<br>" else t!"<br />") base cfg.restricted (cfg.alignClass.getD cfg.html5) ht hi
  refine ⟨_, Spec.attr ['a', 'l', 'i', 'g', 'n'] (if cfg.alignClass.getD cfg.html5 then none else i.align.map Spec.ImAlign.word) ++
    (Spec.attr ['a', 'l', 't'] (some (match i.title with | none => [] | some t => Spec.titleValue cfg.restricted t)) ++
    (Spec.attr ['c', 'l', 'a', 's', 's'] (i.classes cfg.restricted (cfg.alignClass.getD cfg.html5)) ++ Spec.attr ['l', 'a', 'n', 'g'] i.atts.language)),
    Spec.escape true i.src, Spec.attr ['t', 'i', 't', 'l', 'e'] (i.title.map (Spec.titleValue cfg.restricted)),
    C63_images E hU fuel hf cfg base hb huid hp hz hno hbt hsan hdep ok hL ha ds (List.ne_nil_of_mem ht) hok hc hres htok hn,
    ?_, decode_escape _ _, escape_noquote (.inl rfl), escape_notag _ _, ?_⟩
  · refine List.IsInfix.trans ?_ (image_within (if cfg.html5 then t!"<br>" else t!"<br />") base cfg.restricted (cfg.alignClass.getD cfg.html5) ht hi)
    refine ⟨[], [], ?_⟩
    cases hti : i.title <;> simp [Spec.Image.element, hr, Spec.attr, hti]
  · intro l hl
    refine ⟨Spec.escape true l.2, List.IsInfix.trans ?_ hw, decode_escape _ _, escape_noquote (.inl rfl), escape_notag _ _⟩
    refine ⟨[], [], ?_⟩
    cases hti : i.title <;> simp [Spec.Image.html, Spec.Image.element, hr, Spec.attr, hl, hti]

/-- **C64 is false in general**: in restricted mode the title is escaped twice. -/
theorem C64_alt_text_fails : ∃ out, parseFresh demoEnv 3 { demoCfg with restricted := true } t!"!/a.png(R&D)!" = .ok out ∧
    out = t!"<p><img alt=\"R&amp;amp;D\" src=\"/a.png\" title=\"R&amp;amp;D\" /></p>" ∧ Spec.decode t!"R&amp;amp;D" ≠ t!"R&D" :=
  ⟨_, by kernel_rfl, rfl, by decide⟩

/-! ## Examples -/

def urlB (u : Str) : Bool := u.all Spec.urlChar && !containsStr t!"==" u && (u.head? != none && u.head? != some '=')

theorem not_of_contains {p t : Str} (h : containsStr p t = false) : ¬ p <:+: t := by
  rintro ⟨a, b, e⟩
  rw [containsStr_iff.2 ⟨a, b, by rw [← e]; simp⟩] at h
  cases h

theorem url_of_B {u : Str} (h : urlB u = true) : Spec.UrlOk u := by
  simp only [urlB, Bool.and_eq_true, Bool.not_eq_true', bne_iff_ne, ne_eq, List.all_eq_true] at h
  refine ⟨h.1.1, not_of_contains h.1.2, ?_⟩
  cases u with
  | nil => exact absurd rfl h.2.1
  | cons c u => exact ⟨c, u, rfl, by simpa using h.2.2⟩

def titleB (t : Str) : Bool := !t.isEmpty && t.all Spec.titleChar && !containsStr t!" '" t

def imageB (i : Spec.Image) (after : Str) : Bool :=
  urlB i.url && i.src.all (fun c => c != '\n' && c != '\r' && c != '\t') && (i.title.all titleB) &&
  i.link.all (fun l => urlB l.1 && l.2.all (fun c => c != '\n' && c != '\r' && c != '\t') && l.1.getLast?.any (fun c => !t!".,=".contains c)) &&
  startsInB (if i.link.isSome then t!" \n" else t!" \n.,") after

theorem image_of_B {i : Spec.Image} {after : Str} (ha : i.atts.Ok) (h : imageB i after = true) : i.Ok after := by
  simp only [imageB, Bool.and_eq_true, List.all_eq_true, bne_iff_ne, ne_eq] at h
  obtain ⟨⟨⟨⟨h1, h2⟩, h3⟩, h4⟩, h5⟩ := h
  refine ⟨ha, url_of_B h1, fun c hc => ?_, ?_, ?_, startsIn_of_B h5⟩
  · simpa [and_assoc] using h2 c hc
  · intro t ht
    rw [ht] at h3
    simp only [Option.all_some, titleB, Bool.and_eq_true, Bool.not_eq_true', List.all_eq_true, List.isEmpty_eq_false_iff] at h3
    exact ⟨h3.1.1, h3.1.2, not_of_contains h3.2⟩
  · intro l hl
    rw [hl] at h4
    simp only [Option.all_some, Bool.and_eq_true, List.all_eq_true, bne_iff_ne, ne_eq] at h4
    refine ⟨url_of_B h4.1.1, fun c hc => by simpa [and_assoc] using h4.1.2 c hc, ?_⟩
    have h6 := h4.2
    rcases List.eq_nil_or_concat l.1 with e | ⟨u, c, e⟩
    · rw [e] at h6; cases h6
    · rw [List.concat_eq_append] at e
      rw [e, List.getLast?_concat] at h6
      exact ⟨u, c, e, by simpa using h6⟩

def spaceEnd (t : Str) : Bool := t.getLast? == some ' ' || t.getLast? == some '\n'

theorem spaceEnd_iff {t : Str} : spaceEnd t = true ↔ Spec.EndsInSpace t := by
  constructor
  · intro h
    rcases List.eq_nil_or_concat t with rfl | ⟨u, c, rfl⟩
    · cases h
    · rw [List.concat_eq_append] at *
      rw [spaceEnd, List.getLast?_concat] at h
      exact ⟨u, c, rfl, by simpa using h⟩
  · rintro ⟨u, c, rfl, h⟩
    rw [spaceEnd, List.getLast?_concat]
    simpa using h

def imTextB (up : Char → Bool) (t : Spec.ImText) : Bool :=
  proseB up t.lead && (t.lead.isEmpty || spaceEnd t.lead) && t.parts.all (fun p => imageB p.1 p.2 && proseB up p.2) &&
  t.parts.dropLast.all (fun p => spaceEnd p.2) && (t.source.head? != none && t.source.head? != some ' ' && t.source.head? != some '\n') &&
  !spaceEnd t.source

theorem imText_of_B {up : Char → Bool} {t : Spec.ImText} (ha : ∀ p ∈ t.parts, p.1.atts.Ok) (h : imTextB up t = true) : t.Ok up := by
  simp only [imTextB, Bool.and_eq_true, List.all_eq_true, bne_iff_ne, ne_eq, Bool.or_eq_true, List.isEmpty_iff, Bool.not_eq_true'] at h
  obtain ⟨⟨⟨⟨⟨h1, h2⟩, h3⟩, h4⟩, ⟨h5, h6⟩, h7⟩, h8⟩ := h
  refine ⟨prose_of_B h1, fun _ => h2.imp id spaceEnd_iff.1, fun p hp => ⟨image_of_B (ha p hp) (h3 p hp).1, prose_of_B (h3 p hp).2⟩,
    fun p hp => spaceEnd_iff.1 (h4 p hp), ?_, fun h => ?_⟩
  · cases e : t.source with
    | nil => rw [e] at h5; exact absurd rfl h5
    | cons c u =>
      rw [e] at h6 h7
      exact ⟨c, u, rfl, by simpa using h6, by simpa using h7⟩
  · rw [spaceEnd_iff.2 h] at h8
    cases h8

def demoImage : Spec.Image where
  align := some .right
  groups := [.classes t!"photo" none, .style [t!"border:none"]]
  url := t!"/cat.png"
  src := t!"/cat.png"
  title := some t!"R&D's cat"
  link := some (t!"http://a.org/cats", t!"http://a.org/cats")

def demoIm : Spec.ImText := ⟨t!"See ", [(demoImage, t!"\nand "), ({ url := t!"http://a.org/b.png", src := t!"http://a.org/b.png" }, t!".")]⟩

def demoImDoc : List (Spec.ImBlock × Nat) := [(.para demoIm, 0), (.other (.para demoSg'), 0),
  (.quoted { align := some .center } ⟨[], [({ align := some .left, url := t!"x.png", src := t!"x.png" }, [])]⟩, 1)]

theorem demoImage_atts : demoImage.atts.Ok := by
  refine ⟨?_, by simp [demoImage, Spec.Image.atts, Spec.Group.kind]⟩
  intro g hg
  simp only [demoImage, Spec.Image.atts, List.mem_cons, List.not_mem_nil, or_false] at hg
  rcases hg with rfl | rfl
  · exact ⟨by unfold Spec.NameChar; decide, by decide, by simp⟩
  · refine ⟨by decide, ?_⟩
    simp only [List.mem_cons, List.not_mem_nil, or_false]
    rintro d rfl
    exact ⟨by decide, by decide, by decide, by unfold Spec.StyleChar Spec.NameChar; decide⟩

theorem demoIm_ok (r : Bool) (hr : r = false) : ∀ d ∈ demoImDoc, d.1.Ok demoUni.isLu demoUni.isNd false r := by
  subst hr
  intro d hd
  simp only [demoImDoc, List.mem_cons, List.not_mem_nil, or_false] at hd
  rcases hd with rfl | rfl | rfl
  · refine ⟨imText_of_B ?_ (by decide +kernel), noBlockStart_head (by decide), by decide⟩
    simp only [demoIm, List.mem_cons, List.not_mem_nil, or_false]
    rintro p (rfl | rfl)
    · exact demoImage_atts
    · exact ⟨by simp [Spec.Image.atts], by simp [Spec.Image.atts]⟩
  · exact ⟨sgText_of_B (by decide +kernel), by simp, noBlockStart_head (by decide), by decide⟩
  · refine ⟨imText_of_B ?_ (by decide +kernel), ⟨by simp, by simp⟩, fun _ => trivial, rfl, by decide⟩
    simp only [List.mem_cons, List.not_mem_nil, or_false]
    rintro p rfl
    exact ⟨by simp [Spec.Image.atts], by simp [Spec.Image.atts]⟩

theorem demoIm_res : ∀ d ∈ demoImDoc, d.1.Resolved (Spec.Resolves demoEnv.urlParse demoEnv.urlJoin false) (Spec.Reads demoEnv.urlParse demoEnv.urlJoin) none := by
  intro d hd
  simp only [demoImDoc, List.mem_cons, List.not_mem_nil, or_false] at hd
  rcases hd with rfl | rfl | rfl
  · intro p hp
    simp only [demoIm, List.mem_cons, List.not_mem_nil, or_false] at hp
    rcases hp with rfl | rfl
    · refine ⟨.inr (by decide), ?_⟩
      rintro l h
      injection h with h
      subst h
      exact .inl ⟨t!"http", by decide⟩
    · exact ⟨.inl ⟨t!"http", by decide, by decide⟩, by simp⟩
  · trivial
  · intro p hp
    simp only [List.mem_cons, List.not_mem_nil, or_false] at hp
    subst hp
    exact ⟨.inr (by decide), by simp⟩

/-- An image with alignment, attributes, a title and a link; and one in a quotation. -/
theorem C63_images_ex : parseFresh demoEnv 3 demoCfg
    t!"See !>(photo){border:none}/cat.png(R&D's cat)!:http://a.org/cats\nand !http://a.org/b.png!.\n\nR&D -- it's more\n\nbq=. !<x.png!" =
    .ok t!"<p>See <a href=\"http://a.org/cats\"><img alt=\"R&amp;D's cat\" class=\"photo align-right\" src=\"/cat.png\" style=\"border:none;\" title=\"R&amp;D's cat\" /></a><br>\nand <img alt=\"\" src=\"http://a.org/b.png\" />.</p>\n\n<p>R&amp;D &#8212; it&#8217;s more</p>\n\n<blockquote style=\"text-align:center;\">\n\t<p style=\"text-align:center;\"><img alt=\"\" class=\"align-left\" src=\"x.png\" /></p>\n</blockquote>" := by
  have := C63_images demoEnv UniOk.demo 3 (by decide) demoCfg t!"abc" plainBase_demo rfl rfl rfl rfl rfl rfl (by decide)
    _ demo_lowers (fun _ h => h) demoImDoc (by decide) (demoIm_ok _ rfl) (by decide +kernel) demoIm_res (by decide +kernel) (by decide)
  refine Eq.trans (Eq.trans ?_ this) ?_ <;> exact congrArg _ (by decide +kernel)

/-- The alternative text of the first image there. -/
theorem C64_alt_text_ex : ∃ out x v y u z, parseFresh demoEnv 3 demoCfg (Spec.imSource demoImDoc) = .ok out ∧
    t!"<img" ++ (x ++ (t!" alt=\"" ++ (v ++ (t!"\"" ++ (y ++ (t!" src=\"" ++ (u ++ (t!"\"" ++ (z ++ t!" />"))))))))) <:+: out ∧
    Spec.decode v = t!"R&D's cat" ∧ '"' ∉ v ∧ Spec.decode u = t!"/cat.png" ∧ '"' ∉ u :=
  C64_alt_text_partial demoEnv UniOk.demo 3 (by decide) demoCfg t!"abc" plainBase_demo rfl rfl rfl rfl rfl rfl (by decide)
    _ demo_lowers (fun _ h => h) demoImDoc (demoIm_ok _ rfl) (by decide +kernel) demoIm_res (by decide +kernel) (by decide)
    demoIm 0 (by simp [demoImDoc]) demoImage t!"\nand " (by simp [demoIm]) _ rfl (.inl rfl)

def demoLinked : Spec.Image where
  url := t!"/b.png"
  src := t!"/b.png"
  title := some t!"R&D"
  link := some (t!"http://a.org/c", t!"http://a.org/c")

def demoLinkedText : Spec.ImText := ⟨t!"See ", [(demoLinked, t!" here.")]⟩

/-- An image with a title and a link in restricted mode. -/
theorem C26_images_ex : ∃ out x u y, parseFresh demoEnv 3 { demoCfg with restricted := true } t!"See !/b.png(R&D)!:http://a.org/c here." = .ok out ∧
    t!"<img" ++ (x ++ (t!" src=\"" ++ (u ++ (t!"\"" ++ (y ++ t!" />"))))) <:+: out ∧ Spec.decode u = t!"/b.png" ∧ '"' ∉ u ∧ '<' ∉ u ∧
    ∀ l, demoLinked.link = some l → ∃ v, t!"<a href=\"" ++ (v ++ (t!"\"><img" ++ (x ++ (t!" src=\"" ++ (u ++ (t!"\"" ++ (y ++ t!" /></a>"))))))) <:+: out ∧
      Spec.decode v = l.2 ∧ '"' ∉ v ∧ '<' ∉ v := by
  have := C26_images_partial demoEnv UniOk.demo 3 (by decide) { demoCfg with restricted := true } t!"abc" plainBase_demo rfl rfl rfl rfl rfl rfl (by decide)
    _ demo_lowers (fun _ h => h) [(.para demoLinkedText, 0)] (by
      intro d hd
      simp only [List.mem_cons, List.not_mem_nil, or_false] at hd
      subst hd
      refine ⟨imText_of_B ?_ (by decide +kernel), noBlockStart_head (by decide), by decide⟩
      simp only [demoLinkedText, List.mem_cons, List.not_mem_nil, or_false]
      rintro p rfl
      exact ⟨by simp [Spec.Image.atts, demoLinked], by simp [Spec.Image.atts, demoLinked]⟩)
    (by decide +kernel) (by
      intro d hd
      simp only [List.mem_cons, List.not_mem_nil, or_false] at hd
      subst hd
      intro p hp
      simp only [demoLinkedText, List.mem_cons, List.not_mem_nil, or_false] at hp
      subst hp
      refine ⟨.inr (by decide), ?_⟩
      rintro l h
      injection h with h
      subst h
      exact .inl ⟨t!"http", by decide⟩) (by decide +kernel) (by decide)
    demoLinkedText 0 (by simp) demoLinked t!" here." (by simp [demoLinkedText]) rfl
  exact this

end Rustextile
