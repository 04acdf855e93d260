import Verif.ClassDoc
import Verif.Props.Caps

/-!
# Classes of marked parts: C78, C79, C80
-/

namespace Rustextile

open Prog

/-- **C78.** A document of paragraphs and headings in which marked parts have classes and identifiers, and of the blocks of C75, in any order. -/
theorem C78_classes (E : Env) (hU : UniOk E.U) (fuel : Nat) (hf : 3 ≤ fuel) (cfg : Cfg) (base : Str)
    (hb : Spec.PlainBase base) (huid : cfg.uid = t!"textileRef:" ++ base ++ t!":") (hp : cfg.linkPrefix = base ++ t!"-")
    (hcap : cfg.capsTempl = t!"$1<span class=\"caps\">" ++ cfg.uid ++ t!":glyph:$2</span>$3")
    (hz : cfg.getSizes = false) (hno : cfg.noimage = false)
    (hbt : cfg.blockTags = true) (hsan : cfg.sanitizer = none) (hdep : 1 ≤ cfg.maxSpanDepth)
    (ok : Char → Prop) (hL : Lowers E.U ok) (ha : ∀ c, c.toNat < 128 → ok c)
    (ds : List (Spec.ClassBlock × Nat)) (hne : ds ≠ []) (hok : ∀ d ∈ ds, d.1.Ok E.U.isLu E.U.isNd cfg.lite cfg.restricted)
    (hc : ∀ d ∈ ds, ∀ c ∈ d.1.chars, ok c)
    (hres : ∀ d ∈ ds, d.1.Resolved (Spec.Resolves E.urlParse E.urlJoin cfg.restricted) (Spec.Reads E.urlParse E.urlJoin) cfg.rel)
    (htok : ¬ cfg.uid <:+: Spec.classSource ds)
    (hn : Spec.classMarks ds < 2 ^ 31) :
    parseFresh E fuel cfg (Spec.classSource ds) =
      .ok (Spec.classDocHtml cfg.html5 (if cfg.html5 then t!"<br>" else t!"<br />") cfg.restricted (cfg.alignClass.getD cfg.html5) base ds) :=
  parse_classes (⟨hU, hf, hb, huid⟩ : DocCtx ⟨E, cfg, fuel⟩ base) hp hcap hz hno hbt hsan hdep ha hL hne hok hc hres htok (by omega)

/-! ## Parts -/

theorem classHtml_mem (h5 : Bool) (br base : Str) (restricted k : Bool) {b : Spec.ClassBlock} {n : Nat} : ∀ {ds : List (Spec.ClassBlock × Nat)} {N : Spec.Numbers} {M : Spec.Notes},
    (b, n) ∈ ds → ∃ N' M', (b.html h5 br restricted k base N' M', n) ∈ Spec.classHtml h5 br restricted k base N M ds
  | [], _, _, h => by cases h
  | d :: ds, N, M, h => by
    rcases List.mem_cons.1 h with rfl | h
    · exact ⟨N, M, by simp [Spec.classHtml]⟩
    · obtain ⟨N', M', h'⟩ := classHtml_mem h5 br base restricted k (ds := ds) (N := d.1.numbers N restricted) (M := d.1.notes M restricted) h
      exact ⟨N', M', by simp [Spec.classHtml, h']⟩

/-- The text of a block with marked parts. -/
def _root_.Spec.ClassBlock.text : Spec.ClassBlock → Option Spec.ClassText
  | .other _ => none
  | .para t => some t
  | .styled _ _ t => some t

/-- A marked part in its element, with the names of its classes and its identifier. -/
def _root_.Spec.ClassPart.named (p : Spec.ClassPart) : Str :=
  t!"<" ++ (Spec.inlineElement p.marker ++ ((match p.group with
    | none => []
    | some (n, i) => (if n = [] then [] else t!" class=\"" ++ (n ++ t!"\"")) ++ (match i with | none => [] | some j => t!" id=\"" ++ (j ++ t!"\""))) ++
    (t!">" ++ (p.text ++ (t!"</" ++ (Spec.inlineElement p.marker ++ t!">"))))))

/-- A marked part in its element. -/
def _root_.Spec.ClassPart.bare (p : Spec.ClassPart) : Str :=
  t!"<" ++ (Spec.inlineElement p.marker ++ (t!">" ++ (p.text ++ (t!"</" ++ (Spec.inlineElement p.marker ++ t!">")))))

theorem named_html (p : Spec.ClassPart) : p.html false = p.named := by
  unfold Spec.ClassPart.named Spec.ClassPart.html
  cases hg : p.group with
  | none => simp [Spec.elementWith, Spec.ClassPart.atts, hg, Spec.Atts.html, Spec.attr, Spec.Atts.cls, Spec.Atts.id, Spec.Atts.language, Spec.Atts.declarations, Spec.Atts.layout]
  | some q =>
    obtain ⟨n, i⟩ := q
    by_cases hn : n = [] <;> cases i <;>
      simp [Spec.elementWith, Spec.ClassPart.atts, hg, Spec.Atts.html, Spec.attr, Spec.Atts.cls, Spec.Atts.id, Spec.Atts.language, Spec.Atts.declarations, Spec.Atts.layout, hn]

theorem bare_html (p : Spec.ClassPart) : p.html true = p.bare := by
  unfold Spec.ClassPart.bare Spec.ClassPart.html
  cases hg : p.group <;>
    simp [Spec.elementWith, Spec.ClassPart.atts, hg, Spec.Atts.html, Spec.attr, Spec.Atts.language, Spec.Atts.layout]

theorem parts_order (br : Str) (r : Bool) : ∀ (ps : List Spec.ClassPart),
    Spec.InOrder (ps.map (fun p => p.html r)) (ps.flatMap (fun p => p.html r ++ Spec.breakLines br p.after))
  | [] => trivial
  | p :: ps => by
    have ih := parts_order br r ps
    rw [List.map_cons, List.flatMap_cons, List.append_assoc]
    refine ⟨[], Spec.breakLines br p.after ++ ps.flatMap (fun p => p.html r ++ Spec.breakLines br p.after), rfl, ?_⟩
    have := InOrder.within (Spec.breakLines br p.after) [] ih
    simpa using this

theorem class_within (h5 : Bool) (br base : Str) (restricted k : Bool) {ds : List (Spec.ClassBlock × Nat)} {b : Spec.ClassBlock} {t : Spec.ClassText} {n : Nat}
    (ht : (b, n) ∈ ds) (hb : b.text = some t) :
    Spec.InOrder (t.parts.map (fun p => p.html restricted)) (Spec.classDocHtml h5 br restricted k base ds) := by
  obtain ⟨N', M', h'⟩ := classHtml_mem h5 br base restricted k (N := fun _ => 1) (M := ⟨[], 0⟩) ht
  have hin : t.html br restricted <:+: Spec.classDocHtml h5 br restricted k base ds := by
    refine List.IsInfix.trans ?_ (glue_infix h')
    cases b with
    | other b => cases hb
    | para t' => cases hb; exact element_within _ _ _
    | styled tag a t' => cases hb; exact element_within _ _ _
  obtain ⟨x, y, e⟩ := hin
  rw [← e, List.append_assoc]
  refine InOrder.within x y ?_
  have := InOrder.within (Spec.breakLines br t.lead) [] (parts_order br restricted t.parts)
  simpa [Spec.ClassText.html] using this

/-- **C79 (partial).** In the documents of C78, the marked parts come out in order, each in its element with the classes and the
identifier given to it. -/
theorem C79_classes_kept_partial (E : Env) (hU : UniOk E.U) (fuel : Nat) (hf : 3 ≤ fuel) (cfg : Cfg) (base : Str)
    (hb : Spec.PlainBase base) (huid : cfg.uid = t!"textileRef:" ++ base ++ t!":") (hp : cfg.linkPrefix = base ++ t!"-")
    (hcap : cfg.capsTempl = t!"$1<span class=\"caps\">" ++ cfg.uid ++ t!":glyph:$2</span>$3")
    (hz : cfg.getSizes = false) (hno : cfg.noimage = false)
    (hbt : cfg.blockTags = true) (hsan : cfg.sanitizer = none) (hdep : 1 ≤ cfg.maxSpanDepth)
    (ok : Char → Prop) (hL : Lowers E.U ok) (ha : ∀ c, c.toNat < 128 → ok c)
    (ds : List (Spec.ClassBlock × Nat)) (hok : ∀ d ∈ ds, d.1.Ok E.U.isLu E.U.isNd cfg.lite cfg.restricted)
    (hc : ∀ d ∈ ds, ∀ c ∈ d.1.chars, ok c)
    (hres : ∀ d ∈ ds, d.1.Resolved (Spec.Resolves E.urlParse E.urlJoin cfg.restricted) (Spec.Reads E.urlParse E.urlJoin) cfg.rel)
    (htok : ¬ cfg.uid <:+: Spec.classSource ds)
    (hn : Spec.classMarks ds < 2 ^ 31) (hr : cfg.restricted = false) (b : Spec.ClassBlock) (n : Nat) (hm : (b, n) ∈ ds) (t : Spec.ClassText) (ht : b.text = some t) :
    ∃ out, parseFresh E fuel cfg (Spec.classSource ds) = .ok out ∧ Spec.InOrder (t.parts.map Spec.ClassPart.named) out := by
  refine ⟨_, C78_classes E hU fuel hf cfg base hb huid hp hcap hz hno hbt hsan hdep ok hL ha ds (List.ne_nil_of_mem hm) hok hc hres htok hn, ?_⟩
  rw [hr]
  have := class_within cfg.html5 (if cfg.html5 then t!"<br>" else t!"<br />") base false (cfg.alignClass.getD cfg.html5) hm ht
  simpa only [named_html] using this

/-- **C79 is false in general**: an identifier with a space in it is lost, and so is everything between the brackets if it has
quotation marks in it. -/
theorem C79_classes_kept_fails : parseFresh demoEnv 3 demoCfg t!"*(x#a b)one* and *(\"Ann\")two*" =
    .ok t!"<p><strong class=\"x\">one</strong> and <strong>two</strong></p>" := by kernel_rfl

/-- **C80 (partial).** In restricted mode, the marked parts of the documents of C78 come out in order, in elements without attributes. -/
theorem C80_classes_restricted_partial (E : Env) (hU : UniOk E.U) (fuel : Nat) (hf : 3 ≤ fuel) (cfg : Cfg) (base : Str)
    (hb : Spec.PlainBase base) (huid : cfg.uid = t!"textileRef:" ++ base ++ t!":") (hp : cfg.linkPrefix = base ++ t!"-")
    (hcap : cfg.capsTempl = t!"$1<span class=\"caps\">" ++ cfg.uid ++ t!":glyph:$2</span>$3")
    (hz : cfg.getSizes = false) (hno : cfg.noimage = false)
    (hbt : cfg.blockTags = true) (hsan : cfg.sanitizer = none) (hdep : 1 ≤ cfg.maxSpanDepth)
    (ok : Char → Prop) (hL : Lowers E.U ok) (ha : ∀ c, c.toNat < 128 → ok c)
    (ds : List (Spec.ClassBlock × Nat)) (hok : ∀ d ∈ ds, d.1.Ok E.U.isLu E.U.isNd cfg.lite cfg.restricted)
    (hc : ∀ d ∈ ds, ∀ c ∈ d.1.chars, ok c)
    (hres : ∀ d ∈ ds, d.1.Resolved (Spec.Resolves E.urlParse E.urlJoin cfg.restricted) (Spec.Reads E.urlParse E.urlJoin) cfg.rel)
    (htok : ¬ cfg.uid <:+: Spec.classSource ds)
    (hn : Spec.classMarks ds < 2 ^ 31) (hr : cfg.restricted = true) (b : Spec.ClassBlock) (n : Nat) (hm : (b, n) ∈ ds) (t : Spec.ClassText) (ht : b.text = some t) :
    ∃ out, parseFresh E fuel cfg (Spec.classSource ds) = .ok out ∧ Spec.InOrder (t.parts.map Spec.ClassPart.bare) out := by
  refine ⟨_, C78_classes E hU fuel hf cfg base hb huid hp hcap hz hno hbt hsan hdep ok hL ha ds (List.ne_nil_of_mem hm) hok hc hres htok hn, ?_⟩
  rw [hr]
  have := class_within cfg.html5 (if cfg.html5 then t!"<br>" else t!"<br />") base true (cfg.alignClass.getD cfg.html5) hm ht
  simpa only [bare_html] using this

/-! ## Examples -/

def demoClass : Spec.ClassText where
  lead := t!"Some "
  parts := [⟨t!"*", some (t!"big red", some t!"k1"), t!"bold words", t!" and\n"⟩, ⟨t!"_", none, t!"more", t!", then "⟩,
    ⟨t!"%", some ([], some t!"z"), t!"here", t!"."⟩]

def demoClassDoc : List (Spec.ClassBlock × Nat) := [(.para demoClass, 0),
  (.styled t!"h2" exShort ⟨[], [⟨t!"**", some (t!"c", none), t!"b", t!" now"⟩]⟩, 1), (.other (.para demoCaps), 0)]

theorem noNl_end {s : Str} (h : s.getLast? ≠ some '\n') : ∀ u, s ≠ u ++ ['\n'] := by
  rintro u rfl
  rw [List.getLast?_concat] at h
  exact h rfl

theorem demoClass_ok : demoClass.Ok demoUni.isLu false where
  plain := by
    refine ⟨prose_of_B (by decide +kernel), ?_, fun _ => .inr ⟨t!"Some", ' ', rfl, .inl rfl⟩, ?_, ⟨'S', _, rfl, by decide, by decide⟩, noNl_end (by decide +kernel)⟩
    · intro p hp
      simp only [Spec.ClassText.plain, demoClass, List.map_cons, List.map_nil, List.mem_cons, List.not_mem_nil, or_false] at hp
      rcases hp with rfl | rfl | rfl
      · exact ⟨⟨by decide, words_of_B (by decide), ⟨'b', _, rfl, by decide, by decide⟩, ⟨t!"bold word", 's', rfl, by decide⟩, .inl rfl⟩, prose_of_B (by decide)⟩
      · exact ⟨⟨by decide, words_of_B (by decide), ⟨'m', _, rfl, by decide, by decide⟩, ⟨t!"mor", 'e', rfl, by decide⟩, .inr (.inr ⟨.inr rfl, by decide, by decide, by decide⟩)⟩, prose_of_B (by decide)⟩
      · exact ⟨⟨by decide, words_of_B (by decide), ⟨'h', _, rfl, by decide, by decide⟩, ⟨t!"her", 'e', rfl, by decide⟩, .inr (.inr ⟨.inl rfl, rfl⟩)⟩, prose_of_B (by decide)⟩
    · intro p hp
      simp only [Spec.ClassText.plain, demoClass, List.map_cons, List.map_nil, List.dropLast, List.mem_cons, List.not_mem_nil, or_false] at hp
      rcases hp with rfl | rfl
      · exact ⟨t!" and", '\n', rfl, .inr rfl⟩
      · exact ⟨t!", then", ' ', rfl, .inl rfl⟩
  groups := by
    intro p hp n i e
    simp only [demoClass, List.mem_cons, List.not_mem_nil, or_false] at hp
    rcases hp with rfl | rfl | rfl
    · cases e; exact ⟨by decide, by decide, fun j hj => by cases hj; decide⟩
    · cases e
    · cases e; exact ⟨by decide, by decide, fun j hj => by cases hj; decide⟩

theorem demoClass_doc (r : Bool) : ∀ d ∈ demoClassDoc, d.1.Ok demoUni.isLu demoUni.isNd false r := by
  intro d hd
  simp only [demoClassDoc, List.mem_cons, List.not_mem_nil, or_false] at hd
  rcases hd with rfl | rfl | rfl
  · exact ⟨demoClass_ok, noBlockStart_head (by decide), by decide⟩
  · refine ⟨⟨⟨prose_of_B (by decide +kernel), ?_, fun _ => .inl rfl, by simp [Spec.ClassText.plain], ⟨'*', _, rfl, by decide, by decide⟩, noNl_end (by decide +kernel)⟩, ?_⟩,
      exShort_ok, ?_, rfl, by decide, fun h => absurd h (by decide)⟩
    · intro p hp
      simp only [Spec.ClassText.plain, List.map_cons, List.map_nil, List.mem_cons, List.not_mem_nil, or_false] at hp
      subst hp
      exact ⟨⟨by decide, words_of_B (by decide), ⟨'b', _, rfl, by decide, by decide⟩, ⟨[], 'b', rfl, by decide⟩, .inl rfl⟩, prose_of_B (by decide)⟩
    · intro p hp n i e
      simp only [List.mem_cons, List.not_mem_nil, or_false] at hp
      subst hp
      cases e; exact ⟨by decide, by decide, fun j hj => by cases hj⟩
    · exact fun _ => trivial
  · exact ⟨demoCaps_ok, noBlockStart_head (by decide), by decide⟩

theorem demoClass_res (r : Bool) : ∀ d ∈ demoClassDoc, d.1.Resolved (Spec.Resolves demoEnv.urlParse demoEnv.urlJoin r) (Spec.Reads demoEnv.urlParse demoEnv.urlJoin) none := by
  intro d hd
  simp only [demoClassDoc, List.mem_cons, List.not_mem_nil, or_false] at hd
  rcases hd with rfl | rfl | rfl <;> trivial

/-- Classes in a paragraph and in a heading, and a paragraph with capitals. -/
theorem C78_classes_ex : parseFresh demoEnv 3 demoCfg t!"Some *(big red#k1)bold words* and\n_more_, then %(#z)here%.\n\nh2(x#y)[en]. **(c)b** now\n\n\nA page of HTML(Hypertext markup LANGUAGE), with\nCSS and URLs." =
    .ok t!"<p>Some <strong class=\"big red\" id=\"k1\">bold words</strong> and<br>\n<em>more</em>, then <span id=\"z\">here</span>.</p>\n\n<h2 class=\"x\" id=\"y\" lang=\"en\"><b class=\"c\">b</b> now</h2>\n\n\n<p>A page of <abbr title=\"Hypertext markup LANGUAGE\"><span class=\"caps\">HTML</span></abbr>, with<br>\n<span class=\"caps\">CSS</span> and <span class=\"caps\">URL</span>s.</p>" := by
  have := C78_classes demoEnv UniOk.demo 3 (by decide) demoCfg t!"abc" plainBase_demo rfl rfl rfl rfl rfl rfl rfl (by decide)
    _ demo_lowers (fun _ h => h) demoClassDoc (by decide) (demoClass_doc _) (by decide +kernel) (demoClass_res _) (by decide +kernel) (by decide)
  refine Eq.trans (Eq.trans ?_ this) ?_ <;> exact congrArg _ (by decide +kernel)

/-- The paragraph there. -/
theorem C79_classes_kept_ex : ∃ out, parseFresh demoEnv 3 demoCfg (Spec.classSource demoClassDoc) = .ok out ∧
    Spec.InOrder [t!"<strong class=\"big red\" id=\"k1\">bold words</strong>", t!"<em>more</em>", t!"<span id=\"z\">here</span>"] out :=
  C79_classes_kept_partial demoEnv UniOk.demo 3 (by decide) demoCfg t!"abc" plainBase_demo rfl rfl rfl rfl rfl rfl rfl (by decide)
    _ demo_lowers (fun _ h => h) demoClassDoc (demoClass_doc _) (by decide +kernel) (demoClass_res _) (by decide +kernel) (by decide) rfl
    (.para demoClass) 0 (by simp [demoClassDoc]) demoClass rfl

/-- The same in restricted mode. -/
theorem C80_classes_restricted_ex : ∃ out, parseFresh demoEnv 3 { demoCfg with restricted := true } (Spec.classSource demoClassDoc) = .ok out ∧
    Spec.InOrder [t!"<strong>bold words</strong>", t!"<em>more</em>", t!"<span>here</span>"] out :=
  C80_classes_restricted_partial demoEnv UniOk.demo 3 (by decide) { demoCfg with restricted := true } t!"abc" plainBase_demo rfl rfl rfl rfl rfl rfl rfl (by decide)
    _ demo_lowers (fun _ h => h) demoClassDoc (demoClass_doc _) (by decide +kernel) (demoClass_res _) (by decide +kernel) (by decide) rfl
    (.para demoClass) 0 (by simp [demoClassDoc]) demoClass rfl

end Rustextile
