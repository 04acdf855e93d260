import Verif.DefDoc
import Verif.Props.Cells

/-!
# Definition lists: C72, C73, C74
-/

namespace Rustextile

open Prog

/-- **C72.** A document of definition lists and of the blocks of C69, in any order. -/
theorem C72_definition_lists (E : Env) (hU : UniOk E.U) (fuel : Nat) (hf : 3 ≤ fuel) (cfg : Cfg) (base : Str)
    (hb : Spec.PlainBase base) (huid : cfg.uid = t!"textileRef:" ++ base ++ t!":") (hp : cfg.linkPrefix = base ++ t!"-")
    (hz : cfg.getSizes = false) (hno : cfg.noimage = false)
    (hbt : cfg.blockTags = true) (hsan : cfg.sanitizer = none) (hdep : 1 ≤ cfg.maxSpanDepth)
    (ok : Char → Prop) (hL : Lowers E.U ok) (ha : ∀ c, c.toNat < 128 → ok c)
    (ds : List (Spec.DlBlock × Nat)) (hne : ds ≠ []) (hok : ∀ d ∈ ds, d.1.Ok E.U.isLu E.U.isNd cfg.lite cfg.restricted)
    (hc : ∀ d ∈ ds, ∀ c ∈ d.1.chars, ok c)
    (hres : ∀ d ∈ ds, d.1.Resolved (Spec.Resolves E.urlParse E.urlJoin cfg.restricted) (Spec.Reads E.urlParse E.urlJoin) cfg.rel)
    (htok : ¬ cfg.uid <:+: Spec.dlsSource ds)
    (hn : Spec.dlsMarks ds < 2 ^ 31) :
    parseFresh E fuel cfg (Spec.dlsSource ds) =
      .ok (Spec.dlsDocHtml (if cfg.html5 then t!"<br>" else t!"<br />") cfg.restricted (cfg.alignClass.getD cfg.html5) base ds) :=
  parse_dlists (⟨hU, hf, hb, huid⟩ : DocCtx ⟨E, cfg, fuel⟩ base) hp hz hno hbt hsan hdep ha hL hne hok hc hres htok (by omega)

/-! ## Terms -/

theorem dlsHtml_mem (br base : Str) (restricted k : Bool) {b : Spec.DlBlock} {n : Nat} : ∀ {ds : List (Spec.DlBlock × Nat)} {N : Spec.Numbers} {M : Spec.Notes},
    (b, n) ∈ ds → ∃ N' M', (b.html br restricted k base N' M', n) ∈ Spec.dlsHtml br restricted k base N M ds
  | [], _, _, h => by cases h
  | d :: ds, N, M, h => by
    rcases List.mem_cons.1 h with rfl | h
    · exact ⟨N, M, by simp [Spec.dlsHtml]⟩
    · obtain ⟨N', M', h'⟩ := dlsHtml_mem br base restricted k (ds := ds) (N := d.1.numbers N restricted) (M := d.1.notes M restricted) h
      exact ⟨N', M', by simp [Spec.dlsHtml, h']⟩

theorem dlist_within (br base : Str) (restricted k : Bool) {ds : List (Spec.DlBlock × Nat)} {l : Spec.DList} {n : Nat}
    (ht : (.dlist l, n) ∈ ds) : Spec.dlHtml restricted l <:+: Spec.dlsDocHtml br restricted k base ds := by
  obtain ⟨N', M', h'⟩ := dlsHtml_mem br base restricted k (N := fun _ => 1) (M := ⟨[], 0⟩) ht
  exact glue_infix h'

/-- What a reader should find of a term: its text, and its definition right after it. -/
def _root_.Spec.termParts (i : Spec.DItem) : Str :=
  t!">" ++ (i.term ++ (t!"</dt>" ++ (match i.definition with | none => [] | some d => t!"\n\t<dd>" ++ (d ++ t!"</dd>"))))

theorem terms_ordered (r : Bool) : ∀ l : Spec.DList, Spec.InOrder (l.map Spec.termParts) (l.flatMap (Spec.DItem.html r))
  | [] => trivial
  | i :: l => by
    rw [List.map_cons, List.flatMap_cons]
    refine ⟨t!"\n\t<dt" ++ i.atts r, l.flatMap (Spec.DItem.html r), ?_, terms_ordered r l⟩
    cases e : i.definition <;> simp [Spec.DItem.html, Spec.elementWith, Spec.termParts, e]

/-- **C73 (partial).** In the documents of C72, the terms of a definition list come out in order, each with its definition right after it. -/
theorem C73_terms_kept_partial (E : Env) (hU : UniOk E.U) (fuel : Nat) (hf : 3 ≤ fuel) (cfg : Cfg) (base : Str)
    (hb : Spec.PlainBase base) (huid : cfg.uid = t!"textileRef:" ++ base ++ t!":") (hp : cfg.linkPrefix = base ++ t!"-")
    (hz : cfg.getSizes = false) (hno : cfg.noimage = false)
    (hbt : cfg.blockTags = true) (hsan : cfg.sanitizer = none) (hdep : 1 ≤ cfg.maxSpanDepth)
    (ok : Char → Prop) (hL : Lowers E.U ok) (ha : ∀ c, c.toNat < 128 → ok c)
    (ds : List (Spec.DlBlock × Nat)) (hok : ∀ d ∈ ds, d.1.Ok E.U.isLu E.U.isNd cfg.lite cfg.restricted)
    (hc : ∀ d ∈ ds, ∀ c ∈ d.1.chars, ok c)
    (hres : ∀ d ∈ ds, d.1.Resolved (Spec.Resolves E.urlParse E.urlJoin cfg.restricted) (Spec.Reads E.urlParse E.urlJoin) cfg.rel)
    (htok : ¬ cfg.uid <:+: Spec.dlsSource ds)
    (hn : Spec.dlsMarks ds < 2 ^ 31) (l : Spec.DList) (n : Nat) (hl : (.dlist l, n) ∈ ds) :
    ∃ out, parseFresh E fuel cfg (Spec.dlsSource ds) = .ok out ∧
      Spec.InOrder (l.map Spec.termParts) out := by
  have hdoc := C72_definition_lists E hU fuel hf cfg base hb huid hp hz hno hbt hsan hdep ok hL ha ds (List.ne_nil_of_mem hl) hok hc hres htok hn
  obtain ⟨a, b, e⟩ := dlist_within (if cfg.html5 then t!"<br>" else t!"<br />") base cfg.restricted (cfg.alignClass.getD cfg.html5) hl
  refine ⟨_, hdoc, ?_⟩
  rw [← e, List.append_assoc]
  refine InOrder.within a b ?_
  have := InOrder.within (t!"<dl" ++ (Spec.dlAtts cfg.restricted l ++ t!">")) t!"\n</dl>" (terms_ordered cfg.restricted l)
  simpa [Spec.dlHtml, Spec.elementWith] using this

/-- **C73 is false in general**: a line of the list without a blank after its dash vanishes, and so does a definition without a term. -/
theorem C73_terms_kept_fails : parseFresh demoEnv 3 demoCfg t!"- a := b\n-c\n- d := e\n- := f" =
    .ok t!"<dl>\n\t<dt>a</dt>\n\t<dd>b</dd>\n\t<dt>d</dt>\n\t<dd>e</dd>\n</dl>" := by kernel_rfl

/-- **C74 (partial).** In the documents of C72, a term has the language that was written for it, and outside restricted mode its classes and its
identifier; and the list itself has no attributes, if its first term has a definition. -/
theorem C74_term_attributes_partial (E : Env) (hU : UniOk E.U) (fuel : Nat) (hf : 3 ≤ fuel) (cfg : Cfg) (base : Str)
    (hb : Spec.PlainBase base) (huid : cfg.uid = t!"textileRef:" ++ base ++ t!":") (hp : cfg.linkPrefix = base ++ t!"-")
    (hz : cfg.getSizes = false) (hno : cfg.noimage = false)
    (hbt : cfg.blockTags = true) (hsan : cfg.sanitizer = none) (hdep : 1 ≤ cfg.maxSpanDepth)
    (ok : Char → Prop) (hL : Lowers E.U ok) (ha : ∀ c, c.toNat < 128 → ok c)
    (ds : List (Spec.DlBlock × Nat)) (hok : ∀ d ∈ ds, d.1.Ok E.U.isLu E.U.isNd cfg.lite cfg.restricted)
    (hc : ∀ d ∈ ds, ∀ c ∈ d.1.chars, ok c)
    (hres : ∀ d ∈ ds, d.1.Resolved (Spec.Resolves E.urlParse E.urlJoin cfg.restricted) (Spec.Reads E.urlParse E.urlJoin) cfg.rel)
    (htok : ¬ cfg.uid <:+: Spec.dlsSource ds)
    (hn : Spec.dlsMarks ds < 2 ^ 31) (l : Spec.DList) (n : Nat) (hl : (.dlist l, n) ∈ ds) :
    ∃ out, parseFresh E fuel cfg (Spec.dlsSource ds) = .ok out ∧
      (∀ i ∈ l, ∃ atts, t!"<dt" ++ (atts ++ (t!">" ++ (i.term ++ t!"</dt>"))) <:+: out ∧
        (∀ g, i.lang = some g → t!" lang=\"" ++ (g ++ t!"\"") <:+: atts) ∧
        (cfg.restricted = false → ∀ p x, i.cls = some (p, x) → p ≠ [] → t!" class=\"" ++ (p ++ t!"\"") <:+: atts) ∧
        (cfg.restricted = false → ∀ p x, i.cls = some (p, some x) → t!" id=\"" ++ (x ++ t!"\"") <:+: atts)) ∧
      (∀ i l', l = i :: l' → i.definition ≠ none →
        ∃ atts, t!"<dl>\n\t<dt" ++ (atts ++ (t!">" ++ (i.term ++ t!"</dt>"))) <:+: out) := by
  have hdoc := C72_definition_lists E hU fuel hf cfg base hb huid hp hz hno hbt hsan hdep ok hL ha ds (List.ne_nil_of_mem hl) hok hc hres htok hn
  have hw := dlist_within (if cfg.html5 then t!"<br>" else t!"<br />") base cfg.restricted (cfg.alignClass.getD cfg.html5) hl
  have step : ∀ {x a b : Str}, x <:+: b → x <:+: a ++ b := fun h => h.trans right_infix
  have here : ∀ {x a b : Str}, x <:+: a → x <:+: a ++ b := fun h => h.trans left_infix
  refine ⟨_, hdoc, ?_, ?_⟩
  · intro i hi
    refine ⟨i.atts cfg.restricted, ?_, ?_, ?_, ?_⟩
    · refine List.IsInfix.trans ?_ hw
      unfold Spec.dlHtml
      refine List.IsInfix.trans ?_ (element_within _ _ _)
      refine here (List.IsInfix.trans ?_ (infix_flat hi))
      unfold Spec.DItem.html
      exact step (here ⟨[], [], by simp [Spec.elementWith]⟩)
    · intro g hm
      unfold Spec.DItem.atts Spec.Look.html
      refine step (step (step (here ?_)))
      rw [show i.look.lang = i.lang from rfl, hm]
      exact ⟨[], [], by simp [Spec.attr]⟩
    · intro hres p x hm hp
      unfold Spec.DItem.atts Spec.Look.html
      refine here ?_
      have e : i.look.atts.cls = some p := by simp [Spec.DItem.look, Spec.Look.atts, Spec.Atts.cls, hm, hp]
      rw [hres, e]
      exact ⟨[], [], by simp [Spec.attr]⟩
    · intro hres p x hm
      unfold Spec.DItem.atts Spec.Look.html
      refine step (step (here ?_))
      have e : i.look.atts.id = some x := by simp [Spec.DItem.look, Spec.Look.atts, Spec.Atts.id, hm]
      rw [hres, e]
      exact ⟨[], [], by simp [Spec.attr]⟩
  · rintro i l' rfl hd
    refine ⟨i.atts cfg.restricted, List.IsInfix.trans ?_ hw⟩
    cases e : i.definition with
    | none => exact absurd e hd
    | some d =>
      refine ⟨[], t!"\n\t<dd>" ++ (d ++ (t!"</dd>" ++ (l'.flatMap (Spec.DItem.html cfg.restricted) ++ t!"\n</dl>"))), ?_⟩
      simp [Spec.dlHtml, Spec.dlAtts, e, Spec.DItem.html, Spec.elementWith]

/-- **C74 is false in general**: the attributes of a first term without definition are given to the list too, so that there are
two elements with the same identifier. -/
theorem C74_term_attributes_fails : parseFresh demoEnv 3 demoCfg t!"-(#x). a\n- b := c" =
    .ok t!"<dl id=\"x\">\n\t<dt id=\"x\">a</dt>\n\t<dt>b</dt>\n\t<dd>c</dd>\n</dl>" := by kernel_rfl

/-! ## Examples -/

def demoDItem : Spec.DItem where
  cls := some (t!"top", some t!"t1")
  lang := some t!"en"
  term := t!"Mass"
  definition := some t!"what a thing weighs"

def demoDList : Spec.DList := [demoDItem, { term := t!"Water" }, { term := t!"Milk", definition := some t!"a drink" }]

def demoDlDoc : List (Spec.DlBlock × Nat) := [(.dlist demoDList, 0), (.other (.other (.other (.para demoSg'))), 1),
  (.dlist [{ cls := some (t!"", some t!"x"), term := t!"one" }, { term := t!"two", definition := some t!"three" }], 0)]

theorem demoDl_ok : ∀ d ∈ demoDlDoc, d.1.Ok demoUni.isLu demoUni.isNd false false := by
  intro d hd
  simp only [demoDlDoc, List.mem_cons, List.not_mem_nil, or_false] at hd
  rcases hd with rfl | rfl | rfl
  · refine ⟨rfl, ?_, demoDItem, by simp [demoDList], by decide⟩
    intro i hi
    simp only [demoDList, List.mem_cons, List.not_mem_nil, or_false] at hi
    rcases hi with rfl | rfl | rfl
    · exact ⟨look_of_B (by decide +kernel), ⟨label_of_B (by decide +kernel) (by decide) (by decide), by decide⟩,
        by rintro d ⟨⟩; exact ⟨label_of_B (by decide +kernel) (by decide) (by decide), by decide⟩⟩
    · exact ⟨look_of_B (by decide +kernel), ⟨label_of_B (by decide +kernel) (by decide) (by decide), by decide⟩, by rintro d ⟨⟩⟩
    · exact ⟨look_of_B (by decide +kernel), ⟨label_of_B (by decide +kernel) (by decide) (by decide), by decide⟩,
        by rintro d ⟨⟩; exact ⟨label_of_B (by decide +kernel) (by decide) (by decide), by decide⟩⟩
  · exact ⟨sgText_of_B (by decide +kernel), by simp, noBlockStart_head (by decide), by decide⟩
  · refine ⟨rfl, ?_, _, List.mem_cons_of_mem _ (List.mem_cons_self ..), by decide⟩
    intro i hi
    simp only [List.mem_cons, List.not_mem_nil, or_false] at hi
    rcases hi with rfl | rfl
    · exact ⟨look_of_B (by decide +kernel), ⟨label_of_B (by decide +kernel) (by decide) (by decide), by decide⟩, by rintro d ⟨⟩⟩
    · exact ⟨look_of_B (by decide +kernel), ⟨label_of_B (by decide +kernel) (by decide) (by decide), by decide⟩,
        by rintro d ⟨⟩; exact ⟨label_of_B (by decide +kernel) (by decide) (by decide), by decide⟩⟩

theorem demoDl_res : ∀ d ∈ demoDlDoc, d.1.Resolved (Spec.Resolves demoEnv.urlParse demoEnv.urlJoin false) (Spec.Reads demoEnv.urlParse demoEnv.urlJoin) none := by
  intro d hd
  simp only [demoDlDoc, List.mem_cons, List.not_mem_nil, or_false] at hd
  rcases hd with rfl | rfl | rfl <;> trivial

/-- Two lists. -/
theorem C72_definition_lists_ex : parseFresh demoEnv 3 demoCfg t!"-(top#t1)[en]. Mass := what a thing weighs\n- Water\n- Milk := a drink\n\nR&D -- it's more\n\n\n-(#x). one\n- two := three" =
    .ok t!"<dl>\n\t<dt class=\"top\" id=\"t1\" lang=\"en\">Mass</dt>\n\t<dd>what a thing weighs</dd>\n\t<dt>Water</dt>\n\t<dt>Milk</dt>\n\t<dd>a drink</dd>\n</dl>\n\n<p>R&amp;D &#8212; it&#8217;s more</p>\n\n\n<dl id=\"x\">\n\t<dt id=\"x\">one</dt>\n\t<dt>two</dt>\n\t<dd>three</dd>\n</dl>" := by
  have := C72_definition_lists demoEnv UniOk.demo 3 (by decide) demoCfg t!"abc" plainBase_demo rfl rfl rfl rfl rfl rfl (by decide)
    _ demo_lowers (fun _ h => h) demoDlDoc (by decide) demoDl_ok (by decide +kernel) demoDl_res (by decide +kernel) (by decide)
  refine Eq.trans (Eq.trans ?_ this) ?_ <;> exact congrArg _ (by decide +kernel)

/-- The first list there. -/
theorem C73_terms_kept_ex : ∃ out, parseFresh demoEnv 3 demoCfg (Spec.dlsSource demoDlDoc) = .ok out ∧
    Spec.InOrder [t!">Mass</dt>\n\t<dd>what a thing weighs</dd>", t!">Water</dt>", t!">Milk</dt>\n\t<dd>a drink</dd>"] out :=
  C73_terms_kept_partial demoEnv UniOk.demo 3 (by decide) demoCfg t!"abc" plainBase_demo rfl rfl rfl rfl rfl rfl (by decide)
    _ demo_lowers (fun _ h => h) demoDlDoc demoDl_ok (by decide +kernel) demoDl_res (by decide +kernel) (by decide)
    demoDList 0 (by simp [demoDlDoc])

/-- Its first term. -/
theorem C74_term_attributes_ex : ∃ out, parseFresh demoEnv 3 demoCfg (Spec.dlsSource demoDlDoc) = .ok out ∧
    (∃ atts, t!"<dt" ++ (atts ++ t!">Mass</dt>") <:+: out ∧ t!" lang=\"en\"" <:+: atts ∧ t!" class=\"top\"" <:+: atts ∧ t!" id=\"t1\"" <:+: atts) ∧
    ∃ atts, t!"<dl>\n\t<dt" ++ (atts ++ t!">Mass</dt>") <:+: out := by
  obtain ⟨out, h, h1, h2⟩ := C74_term_attributes_partial demoEnv UniOk.demo 3 (by decide) demoCfg t!"abc" plainBase_demo rfl rfl rfl rfl rfl rfl (by decide)
    _ demo_lowers (fun _ h => h) demoDlDoc demoDl_ok (by decide +kernel) demoDl_res (by decide +kernel) (by decide)
    demoDList 0 (by simp [demoDlDoc])
  obtain ⟨atts, k, k1, k2, k3⟩ := h1 demoDItem (by simp [demoDList])
  exact ⟨out, h, ⟨atts, k, k1 _ rfl, k2 rfl _ _ rfl (by decide), k3 rfl _ _ rfl⟩, h2 _ _ rfl (by decide)⟩

end Rustextile
