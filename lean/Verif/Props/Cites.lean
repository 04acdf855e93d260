import Verif.CiteDoc
import Verif.Props.Classes

/-!
# Quotations with the address of their source: C81, C82
-/

namespace Rustextile

open Prog

/-- **C81.** A document of quotations with attributes and addresses, and of the blocks of C78, in any order. -/
theorem C81_citations (E : Env) (hU : UniOk E.U) (fuel : Nat) (hf : 3 ≤ fuel) (cfg : Cfg) (base : Str)
    (hb : Spec.PlainBase base) (huid : cfg.uid = t!"textileRef:" ++ base ++ t!":") (hp : cfg.linkPrefix = base ++ t!"-")
    (hcap : cfg.capsTempl = t!"$1<span class=\"caps\">" ++ cfg.uid ++ t!":glyph:$2</span>$3")
    (hz : cfg.getSizes = false) (hno : cfg.noimage = false)
    (hbt : cfg.blockTags = true) (hsan : cfg.sanitizer = none) (hdep : 1 ≤ cfg.maxSpanDepth)
    (ok : Char → Prop) (hL : Lowers E.U ok) (ha : ∀ c, c.toNat < 128 → ok c)
    (ds : List (Spec.CiteBlock × Nat)) (hne : ds ≠ []) (hok : ∀ d ∈ ds, d.1.Ok E.U.isLu E.U.isNd cfg.lite cfg.restricted)
    (hc : ∀ d ∈ ds, ∀ c ∈ d.1.chars, ok c)
    (hres : ∀ d ∈ ds, d.1.Resolved (Spec.Resolves E.urlParse E.urlJoin cfg.restricted) (Spec.Reads E.urlParse E.urlJoin) cfg.rel)
    (htok : ¬ cfg.uid <:+: Spec.citeSource ds)
    (hn : Spec.citeMarks ds < 2 ^ 31) :
    parseFresh E fuel cfg (Spec.citeSource ds) =
      .ok (Spec.citeDocHtml cfg.html5 (if cfg.html5 then t!"<br>" else t!"<br />") cfg.restricted (cfg.alignClass.getD cfg.html5) base ds) :=
  parse_cites (⟨hU, hf, hb, huid⟩ : DocCtx ⟨E, cfg, fuel⟩ base) hp hcap hz hno hbt hsan hdep ha hL hne hok hc hres htok (by omega)

theorem citeHtml_mem (h5 : Bool) (br base : Str) (restricted k : Bool) {b : Spec.CiteBlock} {n : Nat} : ∀ {ds : List (Spec.CiteBlock × Nat)} {N : Spec.Numbers} {M : Spec.Notes},
    (b, n) ∈ ds → ∃ N' M', (b.html h5 br restricted k base N' M', n) ∈ Spec.citeHtml h5 br restricted k base N M ds
  | [], _, _, h => by cases h
  | d :: ds, N, M, h => by
    rcases List.mem_cons.1 h with rfl | h
    · exact ⟨N, M, by simp [Spec.citeHtml]⟩
    · obtain ⟨N', M', h'⟩ := citeHtml_mem h5 br base restricted k (ds := ds) (N := d.1.numbers N restricted) (M := d.1.notes M restricted) h
      exact ⟨N', M', by simp [Spec.citeHtml, h']⟩

/-- **C82 (partial).** In the documents of C81, every quotation with an address becomes a `blockquote` element with a `cite`
attribute; its value ends at the quotation mark written to end it, and is the address for a reader of the HTML. -/
theorem C82_address_kept_partial (E : Env) (hU : UniOk E.U) (fuel : Nat) (hf : 3 ≤ fuel) (cfg : Cfg) (base : Str)
    (hb : Spec.PlainBase base) (huid : cfg.uid = t!"textileRef:" ++ base ++ t!":") (hp : cfg.linkPrefix = base ++ t!"-")
    (hcap : cfg.capsTempl = t!"$1<span class=\"caps\">" ++ cfg.uid ++ t!":glyph:$2</span>$3")
    (hz : cfg.getSizes = false) (hno : cfg.noimage = false)
    (hbt : cfg.blockTags = true) (hsan : cfg.sanitizer = none) (hdep : 1 ≤ cfg.maxSpanDepth)
    (ok : Char → Prop) (hL : Lowers E.U ok) (ha : ∀ c, c.toNat < 128 → ok c)
    (ds : List (Spec.CiteBlock × Nat)) (hok : ∀ d ∈ ds, d.1.Ok E.U.isLu E.U.isNd cfg.lite cfg.restricted)
    (hc : ∀ d ∈ ds, ∀ c ∈ d.1.chars, ok c)
    (hres : ∀ d ∈ ds, d.1.Resolved (Spec.Resolves E.urlParse E.urlJoin cfg.restricted) (Spec.Reads E.urlParse E.urlJoin) cfg.rel)
    (htok : ¬ cfg.uid <:+: Spec.citeSource ds)
    (hn : Spec.citeMarks ds < 2 ^ 31) (q : Spec.Cited) (n : Nat) (hm : (.cited q, n) ∈ ds) :
    ∃ out u att x, parseFresh E fuel cfg (Spec.citeSource ds) = .ok out ∧
      t!"<blockquote cite=\"" ++ (u ++ (t!"\"" ++ (att ++ (t!">" ++ (x ++ t!"</blockquote>"))))) <:+: out ∧
      Spec.decode u = q.href ∧ (∀ c ∈ u, c ≠ '"' ∧ c ≠ '<') := by
  obtain ⟨N', M', h'⟩ := citeHtml_mem cfg.html5 (if cfg.html5 then t!"<br>" else t!"<br />") base cfg.restricted (cfg.alignClass.getD cfg.html5)
    (N := fun _ => 1) (M := ⟨[], 0⟩) hm
  refine ⟨_, Spec.escape true q.href, q.atts.html cfg.restricted,
    t!"\n\t" ++ (Spec.elementWith t!"p" (q.atts.html cfg.restricted) ((q.body cfg.restricted).html (if cfg.html5 then t!"<br>" else t!"<br />")) ++ t!"\n"),
    C81_citations E hU fuel hf cfg base hb huid hp hcap hz hno hbt hsan hdep ok hL ha ds (List.ne_nil_of_mem hm) hok hc hres htok hn, ?_, decode_escape _ _, ?_⟩
  · refine List.IsInfix.trans ⟨[], [], ?_⟩ (glue_infix h')
    simp [Spec.CiteBlock.html, Spec.Cited.html, Spec.elementWith, Spec.attr]
  · intro c hc
    constructor
    · rintro rfl; exact escape_noquote (.inl rfl) hc
    · rintro rfl; exact escape_notag _ _ hc

/-- **C82 is false in general**: in restricted mode, an ampersand in the address makes `parse` panic. -/
theorem C82_address_kept_fails : parseFresh demoEnv 3 { demoCfg with restricted := true } t!"bq.:a?b&c d" =
    .error (.panic t!"Entity must be part of the regular expression") := by kernel_rfl

/-- **C82 is false in general**: for other blocks, the address is lost. -/
theorem C82_address_kept_fails_heading : parseFresh demoEnv 3 demoCfg t!"h1.:http://a.com/x text" = .ok t!"<h1>text</h1>" := by kernel_rfl

/-- **C27, negation.** The address of a quotation is not checked, not even in restricted mode. -/
theorem C27_negation_quotation : parseFresh demoEnv 3 { demoCfg with restricted := true } t!"bq.:javascript:x text" =
    .ok t!"<blockquote cite=\"javascript:x\">\n\t<p>text</p>\n</blockquote>" := by kernel_rfl

/-! ## Examples -/

def demoCited : Spec.Cited where
  atts := exShort
  url := t!"http://a.com/x?a=b&c=(d)"
  href := t!"http://a.com/x?a=b&c=(d)"
  text := ⟨t!"Fish ", [⟨.marked t!"_" t!"and", t!"\nchips"⟩]⟩

theorem demoCited_text : demoCited.text.Ok demoUni.isLu false := by
  refine ⟨prose_of_B (by decide), ?_, fun _ => .inr ⟨t!"Fish", ' ', rfl, .inl rfl⟩, by simp [demoCited], ⟨'F', _, rfl, by decide, by decide⟩, noNl_end (by decide +kernel)⟩
  intro p hp
  simp only [demoCited, List.mem_cons, List.not_mem_nil, or_false] at hp
  subst hp
  exact ⟨⟨by decide, words_of_B (by decide), ⟨'a', _, rfl, by decide, by decide⟩, ⟨t!"an", 'd', rfl, by decide⟩, .inr (.inl rfl)⟩, prose_of_B (by decide)⟩

theorem demoCited_ok : demoCited.Ok demoUni.isLu false false where
  text := demoCited_text
  atts := exShort_ok
  written := fun _ => trivial
  before := .inl rfl
  nolist := by decide
  url := by decide
  plain := fun h => absurd h (by decide)
  href := by intro c hc; revert c; decide

def demoCiteDoc : List (Spec.CiteBlock × Nat) := [(.cited demoCited, 0), (.other (.para demoClass), 0)]

theorem demoCite_doc : ∀ d ∈ demoCiteDoc, d.1.Ok demoUni.isLu demoUni.isNd false false := by
  intro d hd
  simp only [demoCiteDoc, List.mem_cons, List.not_mem_nil, or_false] at hd
  rcases hd with rfl | rfl
  · exact demoCited_ok
  · exact ⟨demoClass_ok, noBlockStart_head (by decide), by decide⟩

theorem demoCite_res : ∀ d ∈ demoCiteDoc, d.1.Resolved (Spec.Resolves demoEnv.urlParse demoEnv.urlJoin false) (Spec.Reads demoEnv.urlParse demoEnv.urlJoin) none := by
  intro d hd
  simp only [demoCiteDoc, List.mem_cons, List.not_mem_nil, or_false] at hd
  rcases hd with rfl | rfl
  · refine ⟨.inl ⟨t!"http", by decide +kernel⟩, ?_⟩
    intro p hp
    simp only [demoCited, List.mem_cons, List.not_mem_nil, or_false] at hp
    subst hp
    trivial
  · trivial

/-- A quotation with attributes, an address and marked parts, and a paragraph. -/
theorem C81_citations_ex : parseFresh demoEnv 3 demoCfg t!"bq(x#y)[en].:http://a.com/x?a=b&c=(d) Fish _and_\nchips\n\nSome *(big red#k1)bold words* and\n_more_, then %(#z)here%." =
    .ok t!"<blockquote cite=\"http://a.com/x?a=b&amp;c=(d)\" class=\"x\" id=\"y\" lang=\"en\">\n\t<p class=\"x\" id=\"y\" lang=\"en\">Fish <em>and</em><br>\nchips</p>\n</blockquote>\n\n<p>Some <strong class=\"big red\" id=\"k1\">bold words</strong> and<br>\n<em>more</em>, then <span id=\"z\">here</span>.</p>" := by
  have := C81_citations demoEnv UniOk.demo 3 (by decide) demoCfg t!"abc" plainBase_demo rfl rfl rfl rfl rfl rfl rfl (by decide)
    _ demo_lowers (fun _ h => h) demoCiteDoc (by decide) demoCite_doc (by decide +kernel) demoCite_res (by decide +kernel) (by decide)
  refine Eq.trans (Eq.trans ?_ this) ?_ <;> exact congrArg _ (by decide +kernel)

/-- The quotation there. -/
theorem C82_address_kept_ex : ∃ out u att x, parseFresh demoEnv 3 demoCfg (Spec.citeSource demoCiteDoc) = .ok out ∧
    t!"<blockquote cite=\"" ++ (u ++ (t!"\"" ++ (att ++ (t!">" ++ (x ++ t!"</blockquote>"))))) <:+: out ∧
    Spec.decode u = t!"http://a.com/x?a=b&c=(d)" ∧ (∀ c ∈ u, c ≠ '"' ∧ c ≠ '<') :=
  C82_address_kept_partial demoEnv UniOk.demo 3 (by decide) demoCfg t!"abc" plainBase_demo rfl rfl rfl rfl rfl rfl rfl (by decide)
    _ demo_lowers (fun _ h => h) demoCiteDoc demoCite_doc (by decide +kernel) demoCite_res (by decide +kernel) (by decide)
    demoCited 0 (by simp [demoCiteDoc])

end Rustextile
