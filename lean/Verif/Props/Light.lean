import Verif.Props.Raw
import Verif.Props.Endnotes
import Verif.Props.Extended
import Verif.Api

/-!
# Lite mode and documents without what it leaves out: C98
-/

namespace Rustextile

open Prog

/-- **C98, part.** A document of the blocks of C87 that is written for both modes, so without headings, lists,
tables, code in texts and so on, becomes the same HTML with and without lite mode.

Missing: other documents.  It is false for marks before a sign at the end of a text (`C98_lite_fails`). -/
theorem C98_lite_partial (E : Env) (hU : UniOk E.U) (fuel : Nat) (hf : 3 ≤ fuel) (cfg : Cfg) (base : Str)
    (hb : Spec.PlainBase base) (huid : cfg.uid = t!"textileRef:" ++ base ++ t!":") (hp : cfg.linkPrefix = base ++ t!"-")
    (hcap : cfg.capsTempl = t!"$1<span class=\"caps\">" ++ cfg.uid ++ t!":glyph:$2</span>$3")
    (hz : cfg.getSizes = false) (hno : cfg.noimage = false)
    (hbt : cfg.blockTags = true) (hsan : cfg.sanitizer = none) (hdep : 1 ≤ cfg.maxSpanDepth)
    (ok : Char → Prop) (hL : Lowers E.U ok) (ha : ∀ c, c.toNat < 128 → ok c)
    (ds : List (Spec.RawBlock × Nat)) (hne : ds ≠ []) (hok : ∀ lite, ∀ d ∈ ds, d.1.Ok E.U.isLu E.U.isNd lite cfg.restricted)
    (hc : ∀ d ∈ ds, ∀ c ∈ d.1.chars, ok c)
    (hres : ∀ d ∈ ds, d.1.Resolved (Spec.Resolves E.urlParse E.urlJoin cfg.restricted) (Spec.Reads E.urlParse E.urlJoin) (Spec.Absolute E.urlParse) cfg.rel)
    (htok : ¬ cfg.uid <:+: Spec.rawDocSource ds)
    (hn : Spec.rawMarks ds < 2 ^ 31) :
    ∃ out, ∀ lite, parseFresh E fuel ((Setter.lite lite).apply cfg) (Spec.rawDocSource ds) = .ok out :=
  ⟨Spec.rawDocHtml cfg.html5 (if cfg.html5 then t!"<br>" else t!"<br />") cfg.restricted (cfg.alignClass.getD cfg.html5) base ds,
    fun lite => C87_raw_lines E hU fuel hf { cfg with lite := lite } base hb huid hp hcap hz hno hbt hsan hdep ok hL ha ds hne (hok lite) hc hres htok hn⟩

/-- **C98, part**, for documents with extended blocks as in C67. -/
theorem C98_extended_partial (E : Env) (hU : UniOk E.U) (fuel : Nat) (hf : 3 ≤ fuel) (cfg : Cfg) (base : Str)
    (hb : Spec.PlainBase base) (huid : cfg.uid = t!"textileRef:" ++ base ++ t!":") (hp : cfg.linkPrefix = base ++ t!"-")
    (hz : cfg.getSizes = false) (hno : cfg.noimage = false)
    (hbt : cfg.blockTags = true) (hsan : cfg.sanitizer = none) (hdep : 1 ≤ cfg.maxSpanDepth)
    (ok : Char → Prop) (hL : Lowers E.U ok) (ha : ∀ c, c.toNat < 128 → ok c)
    (ds : List (Spec.ExItem × Nat)) (hne : ds ≠ []) (hok : ∀ lite, ∀ d ∈ ds, d.1.Ok E.U.isLu E.U.isNd lite cfg.restricted)
    (hend : ∀ lite, Spec.Ended lite cfg.restricted ds) (hc : ∀ d ∈ ds, ∀ c ∈ d.1.chars, ok c)
    (hres : ∀ d ∈ ds, d.1.Resolved (Spec.Resolves E.urlParse E.urlJoin cfg.restricted) (Spec.Reads E.urlParse E.urlJoin) cfg.rel)
    (htok : ¬ cfg.uid <:+: Spec.exSource ds)
    (hn : Spec.exMarks ds < 2 ^ 31) :
    ∃ out, ∀ lite, parseFresh E fuel ((Setter.lite lite).apply cfg) (Spec.exSource ds) = .ok out :=
  ⟨Spec.exDocHtml (if cfg.html5 then t!"<br>" else t!"<br />") cfg.restricted (cfg.alignClass.getD cfg.html5) base ds,
    fun lite => C67_extended E hU fuel hf { cfg with lite := lite } base hb huid hp hz hno hbt hsan hdep ok hL ha ds hne (hok lite) (hend lite) hc hres htok hn⟩

/-- **C98, part**, for documents with endnotes as in C65. -/
theorem C98_endnotes_partial (E : Env) (hU : UniOk E.U) (fuel : Nat) (hf : 3 ≤ fuel) (cfg : Cfg) (base : Str)
    (hb : Spec.PlainBase base) (huid : cfg.uid = t!"textileRef:" ++ base ++ t!":") (hp : cfg.linkPrefix = base ++ t!"-")
    (hz : cfg.getSizes = false) (hno : cfg.noimage = false)
    (hbt : cfg.blockTags = true) (hsan : cfg.sanitizer = none) (hdep : 1 ≤ cfg.maxSpanDepth)
    (ok : Char → Prop) (hL : Lowers E.U ok) (ha : ∀ c, c.toNat < 128 → ok c)
    (d : Spec.EnDoc) (hok : ∀ lite, d.Ok E.U.isLu E.U.isNd lite cfg.restricted)
    (hc : ∀ b ∈ d.blocks, ∀ c ∈ b.1.chars, ok c)
    (hres : ∀ b ∈ d.blocks, b.1.Resolved (Spec.Resolves E.urlParse E.urlJoin cfg.restricted) (Spec.Reads E.urlParse E.urlJoin) cfg.rel)
    (htok : ¬ cfg.uid <:+: d.source) (hn : d.marks < 2 ^ 31) :
    ∃ out, ∀ lite, parseFresh E fuel ((Setter.lite lite).apply cfg) d.source = .ok out :=
  ⟨d.html (if cfg.html5 then t!"<br>" else t!"<br />") cfg.restricted (cfg.alignClass.getD cfg.html5) base,
    fun lite => C65_endnotes E hU fuel hf { cfg with lite := lite } base hb huid hp hz hno hbt hsan hdep ok hL ha d (hok lite) hc hres htok hn⟩

/-- **C98, negation.** In lite mode, marks before a full stop at the end of a text are not read. -/
theorem C98_lite_fails :
    parseFresh demoEnv 3 ((Setter.lite true).apply demoCfg) t!"It is *big*." = .ok t!"<p>It is *big*.</p>" ∧
    parseFresh demoEnv 3 ((Setter.lite false).apply demoCfg) t!"It is *big*." = .ok t!"<p>It is <strong>big</strong>.</p>" := by
  constructor <;> decide +kernel

/-! ## Examples -/

/-- A paragraph and a quotation with links, and a paragraph with words in capitals. -/
def demoLightDoc : List (Spec.RawBlock × Nat) := [(.other (.para demoAnText), 0), (.other (.quoted exShort ⟨[], [(demoAnchor, t!" now")]⟩), 1),
  (.other (.other (.other (.other (.para demoCaps)))), 0)]

theorem C98_lite_ex : ∃ out, ∀ lite, parseFresh demoEnv 3 ((Setter.lite lite).apply demoCfg) (Spec.rawDocSource demoLightDoc) = .ok out :=
  C98_lite_partial demoEnv UniOk.demo 3 (by decide) demoCfg t!"abc" plainBase_demo rfl rfl rfl rfl rfl rfl rfl (by decide)
    _ demo_lowers (fun _ h => h) demoLightDoc (by decide) (fun lite d hd => by
      simp only [demoLightDoc, List.mem_cons, List.not_mem_nil, or_false] at hd
      rcases hd with rfl | rfl | rfl
      · exact ⟨demoAnText_ok, noBlockStart_head (by decide), by decide, by decide⟩
      · exact ⟨demoAnQuote_ok, exShort_ok, fun _ => trivial, rfl, by decide, by decide⟩
      · exact ⟨demoCaps_ok, noBlockStart_head (by decide), by decide⟩) (by decide +kernel) (fun d hd => by
      simp only [demoLightDoc, List.mem_cons, List.not_mem_nil, or_false] at hd
      rcases hd with rfl | rfl | rfl
      · exact demoAn_res _ (.head _)
      · exact demoAn_res _ (.tail _ (.head _))
      · exact demoCap_res _ (.head _)) (by decide +kernel) (by decide)

theorem plain_light {lite : Bool} {t : Str} (h : (⟨t, []⟩ : Spec.Marked).Ok demoUni.isLu false) : (⟨t, []⟩ : Spec.Marked).Ok demoUni.isLu lite where
  lead := h.lead
  parts := by simp
  before := by simp
  between := by simp
  first := h.first
  last := h.last

/-- Extended paragraphs and quotations. -/
def demoLightEx : List (Spec.ExItem × Nat) := [(.styled t!"p" exShort ⟨t!"One", []⟩ [(0, ⟨t!"and two", []⟩)], 1),
  (.quoted exCenter ⟨t!"words", []⟩ [(0, ⟨t!"more words", []⟩), (0, ⟨t!"last", []⟩)], 0)]

theorem C98_extended_ex : ∃ out, ∀ lite, parseFresh demoEnv 3 ((Setter.lite lite).apply demoCfg) (Spec.exSource demoLightEx) = .ok out :=
  C98_extended_partial demoEnv UniOk.demo 3 (by decide) demoCfg t!"abc" plainBase_demo rfl rfl rfl rfl rfl rfl (by decide)
    _ demo_lowers (fun _ h => h) demoLightEx (by decide) (fun lite d hd => by
      have w1 : exShort.Written false := fun _ => trivial
      have w2 : exCenter.Written false := fun _ => trivial
      simp only [demoLightEx, List.mem_cons, List.not_mem_nil, or_false] at hd
      rcases hd with rfl | rfl
      · refine ⟨⟨plain_light (plain_ok (by decide) rfl (by decide) (by decide)), exShort_ok, w1, .inl rfl, by cases lite <;> decide, fun _ => by decide⟩, ?_⟩
        intro p hp
        simp only [List.mem_cons, List.not_mem_nil, or_false] at hp
        subst hp
        exact ⟨plain_light (plain_ok (by decide) rfl (by decide) (by decide)), noBlockStart_head (by decide), fun _ => by decide⟩
      · refine ⟨⟨plain_light (plain_ok (by decide) rfl (by decide) (by decide)), exCenter_ok, w2, .inr (.inr (by decide)), by decide⟩, ?_⟩
        intro p hp
        simp only [List.mem_cons, List.not_mem_nil, or_false] at hp
        rcases hp with rfl | rfl <;> exact ⟨plain_light (plain_ok (by decide) rfl (by decide) (by decide)), noBlockStart_head (by decide), by decide⟩)
    (fun lite => ⟨fun _ => trivial, trivial⟩) (by decide +kernel) (fun d hd => by
      simp only [demoLightEx, List.mem_cons, List.not_mem_nil, or_false] at hd
      rcases hd with rfl | rfl <;> simp [Spec.ExItem.Resolved, Spec.Marked.Resolved]) (by decide +kernel) (by decide)

/-- Two notes. -/
def demoLightEn : Spec.EnDoc where
  before := [(.para demoRefs, 0), (.define t!"b" none [.classes t!"x" none] t!"see below", 0)]
  list := some (0, [(.define t!"a" (some .first) [] t!"of all kinds", 0)])

theorem demoLightEn_blocks : demoLightEn.blocks = [(.para demoRefs, 0), (.define t!"b" none [.classes t!"x" none] t!"see below", 0),
    (.define t!"a" (some .first) [] t!"of all kinds", 0)] := rfl

theorem C98_endnotes_ex : ∃ out, ∀ lite, parseFresh demoEnv 3 ((Setter.lite lite).apply demoCfg) demoLightEn.source = .ok out :=
  C98_endnotes_partial demoEnv UniOk.demo 3 (by decide) demoCfg t!"abc" plainBase_demo rfl rfl rfl rfl rfl rfl (by decide)
    _ demo_lowers (fun _ h => h) demoLightEn (fun lite => by
      refine ⟨?_, by simp [demoLightEn_blocks], fun _ => by decide, fun _ => by decide⟩
      intro d hd
      rw [demoLightEn_blocks] at hd
      simp only [List.mem_cons, List.not_mem_nil, or_false] at hd
      rcases hd with rfl | rfl | rfl
      · exact ⟨enText_of_B (by decide +kernel), noBlockStart_head (by decide), by decide⟩
      · exact demoEnDoc_ok.blocks _ (by rw [demoEnDoc_blocks]; exact .tail _ (.head _))
      · exact demoEnDoc_ok.blocks _ (by rw [demoEnDoc_blocks]; exact .tail _ (.tail _ (.tail _ (.tail _ (.head _)))))) (by decide +kernel) (fun d hd => by
      rw [demoLightEn_blocks] at hd
      simp only [List.mem_cons, List.not_mem_nil, or_false] at hd
      rcases hd with rfl | rfl | rfl <;> trivial) (by decide +kernel) (by decide)

end Rustextile
