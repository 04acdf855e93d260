import Verif.InlineMode
import Verif.Props.Classes

/-!
# Marked parts without blocks: C90, C91
-/

namespace Rustextile

open Prog

/-- **C90.** With block tags turned off the marked parts of a text become elements, and everything else is returned as it is. -/
theorem C90_unblocked (E : Env) (hU : UniOk E.U) (fuel : Nat) (hf : 3 ≤ fuel) (cfg : Cfg) (base : Str)
    (hb : Spec.PlainBase base) (huid : cfg.uid = t!"textileRef:" ++ base ++ t!":")
    (hbt : cfg.blockTags = false) (hsan : cfg.sanitizer = none) (hdep : 1 ≤ cfg.maxSpanDepth)
    (t : Spec.ClassText) (h : t.Ok E.U.isLu false) (hn : t.parts.length < 2 ^ 31) :
    parseFresh E fuel cfg t.source = .ok (t.inlineHtml cfg.restricted) :=
  parse_inline (⟨hU, hf, hb, huid⟩ : DocCtx ⟨E, cfg, fuel⟩ base) hbt hsan hdep h (by omega)

/-- **C91 (partial).** For such a text that is no other block, what is returned with block tags is a paragraph of what is returned without them, with
the lines broken.  Missing: texts with markup of other kinds. -/
theorem C91_paragraph_of_unblocked_partial (E : Env) (hU : UniOk E.U) (fuel : Nat) (hf : 3 ≤ fuel) (cfg : Cfg) (base : Str)
    (hb : Spec.PlainBase base) (huid : cfg.uid = t!"textileRef:" ++ base ++ t!":")
    (hbt : cfg.blockTags = true) (hsan : cfg.sanitizer = none) (hdep : 1 ≤ cfg.maxSpanDepth)
    (t : Spec.ClassText) (h : t.Ok E.U.isLu false) (hl : t.Ok E.U.isLu cfg.lite) (hs : Spec.NoBlockStart E.U.isNd cfg.lite t.source)
    (hnl : ¬ Spec.notelistWord <+: t.lead) (hn : t.parts.length < 2 ^ 31) :
    ∃ out, parseFresh E fuel { cfg with blockTags := false } t.source = .ok out ∧
      parseFresh E fuel cfg t.source = .ok (t!"<p>" ++ (Spec.breakLines (if cfg.html5 then t!"<br>" else t!"<br />") out ++ t!"</p>")) := by
  refine ⟨_, C90_unblocked E hU fuel hf { cfg with blockTags := false } base hb huid rfl hsan hdep t h hn, ?_⟩
  have D : DocCtx ⟨E, cfg, fuel⟩ base := ⟨hU, hf, hb, huid⟩
  have hA := act_clPara (C := ⟨E, cfg, fuel⟩) D hl hs hnl (P := fun _ => True) (fun _ _ _ _ _ => trivial)
  have hg : ∀ s : Str, Spec.glue [(s, 0)] = s := fun s => by simp [Spec.glue]
  have := parse_acts D hbt hsan hdep (P := fun _ => True) trivial (Acts.one (k := 0) hA) (text := t.source)
    (by rw [hg]; simp only [enc_class h, ite_self]) (by
      have : ':' ∉ t.source := cl_nocolon h
      rintro hi
      exact this (hi.subset (by rw [huid]; simp))) (by omega)
  rw [hg] at this
  rw [this]
  simp only [cl_html _ _ hl, inline_html _ h, Spec.elementWith]
  simp [Cfg.brTag]

/-! ## Examples -/

/-- A text that starts like a heading. -/
def demoUnblocked : Spec.ClassText where
  lead := t!"h1. Some "
  parts := demoClass.parts

theorem demoUnblocked_ok : demoUnblocked.Ok demoUni.isLu false where
  plain := by
    have h := demoClass_ok.plain
    exact ⟨prose_of_B (by decide +kernel), h.parts, fun _ => .inr ⟨t!"h1. Some", ' ', rfl, .inl rfl⟩, h.between, ⟨'h', _, rfl, by decide, by decide⟩, noNl_end (by decide +kernel)⟩
  groups := demoClass_ok.groups

theorem C90_unblocked_ex : parseFresh demoEnv 3 { demoCfg with blockTags := false } t!"h1. Some *(big red#k1)bold words* and\n_more_, then %(#z)here%." =
    .ok t!"h1. Some <strong class=\"big red\" id=\"k1\">bold words</strong> and\n<em>more</em>, then <span id=\"z\">here</span>." := by
  have := C90_unblocked demoEnv UniOk.demo 3 (by decide) { demoCfg with blockTags := false } t!"abc" plainBase_demo rfl rfl rfl (by decide)
    demoUnblocked demoUnblocked_ok (by decide)
  refine Eq.trans (Eq.trans ?_ this) ?_ <;> exact congrArg _ (by decide +kernel)

theorem C91_paragraph_of_unblocked_ex : ∃ out, parseFresh demoEnv 3 { demoCfg with blockTags := false } demoClass.source = .ok out ∧
    parseFresh demoEnv 3 demoCfg demoClass.source = .ok (t!"<p>" ++ (Spec.breakLines t!"<br>" out ++ t!"</p>")) :=
  C91_paragraph_of_unblocked_partial demoEnv UniOk.demo 3 (by decide) demoCfg t!"abc" plainBase_demo rfl rfl rfl (by decide)
    demoClass demoClass_ok demoClass_ok (noBlockStart_head (by decide)) (by decide) (by decide)

/-- **C91 is false in general**: code is looked for in paragraphs only. -/
theorem C91_paragraph_of_unblocked_fails : parseFresh demoEnv 3 { demoCfg with blockTags := false } t!"see @x@" = .ok t!"see @x@" ∧
    parseFresh demoEnv 3 demoCfg t!"see @x@" = .ok t!"<p>see <code>x</code></p>" := by
  constructor <;> kernel_rfl

end Rustextile
