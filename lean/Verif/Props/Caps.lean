import Verif.CapDoc
import Verif.Props.Defs

/-!
# Words in capitals: C75, C76, C77
-/

namespace Rustextile

open Prog

/-- **C75.** A document of paragraphs and headings with words in capitals and of the blocks of C72, in any order. -/
theorem C75_capitals (E : Env) (hU : UniOk E.U) (fuel : Nat) (hf : 3 ≤ fuel) (cfg : Cfg) (base : Str)
    (hb : Spec.PlainBase base) (huid : cfg.uid = t!"textileRef:" ++ base ++ t!":") (hp : cfg.linkPrefix = base ++ t!"-")
    (hcap : cfg.capsTempl = t!"$1<span class=\"caps\">" ++ cfg.uid ++ t!":glyph:$2</span>$3")
    (hz : cfg.getSizes = false) (hno : cfg.noimage = false)
    (hbt : cfg.blockTags = true) (hsan : cfg.sanitizer = none) (hdep : 1 ≤ cfg.maxSpanDepth)
    (ok : Char → Prop) (hL : Lowers E.U ok) (ha : ∀ c, c.toNat < 128 → ok c)
    (ds : List (Spec.CapBlock × Nat)) (hne : ds ≠ []) (hok : ∀ d ∈ ds, d.1.Ok E.U.isLu E.U.isNd cfg.lite cfg.restricted)
    (hc : ∀ d ∈ ds, ∀ c ∈ d.1.chars, ok c)
    (hres : ∀ d ∈ ds, d.1.Resolved (Spec.Resolves E.urlParse E.urlJoin cfg.restricted) (Spec.Reads E.urlParse E.urlJoin) cfg.rel)
    (htok : ¬ cfg.uid <:+: Spec.capsSource ds)
    (hn : Spec.capsMarks ds < 2 ^ 31) :
    parseFresh E fuel cfg (Spec.capsSource ds) =
      .ok (Spec.capsDocHtml cfg.html5 (if cfg.html5 then t!"<br>" else t!"<br />") cfg.restricted (cfg.alignClass.getD cfg.html5) base ds) :=
  parse_caps (⟨hU, hf, hb, huid⟩ : DocCtx ⟨E, cfg, fuel⟩ base) hp hcap hz hno hbt hsan hdep ha hL hne hok hc hres htok (by omega)

/-! ## Words -/

theorem capsHtml_mem (h5 : Bool) (br base : Str) (restricted k : Bool) {b : Spec.CapBlock} {n : Nat} : ∀ {ds : List (Spec.CapBlock × Nat)} {N : Spec.Numbers} {M : Spec.Notes},
    (b, n) ∈ ds → ∃ N' M', (b.html h5 br restricted k base N' M', n) ∈ Spec.capsHtml h5 br restricted k base N M ds
  | [], _, _, h => by cases h
  | d :: ds, N, M, h => by
    rcases List.mem_cons.1 h with rfl | h
    · exact ⟨N, M, by simp [Spec.capsHtml]⟩
    · obtain ⟨N', M', h'⟩ := capsHtml_mem h5 br base restricted k (ds := ds) (N := d.1.numbers N restricted) (M := d.1.notes M restricted) h
      exact ⟨N', M', by simp [Spec.capsHtml, h']⟩

/-- The text of a block with words in capitals. -/
def _root_.Spec.CapBlock.text : Spec.CapBlock → Option Spec.CapText
  | .other _ => none
  | .para t => some t
  | .styled _ _ t => some t

/-- The capitals, in their element. -/
def _root_.Spec.Caps.marked : Spec.Caps → Str
  | .word w _ => t!"<span class=\"caps\">" ++ (w ++ t!"</span>")
  | .acronym w _ => t!"<span class=\"caps\">" ++ (w ++ t!"</span>")

theorem capText_within (h5 : Bool) (br base : Str) (restricted k : Bool) {ds : List (Spec.CapBlock × Nat)} {b : Spec.CapBlock} {t : Spec.CapText} {n : Nat}
    (ht : (b, n) ∈ ds) (hb : b.text = some t) : t.html h5 br <:+: Spec.capsDocHtml h5 br restricted k base ds := by
  obtain ⟨N', M', h'⟩ := capsHtml_mem h5 br base restricted k (N := fun _ => 1) (M := ⟨[], 0⟩) ht
  refine List.IsInfix.trans ?_ (glue_infix h')
  cases b with
  | other b => cases hb
  | para t' => cases hb; exact element_within _ _ _
  | styled tag a t' => cases hb; exact element_within _ _ _

theorem breakLines_app (br a b : Str) : Spec.breakLines br (a ++ b) = Spec.breakLines br a ++ Spec.breakLines br b := by simp [Spec.breakLines]

theorem marked_order (h5 : Bool) (br : Str) : ∀ {ps : List (Spec.Caps × Str)}, Spec.AllApart ps →
    Spec.InOrder (ps.map (fun p => p.1.marked)) (Spec.breakLines br (Spec.capHtml h5 ps))
  | [], _ => trivial
  | (k, v) :: ps, h => by
    have ih := marked_order h5 br h.2.2
    have hnl := (caps_with_line (m := []) (by simp) h5 h.1).1.1
    rw [capsWith_html] at hnl
    have e : Spec.breakLines br (Spec.capHtml h5 ((k, v) :: ps)) = k.html h5 ++ (Spec.breakLines br v ++ Spec.breakLines br (Spec.capHtml h5 ps)) := by
      simp only [Spec.capHtml, List.flatMap_cons, breakLines_app, breakLines_nonl hnl, List.append_assoc]
    rw [e, List.map_cons]
    have hk : ∃ a b, k.html h5 = a ++ (k.marked ++ b) := by
      cases k with
      | word w tail => exact ⟨[], tail, by simp [Spec.Caps.html, Spec.Caps.marked, Spec.elementWith, Spec.capsTag, Spec.capsClass]⟩
      | acronym w title =>
        exact ⟨'<' :: (Spec.acronymTag h5 ++ (Spec.titleStart ++ (title ++ t!"\">"))), t!"</" ++ (Spec.acronymTag h5 ++ t!">"),
          by simp [Spec.Caps.html, Spec.Caps.marked, Spec.elementWith, Spec.capsTag, Spec.capsClass]⟩
    obtain ⟨a, b, hk⟩ := hk
    refine ⟨a, b ++ (Spec.breakLines br v ++ Spec.breakLines br (Spec.capHtml h5 ps)), by rw [hk]; simp, ?_⟩
    have := InOrder.within (b ++ Spec.breakLines br v) [] ih
    simpa using this

/-- **C76 (partial).** In the documents of C75, the words in capitals come out in order, each in an element of its own. -/
theorem C76_capitals_marked_partial (E : Env) (hU : UniOk E.U) (fuel : Nat) (hf : 3 ≤ fuel) (cfg : Cfg) (base : Str)
    (hb : Spec.PlainBase base) (huid : cfg.uid = t!"textileRef:" ++ base ++ t!":") (hp : cfg.linkPrefix = base ++ t!"-")
    (hcap : cfg.capsTempl = t!"$1<span class=\"caps\">" ++ cfg.uid ++ t!":glyph:$2</span>$3")
    (hz : cfg.getSizes = false) (hno : cfg.noimage = false)
    (hbt : cfg.blockTags = true) (hsan : cfg.sanitizer = none) (hdep : 1 ≤ cfg.maxSpanDepth)
    (ok : Char → Prop) (hL : Lowers E.U ok) (ha : ∀ c, c.toNat < 128 → ok c)
    (ds : List (Spec.CapBlock × Nat)) (hok : ∀ d ∈ ds, d.1.Ok E.U.isLu E.U.isNd cfg.lite cfg.restricted)
    (hc : ∀ d ∈ ds, ∀ c ∈ d.1.chars, ok c)
    (hres : ∀ d ∈ ds, d.1.Resolved (Spec.Resolves E.urlParse E.urlJoin cfg.restricted) (Spec.Reads E.urlParse E.urlJoin) cfg.rel)
    (htok : ¬ cfg.uid <:+: Spec.capsSource ds)
    (hn : Spec.capsMarks ds < 2 ^ 31) (b : Spec.CapBlock) (n : Nat) (hm : (b, n) ∈ ds) (t : Spec.CapText) (ht : b.text = some t) :
    ∃ out, parseFresh E fuel cfg (Spec.capsSource ds) = .ok out ∧ Spec.InOrder (t.parts.map (fun p => p.1.marked)) out := by
  have hdoc := C75_capitals E hU fuel hf cfg base hb huid hp hcap hz hno hbt hsan hdep ok hL ha ds (List.ne_nil_of_mem hm) hok hc hres htok hn
  obtain ⟨x, y, e⟩ := capText_within cfg.html5 (if cfg.html5 then t!"<br>" else t!"<br />") base cfg.restricted (cfg.alignClass.getD cfg.html5) hm ht
  refine ⟨_, hdoc, ?_⟩
  have htok : t.Ok E.U.isLu := by
    have := hok _ hm
    cases b with
    | other b => cases ht
    | para t' => cases ht; exact this.1
    | styled tag a t' => cases ht; exact this.1
  rw [← e, List.append_assoc]
  refine InOrder.within x y ?_
  unfold Spec.CapText.html
  rw [breakLines_app]
  have := InOrder.within (Spec.breakLines (if cfg.html5 then t!"<br>" else t!"<br />") t.lead) []
    (marked_order cfg.html5 (if cfg.html5 then t!"<br>" else t!"<br />") htok.apart)
  simpa using this

/-- **C76 is false in general**: capitals with a digit after them are left as they are. -/
theorem C76_capitals_marked_fails : parseFresh demoEnv 3 demoCfg t!"HTML and HTML5" =
    .ok t!"<p><span class=\"caps\">HTML</span> and HTML5</p>" := by kernel_rfl

/-- **C77 (partial).** In the documents of C75, every acronym has its explanation as its title. -/
theorem C77_explanations_partial (E : Env) (hU : UniOk E.U) (fuel : Nat) (hf : 3 ≤ fuel) (cfg : Cfg) (base : Str)
    (hb : Spec.PlainBase base) (huid : cfg.uid = t!"textileRef:" ++ base ++ t!":") (hp : cfg.linkPrefix = base ++ t!"-")
    (hcap : cfg.capsTempl = t!"$1<span class=\"caps\">" ++ cfg.uid ++ t!":glyph:$2</span>$3")
    (hz : cfg.getSizes = false) (hno : cfg.noimage = false)
    (hbt : cfg.blockTags = true) (hsan : cfg.sanitizer = none) (hdep : 1 ≤ cfg.maxSpanDepth)
    (ok : Char → Prop) (hL : Lowers E.U ok) (ha : ∀ c, c.toNat < 128 → ok c)
    (ds : List (Spec.CapBlock × Nat)) (hok : ∀ d ∈ ds, d.1.Ok E.U.isLu E.U.isNd cfg.lite cfg.restricted)
    (hc : ∀ d ∈ ds, ∀ c ∈ d.1.chars, ok c)
    (hres : ∀ d ∈ ds, d.1.Resolved (Spec.Resolves E.urlParse E.urlJoin cfg.restricted) (Spec.Reads E.urlParse E.urlJoin) cfg.rel)
    (htok : ¬ cfg.uid <:+: Spec.capsSource ds)
    (hn : Spec.capsMarks ds < 2 ^ 31) (b : Spec.CapBlock) (n : Nat) (hm : (b, n) ∈ ds) (t : Spec.CapText) (ht : b.text = some t)
    (w title v : Str) (hw : (.acronym w title, v) ∈ t.parts) :
    ∃ out, parseFresh E fuel cfg (Spec.capsSource ds) = .ok out ∧
      ((if cfg.html5 then t!"<abbr" else t!"<acronym") ++ (t!" title=\"" ++ (title ++ (t!"\"><span class=\"caps\">" ++ (w ++ (t!"</span>" ++
        (if cfg.html5 then t!"</abbr>" else t!"</acronym>"))))))) <:+: out := by
  have hdoc := C75_capitals E hU fuel hf cfg base hb huid hp hcap hz hno hbt hsan hdep ok hL ha ds (List.ne_nil_of_mem hm) hok hc hres htok hn
  have hin := capText_within cfg.html5 (if cfg.html5 then t!"<br>" else t!"<br />") base cfg.restricted (cfg.alignClass.getD cfg.html5) hm ht
  refine ⟨_, hdoc, List.IsInfix.trans ?_ hin⟩
  have htok : t.Ok E.U.isLu := by
    have := hok _ hm
    cases b with
    | other b => cases ht
    | para t' => cases ht; exact this.1
    | styled tag a t' => cases ht; exact this.1
  have hnl := (caps_with_line (m := []) (by simp) cfg.html5 (apart_mem htok.apart _ hw)).1.1
  rw [capsWith_html] at hnl
  unfold Spec.CapText.html
  rw [breakLines_app]
  refine List.IsInfix.trans ?_ right_infix
  obtain ⟨l1, l2, e⟩ := List.append_of_mem hw
  have e2 : Spec.capHtml cfg.html5 t.parts = Spec.capHtml cfg.html5 l1 ++ (Spec.Caps.html cfg.html5 (.acronym w title) ++ (v ++ Spec.capHtml cfg.html5 l2)) := by
    rw [e]; simp [Spec.capHtml]
  rw [e2, breakLines_app, breakLines_app]
  refine List.IsInfix.trans ?_ right_infix
  refine List.IsInfix.trans ?_ left_infix
  rw [breakLines_nonl hnl]
  refine ⟨[], [], ?_⟩
  cases cfg.html5 <;> simp [Spec.Caps.html, Spec.elementWith, Spec.acronymTag, Spec.titleStart, Spec.capsTag, Spec.capsClass]

/-- **C77 is false in general**: a link in an explanation ends the attribute, also in restricted mode, and its address is
read as further attributes. -/
theorem C77_explanations_fails : parseFresh demoEnv 3 { demoCfg with restricted := true } t!"ABC(see \"foo\":/onclick=x// now) is" =
    .ok t!"<p><abbr title=\"see <a href=\"/onclick=x//\">foo</a> now\"><span class=\"caps\">ABC</span></abbr> is</p>" := by kernel_rfl

/-! ## Examples -/

def demoCaps : Spec.CapText where
  lead := t!"A page of "
  parts := [(.acronym t!"HTML" t!"Hypertext markup LANGUAGE", t!", with\n"), (.word t!"CSS" [], t!" and "), (.word t!"URL" t!"s", t!".")]

def demoCapDoc : List (Spec.CapBlock × Nat) := [(.para demoCaps, 0),
  (.styled t!"h2" exShort ⟨[], [(.word t!"NATO" [], t!" now")]⟩, 1), (.other (.dlist demoDList), 0)]

theorem noDigit_dims {s : Str} (h : ∀ c ∈ s, Spec.isDecimal c = false) : ∀ a d e b, Spec.isDecimal d = true → e = [] ∨ e = [')'] →
    ∀ x, x = 'x' ∨ x = 'X' → s ≠ a ++ d :: (e ++ x :: b) ∧ s ≠ a ++ d :: (e ++ ' ' :: x :: b) := by
  intro a d e b hd _ x _
  constructor <;> rintro rfl <;> · have := h d (by simp); rw [hd] at this; cases this

theorem noDots {s : Str} (h : containsStr t!"..." s = false) : ∀ a b, s ≠ a ++ '.' :: '.' :: '.' :: b := by
  rintro a b rfl
  rw [containsStr_iff.2 ⟨a, b, by simp⟩] at h
  cases h

theorem noSpace_end {s : Str} (h : s.getLast? ≠ some ' ' ∧ s.getLast? ≠ some '\n') : ¬ Spec.EndsInSpace s := by
  rintro ⟨u, c, rfl, hc⟩
  rw [List.getLast?_concat] at h
  rcases hc with rfl | rfl
  · exact h.1 rfl
  · exact h.2 rfl

theorem demoCaps_ok : demoCaps.Ok demoUni.isLu where
  lead := prose_of_B (by decide +kernel)
  texts := by
    intro p hp
    exact prose_of_B ((by decide +kernel : ∀ p ∈ demoCaps.parts.map (·.2), proseB demoUni.isLu p = true) _ (List.mem_map.2 ⟨p, hp, rfl⟩))
  apart := by
    refine ⟨⟨by decide, by decide, by decide, by decide⟩, fun _ => ⟨t!", with", '\n', rfl, .inr rfl⟩,
      ⟨by decide, by decide, by decide, ?_⟩, fun _ => ⟨t!" and", ' ', rfl, .inl rfl⟩, ⟨by decide, by decide, by decide, ?_⟩, fun h => absurd rfl h, trivial⟩
    · rintro c u e; cases e; decide
    · rintro c u e; cases e; decide
  start := fun _ => .inr ⟨t!"A page of", ' ', rfl, .inl rfl⟩
  dots := noDots (by decide +kernel)
  dims := noDigit_dims (by decide +kernel)
  first := ⟨'A', _, rfl, by decide, by decide⟩
  last := noSpace_end (by decide +kernel)

theorem demoCap_ok : ∀ d ∈ demoCapDoc, d.1.Ok demoUni.isLu demoUni.isNd false false := by
  intro d hd
  simp only [demoCapDoc, List.mem_cons, List.not_mem_nil, or_false] at hd
  rcases hd with rfl | rfl | rfl
  · exact ⟨demoCaps_ok, noBlockStart_head (by decide), by decide⟩
  · refine ⟨⟨prose_of_B (by decide +kernel), ?_, ⟨⟨by decide, by decide, by decide, ?_⟩, fun h => absurd rfl h, trivial⟩, fun _ => .inl rfl,
      noDots (by decide +kernel), noDigit_dims (by decide +kernel), ⟨'N', _, rfl, by decide, by decide⟩, noSpace_end (by decide +kernel)⟩,
      ?_, ?_, rfl, by decide, fun h => absurd h (by decide)⟩
    · intro p hp
      simp only [List.mem_cons, List.not_mem_nil, or_false] at hp
      subst hp
      exact prose_of_B (by decide +kernel)
    · rintro c u e; cases e; decide
    · exact exShort_ok
    · exact fun h => absurd h (by decide)
  · exact demoDl_ok (.dlist demoDList, 0) (by simp [demoDlDoc])

theorem demoCap_res : ∀ d ∈ demoCapDoc, d.1.Resolved (Spec.Resolves demoEnv.urlParse demoEnv.urlJoin false) (Spec.Reads demoEnv.urlParse demoEnv.urlJoin) none := by
  intro d hd
  simp only [demoCapDoc, List.mem_cons, List.not_mem_nil, or_false] at hd
  rcases hd with rfl | rfl | rfl <;> trivial

/-- Capitals in a paragraph and in a heading, and a definition list. -/
theorem C75_capitals_ex : parseFresh demoEnv 3 demoCfg t!"A page of HTML(Hypertext markup LANGUAGE), with\nCSS and URLs.\n\nh2(x#y)[en]. NATO now\n\n\n-(top#t1)[en]. Mass := what a thing weighs\n- Water\n- Milk := a drink" =
    .ok t!"<p>A page of <abbr title=\"Hypertext markup LANGUAGE\"><span class=\"caps\">HTML</span></abbr>, with<br>\n<span class=\"caps\">CSS</span> and <span class=\"caps\">URL</span>s.</p>\n\n<h2 class=\"x\" id=\"y\" lang=\"en\"><span class=\"caps\">NATO</span> now</h2>\n\n\n<dl>\n\t<dt class=\"top\" id=\"t1\" lang=\"en\">Mass</dt>\n\t<dd>what a thing weighs</dd>\n\t<dt>Water</dt>\n\t<dt>Milk</dt>\n\t<dd>a drink</dd>\n</dl>" := by
  have := C75_capitals demoEnv UniOk.demo 3 (by decide) demoCfg t!"abc" plainBase_demo rfl rfl rfl rfl rfl rfl rfl (by decide)
    _ demo_lowers (fun _ h => h) demoCapDoc (by decide) demoCap_ok (by decide +kernel) demoCap_res (by decide +kernel) (by decide)
  refine Eq.trans (Eq.trans ?_ this) ?_ <;> exact congrArg _ (by decide +kernel)

/-- The paragraph there. -/
theorem C76_capitals_marked_ex : ∃ out, parseFresh demoEnv 3 demoCfg (Spec.capsSource demoCapDoc) = .ok out ∧
    Spec.InOrder [t!"<span class=\"caps\">HTML</span>", t!"<span class=\"caps\">CSS</span>", t!"<span class=\"caps\">URL</span>"] out :=
  C76_capitals_marked_partial demoEnv UniOk.demo 3 (by decide) demoCfg t!"abc" plainBase_demo rfl rfl rfl rfl rfl rfl rfl (by decide)
    _ demo_lowers (fun _ h => h) demoCapDoc demoCap_ok (by decide +kernel) demoCap_res (by decide +kernel) (by decide)
    (.para demoCaps) 0 (by simp [demoCapDoc]) demoCaps rfl

/-- Its acronym. -/
theorem C77_explanations_ex : ∃ out, parseFresh demoEnv 3 demoCfg (Spec.capsSource demoCapDoc) = .ok out ∧
    t!"<abbr title=\"Hypertext markup LANGUAGE\"><span class=\"caps\">HTML</span></abbr>" <:+: out :=
  C77_explanations_partial demoEnv UniOk.demo 3 (by decide) demoCfg t!"abc" plainBase_demo rfl rfl rfl rfl rfl rfl rfl (by decide)
    _ demo_lowers (fun _ h => h) demoCapDoc demoCap_ok (by decide +kernel) demoCap_res (by decide +kernel) (by decide)
    (.para demoCaps) 0 (by simp [demoCapDoc]) demoCaps rfl t!"HTML" t!"Hypertext markup LANGUAGE" t!", with\n" (by simp [demoCaps])

end Rustextile
