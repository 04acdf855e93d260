import Verif.SpecKind
import Verif.Props.Raw
import Verif.Props.Caps
import Verif.Props.Images

/-!
# HTML5 and XHTML: C96
-/

namespace Rustextile

open Prog
open Spec (SameBut)

abbrev SameKind := SameBut Spec.OtherKind

theorem sk_el {n a h k : Str} (hh : SameKind h k) : SameKind (Spec.elementWith n a h) (Spec.elementWith n a k) := by
  unfold Spec.elementWith
  exact .append (.same _) (.append (.same _) (.append (.same _) (.append (.same _) (.append hh (.same _)))))

theorem sk_el0 {n h k : Str} (hh : SameKind h k) : SameKind (Spec.element n h) (Spec.element n k) := by
  unfold Spec.element
  exact .append (.append (.append (.append (.same _) hh) (.same _)) (.same _)) (.same _)

theorem sk_flatMap {α : Type} {f g : α → Str} : ∀ {l : List α}, (∀ x ∈ l, SameKind (f x) (g x)) → SameKind (l.flatMap f) (l.flatMap g)
  | [], _ => .same _
  | x :: l, h => by
    rw [List.flatMap_cons, List.flatMap_cons]
    exact .append (h x (by simp)) (sk_flatMap fun y hy => h y (List.mem_cons_of_mem _ hy))

theorem sk_breaks (t : Str) : SameKind (Spec.breakLines t!"<br>" t) (Spec.breakLines t!"<br />" t) := by
  refine sk_flatMap fun c _ => ?_
  split
  · exact .append (.part .break_) (.same _)
  · exact .same _

theorem sk_quote {a b h k : Str} (hh : SameKind h k) :
    SameKind (Spec.elementWith t!"blockquote" a (t!"\n\t" ++ (Spec.elementWith t!"p" b h ++ t!"\n")))
      (Spec.elementWith t!"blockquote" a (t!"\n\t" ++ (Spec.elementWith t!"p" b k ++ t!"\n"))) :=
  sk_el (.append (.same _) (.append (sk_el hh) (.same _)))

theorem sk_marked (t : Spec.Marked) : SameKind (t.html t!"<br>") (t.html t!"<br />") :=
  .append (sk_breaks _) (sk_flatMap fun _ _ => .append (.same _) (sk_breaks _))

theorem sk_rich (b : Spec.Rich) : SameKind (b.html t!"<br>") (b.html t!"<br />") := by
  cases b with
  | para t => exact sk_el0 (sk_marked t)
  | tagged tag t => exact sk_el0 (sk_marked t)
  | quote t => exact sk_el0 (.append (.append (.same _) (sk_el0 (sk_marked t))) (.same _))

theorem sk_node {r : Bool} {N : Spec.Numbers} (b : Spec.Node) : SameKind (b.html t!"<br>" r N) (b.html t!"<br />" r N) := by
  cases b with
  | piece b =>
    cases b with
    | rich b => exact sk_rich b
    | list k t => exact .same _
  | styled tag a t => exact sk_el (sk_marked t)
  | quoted a t => exact sk_quote (sk_marked t)
  | verbatim tag a ls => exact .same _

theorem sk_refs {base : Str} : ∀ (rs : List (Str × Str)) (M : Spec.Notes), SameKind (Spec.refsHtml t!"<br>" base M rs) (Spec.refsHtml t!"<br />" base M rs)
  | [], _ => .same _
  | _ :: rs, _ => .append (.same _) (.append (sk_breaks _) (sk_refs rs _))

theorem sk_fnText {base : Str} {M : Spec.Notes} (t : Spec.FnText) : SameKind (t.html t!"<br>" base M) (t.html t!"<br />" base M) :=
  .append (sk_breaks _) (sk_refs _ _)

theorem sk_fn {r : Bool} {base : Str} {N : Spec.Numbers} {M : Spec.Notes} (b : Spec.FnBlock) :
    SameKind (b.html t!"<br>" r base N M) (b.html t!"<br />" r base N M) := by
  cases b with
  | node b => exact sk_node b
  | para t => exact sk_el (sk_fnText t)
  | styled tag a t => exact sk_el (sk_fnText t)
  | note label back t => exact sk_el (.append (.same _) (.append (a := t!" ") (b := t!" ") (.same _) (sk_fnText t)))

theorem sk_sg {r : Bool} {base : Str} {N : Spec.Numbers} {M : Spec.Notes} (b : Spec.SgBlock) :
    SameKind (b.html t!"<br>" r base N M) (b.html t!"<br />" r base N M) := by
  cases b with
  | other b =>
    cases b with
    | other b => exact sk_fn b
    | table rs => exact .same _
  | para t => exact sk_el (sk_breaks _)
  | styled tag a t => exact sk_el (sk_breaks _)

theorem sk_element {r : Bool} (i : Spec.Image) : SameKind (i.element r true) (i.element r false) := by
  have h0 : ∀ n, Spec.attr n none = [] := fun _ => rfl
  cases ha : i.align with
  | none =>
    have : i.element r true = i.element r false := by simp [Spec.Image.element, Spec.Image.classes, ha]
    rw [this]
    exact .same _
  | some a =>
    have hw : a.word ∈ [t!"left", t!"right", t!"center"] := by cases a <;> decide
    cases hc : (if r then none else i.atts.cls) with
    | none =>
      simp only [Spec.Image.element, Spec.Image.classes, ha, hc, if_true, Option.map_some, Bool.false_eq_true, if_false, h0, List.nil_append]
      exact .part (.image (.alone hw))
    | some c =>
      simp only [Spec.Image.element, Spec.Image.classes, ha, hc, if_true, Option.map_some, Bool.false_eq_true, if_false, h0, List.nil_append]
      exact .part (.image (.more (c := c) hw))

theorem sk_image {r k l : Bool} (hk : k = l ∨ (k = true ∧ l = false)) (i : Spec.Image) : SameKind (i.html r k) (i.html r l) := by
  rcases hk with rfl | ⟨rfl, rfl⟩
  · exact .same _
  · unfold Spec.Image.html
    split
    · exact sk_element i
    · exact .append (.same _) (.append (.same _) (.append (.same _) (.append (sk_element i) (.same _))))

theorem sk_imText {r k l : Bool} (hk : k = l ∨ (k = true ∧ l = false)) (t : Spec.ImText) : SameKind (t.html t!"<br>" r k) (t.html t!"<br />" r l) :=
  .append (sk_breaks _) (sk_flatMap fun p _ => .append (sk_image hk p.1) (sk_breaks _))

theorem sk_im {r k l : Bool} {base : Str} {N : Spec.Numbers} {M : Spec.Notes} (hk : k = l ∨ (k = true ∧ l = false)) (b : Spec.ImBlock) :
    SameKind (b.html t!"<br>" r k base N M) (b.html t!"<br />" r l base N M) := by
  cases b with
  | other b => exact sk_sg _
  | para t => exact sk_el (sk_imText hk t)
  | styled tag a t => exact sk_el (sk_imText hk t)
  | quoted a t => exact sk_quote (sk_imText hk t)

theorem sk_broken {a b : Str} (h : SameBut Spec.AcronymKind a b) : SameKind (Spec.breakLines t!"<br>" a) (Spec.breakLines t!"<br />" b) := by
  induction h with
  | same t => exact sk_breaks t
  | part h => cases h <;> exact .part (.acronym (by constructor))
  | append _ _ h1 h2 =>
    unfold Spec.breakLines at *
    rw [List.flatMap_append, List.flatMap_append]
    exact .append h1 h2

theorem sk_caps (c : Spec.Caps) : SameBut Spec.AcronymKind (c.html true) (c.html false) := by
  cases c with
  | word w tail => exact .same _
  | acronym w title =>
    have e : ∀ x : Bool, (Spec.Caps.acronym w title).html x = (if x then t!"<abbr " else t!"<acronym ") ++
        ((t!"title=\"" ++ (title ++ (t!"\">" ++ Spec.elementWith Spec.capsTag Spec.capsClass w))) ++ (if x then t!"</abbr>" else t!"</acronym>")) := by
      intro x
      cases x <;> simp [Spec.Caps.html, Spec.acronymTag, Spec.elementWith, Spec.titleStart]
    rw [e, e]
    exact .append (.part .opens) (.append (.same _) (.part .closes))

theorem sk_capHtml : ∀ (ps : List (Spec.Caps × Str)), SameBut Spec.AcronymKind (Spec.capHtml true ps) (Spec.capHtml false ps)
  | [] => .same _
  | p :: ps => by
    unfold Spec.capHtml
    rw [List.flatMap_cons, List.flatMap_cons]
    exact .append (.append (sk_caps p.1) (.same _)) (sk_capHtml ps)

theorem sk_capText (t : Spec.CapText) : SameKind (t.html true t!"<br>") (t.html false t!"<br />") := sk_broken (.append (.same _) (sk_capHtml _))

theorem sk_cap {r k l : Bool} {base : Str} {N : Spec.Numbers} {M : Spec.Notes} (hk : k = l ∨ (k = true ∧ l = false)) (b : Spec.CapBlock) :
    SameKind (b.html true t!"<br>" r k base N M) (b.html false t!"<br />" r l base N M) := by
  cases b with
  | other b =>
    cases b with
    | other b =>
      cases b with
      | other b => exact sk_im hk b
      | table t => exact .same _
    | dlist l => exact .same _
  | para t => exact sk_el (sk_capText t)
  | styled tag a t => exact sk_el (sk_capText t)

theorem sk_classText {r : Bool} (t : Spec.ClassText) : SameKind (t.html t!"<br>" r) (t.html t!"<br />" r) :=
  .append (sk_breaks _) (sk_flatMap fun _ _ => .append (.same _) (sk_breaks _))

theorem sk_anText {r : Bool} (t : Spec.AnText) : SameKind (t.html t!"<br>" r) (t.html t!"<br />" r) :=
  .append (sk_breaks _) (sk_flatMap fun _ _ => .append (.same _) (sk_breaks _))

theorem sk_raw {r k l : Bool} {base : Str} {N : Spec.Numbers} {M : Spec.Notes} (hk : k = l ∨ (k = true ∧ l = false)) (b : Spec.RawBlock) :
    SameKind (b.html true t!"<br>" r k base N M) (b.html false t!"<br />" r l base N M) := by
  cases b with
  | other b =>
    cases b with
    | other b =>
      cases b with
      | other b =>
        cases b with
        | other b => exact sk_cap hk b
        | para t => exact sk_el (sk_classText t)
        | styled tag a t => exact sk_el (sk_classText t)
      | cited q => exact sk_quote (sk_marked _)
    | para t => exact sk_el (sk_anText t)
    | styled tag a t => exact sk_el (sk_anText t)
    | quoted a t => exact sk_quote (sk_anText t)
  | rule ts => exact .same _
  | indented t => exact .same _

theorem sk_doc {r k l : Bool} {base : Str} (hk : k = l ∨ (k = true ∧ l = false)) : ∀ {ds : List (Spec.RawBlock × Nat)} {N : Spec.Numbers} {M : Spec.Notes},
    SameKind (Spec.glue (Spec.rawHtml true t!"<br>" r k base N M ds)) (Spec.glue (Spec.rawHtml false t!"<br />" r l base N M ds))
  | [], _, _ => .same _
  | [d], _, _ => sk_raw hk d.1
  | d :: e :: ds, N, M => by
    have e1 : ∀ x br k, Spec.glue (Spec.rawHtml x br r k base N M (d :: e :: ds)) = d.1.html x br r k base N M ++
        (nls (d.2 + 2) ++ Spec.glue (Spec.rawHtml x br r k base (d.1.numbers N r) (d.1.notes M r) (e :: ds))) :=
      fun x br k => glue_cons (by simp [Spec.rawHtml])
    rw [e1, e1]
    exact .append (sk_raw hk d.1) (.append (.same _) (sk_doc hk (ds := e :: ds)))

/-- **C96, part.** What becomes of a document of the blocks of C87 in HTML5 and in XHTML is the same, but
for the tags of line breaks and acronyms, and the alignment of images.

Missing: other documents. -/
theorem C96_kinds_partial (E : Env) (hU : UniOk E.U) (fuel : Nat) (hf : 3 ≤ fuel) (cfg : Cfg) (base : Str)
    (hb : Spec.PlainBase base) (huid : cfg.uid = t!"textileRef:" ++ base ++ t!":") (hp : cfg.linkPrefix = base ++ t!"-")
    (hcap : cfg.capsTempl = t!"$1<span class=\"caps\">" ++ cfg.uid ++ t!":glyph:$2</span>$3")
    (hz : cfg.getSizes = false) (hno : cfg.noimage = false)
    (hbt : cfg.blockTags = true) (hsan : cfg.sanitizer = none) (hdep : 1 ≤ cfg.maxSpanDepth)
    (ok : Char → Prop) (hL : Lowers E.U ok) (ha : ∀ c, c.toNat < 128 → ok c)
    (ds : List (Spec.RawBlock × Nat)) (hne : ds ≠ []) (hok : ∀ d ∈ ds, d.1.Ok E.U.isLu E.U.isNd cfg.lite cfg.restricted)
    (hc : ∀ d ∈ ds, ∀ c ∈ d.1.chars, ok c)
    (hres : ∀ d ∈ ds, d.1.Resolved (Spec.Resolves E.urlParse E.urlJoin cfg.restricted) (Spec.Reads E.urlParse E.urlJoin) (Spec.Absolute E.urlParse) cfg.rel)
    (htok : ¬ cfg.uid <:+: Spec.rawDocSource ds)
    (hn : Spec.rawMarks ds < 2 ^ 31) :
    ∃ html5 xhtml, parseFresh E fuel { cfg with html5 := true } (Spec.rawDocSource ds) = .ok html5 ∧
      parseFresh E fuel { cfg with html5 := false } (Spec.rawDocSource ds) = .ok xhtml ∧ Spec.SameBut Spec.OtherKind html5 xhtml := by
  have h1 := C87_raw_lines E hU fuel hf { cfg with html5 := true } base hb huid hp hcap hz hno hbt hsan hdep ok hL ha ds hne hok hc hres htok hn
  have h2 := C87_raw_lines E hU fuel hf { cfg with html5 := false } base hb huid hp hcap hz hno hbt hsan hdep ok hL ha ds hne hok hc hres htok hn
  refine ⟨_, _, h1, h2, ?_⟩
  refine sk_doc ?_
  cases cfg.alignClass with
  | none => exact .inr ⟨rfl, rfl⟩
  | some k => exact .inl rfl

def demoKindDoc : List (Spec.RawBlock × Nat) :=
  demoCapDoc.map (fun d => (.other (.other (.other (.other d.1))), d.2)) ++
  demoImDoc.map (fun d => (.other (.other (.other (.other (.other (.other (.other d.1)))))), d.2))

/-- The documents of C75 and C63, with line breaks, an acronym and aligned images. -/
theorem C96_kinds_ex : ∃ html5 xhtml, parseFresh demoEnv 3 { demoCfg with html5 := true } (Spec.rawDocSource demoKindDoc) = .ok html5 ∧
    parseFresh demoEnv 3 { demoCfg with html5 := false } (Spec.rawDocSource demoKindDoc) = .ok xhtml ∧ Spec.SameBut Spec.OtherKind html5 xhtml :=
  C96_kinds_partial demoEnv UniOk.demo 3 (by decide) demoCfg t!"abc" plainBase_demo rfl rfl rfl rfl rfl rfl rfl (by decide)
    _ demo_lowers (fun _ h => h) demoKindDoc (by decide) (fun d hd => by
      rcases List.mem_append.1 hd with hd | hd
      · obtain ⟨x, hx, rfl⟩ := List.mem_map.1 hd
        exact demoCap_ok x hx
      · obtain ⟨x, hx, rfl⟩ := List.mem_map.1 hd
        exact demoIm_ok false rfl x hx) (by decide +kernel) (fun d hd => by
      rcases List.mem_append.1 hd with hd | hd
      · obtain ⟨x, hx, rfl⟩ := List.mem_map.1 hd
        exact demoCap_res x hx
      · obtain ⟨x, hx, rfl⟩ := List.mem_map.1 hd
        exact demoIm_res x hx) (by decide +kernel) (by decide)

end Rustextile
