import Verif.Props.Kinds
import Verif.Props.Endnotes
import Verif.Props.Extended

/-!
# HTML5 and XHTML, for extended blocks and endnotes: C96
-/

namespace Rustextile

open Prog
open Spec (SameBut)

/-- Two lists of texts with the same newlines after them. -/
inductive SkAll : List (Str × Nat) → List (Str × Nat) → Prop where
  | nil : SkAll [] []
  | cons {x y : Str} {n : Nat} {l m : List (Str × Nat)} : SameKind x y → SkAll l m → SkAll ((x, n) :: l) ((y, n) :: m)

theorem SkAll.append {l m l' m' : List (Str × Nat)} (h : SkAll l m) (h' : SkAll l' m') : SkAll (l ++ l') (m ++ m') := by
  induction h with
  | nil => exact h'
  | cons h _ ih => exact .cons h ih

theorem SkAll.glue {l m : List (Str × Nat)} (h : SkAll l m) : SameKind (Spec.glue l) (Spec.glue m) := by
  induction h with
  | nil => exact .same _
  | cons h h2 ih =>
    cases h2 with
    | nil => exact h
    | cons h3 h4 =>
      have e1 : ∀ (x y : Str × Nat) (l : List (Str × Nat)), Spec.glue (x :: y :: l) = x.1 ++ (nls (x.2 + 2) ++ Spec.glue (y :: l)) :=
        fun x y l => glue_cons (by simp)
      rw [e1 _ (_, _), e1 _ (_, _)]
      exact .append h (.append (.same _) ih)

theorem sk_chain {α : Type} {f g : α → Nat × Str} (h : ∀ x, (f x).1 = (g x).1 ∧ SameKind (f x).2 (g x).2) : ∀ (l : List α) {a b : Str} {k : Nat},
    SameKind a b → SkAll (Spec.chain a (l.map f) k) (Spec.chain b (l.map g) k)
  | [], _, _, _, ha => .cons ha .nil
  | x :: l, _, _, _, ha => by
    simp only [List.map_cons, Spec.chain, (h x).1]
    exact .cons ha (sk_chain h l (h x).2)

/-! ## Extended blocks -/

theorem sk_item {r k l : Bool} {base : Str} {N : Spec.Numbers} {M : Spec.Notes} (hk : k = l ∨ (k = true ∧ l = false)) (x : Spec.ExItem) :
    SameKind (x.html t!"<br>" r k base N M) (x.html t!"<br />" r l base N M) := by
  cases x with
  | one b => exact sk_im hk b
  | verbatim tag a ls more => exact .same _
  | styled tag a t more =>
    refine SkAll.glue (sk_chain ?_ more (sk_el (sk_marked _)))
    exact fun p => ⟨rfl, sk_el (sk_marked _)⟩
  | quoted a t more =>
    refine sk_el (.append (.same _) (.append ?_ (.same _)))
    unfold Spec.elementsOf
    rw [List.map_map, List.map_map]
    refine SkAll.glue (sk_chain ?_ more (sk_el (sk_marked _)))
    exact fun p => ⟨rfl, .append (a := t!"\t") (b := t!"\t") (.same _) (sk_el (sk_marked _))⟩

theorem sk_exDoc {r k l : Bool} {base : Str} (hk : k = l ∨ (k = true ∧ l = false)) : ∀ {ds : List (Spec.ExItem × Nat)} {N : Spec.Numbers} {M : Spec.Notes},
    SkAll (Spec.exHtml t!"<br>" r k base N M ds) (Spec.exHtml t!"<br />" r l base N M ds)
  | [], _, _ => .nil
  | d :: ds, _, _ => .cons (sk_item hk d.1) (sk_exDoc hk (ds := ds))

/-- **C96, part**, for documents with extended blocks as in C67. -/
theorem C96_extended_partial (E : Env) (hU : UniOk E.U) (fuel : Nat) (hf : 3 ≤ fuel) (cfg : Cfg) (base : Str)
    (hb : Spec.PlainBase base) (huid : cfg.uid = t!"textileRef:" ++ base ++ t!":") (hp : cfg.linkPrefix = base ++ t!"-")
    (hz : cfg.getSizes = false) (hno : cfg.noimage = false)
    (hbt : cfg.blockTags = true) (hsan : cfg.sanitizer = none) (hdep : 1 ≤ cfg.maxSpanDepth)
    (ok : Char → Prop) (hL : Lowers E.U ok) (ha : ∀ c, c.toNat < 128 → ok c)
    (ds : List (Spec.ExItem × Nat)) (hne : ds ≠ []) (hok : ∀ d ∈ ds, d.1.Ok E.U.isLu E.U.isNd cfg.lite cfg.restricted)
    (hend : Spec.Ended cfg.lite cfg.restricted ds) (hc : ∀ d ∈ ds, ∀ c ∈ d.1.chars, ok c)
    (hres : ∀ d ∈ ds, d.1.Resolved (Spec.Resolves E.urlParse E.urlJoin cfg.restricted) (Spec.Reads E.urlParse E.urlJoin) cfg.rel)
    (htok : ¬ cfg.uid <:+: Spec.exSource ds)
    (hn : Spec.exMarks ds < 2 ^ 31) :
    ∃ html5 xhtml, parseFresh E fuel { cfg with html5 := true } (Spec.exSource ds) = .ok html5 ∧
      parseFresh E fuel { cfg with html5 := false } (Spec.exSource ds) = .ok xhtml ∧ Spec.SameBut Spec.OtherKind html5 xhtml := by
  have h1 := C67_extended E hU fuel hf { cfg with html5 := true } base hb huid hp hz hno hbt hsan hdep ok hL ha ds hne hok hend hc hres htok hn
  have h2 := C67_extended E hU fuel hf { cfg with html5 := false } base hb huid hp hz hno hbt hsan hdep ok hL ha ds hne hok hend hc hres htok hn
  refine ⟨_, _, h1, h2, ?_⟩
  refine SkAll.glue (sk_exDoc ?_)
  cases cfg.alignClass with
  | none => exact .inr ⟨rfl, rfl⟩
  | some k => exact .inl rfl

/-! ## Endnotes -/

theorem sk_endRefs {base : Str} : ∀ (rs : List (Str × Str)) (B : Spec.Book), SameKind (Spec.endRefsHtml t!"<br>" base B rs) (Spec.endRefsHtml t!"<br />" base B rs)
  | [], _ => .same _
  | _ :: rs, _ => .append (.same _) (.append (sk_breaks _) (sk_endRefs rs _))

theorem sk_enText {base : Str} (t : Spec.EnText) (B : Spec.Book) : SameKind (t.html t!"<br>" base B) (t.html t!"<br />" base B) :=
  .append (sk_breaks _) (sk_endRefs _ _)

theorem sk_enHtml {r k l : Bool} {base : Str} (hk : k = l ∨ (k = true ∧ l = false)) : ∀ (ds : List (Spec.EnBlock × Nat)) (N : Spec.Numbers) (B : Spec.Book),
    SkAll (Spec.enHtml t!"<br>" r k base N B ds) (Spec.enHtml t!"<br />" r l base N B ds)
  | [], _, _ => .nil
  | (x, n) :: ds, N, B => by
    refine SkAll.append ?_ (sk_enHtml hk ds _ _)
    cases x with
    | other x => exact .cons (sk_im hk x) .nil
    | para t => exact .cons (sk_el (sk_enText t _)) .nil
    | styled tag a t => exact .cons (sk_el (sk_enText t _)) .nil
    | define _ _ _ _ => exact .nil

theorem sk_enDoc {r k l : Bool} {base : Str} (hk : k = l ∨ (k = true ∧ l = false)) (d : Spec.EnDoc) :
    SameKind (d.html t!"<br>" r k base) (d.html t!"<br />" r l base) := by
  unfold Spec.EnDoc.html
  refine SkAll.glue (SkAll.append (sk_enHtml hk _ _ _) ?_)
  cases d.list with
  | none => exact .nil
  | some x => exact .cons (.same _) (sk_enHtml hk _ _ _)

/-- **C96, part**, for documents with endnotes as in C65. -/
theorem C96_endnotes_partial (E : Env) (hU : UniOk E.U) (fuel : Nat) (hf : 3 ≤ fuel) (cfg : Cfg) (base : Str)
    (hb : Spec.PlainBase base) (huid : cfg.uid = t!"textileRef:" ++ base ++ t!":") (hp : cfg.linkPrefix = base ++ t!"-")
    (hz : cfg.getSizes = false) (hno : cfg.noimage = false)
    (hbt : cfg.blockTags = true) (hsan : cfg.sanitizer = none) (hdep : 1 ≤ cfg.maxSpanDepth)
    (ok : Char → Prop) (hL : Lowers E.U ok) (ha : ∀ c, c.toNat < 128 → ok c)
    (d : Spec.EnDoc) (hok : d.Ok E.U.isLu E.U.isNd cfg.lite cfg.restricted)
    (hc : ∀ b ∈ d.blocks, ∀ c ∈ b.1.chars, ok c)
    (hres : ∀ b ∈ d.blocks, b.1.Resolved (Spec.Resolves E.urlParse E.urlJoin cfg.restricted) (Spec.Reads E.urlParse E.urlJoin) cfg.rel)
    (htok : ¬ cfg.uid <:+: d.source) (hn : d.marks < 2 ^ 31) :
    ∃ html5 xhtml, parseFresh E fuel { cfg with html5 := true } d.source = .ok html5 ∧
      parseFresh E fuel { cfg with html5 := false } d.source = .ok xhtml ∧ Spec.SameBut Spec.OtherKind html5 xhtml := by
  have h1 := C65_endnotes E hU fuel hf { cfg with html5 := true } base hb huid hp hz hno hbt hsan hdep ok hL ha d hok hc hres htok hn
  have h2 := C65_endnotes E hU fuel hf { cfg with html5 := false } base hb huid hp hz hno hbt hsan hdep ok hL ha d hok hc hres htok hn
  refine ⟨_, _, h1, h2, ?_⟩
  refine sk_enDoc ?_ d
  cases cfg.alignClass with
  | none => exact .inr ⟨rfl, rfl⟩
  | some k => exact .inl rfl

/-! ## Examples -/

/-- The document of C67, with an aligned image. -/
theorem C96_extended_ex : ∃ html5 xhtml, parseFresh demoEnv 3 { demoCfg with html5 := true } (Spec.exSource demoExDoc) = .ok html5 ∧
    parseFresh demoEnv 3 { demoCfg with html5 := false } (Spec.exSource demoExDoc) = .ok xhtml ∧ Spec.SameBut Spec.OtherKind html5 xhtml :=
  C96_extended_partial demoEnv UniOk.demo 3 (by decide) demoCfg t!"abc" plainBase_demo rfl rfl rfl rfl rfl rfl (by decide)
    _ demo_lowers (fun _ h => h) demoExDoc (by decide) demoEx_ok demoEx_ended (by decide +kernel) demoEx_res (by decide +kernel) (by decide)

/-- The document of C65, with line breaks and an image. -/
theorem C96_endnotes_ex : ∃ html5 xhtml, parseFresh demoEnv 3 { demoCfg with html5 := true } demoEnDoc.source = .ok html5 ∧
    parseFresh demoEnv 3 { demoCfg with html5 := false } demoEnDoc.source = .ok xhtml ∧ Spec.SameBut Spec.OtherKind html5 xhtml :=
  C96_endnotes_partial demoEnv UniOk.demo 3 (by decide) demoCfg t!"abc" plainBase_demo rfl rfl rfl rfl rfl rfl (by decide)
    _ demo_lowers (fun _ h => h) demoEnDoc demoEnDoc_ok (by decide +kernel) demoEnDoc_res (by decide +kernel) (by decide)

end Rustextile
